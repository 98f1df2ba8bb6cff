import Verif.Model.EngineOut

/-! What the recorded calls of a compared pair should be (C58). -/

set_option autoImplicit false

namespace DK.Spec

/-- `e` describes the calls of `e.target` recorded on side `s`: the line is the line of the first such call, and the call
is weak iff after it was recorded the callee was inlined (on this side) by a comparison ending with equality. -/
def RecordedCall (evs : List CallEvent) (s : Side) (file : Str) (e : Edge) : Prop :=
  e.file = file ∧ ∃ pre ev post, evs = pre ++ ev :: post ∧ ev.called s = some (e.target, e.line) ∧
    (∀ x ∈ pre, ∀ l, x.called s ≠ some (e.target, l)) ∧
    (e.weak = true ↔ ∃ x ∈ post, x.weakens s = some e.target)

end DK.Spec
