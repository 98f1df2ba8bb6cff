import Verif.Model.SemTool
import Verif.Props.FullDiff

/-! C182: a semantic diff tool decides about the functions that the engine finds different. -/

set_option autoImplicit false

namespace DK
open Spec

/-- The same settings with a semantic diff tool. -/
def Spec.withTool (env : FDEnv) (tool : Obj → Except PyErr Kind) : FDEnv := { env with semdiff := some tool }

/-- The same settings without a semantic diff tool. -/
def Spec.withoutTool (env : FDEnv) : FDEnv := { env with semdiff := none }

/-- **C182** as stated: if the tool shows everything it is asked about equal, no difference is reported. -/
def C182_statement : Prop :=
  ∀ (env : FDEnv) (tool : Obj → Except PyErr Kind) (f1 f2 : Str) (prev : Option Graph) (fuel : Nat) (st st' : FDState)
    (res : Res) (g : Graph), Enumerates env → env.full = false → (∀ o, tool o = .ok .equal) →
    functionsDiff (withTool env tool) f1 f2 prev fuel st = some (st', .ok res) → res.kind ≠ .error → res.graph = some g →
    AllDecided st'.heap g f1 f2 → ¬ ReportsDifference res

namespace SemToolEx
/-- `f` is different. -/
def heap : Heap
  | _ => { names := fun _ => str! "f", result := .notEqual, files := fun _ => some (str! "a.c") }
def env : FDEnv := { MacroEx.env with engine := fun _ _ _ _ => .ok (heap, FullEx.graph, []) }

theorem runs (side : Side) : reachableFrom heap FullEx.graph side (str! "f") = .ok ([0], []) := by
  have h1 : searchIter heap FullEx.graph side (some (str! "a.c")) 2 { visited := [], queue := [0], result := [0], bt := [] } =
      some (.ok { visited := [0], queue := [], result := [0], bt := [] }) := by
    cases side <;> rfl
  have h2 := searchLoop_of_iter h1
  unfold reachableFrom
  rw [show FullEx.graph.vertices.get? (str! "f") = some 0 from rfl]
  simp only
  rw [show (heap 0).files side = some (str! "a.c") from rfl, h2]

def obj : Obj :=
  ⟨{ name := str! "f", filename := some (str! "a.c") }, { name := str! "f", filename := some (str! "a.c") }, .notEqual⟩

theorem list : funPairList id heap FullEx.graph (str! "f") (str! "f") false = .ok { objs := [obj] } := by
  unfold funPairList
  rw [runs .left]
  simp only
  rw [runs .right]
  rfl

theorem plain : functionsDiff env (str! "f") (str! "f") none 1 LinkEx.state =
    some ({ LinkEx.state with heap := heap, curr := some FullEx.graph, engineRuns := 1 },
      .ok ((compareObjs env { objs := [obj] } (Res.new .none (str! "f") (str! "f")) [obj]).1.setGraph (some FullEx.graph))) := by
  have hl : engineLoop env (str! "f") none 1 { LinkEx.state with curr := none, engineRuns := 0 } =
      some ({ LinkEx.state with heap := heap, curr := some FullEx.graph, engineRuns := 1 }, .ok FullEx.graph) := rfl
  rw [functionsDiff_eval hl list]
  rfl

theorem asked (tool : Obj → Except PyErr Kind) : functionsDiff (withTool env tool) (str! "f") (str! "f") none 1 LinkEx.state =
    some ({ LinkEx.state with heap := heap, curr := some FullEx.graph, engineRuns := 1 },
      .ok ((compareObjs env { objs := [obj] } (Res.new .none (str! "f") (str! "f")) [obj]).1.setGraph (some FullEx.graph))) := by
  have hl : engineLoop (withTool env tool) (str! "f") none 1 { LinkEx.state with curr := none, engineRuns := 0 } =
      some ({ LinkEx.state with heap := heap, curr := some FullEx.graph, engineRuns := 1 }, .ok FullEx.graph) := rfl
  rw [functionsDiff_eval hl list]
  rfl
end SemToolEx

/-- **C182 (violated)** The tool is not asked about functions: a function found different by the engine is reported as
different, whatever the tool would say. -/
theorem C182_fails : ¬ C182_statement := by
  intro h
  refine h SemToolEx.env (fun _ => .ok .equal) _ _ _ _ _ _ _ FullEx.graph (fun _ => List.Perm.refl _) rfl (fun _ => rfl)
    (SemToolEx.asked _) (by decide) rfl (fun _ _ => Or.inr (Or.inr rfl)) ?_
  unfold ReportsDifference
  decide

theorem engineLoop_tool (env : FDEnv) (s : Option (Obj → Except PyErr Kind)) (f1 : Str) (prev : Option Graph) :
    ∀ (n : Nat) (st : FDState), engineLoop { env with semdiff := s } f1 prev n st = engineLoop env f1 prev n st
  | 0, _ => rfl
  | n + 1, st => by
    unfold engineLoop
    cases shortcut st.heap prev f1 with
    | some p => rfl
    | none =>
      simp only
      cases env.engine st.engineRuns (st.mods .left) (st.mods .right) st.heap with
      | error x => rfl
      | ok y =>
        simp only
        rw [show linkMissing { env with semdiff := s } = linkMissing env from rfl]
        split
        · exact engineLoop_tool env s f1 prev n _
        · rfl

theorem compareObjs_functions (env : FDEnv) (tool : Obj → Except PyErr Kind) (acc : PairAcc) : ∀ (os : List Obj) (r : Res),
    (∀ o ∈ os, o.first.kind = .function) → compareObjs (withTool env tool) acc r os = compareObjs (withoutTool env) acc r os
  | [], _, _ => rfl
  | o :: os, r, h => by
    have ih := fun r => compareObjs_functions env tool acc os r (fun o ho => h o (List.mem_cons_of_mem _ ho))
    have hk : objKind (withTool env tool) o = .ok o.kind := by
      unfold objKind withTool
      simp only
      rw [if_neg (not_not.2 (h o List.mem_cons_self))]
    have hk' : objKind (withoutTool env) o = .ok o.kind := rfl
    unfold compareObjs
    rw [hk, hk', show objDiff (withTool env tool) = objDiff (withoutTool env) from rfl]
    simp only
    cases objDiff (withoutTool env) acc o.kind o with
    | error x => rfl
    | ok d => simp only [ih]

theorem listed_kinds {enum : List Vid → List Vid} (henum : ∀ l, (enum l).Perm l) {h : Heap} {g : Graph} {f1 f2 : Str}
    {full : Bool} {acc : PairAcc} (hf : funPairList enum h g f1 f2 full = .ok acc) :
    (∀ o ∈ acc.objs, o.first.kind = .function ∨
      ∃ v, FoundOnBothSides h g f1 f2 v ∧ Interesting full (h v).result ∧ (h v).nonfunDiffs ≠ []) ∧
    (∀ v, FoundOnBothSides h g f1 f2 v → Interesting full (h v).result → ∀ d ∈ (h v).nonfunDiffs,
      ∃ o ∈ acc.objs, o.first.kind ≠ .function ∧ o.first.name = d.name ∧ o.second.name = d.name) := by
  have hf0 := hf
  unfold funPairList at hf0
  cases el : reachableFrom h g .left f1 with
  | error x => rw [el] at hf0; simp at hf0
  | ok a =>
  cases er : reachableFrom h g .right f2 with
  | error x => rw [el] at hf0; simp only at hf0; rw [er] at hf0; simp at hf0
  | ok b =>
  obtain ⟨rl, btL⟩ := a
  obtain ⟨rr, btR⟩ := b
  obtain ⟨s1, h1, _⟩ := C04_reported_is_reachable el
  obtain ⟨s2, h2, _⟩ := C04_reported_is_reachable er
  obtain ⟨order, cs, acc', q1, q2, q3, q4, q5, _⟩ :=
    C08_exactly_interesting_differences enum henum h g f1 f2 full s1 s2 rl rr btL btR h1 h2 el er
  rw [hf] at q1
  have q1 := Except.ok.inj q1
  subst q1
  rw [q5]
  constructor
  · intro o ho
    obtain ⟨v, hv, ho⟩ := List.mem_flatMap.1 ho
    obtain ⟨x, y, z⟩ := (q3 v).1 hv
    rw [List.mem_cons, List.mem_map] at ho
    rcases ho with rfl | ⟨d, hd, _⟩
    · exact Or.inl rfl
    · exact Or.inr ⟨v, ⟨rl, btL, rr, btR, el, er, x, y⟩, z, List.ne_nil_of_mem hd⟩
  · rintro v ⟨rl', btL', rr', btR', e1, e2, hv1, hv2⟩ hi d hd
    rw [el] at e1; cases e1
    rw [er] at e2; cases e2
    refine ⟨_, List.mem_flatMap.2 ⟨v, (q3 v).2 ⟨hv1, hv2, hi⟩, List.mem_cons_of_mem _ (List.mem_map.2 ⟨d, hd, rfl⟩)⟩, ?_⟩
    cases d <;> exact ⟨(by intro e; cases e), rfl, rfl⟩

/-- **C182 (partial)** If no difference other than in functions is recorded for the listed functions, the outcome of the
comparison is the same for all tools and without a tool. Missing: that the tool decides about functions (false). -/
theorem C182_functions_partial (env : FDEnv) (tool : Obj → Except PyErr Kind) (f1 f2 : Str) (prev : Option Graph) (fuel : Nat)
    (st st' : FDState) (res : Res) (g : Graph) (he : Enumerates env)
    (h : functionsDiff (withoutTool env) f1 f2 prev fuel st = some (st', .ok res)) (hk : res.kind ≠ .error)
    (hg : res.graph = some g)
    (hno : ∀ v, FoundOnBothSides st'.heap g f1 f2 v → Interesting env.full (st'.heap v).result → (st'.heap v).nonfunDiffs = []) :
    functionsDiff (withTool env tool) f1 f2 prev fuel st = some (st', .ok res) := by
  obtain ⟨st1, g', acc, hl, hf, hh, hg', _, _, _⟩ := functionsDiff_good h hk
  rw [hg] at hg'; cases hg'
  have hfun : ∀ o ∈ acc.objs, o.first.kind = .function := by
    intro o ho
    rcases (listed_kinds he hf).1 o ho with e | ⟨v, a, b, c⟩
    · exact e
    · exact absurd (hno v a b) c
  rw [hh] at hf
  rw [← h, functionsDiff_eval hl hf]
  have hl' : engineLoop (withTool env tool) f1 prev fuel { st with curr := none, engineRuns := 0 } = some (st1, .ok g) := by
    rw [← hl]
    exact (engineLoop_tool env _ f1 prev fuel _).trans (engineLoop_tool env none f1 prev fuel _).symm
  rw [functionsDiff_eval (env := withTool env tool) hl' hf, compareObjs_functions env tool acc _ _ hfun]

example : ∃ res, functionsDiff (withTool SemToolEx.env (fun _ => .ok .equal)) (str! "f") (str! "f") none 1 LinkEx.state =
    some ({ LinkEx.state with heap := SemToolEx.heap, curr := some FullEx.graph, engineRuns := 1 }, .ok res) ∧ res.kind = .notEqual :=
  ⟨_, C182_functions_partial SemToolEx.env _ _ _ _ _ _ _ _ FullEx.graph (fun _ => List.Perm.refl _) SemToolEx.plain (by decide) rfl
    (fun _ _ _ => rfl), by decide⟩

theorem compareObjs_kinds {env : FDEnv} {acc : PairAcc} : ∀ (os : List Obj) (r r' : Res),
    compareObjs env acc r os = (r', .ok ()) → ∀ o ∈ os, ∃ k, objKind env o = .ok k
  | [], _, _, _, _, ho => nomatch ho
  | o :: os, r, r', h, o', ho => by
    unfold compareObjs at h
    cases hk : objKind env o with
    | error x => rw [hk] at h; simp at h
    | ok k =>
      rw [hk] at h
      simp only at h
      rcases List.mem_cons.1 ho with rfl | ho
      · exact ⟨k, hk⟩
      · cases hd : objDiff env acc k o with
        | error x => rw [hd] at h; simp at h
        | ok d =>
          rw [hd] at h
          simp only at h
          split at h
          · exact compareObjs_kinds os _ _ h o' ho
          · exact compareObjs_kinds os _ _ h o' ho

/-- The first program has no function with this name, as far as the tool can see. -/
def Spec.NotAFunction (l : ToolInput) (n : Str) : Prop := ∀ fs, l = .module (some fs) → n ∉ fs

theorem semdiff_error (calledL calledR : Str → List Str) (solver : Str → Str → List Str → Kind) (l r : ToolInput) (o : Obj)
    (h : NotAFunction l o.first.name) : ∃ e, functionsSemdiff calledL calledR solver l r o = .error e := by
  unfold functionsSemdiff
  cases l with
  | text => exact ⟨_, rfl⟩
  | cleaned => exact ⟨_, rfl⟩
  | module fs =>
    cases fs with
    | none => exact ⟨_, rfl⟩
    | some fs =>
      have hn := h fs rfl
      simp only [functionsCalledBy, if_neg hn]
      cases r with
      | text => exact ⟨_, rfl⟩
      | cleaned => exact ⟨_, rfl⟩
      | module gs =>
        cases gs with
        | none => exact ⟨_, rfl⟩
        | some gs => exact ⟨.typeError, rfl⟩

/-- **C182 (partial)** If a difference in a macro, a type or an assembly is recorded for a function found on both sides and
the first program has no function with the name of that difference, the comparison with the tool never ends with a verdict
other than error: it raises an exception or the exception is turned into the verdict error. -/
theorem C182_exception_partial (env : FDEnv) (calledL calledR : Str → List Str) (solver : Str → Str → List Str → Kind)
    (l r : ToolInput) (f1 f2 : Str) (prev : Option Graph) (fuel : Nat) (st st' : FDState) (res : Res) (he : Enumerates env)
    (h : functionsDiff (withTool env (functionsSemdiff calledL calledR solver l r)) f1 f2 prev fuel st = some (st', .ok res))
    (hd : ∀ g, res.graph = some g → ∃ v, FoundOnBothSides st'.heap g f1 f2 v ∧ Interesting env.full (st'.heap v).result ∧
      ∃ d ∈ (st'.heap v).nonfunDiffs, NotAFunction l d.name) :
    res.kind = .error := by
  by_contra hk
  obtain ⟨st1, g, acc, _, hf, _, hg, _, _, hcase⟩ := functionsDiff_good h hk
  obtain ⟨v, hv, hi, d, hdm, hn⟩ := hd g hg
  obtain ⟨o, ho, hok, ho1, _⟩ := (listed_kinds he hf).2 v hv hi d hdm
  rcases hcase with ⟨hnil, _⟩ | ⟨_, r', hr, _⟩
  · rw [hnil] at ho; cases ho
  · obtain ⟨k, hk'⟩ := compareObjs_kinds _ _ _ hr o ho
    obtain ⟨e, he'⟩ := semdiff_error calledL calledR solver l r o (by rw [ho1]; exact hn)
    unfold objKind withTool at hk'
    simp only at hk'
    rw [if_pos hok, he'] at hk'
    cases hk'

/-- The macro `M` of the example: without the file written by the engine the tool cannot be asked, the verdict is error. -/
example : ∃ st' res, functionsDiff (withTool MacroEx.env (functionsSemdiff (fun _ => []) (fun _ => []) (fun _ _ _ => .equal)
    (.module none) (.module none))) (str! "f") (str! "f") none 1 LinkEx.state = some (st', .ok res) ∧ res.kind = .error := by
  have hl : engineLoop (withTool MacroEx.env (functionsSemdiff (fun _ => []) (fun _ => []) (fun _ _ _ => .equal)
      (.module none) (.module none))) (str! "f") none 1 { LinkEx.state with curr := none, engineRuns := 0 } =
      some ({ LinkEx.state with heap := MacroEx.heap, curr := some MacroEx.graph, engineRuns := 1 }, .ok MacroEx.graph) := rfl
  have h := functionsDiff_eval (env := withTool MacroEx.env _) hl MacroEx.list
  refine ⟨_, _, h, C182_exception_partial MacroEx.env _ _ _ _ _ _ _ _ _ _ _ _ (fun _ => List.Perm.refl _) h ?_⟩
  intro g hg
  have : g = MacroEx.graph := by cases hg; rfl
  subst this
  exact ⟨0, ⟨_, _, _, _, MacroEx.runs .left, MacroEx.runs .right, by simp, by simp⟩, by unfold Interesting; decide,
    MacroEx.dF, by simp [MacroEx.heap], fun fs e => nomatch e⟩

end DK
