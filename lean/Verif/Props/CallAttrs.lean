import Verif.Spec.CallAttrs

/-! C192: copied calls and functions have the attributes of their arguments, and none at the result that do not fit. -/

set_option autoImplicit false

namespace DK
open Spec

private theorem fold_ret (ks : List AttrKind) (a : AttrList) (x : AttrVal) :
    (x ∈ (ks.foldl removeKind a).ret ↔ x ∈ a.ret ∧ x.kind ∉ ks) ∧ (x ∈ (ks.foldl removeKind a).fn ↔ x ∈ a.fn ∧ x.kind ∉ ks) ∧
      (ks.foldl removeKind a).args = a.args := by
  induction ks generalizing a with
  | nil => simp
  | cons k ks ih =>
    rw [List.foldl_cons]
    obtain ⟨h1, h2, h3⟩ := ih (removeKind a k)
    refine ⟨?_, ?_, h3⟩
    · rw [h1]
      simp only [removeKind, List.mem_filter, decide_eq_true_eq, List.mem_cons, not_or]
      tauto
    · rw [h2]
      simp only [removeKind, List.mem_filter, decide_eq_true_eq, List.mem_cons, not_or]
      tauto

/-- **C192** (false) If a call is replaced by one without result, the attributes of all arguments stay, and there are no
attributes at the result that do not fit. -/
def C192_statement : Prop :=
  ∀ (src dest : CallProps), ResultFits src.isVoid src.attrs →
    ResultFits dest.isVoid (copyCallProps src dest).attrs ∧ ∀ i, argAttrs (copyCallProps src dest).attrs i = argAttrs src.attrs i

/-- A call with two arguments, of which the second one is passed by value: this is lost. -/
theorem C192_fails : ¬ C192_statement := by
  intro h
  have := (h ⟨false, ⟨[], [], [[], [⟨.byVal, 1⟩]]⟩, 0, 0, false⟩ ⟨true, ⟨[], [], []⟩, 0, 0, false⟩ (by intro h; cases h)).2 1
  revert this
  decide

/-- A call whose result is marked as a defined value: the mark stays at the missing result. -/
theorem C192_fails_result : ¬ C192_statement := by
  intro h
  have := (h ⟨false, ⟨[⟨.noUndef, 0⟩], [], []⟩, 0, 0, false⟩ ⟨true, ⟨[], [], []⟩, 0, 0, false⟩ (by intro h; cases h)).1 rfl
    ⟨.noUndef, 0⟩ (by decide)
  exact this trivial

/-- **C192** (false) The same for the copy of a function. -/
def C192_function_statement : Prop :=
  ∀ (src dest : FunProps), ResultFits src.isVoid src.attrs →
    ResultFits dest.isVoid (copyFunProps src dest).attrs ∧ ∀ i, argAttrs (copyFunProps src dest).attrs i = argAttrs src.attrs i

/-- A function whose result is never a null pointer: its variant without result has this attribute, too. -/
theorem C192_fails_function : ¬ C192_function_statement := by
  intro h
  have := (h ⟨false, ⟨[⟨.nonNull, 0⟩], [], []⟩, 0, 0, []⟩ ⟨true, ⟨[], [], []⟩, 0, 0, []⟩ (by intro h; cases h)).1 rfl
    ⟨.nonNull, 0⟩ (by decide)
  exact this trivial

/-- **C192** Copied calls. Calling convention and place are those of the original call. Attributes stay, except that at the
result and the function of a call that loses its result those of the listed kinds are removed, and the attributes of
arguments are kept for the first one only. If the original call has none for the other ones, and at the result at most
attributes of the listed kinds besides those that fit, the copy has the attributes of all arguments, and fits.
Missing: attributes of other arguments, and other attributes that do not fit to a missing result. -/
theorem C192_call_partial (src dest : CallProps) :
    (copyCallProps src dest).conv = src.conv ∧ (copyCallProps src dest).loc = src.loc ∧
    (src.tail = true → (copyCallProps src dest).tail = true) ∧
    ((src.isVoid = true ∨ dest.isVoid = false) → (copyCallProps src dest).attrs = src.attrs) ∧
    (∀ x, x.kind ∉ badVoid → (x ∈ (copyCallProps src dest).attrs.ret ↔ x ∈ src.attrs.ret)) ∧
    (∀ x, x.kind ∉ badVoid → (x ∈ (copyCallProps src dest).attrs.fn ↔ x ∈ src.attrs.fn)) ∧
    argAttrs (copyCallProps src dest).attrs 0 = argAttrs src.attrs 0 ∧
    ((∀ i, 1 ≤ i → argAttrs src.attrs i = []) → ∀ i, argAttrs (copyCallProps src dest).attrs i = argAttrs src.attrs i) ∧
    (ResultFits src.isVoid src.attrs → (∀ x ∈ src.attrs.ret, x.kind ∈ [AttrKind.byVal, .inAlloca, .nest, .noAlias, .noCapture,
        .nonNull, .readNone, .readOnly, .sExt, .structRet, .zExt, .dereferenceable, .dereferenceableOrNull] ∨
        ¬ NeedsValue x.kind) → ResultFits dest.isVoid (copyCallProps src dest).attrs) := by
  have hk := fold_ret badVoid src.attrs
  by_cases hc : (!src.isVoid && dest.isVoid) = true
  · have ha : (copyCallProps src dest).attrs = cleanAttributes (badVoid.foldl removeKind src.attrs) := if_pos hc
    have hr : (copyCallProps src dest).attrs.ret = (badVoid.foldl removeKind src.attrs).ret := by rw [ha]; rfl
    have hf : (copyCallProps src dest).attrs.fn = (badVoid.foldl removeKind src.attrs).fn := by rw [ha]; rfl
    have hg : (copyCallProps src dest).attrs.args = src.attrs.args.take 1 := by
      rw [ha, cleanAttributes, (hk ⟨.noUndef, 0⟩).2.2]
    have hz : argAttrs (copyCallProps src dest).attrs 0 = argAttrs src.attrs 0 := by
      unfold argAttrs
      rw [hg]
      cases src.attrs.args <;> rfl
    refine ⟨rfl, rfl, fun h => if_pos h, ?_, ?_, ?_, hz, ?_, ?_⟩
    · intro h
      rw [Bool.and_eq_true, Bool.not_eq_true'] at hc
      rcases h with h | h
      · rw [h] at hc; cases hc.1
      · rw [h] at hc; cases hc.2
    · intro x hx
      rw [hr, (hk x).1]
      exact ⟨fun h => h.1, fun h => ⟨h, hx⟩⟩
    · intro x hx
      rw [hf, (hk x).2.1]
      exact ⟨fun h => h.1, fun h => ⟨h, hx⟩⟩
    · intro h i
      cases i with
      | zero => exact hz
      | succ i =>
        rw [h (i + 1) (by omega)]
        unfold argAttrs
        rw [hg]
        cases src.attrs.args <;> rfl
    · intro _ h _ x hx
      rw [hr, (hk x).1] at hx
      rcases h x hx.1 with h | h
      · exact absurd h hx.2
      · exact h
  · have ha : (copyCallProps src dest).attrs = src.attrs := if_neg hc
    rw [ha]
    refine ⟨rfl, rfl, fun h => if_pos h, fun _ => rfl, fun _ _ => Iff.rfl, fun _ _ => Iff.rfl, rfl, fun _ _ => rfl, ?_⟩
    intro hs _ hd x hx
    apply hs _ x hx
    cases h : src.isVoid with
    | true => rfl
    | false => rw [h, hd] at hc; exact absurd rfl hc

/-- **C192** Copied functions have exactly the attributes and properties of the original; so they fit if all of them fit to
a function without result. Missing: the other attributes at the result, which should be removed. -/
theorem C192_function_partial (src dest : FunProps) :
    (∀ i, argAttrs (copyFunProps src dest).attrs i = argAttrs src.attrs i) ∧ (copyFunProps src dest).attrs = src.attrs ∧
    (copyFunProps src dest).props = src.props ∧ (copyFunProps src dest).subprogram = src.subprogram ∧
    (copyFunProps src dest).argNames = src.argNames ∧
    (ResultFits true src.attrs → ResultFits dest.isVoid (copyFunProps src dest).attrs) :=
  ⟨fun _ => rfl, rfl, rfl, rfl, rfl, fun h _ => h rfl⟩

/-- A call with a result that is sign-extended, and one argument that is not captured. -/
example :
    copyCallProps ⟨false, ⟨[⟨.sExt, 0⟩, ⟨.other 7, 0⟩], [⟨.readOnly, 0⟩, ⟨.noReturn, 0⟩], [[⟨.noCapture, 0⟩]]⟩, 3, 5, true⟩
        ⟨true, ⟨[], [], []⟩, 0, 0, false⟩ =
      ⟨true, ⟨[⟨.other 7, 0⟩], [⟨.noReturn, 0⟩], [[⟨.noCapture, 0⟩]]⟩, 3, 5, true⟩ := by
  decide

end DK
