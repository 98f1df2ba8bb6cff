import Verif.Spec.Passes
import Verif.Lemmas.Passes
import Mathlib.Data.List.Forall2

/-!
Analyses over modules: C48 (called functions), C49 (side effects), C47 (control-flow slicing).
-/

set_option autoImplicit false

namespace DK
open Spec

/-! ### C48 -/

theorem valueToFunction_mentions {m : CMod} : ∀ (n v f : Nat), valueToFunction m n v = some f →
    Mentions m v f
  | 0, _, _, h => by rw [valueToFunction] at h; cases h
  | n + 1, v, f, h => by
    rw [valueToFunction] at h
    cases hv : m.val v with
    | fn g => rw [hv] at h; cases h; exact .fn v f hv
    | bitcast o =>
      rw [hv] at h
      simp only at h
      cases ho : m.val o with
      | fn g => rw [ho] at h; cases h; exact .bitcast v o f hv (.fn o f ho)
      | _ => rw [ho] at h; cases h
    | aliasOf a => rw [hv] at h; exact .aliasOf v a f hv (valueToFunction_mentions n a f h)
    | _ => rw [hv] at h; cases h

theorem valueToFunction_only {m : CMod} : ∀ (n v f g : Nat), valueToFunction m n v = some f →
    Mentions m v g → g = f
  | 0, _, _, _, h, _ => by rw [valueToFunction] at h; cases h
  | n + 1, v, f, g, h, hm => by
    rw [valueToFunction] at h
    cases hm with
    | fn _ _ hv => rw [hv] at h; cases h; rfl
    | bitcast _ o _ hv ho =>
      rw [hv] at h
      simp only at h
      cases hv' : m.val o with
      | fn k =>
        rw [hv'] at h
        cases h
        cases ho with
        | fn _ _ h => rw [hv'] at h; cases h; rfl
        | bitcast _ _ _ h _ => rw [hv'] at h; cases h
        | aliasOf _ _ _ h _ => rw [hv'] at h; cases h
        | init _ _ _ h _ => rw [hv'] at h; cases h
        | const _ _ _ _ h _ _ => rw [hv'] at h; cases h
      | _ => rw [hv'] at h; cases h
    | aliasOf _ a _ hv ha => rw [hv] at h; exact valueToFunction_only n a f g h ha
    | init _ _ _ hv _ => rw [hv] at h; cases h
    | const _ _ _ _ hv _ _ => rw [hv] at h; cases h

/-- C48: the analysis returns exactly the functions that are potentially called from the main function
through calls, operands and constant initialisers. -/
theorem C48_exact (m : CMod) (hwf : CallsWf m) (n main : Nat) (r : List Nat)
    (h : calledFunctions m n main = some r) (f : Nat) : f ∈ r ↔ PotentiallyCalled m main f := by
  unfold calledFunctions at h
  cases hv : visit (callNext m) n (.fn main) [] with
  | none => rw [hv] at h; cases h
  | some seen =>
    rw [hv] at h
    cases h
    have hmem : ∀ f, f ∈ seen.filterMap (fun x => match x with | .fn f => some f | .val _ => none) ↔
        CNode.fn f ∈ seen := by
      intro f
      rw [List.mem_filterMap]
      constructor
      · rintro ⟨x, hx, he⟩
        cases x with
        | fn g => cases he; exact hx
        | val v => cases he
      · exact fun hx => ⟨_, hx, rfl⟩
    refine (hmem f).trans ?_
    have hr := visit_reach hv
    constructor
    · intro hf
      have hgood : ∀ x, Relation.ReflTransGen (fun a b => b ∈ callNext m a) (.fn main) x →
          match x with
          | .fn g => PotentiallyCalled m main g
          | .val v => ∀ g, Mentions m v g → PotentiallyCalled m main g := by
        intro x hx
        induction hx with
        | refl => exact .refl
        | @tail b c _ hbc ih =>
          cases b with
          | fn g =>
            simp only at ih
            rw [callNext, List.mem_flatMap] at hbc
            obtain ⟨i, hi, hc⟩ := hbc
            unfold instNext at hc
            rw [List.mem_append] at hc
            rcases hc with hc | hc
            · cases hcall : i.call with
              | none => rw [hcall] at hc; cases hc
              | some k =>
                rw [hcall] at hc
                simp only at hc
                cases hk : valueToFunction m (m.aliases + 1) k with
                | none => rw [hk] at hc; cases hc
                | some f' =>
                  rw [hk] at hc
                  simp only [List.mem_singleton] at hc
                  subst hc
                  exact .tail ih ⟨i, hi, k, hwf g i hi k hcall, valueToFunction_mentions _ _ _ hk⟩
            · rw [List.mem_map] at hc
              obtain ⟨o, ho, rfl⟩ := hc
              exact fun g' hm => .tail ih ⟨i, hi, o, ho, hm⟩
          | val v =>
            simp only at ih
            rw [callNext] at hbc
            unfold valueNext at hbc
            cases hk : valueToFunction m (m.aliases + 1) v with
            | some f' =>
              rw [hk] at hbc
              simp only [List.mem_singleton] at hbc
              subst hbc
              exact ih f' (valueToFunction_mentions _ _ _ hk)
            | none =>
              rw [hk] at hbc
              simp only at hbc
              cases hval : m.val v with
              | fn k => rw [hval] at hbc; cases hbc
              | bitcast o =>
                rw [hval] at hbc
                simp only [List.mem_singleton] at hbc
                subst hbc
                exact fun g hg => ih g (.bitcast v o g hval hg)
              | aliasOf a =>
                rw [hval] at hbc
                simp only [List.mem_singleton] at hbc
                subst hbc
                exact fun g hg => ih g (.aliasOf v a g hval hg)
              | gvar k i =>
                rw [hval] at hbc
                cases k with
                | false => cases hbc
                | true =>
                  cases i with
                  | none => cases hbc
                  | some i =>
                    simp only [List.mem_singleton] at hbc
                    subst hbc
                    exact fun g hg => ih g (.init v i g hval hg)
              | const ops =>
                rw [hval] at hbc
                simp only [List.mem_map] at hbc
                obtain ⟨o, ho, rfl⟩ := hbc
                exact fun g hg => ih g (.const v o g ops hval ho hg)
              | other => rw [hval] at hbc; cases hbc
      exact hgood _ ((hr _).1 hf)
    · intro hf
      rw [hr]
      have hval : ∀ v g, Mentions m v g → ∀ x, Relation.ReflTransGen (fun a b => b ∈ callNext m a) x
          (.val v) → Relation.ReflTransGen (fun a b => b ∈ callNext m a) x (.fn g) := by
        intro v g hm
        have hstep : ∀ v g, Mentions m v g → ∀ x, Relation.ReflTransGen (fun a b => b ∈ callNext m a) x
            (.val v) → Relation.ReflTransGen (fun a b => b ∈ callNext m a) x (.fn g) ∨
              valueToFunction m (m.aliases + 1) v = none := by
          intro v g hm x hx
          cases hk : valueToFunction m (m.aliases + 1) v with
          | none => exact Or.inr rfl
          | some f' =>
            cases valueToFunction_only _ _ _ _ hk hm
            refine Or.inl (.tail hx ?_)
            show CNode.fn g ∈ valueNext m v
            unfold valueNext
            rw [hk]
            simp
        induction hm with
        | fn v f hv =>
          intro x hx
          rcases hstep v f (.fn v f hv) x hx with h | h
          · exact h
          · rw [valueToFunction, hv] at h; cases h
        | bitcast v o f hv hm ih =>
          intro x hx
          rcases hstep v f (.bitcast v o f hv hm) x hx with h | h
          · exact h
          · refine ih x (.tail hx ?_)
            show CNode.val o ∈ valueNext m v
            unfold valueNext
            rw [h, hv]
            simp
        | aliasOf v a f hv hm ih =>
          intro x hx
          rcases hstep v f (.aliasOf v a f hv hm) x hx with h | h
          · exact h
          · refine ih x (.tail hx ?_)
            show CNode.val a ∈ valueNext m v
            unfold valueNext
            rw [h, hv]
            simp
        | init v i f hv hm ih =>
          intro x hx
          rcases hstep v f (.init v i f hv hm) x hx with h | h
          · exact h
          · refine ih x (.tail hx ?_)
            show CNode.val i ∈ valueNext m v
            unfold valueNext
            rw [h, hv]
            simp
        | const v o f ops hv ho hm ih =>
          intro x hx
          rcases hstep v f (.const v o f ops hv ho hm) x hx with h | h
          · exact h
          · refine ih x (.tail hx ?_)
            show CNode.val o ∈ valueNext m v
            unfold valueNext
            rw [h, hv]
            simpa using ho
      induction hf with
      | refl => exact .refl
      | @tail g k _ hgk ih =>
        obtain ⟨i, hi, o, ho, hm⟩ := hgk
        refine hval o k hm _ (.tail ih ?_)
        show CNode.val o ∈ (m.body g).flatMap (instNext m)
        exact List.mem_flatMap.2 ⟨i, hi, List.mem_append.2 (Or.inr (List.mem_map.2 ⟨o, ho, rfl⟩))⟩

theorem valueToFunction_mem {m : CMod} {F V : List Nat} (hfin : FiniteMod m F V) {f : Nat} :
    ∀ (n v : Nat), v ∈ V → valueToFunction m n v = some f → f ∈ F
  | 0, _, _, h => by rw [valueToFunction] at h; cases h
  | n + 1, v, hv, h => by
    rw [valueToFunction] at h
    obtain ⟨h1, h2, h3, _, _⟩ := hfin.2 v hv
    cases hval : m.val v with
    | fn g => rw [hval] at h; cases h; exact h1 _ hval
    | bitcast o =>
      rw [hval] at h
      simp only at h
      cases ho : m.val o with
      | fn g => rw [ho] at h; cases h; exact (hfin.2 o (h2 o hval)).1 _ ho
      | _ => rw [ho] at h; cases h
    | aliasOf a => rw [hval] at h; exact valueToFunction_mem hfin n a (h3 a hval) h
    | _ => rw [hval] at h; cases h

/-- C48: the analysis ends, also when functions, aliases and initialisers refer to each other. -/
theorem C48_ends (m : CMod) (hwf : CallsWf m) (F V : List Nat) (hfin : FiniteMod m F V) (main : Nat)
    (hm : main ∈ F) (n : Nat) (hn : F.length + V.length < n) :
    ∃ r, calledFunctions m n main = some r := by
  have hU : ∀ x ∈ F.map CNode.fn ++ V.map CNode.val, ∀ y ∈ callNext m x,
      y ∈ F.map CNode.fn ++ V.map CNode.val := by
    have hfn : ∀ f, f ∈ F → CNode.fn f ∈ F.map CNode.fn ++ V.map CNode.val := fun f h =>
      List.mem_append.2 (Or.inl (List.mem_map.2 ⟨f, h, rfl⟩))
    have hva : ∀ v, v ∈ V → CNode.val v ∈ F.map CNode.fn ++ V.map CNode.val := fun f h =>
      List.mem_append.2 (Or.inr (List.mem_map.2 ⟨f, h, rfl⟩))
    intro x hx y hy
    rcases List.mem_append.1 hx with hx | hx
    · obtain ⟨f, hf, rfl⟩ := List.mem_map.1 hx
      rw [callNext, List.mem_flatMap] at hy
      obtain ⟨i, hi, hy⟩ := hy
      unfold instNext at hy
      rcases List.mem_append.1 hy with hy | hy
      · cases hc : i.call with
        | none => rw [hc] at hy; cases hy
        | some c =>
          rw [hc] at hy
          simp only at hy
          cases hk : valueToFunction m (m.aliases + 1) c with
          | none => rw [hk] at hy; cases hy
          | some g =>
            rw [hk] at hy
            simp only [List.mem_singleton] at hy
            subst hy
            exact hfn g (valueToFunction_mem hfin _ _ (hfin.1 f hf i hi c (hwf f i hi c hc)) hk)
      · obtain ⟨o, ho, rfl⟩ := List.mem_map.1 hy
        exact hva o (hfin.1 f hf i hi o ho)
    · obtain ⟨v, hv, rfl⟩ := List.mem_map.1 hx
      obtain ⟨_, h2, h3, h4, h5⟩ := hfin.2 v hv
      rw [callNext] at hy
      unfold valueNext at hy
      cases hk : valueToFunction m (m.aliases + 1) v with
      | some g =>
        rw [hk] at hy
        simp only [List.mem_singleton] at hy
        subst hy
        exact hfn g (valueToFunction_mem hfin _ _ hv hk)
      | none =>
        rw [hk] at hy
        simp only at hy
        cases hval : m.val v with
        | fn k => rw [hval] at hy; cases hy
        | bitcast o =>
          rw [hval] at hy
          simp only [List.mem_singleton] at hy
          exact hy ▸ hva o (h2 o hval)
        | aliasOf a =>
          rw [hval] at hy
          simp only [List.mem_singleton] at hy
          exact hy ▸ hva a (h3 a hval)
        | gvar k i =>
          rw [hval] at hy
          cases k with
          | false => cases hy
          | true =>
            cases i with
            | none => cases hy
            | some i =>
              simp only [List.mem_singleton] at hy
              exact hy ▸ hva i (h4 true i hval)
        | const ops =>
          rw [hval] at hy
          obtain ⟨o, ho, rfl⟩ := List.mem_map.1 hy
          exact hva o (h5 ops hval o ho)
        | other => rw [hval] at hy; cases hy
  obtain ⟨s, hs⟩ := visit_ends hU n (.fn main) [] (List.mem_append.2 (Or.inl (List.mem_map.2
    ⟨main, hm, rfl⟩))) (Nat.lt_of_le_of_lt (unseen_length _ _) (by simpa using hn))
  exact ⟨_, by unfold calledFunctions; rw [hs]; rfl⟩

namespace PassesEx

/-- `main` (0) calls the alias (value 1) of function 1 and passes a constant table (value 3) that holds
a cast of function 2, whose body uses the table again; function 3 is only in a table that is not
constant. -/
def mod : CMod where
  val := fun v => match v with
    | 0 => .fn 1 | 1 => .aliasOf 0 | 2 => .gvar false (some 6) | 3 => .gvar true (some 4)
    | 4 => .const [5, 3] | 5 => .bitcast 7 | 6 => .fn 3 | 7 => .fn 2 | _ => .other
  body := fun f => match f with
    | 0 => [⟨some 1, [3, 1]⟩, ⟨none, [2]⟩] | 1 => [⟨none, [8]⟩] | 2 => [⟨none, [3]⟩] | _ => []
  aliases := 1

end PassesEx

/-- The hypotheses are met. -/
example : CallsWf PassesEx.mod ∧ FiniteMod PassesEx.mod [0, 1, 2, 3] [0, 1, 2, 3, 4, 5, 6, 7, 8] ∧
    calledFunctions PassesEx.mod 14 0 = some [2, 1, 0] := by
  refine ⟨?_, ⟨?_, ?_⟩, rfl⟩
  · intro f i hi c hc
    match f with
    | 0 =>
      simp only [PassesEx.mod, List.mem_cons, List.not_mem_nil, or_false] at hi
      rcases hi with rfl | rfl <;> simp_all
    | 1 => simp only [PassesEx.mod, List.mem_singleton] at hi; subst hi; cases hc
    | 2 => simp only [PassesEx.mod, List.mem_singleton] at hi; subst hi; cases hc
    | n + 3 => cases hi
  · decide
  · intro v hv
    simp only [List.mem_cons, List.not_mem_nil, or_false] at hv
    rcases hv with rfl | rfl | rfl | rfl | rfl | rfl | rfl | rfl | rfl <;>
      simp [PassesEx.mod]

/-! ### C49 -/

/-- C49: when the test says that a function has no side effect, no execution of it has one. -/
def C49_statement : Prop :=
  ∀ (m : Nat → EFun) (n f : Nat) (seen : List Nat), hasSideEffect m n f [] = some (false, seen) →
    NoEffect m f

/-- C49 does not hold: atomic read-modify-write instructions are not looked at. -/
theorem C49_fails : ¬ C49_statement := by
  intro h
  exact h (fun _ => .body [.rmw]) 1 0 [0] rfl [0] (.exec .rmw) [0] .start
    (.exec 0 [] [.rmw] .rmw rfl (by simp) rfl) trivial

/-- Nor are invokes. -/
theorem C49_fails_invoke : ¬ C49_statement := by
  intro h
  exact h (fun f => if f = 0 then .body [.invoke (some 1)] else .decl false) 1 0 [0] rfl [1, 0]
    (.unknown 1) [0] (.step [0] (.exec (.invoke (some 1))) [1, 0] .start
      (.call 0 1 [] [.invoke (some 1)] (.invoke (some 1)) rfl (by simp) rfl))
    (.unknown 1 [0] rfl) trivial

/-- A function was found without effect: nothing the test looks at, and its callees were found without
effect too. -/
def CleanIn (m : Nat → EFun) (seen : List Nat) (is : List EInst) : Prop :=
  EInst.store ∉ is ∧ EInst.call none ∉ is ∧
    ∀ g, EInst.call (some g) ∈ is → g ∈ seen ∨ m g = .decl true

theorem CleanIn.mono {m : Nat → EFun} {seen seen' : List Nat} {is : List EInst}
    (h : CleanIn m seen is) (hs : ∀ y ∈ seen, y ∈ seen') : CleanIn m seen' is :=
  ⟨h.1, h.2.1, fun g hg => (h.2.2 g hg).imp (hs g) id⟩

/-- What a test with the result false guarantees. -/
structure NoEff (m : Nat → EFun) (seen seen' : List Nat) : Prop where
  grow : ∀ y ∈ seen, y ∈ seen'
  clean : ∀ y ∈ seen', y ∉ seen → ∃ is, m y = .body is ∧ CleanIn m seen' is

theorem NoEff.trans {m : Nat → EFun} {a b c : List Nat} (h1 : NoEff m a b) (h2 : NoEff m b c) :
    NoEff m a c := by
  refine ⟨fun y hy => h2.grow y (h1.grow y hy), fun y hy hn => ?_⟩
  by_cases hb : y ∈ b
  · obtain ⟨is, hi, hc⟩ := h1.clean y hb hn
    exact ⟨is, hi, hc.mono h2.grow⟩
  · exact h2.clean y hy hb

theorem scanEffect_false {m : Nat → EFun} {rec : Nat → List Nat → Option (Bool × List Nat)}
    (hr : ∀ g s s', rec g s = some (false, s') → NoEff m s s' ∧ (g ∈ s' ∨ m g = .decl true)) :
    ∀ (is : List EInst) (seen seen' : List Nat), scanEffect rec is seen = some (false, seen') →
    NoEff m seen seen' ∧ CleanIn m seen' is
  | [], seen, seen', h => by
    rw [scanEffect] at h
    cases h
    exact ⟨⟨fun _ h => h, fun _ h h' => absurd h h'⟩, by simp [CleanIn]⟩
  | .store :: _, _, _, h => by rw [scanEffect] at h; cases h
  | .call none :: _, _, _, h => by rw [scanEffect] at h; cases h
  | .call (some g) :: is, seen, seen', h => by
    rw [scanEffect] at h
    split at h
    · rename_i hg
      obtain ⟨h1, h2⟩ := scanEffect_false hr is seen seen' h
      refine ⟨h1, by simpa using h2.1, by simpa using h2.2.1, fun k hk => ?_⟩
      rcases List.mem_cons.1 hk with hk | hk
      · cases hk; exact Or.inl (h1.grow _ hg)
      · exact h2.2.2 k hk
    · cases hrec : rec g seen with
      | none => rw [hrec] at h; cases h
      | some x =>
        obtain ⟨b, s⟩ := x
        rw [hrec] at h
        cases b with
        | true => cases h
        | false =>
          simp only at h
          obtain ⟨h1, hg⟩ := hr _ _ _ hrec
          obtain ⟨h2, h3⟩ := scanEffect_false hr is s seen' h
          refine ⟨h1.trans h2, by simpa using h3.1, by simpa using h3.2.1, fun k hk => ?_⟩
          rcases List.mem_cons.1 hk with hk | hk
          · cases hk; exact hg.imp (h2.grow _) id
          · exact h3.2.2 k hk
  | .invoke _ :: is, seen, seen', h => by
    rw [scanEffect] at h
    · obtain ⟨h1, h2⟩ := scanEffect_false hr is seen seen' h
      exact ⟨h1, by simpa using h2.1, by simpa using h2.2.1, fun k hk => h2.2.2 k (by simpa using hk)⟩
    all_goals simp
  | .rmw :: is, seen, seen', h => by
    rw [scanEffect] at h
    · obtain ⟨h1, h2⟩ := scanEffect_false hr is seen seen' h
      exact ⟨h1, by simpa using h2.1, by simpa using h2.2.1, fun k hk => h2.2.2 k (by simpa using hk)⟩
    all_goals simp
  | .other :: is, seen, seen', h => by
    rw [scanEffect] at h
    · obtain ⟨h1, h2⟩ := scanEffect_false hr is seen seen' h
      exact ⟨h1, by simpa using h2.1, by simpa using h2.2.1, fun k hk => h2.2.2 k (by simpa using hk)⟩
    all_goals simp

theorem hasSideEffect_false {m : Nat → EFun} : ∀ (n f : Nat) (seen seen' : List Nat),
    hasSideEffect m n f seen = some (false, seen') →
    NoEff m seen seen' ∧ (f ∈ seen' ∨ m f = .decl true)
  | 0, _, _, _, h => by rw [hasSideEffect] at h; cases h
  | n + 1, f, seen, seen', h => by
    rw [hasSideEffect] at h
    cases hf : m f with
    | decl b =>
      rw [hf] at h
      cases b with
      | false => cases h
      | true =>
        cases h
        exact ⟨⟨fun _ h => h, fun _ h h' => absurd h h'⟩, Or.inr rfl⟩
    | body is =>
      rw [hf] at h
      simp only at h
      obtain ⟨h1, h2⟩ := scanEffect_false (fun g s s' h => hasSideEffect_false n g s s' h) is _ _ h
      refine ⟨⟨fun y hy => h1.grow y (by simp [hy]), fun y hy hn => ?_⟩, Or.inl (h1.grow f (by simp))⟩
      by_cases hyf : y = f
      · subst hyf; exact ⟨is, hf, h2⟩
      · exact h1.clean y hy (by simp [hyf, hn])

/-- No function contains an invoke or an atomic read-modify-write instruction. -/
def PlainCode (m : Nat → EFun) : Prop :=
  ∀ f is, m f = .body is → EInst.rmw ∉ is ∧ ∀ g, EInst.invoke g ∉ is

/-- The part of C49 that holds: in programs without invokes and atomic read-modify-write instructions,
no execution of a function that passes the test has an effect. -/
theorem C49_noeffect_partial (m : Nat → EFun) (hm : PlainCode m) (n f : Nat) (seen : List Nat)
    (h : hasSideEffect m n f [] = some (false, seen)) : NoEffect m f := by
  obtain ⟨hn, hf⟩ := hasSideEffect_false n f [] seen h
  have hclean : ∀ g, (g ∈ seen ∨ m g = .decl true) → ∀ is, m g = .body is → CleanIn m seen is := by
    intro g hg is hi
    rcases hg with hg | hg
    · obtain ⟨is', hi', hc⟩ := hn.clean g hg (by simp)
      rw [hi] at hi'
      cases hi'
      exact hc
    · rw [hg] at hi; cases hi
  have hinv : ∀ st, Arises m f st → ∀ g ∈ st, g ∈ seen ∨ m g = .decl true := by
    intro st hst
    induction hst with
    | start => intro g hg; simp only [List.mem_singleton] at hg; exact hg ▸ hf
    | step st a st' _ hs ih =>
      cases hs with
      | exec => exact ih
      | ret => exact fun g hg => ih g (List.mem_cons_of_mem _ hg)
      | harmless => exact fun g hg => ih g (List.mem_cons_of_mem _ hg)
      | unknown => exact fun g hg => ih g (List.mem_cons_of_mem _ hg)
      | call k g st is i hb hi hc =>
        intro x hx
        rcases List.mem_cons.1 hx with rfl | hx
        · cases i with
          | call o =>
            simp only [EInst.callee] at hc
            subst hc
            exact (hclean k (ih k (by simp)) is hb).2.2 x hi
          | invoke o => exact absurd hi ((hm k is hb).2 o)
          | _ => cases hc
        · exact ih x hx
  intro st a st' ho hs ha
  cases hs with
  | exec k st is i hb hi hc =>
    have hk := hclean k (hinv _ ho k (by simp)) is hb
    cases i with
    | store => exact hk.1 hi
    | call o =>
      simp only [EInst.callee] at hc
      subst hc
      exact hk.2.1 hi
    | invoke o => exact (hm k is hb).2 o hi
    | rmw => exact (hm k is hb).1 hi
    | other => exact ha
  | call k g st is i hb hi hc =>
    cases i with
    | call o =>
      simp only [EInst.callee] at hc
      subst hc
      exact ha
    | invoke o => exact (hm k is hb).2 o hi
    | _ => cases hc
  | ret => exact ha
  | harmless => exact ha
  | unknown k st hb =>
    rcases hinv _ ho k (by simp) with h | h
    · obtain ⟨is, hi, _⟩ := hn.clean k h (by simp)
      rw [hb] at hi; cases hi
    · rw [hb] at h; cases h

theorem scanEffect_true {m : Nat → EFun} {rec : Nat → List Nat → Option (Bool × List Nat)}
    (hr : ∀ g s s', rec g s = some (true, s') → ¬ NoEffect m g) (f : Nat) (is0 : List EInst)
    (hf : m f = .body is0) : ∀ (is : List EInst) (seen seen' : List Nat), (∀ i ∈ is, i ∈ is0) →
    scanEffect rec is seen = some (true, seen') → ¬ NoEffect m f
  | [], _, _, _, h => by rw [scanEffect] at h; cases h
  | .store :: is, _, _, hsub, _ => fun hn =>
    hn [f] (.exec .store) [f] .start (.exec f [] is0 .store hf (hsub _ (by simp)) rfl) trivial
  | .call none :: is, _, _, hsub, _ => fun hn =>
    hn [f] (.exec (.call none)) [f] .start (.exec f [] is0 (.call none) hf (hsub _ (by simp)) rfl) trivial
  | .call (some g) :: is, seen, seen', hsub, h => by
    rw [scanEffect] at h
    split at h
    · exact scanEffect_true hr f is0 hf is seen seen' (fun i hi => hsub i (by simp [hi])) h
    · cases hrec : rec g seen with
      | none => rw [hrec] at h; cases h
      | some x =>
        obtain ⟨b, s⟩ := x
        rw [hrec] at h
        cases b with
        | false => exact scanEffect_true hr f is0 hf is s seen' (fun i hi => hsub i (by simp [hi])) h
        | true =>
          intro hn
          refine hr _ _ _ hrec ?_
          have hstep : Step m [f] (.exec (.call (some g))) [g, f] :=
            .call f g [] is0 (.call (some g)) hf (hsub _ (by simp)) rfl
          have hocc : ∀ st, Arises m g st → Arises m f (st ++ [f]) := by
            intro st hst
            induction hst with
            | start => exact .step _ _ _ .start hstep
            | step st a st' _ hs ih =>
              refine .step _ a _ ih ?_
              cases hs with
              | exec k st is i h1 h2 h3 => exact .exec k (st ++ [f]) is i h1 h2 h3
              | call k g' st is i h1 h2 h3 => exact .call k g' (st ++ [f]) is i h1 h2 h3
              | ret k _ is h1 => exact .ret k (_ ++ [f]) is h1
              | harmless k _ h1 => exact .harmless k (_ ++ [f]) h1
              | unknown k _ h1 => exact .unknown k (_ ++ [f]) h1
          intro st a st' ho hs
          refine hn (st ++ [f]) a (st' ++ [f]) (hocc st ho) ?_
          cases hs with
          | exec k st is i h1 h2 h3 => exact .exec k (st ++ [f]) is i h1 h2 h3
          | call k g' st is i h1 h2 h3 => exact .call k g' (st ++ [f]) is i h1 h2 h3
          | ret k _ is h1 => exact .ret k (_ ++ [f]) is h1
          | harmless k _ h1 => exact .harmless k (_ ++ [f]) h1
          | unknown k _ h1 => exact .unknown k (_ ++ [f]) h1
  | .invoke _ :: is, seen, seen', hsub, h => by
    rw [scanEffect] at h
    · exact scanEffect_true hr f is0 hf is seen seen' (fun i hi => hsub i (by simp [hi])) h
    all_goals simp
  | .rmw :: is, seen, seen', hsub, h => by
    rw [scanEffect] at h
    · exact scanEffect_true hr f is0 hf is seen seen' (fun i hi => hsub i (by simp [hi])) h
    all_goals simp
  | .other :: is, seen, seen', hsub, h => by
    rw [scanEffect] at h
    · exact scanEffect_true hr f is0 hf is seen seen' (fun i hi => hsub i (by simp [hi])) h
    all_goals simp

/-- Conversely, when the test says that there is a side effect, then some sequence of instructions (in
some order) has one: the test is not stricter than necessary without looking at values. -/
theorem C49_effect (m : Nat → EFun) : ∀ (n f : Nat) (seen seen' : List Nat),
    hasSideEffect m n f seen = some (true, seen') → ¬ NoEffect m f
  | 0, _, _, _, h => by rw [hasSideEffect] at h; cases h
  | n + 1, f, seen, seen', h => by
    rw [hasSideEffect] at h
    cases hf : m f with
    | decl b =>
      rw [hf] at h
      cases b with
      | true => cases h
      | false => exact fun hn => hn [f] (.unknown f) [] .start (.unknown f [] hf) trivial
    | body is =>
      rw [hf] at h
      exact scanEffect_true (fun g s s' h => C49_effect m n g s s' h) f is hf is _ _ (fun _ h => h) h

theorem scanEffect_ends {U : List Nat} {n : Nat}
    {rec : Nat → List Nat → Option (Bool × List Nat)}
    (hr : ∀ g ∈ U, ∀ s, g ∉ s → unseen U s < n → ∃ b s', rec g s = some (b, s') ∧ ∀ y ∈ s, y ∈ s') :
    ∀ (is : List EInst) (seen : List Nat), (∀ i ∈ is, ∀ g, EInst.callee i = some g → g ∈ U) →
    unseen U seen < n → ∃ b s', scanEffect rec is seen = some (b, s') ∧ ∀ y ∈ seen, y ∈ s'
  | [], seen, _, _ => ⟨_, _, rfl, fun _ h => h⟩
  | i :: is, seen, hU, hn => by
    have ih := scanEffect_ends hr is
    have hU' : ∀ i ∈ is, ∀ g, EInst.callee i = some g → g ∈ U := fun j hj => hU j (by simp [hj])
    cases i with
    | store => exact ⟨_, _, rfl, fun _ h => h⟩
    | call o =>
      cases o with
      | none => exact ⟨_, _, rfl, fun _ h => h⟩
      | some g =>
        rw [scanEffect]
        split
        · exact ih seen hU' hn
        · rename_i hg
          obtain ⟨b, s, h1, h2⟩ := hr g (hU (.call (some g)) (by simp) g rfl) seen hg hn
          rw [h1]
          cases b with
          | true => exact ⟨_, _, rfl, h2⟩
          | false =>
            obtain ⟨b', s', h3, h4⟩ := ih s hU' (Nat.lt_of_le_of_lt (unseen_le h2) hn)
            exact ⟨b', s', h3, fun y hy => h4 y (h2 y hy)⟩
    | invoke o =>
      rw [scanEffect]
      · exact ih seen hU' hn
      all_goals simp
    | rmw =>
      rw [scanEffect]
      · exact ih seen hU' hn
      all_goals simp
    | other =>
      rw [scanEffect]
      · exact ih seen hU' hn
      all_goals simp

theorem hasSideEffect_ends {m : Nat → EFun} {U : List Nat} (hU : FiniteCalls m U) : ∀ (n f : Nat),
    f ∈ U → ∀ seen, f ∉ seen → unseen U seen < n →
    ∃ b s', hasSideEffect m n f seen = some (b, s') ∧ ∀ y ∈ seen, y ∈ s'
  | 0, _, _, _, _, h => absurd h (Nat.not_lt_zero _)
  | n + 1, f, hf, seen, hs, h => by
    rw [hasSideEffect]
    cases hb : m f with
    | decl b => exact ⟨_, _, rfl, fun _ h => h⟩
    | body is =>
      have h1 := unseen_lt hf hs
      obtain ⟨b, s', h2, h3⟩ := scanEffect_ends (hasSideEffect_ends hU n) is (f :: seen) (hU f hf is hb)
        (by omega)
      exact ⟨b, s', h2, fun y hy => h3 y (by simp [hy])⟩

/-- C49: the test ends, also for recursive functions. -/
theorem C49_ends (m : Nat → EFun) (U : List Nat) (hU : FiniteCalls m U) (f : Nat) (hf : f ∈ U)
    (n : Nat) (hn : U.length < n) : ∃ b seen, hasSideEffect m n f [] = some (b, seen) := by
  obtain ⟨b, s, h, _⟩ := hasSideEffect_ends hU n f hf [] (by simp)
    (Nat.lt_of_le_of_lt (unseen_length _ _) hn)
  exact ⟨b, s, h⟩

namespace PassesEx

/-- Functions 0 and 1 call each other and a debugging intrinsic (2); 3 calls 1 and stores. -/
def effects : Nat → EFun
  | 0 => .body [.other, .call (some 1), .call (some 2)]
  | 1 => .body [.call (some 0), .other]
  | 2 => .decl true
  | 3 => .body [.call (some 1), .store]
  | _ => .decl false

end PassesEx

/-- The hypotheses are met. -/
example : PlainCode PassesEx.effects ∧ FiniteCalls PassesEx.effects [0, 1, 2, 3] ∧
    hasSideEffect PassesEx.effects 5 0 [] = some (false, [1, 0]) ∧
    hasSideEffect PassesEx.effects 5 3 [] = some (true, [0, 1, 3]) := by
  refine ⟨?_, ?_, rfl, rfl⟩
  · intro f is h
    match f with
    | 0 => cases h; simp
    | 1 => cases h; simp
    | 2 => cases h
    | 3 => cases h; simp
    | n + 4 => cases h
  · intro f hf is h
    simp only [List.mem_cons, List.not_mem_nil, or_false] at hf
    rcases hf with rfl | rfl | rfl | rfl
    · cases h; simp [EInst.callee]
    · cases h; simp [EInst.callee]
    · cases h
    · cases h; simp [EInst.callee]

/-! ### C47 -/

/-- C47: slicing to control flow gives a slice. -/
def C47_statement : Prop :=
  ∀ (f : SFun) (n : Nat) (bs : List (List SInst)), DistinctIds f → sliceControlFlow f n = some bs →
    IsSlice f bs

/-- C47 does not hold: a cast that follows an allocation is kept without its operands
(`addWithUsers`), so when it does not cast the result of the allocation, the value it casts is removed
and replaced by `undef`. -/
theorem C47_fails : ¬ C47_statement := by
  intro h
  have := (h ⟨[[⟨0, .other, []⟩, ⟨1, .call false true, []⟩, ⟨2, .bitcast, [.inst 0]⟩, ⟨3, .term, []⟩]],
    false⟩ 5 [[⟨1, .call false true, []⟩, ⟨2, .bitcast, [.other]⟩, ⟨3, .term, []⟩]]
    (show List.Nodup [0, 1, 2, 3] by decide) rfl).1
  rcases this with _ | ⟨hs, _⟩
  exact absurd (hs.subset (a := ⟨2, .bitcast, [.other]⟩) (by simp)) (by simp)

/-- Every operand of an instruction in the set is in the set, except for `c`. -/
def ClosedBut (f : SFun) (c : Nat) (dep : List Nat) : Prop :=
  ∀ y ∈ dep, ∀ z ∈ f.operands y, z ∈ dep ∨ z = c

/-- Every operand of an instruction in the set is in the set. -/
def ClosedDep (f : SFun) (dep : List Nat) : Prop := ∀ y ∈ dep, ∀ z ∈ f.operands y, z ∈ dep

theorem closedBut_visited {f : SFun} {c : Nat} {xs dep dep' : List Nat}
    (v : Visited f.operands xs dep dep') (h : ClosedBut f c dep) : ClosedBut f c dep' := by
  intro y hy z hz
  by_cases hd : y ∈ dep
  · exact (h y hd z hz).imp (v.grow z) id
  · exact Or.inl (v.closed y hy hd z hz)

theorem closedDep_visited {f : SFun} {xs dep dep' : List Nat}
    (v : Visited f.operands xs dep dep') (h : ClosedDep f dep) : ClosedDep f dep' := by
  intro y hy z hz
  by_cases hd : y ∈ dep
  · exact v.grow z (h y hd z hz)
  · exact v.closed y hy hd z hz

theorem addWithUsers_visited {f : SFun} {n i : Nat} {dep dep' : List Nat}
    (h : addWithUsers f n i dep = some dep') : Visited f.operands ((f.users i).map (·.id))
      (if i ∈ dep then dep else i :: dep) dep' := by
  unfold addWithUsers at h
  rw [← List.foldlM_map (f := fun u : SInst => u.id) (g := fun d u => addWithOperands f n u d)] at h
  exact visited_fold (fun s y s' h => visit_spec f.operands n y s s' h) _ _ _ h

theorem find_inst : ∀ (l : List SInst), (l.map (·.id)).Nodup → ∀ x ∈ l,
    l.find? (fun y => y.id == x.id) = some x
  | [], _, _, hx => absurd hx List.not_mem_nil
  | a :: l, hd, x, hx => by
    rw [List.find?_cons]
    rcases List.mem_cons.1 hx with rfl | hx
    · simp
    · simp only [List.map_cons, List.nodup_cons, List.mem_map] at hd
      have hne : (a.id == x.id) = false := by
        rw [beq_eq_false_iff_ne]
        exact fun h => hd.1 ⟨x, hx, h.symm⟩
      rw [hne]
      exact find_inst l hd.2 x hx

theorem operands_mem {f : SFun} (hd : DistinctIds f) {x : SInst} (hx : x ∈ f.insts) (j : Nat) :
    j ∈ f.operands x.id ↔ SOp.inst j ∈ x.ops := by
  unfold SFun.operands
  rw [find_inst f.insts hd x hx]
  simp only [List.mem_filterMap]
  constructor
  · rintro ⟨o, ho, he⟩
    cases o with
    | inst k => cases he; exact ho
    | _ => cases he
  · exact fun h => ⟨_, h, rfl⟩

theorem onlyStored_iff (f : SFun) (i : SInst) (a : Bool) (h : i.kind = .call true a) :
    isResultOnlyStored f i.id = true ↔ OnlyStored f i := by
  unfold isResultOnlyStored OnlyStored SFun.users
  simp only [Bool.and_eq_true, List.all_eq_true, List.mem_filter, decide_eq_true_eq, beq_iff_eq,
    Bool.not_eq_true', List.isEmpty_eq_false_iff_exists_mem]
  constructor
  · rintro ⟨h1, x, h2⟩
    exact ⟨⟨a, h⟩, ⟨x, h2⟩, fun u hu ho => h1 u ⟨hu, ho⟩⟩
  · rintro ⟨_, ⟨x, h2⟩, h3⟩
    exact ⟨fun u hu => h3 u hu.1 hu.2, x, h2⟩

theorem keepInst_essential {f : SFun} {i : SInst} (h : Essential f i) : keepInst f i = true := by
  unfold keepInst
  rcases h with h | ⟨⟨p, a, h⟩, hn⟩
  · rw [h]
  · rw [h]
    cases p with
    | false => rfl
    | true =>
      have : isResultOnlyStored f i.id = false := by
        cases hr : isResultOnlyStored f i.id with
        | false => rfl
        | true => exact absurd ((onlyStored_iff f i a h).1 hr) hn
      simp [this]

/-- Casts that follow an allocation cast its result. -/
def AllocOk (f : SFun) : Prop :=
  ∀ b ∈ f.blocks, ∀ pre i x post, b = pre ++ i :: x :: post → (∃ p, i.kind = .call p true) →
    x.kind = .bitcast → x.ops = [.inst i.id]

/-- What is known of a step of the loop. -/
structure SliceStep (f : SFun) (is : List SInst) (dep dep' : List Nat) : Prop where
  grow : ∀ y ∈ dep, y ∈ dep'
  keep : ∀ i ∈ is, keepInst f i = true → i.id ∈ dep'
  closed : DistinctIds f → AllocOk f → ClosedDep f dep → ClosedDep f dep'
  only : ∀ y ∈ dep', y ∈ dep ∨ ∃ r, SliceRoot f r ∧ Relation.ReflTransGen (UsesInst f) r y

theorem keepInst_root {f : SFun} {i : SInst} (hi : i ∈ f.insts) (h : keepInst f i = true) :
    SliceRoot f i.id := by
  refine Or.inl ⟨i, hi, rfl, ?_⟩
  unfold keepInst at h
  split at h
  · rename_i hk
    exact Or.inl (Or.inl hk)
  · rename_i p a hk
    refine Or.inl (Or.inr ⟨⟨p, a, hk⟩, fun ho => ?_⟩)
    obtain ⟨a', hk'⟩ := ho.1
    rw [(onlyStored_iff f i a' hk').2 ho] at h
    rw [hk] at hk'
    cases hk'
    cases h
  · simp only [Bool.and_eq_true, List.any_eq_true, beq_iff_eq] at h
    obtain ⟨⟨o, ho, rfl⟩, h2⟩ := h
    exact Or.inr ⟨ho, h2⟩

theorem uses_operands {f : SFun} {a b : Nat} (h : b ∈ f.operands a) : UsesInst f a b := by
  unfold SFun.operands at h
  cases hx : f.insts.find? (fun z => z.id == a) with
  | none => rw [hx] at h; cases h
  | some z =>
    rw [hx] at h
    obtain ⟨o, ho, he⟩ := List.mem_filterMap.1 h
    cases o with
    | inst k => cases he; exact ⟨z, List.mem_of_find?_eq_some hx, by simpa using List.find?_some hx, ho⟩
    | _ => cases he

theorem visited_only {f : SFun} {xs dep dep' : List Nat} (v : Visited f.operands xs dep dep')
    (hx : ∀ x ∈ xs, SliceRoot f x) : ∀ y ∈ dep', y ∈ dep ∨
      ∃ r, SliceRoot f r ∧ Relation.ReflTransGen (UsesInst f) r y := by
  intro y hy
  rcases v.from_ y hy with h | ⟨x, h, hr⟩
  · exact Or.inl h
  · exact Or.inr ⟨x, hx x h, Relation.ReflTransGen.mono (fun _ _ h => uses_operands h) _ _ hr⟩

theorem sliceBlock_step {f : SFun} {n : Nat} {b : List SInst} (hb : b ∈ f.blocks) :
    ∀ (is : List SInst) (dep dep' : List Nat) (pre : List SInst), b = pre ++ is →
    sliceBlock f n is dep = some dep' → SliceStep f is dep dep'
  | [], dep, dep', _, _, h => by
    rw [sliceBlock] at h
    cases h
    exact ⟨fun _ h => h, fun _ h => absurd h List.not_mem_nil, fun _ _ h => h, fun _ h => Or.inl h⟩
  | i :: is, dep, dep', pre, hpre, h => by
    have hin : ∀ x ∈ i :: is, x ∈ f.insts := fun x hx =>
      List.mem_flatten.2 ⟨b, hb, by rw [hpre]; exact List.mem_append.2 (Or.inr hx)⟩
    rw [sliceBlock] at h
    have key : ∃ d1, addAfterAlloc f n i is.head? dep = some d1 ∧ (∀ y ∈ dep, y ∈ d1) ∧
        (DistinctIds f → AllocOk f → ClosedDep f dep →
          ClosedDep f d1 ∨ (ClosedBut f i.id d1 ∧ keepInst f i = true)) ∧
        (∀ y ∈ d1, y ∈ dep ∨ ∃ r, SliceRoot f r ∧ Relation.ReflTransGen (UsesInst f) r y) ∧
        ((if keepInst f i then addWithOperands f n i.id d1 else some d1).bind fun d =>
            sliceBlock f n is d) = some dep' := by
      cases hm : addAfterAlloc f n i is.head? dep with
      | none => rw [hm] at h; cases h
      | some d1 =>
        rw [hm] at h
        refine ⟨d1, rfl, ?_, ?_, ?_, h⟩
        · unfold addAfterAlloc at hm
          split at hm
          · split at hm
            · have v := addWithUsers_visited hm
              intro y hy
              exact v.grow y (by split <;> simp [hy])
            · cases hm; exact fun _ h => h
          · cases hm; exact fun _ h => h
        · intro hdist hok hcl
          unfold addAfterAlloc at hm
          split at hm
          · rename_i p x hk hnext
            split at hm
            · rename_i hx
              have v := addWithUsers_visited hm
              cases is with
              | nil => cases hnext
              | cons x' is' =>
              cases hnext
              have hops := hok b hb pre i x is' hpre ⟨p, hk⟩ hx
              have hxin : x ∈ f.insts := hin x (by simp)
              have hmem := fun j => operands_mem hdist hxin j
              right
              constructor
              · refine closedBut_visited v ?_
                intro y hy z hz
                have hnew : y = x.id ∨ y ∈ dep := by
                  split at hy
                  · exact Or.inr hy
                  · exact List.mem_cons.1 hy
                have hsub : ∀ z, z ∈ dep → z ∈ (if x.id ∈ dep then dep else x.id :: dep) := by
                  intro z hz
                  split <;> simp [hz]
                rcases hnew with rfl | hy
                · right
                  rw [hmem, hops] at hz
                  simpa using hz
                · exact Or.inl (hsub z (hcl y hy z hz))
              · unfold keepInst
                rw [hk]
                have : isResultOnlyStored f i.id = false := by
                  unfold isResultOnlyStored SFun.users
                  have : (f.insts.filter fun y => .inst i.id ∈ y.ops).all
                      (fun u => u.kind == .store) = false := by
                    rw [List.all_eq_false]
                    exact ⟨x, by simp [List.mem_filter, hxin, hops], by rw [hx]; decide⟩
                  rw [this]; rfl
                simp [this]
            · cases hm; exact Or.inl hcl
          · cases hm; exact Or.inl hcl
        · unfold addAfterAlloc at hm
          split at hm
          · rename_i p x hk hnext
            split at hm
            · rename_i hx
              have v := addWithUsers_visited hm
              cases is with
              | nil => cases hnext
              | cons x' is' =>
              cases hnext
              have hroot : ∀ r, (x.id = r ∨ ∃ u ∈ f.insts, u.id = r ∧ SOp.inst x.id ∈ u.ops) →
                  SliceRoot f r := fun r hr => Or.inr ⟨b, hb, pre, i, x, is', hpre, ⟨p, hk⟩, hx, hr⟩
              intro y hy
              rcases visited_only v (fun z hz => by
                obtain ⟨u, hu, rfl⟩ := List.mem_map.1 hz
                have := List.mem_filter.1 hu
                exact hroot u.id (Or.inr ⟨u, this.1, rfl, by simpa using this.2⟩)) y hy with h | h
              · have hnew : y = x.id ∨ y ∈ dep := by
                  split at h
                  · exact Or.inr h
                  · exact List.mem_cons.1 h
                rcases hnew with rfl | h
                · exact Or.inr ⟨_, hroot _ (Or.inl rfl), .refl⟩
                · exact Or.inl h
              · exact Or.inr h
            · cases hm; exact fun _ h => Or.inl h
          · cases hm; exact fun _ h => Or.inl h
    obtain ⟨d1, -, hg1, hc1, ho1, h⟩ := key
    generalize ho : (if keepInst f i then addWithOperands f n i.id d1 else some d1) = o at h
    cases o with
    | none => cases h
    | some d2 =>
      have ih := sliceBlock_step hb is d2 dep' (pre ++ [i]) (by simp [hpre]) h
      split at ho
      · rename_i hk
        have v := visit_spec f.operands n i.id d1 d2 ho
        refine ⟨fun y hy => ih.grow y (v.grow y (hg1 y hy)), ?_, ?_, ?_⟩
        · intro x hx hkx
          rcases List.mem_cons.1 hx with rfl | hx
          · exact ih.grow _ (v.here _ (by simp))
          · exact ih.keep x hx hkx
        · intro h1 h2 h3
          refine ih.closed h1 h2 ?_
          rcases hc1 h1 h2 h3 with h4 | ⟨h4, _⟩
          · exact closedDep_visited v h4
          · intro y hy z hz
            rcases closedBut_visited v h4 y hy z hz with h | rfl
            · exact h
            · exact v.here _ (by simp)
        · intro y hy
          rcases ih.only y hy with h | h
          · rcases visited_only v (fun z hz => by
              simp only [List.mem_singleton] at hz
              exact hz ▸ keepInst_root (hin i (by simp)) hk) y h with h | h
            · exact ho1 y h
            · exact Or.inr h
          · exact Or.inr h
      · rename_i hk
        cases ho
        refine ⟨fun y hy => ih.grow y (hg1 y hy), ?_, ?_, fun y hy => (ih.only y hy).elim (ho1 y) Or.inr⟩
        · intro x hx hkx
          rcases List.mem_cons.1 hx with rfl | hx
          · exact absurd hkx hk
          · exact ih.keep x hx hkx
        · intro h1 h2 h3
          refine ih.closed h1 h2 ?_
          rcases hc1 h1 h2 h3 with h4 | ⟨_, h4⟩
          · exact h4
          · exact absurd h4 hk

theorem dependent_step {f : SFun} {n : Nat} {dep : List Nat} (h : dependentInsts f n = some dep) :
    SliceStep f f.insts [] dep := by
  unfold dependentInsts at h
  have : ∀ (bs : List (List SInst)) (d d' : List Nat), (∀ b ∈ bs, b ∈ f.blocks) →
      bs.foldlM (fun dep b => sliceBlock f n b dep) d = some d' → SliceStep f bs.flatten d d' := by
    intro bs
    induction bs with
    | nil =>
      intro d d' _ h
      cases h
      exact ⟨fun _ h => h, fun _ h => absurd h List.not_mem_nil, fun _ _ h => h, fun _ h => Or.inl h⟩
    | cons b bs ih =>
      intro d d' hsub h
      rw [List.foldlM_cons] at h
      cases h1 : sliceBlock f n b d with
      | none => rw [h1] at h; cases h
      | some d1 =>
        rw [h1] at h
        have s1 := sliceBlock_step (hsub b (by simp)) b d d1 [] rfl h1
        have s2 := ih d1 d' (fun b' hb' => hsub b' (by simp [hb'])) h
        refine ⟨fun y hy => s2.grow y (s1.grow y hy), ?_,
          fun h1 h2 h3 => s2.closed h1 h2 (s1.closed h1 h2 h3),
          fun y hy => (s2.only y hy).elim (s1.only y) Or.inr⟩
        intro i hi hk
        rw [List.flatten_cons, List.mem_append] at hi
        rcases hi with hi | hi
        · exact s2.grow _ (s1.keep i hi hk)
        · exact s2.keep i hi hk
  exact this f.blocks [] dep (fun _ h => h) h

/-- The part of C47 that holds: when casts that follow an allocation cast its result, slicing gives a
slice. -/
theorem C47_slice_partial (f : SFun) (n : Nat) (bs : List (List SInst)) (hd : DistinctIds f)
    (hok : AllocOk f) (h : sliceControlFlow f n = some bs) : IsSlice f bs := by
  unfold sliceControlFlow at h
  cases hdep : dependentInsts f n with
  | none => rw [hdep] at h; cases h
  | some dep =>
    rw [hdep] at h
    have st := dependent_step hdep
    have hcl : ClosedDep f dep := st.closed hd hok (fun y hy => absurd hy List.not_mem_nil)
    have hsame : ∀ i ∈ f.insts, i.id ∈ dep → ({ i with ops := i.ops.map fun o => match o with
        | .inst j => if j ∈ dep then .inst j else .other
        | o => o } : SInst) = i := by
      intro i hi hdi
      have : i.ops.map (fun o => match o with
          | .inst j => if j ∈ dep then .inst j else .other
          | o => o) = i.ops := by
        conv => rhs; rw [← List.map_id i.ops]
        refine List.map_congr_left fun o ho => ?_
        cases o with
        | inst j =>
          have : j ∈ dep := hcl i.id hdi j ((operands_mem hd hi j).2 ho)
          simp [this]
        | _ => rfl
      rw [this]
    have hblocks : bs = f.blocks.map fun b => b.filter fun i => i.id ∈ dep := by
      cases h
      refine List.map_congr_left fun b hb => ?_
      conv => rhs; rw [← List.map_id (b.filter fun i => i.id ∈ dep)]
      refine List.map_congr_left fun i hi => ?_
      rw [List.mem_filter] at hi
      exact hsame i (List.mem_flatten.2 ⟨b, hb, hi.1⟩) (by simpa using hi.2)
    clear h
    subst hblocks
    have hmem : ∀ i, i ∈ (f.blocks.map fun b => b.filter fun i => i.id ∈ dep).flatten ↔
        i ∈ f.insts ∧ i.id ∈ dep := by
      intro i
      unfold SFun.insts
      simp only [List.mem_flatten, List.mem_map]
      constructor
      · rintro ⟨_, ⟨b, hb, rfl⟩, hi⟩
        rw [List.mem_filter] at hi
        exact ⟨⟨b, hb, hi.1⟩, by simpa using hi.2⟩
      · rintro ⟨⟨b, hb, hi⟩, hdi⟩
        exact ⟨_, ⟨b, hb, rfl⟩, List.mem_filter.2 ⟨hi, by simpa using hdi⟩⟩
    refine ⟨?_, ?_, ?_⟩
    · rw [List.forall₂_map_left_iff]
      exact List.forall₂_same.2 fun b _ => List.filter_sublist
    · intro i hi j hj hx
      obtain ⟨x, hx, rfl⟩ := hx
      rw [hmem] at hi
      exact ⟨x, (hmem x).2 ⟨hx, hcl i.id hi.2 x.id ((operands_mem hd hi.1 x.id).2 hj)⟩, rfl⟩
    · intro i hi he
      exact (hmem i).2 ⟨hi, st.keep i hi (keepInst_essential he)⟩

/-- Also without this hypothesis the order is kept and so are all essential instructions (up to replaced
operands). -/
theorem C47_order (f : SFun) (n : Nat) (bs : List (List SInst)) (h : sliceControlFlow f n = some bs) :
    List.Forall₂ (fun b' b => (b'.map (fun i => (i.id, i.kind))).Sublist
        (b.map fun i => (i.id, i.kind))) bs f.blocks ∧
      ∀ i ∈ f.insts, Essential f i → ∃ x ∈ bs.flatten, x.id = i.id ∧ x.kind = i.kind := by
  unfold sliceControlFlow at h
  cases hdep : dependentInsts f n with
  | none => rw [hdep] at h; cases h
  | some dep =>
    rw [hdep] at h
    have st := dependent_step hdep
    cases h
    constructor
    · rw [List.forall₂_map_left_iff]
      refine List.forall₂_same.2 fun b _ => ?_
      rw [List.map_map]
      exact (List.filter_sublist (l := b)).map _
    · intro i hi he
      have hk := st.keep i hi (keepInst_essential he)
      obtain ⟨b, hb, hib⟩ := List.mem_flatten.1 hi
      refine ⟨_, List.mem_flatten.2 ⟨_, List.mem_map.2 ⟨b, hb, rfl⟩,
        List.mem_map.2 ⟨i, List.mem_filter.2 ⟨hib, by simpa using hk⟩, rfl⟩⟩, rfl, rfl⟩

/-- C47: nothing else is kept: every kept instruction is needed, directly or indirectly, by an essential
instruction, an instruction that passes on a function, or a cast after an allocation. -/
theorem C47_only (f : SFun) (n : Nat) (bs : List (List SInst)) (h : sliceControlFlow f n = some bs) :
    ∀ i ∈ bs.flatten, ∃ r, SliceRoot f r ∧ Relation.ReflTransGen (UsesInst f) r i.id := by
  unfold sliceControlFlow at h
  cases hdep : dependentInsts f n with
  | none => rw [hdep] at h; cases h
  | some dep =>
    rw [hdep] at h
    have st := dependent_step hdep
    cases h
    intro i hi
    obtain ⟨b', hb', hi⟩ := List.mem_flatten.1 hi
    obtain ⟨b, hb, rfl⟩ := List.mem_map.1 hb'
    obtain ⟨x, hx, rfl⟩ := List.mem_map.1 hi
    have := (List.mem_filter.1 hx).2
    rcases st.only x.id (by simpa using this) with h | h
    · cases h
    · exact h

/-- C47: slicing ends. -/
theorem C47_ends (f : SFun) : ∃ N, ∀ n, N < n → ∃ bs, sliceControlFlow f n = some bs := by
  let U := f.insts.flatMap fun x => x.id :: x.ops.filterMap
    fun o => match o with | .inst j => some j | _ => none
  have hU : ∀ x, ∀ y ∈ f.operands x, y ∈ U := by
    intro x y hy
    unfold SFun.operands at hy
    cases hx : f.insts.find? (fun z => z.id == x) with
    | none => rw [hx] at hy; cases hy
    | some z =>
      rw [hx] at hy
      exact List.mem_flatMap.2 ⟨z, List.mem_of_find?_eq_some hx, List.mem_cons_of_mem _ hy⟩
  have hid : ∀ x ∈ f.insts, x.id ∈ U := fun x hx => List.mem_flatMap.2 ⟨x, hx, by simp⟩
  refine ⟨U.length, fun n hn => ?_⟩
  have hv : ∀ x ∈ f.insts, ∀ dep, ∃ d, addWithOperands f n x.id dep = some d := fun x hx dep =>
    visit_ends (fun x _ => hU x) n x.id dep (hid x hx) (Nat.lt_of_le_of_lt (unseen_length _ _) hn)
  have hus : ∀ i dep, ∃ d, addWithUsers f n i dep = some d := by
    intro i dep
    unfold addWithUsers
    generalize (if i ∈ dep then dep else i :: dep) = d
    have hsub : ∀ u ∈ f.users i, u ∈ f.insts := fun u hu => (List.mem_filter.1 hu).1
    generalize f.users i = us at hsub
    induction us generalizing d with
    | nil => exact ⟨d, rfl⟩
    | cons u us ih =>
      rw [List.foldlM_cons]
      obtain ⟨d1, h1⟩ := hv u (hsub u (by simp)) d
      rw [h1]
      exact ih d1 (fun v hv => hsub v (by simp [hv]))
  have hb : ∀ (is : List SInst) (dep : List Nat), (∀ i ∈ is, i ∈ f.insts) →
      ∃ d, sliceBlock f n is dep = some d := by
    intro is
    induction is with
    | nil => intro dep _; exact ⟨dep, rfl⟩
    | cons i is ih =>
      intro dep hsub
      rw [sliceBlock]
      have h1 : ∃ d1, addAfterAlloc f n i is.head? dep = some d1 := by
        unfold addAfterAlloc
        split
        · split
          · exact hus _ _
          · exact ⟨_, rfl⟩
        · exact ⟨_, rfl⟩
      obtain ⟨d1, h1⟩ := h1
      have h2 : ∃ d2, (if keepInst f i then addWithOperands f n i.id d1 else some d1) = some d2 := by
        split
        · exact hv i (hsub i (by simp)) d1
        · exact ⟨_, rfl⟩
      obtain ⟨d2, h2⟩ := h2
      obtain ⟨d3, h3⟩ := ih d2 (fun x hx => hsub x (by simp [hx]))
      exact ⟨d3, by simp only [h1, Option.bind_some, h2, h3]⟩
  have hall : ∃ dep, dependentInsts f n = some dep := by
    unfold dependentInsts
    have hsub : ∀ b ∈ f.blocks, ∀ i ∈ b, i ∈ f.insts := fun b hb i hi => List.mem_flatten.2 ⟨b, hb, hi⟩
    generalize f.blocks = bs at hsub
    generalize ([] : List Nat) = d
    induction bs generalizing d with
    | nil => exact ⟨d, rfl⟩
    | cons b bs ih =>
      rw [List.foldlM_cons]
      obtain ⟨d1, h1⟩ := hb b d (hsub b (by simp))
      rw [h1]
      exact ih (fun b' hb' => hsub b' (by simp [hb'])) d1
  obtain ⟨dep, hdep⟩ := hall
  exact ⟨_, by unfold sliceControlFlow; rw [hdep]; rfl⟩

namespace PassesEx

/-- An allocation (1) with size 0 (removed is only instruction 4, a pure call whose result is only
stored by 5), followed by a cast and a store. -/
def slice : SFun :=
  ⟨[[⟨0, .other, []⟩, ⟨1, .call false true, [.inst 0, .fn]⟩, ⟨2, .bitcast, [.inst 1]⟩,
      ⟨3, .store, [.inst 2, .other]⟩, ⟨4, .call true false, [.fn]⟩, ⟨5, .store, [.inst 4, .other]⟩,
      ⟨6, .term, [.inst 0]⟩], [⟨7, .term, []⟩]], false⟩

end PassesEx

/-- The hypotheses are met. -/
example : DistinctIds PassesEx.slice ∧ AllocOk PassesEx.slice ∧
    (sliceControlFlow PassesEx.slice 10).map (fun bs => bs.map fun b => b.map (·.id)) =
      some [[0, 1, 2, 3, 6], [7]] := by
  refine ⟨show List.Nodup [0, 1, 2, 3, 4, 5, 6, 7] by decide, ?_, by decide⟩
  intro b hb pre i x post h hk hx
  simp only [PassesEx.slice, List.mem_cons, List.not_mem_nil, or_false] at hb
  rcases hb with rfl | rfl
  · rcases pre with _ | ⟨a, _ | ⟨a, pre⟩⟩
    · simp at h; obtain ⟨rfl, _⟩ := h; simp at hk
    · simp at h; obtain ⟨_, rfl, rfl, _⟩ := h; rfl
    · exfalso
      simp only [List.cons_append, List.cons.injEq] at h
      have hmem : x ∈ [(⟨3, .store, [.inst 2, .other]⟩ : SInst), ⟨4, .call true false, [.fn]⟩,
          ⟨5, .store, [.inst 4, .other]⟩, ⟨6, .term, [.inst 0]⟩] := by
        have h2 := congrArg List.tail h.2.2
        cases pre with
        | nil => simp at h2; rw [← h2.1]; simp
        | cons a pre => simp at h2; rw [h2]; simp
      simp only [List.mem_cons, List.not_mem_nil, or_false] at hmem
      rcases hmem with rfl | rfl | rfl | rfl <;> cases hx
  · cases pre <;> simp at h

end DK
