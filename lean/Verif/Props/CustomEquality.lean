import Verif.Lemmas.CustomNumbers
import Verif.Props.CustomPatterns

/-! Custom patterns: what two functions found equal have in common, and crashes of the comparison. -/

set_option autoImplicit false

namespace DK

open Spec

/-! ### C118: results of instructions found equal -/

/-- C118: where two functions are found equal, results of aligned instructions are used in the same places. -/
def C118_statement : Prop :=
  ∀ (E : CusEnv) (fuel : Nat) (aligned : List (Pos × Pos)) (s : CSt),
    E.compareEntry fuel = some (.equal aligned s) → ResultsAgree E.fnL E.fnR aligned

def exConst (s : Str) : CusVal := .const s false

/-- A pattern: the result of `f` becomes that of `g`. -/
def numOld : CusFun := ⟨str! "diffkemp.old.p", [], [[cpCall (str! "f") [], exRet [.inst 0 0]]]⟩
def numNew : CusFun := ⟨str! "diffkemp.new.p", [], [[cpCall (str! "g") [], exRet [.inst 0 0]]]⟩
/-- A pattern: a constant changes in calls of `h`. -/
def cstOld : CusFun := ⟨str! "diffkemp.old.q", [false], [[cpCall (str! "h") [.arg 0, exConst (str! "1")], exRet []]]⟩
def cstNew : CusFun := ⟨str! "diffkemp.new.q", [false], [[cpCall (str! "h") [.arg 0, exConst (str! "2")], exRet []]]⟩
def numFnL : CusFun := ⟨str! "fun", [], [[cpCall (str! "f") [], cpCall (str! "h") [.inst 0 0, exConst (str! "1")],
  cpCall (str! "k") [], cpCall (str! "use") [.inst 0 2], exRet []]]⟩
/-- Another result is used. -/
def numFnR : CusFun := ⟨str! "fun", [], [[cpCall (str! "g") [], cpCall (str! "h") [.inst 0 0, exConst (str! "2")],
  cpCall (str! "k") [], cpCall (str! "use") [.inst 0 0], exRet []]]⟩
def numEnv : CusEnv := ⟨numFnL, numFnR, [exPat numOld numNew, exPat cstOld cstNew], []⟩

/-- `undoLastInstCompare` erases the number of the result only. The first operand of the failed comparison keeps
a number that is given away once more, to the result of `k`. -/
theorem C118_fails : ¬ C118_statement := by
  intro h
  obtain ⟨s, hs, _⟩ := isEqual_iff (o := numEnv.compareEntry 20)
    (al := [((0, 2), (0, 2)), ((0, 3), (0, 3)), ((0, 4), (0, 4))])
    (log := [([((0, 0), (0, 0))], [((0, 0), (0, 0))]), ([((0, 0), (0, 1))], [((0, 0), (0, 1))])]) (by decide +kernel)
  have := h numEnv 20 _ s hs (0, 3) (0, 3) (by decide) (0, 2) (0, 0) ⟨_, _, rfl, rfl, 0, rfl, rfl⟩ (0, 2) (by decide)
  exact absurd this (by decide)

theorem getElem?_zip_mem {α β : Type} {l : List α} {m : List β} {k : Nat} {a : α} {b : β} (ha : l[k]? = some a)
    (hb : m[k]? = some b) : (a, b) ∈ l.zip m :=
  List.mem_of_getElem? (i := k) (by rw [List.getElem?_zip_eq_some]; exact ⟨ha, hb⟩)

theorem pairs_fun {ps : List (CusVal × CusVal)} (hn : (ps.map Prod.fst).Nodup) {a b b' : CusVal} (h : (a, b) ∈ ps)
    (h' : (a, b') ∈ ps) : b = b' := by
  induction ps with
  | nil => exact nomatch h
  | cons p t ih =>
    rw [List.map_cons, List.nodup_cons] at hn
    rcases List.mem_cons.1 h with e | e <;> rcases List.mem_cons.1 h' with e' | e'
    · rw [← e] at e'; exact (Prod.mk.inj e').2.symm
    · exact absurd (List.mem_map.2 ⟨_, e', by rw [← e]⟩) hn.1
    · exact absurd (List.mem_map.2 ⟨_, e, by rw [← e']⟩) hn.1
    · exact ih hn.2 e e'

/-- Without patterns, results of aligned instructions are used in the same places, in both directions. Missing:
functions compared with patterns (see `C118_fails`). -/
theorem C118_results_partial (E : CusEnv) (fuel : Nat) (aligned : List (Pos × Pos)) (s : CSt)
    (hi : E.insts = []) (hv : E.values = []) (h : E.compareEntry fuel = some (.equal aligned s)) :
    ResultsAgree E.fnL E.fnR aligned ∧ ResultsAgree E.fnR E.fnL (aligned.map fun p => (p.2, p.1)) := by
  obtain ⟨ps0, hb0⟩ := init_bal E
  obtain ⟨ps, hb, hal⟩ := cmpBlock_aligned hi hv 0 0 fuel 0 0 [] E.init ps0 hb0 (fun _ h => nomatch h) aligned s h
  have swap : (ps.map fun p => (p.2, p.1)).map Prod.fst = ps.map Prod.snd := by rw [List.map_map]; rfl
  constructor
  · intro pl pr hp l r ho r' hr'
    obtain ⟨il, ir, h1, h2, k, h3, h4⟩ := ho
    have e1 := (hal _ hp).2 il ir h1 h2 _ (getElem?_zip_mem h3 h4) rfl rfl
    have e2 := (hal _ hr').1
    have := CusVal.inst.inj (pairs_fun hb.nodupL e1 e2)
    exact Prod.ext this.1 this.2
  · intro pr pl hp r l ho l' hl'
    obtain ⟨ir, il, h1, h2, k, h3, h4⟩ := ho
    obtain ⟨x, hx, e⟩ := List.mem_map.1 hp
    cases e
    obtain ⟨y, hy, e⟩ := List.mem_map.1 hl'
    cases e
    have e1 := (hal _ hx).2 il ir h2 h1 _ (getElem?_zip_mem h4 h3) rfl rfl
    have e2 := (hal _ hy).1
    have := CusVal.inst.inj (pairs_fun (swap ▸ hb.nodupR) (List.mem_map.2 ⟨_, e1, rfl⟩) (List.mem_map.2 ⟨_, e2, rfl⟩))
    exact Prod.ext this.1 this.2

def plainFn : CusFun := ⟨str! "fun", [false], [[cpCall (str! "f") [.arg 0], cpCall (str! "g") [.arg 0],
  cpCall (str! "use") [.inst 0 1, .inst 0 0], exRet [.inst 0 2]]]⟩

example : ∃ s, (⟨plainFn, plainFn, [], []⟩ : CusEnv).compareEntry 20 =
    some (.equal [((0, 0), (0, 0)), ((0, 1), (0, 1)), ((0, 2), (0, 2)), ((0, 3), (0, 3))] s) := by
  obtain ⟨s, hs, _⟩ := isEqual_iff (o := (⟨plainFn, plainFn, [], []⟩ : CusEnv).compareEntry 20)
    (al := [((0, 0), (0, 0)), ((0, 1), (0, 1)), ((0, 2), (0, 2)), ((0, 3), (0, 3))]) (log := []) (by decide +kernel)
  exact ⟨s, hs⟩

/-! ### C116: value patterns -/

/-- C116: with value patterns only, functions found equal use results of instructions found equal, or values that
one of the patterns describes. -/
def C116_statement : Prop :=
  ∀ (E : CusEnv) (fuel : Nat) (aligned : List (Pos × Pos)) (s : CSt), E.insts = [] →
    E.compareEntry fuel = some (.equal aligned s) → OperandsExplained E aligned

/-- The value of `a` is returned. -/
def mixFnL : CusFun := ⟨str! "fun", [], [[exLoad (str! "a"), cpCall (str! "h") [], exRet [.inst 0 0]]]⟩
/-- The value of `d` is returned. -/
def mixFnR : CusFun := ⟨str! "fun", [], [[cpCall (str! "h") [], exLoad (str! "d"), exRet [.inst 0 1]]]⟩
/-- Value patterns: `a` becomes `b`, and `c` becomes `d`. -/
def mixEnv : CusEnv := ⟨mixFnL, mixFnR, [], [valPat (str! "a") (str! "b"), valPat (str! "c") (str! "d")]⟩

/-- A load that only one of the programs has at this place is skipped, and two skipped loads get the same number at
their first use. -/
theorem C116_fails : ¬ C116_statement := by
  intro h
  obtain ⟨s, hs, _⟩ := isEqual_iff (o := mixEnv.compareEntry 20)
    (al := [((0, 1), (0, 0)), ((0, 2), (0, 2))]) (log := []) (by decide +kernel)
  rcases h mixEnv 20 _ s rfl hs (0, 2) (0, 2) (by decide) (0, 0) (0, 1) ⟨_, _, rfl, rfl, 0, rfl, rfl⟩ rfl (by decide) rfl
    (by decide) with h | ⟨P, hP, hd⟩
  · exact absurd h (by decide)
  · have hd1 := hd.1
    have hd2 := hd.2
    have hP : P = valPat (str! "a") (str! "b") ∨ P = valPat (str! "c") (str! "d") := by
      simpa [mixEnv] using hP
    rcases hP with rfl | rfl
    · rcases hd2 with e | ⟨p, e, n, m, b, i, h1, h2, h3, h4, h5⟩
      · exact nomatch e
      · have hp1 : p.1 = 0 := (CusVal.inst.inj e).1.symm
        have hp2 : p.2 = 1 := (CusVal.inst.inj e).2.symm
        unfold InstAt at h2
        rw [hp1, hp2] at h2
        cases h2
        cases h1
        cases h4
        have := (C38_names.2.2.2 _ _).2 h5
        exact absurd this (by decide +kernel)
    · rcases hd1 with e | ⟨p, e, n, m, b, i, h1, h2, h3, h4, h5⟩
      · exact nomatch e
      · have hp1 : p.1 = 0 := (CusVal.inst.inj e).1.symm
        have hp2 : p.2 = 0 := (CusVal.inst.inj e).2.symm
        unfold InstAt at h2
        rw [hp1, hp2] at h2
        cases h2
        cases h1
        cases h4
        have := (C38_names.2.2.1 _ _).2 h5
        exact absurd this (by decide +kernel)

theorem cmpBlock_compared (E : CusEnv) (b b' fuel i j : Nat) (done : List (Pos × Pos)) (s : CSt)
    (hd : ∀ x ∈ done, ∃ s1 s2, E.cmpInst s1 x.1 x.2 = (true, s2)) (al : List (Pos × Pos)) (s' : CSt)
    (h : E.cmpBlock b b' fuel i j done s = some (.equal al s')) :
    ∀ x ∈ al, ∃ s1 s2, E.cmpInst s1 x.1 x.2 = (true, s2) := by
  induction fuel generalizing i j done s with
  | zero => exact nomatch h
  | succ n ih =>
    unfold CusEnv.cmpBlock at h
    dsimp only at h
    split at h
    · split at h
      · exact ih _ _ _ _ hd h
      · split at h
        · rename_i s1 heq
          refine ih _ _ _ _ ?_ h
          intro x hx'
          rcases List.mem_append.1 hx' with e | e
          · exact hd x e
          · rw [List.mem_singleton.1 e]; exact ⟨_, _, heq⟩
        · split at h
          · exact nomatch h
          · split at h
            · exact nomatch h
            · exact ih _ _ _ _ hd h
    · split at h
      · exact nomatch h
      · cases h; exact hd

theorem cmpArgs_compared (E : CusEnv) (l : List (CusVal × CusVal)) (s s' : CSt) (h : E.cmpArgs l s = (true, s')) :
    ∀ q ∈ l, ∃ s1 s2, E.cmpVal s1 q.1 q.2 = (true, s2) := by
  induction l generalizing s with
  | nil => intro q hq; exact nomatch hq
  | cons q t ih =>
    obtain ⟨a, b⟩ := q
    unfold CusEnv.cmpArgs at h
    split at h
    · rename_i s1 heq
      intro q hq
      rcases List.mem_cons.1 hq with e | e
      · subst e; exact ⟨_, _, heq⟩
      · exact ih _ h q e
    · exact nomatch h

theorem hasName_iff {v : CusVal} {n : Str} (h : v.hasName n = true) : ∃ b, v = .glob n b := by
  cases v with
  | glob m b => exact ⟨b, by rw [of_decide_eq_true h]⟩
  | _ => exact nomatch h

theorem matchLoad_loads {pre : Str} {isLeft : Bool} {F : CusFun} {p : Pos} {v : CusVal} {i : CusInst}
    (hpre : ∀ m n, namesMatch m n isLeft = true → NamesAgree pre m n)
    (hv : ∀ n b, v = .glob n b → ¬ NamesAgree pre [] n) (hi : F.instAt p.1 p.2 = some i)
    (h : matchLoad (some i) v isLeft = true) : LoadsOf pre F p v := by
  unfold matchLoad at h
  dsimp only at h
  split at h
  · rename_i hop
    split at h
    · rename_i n
      split at h
      · rename_i m b heq
        exact ⟨n, m, b, i, rfl, hi, hop, heq, hpre _ _ h⟩
      · exact absurd (hpre _ _ h) (hv n true rfl)
    · exact nomatch h
  · exact nomatch h

theorem valueMatches_true {pre : Str} {isLeft : Bool} {F : CusFun} {fn : Str} {v pat : CusVal}
    (hpre : ∀ m n, namesMatch m n isLeft = true → NamesAgree pre m n)
    (hv : ∀ n b, pat = .glob n b → n ≠ fn ∧ ¬ NamesAgree pre [] n) (h : valueMatches F fn v pat isLeft = some true) :
    v = pat ∨ ∃ p : Pos, v = .inst p.1 p.2 ∧ LoadsOf pre F p pat := by
  unfold valueMatches at h
  dsimp only at h
  split at h
  · rename_i i hi
    cases v with
    | inst b j =>
      split at h
      · exact Or.inr ⟨(b, j), rfl, matchLoad_loads hpre (fun n b e => (hv n b e).2) hi (Option.some.inj h)⟩
      · exact nomatch h
    | _ => exact nomatch hi
  · split at h
    · have h := Option.some.inj h
      simp only [Bool.and_eq_true] at h
      obtain ⟨b, e⟩ := hasName_iff h.2
      exact absurd rfl (hv _ _ e).1
    · split at h
      · split at h
        · have h := of_decide_eq_true (Option.some.inj h)
          rw [h.1, h.2]; exact Or.inl rfl
        · exact nomatch h
        · exact nomatch h
      · exact nomatch h

theorem matchValues_described (E : CusEnv) (s : CSt) (l r : CusVal) (V : List ValPat) (hV : ∀ P ∈ V, ProperNames P)
    (h : E.matchValues s l r V = some true) : ∃ P ∈ V, Described E.fnL E.fnR P l r := by
  induction V with
  | nil => exact nomatch h
  | cons P t ih =>
    have ih' := fun h => ih (fun P hP => hV P (List.mem_cons_of_mem _ hP)) h
    have rec' : E.matchValues s l r t = some true → ∃ Q ∈ P :: t, Described E.fnL E.fnR Q l r := fun h => by
      obtain ⟨Q, hQ, hd⟩ := ih' h
      exact ⟨Q, List.mem_cons_of_mem _ hQ, hd⟩
    unfold CusEnv.matchValues at h
    split at h
    · exact nomatch h
    · exact rec' h
    · rename_i hl
      split at h
      · exact nomatch h
      · exact rec' h
      · rename_i hr
        split at h
        · exact rec' h
        · have hp := hV P (List.mem_cons_self ..)
          exact ⟨P, List.mem_cons_self .., valueMatches_true (fun m n => (C38_names.2.2.1 m n).1) hp.1 hl,
            valueMatches_true (fun m n => (C38_names.2.2.2 m n).1) hp.2 hr⟩

theorem tryValues_described (E : CusEnv) (s s' : CSt) (l r : CusVal) (hV : ∀ P ∈ E.values, ProperNames P)
    (h : E.tryValues s l r = (true, s')) : ∃ P ∈ E.values, Described E.fnL E.fnR P l r := by
  unfold CusEnv.tryValues at h
  split at h
  · rename_i b hb
    have : b = true := (Prod.mk.inj h).1
    subst this
    exact matchValues_described E s l r _ hV hb
  · exact nomatch h

theorem constSame_iff {L R : CusFun} {l r : CusVal} (h : constSame l r = true) : SameConstant L R l r := by
  unfold constSame at h
  split at h
  · have := of_decide_eq_true h
    exact Or.inl ⟨_, _, rfl, by rw [this.1, this.2]⟩
  · have := of_decide_eq_true h
    exact Or.inr ⟨_, _, _, _, rfl, rfl, Or.inl ⟨_, (stem_iff _ _).2 rfl, (stem_iff _ _).2 this⟩⟩
  · exact nomatch h

/-- A constant operand of an instruction found equal to another one stands for the same constant, or both operands
are values of one of the value patterns. Missing: operands that are both results of instructions. These are
compared by their numbers (see `C116_fails`). -/
theorem C116_constants_partial (E : CusEnv) (fuel : Nat) (aligned : List (Pos × Pos)) (s : CSt)
    (hV : ∀ P ∈ E.values, ProperNames P) (h : E.compareEntry fuel = some (.equal aligned s)) :
    ∀ pl pr, (pl, pr) ∈ aligned → ∀ l r, OperandPair E.fnL E.fnR pl pr l r → (l.isConst = true ∨ r.isConst = true) →
      SameConstant E.fnL E.fnR l r ∨ ∃ P ∈ E.values, Described E.fnL E.fnR P l r := by
  intro pl pr hp l r ho hc
  obtain ⟨s1, s2, hi⟩ := cmpBlock_compared E 0 0 fuel 0 0 [] E.init (fun _ h => nomatch h) aligned s h _ hp
  obtain ⟨il, ir, h1, h2, k, h3, h4⟩ := ho
  have h1' : E.fnL.instAt pl.1 pl.2 = some il := h1
  have h2' : E.fnR.instAt pr.1 pr.2 = some ir := h2
  unfold CusEnv.cmpInst at hi
  dsimp only at hi
  rw [h1', h2'] at hi
  dsimp only at hi
  split at hi
  · exact nomatch hi
  · split at hi
    · exact nomatch hi
    · obtain ⟨s3, s4, hq⟩ := cmpArgs_compared E _ _ _ hi _ (getElem?_zip_mem h3 h4)
      dsimp only at hq
      unfold CusEnv.cmpVal at hq
      dsimp only at hq
      split at hq
      · split at hq
        · rename_i hs
          simp only [Bool.and_eq_true] at hs
          obtain ⟨b, e⟩ := hasName_iff hs.1
          obtain ⟨b', e'⟩ := hasName_iff hs.2
          exact Or.inl (Or.inr ⟨_, _, _, _, e, e', Or.inr ⟨rfl, rfl⟩⟩)
        · exact Or.inr (tryValues_described E _ _ l r hV hq)
      · split at hq
        · split at hq
          · rename_i hs
            exact Or.inl (constSame_iff hs)
          · exact Or.inr (tryValues_described E _ _ l r hV hq)
        · split at hq
          · exact Or.inr (tryValues_described E _ _ l r hV hq)
          · rename_i hn
            simp only [Bool.or_eq_true] at hn
            exact absurd hc hn

/-- A value pattern: the constant 1 becomes the constant 2. -/
def oneTwo : ValPat := ⟨str! "v", str! "diffkemp.old.v", str! "diffkemp.new.v", exConst (str! "1"), exConst (str! "2")⟩
def oneEnv : CusEnv := ⟨⟨str! "fun", [], [[exRet [exConst (str! "1")]]]⟩, ⟨str! "fun", [], [[exRet [exConst (str! "2")]]]⟩,
  [], [oneTwo]⟩

example : (∀ P ∈ oneEnv.values, ProperNames P) ∧ (∃ s, oneEnv.compareEntry 20 = some (.equal [((0, 0), (0, 0))] s)) ∧
    OperandPair oneEnv.fnL oneEnv.fnR (0, 0) (0, 0) (exConst (str! "1")) (exConst (str! "2")) := by
  refine ⟨?_, ?_, _, _, rfl, rfl, 0, rfl, rfl⟩
  · intro P hP
    cases List.mem_singleton.1 hP
    exact ⟨fun n v e => (nomatch e), fun n v e => (nomatch e)⟩
  · obtain ⟨s, hs, _⟩ := isEqual_iff (o := oneEnv.compareEntry 20) (al := [((0, 0), (0, 0))]) (log := []) (by decide +kernel)
    exact ⟨s, hs⟩

/-! ### C117: crashes -/

/-- C117: the comparison with value patterns does not crash. -/
def C117_statement : Prop :=
  ∀ (E : CusEnv) (fuel : Nat), (∀ P ∈ E.values, ProperNames P) → E.compareEntry fuel ≠ some .crash

/-- Functions that call `f` and `g`; the pattern is about other globals. -/
def crashEnv : CusEnv := ⟨⟨str! "fun", [], [[cpCall (str! "f") [], exRet []]]⟩, ⟨str! "fun", [], [[cpCall (str! "g") [], exRet []]]⟩,
  [], [valPat (str! "a") (str! "b")]⟩

theorem valPat_proper (a b : Str) (ha : namesMatch [] a true = false) (hb : namesMatch [] b false = false)
    (ha' : a ≠ str! "diffkemp.old.v") (hb' : b ≠ str! "diffkemp.new.v") : ProperNames (valPat a b) := by
  constructor
  · intro n v e
    cases e
    refine ⟨ha', fun h => ?_⟩
    rw [(C38_names.2.2.1 _ _).2 h] at ha
    exact nomatch ha
  · intro n v e
    cases e
    refine ⟨hb', fun h => ?_⟩
    rw [(C38_names.2.2.2 _ _).2 h] at hb
    exact nomatch hb

def isCrash : Option Outcome → Bool
  | some .crash => true
  | _ => false

theorem isCrash_iff {o : Option Outcome} (h : isCrash o = true) : o = some .crash := by
  unfold isCrash at h
  split at h
  · rfl
  · exact nomatch h

/-- Any call of different functions crashes the comparison if a value pattern is about variables. -/
theorem C117_fails : ¬ C117_statement := by
  intro h
  refine h crashEnv 20 ?_ (isCrash_iff (by decide +kernel))
  intro P hP
  cases List.mem_singleton.1 hP
  exact valPat_proper _ _ (by decide +kernel) (by decide +kernel) (by decide) (by decide)

theorem valueMatches_isSome {F : CusFun} {fn : Str} {v pat : CusVal} {isLeft : Bool} (hp : ∀ n b, pat ≠ .glob n b) :
    valueMatches F fn v pat isLeft ≠ none := by
  unfold valueMatches
  dsimp only
  split
  · split <;> exact fun h => nomatch h
  · split
    · exact fun h => nomatch h
    · split
      · split
        · exact fun h => nomatch h
        · exact absurd rfl (hp _ _)
        · exact fun h => nomatch h
      · exact fun h => nomatch h

theorem matchValues_isSome (E : CusEnv) (s : CSt) (l r : CusVal) (V : List ValPat)
    (hV : ∀ P ∈ V, (∀ n b, P.valL ≠ .glob n b) ∧ ∀ n b, P.valR ≠ .glob n b) : E.matchValues s l r V ≠ none := by
  induction V with
  | nil => exact fun h => nomatch h
  | cons P t ih =>
    have ih' := ih fun P hP => hV P (List.mem_cons_of_mem _ hP)
    have hp := hV P (List.mem_cons_self ..)
    unfold CusEnv.matchValues
    split
    · rename_i h; exact absurd h (valueMatches_isSome hp.1)
    · exact ih'
    · split
      · rename_i h; exact absurd h (valueMatches_isSome hp.2)
      · exact ih'
      · split
        · exact ih'
        · exact fun h => nomatch h

section
variable {E : CusEnv} (hV : ∀ P ∈ E.values, (∀ n b, P.valL ≠ .glob n b) ∧ ∀ n b, P.valR ≠ .glob n b)
include hV

theorem tryValues_crash (s : CSt) (l r : CusVal) : (E.tryValues s l r).2.crash = s.crash := by
  unfold CusEnv.tryValues
  split
  · rfl
  · rename_i h; exact absurd h (matchValues_isSome E s l r _ hV)

theorem cmpVal_crash (s : CSt) (l r : CusVal) : (E.cmpVal s l r).2.crash = s.crash := by
  have ht := fun s' => tryValues_crash hV s' l r
  unfold CusEnv.cmpVal
  dsimp only
  repeat' split
  all_goals first | rfl | exact ht _

theorem cmpArgs_crash (l : List (CusVal × CusVal)) (s : CSt) : (E.cmpArgs l s).2.crash = s.crash := by
  induction l generalizing s with
  | nil => rfl
  | cons q t ih =>
    obtain ⟨a, b⟩ := q
    have hc := cmpVal_crash hV s a b
    unfold CusEnv.cmpArgs
    split
    · rename_i s1 heq
      rw [heq] at hc
      rw [ih]; exact hc
    · rename_i s1 heq
      rw [heq] at hc
      exact hc

theorem cmpInst_crash (s : CSt) (pl pr : Pos) : (E.cmpInst s pl pr).2.crash = s.crash := by
  have hc := cmpVal_crash hV s (.inst pl.1 pl.2) (.inst pr.1 pr.2)
  unfold CusEnv.cmpInst
  split
  · split
    · rename_i s1 heq
      rw [heq] at hc; exact hc
    · rename_i s1 heq
      rw [heq] at hc
      split
      · exact hc
      · rw [cmpArgs_crash hV]; exact hc
  · rfl
end

theorem createMapping_crash (l : List (Ref × Ref)) (s : CSt) : (createMapping l s).crash = s.crash := by
  induction l generalizing s with
  | nil => rfl
  | cons q t ih =>
    obtain ⟨a, b⟩ := q
    unfold createMapping
    split <;> rw [ih]

theorem matchValue_crash (E : CusEnv) (pl pr : Pos) (s s' : CSt) (l : List ValPat) (h : E.matchValue pl pr s l = some s') :
    s'.crash = s.crash := by
  induction l with
  | nil => exact nomatch h
  | cons P t ih =>
    unfold CusEnv.matchValue at h
    dsimp only at h
    split at h
    · cases h; rfl
    · exact ih h

theorem matchPattern_crash (E : CusEnv) (pl pr : Pos) (s s' : CSt) (h : E.matchPattern pl pr s = some s') :
    s'.crash = s.crash := by
  unfold CusEnv.matchPattern at h
  split at h
  · rename_i s1 heq
    cases h
    obtain ⟨P, _, bl, br, cl, cr, _, e⟩ := matchInst_some E pl pr s _ _ heq
    rw [e]; rfl
  · exact matchValue_crash E pl pr s s' _ h

/-- The comparison does not crash if no value of a value pattern is global. Missing: value patterns of globals (see
`C117_fails`). -/
theorem C117_constants_partial (E : CusEnv) (fuel : Nat)
    (hV : ∀ P ∈ E.values, (∀ n b, P.valL ≠ .glob n b) ∧ ∀ n b, P.valR ≠ .glob n b) :
    E.compareEntry fuel ≠ some .crash := by
  have key : ∀ fuel i j done s, s.crash = false → E.cmpBlock 0 0 fuel i j done s ≠ some .crash := by
    intro fuel
    induction fuel with
    | zero => intro i j done s _ h; exact nomatch h
    | succ n ih =>
      intro i j done s hs
      unfold CusEnv.cmpBlock
      dsimp only
      split
      · split
        · exact ih _ _ _ _ hs
        · have hc := cmpInst_crash hV s (0, i) (0, j)
          split
          · rename_i s1 heq
            rw [heq] at hc
            exact ih _ _ _ _ (hc.trans hs)
          · rename_i s1 heq
            rw [heq] at hc
            have hc : s1.crash = false := hc.trans hs
            rw [hc]
            simp only [Bool.false_eq_true, if_false]
            split
            · exact fun h => nomatch h
            · rename_i s2 heq2
              refine ih _ _ _ _ ?_
              rw [createMapping_crash]
              exact (matchPattern_crash E _ _ _ _ heq2).trans hc
      · split
        · exact fun h => nomatch h
        · exact fun h => nomatch h
  exact key fuel 0 0 [] E.init rfl

example : ∀ P ∈ oneEnv.values, (∀ n b, P.valL ≠ .glob n b) ∧ ∀ n b, P.valR ≠ .glob n b := by
  intro P hP
  cases List.mem_singleton.1 hP
  exact ⟨fun n b e => (nomatch e), fun n b e => (nomatch e)⟩

end DK
