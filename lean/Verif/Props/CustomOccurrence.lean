import Verif.Props.CustomEquality

/-! Custom patterns: occurrences that are found. -/

set_option autoImplicit false

namespace DK

open Spec

/-- C114: code of a pattern that occurs in a block of a program is found, from the place of its first instruction. -/
def C114_statement : Prop :=
  ∀ (M P : CusFun) (isLeft : Bool) (b : Nat) (pos : Nat → Nat) (τ : CusVal → CusVal), SimplePattern P →
    CodeOccurs (sidePrefix isLeft) M P b pos τ → ((⟨M, initSide P, isLeft⟩ : PEnv).compare (b, pos 0)).1 = true

/-- A pattern: the result of `f` is given to `g`. -/
def seqPat : CusFun := ⟨str! "diffkemp.old.p", [false],
  [[{ cpCall (str! "f") [.arg 0] with md := exStart }, cpCall (str! "g") [.inst 0 0], exRet []]]⟩
/-- Another call of `g` comes in between. -/
def seqFn : CusFun := ⟨str! "fun", [false, false],
  [[cpCall (str! "f") [.arg 0], cpCall (str! "g") [.arg 1], cpCall (str! "g") [.inst 0 0], exRet []]]⟩

theorem seqPat_simple : SimplePattern seqPat := by
  refine ⟨_, [cpCall (str! "g") [.inst 0 0]], exRet [], rfl, rfl, ?_, rfl, rfl, ?_⟩ <;> decide

theorem used_seqPat {v : CusVal} (h : UsedValue seqPat v) :
    v = .blk 0 ∨ v = .arg 0 ∨ v = .glob (str! "f") false ∨ v = .inst 0 0 ∨ v = .glob (str! "g") false ∨ v = .inst 0 1 := by
  rcases h with h | ⟨k, i, hk, hi, hv⟩
  · exact Or.inl h
  · match k with
    | 0 =>
      cases hi
      rcases hv with hv | hv
      · simp [cpCall] at hv
        rcases hv with e | e <;> simp [e]
      · simp [hv]
    | 1 =>
      cases hi
      rcases hv with hv | hv
      · simp [cpCall] at hv
        rcases hv with e | e <;> simp [e]
      · simp [hv]
    | k + 2 =>
      exact absurd hk (by show ¬ k + 2 + 1 < 3; omega)

/-- The values of the program for those of `seqPat`, if the second call is at place `j`. -/
def seqVal (j : Nat) : CusVal → CusVal
  | .inst 0 1 => .inst 0 j
  | v => v

theorem seq_occurs (M : CusFun) (pos : Nat → Nat) (hpos : ∀ k l, k < l → pos k < pos l) (h0 : pos 0 = 0)
    (hM : M.name = str! "fun") (hl : pos 1 + 1 < (M.blocks.getD 0 []).length)
    (h1 : InstAt M (0, 0) (cpCall (str! "f") [.arg 0])) (h2 : InstAt M (0, pos 1) (cpCall (str! "g") [.inst 0 0])) :
    CodeOccurs (sidePrefix true) M seqPat 0 pos (seqVal (pos 1)) := by
  have hlt := hpos 0 1 (by omega)
  refine ⟨hpos, rfl, ?_, ?_, ?_⟩
  · intro v hv
    rcases used_seqPat hv with e | e | e | e | e | e <;> subst e <;> first
      | rfl
      | exact ⟨_, _, rfl, (C38_names.2.2.1 _ _).1 (by decide +kernel), by rw [hM]; decide, by decide⟩
  · intro v w hv hw e
    rcases used_seqPat hv with e1 | e1 | e1 | e1 | e1 | e1 <;> rcases used_seqPat hw with e2 | e2 | e2 | e2 | e2 | e2 <;>
      subst e1 <;> subst e2 <;> simp_all [seqVal]
    all_goals omega
  · intro k hk
    have hk : k + 1 < 3 := hk
    match k with
    | 0 =>
      refine ⟨by omega, by rw [h0]; rfl, _, cpCall (str! "f") [.arg 0], rfl, by rw [h0]; exact h1, rfl, rfl⟩
    | 1 => exact ⟨hl, rfl, _, _, rfl, h2, rfl, rfl⟩
    | k + 2 => omega

/-- The failed comparison with the first call of `g` leaves the number of its operand behind. -/
theorem C114_fails : ¬ C114_statement := by
  intro h
  have := h seqFn seqPat true 0 (fun k => 2 * k) (seqVal 2) seqPat_simple
    (seq_occurs seqFn (fun k => 2 * k) (fun k l h => by omega) rfl rfl (by decide) rfl rfl)
  exact absurd this (by decide +kernel)

/-! ### What is loaded -/

theorem sideStep_rest (F : CusFun) (s : SideSt) (p : Nat × Nat × CusInst) (hs : s.start.isSome) (hm : p.2.2.md = none)
    (ho : isOutputInst p.2.2 = false) : sideStep F s p = s := by
  unfold sideStep CusInst.metadata
  rw [hm]
  obtain ⟨x, hx⟩ := Option.isSome_iff_exists.1 hs
  simp [hx, ho]

theorem sideFold_rest (F : CusFun) (l : List (Nat × Nat × CusInst)) (s : SideSt) (hs : s.start.isSome)
    (h : ∀ p ∈ l, p.2.2.md = none ∧ isOutputInst p.2.2 = false) : l.foldl (sideStep F) s = s := by
  induction l with
  | nil => rfl
  | cons p t ih =>
    have hp := h p (List.mem_cons_self ..)
    rw [List.foldl_cons, sideStep_rest F s p hs hp.1 hp.2]
    exact ih fun q hq => h q (List.mem_cons_of_mem _ hq)

theorem not_output {i : CusInst} (h : i.op ≠ str! "ret" ∧
    (i.op = str! "call" → i.args.getLast? ≠ some (.glob (str! "diffkemp.output_mapping") false))) :
    isOutputInst i = false := by
  unfold isOutputInst
  rw [decide_eq_false h.1]
  simp only [Bool.false_or, Bool.and_eq_false_iff, decide_eq_false_iff_not]
  by_cases e : i.op = str! "call"
  · exact Or.inr (h.2 e)
  · exact Or.inl e

theorem initSide_simple {P : CusFun} (h : SimplePattern P) :
    ∃ n, (P.blocks.getD 0 []).length = n + 1 ∧ 0 < n ∧ (initSide P).start = (0, 0) ∧
      (initSide P).input = (List.range P.params.length).map .arg ∧
      (initSide P).mds = [((0, 0), { start := true }), ((0, n), { stop := true })] ∧ P.single 0 = none ∧
      P.succsOf 0 = [] := by
  obtain ⟨first, mid, last, hb, hf, hm, hr, hs, ho⟩ := h
  refine ⟨mid.length + 1, by rw [hb]; simp, by omega, ?_⟩
  have hpos : P.positions = (0, 0, first) ::
      ((mid.zipIdx 1).map (fun q => (0, q.2, q.1)) ++ [(0, mid.length + 1, last)]) := by
    unfold CusFun.positions
    rw [hb]
    simp [List.zipIdx_append, Nat.add_comm]
  have hmf : first.metadata = some { start := true } := by unfold CusInst.metadata; rw [hf]; rfl
  have hof := not_output (ho first (List.mem_cons_self ..))
  have hol : isOutputInst last = true := by unfold isOutputInst; rw [decide_eq_true hr]; rfl
  have e1 : sideStep P { input := (List.range P.params.length).map .arg } (0, 0, first) =
      { start := some (0, 0), input := (List.range P.params.length).map .arg,
        mds := [((0, 0), { start := true })] } := by
    unfold sideStep
    simp [hmf, hof]
  have e2 : P.positions.foldl (sideStep P) { input := (List.range P.params.length).map .arg } =
      { start := some (0, 0), input := (List.range P.params.length).map .arg,
        mds := [((0, 0), { start := true })], out := some (0, mid.length + 1) } := by
    rw [hpos, List.foldl_cons, e1, List.foldl_append,
      sideFold_rest P ((mid.zipIdx 1).map fun q => (0, q.2, q.1)) _ rfl]
    · rw [List.foldl_cons, List.foldl_nil]
      unfold sideStep CusInst.metadata
      have hl := hm last (by simp)
      simp [hl, hol]
    · intro p hp
      obtain ⟨q, hq, rfl⟩ := List.mem_map.1 hp
      have hq := List.fst_mem_of_mem_zipIdx hq
      exact ⟨hm _ (List.mem_append_left _ hq), not_output (ho _ (List.mem_cons_of_mem _ hq))⟩
  have hlast : P.succsOf 0 = [] := by
    unfold CusFun.succsOf CusFun.block
    rw [hb]
    simp only [List.getD_cons_zero]
    rw [show first :: (mid ++ [last]) = (first :: mid) ++ [last] from rfl, List.getLast?_append]
    simpa using hs
  refine ⟨?_, ?_, ?_, ?_, hlast⟩
  · unfold initSide; rw [e2]; rfl
  · unfold initSide; rw [e2]
  · unfold initSide
    rw [e2]
    rfl
  · unfold CusFun.single; rw [hlast]

/-! ### The comparison with code that occurs -/

theorem lookup_map_inj {τ : CusVal → CusVal} {U : CusVal → Prop} (hinj : ∀ v w, U v → U w → τ v = τ w → v = w)
    (m : List (CusVal × Nat)) (hm : ∀ x ∈ m, U x.1) (p : CusVal) (hp : U p) :
    (m.map fun x => (τ x.1, x.2)).lookup (τ p) = m.lookup p := by
  induction m with
  | nil => rfl
  | cons x t ih =>
    rw [List.map_cons, List.lookup_cons, List.lookup_cons, ih fun y hy => hm y (List.mem_cons_of_mem _ hy)]
    by_cases e : p = x.1
    · rw [e]; simp
    · have e' : τ p ≠ τ x.1 := fun h => e (hinj _ _ hp (hm x (List.mem_cons_self ..)) h)
      have h1 : (p == x.1) = false := by simpa using e
      have h2 : (τ p == τ x.1) = false := by simpa using e'
      rw [h1]
      dsimp only
      rw [h2]

/-- The numbers of the program are those of the pattern, and inputs stand for the given values. -/
structure InStep (τ : CusVal → CusVal) (U : CusVal → Prop) (s : PCmp) : Prop where
  num : s.snL = s.snR.map fun x => (τ x.1, x.2)
  used : ∀ x ∈ s.snR, U x.1
  inputs : ∀ p m, s.patIn.lookup p = some m → m = τ p ∧ U p

theorem InStep.congr {τ : CusVal → CusVal} {U : CusVal → Prop} {s s' : PCmp} (h : InStep τ U s) (h1 : s'.snL = s.snL)
    (h2 : s'.snR = s.snR) (h3 : s'.patIn = s.patIn) : InStep τ U s' :=
  ⟨by rw [h1, h2]; exact h.num, by rw [h2]; exact h.used, by rw [h3]; exact h.inputs⟩

theorem numInsert_map {τ : CusVal → CusVal} {U : CusVal → Prop} (hinj : ∀ v w, U v → U w → τ v = τ w → v = w)
    {m : List (CusVal × Nat)} (hm : ∀ x ∈ m, U x.1) {p : CusVal} (hp : U p) (n : Nat) :
    numInsert (τ p) n (m.map fun x => (τ x.1, x.2)) = (numInsert p n m).map fun x => (τ x.1, x.2) := by
  unfold numInsert
  rw [lookup_map_inj hinj m hm p hp]
  split
  · rfl
  · rw [List.map_append]; rfl

theorem numInsert_used {U : CusVal → Prop} {m : List (CusVal × Nat)} (hm : ∀ x ∈ m, U x.1) {p : CusVal} (hp : U p) (n : Nat) :
    ∀ x ∈ numInsert p n m, U x.1 := by
  unfold numInsert
  split
  · exact hm
  · intro x hx
    rcases List.mem_append.1 hx with e | e
    · exact hm x e
    · rw [List.mem_singleton.1 e]; exact hp

section
variable {E : PEnv} {P : CusFun} {τ : CusVal → CusVal} {b : Nat} {pos : Nat → Nat}

theorem cmpVal_occurs (hS : E.side = initSide P) (hin : E.side.input = (List.range P.params.length).map .arg)
    (hO : CodeOccurs (sidePrefix E.isLeft) E.modFn P b pos τ) {s : PCmp} (hi : InStep τ (UsedValue P) s) {p : CusVal}
    (hp : UsedValue P p) : ∃ s', E.cmpVal s (τ p) p = (true, s') ∧ InStep τ (UsedValue P) s' := by
  obtain ⟨_, _, hfit, hinj, _⟩ := hO
  have hf := hfit p hp
  have hfn : E.side.fn = P := by rw [hS]; rfl
  have base : ∃ s1, E.baseValues s (τ p) p = (true, s1) ∧ InStep τ (UsedValue P) s1 := by
    unfold PEnv.baseValues
    dsimp only
    have nonconst : p.isConst = false → (τ p).isConst = false →
        ∃ s1, (let snL := numInsert (τ p) s.snL.length s.snL
          let snR := numInsert p s.snR.length s.snR
          (decide (snL.lookup (τ p) = snR.lookup p), ({ s with snL := snL, snR := snR } : PCmp))) = (true, s1) ∧
          InStep τ (UsedValue P) s1 := by
      intro _ _
      dsimp only
      have hlen : s.snL.length = s.snR.length := by rw [hi.num]; simp
      have hL : numInsert (τ p) s.snL.length s.snL = (numInsert p s.snR.length s.snR).map fun x => (τ x.1, x.2) := by
        rw [hlen, hi.num]; exact numInsert_map hinj hi.used hp _
      have hu := numInsert_used hi.used hp s.snR.length
      refine ⟨{ s with snL := numInsert (τ p) s.snL.length s.snL, snR := numInsert p s.snR.length s.snR }, ?_,
        ⟨hL, hu, hi.inputs⟩⟩
      rw [hL, lookup_map_inj hinj _ hu p hp]
      simp
    cases p with
    | const c ptr =>
      have hf : τ (.const c ptr) = .const c ptr := hf
      rw [hf]
      exact ⟨s, by simp [CusVal.hasName, CusVal.isConst, constMatch], hi⟩
    | glob n v =>
      obtain ⟨n', v', e, ha, h1, h2⟩ := hf
      rw [e]
      have hn : namesMatch n' n E.isLeft = true := by
        cases hl : E.isLeft with
        | true => rw [hl] at ha; exact (C38_names.2.2.1 _ _).2 ha
        | false => rw [hl] at ha; exact (C38_names.2.2.2 _ _).2 ha
      refine ⟨s, ?_, hi⟩
      rw [hfn]
      simp [CusVal.hasName, CusVal.isConst, constMatch, h1, h2, hn]
    | inst x y =>
      have hf : (τ (.inst x y)).isConst = false := hf
      obtain ⟨s1, h1, h2⟩ := nonconst rfl hf
      refine ⟨s1, ?_, h2⟩
      have hn : ∀ n, (τ (.inst x y)).hasName n = false := by
        intro n; cases ht : τ (.inst x y) <;> rw [ht] at hf <;> first | rfl | exact nomatch hf
      rw [hn, hf]
      simpa [CusVal.hasName, CusVal.isConst] using h1
    | arg n =>
      have hf : (τ (.arg n)).isConst = false := hf
      obtain ⟨s1, h1, h2⟩ := nonconst rfl hf
      refine ⟨s1, ?_, h2⟩
      have hn : ∀ m, (τ (.arg n)).hasName m = false := by
        intro m; cases ht : τ (.arg n) <;> rw [ht] at hf <;> first | rfl | exact nomatch hf
      rw [hn, hf]
      simpa [CusVal.hasName, CusVal.isConst] using h1
    | blk n =>
      have hf : (τ (.blk n)).isConst = false := hf
      obtain ⟨s1, h1, h2⟩ := nonconst rfl hf
      refine ⟨s1, ?_, h2⟩
      have hn : ∀ m, (τ (.blk n)).hasName m = false := by
        intro m; cases ht : τ (.blk n) <;> rw [ht] at hf <;> first | rfl | exact nomatch hf
      rw [hn, hf]
      simpa [CusVal.hasName, CusVal.isConst] using h1
  obtain ⟨s1, h1, hi1⟩ := base
  unfold PEnv.cmpVal
  rw [h1]
  dsimp only
  generalize hs2 : ({ s1 with
      snL := numInsert (τ p) 0 s1.snL
      snR := numInsert p 0 s1.snR
      newL := if (numInsert (τ p) 0 s1.snL).lookup (τ p) = some ((numInsert (τ p) 0 s1.snL).length - 1) then s1.newL ++ [τ p] else s1.newL
      newR := if (numInsert p 0 s1.snR).lookup p = some ((numInsert p 0 s1.snR).length - 1) then s1.newR ++ [p] else s1.newR } : PCmp) = s2
  have hi2 : InStep τ (UsedValue P) s2 := by
    rw [← hs2]
    refine ⟨?_, numInsert_used hi1.used hp 0, hi1.inputs⟩
    show numInsert (τ p) 0 s1.snL = _
    rw [hi1.num]; exact numInsert_map hinj hi1.used hp 0
  unfold PEnv.mapInput
  split
  · rename_i m' hm'
    refine ⟨s2, ?_, hi2⟩
    rw [(hi2.inputs _ _ hm').1]
    simp
  · rename_i hnone
    rw [PEnv.mapInputLoop]
    split
    · refine ⟨s2, ?_, hi2⟩
      rw [PEnv.mapInputLoop]
    · rename_i hin'
      have hin' : p ∈ E.side.input := by simpa using hin'
      rw [hin] at hin'
      obtain ⟨n, _, rfl⟩ := List.mem_map.1 hin'
      dsimp only
      have hio : E.side.fn.instOf (.arg n) = none := rfl
      rw [hio]
      have hi3 : InStep τ (UsedValue P) { s2 with
          patIn := mapSet (.arg n) (τ (.arg n)) s2.patIn
          modIn := mapSet (τ (.arg n)) (.arg n) s2.modIn
          newModIn := s2.newModIn ++ [τ (.arg n)]
          newPatIn := s2.newPatIn ++ [.arg n] } := by
        refine ⟨hi2.num, hi2.used, ?_⟩
        intro q m hq
        have hq' : (mapSet (CusVal.arg n) (τ (.arg n)) s2.patIn).lookup q = some m := hq
        clear hq
        rw [plookup_mapSet] at hq'
        split at hq'
        · rename_i e
          subst e
          exact ⟨(Option.some.inj hq').symm, hp⟩
        · exact hi2.inputs q m hq'
      cases hmo : E.modFn.instOf (τ (.arg n)) with
      | none => exact ⟨_, by dsimp only; rw [PEnv.mapInputLoop], hi3⟩
      | some im => exact ⟨_, by dsimp only; rw [PEnv.mapInputLoop], hi3⟩

theorem mapInputLoop_positions (E : PEnv) (fuel : Nat) (work : List (CusVal × CusVal)) (seen : List CusVal) (s : PCmp) :
    (E.mapInputLoop fuel work seen s).2.modPos = s.modPos ∧ (E.mapInputLoop fuel work seen s).2.patPos = s.patPos := by
  induction fuel generalizing work seen s with
  | zero => exact ⟨rfl, rfl⟩
  | succ n ih =>
    cases work with
    | nil => exact ⟨rfl, rfl⟩
    | cons q t =>
      obtain ⟨m, p⟩ := q
      rw [PEnv.mapInputLoop]
      dsimp only
      repeat' split
      all_goals first
        | exact ⟨rfl, rfl⟩
        | exact ih _ _ _

theorem cmpVal_positions (E : PEnv) (s : PCmp) (m p : CusVal) :
    (E.cmpVal s m p).2.modPos = s.modPos ∧ (E.cmpVal s m p).2.patPos = s.patPos := by
  have hb : (E.baseValues s m p).2.modPos = s.modPos ∧ (E.baseValues s m p).2.patPos = s.patPos := by
    unfold PEnv.baseValues
    dsimp only
    repeat' split
    all_goals exact ⟨rfl, rfl⟩
  unfold PEnv.cmpVal
  split
  · rename_i s1 heq
    rw [heq] at hb; exact hb
  · rename_i s1 heq
    rw [heq] at hb
    dsimp only
    unfold PEnv.mapInput
    split
    · exact hb
    · have := mapInputLoop_positions E
      exact ⟨(this _ _ _ _).1.trans hb.1, (this _ _ _ _).2.trans hb.2⟩

theorem cmpArgs_occurs (hS : E.side = initSide P) (hin : E.side.input = (List.range P.params.length).map .arg)
    (hO : CodeOccurs (sidePrefix E.isLeft) E.modFn P b pos τ) (l : List CusVal) {s : PCmp} (hi : InStep τ (UsedValue P) s)
    (hl : ∀ v ∈ l, UsedValue P v) :
    ∃ s', E.cmpArgs ((l.map τ).zip l) s = (true, s') ∧ InStep τ (UsedValue P) s' := by
  induction l generalizing s with
  | nil => exact ⟨s, rfl, hi⟩
  | cons v t ih =>
    rw [List.map_cons, List.zip_cons_cons, PEnv.cmpArgs]
    obtain ⟨s1, h1, hi1⟩ := cmpVal_occurs hS hin hO hi (hl v (List.mem_cons_self ..))
    rw [h1]
    exact ih hi1 fun w hw => hl w (List.mem_cons_of_mem _ hw)

theorem cmpInst_occurs (hS : E.side = initSide P) (hin : E.side.input = (List.range P.params.length).map .arg)
    (hO : CodeOccurs (sidePrefix E.isLeft) E.modFn P b pos τ) {s : PCmp} (hi : InStep τ (UsedValue P) s) {k : Nat}
    (hk : k + 1 < (P.blocks.getD 0 []).length) :
    ∃ s', E.cmpInst s (b, pos k) (0, k) = (true, s') ∧ InStep τ (UsedValue P) s' := by
  obtain ⟨_, hτ, ip, im, h1, h2, hop, hargs⟩ := hO.2.2.2.2 k hk
  have hfn : E.side.fn = P := by rw [hS]; rfl
  have h1' : E.side.fn.instAt 0 k = some ip := by rw [hfn]; exact h1
  have h2' : E.modFn.instAt b (pos k) = some im := h2
  unfold PEnv.cmpInst
  dsimp only
  rw [h1', h2']
  dsimp only
  have hu : UsedValue P (.inst 0 k) := Or.inr ⟨k, ip, hk, h1, Or.inr rfl⟩
  obtain ⟨s1, e1, hi1⟩ := cmpVal_occurs hS hin hO
    (s := { s with newL := [], newR := [], newModIn := [], newPatIn := [] }) (hi.congr rfl rfl rfl) hu
  rw [hτ] at e1
  rw [e1]
  dsimp only
  rw [if_neg (by rw [hargs]; simp [hop]), hargs]
  obtain ⟨s2, e2, hi2⟩ := cmpArgs_occurs hS hin hO ip.args hi1 (fun v hv => Or.inr ⟨k, ip, hk, h1, Or.inl hv⟩)
  rw [e2]
  exact ⟨_, rfl, hi2.congr rfl rfl rfl⟩

theorem cmpBlock_occurs (hS : E.side = initSide P) (hP : SimplePattern P)
    (hO : CodeOccurs (sidePrefix E.isLeft) E.modFn P b pos τ) (i0 : Nat) (hpos : ∀ k, pos k = i0 + k) (first n k : Nat)
    (hn : (P.blocks.getD 0 []).length = k + n + 1) {s : PCmp} (hi : InStep τ (UsedValue P) s) :
    ∃ s', E.cmpBlock b 0 first ((E.modFn.block b).drop (i0 + k)) (i0 + k) k s = (true, s') ∧
      InStep τ (UsedValue P) s' := by
  obtain ⟨N, hN, hN0, hst, hin, hmds, hsing, hsucc⟩ := initSide_simple hP
  have hfn : E.side.fn = P := by rw [hS]; rfl
  have hblk : (E.side.fn.block 0).length = N + 1 := by rw [hfn]; exact hN
  have hmeta : ∀ j, E.side.meta 0 j = if j = 0 then { start := true } else if j = N then { stop := true } else {} := by
    intro j
    unfold PSide.meta
    rw [hS, hmds, List.lookup_cons, List.lookup_cons]
    by_cases e : j = 0
    · subst e; simp
    · have h1 : ((0, j) == ((0, 0) : Pos)) = false := beq_eq_false_iff_ne.2 (fun h => e (Prod.mk.inj h).2)
      rw [h1]
      dsimp only
      by_cases e' : j = N
      · subst e'; simp [e]
      · have h2 : ((0, j) == ((0, N) : Pos)) = false := beq_eq_false_iff_ne.2 (fun h => e' (Prod.mk.inj h).2)
        rw [h2]
        simp [e, e']
  induction n generalizing k s with
  | zero =>
    have hk : k = N := by omega
    have hlt : i0 + k < (E.modFn.block b).length := by
      have := (hO.2.2.2.2 (k - 1) (by omega)).1
      rw [hpos] at this
      have e : i0 + (k - 1) + 1 = i0 + k := by omega
      rw [e] at this
      exact this
    rw [List.drop_eq_getElem_cons hlt, PEnv.cmpBlock]
    have hp : (E.side.fn.block 0)[k]? = some ((E.side.fn.block 0)[k]'(by omega)) := List.getElem?_eq_getElem _
    rw [hp]
    dsimp only
    have hstop : (E.side.meta 0 k).stop = true := by
      rw [hmeta, if_neg (by omega), if_pos hk]
    rw [hstop]
    exact ⟨_, rfl, hi.congr rfl rfl rfl⟩
  | succ n ih =>
    have hkN : k < N := by omega
    have hlt : i0 + k + 1 < (E.modFn.block b).length := by
      have := (hO.2.2.2.2 k (by omega)).1
      rw [hpos] at this
      exact this
    rw [List.drop_eq_getElem_cons (by omega), PEnv.cmpBlock]
    have hp : (E.side.fn.block 0)[k]? = some ((E.side.fn.block 0)[k]'(by omega)) := List.getElem?_eq_getElem _
    rw [hp]
    dsimp only
    have hstop : (E.side.meta 0 k).stop = false := by
      rw [hmeta]
      by_cases e : k = 0
      · rw [if_pos e]
      · rw [if_neg e, if_neg (by omega)]
    have hrest : ((E.modFn.block b).drop (i0 + k + 1)).isEmpty = false := by
      rw [List.drop_eq_getElem_cons hlt]; rfl
    have hterm : E.side.fn.isTerm 0 k = false := by
      unfold CusFun.isTerm
      simp only [decide_eq_false_iff_not]
      omega
    rw [hstop, hrest, hterm]
    simp only [Bool.false_and, Bool.and_false, Bool.false_eq_true, if_false]
    obtain ⟨s1, e1, hi1⟩ := cmpInst_occurs hS (by rw [hS]; exact hin) hO
      (s := { s with modPos := (b, i0 + k), patPos := (0, k) }) (hi.congr rfl rfl rfl) (k := k) (by omega)
    rw [hpos] at e1
    rw [e1]
    dsimp only
    exact ih (k + 1) (by omega) (hi1.congr rfl rfl rfl)

/-- The code of a simple pattern is found where it occurs without other instructions in between. Missing: other
instructions in between (see `C114_fails`). -/
theorem C114_contiguous_partial (M P : CusFun) (isLeft : Bool) (b i0 : Nat) (pos : Nat → Nat) (τ : CusVal → CusVal)
    (hP : SimplePattern P) (hO : CodeOccurs (sidePrefix isLeft) M P b pos τ) (hpos : ∀ k, pos k = i0 + k) :
    ((⟨M, initSide P, isLeft⟩ : PEnv).compare (b, pos 0)).1 = true := by
  generalize hE : (⟨M, initSide P, isLeft⟩ : PEnv) = E
  have hS : E.side = initSide P := by rw [← hE]
  have hO : CodeOccurs (sidePrefix E.isLeft) E.modFn P b pos τ := by rw [← hE]; exact hO
  obtain ⟨N, hN, hN0, hst, hin, hmds, hsing, hsucc⟩ := initSide_simple hP
  have hfn : E.side.fn = P := by rw [hS]; rfl
  have h0 : InStep τ (UsedValue P) ({ modPos := (b, i0 + 0) } : PCmp) :=
    ⟨rfl, fun x hx => (nomatch hx), fun p m h => (nomatch h)⟩
  have hm : ∃ s, E.matchPattern (b, pos 0) {} = (true, s) ∧ InStep τ (UsedValue P) s := by
    unfold PEnv.matchPattern
    rw [hpos, hS, hst, PEnv.walk]
    dsimp only
    obtain ⟨s1, e1, hi1⟩ := cmpVal_occurs hS (by rw [hS]; exact hin) hO h0 (p := .blk 0) (Or.inl rfl)
    rw [hO.2.1] at e1
    rw [e1]
    dsimp only
    have hpos1 : s1.modPos = (b, i0 + 0) ∧ s1.patPos = (0, 0) := by
      have := cmpVal_positions E ({ modPos := (b, i0 + 0) } : PCmp) (.blk b) (.blk 0)
      rw [e1] at this
      exact this
    rw [PEnv.chain]
    dsimp only
    rw [hpos1.1, hpos1.2]
    simp only [ne_eq, not_true_eq_false, if_false]
    unfold PEnv.cmpBlocks
    dsimp only
    obtain ⟨s2, e2, hi2⟩ := cmpBlock_occurs hS hP hO i0 hpos (i0 + 0) N 0 (by omega)
      (s := { s1 with depth := 0, modPos := (b, i0 + 0), patPos := (0, 0) }) (hi1.congr rfl rfl rfl)
    rw [e2]
    dsimp only
    rw [hfn, hsing]
    dsimp only
    rw [hsucc]
    simp only [List.isEmpty_nil, Bool.or_true, if_true]
    refine ⟨s2, ?_, hi2⟩
    cases E.modFn.blocks.length <;> rfl
  obtain ⟨s, hs, hi⟩ := hm
  unfold PEnv.compare
  rw [hs]
  dsimp only
  unfold PEnv.checkInput
  have hb : InStep τ (UsedValue P) s.begin := ⟨rfl, fun x hx => (nomatch hx), hi.inputs⟩
  have hargs : ∀ (l : List Nat) (s : PCmp), InStep τ (UsedValue P) s → ∃ s', E.checkArgs l s = (true, s') := by
    intro l
    induction l with
    | nil => intro s _; exact ⟨s, rfl⟩
    | cons n t ih =>
      intro s hs
      unfold PEnv.checkArgs
      split
      · exact ih s hs
      · rename_i m hm
        obtain ⟨rfl, hu⟩ := hs.inputs _ _ hm
        obtain ⟨s1, e1, hi1⟩ := cmpVal_occurs hS (by rw [hS]; exact hin) hO hs hu
        rw [e1]
        exact ih s1 hi1
  obtain ⟨s1, e1⟩ := hargs (List.range E.side.fn.params.length) s.begin hb
  rw [e1]
  dsimp only
  rw [PEnv.checkWalk]
  have hstart : (E.side.meta 0 0).start = true := by
    unfold PSide.meta
    rw [hS, hmds]
    rfl
  have hblk : (E.side.fn.block 0).length = N + 1 := by rw [hfn]; exact hN
  rw [hblk, PEnv.checkInsts, hstart]
  simp only [if_true]
  cases E.side.fn.blocks.length <;> rfl

end

/-- No other instruction comes in between. -/
def seqFn' : CusFun := ⟨str! "fun", [false],
  [[cpCall (str! "f") [.arg 0], cpCall (str! "g") [.inst 0 0], exRet []]]⟩

example : SimplePattern seqPat ∧ CodeOccurs (sidePrefix true) seqFn' seqPat 0 (fun k => 0 + k) (seqVal 1) :=
  ⟨seqPat_simple, seq_occurs seqFn' (fun k => 0 + k) (fun k l h => by omega) rfl rfl (by decide) rfl rfl⟩

end DK
