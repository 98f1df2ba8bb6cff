import Verif.Lemmas.CustomMatch

/-! Custom patterns: outputs, termination, occurrences, inputs, value patterns, loading. -/

set_option autoImplicit false

namespace DK

open Spec

/-! ### Code of the examples -/

def cpCall (f : Str) (as : List CusVal) : CusInst := { op := str! "call", args := as ++ [.glob f false] }
def exRet (as : List CusVal) : CusInst := { op := str! "ret", args := as }
def exLoad (a : Str) : CusInst := { op := str! "load", args := [.glob a true] }
def exJump (b : Nat) : CusInst := { op := str! "br", args := [.blk b], succs := [b] }
def exStart : Option (List (Option Str)) := some [some (str! "pattern-start")]

/-- The pattern of two functions. -/
def exPat (L R : CusFun) : InstPat := (initInstPat (str! "p") L R).getD ⟨[], initSide L, initSide R, []⟩

/-! ### C111: outputs -/

/-- C111: where two functions are found equal, the outputs of a matched pattern are used in the same places. -/
def C111_statement : Prop :=
  ∀ (E : CusEnv) (fuel : Nat) (aligned : List (Pos × Pos)) (s : CSt),
    E.compareEntry fuel = some (.equal aligned s) → OutputsAgree E.fnL E.fnR aligned s.log

/-- A pattern: calls of `f1` and `f2` become calls of `g1` and `g2`; both results are outputs. -/
def outOld : CusFun := ⟨str! "diffkemp.old.p", [false],
  [[cpCall (str! "f1") [.arg 0], cpCall (str! "f2") [.arg 0],
    cpCall (str! "diffkemp.output_mapping") [.inst 0 0, .inst 0 1], exRet []]]⟩
def outNew : CusFun := ⟨str! "diffkemp.new.p", [false],
  [[cpCall (str! "g1") [.arg 0], cpCall (str! "g2") [.arg 0],
    cpCall (str! "diffkemp.output_mapping") [.inst 0 0, .inst 0 1], exRet []]]⟩
def outFnL : CusFun := ⟨str! "fun", [false],
  [[cpCall (str! "f1") [.arg 0], cpCall (str! "f2") [.arg 0], cpCall (str! "use") [.inst 0 0, .inst 0 1], exRet []]]⟩
/-- The results are used in the other order. -/
def outFnR : CusFun := ⟨str! "fun", [false],
  [[cpCall (str! "g1") [.arg 0], cpCall (str! "g2") [.arg 0], cpCall (str! "use") [.inst 0 1, .inst 0 0], exRet []]]⟩
def outEnv : CusEnv := ⟨outFnL, outFnR, [exPat outOld outNew], []⟩

/-- The outcome is `equal`, the aligned pairs and the logged matches are given. -/
def isEqual (o : Option Outcome) (al : List (Pos × Pos)) (log : List (List (Pos × Pos) × List (Pos × Pos))) : Bool :=
  match o with
  | some (.equal al' s) => decide (al' = al ∧ s.log.map (fun m => (m.left, m.right)) = log)
  | _ => false

theorem isEqual_iff {o : Option Outcome} {al : List (Pos × Pos)} {log : List (List (Pos × Pos) × List (Pos × Pos))}
    (h : isEqual o al log = true) :
    ∃ s, o = some (.equal al s) ∧ s.log.map (fun m => (m.left, m.right)) = log := by
  unfold isEqual at h
  split at h
  · simp only [decide_eq_true_eq] at h
    obtain ⟨rfl, h2⟩ := h
    exact ⟨_, rfl, h2⟩
  · exact nomatch h

theorem C111_fails : ¬ C111_statement := by
  intro h
  have hE : isEqual (outEnv.compareEntry 20) [((0, 2), (0, 2)), ((0, 3), (0, 3))]
      [([((0, 0), (0, 0)), ((0, 1), (0, 1))], [((0, 0), (0, 0)), ((0, 1), (0, 1))])] = true := by decide +kernel
  obtain ⟨s, hs, hlog⟩ := isEqual_iff hE
  have hQ := cmpBlock_log outEnv (fun m => m.pat = exPat outOld outNew) (by
    intro pl pr s P bl br cl cr hP _
    exact List.mem_singleton.1 hP) 0 0 20 0 0 [] outEnv.init (fun m hm => nomatch hm) _ s hs
  obtain ⟨m, hm⟩ : ∃ m, s.log = [m] := by
    match hl : s.log with
    | [] => rw [hl] at hlog; exact nomatch hlog
    | [m] => exact ⟨m, rfl⟩
    | _ :: _ :: _ => rw [hl] at hlog; simp at hlog
  rw [hm] at hlog
  simp only [List.map_cons, List.map_nil, List.cons.injEq, Prod.mk.injEq, and_true] at hlog
  have hp := hQ m (by rw [hm]; exact List.mem_singleton.2 rfl)
  have := h outEnv 20 _ s hs (0, 2) (0, 2) (by decide) (0, 0) (0, 1)
    ⟨_, _, rfl, rfl, 0, rfl, rfl⟩ m (by rw [hm]; exact List.mem_singleton.2 rfl) (0, 0)
    ⟨(0, 0), (0, 0), by rw [hp]; decide +kernel, by rw [hlog.1]; decide, by rw [hlog.2]; decide⟩
  exact absurd this (by decide)

/-- The loads that a value pattern relates get the same number, so that their values are equal afterwards, if the
numbers of both programs were in step. Missing: outputs of instruction patterns (see `C111_fails`). -/
theorem C111_loads_partial (E : CusEnv) (pl pr : Pos) (s s' : CSt) (l : List ValPat)
    (h : E.matchValue pl pr s l = some s')
    (hl : (true, CusVal.inst pl.1 pl.2) ∉ s.all) (hr : (false, CusVal.inst pr.1 pr.2) ∉ s.all)
    (hL : (true, CusVal.inst pl.1 pl.2) ∈ s'.all) (hR : (false, CusVal.inst pr.1 pr.2) ∈ s'.all)
    (hlen : (s'.undo pl pr).snL.length = (s'.undo pl pr).snR.length) :
    SameNumber (createMapping (s'.undo pl pr).mappings (s'.undo pl pr)) (.inst pl.1 pl.2) (.inst pr.1 pr.2) := by
  have hm : s'.mappings = [((true, .inst pl.1 pl.2), (false, .inst pr.1 pr.2))] := by
    clear hlen
    induction l with
    | nil => exact nomatch h
    | cons P r ih =>
      unfold CusEnv.matchValue at h
      dsimp only at h
      split at h
      · cases h
        simp only [List.mem_append, hl, hr, false_or] at hL hR
        generalize matchLoad (E.fnL.instAt pl.1 pl.2) P.valL true = ml at *
        generalize matchLoad (E.fnR.instAt pr.1 pr.2) P.valR false = mr at *
        cases ml <;> cases mr <;> simp_all
      · exact ih h
  have hm' : (s'.undo pl pr).mappings = [((true, .inst pl.1 pl.2), (false, .inst pr.1 pr.2))] := hm
  rw [hm']
  generalize hu : s'.undo pl pr = u at *
  have e1 : u.snL.lookup (true, CusVal.inst pl.1 pl.2) = none := by
    rw [← hu]
    show (eraseKeys [(true, CusVal.inst pl.1 pl.2)] s'.snL).lookup _ = none
    unfold eraseKeys
    rw [List.lookup_eq_none_iff]
    intro q hq
    have := (List.mem_filter.1 hq).2
    simp only [List.mem_singleton, decide_eq_true_eq] at this
    exact bne_iff_ne.2 (fun e => this (by rw [← e]))
  have e2 : u.snR.lookup (false, CusVal.inst pr.1 pr.2) = none := by
    rw [← hu]
    show (eraseKeys [(false, CusVal.inst pr.1 pr.2)] s'.snR).lookup _ = none
    unfold eraseKeys
    rw [List.lookup_eq_none_iff]
    intro q hq
    have := (List.mem_filter.1 hq).2
    simp only [List.mem_singleton, decide_eq_true_eq] at this
    exact bne_iff_ne.2 (fun e => this (by rw [← e]))
  unfold createMapping
  rw [e1, e2]
  refine ⟨u.snL.length, ?_, ?_⟩
  · show (u.snL ++ [((true, CusVal.inst pl.1 pl.2), u.snL.length)]).lookup _ = _
    rw [List.lookup_append, e1]; simp
  · show (u.snR ++ [((false, CusVal.inst pr.1 pr.2), u.snR.length)]).lookup _ = _
    rw [List.lookup_append, e2]; simp [hlen]

def valPat (a b : Str) : ValPat := ⟨str! "v", str! "diffkemp.old.v", str! "diffkemp.new.v", .glob a true, .glob b true⟩

/-- Functions that return the values of the variables `a` and `b`. -/
def loadL : CusFun := ⟨str! "fun", [], [[exLoad (str! "a"), exRet [.inst 0 0]]]⟩
def loadR : CusFun := ⟨str! "fun", [], [[exLoad (str! "b"), exRet [.inst 0 0]]]⟩
def loadEnv : CusEnv := ⟨loadL, loadR, [], [valPat (str! "a") (str! "b")]⟩

example : ∃ s', loadEnv.matchValue (0, 0) (0, 0) loadEnv.init loadEnv.values = some s' ∧
    (true, CusVal.inst 0 0) ∈ s'.all ∧ (false, CusVal.inst 0 0) ∈ s'.all ∧
    (s'.undo (0, 0) (0, 0)).snL.length = (s'.undo (0, 0) (0, 0)).snR.length := by
  refine ⟨_, rfl, ?_⟩; decide +kernel

/-! ### C112: the comparison ends -/

/-- C112: the comparison of two functions ends. -/
def C112_statement : Prop := ∀ E : CusEnv, ∃ fuel, E.compareEntry fuel ≠ none

/-- A pattern: the call of `f` becomes a call of `g`. -/
def loopOld : CusFun := ⟨str! "diffkemp.old.p", [], [[cpCall (str! "f") [], exRet []]]⟩
def loopNew : CusFun := ⟨str! "diffkemp.new.p", [], [[cpCall (str! "g") [], exRet []]]⟩
/-- The call is in the second block; the first blocks differ. -/
def loopFnL : CusFun := ⟨str! "fun", [], [[cpCall (str! "h") [], exJump 1], [cpCall (str! "f") [], exRet []]]⟩
def loopFnR : CusFun := ⟨str! "fun", [], [[cpCall (str! "k") [], exJump 1], [cpCall (str! "g") [], exRet []]]⟩
def loopEnv : CusEnv := ⟨loopFnL, loopFnR, [exPat loopOld loopNew], []⟩

theorem loop_step (m : List (Nat × (Ref × Ref))) (a : List Ref) (mp : List (Ref × Ref)) (lg : List PatMatch) :
    ∃ m' lg', (match loopEnv.cmpInst ⟨[((true, .blk 0), 0)], [((false, .blk 0), 0)], m, a, mp, false, lg⟩ (0, 0) (0, 0) with
      | (false, s) => s.crash = false ∧ (∃ s2, loopEnv.matchPattern (0, 0) (0, 0) s = some s2 ∧
          createMapping (s2.undo (0, 0) (0, 0)).mappings (s2.undo (0, 0) (0, 0)) =
            ⟨[((true, .blk 0), 0)], [((false, .blk 0), 0)], m', a ++ [(true, .inst 1 0)] ++ [(false, .inst 1 0)], [],
              false, lg'⟩)
      | _ => False) := ⟨_, _, rfl, _, rfl, rfl⟩

theorem loop_forever (fuel : Nat) (m : List (Nat × (Ref × Ref))) (a : List Ref) (mp : List (Ref × Ref)) (lg : List PatMatch)
    (ha : ∀ x ∈ a, x.2 = .inst 1 0) :
    loopEnv.cmpBlock 0 0 fuel 0 0 [] ⟨[((true, .blk 0), 0)], [((false, .blk 0), 0)], m, a, mp, false, lg⟩ = none := by
  induction fuel generalizing m a mp lg with
  | zero => rfl
  | succ n ih =>
    obtain ⟨m', lg', h⟩ := loop_step m a mp lg
    unfold CusEnv.cmpBlock
    dsimp only
    rw [if_pos (by decide +kernel)]
    have hp : ∀ f : Bool, CSt.part ⟨[((true, .blk 0), 0)], [((false, .blk 0), 0)], m, a, mp, false, lg⟩ f 0 0 = false := by
      intro f
      rw [Bool.eq_false_iff]
      intro h
      exact absurd (ha _ ((part_iff _ _ _ _).1 h)) (by simp)
    rw [hp, hp, if_neg (by decide)]
    cases hc : loopEnv.cmpInst ⟨[((true, .blk 0), 0)], [((false, .blk 0), 0)], m, a, mp, false, lg⟩ (0, 0) (0, 0) with
    | mk r s =>
      rw [hc] at h
      cases r with
      | true => exact absurd h (fun h => h)
      | false =>
        dsimp only at h ⊢
        obtain ⟨h1, s2, h2, h3⟩ := h
        rw [if_neg (by rw [h1]; decide), h2]
        dsimp only
        rw [h3]
        refine ih _ _ _ _ ?_
        intro x hx
        rcases List.mem_append.1 hx with hx | hx
        · rcases List.mem_append.1 hx with hx | hx
          · exact ha x hx
          · rw [List.mem_singleton.1 hx]
        · rw [List.mem_singleton.1 hx]

theorem C112_fails : ¬ C112_statement := by
  intro h
  obtain ⟨fuel, hf⟩ := h loopEnv
  exact hf (loop_forever fuel _ [] [] [] (fun x hx => nomatch hx))

theorem single_none {F : CusFun} (h : NoJump F) : F.single 0 = none := by
  unfold CusFun.single CusFun.succsOf
  cases hl : (F.block 0).getLast? with
  | none => rfl
  | some t =>
    have := h t hl
    dsimp only
    split
    · rename_i e; rw [e] at this; exact absurd rfl this
    · rfl

/-- A match from a position of a block contains it, if the pattern starts with code. -/
theorem match_contains {E : PEnv} {F : CusFun} (hS : E.side = initSide F) (hF : StartsWithCode F) (hj : NoJump E.modFn)
    (i : Nat) (hi : i < (E.modFn.block 0).length) (hr : (E.compare (0, i)).1 = true) (s : PCmp)
    (hg : PGrow E (E.compare (0, i)).2 s) : ((0, 0), (0, i)) ∈ s.matched := by
  obtain ⟨hu, hl, hst⟩ := hF
  obtain ⟨e1, e2⟩ := initSide_unmarked hu
  have es : E.side.start = (0, 0) := by rw [hS]; exact e1
  obtain ⟨c1, _, c3⟩ := compare_grow E (0, i) hr
  have hstop : (E.side.meta 0 0).stop = false := by
    unfold PSide.meta
    cases hm : E.side.mds.lookup (0, 0) with
    | none => rfl
    | some m => exact hst m (by rw [← hS]; exact plookup_mem' hm)
  have hterm : E.side.fn.isTerm 0 0 = false := by
    rw [hS]
    unfold CusFun.isTerm
    simp only [decide_eq_false_iff_not]
    intro h
    have : (F.block 0).length = (F.blocks.getD 0 []).length := rfl
    have h2 : 0 + 1 = (F.block 0).length := h
    omega
  obtain ⟨s1, f1, f2, f3⟩ := matchPattern_first E (0, i) hi (single_none hj) (by rw [es]; exact hstop)
    (by rw [es]; exact hterm) c1
  have := first_stays f1 f2 (f3.trans (c3.trans hg)) (by
    rw [es, hS]
    exact e2 0 0 (by have : (F.block 0).length = (F.blocks.getD 0 []).length := rfl; omega))
  rw [es] at this
  exact this

/-- The comparison of functions whose entry blocks do not jump on ends, if each pattern starts with code on one of its
sides. Missing: other blocks, and patterns with a marked start or with nothing to match (see `C112_fails`). -/
theorem C112_ends_partial (E : CusEnv) (hL : NoJump E.fnL) (hR : NoJump E.fnR)
    (hP : ∀ P ∈ E.insts, (∃ F, P.left = initSide F ∧ StartsWithCode F) ∨ (∃ F, P.right = initSide F ∧ StartsWithCode F)) :
    E.compareEntry (2 * ((E.fnL.blocks.getD 0 []).length + (E.fnR.blocks.getD 0 []).length) + 2) ≠ none := by
  refine cmpBlock_ends E 0 0 ?_ _ 0 0 [] E.init (Nat.zero_le _) (Nat.zero_le _) ?_
  · intro i j s s' hi hj hm
    unfold CusEnv.matchPattern at hm
    split at hm
    · rename_i s3 hmi
      cases hm
      obtain ⟨P, hPm, bl, br, cl, cr, hM, rfl⟩ := matchInst_some E _ _ _ _ _ hmi
      obtain ⟨_, _, g1, g2⟩ := hM.grow
      show _ ∈ _ ++ _ ++ _ ∨ _ ∈ _ ++ _ ++ _
      rcases hP P hPm with ⟨F, e, hF⟩ | ⟨F, e, hF⟩
      · left
        have := match_contains (E := E.envL P) e hF hL i hi (by rw [hM.left]) cl (by rw [hM.left]; exact g1)
        exact List.mem_append_left _ (List.mem_append_right _ (List.mem_map.2 ⟨_, this, rfl⟩))
      · right
        have := match_contains (E := E.envR P) e hF hR j hj (by rw [hM.right]) cr (by rw [hM.right]; exact g2)
        exact List.mem_append_right _ (List.mem_map.2 ⟨_, this, rfl⟩)
    · exact (matchValue_some E _ _ _ _ _ hm).2.2
  · have h1 : (E.fnL.block 0).length = (E.fnL.blocks.getD 0 []).length := rfl
    have h2 : (E.fnR.block 0).length = (E.fnR.blocks.getD 0 []).length := rfl
    split <;> omega

theorem exPat_left (L R : CusFun) : (exPat L R).left = initSide L := by
  unfold exPat initInstPat
  dsimp only
  split
  · rfl
  · split
    · rfl
    · split
      · cases outPairs _ [] <;> rfl
      · rfl

theorem exPat_right (L R : CusFun) : (exPat L R).right = initSide R := by
  unfold exPat initInstPat
  dsimp only
  split
  · rfl
  · split
    · rfl
    · split
      · cases outPairs _ [] <;> rfl
      · rfl

theorem unmarked_of_noMd {F : CusFun} (h : ∀ b ∈ F.blocks, ∀ i ∈ b, i.md = none) : Unmarked F := by
  intro p i l hp hl
  exfalso
  unfold InstAt at hp
  rw [List.getD_eq_getElem?_getD] at hp
  cases hb : F.blocks[p.1]? with
  | none => rw [hb] at hp; simp at hp
  | some b =>
    rw [hb] at hp
    have := h b (List.mem_of_getElem? hb) i (List.mem_of_getElem? hp)
    rw [this] at hl
    exact nomatch hl

theorem out_starts : StartsWithCode outOld := by
  refine ⟨unmarked_of_noMd (by decide), by decide, ?_⟩
  have : ∀ x ∈ (initSide outOld).mds, x.1 = (0, 0) → x.2.stop = false := by decide +kernel
  exact fun m hm => this _ hm rfl

example : NoJump outEnv.fnL ∧ NoJump outEnv.fnR ∧ (∃ F, (exPat outOld outNew).left = initSide F ∧ StartsWithCode F) := by
  refine ⟨?_, ?_, outOld, exPat_left _ _, out_starts⟩
  · intro t ht; cases ht; decide
  · intro t ht; cases ht; decide

/-! ### C113: matched code is an occurrence of the pattern -/

/-- The patterns come from functions whose operands are as they should be. -/
def FromFunctions (E : CusEnv) : Prop :=
  ∀ P ∈ E.insts, ∃ L R, P.left = initSide L ∧ P.right = initSide R ∧ OperandsInside L ∧ OperandsInside R

/-- C113: if two functions are found equal, the code of each match is an occurrence of the pattern in both of them. -/
def C113_statement : Prop :=
  ∀ (E : CusEnv) (fuel : Nat) (aligned : List (Pos × Pos)) (s : CSt), FromFunctions E →
    E.compareEntry fuel = some (.equal aligned s) → ∀ m ∈ s.log, m.pat ∈ E.insts ∧ ∃ argL argR,
      PatOccurs (str! "old.") E.fnL m.pat.left.fn m.left argL ∧
      PatOccurs (str! "new.") E.fnR m.pat.right.fn m.right argR

/-- The matched code is an occurrence of the pattern, except for operands that are instructions which are not inputs
of the pattern (those after a marked start, see `C113_fails`, and those marked as no input). -/
theorem C113_occurs_partial (E : CusEnv) (fuel : Nat) (aligned : List (Pos × Pos)) (s : CSt) (hF : FromFunctions E)
    (h : E.compareEntry fuel = some (.equal aligned s)) : ∀ m ∈ s.log, m.pat ∈ E.insts ∧ ∃ argL argR,
      PatOccursOn (· ∈ m.pat.left.input) (str! "old.") E.fnL m.pat.left.fn m.left argL ∧
      PatOccursOn (· ∈ m.pat.right.input) (str! "new.") E.fnR m.pat.right.fn m.right argR := by
  refine cmpBlock_log E _ ?_ 0 0 fuel 0 0 [] E.init (fun m hm => nomatch hm) aligned s h
  intro pl pr s P bl br cl cr hP hM
  obtain ⟨L, R, eL, eR, oL, oR⟩ := hF P hP
  obtain ⟨_, _, g1, g2⟩ := hM.grow
  have fL : P.left.fn = L := by rw [eL]; rfl
  have fR : P.right.fn = R := by rw [eR]; rfl
  refine ⟨hP, _, _, g1.1.occurs ?_ ?_, g2.1.occurs ?_ ?_⟩
  · intro n hn
    show _ ∈ P.left.input
    rw [eL]; exact initSide_arg L n (by rw [← fL]; exact hn)
  · show OperandsInside P.left.fn
    rw [fL]; exact oL
  · intro n hn
    show _ ∈ P.right.input
    rw [eR]; exact initSide_arg R n (by rw [← fR]; exact hn)
  · show OperandsInside P.right.fn
    rw [fR]; exact oR

/-- For patterns without marks, all operands are as in the pattern. -/
theorem C113_unmarked_partial (E : CusEnv) (fuel : Nat) (aligned : List (Pos × Pos)) (s : CSt) (hF : FromFunctions E)
    (hU : ∀ P ∈ E.insts, Unmarked P.left.fn ∧ Unmarked P.right.fn)
    (h : E.compareEntry fuel = some (.equal aligned s)) : ∀ m ∈ s.log, m.pat ∈ E.insts ∧ ∃ argL argR,
      PatOccurs (str! "old.") E.fnL m.pat.left.fn m.left argL ∧
      PatOccurs (str! "new.") E.fnR m.pat.right.fn m.right argR := by
  intro m hm
  obtain ⟨hP, aL, aR, h1, h2⟩ := C113_occurs_partial E fuel aligned s hF h m hm
  obtain ⟨L, R, eL, eR, oL, oR⟩ := hF m.pat hP
  obtain ⟨uL, uR⟩ := hU m.pat hP
  have key : ∀ (S : PSide) (F : CusFun) (pre : Str) (M : CusFun) (f : List (Pos × Pos)) (arg : Nat → Option CusVal),
      S = initSide F → Unmarked S.fn → OperandsInside F → PatOccursOn (· ∈ S.input) pre M S.fn f arg →
      PatOccurs pre M S.fn f arg := by
    intro S F pre M f arg e u o hO p q hpq
    obtain ⟨ip, im, k1, k2, k3, k4, k5⟩ := hO p q hpq
    refine ⟨ip, im, k1, k2, k3, k4, fun k a b ha hb => k5 k a b ha hb ?_⟩
    intro x y hb'
    subst hb'
    subst e
    exact (initSide_unmarked u).2 x y ((o p ip k1).2 x y (List.mem_of_getElem? hb))
  exact ⟨hP, aL, aR, key _ L _ _ _ _ eL uL oL h1, key _ R _ _ _ _ eR uR oR h2⟩

/-- For patterns in one block, all instructions from the start of the pattern to its end are matched. -/
theorem C113_complete_partial (E : CusEnv) (fuel : Nat) (aligned : List (Pos × Pos)) (s : CSt)
    (hP : ∀ P ∈ E.insts, ∀ S ∈ [P.left, P.right], ∃ F, S = initSide F ∧ OneBlockFn F)
    (h : E.compareEntry fuel = some (.equal aligned s)) :
    ∀ m ∈ s.log, AllMatched m.pat.left m.left ∧ AllMatched m.pat.right m.right := by
  refine cmpBlock_log E _ ?_ 0 0 fuel 0 0 [] E.init (fun m hm => nomatch hm) aligned s h
  intro pl pr s P bl br cl cr hPm hM
  have key : ∀ S ∈ [P.left, P.right], OneBlock S := by
    intro S hS
    obtain ⟨F, rfl, hl, ht⟩ := hP P hPm S hS
    refine ⟨?_, initSide_start_block F hl⟩
    show F.succsOf 0 = []
    unfold CusFun.succsOf
    cases hg : (F.block 0).getLast? with
    | none => rfl
    | some t => exact ht t hg
  obtain ⟨_, _, g1, g2⟩ := hM.grow
  have h1 := compare_allMatched (E.envL P) (key P.left (by simp)) pl (by rw [hM.left])
  have h2 := compare_allMatched (E.envR P) (key P.right (by simp)) pr (by rw [hM.right])
  rw [hM.left] at h1
  rw [hM.right] at h2
  exact ⟨(h1.kept g1.2.2).allMatched, (h2.kept g2.2.2).allMatched⟩

/-- Decides `OperandsInside`. -/
def insideB (F : CusFun) : Bool :=
  F.positions.all fun p => p.2.2.args.all fun v => match v with
    | .arg n => decide (n < F.params.length)
    | .inst b j => decide (j + 1 < (F.blocks.getD b []).length)
    | _ => true

theorem inside_of {F : CusFun} (h : insideB F = true) : OperandsInside F := by
  intro p i hp
  unfold insideB at h
  rw [List.all_eq_true] at h
  have h1 := h (p.1, p.2, i) ((mem_positions F p.1 p.2 i).2 hp)
  rw [List.all_eq_true] at h1
  exact ⟨fun n hn => of_decide_eq_true (h1 _ hn), fun b j hj => of_decide_eq_true (h1 _ hj)⟩

theorem out_from : FromFunctions outEnv := by
  intro P hP
  rw [List.mem_singleton.1 hP]
  exact ⟨outOld, outNew, exPat_left _ _, exPat_right _ _, inside_of (by decide +kernel), inside_of (by decide +kernel)⟩

/-- The hypotheses hold of the pattern with two outputs, of which a match is found. -/
example : FromFunctions outEnv ∧ (∀ P ∈ outEnv.insts, Unmarked P.left.fn ∧ Unmarked P.right.fn) ∧
    (∀ P ∈ outEnv.insts, ∀ S ∈ [P.left, P.right], ∃ F, S = initSide F ∧ OneBlockFn F) ∧
    isEqual (outEnv.compareEntry 20) [((0, 2), (0, 2)), ((0, 3), (0, 3))]
      [([((0, 0), (0, 0)), ((0, 1), (0, 1))], [((0, 0), (0, 0)), ((0, 1), (0, 1))])] = true := by
  refine ⟨out_from, ?_, ?_, by decide +kernel⟩
  · intro P hP
    rw [List.mem_singleton.1 hP, exPat_left, exPat_right]
    exact ⟨unmarked_of_noMd (by decide), unmarked_of_noMd (by decide)⟩
  · intro P hP S hS
    rw [List.mem_singleton.1 hP, exPat_left, exPat_right] at hS
    simp only [List.mem_cons, List.not_mem_nil, or_false] at hS
    rcases hS with rfl | rfl
    · exact ⟨outOld, rfl, rfl, fun t ht => by cases ht; rfl⟩
    · exact ⟨outNew, rfl, rfl, fun t ht => by cases ht; rfl⟩

/-! ### C119: inputs of a match -/

/-- C119: the values that an argument of a pattern stands for in the two programs were found equal. -/
def C119_statement : Prop :=
  ∀ (E : CusEnv) (pl pr : Pos) (s s' : CSt), FromFunctions E → PairsAgree s → E.matchInst pl pr s E.insts = some s' →
    ∃ m, s'.log = s.log ++ [m] ∧ m.pat ∈ E.insts ∧
      ∀ n l r, n < m.pat.left.fn.params.length → InputPair E m n l r → SameNumber s l r

/-- The values of the arguments were found equal, if each argument is used by the matched code of one of the sides.
Missing: arguments that are used by other instructions of the pattern only (see `C119_fails`), and patterns with several
blocks. -/
theorem C119_inputs_partial (E : CusEnv) (pl pr : Pos) (s s' : CSt) (hF : FromFunctions E) (hs : PairsAgree s)
    (hU : ∀ P ∈ E.insts, OneBlockFn P.left.fn ∧ OneBlockFn P.right.fn ∧
      P.left.fn.params.length = P.right.fn.params.length ∧
      ∀ n, n < P.left.fn.params.length → UsesArgument P.left.fn n ∨ UsesArgument P.right.fn n)
    (h : E.matchInst pl pr s E.insts = some s') :
    ∃ m, s'.log = s.log ++ [m] ∧ m.pat ∈ E.insts ∧
      ∀ n l r, n < m.pat.left.fn.params.length → InputPair E m n l r → SameNumber s l r := by
  obtain ⟨P, hP, bl, br, cl, cr, hM, rfl⟩ := matchInst_some E _ _ _ _ _ h
  refine ⟨_, rfl, hP, ?_⟩
  obtain ⟨iL, iR, g1, g2⟩ := hM.grow
  obtain ⟨L, R, eL, eR, oL, oR⟩ := hF P hP
  obtain ⟨uL, uR, hlen, hu⟩ := hU P hP
  -- an argument used by the code of a side is mapped by the match
  have key : ∀ (V : PEnv) (F : CusFun) (pos : Pos) (c : PCmp), V.side = initSide F → OneBlockFn F → OperandsInside F →
      V.compare pos = (true, c) → PInv V c → ∀ n, n < F.params.length → UsesArgument F n →
      (c.patIn.lookup (.arg n)).isSome := by
    intro V F pos c e u o hc hi n hn u3
    obtain ⟨u1, u2⟩ := u
    have ho : OneBlock V.side := by
      rw [e]
      refine ⟨?_, initSide_start_block F u1⟩
      show F.succsOf 0 = []
      unfold CusFun.succsOf
      cases hg : (F.block 0).getLast? with
      | none => rfl
      | some t => exact u2 t hg
    have ha := (compare_allMatched V ho pos (by rw [hc])).allMatched
    rw [hc, e] at ha
    obtain ⟨j, i, hi1, hi2, hi3, hi4⟩ := u3
    obtain ⟨q, hq⟩ := ha j hi3 (by
      have := hi1
      unfold InstAt at this
      exact (List.getElem?_eq_some_iff.1 this).1) hi4
    obtain ⟨ip, im, k1, k2, k3, k4, _, k6⟩ := hi _ hq
    have : ip = i := by
      rw [e] at k1
      have k1' : InstAt F (0, j) ip := k1
      unfold InstAt at k1' hi1
      rw [hi1] at k1'
      exact (Option.some.inj k1').symm
    subst this
    obtain ⟨k, hk⟩ := List.mem_iff_getElem?.1 hi2
    have hkl := (List.getElem?_eq_some_iff.1 hk).1
    have hm : im.args[k]? = some (im.args[k]'(by omega)) := List.getElem?_eq_getElem _
    have := (k6 _ (zip_getElem? _ _ k _ _ hm hk)).2 (by rw [e]; exact initSide_arg F n hn)
    dsimp only at this
    rw [this]; rfl
  -- the value of an argument in a match
  have val : ∀ (V : PEnv) (F : CusFun) (c : PCmp), V.side = initSide F → PInv V c → ∀ n v, n < F.params.length →
      (∃ p q, (p, q) ∈ c.matched ∧ OperandPair F V.modFn p q (.arg n) v) → c.patIn.lookup (.arg n) = some v := by
    intro V F c e hi n v hn ⟨p, q, hpq, jp, jm, e1, e2, k, e3, e4⟩
    obtain ⟨ip, im, k1, k2, k3, k4, _, k6⟩ := hi _ hpq
    have h1 : ip = jp := by
      rw [e] at k1
      have k1' : InstAt F p ip := k1
      unfold InstAt at k1' e1
      rw [e1] at k1'
      exact (Option.some.inj k1').symm
    have h2 : im = jm := by
      have k2' : InstAt V.modFn q im := k2
      unfold InstAt at k2' e2
      rw [e2] at k2'
      exact (Option.some.inj k2').symm
    subst h1 h2
    exact (k6 _ (zip_getElem? _ _ k _ _ e4 e3)).2 (by rw [e]; exact initSide_arg F n hn)
  intro n l r hn hIn
  have fL : P.left.fn = L := by rw [eL]; rfl
  have fR : P.right.fn = R := by rw [eR]; rfl
  have hn : n < P.left.fn.params.length := hn
  have hnL : n < L.params.length := by rw [← fL]; exact hn
  have hnR : n < R.params.length := by rw [← fR, ← hlen]; exact hn
  have hun := hu n hn
  rw [fL] at uL hun
  rw [fR] at uR hun
  have hmap : (bl.patIn.lookup (.arg n)).isSome ∨ (br.patIn.lookup (.arg n)).isSome :=
    hun.imp (fun u => key (E.envL P) L pl bl eL uL oL hM.left iL n hnL u)
      (fun u => key (E.envR P) R pr br eR uR oR hM.right iR n hnR u)
  obtain ⟨i1, i2⟩ := hIn
  have a1 := val (E.envL P) L cl eL g1.1 n l hnL (by rw [← fL]; exact i1)
  have a2 := val (E.envR P) R cr eR g2.1 n r hnR (by rw [← fR]; exact i2)
  obtain ⟨l', r', b1, b2, b3⟩ := inputsValid_same (E.envL P) (E.envR P) s (List.range P.left.fn.params.length) bl br iL iR
    (by rw [hM.valid]) n (List.mem_range.2 hn) hmap
  rw [hM.valid] at b1 b2
  have a1' : cl.patIn.lookup (.arg n) = some l' := b1
  have a2' : cr.patIn.lookup (.arg n) = some r' := b2
  rw [a1] at a1'
  rw [a2] at a2'
  cases a1'
  cases a2'
  rcases b3 with b3 | b3 | b3
  · exact b3
  · exact (other_same hs).1 b3
  · exact (other_same hs).2 b3

theorem out_pairs : PairsAgree outEnv.init := by
  constructor
  · intro l n h p hp
    simp only [show outEnv.init.snL = [((true, .arg 0), 0), ((true, .blk 0), 1)] from rfl,
      show outEnv.init.snR = [((false, .arg 0), 0), ((false, .blk 0), 1)] from rfl,
      show outEnv.init.mapped = [(0, ((true, .arg 0), (false, .arg 0))), (1, ((true, .blk 0), (false, .blk 0)))]
        from rfl] at h hp ⊢
    have h := plookup_mem' h
    simp only [List.mem_cons, Prod.mk.injEq, List.not_mem_nil, or_false] at h
    rcases h with h | h
    · obtain ⟨_, rfl⟩ := h
      cases hp; decide
    · obtain ⟨_, rfl⟩ := h
      cases hp; decide
  · intro l n h p hp
    simp only [show outEnv.init.snL = [((true, .arg 0), 0), ((true, .blk 0), 1)] from rfl,
      show outEnv.init.snR = [((false, .arg 0), 0), ((false, .blk 0), 1)] from rfl,
      show outEnv.init.mapped = [(0, ((true, .arg 0), (false, .arg 0))), (1, ((true, .blk 0), (false, .blk 0)))]
        from rfl] at h hp ⊢
    have h := plookup_mem' h
    simp only [List.mem_cons, Prod.mk.injEq, List.not_mem_nil, or_false] at h
    rcases h with h | h
    · obtain ⟨_, rfl⟩ := h
      cases hp; decide
    · obtain ⟨_, rfl⟩ := h
      cases hp; decide

/-- The hypotheses hold of the pattern with two outputs at the start of the comparison. -/
example : FromFunctions outEnv ∧ PairsAgree outEnv.init ∧
    (∀ P ∈ outEnv.insts, OneBlockFn P.left.fn ∧ OneBlockFn P.right.fn ∧
      P.left.fn.params.length = P.right.fn.params.length ∧
      ∀ n, n < P.left.fn.params.length → UsesArgument P.left.fn n ∨ UsesArgument P.right.fn n) ∧
    (outEnv.matchInst (0, 0) (0, 0) outEnv.init outEnv.insts).isSome = true := by
  refine ⟨out_from, out_pairs, ?_, by decide +kernel⟩
  intro P hP
  rw [List.mem_singleton.1 hP, exPat_left, exPat_right]
  refine ⟨⟨rfl, fun t ht => by cases ht; rfl⟩, ⟨rfl, fun t ht => by cases ht; rfl⟩, rfl, ?_⟩
  intro n hn
  left
  have hn : n < 1 := hn
  have : n = 0 := by omega
  subst this
  refine ⟨0, _, rfl, by decide, by decide +kernel, ?_⟩
  intro k _ h2 m hm
  have : k = 0 := by omega
  subst this
  exact out_starts.2.2 m hm

end DK
