import Verif.Props.CustomPatterns

/-! Custom patterns: loading of pattern files. -/

set_option autoImplicit false

namespace DK

open Spec

/-- C115: loading of a pattern file does not crash. -/
def C115_statement : Prop := ∀ M : List CusFun, loadModule M M ⟨[], []⟩ ≠ none

/-- The new side is only declared. -/
def declNew : CusFun := ⟨str! "diffkemp.new.p", [], []⟩

theorem C115_fails : ¬ C115_statement := fun h => h [loopOld, declNew] (by decide +kernel)

theorem sideStep_out (F : CusFun) (s : SideSt) (p : Nat × Nat × CusInst) :
    (sideStep F s p).out = if s.out.isNone && isOutputInst p.2.2 then some (p.1, p.2.1) else s.out := by
  unfold sideStep
  dsimp only
  cases p.2.2.metadata <;> dsimp only <;> (repeat' split) <;> simp_all

theorem sideFold_out (F : CusFun) (l : List (Nat × Nat × CusInst)) (s : SideSt) (Q : Pos → Prop)
    (hs : ∀ x, s.out = some x → Q x) (hl : ∀ p ∈ l, isOutputInst p.2.2 = true → Q (p.1, p.2.1)) :
    ∀ x, (l.foldl (sideStep F) s).out = some x → Q x := by
  induction l generalizing s with
  | nil => exact hs
  | cons p t ih =>
    refine ih _ ?_ (fun q hq => hl q (List.mem_cons_of_mem _ hq))
    intro x hx
    rw [sideStep_out] at hx
    split at hx
    · rename_i hc
      simp only [Bool.and_eq_true] at hc
      cases hx
      exact hl p (List.mem_cons_self ..) hc.2
    · exact hs x hx

theorem initSide_out (F : CusFun) (o : Pos) (h : (initSide F).out = some o) :
    ∃ i, F.instAt o.1 o.2 = some i ∧ isOutputInst i = true := by
  refine sideFold_out F F.positions { input := (List.range F.params.length).map .arg }
    (fun o => ∃ i, F.instAt o.1 o.2 = some i ∧ isOutputInst i = true) (fun x hx => nomatch hx) ?_ o h
  intro p hp ho
  exact ⟨p.2.2, (mem_positions F p.1 p.2.1 p.2.2).1 hp, ho⟩

theorem outPairs_mem (l : List (CusVal × CusVal)) (acc m : List (Pos × Pos)) (h : outPairs l acc = some m) :
    ∀ p ∈ m, p ∈ acc ∨ (CusVal.inst p.1.1 p.1.2, CusVal.inst p.2.1 p.2.2) ∈ l := by
  induction l generalizing acc with
  | nil => cases h; exact fun p hp => Or.inl hp
  | cons q t ih =>
    unfold outPairs at h
    split at h
    · rename_i heq; exact nomatch heq
    · rename_i b i b' i' r heq
      cases heq
      intro p hp
      rcases ih _ h p hp with hp | hp
      · rcases List.mem_append.1 hp with hp | hp
        · exact Or.inl (List.mem_filter.1 hp).1
        · rw [List.mem_singleton] at hp
          subst hp
          exact Or.inr (List.mem_cons_self ..)
      · exact Or.inr (List.mem_cons_of_mem _ hp)
    · exact nomatch h

theorem output_of {F : CusFun} {pos : Pos} {i : CusInst} (hi : F.instAt pos.1 pos.2 = some i) (ho : isOutputInst i = true)
    {k : Nat} {p : Pos} (hk : i.args[k]? = some (.inst p.1 p.2)) (hc : k < outCount i) : Output F k p := by
  refine ⟨pos, i, hi, hk, ?_⟩
  unfold isOutputInst at ho
  simp only [Bool.or_eq_true, Bool.and_eq_true, decide_eq_true_eq] at ho
  rcases ho with ho | ho
  · exact Or.inl ho
  · refine Or.inr ⟨ho.1, ho.2, ?_⟩
    unfold outCount at hc
    rw [if_pos ho.1] at hc
    omega

theorem initInstPat_of {name : Str} {L R : CusFun} {P : InstPat} (h : initInstPat name L R = some P) :
    P.name = name ∧ P.left.fn = L ∧ P.right.fn = R ∧ L.params.length = R.params.length ∧
    ∀ p q, (p, q) ∈ P.outMap → ∃ k, Output L k p ∧ Output R k q := by
  unfold initInstPat at h
  dsimp only at h
  split at h
  · exact nomatch h
  · rename_i hlen
    have hlen : L.params.length = R.params.length := by simpa using hlen
    split at h
    · exact nomatch h
    · rename_i houts
      have houts : (initSide L).outs = (initSide R).outs := by simpa using houts
      split at h
      · rename_i ol or hol hor
        obtain ⟨m, hm, rfl⟩ := Option.map_eq_some_iff.1 h
        refine ⟨rfl, rfl, rfl, hlen, ?_⟩
        intro p q hpq
        rcases outPairs_mem _ _ _ hm _ hpq with hx | hx
        · exact nomatch hx
        · obtain ⟨k, hk⟩ := List.mem_iff_getElem?.1 hx
          rw [List.getElem?_take] at hk
          split at hk
          · rename_i hlt
            rw [List.getElem?_zip_eq_some] at hk
            obtain ⟨opos, hopos, hol'⟩ := Option.bind_eq_some_iff.1 hol
            obtain ⟨rpos, hrpos, hor'⟩ := Option.bind_eq_some_iff.1 hor
            obtain ⟨_, e, ho1⟩ := initSide_out L opos hopos
            rw [hol'] at e; cases e
            obtain ⟨_, e, ho2⟩ := initSide_out R rpos hrpos
            rw [hor'] at e; cases e
            have c1 : (initSide L).outs = outCount ol := by
              show (match (initSide L).out.bind fun o => L.instAt o.1 o.2 with | some i => outCount i | none => 0) = _
              rw [hol]
            have c2 : (initSide R).outs = outCount or := by
              show (match (initSide R).out.bind fun o => R.instAt o.1 o.2 with | some i => outCount i | none => 0) = _
              rw [hor]
            exact ⟨k, output_of hol' ho1 hk.1 (by omega), output_of hor' ho2 hk.2 (by omega)⟩
          · exact nomatch hk
      · cases h
        exact ⟨rfl, rfl, rfl, hlen, fun p q hpq => nomatch hpq⟩

theorem loadPair_inst {name : Str} {L R : CusFun} {P : InstPat} (h : loadPair name L R = .inst P) :
    initInstPat name L R = some P := by
  unfold loadPair at h
  split at h
  · dsimp only at h
    split at h
    · split at h
      · split at h
        · split at h <;> exact nomatch h
        · exact nomatch h
      · split at h
        · rename_i heq; cases h; exact heq
        · exact nomatch h
    · split at h
      · rename_i heq; cases h; exact heq
      · exact nomatch h
  · exact nomatch h

theorem loadPair_value {name : Str} {L R : CusFun} {V : ValPat} (h : loadPair name L R = .value V) :
    V.name = name ∧ V.fnL = L.name ∧ V.fnR = R.name ∧ ∃ i j, L.blocks.head? = some [i] ∧ R.blocks.head? = some [j] ∧
      i.args.head? = some V.valL ∧ j.args.head? = some V.valR := by
  unfold loadPair at h
  split at h
  · rename_i eL tL eR tR hL hR
    dsimp only at h
    split at h
    · rename_i iL iR
      split at h
      · split at h
        · rename_i vL tl vR tr h1 h2
          split at h
          · cases h
            exact ⟨rfl, rfl, rfl, iL, iR, by rw [hL]; rfl, by rw [hR]; rfl, by rw [h1]; rfl, by rw [h2]; rfl⟩
          · exact nomatch h
        · exact nomatch h
      · split at h <;> exact nomatch h
    · split at h <;> exact nomatch h
  · exact nomatch h

theorem loadPair_crash {name : Str} {L R : CusFun} (h : loadPair name L R = .crash) :
    L.blocks = [] ∨ R.blocks = [] ∨ ∃ i j, L.blocks.head? = some [i] ∧ R.blocks.head? = some [j] ∧ (i.args = [] ∨ j.args = []) := by
  unfold loadPair at h
  split at h
  · rename_i eL tL eR tR hL hR
    dsimp only at h
    split at h
    · rename_i iL iR
      split at h
      · split at h
        · split at h <;> exact nomatch h
        · rename_i hn
          refine Or.inr (Or.inr ⟨iL, iR, by rw [hL]; rfl, by rw [hR]; rfl, ?_⟩)
          cases h1 : iL.args with
          | nil => exact Or.inl rfl
          | cons a t =>
            cases h2 : iR.args with
            | nil => exact Or.inr rfl
            | cons b t' => exact absurd h2 (hn _ _ _ _ h1)
      · split at h <;> exact nomatch h
    · split at h <;> exact nomatch h
  · rename_i hn
    cases h1 : L.blocks with
    | nil => exact Or.inl rfl
    | cons a t =>
      cases h2 : R.blocks with
      | nil => exact Or.inr (Or.inl rfl)
      | cons b t' => exact absurd h2 (hn _ _ _ _ h1)

theorem side_name {f : CusFun} (h : ¬ (f.blocks = [] ∨ startsWith f.name (fullPrefix true) = false)) :
    f.blocks ≠ [] ∧ f.name = str! "diffkemp.old." ++ f.name.drop (fullPrefix true).length := by
  simp only [not_or, Bool.not_eq_false] at h
  obtain ⟨r, hr⟩ := startsWith_iff.1 h.2
  refine ⟨h.1, ?_⟩
  rw [hr, List.drop_left]
  rfl

theorem found_side {M : List CusFun} {f g : CusFun} (hf : f ∈ M)
    (h : ¬ (f.blocks = [] ∨ startsWith f.name (fullPrefix true) = false))
    (hg : M.find? (fun g => decide (g.name = fullPrefix false ++ f.name.drop (fullPrefix true).length)) = some g) :
    Sides M (f.name.drop (fullPrefix true).length) f g := by
  have h1 := side_name h
  have h2 := List.find?_some hg
  simp only [decide_eq_true_eq] at h2
  exact ⟨hf, List.mem_of_find?_eq_some hg, h1.1, h1.2, h2⟩

/-- What is loaded from the remaining functions `l` of a module. -/
theorem loadModule_spec (M l : List CusFun) (hl : ∀ f ∈ l, f ∈ M) (hM : Loadable M) (S : PatSet)
    (hi : ∀ P ∈ S.insts, InstPatOf M P) (hv : ∀ V ∈ S.values, ValPatOf M V) :
    ∃ S', loadModule M l S = some S' ∧ (∀ P ∈ S'.insts, InstPatOf M P) ∧ (∀ V ∈ S'.values, ValPatOf M V) ∧
      (∀ P ∈ S.insts, P ∈ S'.insts) ∧
      ∀ f ∈ l, f.blocks ≠ [] → startsWith f.name (fullPrefix true) = true →
        ∀ g, M.find? (fun g => decide (g.name = fullPrefix false ++ f.name.drop (fullPrefix true).length)) = some g →
          ∀ P, loadPair (f.name.drop (fullPrefix true).length) f g = .inst P → P ∈ S'.insts := by
  induction l generalizing S with
  | nil => exact ⟨S, rfl, hi, hv, fun _ h => h, fun f hf => nomatch hf⟩
  | cons f r ih =>
    have hr := fun x hx => hl x (List.mem_cons_of_mem _ hx)
    have hf := hl f (List.mem_cons_self ..)
    unfold loadModule
    dsimp only
    split
    · rename_i hc
      obtain ⟨S', h1, h2, h3, h4, h5⟩ := ih hr S hi hv
      refine ⟨S', h1, h2, h3, h4, fun x hx hb hn => ?_⟩
      rcases List.mem_cons.1 hx with e | e
      · subst e
        rcases hc with hc | hc
        · exact absurd hc hb
        · rw [hc] at hn; exact nomatch hn
      · exact h5 x e hb hn
    · rename_i hc
      split
      · rename_i hg
        obtain ⟨S', h1, h2, h3, h4, h5⟩ := ih hr S hi hv
        refine ⟨S', h1, h2, h3, h4, fun x hx hb hn => ?_⟩
        rcases List.mem_cons.1 hx with e | e
        · subst e
          intro g hg'
          rw [hg] at hg'
          exact nomatch hg'
        · exact h5 x e hb hn
      · rename_i g hg
        have hS := found_side hf hc hg
        split
        · rename_i hp
          obtain ⟨l1, l2⟩ := hM _ _ _ hS
          rcases loadPair_crash hp with e | e | ⟨i, j, hi', hj, e⟩
          · exact absurd e hS.2.2.1
          · exact absurd e l1
          · obtain ⟨n1, n2⟩ := l2 i j hi' hj
            rcases e with e | e
            · exact absurd e n1
            · exact absurd e n2
        · rename_i hp
          obtain ⟨S', h1, h2, h3, h4, h5⟩ := ih hr S hi hv
          refine ⟨S', h1, h2, h3, h4, fun x hx hb hn => ?_⟩
          rcases List.mem_cons.1 hx with e | e
          · subst e
            intro g' hg' P hP
            rw [hg] at hg'
            cases hg'
            rw [hp] at hP
            exact nomatch hP
          · exact h5 x e hb hn
        · rename_i P hp
          have hP := initInstPat_of (loadPair_inst hp)
          obtain ⟨S', h1, h2, h3, h4, h5⟩ := ih hr ⟨S.insts ++ [P], S.values⟩ (by
            intro Q hQ
            rcases List.mem_append.1 hQ with e | e
            · exact hi Q e
            · rw [List.mem_singleton] at e
              subst e
              exact ⟨f, g, by rw [hP.1]; exact hS, hP.2.1, hP.2.2.1, hP.2.2.2.1, hP.2.2.2.2⟩) hv
          refine ⟨S', h1, h2, h3, fun Q hQ => h4 Q (List.mem_append_left _ hQ), fun x hx hb hn => ?_⟩
          rcases List.mem_cons.1 hx with e | e
          · subst e
            intro g' hg' P' hP'
            rw [hg] at hg'
            cases hg'
            rw [hp] at hP'
            cases hP'
            exact h4 _ (by simp)
          · exact h5 x e hb hn
        · rename_i V hp
          obtain ⟨v1, v2, v3, i, j, v4⟩ := loadPair_value hp
          obtain ⟨S', h1, h2, h3, h4, h5⟩ := ih hr ⟨S.insts, S.values ++ [V]⟩ hi (by
            intro W hW
            rcases List.mem_append.1 hW with e | e
            · exact hv W e
            · rw [List.mem_singleton] at e
              subst e
              exact ⟨f, g, i, j, by rw [v1]; exact hS, v2.symm, v3.symm, v4⟩)
          refine ⟨S', h1, h2, h3, h4, fun x hx hb hn => ?_⟩
          rcases List.mem_cons.1 hx with e | e
          · subst e
            intro g' hg' P' hP'
            rw [hg] at hg'
            cases hg'
            rw [hp] at hP'
            exact nomatch hP'
          · exact h5 x e hb hn

theorem givesOutputs_iff {i : CusInst} : isOutputInst i = true ↔ GivesOutputs i := by
  unfold isOutputInst GivesOutputs
  simp only [Bool.or_eq_true, Bool.and_eq_true, decide_eq_true_eq]

theorem sideFold_out_none (F : CusFun) (l : List (Nat × Nat × CusInst)) (s : SideSt)
    (hl : ∀ p ∈ l, isOutputInst p.2.2 = false) : (l.foldl (sideStep F) s).out = s.out := by
  induction l generalizing s with
  | nil => rfl
  | cons p t ih =>
    rw [List.foldl_cons, ih _ (fun q hq => hl q (List.mem_cons_of_mem _ hq)), sideStep_out, hl p (List.mem_cons_self ..)]
    simp

theorem sideFold_out_some (F : CusFun) (l : List (Nat × Nat × CusInst)) (s : SideSt) (o : Pos) (hs : s.out = some o) :
    (l.foldl (sideStep F) s).out = some o := by
  induction l generalizing s with
  | nil => exact hs
  | cons p t ih => exact ih _ (by rw [sideStep_out, hs]; rfl)

theorem initSide_outputs {F : CusFun} {vs : List Pos} (h : SideOutputs F vs) :
    ∃ o i, (initSide F).out = some o ∧ F.instAt o.1 o.2 = some i ∧ (initSide F).outs = vs.length ∧
      i.args.take vs.length = vs.map (fun p => .inst p.1 p.2) := by
  obtain ⟨before, i, after, hb, hn, hi⟩ := h
  have hpos : F.positions = (before.zipIdx).map (fun q => (0, q.2, q.1)) ++ (0, before.length, i) ::
      (after.zipIdx (before.length + 1)).map (fun q => (0, q.2, q.1)) := by
    unfold CusFun.positions
    rw [hb]
    simp [List.zipIdx_append]
  have hout : isOutputInst i = true := by
    rw [givesOutputs_iff]
    rcases hi with hi | hi
    · exact Or.inl hi.1
    · refine Or.inr ⟨hi.1, ?_⟩
      rw [hi.2, List.getLast?_append]
      rfl
  have ho : (initSide F).out = some (0, before.length) := by
    show (F.positions.foldl (sideStep F) { input := (List.range F.params.length).map .arg }).out = _
    rw [hpos, List.foldl_append, List.foldl_cons]
    refine sideFold_out_some F _ _ _ ?_
    rw [sideStep_out, sideFold_out_none, hout]
    · rfl
    · intro p hp
      obtain ⟨q, hq, rfl⟩ := List.mem_map.1 hp
      have hq := List.fst_mem_of_mem_zipIdx hq
      exact Bool.eq_false_iff.2 fun h => hn _ hq (givesOutputs_iff.1 h)
  have hat : F.instAt 0 before.length = some i := by
    unfold CusFun.instAt CusFun.block
    rw [hb]
    simp
  refine ⟨(0, before.length), i, ho, hat, ?_, ?_⟩
  · show (match (initSide F).out.bind fun o => F.instAt o.1 o.2 with | some i => outCount i | none => 0) = _
    rw [ho]
    dsimp only [Option.bind]
    rw [hat]
    unfold outCount
    dsimp only
    rcases hi with hi | hi
    · rw [hi.1, hi.2]; simp
    · rw [hi.1, hi.2]; simp
  · rcases hi with hi | hi
    · rw [hi.2]; exact List.take_of_length_le (by simp)
    · rw [hi.2]; exact List.take_left' (by simp)

theorem outPairs_total (vs ws : List Pos) (acc : List (Pos × Pos)) :
    ∃ m, outPairs ((vs.map fun p => CusVal.inst p.1 p.2).zip (ws.map fun p => CusVal.inst p.1 p.2)) acc = some m ∧
      (∀ x ∈ acc, x.1 ∉ vs → x ∈ m) ∧ (vs.Nodup → ∀ (k : Nat) v w, vs[k]? = some v → ws[k]? = some w → (v, w) ∈ m) := by
  induction vs generalizing ws acc with
  | nil => exact ⟨acc, rfl, fun x hx _ => hx, fun _ k v w h => by simp at h⟩
  | cons v t ih =>
    cases ws with
    | nil => exact ⟨acc, rfl, fun x hx _ => hx, fun _ k v w _ h => by simp at h⟩
    | cons w u =>
      rw [List.map_cons, List.map_cons, List.zip_cons_cons, outPairs]
      obtain ⟨m, h1, h2, h3⟩ := ih u (acc.filter (fun p => decide (p.1 ≠ (v.1, v.2))) ++ [((v.1, v.2), (w.1, w.2))])
      refine ⟨m, h1, ?_, ?_⟩
      · intro x hx hn
        simp only [List.mem_cons, not_or] at hn
        refine h2 x (List.mem_append_left _ (List.mem_filter.2 ⟨hx, ?_⟩)) hn.2
        simp only [decide_eq_true_eq]
        exact hn.1
      · intro hnd k a b ha hb
        rw [List.nodup_cons] at hnd
        cases k with
        | zero =>
          simp at ha hb
          subst ha; subst hb
          exact h2 (v, w) (List.mem_append_right _ (List.mem_singleton.2 rfl)) hnd.1
        | succ k =>
          rw [List.getElem?_cons_succ] at ha hb
          exact h3 hnd.2 k a b ha hb

theorem initInstPat_outputs {name : Str} {L R : CusFun} (hp : L.params.length = R.params.length) {vs ws : List Pos}
    (hL : SideOutputs L vs) (hR : SideOutputs R ws) (hlen : vs.length = ws.length) :
    ∃ P, initInstPat name L R = some P ∧
      (vs.Nodup → ∀ (k : Nat) v w, vs[k]? = some v → ws[k]? = some w → (v, w) ∈ P.outMap) := by
  obtain ⟨oL, iL, l1, l2, l3, l4⟩ := initSide_outputs hL
  obtain ⟨oR, iR, r1, r2, r3, r4⟩ := initSide_outputs hR
  unfold initInstPat
  dsimp only
  rw [if_neg (by simp [hp]), if_neg (by rw [l3, r3]; simp [hlen]), l3, l1, r1]
  dsimp only [Option.bind]
  rw [l2, r2]
  dsimp only
  rw [show List.take vs.length (iL.args.zip iR.args) = (iL.args.take vs.length).zip (iR.args.take vs.length) from
    List.take_zipWith, l4, hlen, r4]
  obtain ⟨m, h1, _, h3⟩ := outPairs_total vs ws []
  rw [h1]
  exact ⟨_, rfl, h3⟩

/-- Files whose new sides have code and whose sides of a single instruction return a value are loaded. The patterns
are those of the functions of the file, with their outputs in order; and pairs of functions of one block with the same
number of arguments, the same number of outputs and more than one instruction become patterns. Missing: other files (see `C115_fails`). -/
theorem C115_loading_partial (M : List CusFun) (hM : Loadable M) :
    ∃ S, loadModule M M ⟨[], []⟩ = some S ∧ (∀ P ∈ S.insts, InstPatOf M P) ∧ (∀ V ∈ S.values, ValPatOf M V) ∧
      ((M.map CusFun.name).Nodup → ∀ name L R vs ws, Sides M name L R → L.params.length = R.params.length →
        SideOutputs L vs → SideOutputs R ws → vs.length = ws.length → (∀ i, L.blocks.head? ≠ some [i]) →
        ∃ P ∈ S.insts, P.name = name ∧ P.left.fn = L ∧ P.right.fn = R ∧
          (vs.Nodup → ∀ (k : Nat) v w, vs[k]? = some v → ws[k]? = some w → (v, w) ∈ P.outMap)) := by
  obtain ⟨S, h1, h2, h3, _, h5⟩ := loadModule_spec M M (fun _ h => h) hM ⟨[], []⟩ (fun _ h => nomatch h) (fun _ h => nomatch h)
  refine ⟨S, h1, h2, h3, fun hn name L R vs ws hS hp hL hR hlen hone => ?_⟩
  obtain ⟨s1, s2, s3, s4, s5⟩ := hS
  have hx : startsWith L.name (fullPrefix true) = true := startsWith_iff.2 ⟨name, s4⟩
  have hd : L.name.drop (fullPrefix true).length = name := by
    rw [s4]; exact List.drop_left' rfl
  have hfind : M.find? (fun g => decide (g.name = fullPrefix false ++ L.name.drop (fullPrefix true).length)) = some R := by
    rw [hd]
    clear h5 h2 h3 h1 hM s1
    induction M with
    | nil => exact nomatch s2
    | cons g t ih =>
      rw [List.map_cons, List.nodup_cons] at hn
      rw [List.find?_cons]
      rcases List.mem_cons.1 s2 with e | e
      · subst e
        rw [decide_eq_true (show R.name = fullPrefix false ++ name from s5)]
      · have : g.name ≠ fullPrefix false ++ name := fun eg =>
          hn.1 (List.mem_map.2 ⟨R, e, s5.trans eg.symm⟩)
        rw [decide_eq_false this]
        exact ih hn.2 e
  obtain ⟨P, hP, hout⟩ := initInstPat_outputs (name := name) hp hL hR hlen
  have hload : loadPair name L R = .inst P := by
    obtain ⟨l1, l2⟩ := hM name L R ⟨s1, s2, s3, s4, s5⟩
    unfold loadPair
    split
    · rename_i eL tL eR tR eqL eqR
      dsimp only
      split
      · rename_i iL iR
        exact absurd (by rw [eqL]; rfl) (hone iL)
      · rw [hP]
    · rename_i hno
      cases eL : L.blocks with
      | nil => exact absurd eL s3
      | cons a t =>
        cases eR : R.blocks with
        | nil => exact absurd eR l1
        | cons b t' => exact absurd eR (hno _ _ _ _ eL)
  have hP' := initInstPat_of hP
  exact ⟨P, h5 L s1 s3 hx R hfind P (by rw [hd]; exact hload), hP'.1, hP'.2.1, hP'.2.2.1, hout⟩

/-- A file with one pattern, and another function. -/
def loadFile : List CusFun := [outOld, ⟨str! "other", [false], [[exRet [.arg 0]]]⟩, outNew]

theorem sides_loadFile {name : Str} {L R : CusFun} (h : Sides loadFile name L R) : L = outOld ∧ R = outNew := by
  obtain ⟨h1, h2, _, h4, h5⟩ := h
  unfold loadFile at h1 h2
  simp only [List.mem_cons, List.not_mem_nil, or_false] at h1 h2
  constructor
  · rcases h1 with e | e | e
    · exact e
    · rw [e] at h4; simp at h4
    · rw [e] at h4; simp [outNew] at h4
  · rcases h2 with e | e | e
    · rw [e] at h5; simp [outOld] at h5
    · rw [e] at h5; simp at h5
    · exact e

example : Loadable loadFile ∧ (loadFile.map CusFun.name).Nodup ∧ Sides loadFile (str! "p") outOld outNew ∧
    SideOutputs outOld [(0, 0), (0, 1)] ∧ SideOutputs outNew [(0, 0), (0, 1)] ∧ ∀ i, outOld.blocks.head? ≠ some [i] := by
  refine ⟨?_, by decide, ⟨by decide, by decide, by decide, rfl, rfl⟩, ?_, ?_, fun i h => ?_⟩
  · intro name L R h
    obtain ⟨rfl, rfl⟩ := sides_loadFile h
    exact ⟨by decide, fun i j h => nomatch h⟩
  · exact ⟨[cpCall (str! "f1") [.arg 0], cpCall (str! "f2") [.arg 0]], _, [exRet []], rfl,
      by unfold GivesOutputs; decide, Or.inr ⟨rfl, rfl⟩⟩
  · exact ⟨[cpCall (str! "g1") [.arg 0], cpCall (str! "g2") [.arg 0]], _, [exRet []], rfl,
      by unfold GivesOutputs; decide, Or.inr ⟨rfl, rfl⟩⟩
  · exact nomatch h

end DK
