import Verif.Lemmas.DiffBlocks

/-!
Lemmas: functions that the comparison with patterns finds equal do the same.
-/

set_option autoImplicit false

namespace DK
open Spec

theorem find_block {f : DFun} (hf : DWellFormed f) {B : DBlock} (hB : B ∈ f.blocks) : f.find B.id = some B := by
  have hn := hf.blocks
  unfold DFun.find
  generalize f.blocks = bs at hn hB
  induction bs with
  | nil => cases hB
  | cons C bs ih =>
    simp only [List.map_cons, List.nodup_cons] at hn
    rcases List.mem_cons.mp hB with e | hB
    · subst e; simp
    · have : C.id ≠ B.id := fun e => hn.1 (e ▸ List.mem_map_of_mem hB)
      rw [List.find?_cons_of_neg (by simpa using this)]
      exact ih hn.2 hB

theorem find_mem {f : DFun} {b : Nat} {B : DBlock} (h : f.find b = some B) : B ∈ f.blocks ∧ B.id = b := by
  refine ⟨List.mem_of_find?_eq_some h, ?_⟩
  have := List.find?_some h
  simpa using this

/-- Instructions of different blocks have different ids. -/
theorem block_unique {f : DFun} (hf : DWellFormed f) {B C : DBlock} (hB : B ∈ f.blocks) (hC : C ∈ f.blocks)
    {a : Nat} (h : a ∈ idsOf B.code) (h' : a ∈ idsOf C.code) : B = C := by
  by_contra hne
  have hn := (List.nodup_append.mp hf.ids).2.1
  have e : idsOf f.all = f.blocks.flatMap fun B => idsOf B.code := by
    simp [idsOf, DFun.all, List.map_flatMap]
  rw [e] at hn
  have hp := (List.nodup_flatMap.mp hn).2
  have key : ∀ bs : List DBlock, List.Pairwise (Function.onFun List.Disjoint fun B : DBlock => idsOf B.code) bs →
      B ∈ bs → C ∈ bs → False := by
    intro bs hp hB hC
    induction bs with
    | nil => cases hB
    | cons D bs ih =>
      rw [List.pairwise_cons] at hp
      rcases List.mem_cons.mp hB with rfl | hB
      · rcases List.mem_cons.mp hC with rfl | hC
        · exact hne rfl
        · exact hp.1 C hC h h'
      · rcases List.mem_cons.mp hC with e | hC
        · subst e; exact hp.1 B (by assumption) h' h
        · exact ih hp.2 hB hC
  exact key _ hp hB hC

/-- Ids of instructions of a block. -/
def idsAt (f : DFun) (b : Nat) : List Nat :=
  match f.find b with
  | some B => idsOf B.code
  | none => []

theorem idsAt_mem {f : DFun} {b : Nat} {B : DBlock} (h : f.find b = some B) : idsAt f b = idsOf B.code := by
  simp [idsAt, h]

theorem mem_swapOps {x : DOp} (ops : List DOp) : x ∈ swapOps ops ↔ x ∈ ops := by
  unfold swapOps
  split
  · simp only [List.mem_cons, List.not_mem_nil, or_false]
    tauto
  · rfl

theorem mem_succs {C : DBlock} {sw sw' : List Nat} {c : Nat} (h : c ∈ C.succs sw) : c ∈ C.succs sw' := by
  unfold DBlock.succs at h ⊢
  split at h
  · next t ht =>
    unfold succsOf at h ⊢
    simp only [List.mem_reverse, List.mem_filterMap] at h ⊢
    obtain ⟨x, hx, e⟩ := h
    refine ⟨x, ?_, e⟩
    have : ∀ s, x ∈ curOps s t ↔ x ∈ t.ops := by
      intro s
      unfold curOps
      split
      · exact mem_swapOps _
      · rfl
    exact (this _).mpr ((this _).mp hx)
  · cases h

theorem targets_succs {f : DFun} (hf : DWellFormed f) {B : DBlock} (hB : B ∈ f.blocks) {t : DInst}
    (ht : t ∈ B.code) {c : Nat} (hc : c ∈ targets t) : c ∈ B.succs [] := by
  have hterm : isTerm t = true := by
    unfold targets at hc
    obtain ⟨x, hx, e⟩ := List.mem_filterMap.mp hc
    have hx' : ∃ b, x = .blk b := by
      cases x with
      | blk b => exact ⟨b, rfl⟩
      | _ => simp at e
    obtain ⟨b, rfl⟩ := hx'
    have hs := hf.shape t (List.mem_flatMap.mpr ⟨B, hB, ht⟩)
    by_contra hn
    have hn : isTerm t = false := by simpa using hn
    refine no_blocks hs ?_ ?_ _ hx b rfl
    · intro h; simp [isTerm, h] at hn
    · intro h; simp [isTerm, h] at hn
  obtain ⟨pre, suf, hcode⟩ := split_mem ht
  have := (term_last hf hB hcode).mp hterm
  subst this
  have : curOps [] t = t.ops := by simp [curOps]
  simp only [DBlock.succs, hcode, List.getLast?_append, List.getLast?_singleton, Option.some_or, this, succsOf,
    List.mem_reverse]
  exact hc

theorem site_ordered {f : DFun} (hf : DWellFormed f) {d : List Nat} {B : DBlock} (S : Site f d B) :
    Ordered B.code := by
  have hn := nodup_code hf S.mem
  refine ⟨hn, ?_⟩
  intro pre i suf hc j hj w hw
  have hi : i ∈ B.code := by rw [hc]; simp
  have hij : ∃ p' s', pre ++ [i] = p' ++ j :: s' := split_mem hj
  obtain ⟨p', s', e⟩ := hij
  have hc' : B.code = p' ++ j :: (s' ++ suf) := by
    rw [hc, show pre ++ i :: suf = (pre ++ [i]) ++ suf by simp, e]
    simp
  rcases S.defs p' j _ hc' i.id w hw with h | h | h
  · exact (List.nodup_append.mp hf.ids).2.2 _ h i.id (List.mem_map_of_mem (S.all hi)) rfl
  · rw [hc'] at hn
    simp only [idsOf, List.map_append, List.map_cons] at hn h
    have hmem : i.id ∈ j.id :: (s'.map DInst.id) := by
      have : i ∈ j :: s' := by
        have h1 : (pre ++ [i]).getLast? = some i := by simp
        rw [e] at h1
        exact List.mem_of_getLast? (by simpa using h1)
      rcases List.mem_cons.mp this with e | h
      · rw [e]; simp
      · exact List.mem_cons_of_mem _ (List.mem_map_of_mem h)
    exact (List.nodup_append.mp hn).2.2 _ h i.id (by
      rcases List.mem_cons.mp hmem with e | h
      · simp [e]
      · exact List.mem_cons_of_mem _ (List.mem_append_left _ h)) rfl
  · exact h.1 (List.mem_map_of_mem hi)

theorem pushPairs_spec (φ : Nat → Nat) : ∀ (as : List Nat) (work : List (Nat × Nat)) (visited : List Nat),
    ∃ new : List Nat, (pushPairs as (as.map φ) work visited).1 = new.map (fun a => (a, φ a)) ++ work ∧
      (pushPairs as (as.map φ) work visited).2 = new ++ visited ∧ new.Nodup ∧
      (∀ a ∈ new, a ∈ as ∧ a ∉ visited) ∧ ∀ a ∈ as, a ∈ new ∨ a ∈ visited
  | [], work, visited => ⟨[], rfl, rfl, .nil, fun _ h => (nomatch h), fun _ h => (nomatch h)⟩
  | a :: as, work, visited => by
    simp only [List.map_cons, pushPairs]
    split
    · next hv =>
      obtain ⟨new, h1, h2, h3, h4, h5⟩ := pushPairs_spec φ as work visited
      refine ⟨new, h1, h2, h3, fun x hx => ⟨by simp [(h4 x hx).1], (h4 x hx).2⟩, fun x hx => ?_⟩
      rcases List.mem_cons.mp hx with e | hx
      · exact .inr (e ▸ hv)
      · exact h5 x hx
    · next hv =>
      obtain ⟨new, h1, h2, h3, h4, h5⟩ := pushPairs_spec φ as ((a, φ a) :: work) (a :: visited)
      refine ⟨new ++ [a], by simp [h1], by simp [h2], ?_, ?_, ?_⟩
      · rw [List.nodup_append]
        refine ⟨h3, by simp, ?_⟩
        intro x hx y hy e
        rw [List.mem_singleton.mp hy] at e
        exact (h4 x hx).2 (by simp [e])
      · intro x hx
        rcases List.mem_append.mp hx with hx | hx
        · exact ⟨by simp [(h4 x hx).1], fun h => (h4 x hx).2 (by simp [h])⟩
        · rw [List.mem_singleton.mp hx]; exact ⟨by simp, hv⟩
      · intro x hx
        rcases List.mem_cons.mp hx with e | hx
        · exact .inl (by simp [e])
        · rcases h5 x hx with h | h
          · exact .inl (by simp [h])
          · rcases List.mem_cons.mp h with e | h
            · exact .inl (by simp [e])
            · exact .inr h

/-- The comparison of a left block is finished. -/
structure Done (l r : DFun) (φ : Nat → Nat) (ks : List (DKey × DKey)) (st : DSt) (visited : List Nat)
    (b : Nat) : Prop where
  ex : ∃ B C, l.find b = some B ∧ r.find (φ b) = some C ∧ Ordered B.code ∧ Ordered C.code ∧
    (∀ ks2 ig ig', (∀ x ∈ ks, x ∈ ks2) → (∀ x ∈ st.ignL, x ∈ ig) → (∀ x ∈ st.ignR, x ∈ ig') →
      Match l r φ ks2 ig ig' [] [] B.code C.code) ∧ ∀ c ∈ B.succs [], c ∈ visited

/-- The invariant of the loop over pairs of blocks. -/
structure PairsInv (l r : DFun) (φ : Nat → Nat) (done : List Nat) (work : List (Nat × Nat))
    (visited : List Nat) (ks : List (DKey × DKey)) (st : DSt) : Prop where
  pairs : ∀ x ∈ work, x.2 = φ x.1 ∧ ∃ B ∈ l.blocks, B.id = x.1
  vis : ∀ a, a ∈ visited ↔ a ∈ done ∨ a ∈ work.map Prod.fst
  nodup : (done ++ work.map Prod.fst).Nodup
  ways : ∀ x ∈ work, ∃ way, (∀ c ∈ way, c ∈ done) ∧ Way l way x.1 ∧ Way r (way.map φ) (φ x.1)
  fin : ∀ b ∈ done, Done l r φ ks st visited b
  good : GoodD l r φ (done.flatMap (idsAt l)) (done.flatMap fun b => idsAt r (φ b)) ks st

theorem flow_find {l r : DFun} {φ : Nat → Nat} {cfg : DCfg} (A : Assumed cfg l r φ) {B : DBlock} (hB : B ∈ l.blocks) :
    ∃ C, r.find (φ B.id) = some C ∧ C ∈ r.blocks ∧ C.id = φ B.id := by
  obtain ⟨C, hC, e, _⟩ := A.flow.2.2 B hB
  exact ⟨C, e ▸ find_block A.wr hC, hC, e⟩

theorem pairs_done {l r : DFun} {φ : Nat → Nat} {cfg : DCfg} (A : Assumed cfg l r φ) (dl : Dominated l) (dr : Dominated r)
    (hr : cfg.reloc = false) (steps : Nat) :
    ∀ (n : Nat) (done : List Nat) (work : List (Nat × Nat)) (visited : List Nat) (ks : List (DKey × DKey))
      (st st' : DSt), PairsInv l r φ done work visited ks st →
      cmpPairs cfg l r steps n work visited st = some (true, st') →
      ∃ done' ks' visited', PairsInv l r φ done' [] visited' ks' st' ∧ ∀ a ∈ visited, a ∈ visited'
  | n, done, [], visited, ks, st, st', I, h => by
    have h : some (true, st) = some (true, st') := by cases n <;> exact h
    simp only [Option.some.injEq, Prod.mk.injEq, true_and] at h
    subst h
    exact ⟨done, ks, visited, I, fun _ h => h⟩
  | 0, done, _ :: _, visited, ks, st, st', I, h => by cases h
  | n + 1, done, (b, b') :: work, visited, ks, st, st', I, h => by
    obtain ⟨hb', B, hB, hid⟩ := I.pairs (b, b') (by simp)
    simp only at hb' hid
    subst hb' hid
    obtain ⟨C, fC, hC, idC⟩ := flow_find A hB
    have fB := find_block A.wl hB
    obtain ⟨way, hway, wl, wr⟩ := I.ways (B.id, φ B.id) (by simp)
    have hnd := I.nodup
    simp only [List.map_cons] at hnd
    have hbd : B.id ∉ done := fun h => (List.nodup_append.mp hnd).2.2 _ h B.id (by simp) rfl
    obtain ⟨ks1, m1, hs1, hv, G1⟩ := good_block I.good A.pl A.pr A.flow.2.1 hB 0
    have SL : Site l (done.flatMap (idsAt l)) B := by
      refine ⟨hB, ?_, ?_⟩
      · intro pre k suf hc a w ha
        have hk : k ∈ l.all := List.mem_flatMap.mpr ⟨B, hB, by rw [hc]; simp⟩
        rcases dl way B.id B wl fB pre k suf hc (A.pl k hk).1 a w ha with h | h | ⟨h, c, hc, D, hD, hm⟩
        · exact .inl h
        · exact .inr (.inl h)
        · exact .inr (.inr ⟨h, List.mem_flatMap.mpr ⟨c, hway c hc, by rw [idsAt_mem hD]; exact hm⟩⟩)
      · intro a ha h
        obtain ⟨c, hc, hm⟩ := List.mem_flatMap.mp h
        obtain ⟨D, _, hD, _⟩ := (I.fin c hc).ex
        rw [idsAt_mem hD] at hm
        have := block_unique A.wl hB (find_mem hD).1 ha hm
        rw [this, (find_mem hD).2] at hbd
        exact hbd hc
    have SR : Site r (done.flatMap fun b => idsAt r (φ b)) C := by
      refine ⟨hC, ?_, ?_⟩
      · intro pre k suf hc a w ha
        have hk : k ∈ r.all := List.mem_flatMap.mpr ⟨C, hC, by rw [hc]; simp⟩
        rcases dr _ (φ B.id) C wr fC pre k suf hc (A.pr k hk).1 a w ha with h | h | ⟨h, c, hc, D, hD, hm⟩
        · exact .inl h
        · exact .inr (.inl h)
        · obtain ⟨c0, hc0, rfl⟩ := List.mem_map.mp hc
          exact .inr (.inr ⟨h, List.mem_flatMap.mpr ⟨c0, hway c0 hc0, by rw [idsAt_mem hD]; exact hm⟩⟩)
      · intro a ha h
        obtain ⟨c, hc, hm⟩ := List.mem_flatMap.mp h
        obtain ⟨D, E, hD, hE, _⟩ := (I.fin c hc).ex
        rw [idsAt_mem hE] at hm
        have e := block_unique A.wr hC (find_mem hE).1 ha hm
        have e2 : φ B.id = φ D.id := by rw [← idC, e, (find_mem hE).2, (find_mem hD).2]
        have := A.flow.2.1 B hB D (find_mem hD).1 e2
        rw [this, (find_mem hD).2] at hbd
        exact hbd hc
    have W : Place l r φ (done.flatMap (idsAt l)) (done.flatMap fun b => idsAt r (φ b)) B C := ⟨SL, SR, idC⟩
    simp only [cmpPairs, fB, fC, hv] at h
    cases hcb : cmpBlocks cfg ⟨l.all, r.all⟩ steps B.code C.code (withKeys st ks1 m1) with
    | none => rw [hcb] at h; cases h
    | some y =>
      obtain ⟨res, st2⟩ := y
      rw [hcb] at h
      cases res with
      | false => simp at h
      | true =>
        simp only at h
        obtain ⟨ks2, k1, k2, k3, G2, k4, k5⟩ := blocks_match A hr W steps [] [] B.code C.code ks1
          (withKeys st ks1 m1) st2 (by simp) (by simp) (by simpa [idsOf] using G1) hcb
        have hne : B.code ≠ [] := by
          obtain ⟨body, t, e, _⟩ := A.wl.ends B hB
          rw [e]; simp
        rw [k5 hne] at h
        obtain ⟨new, e1, e2, hn1, hn2, hn3⟩ := pushPairs_spec φ (B.succs []) work visited
        rw [e1, e2] at h
        have hwork : (new.map (fun a => (a, φ a)) ++ work).map Prod.fst = new ++ work.map Prod.fst := by
          simp [List.map_map, Function.comp_def]
        obtain ⟨done', ks', visited', I', hsub⟩ := pairs_done A dl dr hr steps n (done ++ [B.id])
          (new.map (fun a => (a, φ a)) ++ work) (new ++ visited) ks2 st2 st' {
          pairs := by
            intro x hx
            rcases List.mem_append.mp hx with hx | hx
            · obtain ⟨a, ha, rfl⟩ := List.mem_map.mp hx
              refine ⟨rfl, ?_⟩
              have := (hn2 a ha).1
              unfold DBlock.succs at this
              split at this
              · next t ht =>
                have htm : t ∈ B.code := List.mem_of_getLast? ht
                refine A.wl.targets t (List.mem_flatMap.mpr ⟨B, hB, htm⟩) a ?_
                have e : curOps [] t = t.ops := by simp [curOps]
                rw [e] at this
                unfold succsOf at this
                exact List.mem_reverse.mp this
              · cases this
            · exact I.pairs x (by simp [hx])
          vis := by
            intro a
            rw [hwork]
            have := I.vis a
            simp only [List.mem_append, List.map_cons, List.mem_cons, List.mem_singleton, List.not_mem_nil] at this ⊢
            rw [this]
            tauto
          nodup := by
            rw [hwork]
            have hh : ∀ a ∈ new, a ∉ done ++ B.id :: work.map Prod.fst := by
              intro a ha h
              exact (hn2 a ha).2 ((I.vis a).mpr (by simpa using h))
            have : (done ++ [B.id] ++ (new ++ work.map Prod.fst)).Perm (new ++ (done ++ B.id :: work.map Prod.fst)) := by
              rw [← List.append_assoc]
              refine (List.Perm.append_right _ List.perm_append_comm).trans ?_
              simp
            rw [this.nodup_iff, List.nodup_append]
            exact ⟨hn1, hnd, fun a ha b hb e => hh a ha (e ▸ hb)⟩
          ways := by
            intro x hx
            rcases List.mem_append.mp hx with hx | hx
            · obtain ⟨a, ha, rfl⟩ := List.mem_map.mp hx
              refine ⟨way ++ [B.id], ?_, ?_, ?_⟩
              · intro c hc
                rcases List.mem_append.mp hc with hc | hc
                · simp [hway c hc]
                · simp [List.mem_singleton.mp hc]
              · exact .step way B.id a B wl fB (hn2 a ha).1
              · rw [List.map_append]
                refine .step _ (φ B.id) (φ a) C wr fC (mem_succs (sw := st2.swapped) ?_)
                rw [k5 hne]
                exact List.mem_map_of_mem (hn2 a ha).1
            · obtain ⟨w, h1, h2, h3⟩ := I.ways x (by simp [hx])
              exact ⟨w, fun c hc => by simp [h1 c hc], h2, h3⟩
          fin := by
            intro c hc
            rcases List.mem_append.mp hc with hc | hc
            · obtain ⟨D, E, h1, h2, h3, h4, h5, h6⟩ := (I.fin c hc).ex
              refine ⟨D, E, h1, h2, h3, h4, ?_, fun a ha => by simp [h6 a ha]⟩
              intro ks3 ig ig' q1 q2 q3
              exact h5 ks3 ig ig' (fun x hx => q1 x (k1 x (hs1 x hx))) (fun x hx => q2 x (k2 x hx))
                (fun x hx => q3 x (k3 x hx))
            · rw [List.mem_singleton.mp hc]
              refine ⟨B, C, fB, fC, site_ordered A.wl SL, site_ordered A.wr SR, k4, ?_⟩
              intro a ha
              rcases hn3 a ha with h | h
              · simp [h]
              · simp [h]
          good := by
            rw [List.flatMap_append, List.flatMap_append]
            simp only [List.flatMap_cons, List.flatMap_nil, List.append_nil, idsAt_mem fB, idsAt_mem fC]
            exact G2 } h
        exact ⟨done', ks', visited', I', fun a ha => hsub a (by simp [ha])⟩

/-- The state at the beginning. -/
theorem good_start {l r : DFun} (φ : Nat → Nat) (hl : DWellFormed l) (hr : DWellFormed r)
    (h : l.args.map Prod.snd = r.args.map Prod.snd) :
    GoodD l r φ [] [] ((l.args.zip r.args).map fun p => (DKey.val p.1.1, DKey.val p.2.1)) (startSt l r []) := by
  have hlen : l.args.length = r.args.length := by
    have := congrArg List.length h
    simpa using this
  have e1 : (((l.args.zip r.args).map fun p => (DKey.val p.1.1, DKey.val p.2.1)).map Prod.fst) =
      l.args.map fun a => DKey.val a.1 := by
    rw [List.map_map]
    conv_rhs => rw [← List.map_fst_zip (l₁ := l.args) (l₂ := r.args) (by omega), List.map_map]
    rfl
  have e2 : (((l.args.zip r.args).map fun p => (DKey.val p.1.1, DKey.val p.2.1)).map Prod.snd) =
      r.args.map fun a => DKey.val a.1 := by
    rw [List.map_map]
    conv_rhs => rw [← List.map_snd_zip (l₁ := l.args) (l₂ := r.args) (by omega), List.map_map]
    rfl
  have n1 : (l.args.map fun a => DKey.val a.1).Nodup := by
    have := (List.nodup_append.mp hl.ids).1
    have := this.map (f := DKey.val) (fun _ _ h => by injection h)
    simpa [List.map_map, Function.comp_def] using this
  have n2 : (r.args.map fun a => DKey.val a.1).Nodup := by
    have := (List.nodup_append.mp hr.ids).1
    have := this.map (f := DKey.val) (fun _ _ h => by injection h)
    simpa [List.map_map, Function.comp_def] using this
  have hidx : ∀ a b, (DKey.val a, DKey.val b) ∈ ((l.args.zip r.args).map fun p => (DKey.val p.1.1, DKey.val p.2.1)) →
      ∃ (k : Nat) (w : Nat), l.args[k]? = some (a, w) ∧ r.args[k]? = some (b, w) := by
    intro a b hab
    obtain ⟨⟨⟨a', w⟩, ⟨b', w'⟩⟩, hp, e⟩ := List.mem_map.mp hab
    simp only [Prod.mk.injEq, DKey.val.injEq] at e
    obtain ⟨rfl, rfl⟩ := e
    obtain ⟨k, hk⟩ := List.getElem?_of_mem hp
    rw [List.getElem?_zip_eq_some] at hk
    have := congrArg (fun l => l[k]?) h
    simp only [List.getElem?_map, hk.1, hk.2, Option.map_some, Option.some.injEq] at this
    subst this
    exact ⟨k, w, hk.1, hk.2⟩
  refine {
    toSync := ⟨by rw [e1]; rfl, by rw [e2]; rfl, rfl, rfl, by rw [e1]; exact n1, by rw [e2]; exact n2⟩
    reloc := rfl
    vals := ?_
    kinds := ?_
    typed := ?_
    argsL := ?_
    argsR := ?_
    covL := fun _ h => nomatch h
    covR := fun _ h => nomatch h
    ignL := fun _ h => nomatch h
    ignR := fun _ h => nomatch h
    inv1 := fun _ _ h => nomatch h
    inv2 := ?_
    swapped := fun _ h => nomatch h }
  · intro a b hab
    obtain ⟨k, w, h1, h2⟩ := hidx a b hab
    exact .inl ⟨k, by simp [h1], by simp [h2]⟩
  · intro k k' hk
    obtain ⟨p, _, e⟩ := List.mem_map.mp hk
    simp only [Prod.mk.injEq] at e
    exact .inl ⟨_, _, e.1.symm, e.2.symm⟩
  · intro a b hab w w' hw hw'
    obtain ⟨k, v, h1, h2⟩ := hidx a b hab
    rw [tyOf_unique hl hw (.inl (List.mem_of_getElem? h1)), tyOf_unique hr hw' (.inl (List.mem_of_getElem? h2))]
  · intro a ha
    rw [e1]
    obtain ⟨p, hp, rfl⟩ := List.mem_map.mp ha
    exact List.mem_map_of_mem (f := fun a : Nat × Nat => DKey.val a.1) hp
  · intro a ha
    rw [e2]
    obtain ⟨p, hp, rfl⟩ := List.mem_map.mp ha
    exact List.mem_map_of_mem (f := fun a : Nat × Nat => DKey.val a.1) hp
  · intro a b hab ho
    exfalso
    obtain ⟨k, w, h1, h2⟩ := hidx a b hab
    have : (l.all.find? fun i => i.id == a) = none := by
      rw [List.find?_eq_none]
      intro i hi
      have := (List.nodup_append.mp hl.ids).2.2 a (List.mem_map_of_mem (f := Prod.fst) (List.mem_of_getElem? h1)) i.id
        (List.mem_map_of_mem hi)
      simpa using fun e => this e.symm
    simp [opposite, predAt, this] at ho

/-- Functions that are found equal do the same. -/
theorem diff_sound {l r : DFun} {φ : Nat → Nat} {cfg : DCfg} (A : Assumed cfg l r φ) (dl : Dominated l) (dr : Dominated r)
    (hr : cfg.reloc = false) (steps : Nat) (sw : List Nat)
    (h : compareD cfg steps l r [] = some (true, sw)) : SameResults l r := by
  unfold compareD at h
  split at h
  · next B Bs C Cs hB hC =>
    split at h
    · simp at h
    · next hty =>
      have hty : l.args.map Prod.snd = r.args.map Prod.snd := by simpa using hty
      cases hp : cmpPairs cfg l r steps (l.blocks.length + 1) [(B.id, C.id)] [B.id] (startSt l r []) with
      | none => rw [hp] at h; cases h
      | some y =>
        obtain ⟨res, st'⟩ := y
        rw [hp] at h
        simp only [Option.map_some, Option.some.injEq, Prod.mk.injEq, Bool.and_eq_true] at h
        obtain ⟨⟨⟨rfl, _⟩, _⟩, _⟩ := h
        have idC : C.id = φ B.id := A.flow.1 B Bs C Cs hB hC
        have hBm : B ∈ l.blocks := by rw [hB]; simp
        rw [idC] at hp
        obtain ⟨done, ks, visited, I, hv⟩ := pairs_done A dl dr hr steps _ [] [(B.id, φ B.id)] [B.id]
          ((l.args.zip r.args).map fun p : (Nat × Nat) × (Nat × Nat) => (DKey.val p.1.1, DKey.val p.2.1)) (startSt l r []) st' {
          pairs := by
            intro x hx
            rw [List.mem_singleton.mp hx]
            exact ⟨rfl, B, hBm, rfl⟩
          vis := by intro a; simp
          nodup := by simp
          ways := by
            intro x hx
            rw [List.mem_singleton.mp hx]
            exact ⟨[], fun _ h => (nomatch h), .entry B Bs hB, idC ▸ .entry C Cs hC⟩
          fin := fun _ h => nomatch h
          good := good_start φ A.wl A.wr hty } hp
        have hdone : ∀ a, a ∈ visited → a ∈ done := fun a ha => by simpa using (I.vis a).mp ha
        have K : Keys l r ks st'.ignL st'.ignR := {
          left := I.good.left
          right := I.good.right
          ignL := fun a ha k hk => (I.good.ignL a ha).2 (List.mem_map_of_mem (f := Prod.fst) hk)
          ignR := fun b hb k hk => (I.good.ignR b hb).2 (List.mem_map_of_mem (f := Prod.snd) hk)
          users := fun a b hab ho => by
            obtain ⟨a', b', e1, e2, _, hu⟩ := I.good.inv1 _ _ (I.good.inv2 a b hab ho)
            cases e1
            exact hu }
        have hrun : ∀ (Mem : Type) (M : DMach Mem) (n : Nat) (vals : List Int) (mem : Mem),
            runFun M l n vals mem = runFun M r n vals mem := by
          intro Mem M n vals mem
          simp only [runFun, hB, hC, idC]
          refine match_runs M K (List.nodup_append.mp A.wl.ids).2.1 (List.nodup_append.mp A.wr.ids).2.1 A.pl A.pr
            done ?_ n none none B.id _ _ mem (hdone _ (hv _ (by simp))) (related_args A.wl A.wr ?_ vals)
          · intro b hb
            obtain ⟨D, E, h1, h2, h3, h4, h5, h6⟩ := (I.fin b hb).ex
            exact ⟨D, E, h1, h2, h5 _ _ _ (fun _ h => h) (fun _ h => h) (fun _ h => h), h3, h4,
              fun t ht c hc => hdone _ (h6 c (targets_succs A.wl (find_mem h1).1 ht hc))⟩
          · intro a b hab
            rcases I.good.vals a b hab with h | ⟨h1, h2⟩
            · exact .inl h
            · obtain ⟨c, _, hm⟩ := List.mem_flatMap.mp h1
              obtain ⟨d, _, hm'⟩ := List.mem_flatMap.mp h2
              have key : ∀ (f : DFun) (c x : Nat), x ∈ idsAt f c → x ∈ idsOf f.all := by
                intro f c x hx
                unfold idsAt at hx
                split at hx
                · next D hD =>
                  obtain ⟨i, hi, e⟩ := List.mem_map.mp hx
                  exact e ▸ List.mem_map_of_mem (List.mem_flatMap.mpr ⟨D, (find_mem hD).1, hi⟩)
                · cases hx
              exact .inr ⟨key l c a hm, key r _ b hm'⟩
        intro Mem M vals mem res
        simp only [hrun]
  · simp at h

end DK
