import Verif.Spec.VarSlicer
import Verif.Lemmas.Passes

/-! Lemmas about slicing with respect to a variable. -/

set_option autoImplicit false

namespace DK
open Spec

/-! ### Reachability with a limit -/

/-- The search is right when fewer blocks than the limit can be seen. -/
theorem potReach_iff {succ : Nat → List Nat} {U : List Nat} (hU : GraphOn succ U) (stop : Nat) :
    ∀ (limit : Nat) (work seen : List Nat), (∀ b ∈ work, b ∈ U) → unseen U seen < limit →
    stop ∉ seen → (∀ a ∈ seen, ∀ b ∈ succ a, b ∈ seen ∨ b ∈ work) →
    (potReach succ stop limit work seen = true ↔
      ∃ b ∈ work, Relation.ReflTransGen (Edge succ) b stop)
  | 0, _, _ => fun _ h => absurd h (Nat.not_lt_zero _)
  | limit + 1, work, seen => by
    intro hw hl hs hcl
    have hsplit : ∀ w : List Nat, ∃ pre, (∀ b ∈ pre, b ∈ seen) ∧
        w = pre ++ w.dropWhile (fun b => decide (b ∈ seen)) := fun w =>
      ⟨w.takeWhile (fun b => decide (b ∈ seen)), fun b hb => of_decide_eq_true (
        List.all_eq_true.mp (List.all_takeWhile (p := fun b => decide (b ∈ seen)) (l := w)) b hb), (List.takeWhile_append_dropWhile).symm⟩
    obtain ⟨pre, hpre, heq⟩ := hsplit work
    -- paths from seen blocks leave through the work list
    have hleave : ∀ a, a ∈ seen → Relation.ReflTransGen (Edge succ) a stop →
        ∃ b ∈ work.dropWhile (fun b => decide (b ∈ seen)), Relation.ReflTransGen (Edge succ) b stop := by
      intro a ha hr
      induction hr using Relation.ReflTransGen.head_induction_on with
      | refl => exact absurd ha hs
      | head h1 h2 ih =>
        rename_i a c
        by_cases hc : c ∈ seen
        · exact ih hc
        · rcases hcl a ha c h1 with h | h
          · exact absurd h hc
          · rw [heq] at h
            rcases List.mem_append.mp h with h | h
            · exact absurd (hpre c h) hc
            · exact ⟨c, h, h2⟩
    have hdrop : (∃ b ∈ work, Relation.ReflTransGen (Edge succ) b stop) ↔
        ∃ b ∈ work.dropWhile (fun b => decide (b ∈ seen)), Relation.ReflTransGen (Edge succ) b stop := by
      constructor
      · rintro ⟨b, hb, hr⟩
        rw [heq] at hb
        rcases List.mem_append.mp hb with h | h
        · exact hleave b (hpre b h) hr
        · exact ⟨b, h, hr⟩
      · rintro ⟨b, hb, hr⟩
        exact ⟨b, by rw [heq]; exact List.mem_append_right _ hb, hr⟩
    rw [hdrop]
    unfold potReach
    cases hd : work.dropWhile (fun b => decide (b ∈ seen)) with
    | nil => simp
    | cons b rest =>
      have hbs : b ∉ seen := by
        have := List.head_dropWhile_not (fun b => decide (b ∈ seen)) (l := work) (by simp [hd])
        simpa [hd] using this
      have hbU : b ∈ U := hw b (by rw [heq, hd]; simp)
      have hrest : ∀ c ∈ rest, c ∈ U := fun c hc => hw c (by rw [heq, hd]; simp [hc])
      have hlt := unseen_lt hbU hbs
      simp only
      by_cases hstop : b = stop
      · simp only [hstop, ite_true, true_iff]
        exact ⟨stop, List.mem_cons_self .., .refl⟩
      · have hne : limit ≠ 0 := by
          have : unseen U (b :: seen) < limit := by omega
          omega
        rw [if_neg hstop, if_neg hne]
        rw [potReach_iff hU stop limit]
        · constructor
          · rintro ⟨c, hc, hr⟩
            rcases List.mem_append.mp hc with h | h
            · exact ⟨b, List.mem_cons_self .., .head (List.mem_reverse.mp h) hr⟩
            · exact ⟨c, List.mem_cons_of_mem _ h, hr⟩
          · rintro ⟨c, hc, hr⟩
            rcases List.mem_cons.mp hc with h | h
            · subst h
              rcases hr.cases_head with h | ⟨d, h1, h2⟩
              · exact absurd h hstop
              · exact ⟨d, List.mem_append_left _ (List.mem_reverse.mpr h1), h2⟩
            · exact ⟨c, List.mem_append_right _ h, hr⟩
        · intro c hc
          rcases List.mem_append.mp hc with h | h
          · exact hU b hbU c (List.mem_reverse.mp h)
          · exact hrest c h
        · omega
        · intro h
          rcases List.mem_cons.mp h with h | h
          · exact hstop h.symm
          · exact hs h
        · intro a ha c hc
          rcases List.mem_cons.mp ha with h | h
          · subst h
            exact .inr (List.mem_append_left _ (List.mem_reverse.mpr hc))
          · rcases hcl a h c hc with h' | h'
            · exact .inl (List.mem_cons_of_mem _ h')
            · rw [heq, hd] at h'
              rcases List.mem_append.mp h' with h'' | h''
              · exact .inl (List.mem_cons_of_mem _ (hpre c h''))
              · rcases List.mem_cons.mp h'' with h3 | h3
                · exact .inl (h3 ▸ List.mem_cons_self ..)
                · exact .inr (List.mem_append_right _ h3)

/-- The search from one block. -/
theorem potReach_from {succ : Nat → List Nat} {U : List Nat} (hU : GraphOn succ U)
    (hl : U.length < exploreLimit) {src : Nat} (hsrc : src ∈ U) (stop : Nat) :
    potReach succ stop exploreLimit [src] [] = true ↔ Relation.ReflTransGen (Edge succ) src stop := by
  rw [potReach_iff hU stop]
  · simp
  · simpa using hsrc
  · exact Nat.lt_of_le_of_lt (unseen_length U []) hl
  · exact List.not_mem_nil
  · intro a ha; exact absurd ha List.not_mem_nil

/-- Blocks reached with the replaced terminator. -/
theorem via_iff {succ : Nat → List Nat} {src s b : Nat} (hb : src ≠ b) :
    Relation.ReflTransGen (Edge fun c => if c = src then [s] else succ c) src b ↔
      Through succ src s b := by
  have hE : ∀ x y, Edge (fun c => if c = src then [s] else succ c) x y ↔ EdgeVia succ src s x y := by
    intro x y
    unfold Edge EdgeVia
    by_cases h : x = src <;> simp [h]
  have hfun : (Edge fun c => if c = src then [s] else succ c) = EdgeVia succ src s := by
    funext x y; exact propext (hE x y)
  rw [hfun]
  unfold Through
  constructor
  · intro h
    rcases h.cases_head with h | ⟨c, h1, h2⟩
    · exact absurd h hb
    · have : c = s := by simpa [EdgeVia] using h1
      exact this ▸ h2
  · intro h
    exact .head (by simp [EdgeVia]) h

theorem mem_reachableThroughSucc {succ : Nat → List Nat} {blocks : List Nat} {src s : Nat}
    (hU : GraphOn succ blocks) (hl : blocks.length < exploreLimit) (hsrc : src ∈ blocks)
    (hs : s ∈ succ src) (b : Nat) :
    b ∈ reachableThroughSucc succ blocks src s ↔ b ∈ blocks ∧ src ≠ b ∧ Through succ src s b := by
  have hU' : GraphOn (fun c => if c = src then [s] else succ c) blocks := by
    intro c hc d hd
    by_cases h : c = src
    · simp only [h, ite_true, List.mem_singleton] at hd
      exact hd ▸ hU src hsrc s hs
    · simp only [h, ite_false] at hd
      exact hU c hc d hd
  unfold reachableThroughSucc reachableBlocks
  rw [List.mem_filter]
  constructor
  · rintro ⟨h1, h2⟩
    have h3 := (Bool.and_eq_true _ _).mp h2
    have hne : src ≠ b := of_decide_eq_true h3.1
    exact ⟨h1, hne, (via_iff hne).mp ((potReach_from hU' hl hsrc b).mp h3.2)⟩
  · rintro ⟨h1, hne, h2⟩
    exact ⟨h1, (Bool.and_eq_true _ _).mpr ⟨decide_eq_true hne,
      (potReach_from hU' hl hsrc b).mpr ((via_iff hne).mpr h2)⟩⟩

theorem mem_unionInter (reach : Nat → List Nat) (b : Nat) : ∀ (ss u i : List Nat),
    (b ∈ (unionInter reach ss false (u, i)).1 ↔ b ∈ u ∨ ∃ s ∈ ss, b ∈ reach s) ∧
    (b ∈ (unionInter reach ss false (u, i)).2 ↔ b ∈ i ∧ ∀ s ∈ ss, b ∈ reach s)
  | [], u, i => by simp [unionInter]
  | s :: ss, u, i => by
    have ih := mem_unionInter reach b ss (u ++ (reach s).filter (fun b => decide (b ∉ u)))
      (i.filter (fun b => decide (b ∈ reach s)))
    simp only [unionInter, Bool.false_eq_true, ite_false]
    constructor
    · rw [ih.1]
      simp only [List.mem_append, List.mem_filter, decide_eq_true_eq, List.mem_cons,
        exists_eq_or_imp]
      tauto
    · rw [ih.2]
      simp only [List.mem_filter, decide_eq_true_eq, List.mem_cons, forall_eq_or_imp]
      tauto

theorem mem_affectedBlocks (succ : Nat → List Nat) (blocks : List Nat) (src b : Nat) :
    b ∈ affectedBlocks succ blocks src ↔ (succ src).length = 2 ∧
      (∃ s ∈ succ src, b ∈ reachableThroughSucc succ blocks src s) ∧
      ∃ s ∈ succ src, b ∉ reachableThroughSucc succ blocks src s := by
  unfold affectedBlocks
  by_cases h : (succ src).length = 2
  · simp only [h, ite_true, true_and]
    match hs : succ src with
    | [] => simp [hs] at h
    | s :: ss =>
      have hm := mem_unionInter (reachableThroughSucc succ blocks src) b ss
        ([] ++ (reachableThroughSucc succ blocks src s).filter (fun b => decide (b ∉ ([] : List Nat))))
        (reachableThroughSucc succ blocks src s)
      simp only [unionInter, ite_true]
      rw [List.mem_filter, hm.1, decide_eq_true_eq, hm.2]
      simp only [List.nil_append, List.mem_filter, List.not_mem_nil, not_false_iff, decide_true,
        and_true, List.mem_cons, exists_eq_or_imp, not_and]
      constructor
      · rintro ⟨h1, h2⟩
        refine ⟨h1, ?_⟩
        by_cases hb : b ∈ reachableThroughSucc succ blocks src s
        · right
          by_contra hcon
          push Not at hcon
          exact h2 hb hcon
        · exact .inl hb
      · rintro ⟨h1, h2⟩
        refine ⟨h1, fun hb hall => ?_⟩
        rcases h2 with h2 | ⟨t, ht, h2⟩
        · exact h2 hb
        · exact h2 (hall t ht)
  · simp [h]

/-! ### The first phase -/

/-- What holds after the first `n` instructions were passed. -/
structure DepInv (f : VFun) (n : Nat) (st : VSt) : Prop where
  aff : ∀ b ∈ st.affected, ∀ x ∈ vinsts f, x.1 = b → x.2.id ∈ st.dep
  fwd : ∀ m < n, DependsForward f m → ∀ x, (vinsts f)[m]? = some x → x.2.id ∈ st.dep
  br : ∀ m < n, DependsForward f m → ∀ x, (vinsts f)[m]? = some x → x.2.kind = .branch →
    x.1 ∈ st.affected ∨ ∀ c ∈ affectedBlocks f.succ (f.blocks.map (·.1)) x.1, c ∈ st.affected
  st : ∀ m < n, DependsForward f m → ∀ x p, (vinsts f)[m]? = some x → x.2.kind = .store (.inst p) →
    x.1 ∈ st.affected ∨ p ∈ st.dep

theorem mem_addToDependent (f : VFun) (i j : Nat) (st : VSt) :
    j ∈ (addToDependent f i st).dep ↔ j = i ∨ j ∈ st.dep := by
  unfold addToDependent
  by_cases h : i ∈ st.dep
  · simp only [h, ite_true]
    exact ⟨.inr, fun h' => h'.elim (fun e => e ▸ h) id⟩
  · simp [h]

theorem addToDependent_affected (f : VFun) (i : Nat) (st : VSt) :
    (addToDependent f i st).affected = st.affected := by
  unfold addToDependent
  split <;> rfl

theorem addAllInstrs_spec (f : VFun) : ∀ (bs : List Nat) (st : VSt),
    (∀ j ∈ st.dep, j ∈ (addAllInstrs f bs st).dep) ∧
    (∀ b, b ∈ (addAllInstrs f bs st).affected ↔ b ∈ bs ∨ b ∈ st.affected) ∧
    (∀ b ∈ bs, ∀ x ∈ vinsts f, x.1 = b → x.2.id ∈ (addAllInstrs f bs st).dep)
  | [], st => by simp [addAllInstrs]
  | b :: bs, st => by
    have ih := addAllInstrs_spec f bs
      { dep := ((f.blocks.filter fun B => B.1 == b).flatMap fun B => B.2.map (·.id)) ++ st.dep,
        affected := b :: st.affected, included := b :: st.included }
    have heq : addAllInstrs f (b :: bs) st = addAllInstrs f bs
      { dep := ((f.blocks.filter fun B => B.1 == b).flatMap fun B => B.2.map (·.id)) ++ st.dep,
        affected := b :: st.affected, included := b :: st.included } := rfl
    rw [heq]
    refine ⟨fun j hj => ih.1 j (List.mem_append_right _ hj), fun c => ?_, fun c hc x hx hxc => ?_⟩
    · rw [ih.2.1 c]
      simp only [List.mem_cons]
      tauto
    · rcases List.mem_cons.mp hc with h | h
      · refine ih.1 _ (List.mem_append_left _ ?_)
        obtain ⟨B, hB, hxB⟩ := List.mem_flatMap.mp hx
        obtain ⟨i, hi, rfl⟩ := List.mem_map.mp hxB
        exact List.mem_flatMap.mpr ⟨B, List.mem_filter.mpr ⟨hB, by
          simpa using hxc.trans h⟩, List.mem_map.mpr ⟨i, hi, rfl⟩⟩
      · exact ih.2.2 c h x hx hxc

theorem depInst_not {f : VFun} {b : Nat} {i : VInst} {st : VSt} (h : foundDep i st = false) :
    depInst f b i st = st := by
  unfold depInst
  rw [h]
  rfl

theorem depInst_spec (f : VFun) (b : Nat) (i : VInst) (st : VSt) :
    (∀ j ∈ st.dep, j ∈ (depInst f b i st).dep) ∧
    (foundDep i st = true → i.id ∈ (depInst f b i st).dep) ∧
    ((∀ c ∈ st.affected, ∀ x ∈ vinsts f, x.1 = c → x.2.id ∈ st.dep) →
      ∀ c ∈ (depInst f b i st).affected, ∀ x ∈ vinsts f, x.1 = c → x.2.id ∈ (depInst f b i st).dep) ∧
    (∀ c ∈ st.affected, c ∈ (depInst f b i st).affected) ∧
    (foundDep i st = true → i.kind = .branch → ∀ c ∈ affectedBlocks f.succ (f.blocks.map (·.1)) b,
      c ∈ (depInst f b i st).affected) ∧
    (foundDep i st = true → ∀ p, i.kind = .store (.inst p) → p ∈ (depInst f b i st).dep) := by
  cases h : foundDep i st with
  | false =>
    rw [depInst_not h]
    exact ⟨fun _ h => h, fun h => absurd h (by decide), fun h => h, fun _ h => h,
      fun h => absurd h (by decide), fun h => absurd h (by decide)⟩
  | true =>
    have heq : depInst f b i st = (match i.kind with
        | .branch => addAllInstrs f (affectedBlocks f.succ (f.blocks.map (·.1)) b)
            (addToDependent f i.id st)
        | .store (.inst p) => addToDependent f p (addToDependent f i.id st)
        | _ => addToDependent f i.id st) := by
      unfold depInst
      rw [h]
      rfl
    have hid : i.id ∈ (addToDependent f i.id st).dep := (mem_addToDependent ..).mpr (.inl rfl)
    have hmono : ∀ j ∈ st.dep, j ∈ (addToDependent f i.id st).dep := fun j hj =>
      (mem_addToDependent ..).mpr (.inr hj)
    have haff : (∀ c ∈ st.affected, ∀ x ∈ vinsts f, x.1 = c → x.2.id ∈ st.dep) →
        ∀ c ∈ (addToDependent f i.id st).affected, ∀ x ∈ vinsts f, x.1 = c →
          x.2.id ∈ (addToDependent f i.id st).dep := by
      intro h c hc x hx hxc
      rw [addToDependent_affected] at hc
      exact hmono _ (h c hc x hx hxc)
    have haffm : ∀ c ∈ st.affected, c ∈ (addToDependent f i.id st).affected := fun c hc => by
      rw [addToDependent_affected]; exact hc
    rw [heq]
    cases hk : i.kind with
    | branch =>
      have := addAllInstrs_spec f (affectedBlocks f.succ (f.blocks.map (·.1)) b)
        (addToDependent f i.id st)
      refine ⟨fun j hj => this.1 j (hmono j hj), fun _ => this.1 _ hid, fun hst c hc x hx hxc => ?_,
        fun c hc => (this.2.1 c).mpr (.inr (haffm c hc)), fun _ _ c hc => (this.2.1 c).mpr (.inl hc),
        fun _ p hp => absurd hp (by simp)⟩
      rcases (this.2.1 c).mp hc with h' | h'
      · exact this.2.2 c h' x hx hxc
      · exact this.1 _ (haff hst c h' x hx hxc)
    | store p =>
      cases p with
      | inst p =>
        refine ⟨fun j hj => (mem_addToDependent ..).mpr (.inr (hmono j hj)),
          fun _ => (mem_addToDependent ..).mpr (.inr hid), fun hst c hc x hx hxc => ?_,
          fun c hc => by simpa only [addToDependent_affected] using haffm c hc,
          fun _ hk => absurd hk (by simp), fun _ q hq => ?_⟩
        · have hc' : c ∈ (addToDependent f i.id st).affected := by
            simpa only [addToDependent_affected] using hc
          exact (mem_addToDependent ..).mpr (.inr (haff hst c hc' x hx hxc))
        · cases hq
          exact (mem_addToDependent ..).mpr (.inl rfl)
      | const u n =>
        exact ⟨hmono, fun _ => hid, haff, haffm, fun _ hk => absurd hk (by simp), fun _ _ hk => absurd hk (by simp)⟩
    | phi bs =>
      exact ⟨hmono, fun _ => hid, haff, haffm, fun _ hk => absurd hk (by simp), fun _ _ hk => absurd hk (by simp)⟩
    | other =>
      exact ⟨hmono, fun _ => hid, haff, haffm, fun _ hk => absurd hk (by simp), fun _ _ hk => absurd hk (by simp)⟩

/-- A forward dependent instruction is found when those before it were. -/
theorem forward_found {f : VFun} {n : Nat} {st : VSt} {x : Nat × VInst} (hinv : DepInv f n st)
    (hx : (vinsts f)[n]? = some x) (hd : DependsForward f n) : foundDep x.2 st = true := by
  unfold foundDep
  rw [Bool.or_eq_true]
  left
  rw [List.any_eq_true]
  cases hd with
  | uses _ x' hx' hu =>
    have : x' = x := by rw [hx] at hx'; exact (Option.some.inj hx').symm
    subst this
    obtain ⟨k, hk⟩ := hu
    exact ⟨_, hk, rfl⟩
  | operand m _ y x' hmn hy hx' hop hdep =>
    have : x' = x := by rw [hx] at hx'; exact (Option.some.inj hx').symm
    subst this
    exact ⟨_, hop, decide_eq_true (hinv.fwd m hmn hdep y hy)⟩

theorem depBlock_inv (f : VFun) (b : Nat) : ∀ (is : List VInst) (rest : List (Nat × VInst)) (n : Nat)
    (st : VSt), (vinsts f).drop n = is.map (fun i => (b, i)) ++ rest → DepInv f n st →
    DepInv f (n + is.length) (is.foldl (fun st i => depInst f b i st) st)
  | [], _, n, st, _, h => by simpa using h
  | i :: is, rest, n, st, hd, h => by
    have hx : (vinsts f)[n]? = some (b, i) := by
      have : ((vinsts f).drop n)[0]? = some (b, i) := by rw [hd]; simp
      simpa using this
    have hd' : (vinsts f).drop (n + 1) = is.map (fun i => (b, i)) ++ rest := by
      have : ((vinsts f).drop n).drop 1 = is.map (fun i => (b, i)) ++ rest := by rw [hd]; simp
      simpa [List.drop_drop, Nat.add_comm] using this
    have hs := depInst_spec f b i st
    have hinv : DepInv f (n + 1) (depInst f b i st) := by
      refine ⟨hs.2.2.1 h.aff, fun m hm hdep x hmx => ?_, fun m hm hdep x hmx hk => ?_,
        fun m hm hdep x p hmx hk => ?_⟩
      · rcases Nat.lt_succ_iff_lt_or_eq.mp hm with hm | rfl
        · exact hs.1 _ (h.fwd m hm hdep x hmx)
        · have : x = (b, i) := by rw [hx] at hmx; exact (Option.some.inj hmx).symm
          subst this
          exact hs.2.1 (forward_found h hx hdep)
      · rcases Nat.lt_succ_iff_lt_or_eq.mp hm with hm | rfl
        · rcases h.br m hm hdep x hmx hk with h' | h'
          · exact .inl (hs.2.2.2.1 _ h')
          · exact .inr fun c hc => hs.2.2.2.1 _ (h' c hc)
        · have : x = (b, i) := by rw [hx] at hmx; exact (Option.some.inj hmx).symm
          subst this
          exact .inr (hs.2.2.2.2.1 (forward_found h hx hdep) hk)
      · rcases Nat.lt_succ_iff_lt_or_eq.mp hm with hm | rfl
        · rcases h.st m hm hdep x p hmx hk with h' | h'
          · exact .inl (hs.2.2.2.1 _ h')
          · exact .inr (hs.1 _ h')
        · have : x = (b, i) := by rw [hx] at hmx; exact (Option.some.inj hmx).symm
          subst this
          exact .inr (hs.2.2.2.2.2 (forward_found h hx hdep) p hk)
    have := depBlock_inv f b is rest (n + 1) (depInst f b i st) hd' hinv
    rw [List.foldl_cons, List.length_cons]
    rw [show n + (is.length + 1) = n + 1 + is.length by omega]
    exact this

theorem depPhase_inv (f : VFun) : ∀ (bs : List (Nat × List VInst)) (n : Nat) (st : VSt),
    (vinsts f).drop n = (bs.flatMap fun B => B.2.map fun i => (B.1, i)) → DepInv f n st →
    DepInv f (n + (bs.flatMap fun B => B.2.map fun i => (B.1, i)).length)
      (bs.foldl (fun st B =>
        if B.1 ∈ st.affected then st else B.2.foldl (fun st i => depInst f B.1 i st) st) st)
  | [], n, st, _, h => by simpa using h
  | B :: bs, n, st, hd, h => by
    rw [List.flatMap_cons] at hd ⊢
    rw [List.foldl_cons, List.length_append, List.length_map, ← Nat.add_assoc]
    refine depPhase_inv f bs _ _ ?_ ?_
    · have : ((vinsts f).drop n).drop B.2.length = bs.flatMap fun B => B.2.map fun i => (B.1, i) := by
        rw [hd, List.drop_append_of_le_length (by simp)]
        simp
      simpa [List.drop_drop, Nat.add_comm] using this
    · by_cases ha : B.1 ∈ st.affected
      · rw [if_pos ha]
        have hin : ∀ m x, ¬ m < n → m < n + B.2.length → (vinsts f)[m]? = some x → x.1 = B.1 := by
          intro m x hlt hm hmx
          have hmem : (B.2.map fun i => (B.1, i))[m - n]? = some x := by
            have h1 : ((vinsts f).drop n)[m - n]? = some x := by
              rw [List.getElem?_drop]
              rw [show n + (m - n) = m by omega]
              exact hmx
            rw [hd, List.getElem?_append_left (by simp; omega)] at h1
            exact h1
          obtain ⟨i, _, hi⟩ := List.mem_map.mp (List.mem_of_getElem? hmem)
          rw [← hi]
        refine ⟨h.aff, fun m hm hdep x hmx => ?_, fun m hm hdep x hmx hk => ?_,
          fun m hm hdep x p hmx hk => ?_⟩ <;> by_cases hlt : m < n
        · exact h.fwd m hlt hdep x hmx
        · exact h.aff B.1 ha x (List.mem_of_getElem? hmx) (hin m x hlt hm hmx)
        · exact h.br m hlt hdep x hmx hk
        · exact .inl (hin m x hlt hm hmx ▸ ha)
        · exact h.st m hlt hdep x p hmx hk
        · exact .inl (hin m x hlt hm hmx ▸ ha)
      · rw [if_neg ha]
        exact depBlock_inv f B.1 B.2 _ n st hd h

theorem depPhase_done (f : VFun) : DepInv f (vinsts f).length (depPhase f) := by
  have := depPhase_inv f f.blocks 0 ⟨[], [], []⟩ rfl
    ⟨fun b hb => absurd hb List.not_mem_nil, fun m hm => absurd hm (Nat.not_lt_zero _),
      fun m hm => absurd hm (Nat.not_lt_zero _), fun m hm => absurd hm (Nat.not_lt_zero _)⟩
  rw [Nat.zero_add] at this
  exact this

/-! ### Names -/

theorem hasPart_iff (sub : Str) : ∀ s : Str, hasPart sub s = true ↔ sub <:+: s
  | [] => by
    unfold hasPart
    rw [List.isEmpty_iff, List.infix_nil]
  | c :: s => by
    unfold hasPart
    rw [Bool.or_eq_true, List.isPrefixOf_iff_prefix, hasPart_iff sub s, List.infix_cons_iff]

end DK
