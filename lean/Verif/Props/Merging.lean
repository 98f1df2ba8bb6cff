import Verif.Lemmas.Merging

/-!
C96: merging of functions whose names differ in their number only.
-/

set_option autoImplicit false

namespace DK
open Spec

variable {V S : Type}

/-! ### The result of the merging -/

/-- The names after the groups `K` are processed. -/
def partName (P : PMod) (K : List Str) (n : Str) : Str :=
  if n ∈ mergeNames P ∧ stem n ∈ K ∧ 2 ≤ (groupOf (mergeNames P) (stem n)).length then stem n else n

/-- The functions that are left. -/
def partKept (P : PMod) (K : List Str) (f : PFun) : Bool :=
  !(decide (f.name ∈ mergeNames P) && decide (stem f.name ∈ K) &&
    decide ((groupOf (mergeNames P) (stem f.name)).head? ≠ some f.name))

def partMod (P : PMod) (K : List Str) : PMod := (P.filter (partKept P K)).map (renFun (partName P K))

/-- Inside of a group: the functions `O` are merged into `first`. -/
def innerName (P : PMod) (K O : List Str) (first n : Str) : Str := if n ∈ O then first else partName P K n

def innerMod (P : PMod) (K O : List Str) (first : Str) : PMod :=
  (P.filter fun f => partKept P K f && decide (f.name ∉ O)).map (renFun (innerName P K O first))

theorem renVal_comp (r q : Str → Str) (v : PValue) : renVal r (renVal q v) = renVal (fun n => r (q n)) v := by
  cases v <;> rfl

theorem renVals_comp (r q : Str → Str) (l : List PValue) :
    (l.map (renVal q)).map (renVal r) = l.map (renVal fun n => r (q n)) := by
  rw [List.map_map]
  exact List.map_congr_left fun v _ => renVal_comp r q v

theorem renInst_comp (r q : Str → Str) (i : PInst) : renInst r (renInst q i) = renInst (fun n => r (q n)) i := by
  cases i with
  | call k c sg as =>
    simp only [renInst, renVals_comp]
    cases c with
    | ptr v => simp only [renCallee, renVal_comp]
    | _ => rfl
  | op k c as => simp only [renInst, renVals_comp]
  | phi k inc =>
    simp only [renInst, List.map_map]
    congr 1
    apply List.map_congr_left
    intro x _
    simp only [Function.comp, renVal_comp]

theorem renTerm_comp (r q : Str → Str) (t : PTerm) : renTerm r (renTerm q t) = renTerm (fun n => r (q n)) t := by
  cases t with
  | ret v => cases v <;> simp [renTerm, renVal_comp]
  | br c x y => simp only [renTerm, renVal_comp]
  | _ => rfl

theorem renBlocks_comp (r q : Str → Str) (l : List PBlock) :
    (l.map (renBlock q)).map (renBlock r) = l.map (renBlock fun n => r (q n)) := by
  rw [List.map_map]
  apply List.map_congr_left
  intro b _
  simp only [Function.comp, renBlock, List.map_map, renTerm_comp]
  congr 1
  exact List.map_congr_left fun i _ => renInst_comp r q i

theorem renFun_comp (r q : Str → Str) (f : PFun) : renFun r (renFun q f) = renFun (fun n => r (q n)) f := by
  simp only [renFun, renBody, renBlocks_comp]

theorem renBody_renFun (r q : Str → Str) (f : PFun) (h : r (q f.name) = q f.name) :
    renBody r (renFun q f) = renFun (fun n => r (q n)) f := by
  simp only [renFun, renBody, renBlocks_comp, h]

theorem renFun_id (g : PFun) : renFun id g = g := by
  have hv : ∀ v : PValue, renVal id v = v := fun v => by cases v <;> rfl
  have hvs : ∀ l : List PValue, l.map (renVal id) = l := fun l => map_same fun v _ => hv v
  have hi : ∀ i : PInst, renInst id i = i := by
    intro i
    cases i with
    | call j c sg as =>
      simp only [renInst, hvs]
      cases c with
      | ptr v => simp only [renCallee, hv]
      | _ => rfl
    | op j c as => simp only [renInst, hvs]
    | phi j inc => simp only [renInst]; rw [map_same]; intro x _; rw [hv]
  have ht : ∀ t : PTerm, renTerm id t = t := by
    intro t
    cases t with
    | ret v => cases v <;> simp [renTerm, hv]
    | br c x y => simp only [renTerm, hv]
    | _ => rfl
  have hb : g.blocks.map (renBlock id) = g.blocks := map_same fun b _ => by
    simp only [renBlock, ht]
    rw [map_same fun i _ => hi i]
  cases g
  simp only [renFun, renBody, id] at hb ⊢
  rw [hb]

section
variable {P : PMod} (hid : ∀ n ∈ mergeNames P, stem (stem n) = stem n)
include hid

theorem partName_eq {K : List Str} {x n : Str} (hK : stem x ∉ K) (h : partName P K n = x) : n = x := by
  simp only [partName] at h
  split at h
  · rename_i hc
    exfalso
    apply hK
    rw [← h, hid n hc.1]
    exact hc.2.1
  · exact h

omit hid in
theorem partName_self {K : List Str} {x : Str} (hK : stem x ∉ K) : partName P K x = x := by
  simp [partName, hK]

theorem partName_key {K : List Str} {k n : Str} (hK : k ∉ K) (h : partName P K n = k) : n = k := by
  simp only [partName] at h
  split at h
  · rename_i hc
    exact absurd (h ▸ hc.2.1) hK
  · exact h

omit hid in
theorem mem_group {k x : Str} : x ∈ groupOf (mergeNames P) k ↔ x ∈ mergeNames P ∧ stem x = k := by
  simp [groupOf]

omit hid in
theorem mem_names_fun {n : Str} (h : n ∈ mergeNames P) : ∃ f ∈ P, f.name = n ∧ mergeable n = true := by
  obtain ⟨h1, h2⟩ := List.mem_filter.1 h
  obtain ⟨f, hf, rfl⟩ := List.mem_map.1 h1
  exact ⟨f, hf, rfl, h2⟩

theorem innerMod_fn {K O : List Str} {first k x : Str} (hk : k ∉ K) (hx : x ∈ groupOf (mergeNames P) k) (hO : x ∉ O) :
    ∃ f ∈ P, f.name = x ∧ PMod.fn? (innerMod P K O first) x = some (renFun (innerName P K O first) f) := by
  obtain ⟨hxL, hxk⟩ := mem_group.1 hx
  have hxK : stem x ∉ K := hxk ▸ hk
  obtain ⟨f, hf, hfn, _⟩ := mem_names_fun hxL
  have hin : renFun (innerName P K O first) f ∈ innerMod P K O first := by
    refine List.mem_map.2 ⟨f, List.mem_filter.2 ⟨hf, ?_⟩, rfl⟩
    simp [partKept, hfn, hxK, hO]
  have hname : (renFun (innerName P K O first) f).name = x := by
    simp only [renFun, innerName, hfn, hO, if_false]
    exact partName_self hxK
  cases hg : PMod.fn? (innerMod P K O first) x with
  | none => exact absurd (List.mem_map.2 ⟨_, hin, hname⟩) (fn?_none_iff.1 hg)
  | some g =>
    obtain ⟨hgm, hgn⟩ := fn?_mem hg
    obtain ⟨f', hf', rfl⟩ := List.mem_map.1 hgm
    obtain ⟨hf'P, hc⟩ := List.mem_filter.1 hf'
    simp only [Bool.and_eq_true, decide_eq_true_eq] at hc
    simp only [renFun, innerName, hc.2, if_false] at hgn
    exact ⟨f', hf'P, partName_eq hid hxK hgn, rfl⟩

theorem mergeInto_inner {K O : List Str} {first o k : Str} (hk : k ∉ K)
    (hf : first ∈ groupOf (mergeNames P) k) (ho : o ∈ groupOf (mergeNames P) k) (hoO : o ∉ O) (hne : o ≠ first) :
    mergeInto (innerMod P K O first) first o = innerMod P K (O ++ [o]) first := by
  have hoK : stem o ∉ K := (mem_group.1 ho).2 ▸ hk
  have hfn : ∀ n, ren1 o first (innerName P K O first n) = innerName P K (O ++ [o]) first n := by
    intro n
    simp only [innerName, List.mem_append, List.mem_singleton, ren1]
    by_cases hn : n ∈ O
    · simp [hn]
    · by_cases hno : n = o
      · subst hno
        simp [hn, partName_self hoK]
      · have : ¬ partName P K n = o := fun h => hno (partName_eq hid hoK h)
        simp [hn, hno, this]
  simp only [mergeInto, innerMod]
  rw [List.filter_map, List.filter_filter, List.map_map]
  have hp : ∀ f ∈ P, ((((fun f : PFun => decide (f.name ≠ o)) ∘ renFun (innerName P K O first)) f) &&
      (partKept P K f && decide (f.name ∉ O))) = (partKept P K f && decide (f.name ∉ O ++ [o])) := by
    intro f _
    show (decide (innerName P K O first f.name ≠ o) && (partKept P K f && decide (f.name ∉ O))) = _
    by_cases hfO : f.name ∈ O
    · simp [hfO]
    · have he : innerName P K O first f.name = partName P K f.name := by simp [innerName, hfO]
      simp only [he]
      by_cases hfo : f.name = o
      · simp [hfo, partName_self hoK]
      · have : ¬ partName P K f.name = o := fun h => hfo (partName_eq hid hoK h)
        simp [hfO, hfo, this]
  rw [List.filter_congr hp]
  apply List.map_congr_left
  intro f hf'
  obtain ⟨_, hc⟩ := List.mem_filter.1 hf'
  simp only [Bool.and_eq_true, decide_eq_true_eq, List.mem_append, List.mem_singleton, not_or] at hc
  simp only [Function.comp]
  rw [renBody_renFun]
  · congr 1
    funext n
    exact hfn n
  · rw [hfn]
    simp [innerName, hc.2.1, hc.2.2]

theorem mergeRest_inner (hsig : ∀ f ∈ P, ∀ g ∈ P, mergeable f.name = true → mergeable g.name = true →
      stem f.name = stem g.name → f.sig = g.sig) {K : List Str} {first k : Str} (hk : k ∉ K)
    (hf : first ∈ groupOf (mergeNames P) k) : ∀ (rest O : List Str), (∀ o ∈ rest, o ∈ groupOf (mergeNames P) k) →
      rest.Nodup → (∀ o ∈ rest, o ∉ O) → first ∉ O → first ∉ rest →
      mergeRest (innerMod P K O first) first rest = innerMod P K (O ++ rest) first := by
  intro rest
  induction rest with
  | nil => intro O _ _ _ _ _; simp [mergeRest]
  | cons o rest ih =>
    intro O hg hn hO hfO hfr
    simp only [List.nodup_cons] at hn
    simp only [List.mem_cons, not_or] at hfr
    have ho := hg o (by simp)
    obtain ⟨f1, hf1, hn1, he1⟩ := innerMod_fn hid (first := first) hk hf hfO
    obtain ⟨f2, hf2, hn2, he2⟩ := innerMod_fn hid (first := first) hk ho (hO o (by simp))
    have hm1 := (mem_names_fun (mem_group.1 hf).1)
    have hm2 := (mem_names_fun (mem_group.1 ho).1)
    obtain ⟨_, _, _, hm1⟩ := hm1
    obtain ⟨_, _, _, hm2⟩ := hm2
    have hs : f1.sig = f2.sig := hsig f1 hf1 f2 hf2 (hn1 ▸ hm1) (hn2 ▸ hm2) (by
      rw [hn1, hn2, (mem_group.1 hf).2, (mem_group.1 ho).2])
    have hstep : mergeRest (innerMod P K O first) first (o :: rest) =
        mergeRest (mergeInto (innerMod P K O first) first o) first rest := by
      simp only [mergeRest, List.foldl_cons]
      rw [he1, he2]
      simp only [Option.map_some, renFun, renBody, hs, if_true]
    rw [hstep, mergeInto_inner hid hk hf ho (hO o (by simp)) (fun h => hfr.1 h.symm)]
    rw [ih (O ++ [o]) (fun x hx => hg x (by simp [hx])) hn.2 ?_ ?_ hfr.2]
    · simp
    · intro x hx hc
      simp only [List.mem_append, List.mem_singleton] at hc
      rcases hc with hc | rfl
      · exact hO x (by simp [hx]) hc
      · exact hn.1 hx
    · intro hc
      simp only [List.mem_append, List.mem_singleton] at hc
      rcases hc with hc | hc
      · exact hfO hc
      · exact hfr.1 hc

omit hid in
theorem innerMod_nil (K : List Str) (first : Str) : innerMod P K [] first = partMod P K := by
  have h1 : innerName P K [] first = partName P K := by funext n; simp [innerName]
  simp only [innerMod, partMod, h1]
  congr 1
  apply List.filter_congr
  intro f _
  simp

theorem mergeGroup_part (uniq : List Str → Str → Str) (hnd : P.names.Nodup)
    (hsig : ∀ f ∈ P, ∀ g ∈ P, mergeable f.name = true → mergeable g.name = true →
      stem f.name = stem g.name → f.sig = g.sig) {K : List Str} {k : Str} (hk : k ∉ K)
    (hne : ∃ n ∈ mergeNames P, stem n = k) :
    mergeGroup uniq (partMod P K) (groupOf (mergeNames P) k) = partMod P (K ++ [k]) := by
  have hgn : (groupOf (mergeNames P) k).Nodup := (hnd.filter _).filter _
  obtain ⟨n0, hn0, hs0⟩ := hne
  have hmem0 : n0 ∈ groupOf (mergeNames P) k := mem_group.2 ⟨hn0, hs0⟩
  have hkk : stem k = k := by rw [← hs0]; exact hid n0 hn0
  have hcase : ∀ first rest, groupOf (mergeNames P) k = first :: rest → ∀ n,
      n ∈ mergeNames P ∧ stem n = k ↔ n = first ∨ n ∈ rest := by
    intro first rest hg n
    rw [← mem_group, hg]
    simp
  match hg : groupOf (mergeNames P) k with
  | [] => rw [hg] at hmem0; cases hmem0
  | [first] =>
    simp only [mergeGroup, partMod]
    have h1 : partName P (K ++ [k]) = partName P K := by
      funext n
      simp only [partName, List.mem_append, List.mem_singleton]
      by_cases hnk : stem n = k
      · simp [hnk, hg]
      · simp [hnk]
    have h2 : partKept P (K ++ [k]) = partKept P K := by
      funext f
      simp only [partKept, List.mem_append, List.mem_singleton]
      by_cases hfL : f.name ∈ mergeNames P
      · by_cases hfk : stem f.name = k
        · have := (hcase first [] hg f.name).1 ⟨hfL, hfk⟩
          simp only [List.not_mem_nil, or_false] at this
          have hh : (groupOf (mergeNames P) (stem f.name)).head? = some f.name := by rw [hfk, hg, this]; rfl
          simp [hh]
        · simp [hfk]
      · simp [hfL]
    rw [h1, h2]
  | first :: second :: others =>
    have hf : first ∈ groupOf (mergeNames P) k := by rw [hg]; simp
    rw [hg] at hgn
    simp only [mergeGroup]
    have hkf : stem first = k := (mem_group.1 hf).2
    rw [hkf, ← innerMod_nil K first, mergeRest_inner hid hsig hk hf (second :: others) []
      (fun o ho => by rw [hg]; exact List.mem_cons_of_mem _ ho) (List.nodup_cons.1 hgn).2
      (fun _ _ h => by cases h) (fun h => by cases h) (List.nodup_cons.1 hgn).1]
    rw [List.nil_append]
    have hcase := hcase first (second :: others) hg
    have hfr : first ∉ second :: others := (List.nodup_cons.1 hgn).1
    generalize hrest : second :: others = rest at *
    have hlen : 2 ≤ (groupOf (mergeNames P) k).length := by rw [hg, ← hrest]; simp
    -- the kept functions
    have hkept : (P.filter fun f => partKept P K f && decide (f.name ∉ rest)) = P.filter (partKept P (K ++ [k])) := by
      apply List.filter_congr
      intro f _
      simp only [partKept, List.mem_append, List.mem_singleton]
      by_cases hfL : f.name ∈ mergeNames P
      · by_cases hfk : stem f.name = k
        · have hc := (hcase f.name).1 ⟨hfL, hfk⟩
          simp only [hfk, hk, hg, List.head?_cons, or_true, decide_true, Bool.and_true, decide_false,
            Bool.and_false, Bool.not_false, Bool.true_and, hfL]
          rcases hc with hc | hc
          · simp [hc, hfr]
          · have : first ≠ f.name := fun h => hfr (h ▸ hc)
            simp [hc, this]
        · have : f.name ∉ rest := fun h => hfk ((hcase f.name).2 (Or.inr h)).2
          simp [hfk, this]
      · have : f.name ∉ rest := fun h => hfL ((hcase f.name).2 (Or.inr h)).1
        simp [hfL, this]
    have hname : ∀ n, ren1 first k (innerName P K rest first n) = partName P (K ++ [k]) n := by
      intro n
      by_cases hn : n ∈ mergeNames P ∧ stem n = k
      · have h2 : partName P (K ++ [k]) n = k := by simp [partName, hn.1, hn.2, hlen]
        rw [h2]
        rcases (hcase n).1 hn with rfl | hr
        · simp [innerName, hfr, partName_self (P := P) (x := n) (hkf ▸ hk), ren1]
        · simp [innerName, hr, ren1]
      · have hnr : n ∉ rest := fun h => hn ((hcase n).2 (Or.inr h))
        have hnf : n ≠ first := fun h => hn ((hcase n).2 (Or.inl h))
        have h3 : partName P K n ≠ first := fun h => hnf (partName_eq hid (hkf ▸ hk) h)
        simp only [innerName, hnr, if_false, ren1, h3]
        simp only [partName, List.mem_append, List.mem_singleton]
        by_cases hnL : n ∈ mergeNames P
        · have : ¬ stem n = k := fun h => hn ⟨hnL, h⟩
          simp [this]
        · simp [hnL]
    have hmap : (innerMod P K rest first).map (renFun (ren1 first k)) = partMod P (K ++ [k]) := by
      simp only [innerMod, partMod, hkept, List.map_map]
      apply List.map_congr_left
      intro f _
      simp only [Function.comp, renFun_comp]
      congr 1
      funext n
      exact hname n
    by_cases hfk : first = k
    · simp only [setName, hfk, if_true]
      have hr : ren1 first k = id := by
        funext n
        simp only [ren1, hfk, id]
        split
        · rename_i h; exact h.symm
        · rfl
      rw [← hmap, hr]
      symm
      rw [hfk]
      apply map_same
      intro g _
      exact renFun_id g
    · have hnew : newName uniq (innerMod P K rest first) first k = k := by
        simp only [newName, hfk, if_false]
        have : (innerMod P K rest first).names.contains k = false := by
          rw [Bool.eq_false_iff]
          intro hc
          rw [List.contains_iff_mem] at hc
          obtain ⟨g, hgm, hgn'⟩ := List.mem_map.1 hc
          obtain ⟨f, hfm, rfl⟩ := List.mem_map.1 hgm
          obtain ⟨hfP, hfc⟩ := List.mem_filter.1 hfm
          simp only [Bool.and_eq_true, decide_eq_true_eq] at hfc
          simp only [renFun, innerName, hfc.2, if_false] at hgn'
          have hfk' := partName_key hid hk hgn'
          obtain ⟨_, _, _, hm⟩ := mem_names_fun hn0
          have hkm : mergeable k = true := by rw [← hs0]; exact mergeable_stem hm
          have hkL : k ∈ mergeNames P := List.mem_filter.2 ⟨List.mem_map.2 ⟨f, hfP, hfk'⟩, hkm⟩
          rcases (hcase k).1 ⟨hkL, hkk⟩ with h | h
          · exact hfk h.symm
          · exact hfc.2 (hfk' ▸ h)
        rw [if_neg (by rw [this]; simp)]
      simp only [setName, hfk, if_false, hnew]
      exact hmap

theorem mergeNumbered_part (uniq : List Str → Str → Str) (hnd : P.names.Nodup)
    (hsig : ∀ f ∈ P, ∀ g ∈ P, mergeable f.name = true → mergeable g.name = true →
      stem f.name = stem g.name → f.sig = g.sig) :
    mergeNumbered uniq P = partMod P (mergeGroups P).keys := by
  have key : ∀ ks K : List Str, (∀ k ∈ ks, ∃ n ∈ mergeNames P, stem n = k) → ks.Nodup → (∀ k ∈ ks, k ∉ K) →
      (ks.map (groupOf (mergeNames P))).foldl (mergeGroup uniq) (partMod P K) = partMod P (K ++ ks) := by
    intro ks
    induction ks with
    | nil => intro K _ _ _; simp
    | cons k ks ih =>
      intro K hg hn hK
      simp only [List.nodup_cons] at hn
      simp only [List.map_cons, List.foldl_cons]
      rw [mergeGroup_part hid uniq hnd hsig (hK k (by simp)) (hg k (by simp))]
      rw [ih (K ++ [k]) (fun x hx => hg x (by simp [hx])) hn.2 ?_]
      · simp
      · intro x hx hc
        simp only [List.mem_append, List.mem_singleton] at hc
        rcases hc with hc | rfl
        · exact hK x (by simp [hx]) hc
        · exact hn.1 hx
  have h0 : partMod P [] = P := by
    have h1 : partName P [] = id := by funext n; simp [partName]
    have h2 : P.filter (partKept P []) = P := List.filter_eq_self.2 fun f _ => by simp [partKept]
    simp only [partMod, h1, h2]
    exact map_same fun f _ => renFun_id f
  have := key (mergeGroups P).keys [] (fun k hk => (mergeGroups_keys P k).1 hk) (groups_nodup _)
    (fun _ _ h => by cases h)
  rw [h0, List.nil_append, ← mergeGroups_values] at this
  exact this

end

/-! ### The property -/

/-- The name of a function after merging: the name without number, if several functions share it. -/
def mergedName (P : PMod) (n : Str) : Str :=
  if n ∈ P.names ∧ mergeable n = true ∧ ∃ m ∈ P.names, m ≠ n ∧ mergeable m = true ∧ stem m = stem n
  then stem n else n

/-- What is assumed of the machine: only functions of the module have addresses, and neither addresses nor external
functions depend on numbers in names. -/
structure SuffixMach (M : PMach V S) (P : PMod) : Prop where
  target : ∀ v m, M.target v = some m → m ∈ P.names
  addr : ∀ n ∈ P.names, M.addr (stem n) = M.addr n
  ext : ∀ n ∈ P.names, M.ext (stem n) = M.ext n

/-- The machine for the renamed functions. -/
def PMach.rename (M : PMach V S) (r : Str → Str) : PMach V S := { M with target := fun v => (M.target v).map r }

/-- C96: merging functions whose names differ in their number only does not change what functions do. -/
def C96_statement : Prop :=
  ∀ (V S : Type) (M : PMach V S) (uniq : List Str → Str → Str) (P : PMod), ModOk P → SuffixMach M P →
    (∀ l n, uniq l n ∉ l) → ∀ n ∈ P.names, ∀ a s v s',
      PEnds M P n a s v s' ↔
        PEnds (PMach.rename M (mergedName P)) (mergeNumbered uniq P) (mergedName P n) a s v s'

/-- Two static functions with the same name. -/
def twinMod : PMod :=
  [{ name := str! "f", sig := ⟨str! "i32", [], false⟩, blocks := [⟨[], .ret (some (.const 1))⟩] },
   { name := str! "f.1", sig := ⟨str! "i32", [], false⟩, blocks := [⟨[], .ret (some (.const 2))⟩] }]

theorem twinMod_ok : ModOk twinMod := by
  refine ⟨by decide +kernel, ?_⟩
  intro f hf i c sg as hi
  simp only [twinMod, List.mem_cons, List.not_mem_nil, or_false] at hf
  rcases hf with rfl | rfl <;> simp [PFun.insts] at hi

theorem stepMach_suffix (P : PMod) : SuffixMach stepMach P :=
  ⟨fun v m h => by simp [stepMach] at h, fun _ _ => rfl, fun _ _ => rfl⟩

/-- C96 fails: `f` and `f.1` need not have the same body, but all calls of `f.1` become calls of `f`. -/
theorem C96_fails : ¬ C96_statement := by
  intro h
  obtain ⟨k, hk⟩ := (h Int Int stepMach longName twinMod twinMod_ok (stepMach_suffix _) longName_fresh
    (str! "f.1") (by decide +kernel) [] 0 2 0).1 ⟨2, by decide +kernel⟩
  have h1 : mergedName twinMod (str! "f.1") = str! "f" := by decide +kernel
  have h2 : mergeNumbered longName twinMod =
      [{ name := str! "f", sig := ⟨str! "i32", [], false⟩, blocks := [⟨[], .ret (some (.const 1))⟩] }] := by
    decide +kernel
  rw [h1, h2] at hk
  match k with
  | 0 => simp [callFn] at hk
  | 1 => simp [callFn, PMod.fn?, runPBlocks] at hk
  | k + 2 => simp [callFn, PMod.fn?, runPBlocks, runInsts, evalP, PMach.rename, stepMach] at hk

/-- A declaration that precedes the definition replaces it: the body is lost. -/
theorem C96_definition_lost :
    mergeNumbered longName [⟨str! "f", ⟨str! "i32", [], false⟩, [], none⟩,
      ⟨str! "f.1", ⟨str! "i32", [], false⟩, [⟨[], .ret (some (.const 2))⟩], none⟩] =
    [⟨str! "f", ⟨str! "i32", [], false⟩, [], none⟩] := by
  decide +kernel

theorem two_of_ne {L : List Str} {k a b : Str} (ha : a ∈ groupOf L k) (hb : b ∈ groupOf L k) (hne : a ≠ b) :
    2 ≤ (groupOf L k).length := by
  match h : groupOf L k with
  | [] => rw [h] at ha; cases ha
  | [x] =>
    rw [h] at ha hb
    simp only [List.mem_singleton] at ha hb
    exact absurd (ha.trans hb.symm) hne
  | x :: y :: l => simp

theorem mergedName_part {P : PMod} (hnd : P.names.Nodup) (n : Str) :
    partName P (mergeGroups P).keys n = mergedName P n := by
  simp only [partName, mergedName]
  have hmem : ∀ m, m ∈ mergeNames P ↔ m ∈ P.names ∧ mergeable m = true := by simp [mergeNames]
  congr 1
  rw [eq_iff_iff]
  constructor
  · rintro ⟨h1, _, h3⟩
    refine ⟨((hmem n).1 h1).1, ((hmem n).1 h1).2, ?_⟩
    have hin : n ∈ groupOf (mergeNames P) (stem n) := mem_group.2 ⟨h1, rfl⟩
    have hgn : (groupOf (mergeNames P) (stem n)).Nodup := (hnd.filter _).filter _
    match hg : groupOf (mergeNames P) (stem n), h3 with
    | x :: y :: l, _ =>
      rw [hg] at hgn
      have hxy : x ≠ y := by
        intro h
        simp [h] at hgn
      have hx : x ∈ groupOf (mergeNames P) (stem n) := by rw [hg]; simp
      have hy : y ∈ groupOf (mergeNames P) (stem n) := by rw [hg]; simp
      by_cases hnx : n = x
      · obtain ⟨h1, h2⟩ := mem_group.1 hy
        exact ⟨y, ((hmem y).1 h1).1, fun h => hxy (hnx ▸ h.symm), ((hmem y).1 h1).2, h2⟩
      · obtain ⟨h1, h2⟩ := mem_group.1 hx
        exact ⟨x, ((hmem x).1 h1).1, fun h => hnx h.symm, ((hmem x).1 h1).2, h2⟩
  · rintro ⟨h1, h2, m, hm, hne, hmm, hs⟩
    have hn := (hmem n).2 ⟨h1, h2⟩
    refine ⟨hn, (mergeGroups_keys P _).2 ⟨n, hn, rfl⟩, ?_⟩
    exact two_of_ne (mem_group.2 ⟨(hmem m).2 ⟨hm, hmm⟩, hs⟩) (mem_group.2 ⟨hn, rfl⟩) hne

/-- C96, proved part: it holds if functions that share the name without number agree up to such names, and names
have one number only. Missing: functions with different bodies, for which the property fails, and names with several
numbers. -/
theorem C96_partial (M : PMach V S) (uniq : List Str → Str → Str) (P : PMod) (hP : ModOk P) (hM : SuffixMach M P)
    (hid : ∀ n ∈ P.names, stem (stem n) = stem n)
    (htwin : ∀ f ∈ P, ∀ g ∈ P, mergeable f.name = true → mergeable g.name = true → stem f.name = stem g.name →
      f.sig = g.sig ∧ f.abs = g.abs ∧ f.blocks.map (renBlock (mergedName P)) = g.blocks.map (renBlock (mergedName P)))
    (n : Str) (hn : n ∈ P.names) (a : List V) (s : S) (v : V) (s' : S) :
    PEnds M P n a s v s' ↔
      PEnds (PMach.rename M (mergedName P)) (mergeNumbered uniq P) (mergedName P n) a s v s' := by
  have hid' : ∀ n ∈ mergeNames P, stem (stem n) = stem n := fun n hn => hid n (List.mem_filter.1 hn).1
  have hmod := mergeNumbered_part hid' uniq hP.nodup (fun f hf g hg h1 h2 h3 => (htwin f hf g hg h1 h2 h3).1)
  have hpn : partName P (mergeGroups P).keys = mergedName P := funext (mergedName_part hP.nodup)
  have hmn : ∀ m, mergedName P m = m ∨ (m ∈ P.names ∧ mergedName P m = stem m) := by
    intro m
    simp only [mergedName]
    split
    · rename_i h; exact Or.inr ⟨h.1, rfl⟩
    · exact Or.inl rfl
  have hfix : ∀ m, m ∉ mergeNames P → mergedName P m = m := by
    intro m hm
    rw [← hpn]
    simp [partName, hm]
  have hkey : ∀ m ∈ mergeNames P, stem m ∈ (mergeGroups P).keys := fun m hm => (mergeGroups_keys P _).2 ⟨m, hm, rfl⟩
  -- mergeable names with the same new name have the same stem
  have hstem : ∀ m ∈ mergeNames P, stem (mergedName P m) = stem m := by
    intro m hm
    rcases hmn m with h | ⟨_, h⟩
    · rw [h]
    · rw [h, hid' m hm]
  have hmrg : ∀ m ∈ mergeNames P, mergeable (mergedName P m) = true := by
    intro m hm
    have hmm := (List.mem_filter.1 hm).2
    rcases hmn m with h | ⟨_, h⟩
    · rw [h]; exact hmm
    · rw [h]; exact mergeable_stem hmm
  have hfun : ∀ f ∈ P, ∃ g, PMod.fn? (mergeNumbered uniq P) (mergedName P f.name) = some g ∧ g.abs = f.abs ∧
      g.blocks = f.blocks.map (renBlock (mergedName P)) := by
    intro f hf
    rw [hmod]
    -- a kept function with the new name
    have hex : ∃ f1 ∈ P, partKept P (mergeGroups P).keys f1 = true ∧ mergedName P f1.name = mergedName P f.name := by
      by_cases hfL : f.name ∈ mergeNames P
      · have hin : f.name ∈ groupOf (mergeNames P) (stem f.name) := mem_group.2 ⟨hfL, rfl⟩
        match hg : groupOf (mergeNames P) (stem f.name) with
        | [] => rw [hg] at hin; cases hin
        | first :: rest =>
          have h1 : first ∈ groupOf (mergeNames P) (stem f.name) := by rw [hg]; simp
          obtain ⟨h1L, h1s⟩ := mem_group.1 h1
          obtain ⟨f1, hf1, hf1n, hf1m⟩ := mem_names_fun h1L
          refine ⟨f1, hf1, ?_, ?_⟩
          · simp [partKept, hf1n, h1s, hg]
          · by_cases he : f1.name = f.name
            · rw [he]
            · have hlen : 2 ≤ (groupOf (mergeNames P) (stem f.name)).length :=
                two_of_ne h1 hin (fun h => he (hf1n.trans h))
              rw [← hpn]
              simp only [partName, hf1n, h1L, h1s, hkey _ hfL, hlen, hfL, and_self, if_true]
      · exact ⟨f, hf, by simp [partKept, hfL], rfl⟩
    obtain ⟨f1, hf1, hk1, hn1⟩ := hex
    have hin : renFun (partName P (mergeGroups P).keys) f1 ∈ partMod P (mergeGroups P).keys :=
      List.mem_map.2 ⟨f1, List.mem_filter.2 ⟨hf1, hk1⟩, rfl⟩
    cases hg : PMod.fn? (partMod P (mergeGroups P).keys) (mergedName P f.name) with
    | none =>
      refine absurd (List.mem_map.2 ⟨_, hin, ?_⟩) (fn?_none_iff.1 hg)
      simp only [renFun, hpn]
      exact hn1
    | some g =>
      obtain ⟨hgm, hgn⟩ := fn?_mem hg
      obtain ⟨f2, hf2, rfl⟩ := List.mem_map.1 hgm
      obtain ⟨hf2, hk2⟩ := List.mem_filter.1 hf2
      simp only [renFun, hpn] at hgn
      refine ⟨_, rfl, ?_⟩
      simp only [renFun, renBody, hpn]
      by_cases hfL : f.name ∈ mergeNames P
      · have hf2L : f2.name ∈ mergeNames P := by
          by_contra hc
          have h1 := hfix _ hc
          rw [h1] at hgn
          apply hc
          rw [mergeNames, List.mem_filter]
          refine ⟨List.mem_map.2 ⟨f2, hf2, rfl⟩, ?_⟩
          rw [hgn]
          exact hmrg _ hfL
        have hs : stem f2.name = stem f.name := by rw [← hstem _ hf2L, ← hstem _ hfL, hgn]
        obtain ⟨_, h2, h3⟩ := htwin f2 hf2 f hf (List.mem_filter.1 hf2L).2 (List.mem_filter.1 hfL).2 hs
        exact ⟨h2, h3⟩
      · have hf2L : f2.name ∉ mergeNames P := by
          intro hc
          have h1 := hmrg _ hc
          rw [hgn, hfix _ hfL] at h1
          exact hfL (List.mem_filter.2 ⟨List.mem_map.2 ⟨f, hf, rfl⟩, h1⟩)
        rw [hfix _ hfL, hfix _ hf2L] at hgn
        have : f2 = f := by
          have e1 := fn?_of_mem hP.nodup hf2
          have e2 := fn?_of_mem hP.nodup hf
          rw [hgn, e2] at e1
          exact (Option.some.inj e1).symm
        rw [this]
        exact ⟨rfl, rfl⟩
  have haddr : ∀ m, M.addr (mergedName P m) = M.addr m := by
    intro m
    rcases hmn m with h | ⟨h1, h⟩
    · rw [h]
    · rw [h]; exact hM.addr m h1
  have hext : ∀ m ∈ P.names, M.ext (mergedName P m) = M.ext m := by
    intro m hm
    rcases hmn m with h | ⟨h1, h⟩
    · rw [h]
    · rw [h]; exact hM.ext m h1
  have hsim := callFn_ren (P' := mergeNumbered uniq P) hP haddr hM.target hext hfun
  constructor
  · rintro ⟨k, hk⟩
    exact ⟨k, by rw [← hk]; exact (hsim k n hn a s).symm⟩
  · rintro ⟨k, hk⟩
    exact ⟨k, by rw [← hk]; exact hsim k n hn a s⟩

/-- A case of `C96_partial`: `f` and `f.1` call `g` and `g.1`, which do the same. -/
def pairMod : PMod :=
  [{ name := str! "f", sig := ⟨str! "i32", [], false⟩
     blocks := [⟨[.call 0 (.fn (str! "g")) ⟨str! "i32", [], false⟩ []], .ret (some (.inst 0))⟩] },
   { name := str! "f.1", sig := ⟨str! "i32", [], false⟩
     blocks := [⟨[.call 0 (.fn (str! "g.1")) ⟨str! "i32", [], false⟩ []], .ret (some (.inst 0))⟩] },
   { name := str! "g.1", sig := ⟨str! "i32", [], false⟩, blocks := [⟨[], .ret (some (.const 5))⟩] },
   { name := str! "g", sig := ⟨str! "i32", [], false⟩, blocks := [⟨[], .ret (some (.const 5))⟩] }]

example : ModOk pairMod ∧ SuffixMach stepMach pairMod ∧ (∀ n ∈ pairMod.names, stem (stem n) = stem n) ∧
    (∀ f ∈ pairMod, ∀ g ∈ pairMod, mergeable f.name = true → mergeable g.name = true → stem f.name = stem g.name →
      f.sig = g.sig ∧ f.abs = g.abs ∧
        f.blocks.map (renBlock (mergedName pairMod)) = g.blocks.map (renBlock (mergedName pairMod))) ∧
    (mergeNumbered longName pairMod).names = [str! "f", str! "g"] ∧
    PEnds stepMach pairMod (str! "f.1") [] 0 5 0 := by
  refine ⟨⟨by decide +kernel, ?_⟩, stepMach_suffix _, by decide +kernel, by decide +kernel, by decide +kernel,
    ⟨4, by decide +kernel⟩⟩
  intro f hf i c sg as hi
  simp only [pairMod, List.mem_cons, List.not_mem_nil, or_false] at hf
  rcases hf with rfl | rfl | rfl | rfl
  · simp only [PFun.insts, List.flatMap_cons, List.flatMap_nil, List.append_nil, List.mem_singleton,
      PInst.call.injEq, PCallee.fn.injEq] at hi
    rw [hi.2.1]
    decide +kernel
  · simp only [PFun.insts, List.flatMap_cons, List.flatMap_nil, List.append_nil, List.mem_singleton,
      PInst.call.injEq, PCallee.fn.injEq] at hi
    rw [hi.2.1]
    decide +kernel
  · simp [PFun.insts] at hi
  · simp [PFun.insts] at hi

end DK
