import Verif.Lemmas.Viewer

/-!
Properties of the viewer: C53 (navigation), C54 (indices), C91 (sessions), C92 (call stacks), C93 (listings).
-/

set_option autoImplicit false

namespace DK
open Spec

/-! ### C53: navigation visits every difference -/

/-- What C53 says about a list of names: following 'next' from the first name visits exactly the names in
their order and ends, following 'previous' from the last one visits them in the opposite order, they are
inverse, and the tests for the first and for the last name agree with them. -/
structure Navigable (l : List Str) : Prop where
  forwards : ∀ x, l.head? = some x → Follows (nextListed l) x l
  backwards : ∀ x, l.getLast? = some x → Follows (prevListed l) x l.reverse
  inverse : ∀ x ∈ l, ∀ y ∈ l, nextListed l x = some y ↔ prevListed l y = some x
  first : ∀ x ∈ l, isFirstName l x = true ↔ prevListed l x = none
  last : ∀ x ∈ l, isLastName l x = true ↔ nextListed l x = none

theorem navigable_of_nodup {l : List Str} (hn : l.Nodup) : Navigable l := by
  have inj : ∀ {i j : Nat} {x : Str}, l[i]? = some x → l[j]? = some x → i = j := by
    intro i j x hi hj
    have h1 := indexPlus_get hn hi
    have h2 := indexPlus_get hn hj
    omega
  refine ⟨?_, ?_, ?_, ?_, ?_⟩
  · intro x hx
    cases l with
    | nil => simp at hx
    | cons a l =>
      simp at hx
      subst hx
      exact follows_next hn l [] a rfl
  · intro x hx
    obtain ⟨l', rfl⟩ : ∃ l', l = l' ++ [x] := by
      rw [List.getLast?_eq_some_iff] at hx
      exact hx
    have := follows_prev hn l'.reverse x [] (by simp)
    simpa using this
  · intro x hx y hy
    obtain ⟨i, hi⟩ := List.mem_iff_getElem?.1 hx
    obtain ⟨j, hj⟩ := List.mem_iff_getElem?.1 hy
    rw [next_get hn hi]
    constructor
    · intro h
      have hji := inj hj h
      subst hji
      rw [prev_get_succ hn hj, hi]
    · intro h
      cases j with
      | zero => rw [prev_get_zero hn hj] at h; cases h
      | succ j =>
        rw [prev_get_succ hn hj] at h
        rw [inj hi h]
        exact hj
  · intro x hx
    obtain ⟨i, hi⟩ := List.mem_iff_getElem?.1 hx
    simp only [isFirstName, beq_iff_eq]
    rw [List.head?_eq_getElem?]
    cases i with
    | zero => simp [prev_get_zero hn hi, hi]
    | succ i =>
      rw [prev_get_succ hn hi]
      have hlt := (List.getElem?_eq_some_iff.1 hi).1
      constructor
      · intro h
        have := inj h hi
        omega
      · intro h
        rw [List.getElem?_eq_none_iff] at h
        omega
  · intro x hx
    obtain ⟨i, hi⟩ := List.mem_iff_getElem?.1 hx
    have hlt := (List.getElem?_eq_some_iff.1 hi).1
    simp only [isLastName, beq_iff_eq]
    rw [List.getLast?_eq_getElem?, next_get hn hi]
    constructor
    · intro h
      have := inj h hi
      rw [List.getElem?_eq_none_iff]
      omega
    · intro h
      rw [List.getElem?_eq_none_iff] at h
      rw [← hi]
      congr 1
      omega

/-- C53 for compared functions: for every result file and every comparison of names, the list of compared
functions contains exactly the functions of the file, each once, and can be navigated. -/
theorem C53_compared (le : Str → Str → Bool) (f : ViewFile) :
    (viewResult le f).compFuns.Nodup ∧
    (∀ c, c ∈ (viewResult le f).compFuns ↔ ∃ ds, (c, ds) ∈ f) ∧
    Navigable (viewResult le f).compFuns := by
  refine ⟨compFuns_nodup le f, ?_, navigable_of_nodup (compFuns_nodup le f)⟩
  intro c
  rw [compFuns_mem, List.mem_map]
  constructor
  · rintro ⟨⟨c', ds⟩, h, rfl⟩; exact ⟨ds, h⟩
  · rintro ⟨ds, h⟩; exact ⟨(c, ds), h, rfl⟩

/-- C53 for the differing functions of a compared function. -/
theorem C53_differing (le : Str → Str → Bool) (f : ViewFile) (c : Str) (l : List Str)
    (h : (viewResult le f).diffFunsFor c = some l) : l.Nodup ∧ Navigable l :=
  ⟨diffFunsFor_nodup le f c l h, navigable_of_nodup (diffFunsFor_nodup le f c l h)⟩

/-- The displayed order is the order of the names. -/
theorem C53_sorted (le : Str → Str → Bool) (ho : NameOrder le) (f : ViewFile) :
    (viewResult le f).compFuns.Pairwise (fun a b => le a b = true) ∧
    (viewResult le f).diffFuns.Pairwise (fun a b => le a b = true) :=
  ⟨compFuns_sorted ho f, diffFuns_sorted ho f⟩

/-- Names by length, an order for examples. -/
def byLength (a b : Str) : Bool := decide (a.length ≤ b.length)

theorem byLength_order : NameOrder byLength :=
  ⟨fun a b => by simp only [byLength, decide_eq_true_eq]; omega,
   fun a b c => by simp only [byLength, decide_eq_true_eq]; omega⟩

/-- Two compared functions that differ in `x`. -/
def sampleFile : ViewFile :=
  [(str! "main", [⟨str! "x", [], []⟩, ⟨str! "yy", [], []⟩]), (str! "f", [⟨str! "x", [], []⟩])]

example : (viewResult byLength sampleFile).compFuns = [str! "f", str! "main"] ∧
    (viewResult byLength sampleFile).compFunsFor (str! "x") = some [str! "f", str! "main"] ∧
    nextListed (viewResult byLength sampleFile).compFuns (str! "f") = some (str! "main") := by decide +kernel

/-! ### C54: the two indices agree -/

/-- C54: for every file in which names are distinct, a differing function is listed for a compared function
iff the compared function is listed for the differing one iff the file has such a difference; both lists
have no repetitions and the difference that is returned is the one of the file. -/
theorem C54_indices (le : Str → Str → Bool) (f : ViewFile) (hn : ViewNames f) (c d : Str) :
    ((∃ l, (viewResult le f).diffFunsFor c = some l ∧ d ∈ l) ↔
      ∃ l, (viewResult le f).compFunsFor d = some l ∧ c ∈ l) ∧
    ((∃ l, (viewResult le f).compFunsFor d = some l ∧ c ∈ l) ↔ ∃ x, HasDiff f c d x) ∧
    (∀ x, (viewResult le f).getDiff c d = some x ↔ HasDiff f c d x) ∧
    (∀ l, (viewResult le f).compFunsFor d = some l → l.Nodup) ∧
    (∀ l, (viewResult le f).diffFunsFor c = some l → l.Nodup) := by
  refine ⟨(diffFunsFor_mem hn c d).trans (compFunsFor_mem le f c d).symm, compFunsFor_mem le f c d,
    fun x => view_getDiff hn c d x, ?_, fun l hl => diffFunsFor_nodup le f c l hl⟩
  intro l hl
  have h := view_compFunsFor le f d
  rw [hl] at h
  simp only [Option.getD_some] at h
  rw [h]
  have hd := sortedFile_distinct (le := le) hn
  clear h hl l
  have : ∀ R : ViewFile, ViewNames R →
      (R.flatMap (fun r => (r.2.filter (fun x => x.function = d)).map (fun _ => r.1))).Nodup := by
    intro R
    induction R with
    | nil => intro _; simp
    | cons r R ih =>
      intro hR
      have hc := hR.comp
      simp only [List.map_cons, List.nodup_cons] at hc
      rw [List.flatMap_cons, List.nodup_append]
      refine ⟨?_, ih ⟨hc.2, fun r' hr' => hR.diffs r' (List.mem_cons_of_mem _ hr')⟩, ?_⟩
      · have hle : (r.2.filter (fun x => x.function = d)).length ≤ 1 := by
          have h1 := hR.diffs r List.mem_cons_self
          have h2 : ((r.2.filter (fun x => x.function = d)).map YamlDiff.function).Nodup :=
            h1.sublist (List.Sublist.map _ (List.filter_sublist))
          have h3 : ∀ y ∈ (r.2.filter (fun x => x.function = d)).map YamlDiff.function, y = d := by
            intro y hy
            obtain ⟨x, hx, rfl⟩ := List.mem_map.1 hy
            simpa using (List.mem_filter.1 hx).2
          rw [← List.length_map (f := YamlDiff.function)]
          generalize (r.2.filter (fun x => x.function = d)).map YamlDiff.function = l at h2 h3
          match l with
          | [] => exact Nat.zero_le _
          | [_] => exact Nat.le_refl _
          | a :: b :: _ =>
            have ha := h3 a (by simp)
            have hb := h3 b (by simp)
            rw [ha, hb] at h2
            simp at h2
        revert hle
        generalize r.2.filter (fun x => x.function = d) = l
        intro hle
        match l with
        | [] => simp
        | [_] => simp
        | a :: b :: _ => simp at hle
      · intro a ha b hb hab
        obtain ⟨_, _, rfl⟩ := List.mem_map.1 ha
        obtain ⟨r', hr', hb'⟩ := List.mem_flatMap.1 hb
        obtain ⟨_, _, rfl⟩ := List.mem_map.1 hb'
        exact hc.1 (List.mem_map.2 ⟨r', hr', hab.symm⟩)
  exact this _ hd

example : ViewNames sampleFile := ⟨by decide +kernel, by decide +kernel⟩

/-- Results are assembled by `add_inner`. -/
def Assembled (r : Res) : Prop := ∃ (r0 : Res) (xs : List Res), r0.inner = [] ∧ r = xs.foldl Res.addInner r0

theorem foldl_addInner_view : ∀ (xs : List Res) (r : Res),
    (xs.foldl Res.addInner r).inner = xs.foldl (fun m x => m.set x.first.name x) r.inner := by
  intro xs
  induction xs with
  | nil => intro r; rfl
  | cons x xs ih =>
    intro r
    simp only [List.foldl_cons, ih]
    rfl

theorem foldl_set_keyed : ∀ (xs : List Res) (m : Dict Str Res), (∀ p ∈ m, p.1 = p.2.first.name) →
    ∀ p ∈ xs.foldl (fun m x => m.set x.first.name x) m, p.1 = p.2.first.name := by
  have setmem : ∀ (m : Dict Str Res) (a : Str) (b : Res) (p : Str × Res), p ∈ m.set a b → p ∈ m ∨ p = (a, b) := by
    intro m
    induction m with
    | nil => intro a b p hp; simp [Dict.set] at hp; exact Or.inr hp
    | cons q m ih =>
      intro a b p hp
      obtain ⟨k, v⟩ := q
      simp only [Dict.set] at hp
      split at hp
      · rcases List.mem_cons.1 hp with h | h
        · exact Or.inr h
        · exact Or.inl (List.mem_cons_of_mem _ h)
      · rcases List.mem_cons.1 hp with h | h
        · exact Or.inl (by rw [h]; exact List.mem_cons_self)
        · rcases ih a b p h with h | h
          · exact Or.inl (List.mem_cons_of_mem _ h)
          · exact Or.inr h
  intro xs
  induction xs with
  | nil => intro m h; exact h
  | cons x xs ih =>
    intro m h
    apply ih
    intro p hp
    rcases setmem _ _ _ _ hp with hp | hp
    · exact h p hp
    · rw [hp]

/-- The files that DiffKemp writes have distinct names, so C54 holds for them. -/
theorem C54_written (oldDir newDir : Str) (r : Res) (hr : Assembled r)
    (hin : ∀ p ∈ r.inner, Assembled p.2) : ViewNames (yamlStacks oldDir newDir r) := by
  have keys : ∀ x : Res, Assembled x → (Dict.keys x.inner).Nodup ∧ ∀ p ∈ x.inner, p.1 = p.2.first.name := by
    rintro x ⟨r0, xs, h0, rfl⟩
    rw [foldl_addInner_view, h0]
    exact ⟨keys_foldl_nodup (fun x : Res => x.first.name) id xs [] (by simp [Dict.keys]),
      foldl_set_keyed xs [] (by simp)⟩
  refine ⟨?_, ?_⟩
  · have h1 := (keys r hr).1
    simp only [yamlStacks, List.map_filterMap]
    refine List.Nodup.sublist ?_ h1
    have : ∀ l : List (Str × Res), (List.filterMap (fun p : Str × Res => Option.map Prod.fst
        (if p.2.kind ≠ .notEqual then none
         else some (p.1, (shownDiffs p.2).map (fun x =>
          (⟨x.first.name, yamlStack oldDir x.first.callstack, yamlStack newDir x.second.callstack⟩ :
            YamlDiff))))) l).Sublist (l.map Prod.fst) := by
      intro l
      induction l with
      | nil => simp
      | cons p l ih =>
        by_cases hk : p.2.kind = .notEqual
        · simp only [List.map_cons]
          rw [List.filterMap_cons_some (b := p.1) (by simp [hk])]
          exact ih.cons₂ _
        · rw [List.filterMap_cons_none (by simp [hk])]
          exact ih.cons _
    exact this r.inner
  · intro q hq
    simp only [yamlStacks, List.mem_filterMap] at hq
    obtain ⟨p, hp, hq⟩ := hq
    split at hq
    · cases hq
    · cases hq
      obtain ⟨h1, h2⟩ := keys p.2 (hin p hp)
      simp only [List.map_map]
      have he : (shownDiffs p.2).map (YamlDiff.function ∘ fun x : Res =>
          (⟨x.first.name, yamlStack oldDir x.first.callstack, yamlStack newDir x.second.callstack⟩ : YamlDiff)) =
          ((sortItems p.2.inner).filter
            (fun x => ¬ (x.2.diff = some [] ∧ x.2.first.covered = true))).map Prod.fst := by
        simp only [shownDiffs, List.map_map]
        apply List.map_congr_left
        intro x hx
        have hx' : x ∈ p.2.inner := by
          have := (List.mem_filter.1 hx).1
          exact ((List.perm_insertionSort _ p.2.inner).mem_iff).1 this
        exact (h2 x hx').symm
      rw [he]
      have hs : ((sortItems p.2.inner).map Prod.fst).Nodup :=
        (((List.perm_insertionSort _ p.2.inner).map Prod.fst).nodup_iff).2 h1
      exact hs.sublist (List.filter_sublist.map _)

/-- Without distinct names C54 is false: of two results with the same name the first one is lost, but its
differing function is still listed. -/
theorem C54_repeated : ∃ (f : ViewFile) (c d : Str) (l : List Str),
    (viewResult byLength f).compFunsFor d = some l ∧ c ∈ l ∧ (viewResult byLength f).getDiff c d = none :=
  ⟨[(str! "f", [⟨str! "x", [], []⟩]), (str! "f", [])], str! "f", str! "x", [str! "f"], by decide +kernel⟩

/-! ### C91: sessions of the viewer -/

/-- The state refers to functions of the file. -/
structure GoodNav (v : ViewResult) (s : NavState) : Prop where
  comp : ∀ c, s.comp = some c → c ∈ v.compFuns
  diff : ∀ d, s.diff = some d → (v.compFunsFor d).isSome = true
  both : ∀ c d, s.comp = some c → s.diff = some d → truthy s.diff = true → (v.getDiff c d).isSome = true

theorem diffFunsFor_some {v : ViewResult} {c : Str} (h : c ∈ v.compFuns) : ∃ l, v.diffFunsFor c = some l := by
  obtain ⟨m, hm⟩ := (Dict.mem_keys_iff_ex _ _).1 h
  exact ⟨Dict.keys m, by simp [ViewResult.diffFunsFor, hm]⟩

theorem listed_diff {le : Str → Str → Bool} {f : ViewFile} (hn : ViewNames f) {c d : Str} {l : List Str}
    (h : (viewResult le f).diffFunsFor c = some l) (hd : d ∈ l) :
    ((viewResult le f).compFunsFor d).isSome = true ∧ ((viewResult le f).getDiff c d).isSome = true := by
  obtain ⟨x, hx⟩ := (diffFunsFor_mem hn c d).1 ⟨l, h, hd⟩
  refine ⟨?_, ?_⟩
  · obtain ⟨l', h', _⟩ := (compFunsFor_mem le f c d).2 ⟨x, hx⟩
    simp [h']
  · simp [(view_getDiff (le := le) hn c d x).2 hx]

theorem listed_comp {le : Str → Str → Bool} {f : ViewFile} (hn : ViewNames f) {c d : Str} {l : List Str}
    (h : (viewResult le f).compFunsFor d = some l) (hc : c ∈ l) :
    c ∈ (viewResult le f).compFuns ∧ ((viewResult le f).getDiff c d).isSome = true := by
  obtain ⟨x, hx⟩ := (compFunsFor_mem le f c d).1 ⟨l, h, hc⟩
  refine ⟨?_, by simp [(view_getDiff (le := le) hn c d x).2 hx]⟩
  obtain ⟨ds, hm, _⟩ := hx
  exact (C53_compared le f).2.1 c |>.2 ⟨ds, hm⟩

theorem nextListed_mem {l : List Str} {x y : Str} (h : nextListed l x = some y) : y ∈ l :=
  List.mem_of_getElem? h

theorem prevListed_mem {l : List Str} {x y : Str} (h : prevListed l x = some y) : y ∈ l := by
  unfold prevListed at h
  split at h
  · exact List.mem_of_getElem? h
  · cases h

theorem pageOf_good {v : ViewResult} {s : NavState} (h : GoodNav v s) : pageOf v s ≠ .broken := by
  unfold pageOf
  split
  · rename_i c d _ hc ht hd
    have := h.both c d hc hd ht
    obtain ⟨x, hx⟩ := Option.isSome_iff_exists.1 this
    simp [hx]
  · rename_i c _ hc _
    obtain ⟨l, hl⟩ := diffFunsFor_some (h.comp c hc)
    simp [hl]
  · rename_i d ht hd _
    obtain ⟨l, hl⟩ := Option.isSome_iff_exists.1 (h.diff d hd)
    simp [hl]
  · simp

/-- Moving to another compared function keeps the state good. -/
theorem good_move {le : Str → Str → Bool} {f : ViewFile} (hn : ViewNames f) {s : NavState} {n : Option Str}
    (h : GoodNav (viewResult le f) s) (hmem : ∀ c, n = some c → c ∈ (viewResult le f).compFuns) :
    GoodNav (viewResult le f) ⟨n, if truthy s.diff then (n.bind (viewResult le f).diffFunsFor).bind List.head?
      else s.diff⟩ := by
  have hhead : ∀ c d, n = some c → (n.bind (viewResult le f).diffFunsFor).bind List.head? = some d →
      ((viewResult le f).compFunsFor d).isSome = true ∧ ((viewResult le f).getDiff c d).isSome = true := by
    intro c d hc hd
    subst hc
    obtain ⟨l, hl⟩ := diffFunsFor_some (hmem c rfl)
    simp only [Option.bind_some, hl] at hd
    exact listed_diff hn hl (List.mem_of_mem_head? hd)
  refine ⟨hmem, ?_, ?_⟩
  · intro d hd
    simp only at hd
    split at hd
    · cases hnn : n with
      | none => rw [hnn] at hd; simp at hd
      | some c => exact (hhead c d hnn hd).1
    · exact h.diff d hd
  · intro c d hc hd ht
    simp only at hc hd ht
    split at hd
    · exact (hhead c d hc hd).2
    · rename_i hf
      rw [if_neg hf] at ht
      exact absurd ht hf

theorem navStep_good {le : Str → Str → Bool} {f : ViewFile} (hn : ViewNames f) {s s' : NavState}
    {e : NavEvent} (h : GoodNav (viewResult le f) s) (hs : navStep (viewResult le f) s e = some s') :
    GoodNav (viewResult le f) s' := by
  cases e with
  | results =>
    simp only [navStep, Option.some.injEq] at hs
    subst hs
    exact ⟨by simp, by simp, by simp⟩
  | compare =>
    simp only [navStep] at hs
    split at hs
    · cases hs
      exact ⟨h.comp, by simp, by simp⟩
    · cases hs
  | differing =>
    simp only [navStep] at hs
    split at hs
    · cases hs
      exact ⟨by simp, h.diff, by simp⟩
    · cases hs
  | nextComp =>
    simp only [navStep] at hs
    split at hs
    · split at hs
      · cases hs
        exact good_move hn h fun c hc => nextListed_mem hc
      · cases hs
    · cases hs
  | prevComp =>
    simp only [navStep] at hs
    split at hs
    · split at hs
      · cases hs
        exact good_move hn h fun c hc => prevListed_mem hc
      · cases hs
    · cases hs
  | nextDiff =>
    simp only [navStep] at hs
    split at hs
    · rename_i c d hc hd
      split at hs
      · split at hs
        · rename_i l hl
          split at hs
          · cases hs
          · cases hs
            refine ⟨h.comp, ?_, ?_⟩
            · intro d' hd'
              exact (listed_diff hn hl (nextListed_mem hd')).1
            · intro c' d' hc' hd' _
              simp only at hc' hd'
              rw [hc] at hc'
              cases hc'
              exact (listed_diff hn hl (nextListed_mem hd')).2
        · cases hs
      · cases hs
    · cases hs
  | prevDiff =>
    simp only [navStep] at hs
    split at hs
    · rename_i c d hc hd
      split at hs
      · split at hs
        · rename_i l hl
          split at hs
          · cases hs
          · cases hs
            refine ⟨h.comp, ?_, ?_⟩
            · intro d' hd'
              exact (listed_diff hn hl (prevListed_mem hd')).1
            · intro c' d' hc' hd' _
              simp only at hc' hd'
              rw [hc] at hc'
              cases hc'
              exact (listed_diff hn hl (prevListed_mem hd')).2
        · cases hs
      · cases hs
    · cases hs
  | select x =>
    simp only [navStep] at hs
    split at hs
    · rename_i c l hp
      split at hs
      · rename_i hx
        cases hs
        have hx : x ∈ l := by simpa using hx
        have hcl : s.comp = some c ∧ (viewResult le f).diffFunsFor c = some l := by
          unfold pageOf at hp
          split at hp
          · split at hp <;> cases hp
          · rename_i c' _ _ hc _
            split at hp
            · rename_i l' hl
              cases hp
              exact ⟨hc, hl⟩
            · cases hp
          · split at hp <;> cases hp
          · cases hp
        refine ⟨h.comp, ?_, ?_⟩
        · intro d hd
          cases hd
          exact (listed_diff hn hcl.2 hx).1
        · intro c' d hc' hd _
          cases hd
          simp only at hc'
          rw [hcl.1] at hc'
          cases hc'
          exact (listed_diff hn hcl.2 hx).2
      · cases hs
    · rename_i d l hp
      split at hs
      · rename_i hx
        cases hs
        have hx : x ∈ l := by simpa using hx
        have hdl : s.diff = some d ∧ (viewResult le f).compFunsFor d = some l := by
          unfold pageOf at hp
          split at hp
          · split at hp <;> cases hp
          · split at hp <;> cases hp
          · rename_i d' _ _ hd _
            split at hp
            · rename_i l' hl
              cases hp
              exact ⟨hd, hl⟩
            · cases hp
          · cases hp
        refine ⟨?_, h.diff, ?_⟩
        · intro c hc
          cases hc
          exact (listed_comp hn hdl.2 hx).1
        · intro c d' hc hd' _
          cases hc
          simp only at hd'
          rw [hdl.1] at hd'
          cases hd'
          exact (listed_comp hn hdl.2 hx).2
      · cases hs
    · rename_i l hp
      split at hs
      · rename_i hx
        cases hs
        have hx : x ∈ l := by simpa using hx
        have hst : l = (viewResult le f).compFuns ∧ truthy s.diff = false := by
          unfold pageOf at hp
          split at hp
          · split at hp <;> cases hp
          · split at hp <;> cases hp
          · split at hp <;> cases hp
          · rename_i h1 h2 h3
            cases hp
            refine ⟨rfl, ?_⟩
            cases hd : s.diff with
            | none => rfl
            | some d =>
              cases ht : truthy (some d) with
              | false => rfl
              | true =>
                exact (h2 d (by rw [hd]; exact ht) hd).elim
        refine ⟨?_, h.diff, ?_⟩
        · intro c hc
          cases hc
          rw [← hst.1]
          exact hx
        · intro c d _ _ ht
          simp only at ht
          rw [hst.2] at ht
          cases ht
      · cases hs
    · cases hs

/-- C91: whatever the user clicks on, the viewer never shows a page whose list or difference does not exist;
for every file in which names are distinct, in particular every file that DiffKemp writes. -/
theorem C91_pages (le : Str → Str → Bool) (f : ViewFile) (hn : ViewNames f) (s : NavState)
    (hr : NavReach (viewResult le f) s) : pageOf (viewResult le f) s ≠ .broken := by
  apply pageOf_good
  induction hr with
  | start => exact ⟨by simp, by simp, by simp⟩
  | click e _ hs ih => exact navStep_good hn ih hs

/-- C91: every difference of the file (with names that are not empty) can be reached, and its page shows it. -/
theorem C91_reachable (le : Str → Str → Bool) (f : ViewFile) (hn : ViewNames f) (c d : Str) (x : YamlDiff)
    (hx : HasDiff f c d x) (hc : c ≠ []) (hd : d ≠ []) :
    ∃ s, NavReach (viewResult le f) s ∧ pageOf (viewResult le f) s = .difference c d x := by
  have tc : truthy (some c) = true := by cases c <;> simp_all [truthy]
  have td : truthy (some d) = true := by cases d <;> simp_all [truthy]
  obtain ⟨l, hl, hdl⟩ := (diffFunsFor_mem (le := le) hn c d).2 ⟨x, hx⟩
  have hcl : c ∈ (viewResult le f).compFuns := by
    obtain ⟨ds, hm, _⟩ := hx
    exact ((C53_compared le f).2.1 c).2 ⟨ds, hm⟩
  refine ⟨⟨some c, some d⟩, ?_, ?_⟩
  · refine .click (s := ⟨some c, none⟩) (.select d) (.click (.select c) .start ?_) ?_
    · simp [navStep, pageOf, truthy, hcl]
    · have : pageOf (viewResult le f) ⟨some c, none⟩ = .diffList c l := by
        have hf : truthy none = false := rfl
        simp only [pageOf, tc, hf, hl]
      simp [navStep, this, hdl]
  · simp only [pageOf, tc, td, (view_getDiff (le := le) hn c d x).2 hx]

example : HasDiff sampleFile (str! "f") (str! "x") ⟨str! "x", [], []⟩ :=
  ⟨[⟨str! "x", [], []⟩], by simp [sampleFile], by simp, rfl⟩

/-- Without distinct names a click on a listed function shows a broken page. -/
theorem C91_repeated : ∃ (f : ViewFile) (s : NavState), NavReach (viewResult byLength f) s ∧
    pageOf (viewResult byLength f) s = .broken := by
  refine ⟨[(str! "f", [⟨str! "x", [], []⟩]), (str! "f", [⟨str! "y", [], []⟩]), (str! "gg", [⟨str! "x", [], []⟩])],
    ⟨some (str! "f"), some (str! "x")⟩, ?_, by decide +kernel⟩
  refine .click (s := ⟨none, some (str! "x")⟩) (.select (str! "f")) ?_ (by decide +kernel)
  refine .click (s := ⟨some (str! "gg"), some (str! "x")⟩) .differing ?_ (by decide +kernel)
  refine .click (s := ⟨some (str! "gg"), none⟩) (.select (str! "x")) ?_ (by decide +kernel)
  exact .click (s := ⟨none, none⟩) (.select (str! "gg")) .start (by decide +kernel)

/-! ### C92: the displayed call stack is complete -/

/-- C92: both call stacks are displayed completely and in order. -/
def C92_statement : Prop :=
  ∀ (ren : Str → Str) (old new : List Str), old ≠ [] → new ≠ [] →
    ∃ items, callStackView ren old new = some items ∧ oldCalls items = old ∧ newCalls items = new

/-- C92 fails: when the old call stack is a beginning of the new one, the remaining calls of the new one are
not displayed. -/
theorem C92_fails : ¬ C92_statement := by
  intro h
  obtain ⟨items, h1, h2, h3⟩ := h id [str! "f"] [str! "f", str! "g"] (by simp) (by simp)
  have : callStackView id [str! "f"] [str! "f", str! "g"] = some [.pair (str! "f") (str! "f")] := by decide +kernel
  rw [this] at h1
  cases h1
  simp [newCalls] at h3

/-- The opposite case makes the viewer crash. -/
theorem C92_fails_crash : ∀ fuel, showStack id fuel [str! "f", str! "g"] [str! "f"] = none := by
  intro fuel
  cases fuel with
  | zero => rfl
  | succ n => cases n <;> simp [showStack]

theorem findPair_ok {ren : Str → Str} {o n : Str} {os ns : List Str} :
    ∃ i j, findPair ren (o :: os) (n :: ns) = some (i, j) ∧ i < (o :: os).length ∧ j < (n :: ns).length ∧
      (n ≠ ren o → ¬ (os = [] ∧ ns = []) → 0 < i + j) := by
  unfold findPair
  cases h : (List.range (o :: os).length).find?
      (fun i => match (o :: os)[i]? with | some o => (n :: ns).contains (ren o) | none => false) with
  | none =>
    refine ⟨(o :: os).length - 1, (n :: ns).length - 1, by simp, by simp, by simp, ?_⟩
    intro _ hne
    simp only [List.length_cons]
    cases os with
    | cons a os => simp only [List.length_cons]; omega
    | nil =>
      cases ns with
      | cons b ns => simp only [List.length_cons]; omega
      | nil => exact absurd ⟨rfl, rfl⟩ hne
  | some i =>
    have hi := List.mem_of_find?_eq_some h
    have hp := List.find?_some h
    simp only [List.mem_range] at hi
    have hget : (o :: os)[i]? = some (o :: os)[i] := List.getElem?_eq_getElem hi
    simp only [hget] at hp ⊢
    have hm : ren (o :: os)[i] ∈ n :: ns := by simpa using hp
    refine ⟨i, _, rfl, hi, List.idxOf_lt_length_iff.2 hm, ?_⟩
    intro hne _
    by_cases hi0 : i = 0
    · subst hi0
      simp only [List.getElem_cons_zero]
      have : List.idxOf (ren o) (n :: ns) ≠ 0 := by
        rw [List.idxOf_cons]
        have : (n == ren o) = false := by simpa using hne
        simp [this]
      omega
    · omega

/-- The number of rounds does not matter as long as it is large enough: the loop ends. -/
theorem C92_ends (ren : Str → Str) : ∀ (fuel : Nat) (old new : List Str), old.length + new.length < fuel →
    showStack ren fuel old new = callStackView ren old new := by
  have main : ∀ (fuel fuel' : Nat) (old new : List Str), old.length + new.length < fuel →
      old.length + new.length < fuel' → showStack ren fuel old new = showStack ren fuel' old new := by
    intro fuel
    induction fuel with
    | zero => intro fuel' old new h; omega
    | succ fuel ih =>
      intro fuel' old new h h'
      cases fuel' with
      | zero => omega
      | succ fuel' =>
        cases old with
        | nil => rfl
        | cons o os =>
          cases new with
          | nil => rfl
          | cons n ns =>
            simp only [showStack]
            simp only [List.length_cons] at h h'
            split
            · rw [ih fuel' os ns (by omega) (by omega)]
            · rename_i hne
              obtain ⟨i, j, hf, hi, hj, hpos⟩ := findPair_ok (ren := ren) (o := o) (n := n) (os := os) (ns := ns)
              have := hpos (fun h => hne (Or.inl h)) (fun h => hne (Or.inr h))
              simp only [hf]
              simp only [List.length_cons] at hi hj
              rw [ih fuel' _ _ (by simp only [List.length_drop, List.length_cons]; omega)
                (by simp only [List.length_drop, List.length_cons]; omega)]
  intro fuel old new h
  exact main fuel _ old new h (by omega)

theorem show_complete (ren : Str → Str) (d e : Str) : ∀ (fuel : Nat) (os ns : List Str),
    os.length + ns.length + 2 < fuel → (∀ o ∈ os, ren o ≠ e) → ren d ∉ ns →
    ∃ items, showStack ren fuel (os ++ [d]) (ns ++ [e]) = some items ∧
      oldCalls items = os ++ [d] ∧ newCalls items = ns ++ [e] := by
  intro fuel
  induction fuel with
  | zero => intro os ns h; omega
  | succ fuel ih =>
    intro os ns h ho hd
    have hsplit : ∀ (l : List Str) (x : Str), ∃ a t, l ++ [x] = a :: t := by
      intro l x; cases l <;> simp
    obtain ⟨o, ot, hot⟩ := hsplit os d
    obtain ⟨n, nt, hnt⟩ := hsplit ns e
    by_cases hpair : n = ren o ∨ (ot = [] ∧ nt = [])
    · have hss : showStack ren (fuel + 1) (os ++ [d]) (ns ++ [e]) =
          (showStack ren fuel ot nt).map (.pair o n :: ·) := by
        rw [hot, hnt]; simp [showStack, hpair]
      cases os with
      | nil =>
        simp only [List.nil_append, List.cons.injEq] at hot
        obtain ⟨rfl, rfl⟩ := hot
        have hns : ns = [] := by
          cases ns with
          | nil => rfl
          | cons n' ns' =>
            simp only [List.cons_append, List.cons.injEq] at hnt
            obtain ⟨rfl, rfl⟩ := hnt
            rcases hpair with hpair | ⟨_, h2⟩
            · exact absurd (by rw [← hpair]; exact List.mem_cons_self) hd
            · simp at h2
        subst hns
        simp only [List.nil_append, List.cons.injEq] at hnt
        obtain ⟨rfl, rfl⟩ := hnt
        refine ⟨[.pair d e], ?_, by simp [oldCalls], by simp [newCalls]⟩
        rw [hss]
        cases fuel with
        | zero => simp only [List.length_nil] at h; omega
        | succ fuel => simp [showStack]
      | cons o' os' =>
        simp only [List.cons_append, List.cons.injEq] at hot
        obtain ⟨rfl, rfl⟩ := hot
        have hno : n = ren o' := by
          rcases hpair with h | ⟨h, _⟩
          · exact h
          · simp at h
        cases ns with
        | nil =>
          simp only [List.nil_append, List.cons.injEq] at hnt
          obtain ⟨rfl, rfl⟩ := hnt
          exact absurd hno.symm (ho o' List.mem_cons_self)
        | cons n' ns' =>
          simp only [List.cons_append, List.cons.injEq] at hnt
          obtain ⟨rfl, rfl⟩ := hnt
          obtain ⟨items, h1, h2, h3⟩ := ih os' ns' (by simp only [List.length_cons] at h; omega)
            (fun o h => ho o (List.mem_cons_of_mem _ h)) (fun h => hd (List.mem_cons_of_mem _ h))
          refine ⟨.pair o' n' :: items, by rw [hss, h1]; rfl, ?_, ?_⟩
          · simp only [oldCalls, List.flatMap_cons] at h2 ⊢
            rw [h2]; simp
          · simp only [newCalls, List.flatMap_cons] at h3 ⊢
            rw [h3]; simp
    · obtain ⟨i, j, hf, hi, hj, hpos⟩ := findPair_ok (ren := ren) (o := o) (n := n) (os := ot) (ns := nt)
      have hp := hpos (fun h => hpair (Or.inl h)) (fun h => hpair (Or.inr h))
      have hss : showStack ren (fuel + 1) (os ++ [d]) (ns ++ [e]) =
          (showStack ren fuel ((os ++ [d]).drop i) ((ns ++ [e]).drop j)).map
            (.group ((os ++ [d]).take i) ((ns ++ [e]).take j) :: ·) := by
        rw [hot, hnt]
        simp only [showStack, hpair, if_false, hf]
      rw [← hot] at hi
      rw [← hnt] at hj
      simp only [List.length_append, List.length_singleton] at hi hj
      have hdo : (os ++ [d]).drop i = os.drop i ++ [d] := by
        rw [List.drop_append_of_le_length (by omega)]
      have hdn : (ns ++ [e]).drop j = ns.drop j ++ [e] := by
        rw [List.drop_append_of_le_length (by omega)]
      obtain ⟨items, h1, h2, h3⟩ := ih (os.drop i) (ns.drop j)
        (by simp only [List.length_drop]; omega)
        (fun o h => ho o (List.mem_of_mem_drop h)) (fun h => hd (List.mem_of_mem_drop h))
      refine ⟨_ :: items, by rw [hss, hdo, hdn, h1]; rfl, ?_, ?_⟩
      · simp only [oldCalls, List.flatMap_cons] at h2 ⊢
        rw [h2, ← hdo, List.take_append_drop]
      · simp only [newCalls, List.flatMap_cons] at h3 ⊢
        rw [h3, ← hdn, List.take_append_drop]

/-- C92 when the last call of each stack belongs to no earlier call of the other one (in particular when the
differing function occurs only at the end of both call stacks): any lengths, any renaming. -/
theorem C92_complete_partial (ren : Str → Str) (os ns : List Str) (d e : Str) (ho : ∀ o ∈ os, ren o ≠ e)
    (hd : ren d ∉ ns) :
    ∃ items, callStackView ren (os ++ [d]) (ns ++ [e]) = some items ∧
      oldCalls items = os ++ [d] ∧ newCalls items = ns ++ [e] := by
  obtain ⟨items, h1, h2, h3⟩ := show_complete ren d e (os.length + ns.length + 3) os ns (by omega) ho hd
  refine ⟨items, ?_, h2, h3⟩
  rw [← C92_ends ren (os.length + ns.length + 3) _ _ (by simp; omega)]
  exact h1

example : callStackView id [str! "a", str! "b", str! "x"] [str! "c", str! "b", str! "d", str! "x"] =
    some [.group [str! "a"] [str! "c"], .pair (str! "b") (str! "b"), .group [] [str! "d"],
      .pair (str! "x") (str! "x")] := by decide +kernel

/-! ### C93: listings show every function -/

/-- C93: the four columns of a listing contain all rows in order, and the buttons are the functions. -/
theorem C93_listing (up : Char → Char) (fs : List Str) :
    buttons (listColumns (listRows up none fs)).flatten = fs := by
  have hcols : ∀ {α : Type} (l : List α), (listColumns l).flatten = l := by
    intro α l
    have hs : l.length ≤ 4 * columnSize l.length := by
      simp only [columnSize]
      omega
    generalize hk : columnSize l.length = s at hs
    simp only [listColumns, hk, slice, List.flatten_cons, List.flatten_nil, List.append_nil]
    simp only [Nat.zero_mul, Nat.one_mul, List.drop_zero, List.take_length]
    have step : ∀ a b : Nat, a ≤ b → l.take a ++ (l.take b).drop a = l.take b := by
      intro a b hab
      have : l.take a = (l.take b).take a := by rw [List.take_take]; congr 1; omega
      rw [this, List.take_append_drop]
    rw [← List.append_assoc, step s (2 * s) (by omega), ← List.append_assoc, step (2 * s) (3 * s) (by omega),
      List.take_append_drop]
  rw [hcols]
  have : ∀ (last : Option (Option Char)) (fs : List Str), buttons (listRows up last fs) = fs := by
    intro last fs
    induction fs generalizing last with
    | nil => rfl
    | cons f fs ih =>
      simp only [listRows]
      split
      · simp only [buttons, List.filterMap_cons]
        rw [show List.filterMap _ (listRows up last fs) = buttons (listRows up last fs) from rfl, ih]
      · simp only [buttons, List.filterMap_cons]
        rw [show List.filterMap _ (listRows up _ fs) = buttons (listRows up _ fs) from rfl, ih]
  exact this none fs

/-! ### C94: highlighted calls -/

/-- C94: the highlighted lines of the shown function are lines at which it makes a call of the call stack, in
the old and in the new version. -/
def C94_statement : Prop :=
  ∀ (compared shown : Str) (old new : List (Str × Int)) (a b : Int),
    callingLine compared shown old new = some (a, b) →
      CallsAt compared old shown a ∧ CallsAt compared new shown b

/-- C94 fails for a function that is in one call stack only: the other line is the one of the compared
function. -/
theorem C94_fails : ¬ C94_statement := by
  intro h
  have := (h (str! "f") (str! "g") [(str! "g", 1), (str! "x", 2)] [(str! "x", 3)] 2 3 (by decide +kernel)).2
  obtain ⟨k, h1, h2⟩ := this
  match k with
  | 0 => simp at h1
  | 1 => simp at h2
  | k + 2 => simp at h2

theorem afterCall_spec {l : List (Str × Int)} {compared name : Str} (h : name ∈ l.map Prod.fst) :
    (compared :: l.map Prod.fst)[afterCall l name]? = some name := by
  unfold afterCall
  cases hf : l.findIdx? (fun x => x.1 = name) with
  | none =>
    rw [List.findIdx?_eq_none_iff] at hf
    obtain ⟨x, hx, rfl⟩ := List.mem_map.1 h
    exact absurd (hf x hx) (by simp)
  | some i =>
    rw [List.findIdx?_eq_some_iff_getElem] at hf
    obtain ⟨hi, hp, _⟩ := hf
    simp only [List.getElem?_cons_succ, List.getElem?_map, List.getElem?_eq_getElem hi, Option.map_some]
    simpa using hp

/-- C94 for functions that are in both call stacks (or are the compared function). -/
theorem C94_calls_partial (compared shown : Str) (old new : List (Str × Int)) (a b : Int)
    (hs : shown = compared ∨ (shown ∈ old.map Prod.fst ∧ shown ∈ new.map Prod.fst))
    (h : callingLine compared shown old new = some (a, b)) :
    CallsAt compared old shown a ∧ CallsAt compared new shown b := by
  unfold callingLine at h
  by_cases hc : shown = compared
  · simp only [hc, if_true] at h
    split at h
    · rename_i o n ho hn
      cases h
      exact ⟨⟨0, by simp [hc], by simp [List.getElem?_map, ho]⟩, ⟨0, by simp [hc], by simp [List.getElem?_map, hn]⟩⟩
    · cases h
  · simp only [hc, if_false] at h
    obtain ⟨h1, h2⟩ := hs.resolve_left hc
    split at h
    · rename_i o n ho hn
      cases h
      exact ⟨⟨_, afterCall_spec h1, by simp [List.getElem?_map, ho]⟩,
        ⟨_, afterCall_spec h2, by simp [List.getElem?_map, hn]⟩⟩
    · cases h

/-- Nothing is highlighted for the differing function, which is at the end of the call stacks. -/
theorem C94_last (compared shown : Str) (os ns : List (Str × Int)) (x : Int) (y : Int)
    (hs : shown ≠ compared) (ho : shown ∉ os.map Prod.fst) :
    callingLine compared shown (os ++ [(shown, x)]) (ns ++ [(shown, y)]) = none := by
  have : afterCall (os ++ [(shown, x)]) shown = os.length + 1 := by
    unfold afterCall
    have : (os ++ [(shown, x)]).findIdx? (fun z => z.1 = shown) = some os.length := by
      rw [List.findIdx?_eq_some_iff_getElem]
      refine ⟨by simp, by simp, ?_⟩
      intro j hj
      rw [List.getElem_append_left hj]
      simp only [decide_eq_true_eq]
      intro he
      exact ho (List.mem_map.2 ⟨_, List.getElem_mem hj, he⟩)
    rw [this]
  unfold callingLine
  simp only [hs, if_false, this]
  rw [List.getElem?_eq_none (by simp)]

example : callingLine (str! "f") (str! "g") [(str! "g", 1), (str! "x", 2)] [(str! "g", 4), (str! "x", 3)] =
    some (2, 3) := by decide +kernel

end DK
