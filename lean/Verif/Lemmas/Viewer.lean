import Verif.Spec.Viewer
import Verif.Lemmas.Dict
import Mathlib.Data.List.Sort

/-! Lemmas about the viewer's indices and navigation. -/

set_option autoImplicit false

namespace DK
open Spec

/-! ### Navigation in a list without repetitions -/

theorem indexPlus_get {l : List Str} (hn : l.Nodup) {i : Nat} {x : Str} (h : l[i]? = some x) :
    indexPlus l x = i + 1 := by
  obtain ⟨hi, rfl⟩ := List.getElem?_eq_some_iff.1 h
  have hm : l[i] ∈ l := List.getElem_mem hi
  simp only [indexPlus, List.contains_eq_mem, hm, decide_true, if_true]
  rw [List.Nodup.idxOf_getElem hn]

theorem next_get {l : List Str} (hn : l.Nodup) {i : Nat} {x : Str} (h : l[i]? = some x) :
    nextListed l x = l[i + 1]? := by
  rw [nextListed, indexPlus_get hn h]

theorem prev_get_succ {l : List Str} (hn : l.Nodup) {i : Nat} {x : Str} (h : l[i + 1]? = some x) :
    prevListed l x = l[i]? := by
  rw [prevListed, indexPlus_get hn h]
  simp

theorem prev_get_zero {l : List Str} (hn : l.Nodup) {x : Str} (h : l[0]? = some x) : prevListed l x = none := by
  rw [prevListed, indexPlus_get hn h]
  simp

theorem follows_next {l : List Str} (hn : l.Nodup) : ∀ (suf pre : List Str) (x : Str), l = pre ++ x :: suf →
    Follows (nextListed l) x (x :: suf) := by
  intro suf
  induction suf with
  | nil =>
    intro pre x h
    apply Follows.stop
    rw [next_get hn (i := pre.length) (by rw [h]; simp), h]
    simp
  | cons y suf ih =>
    intro pre x h
    apply Follows.step (y := y)
    · rw [next_get hn (i := pre.length) (by rw [h]; simp), h]
      simp [List.getElem?_append_right]
    · exact ih (pre ++ [x]) y (by rw [h]; simp)

theorem follows_prev {l : List Str} (hn : l.Nodup) : ∀ (pre : List Str) (x : Str) (suf : List Str),
    l = pre.reverse ++ x :: suf → Follows (prevListed l) x (x :: pre) := by
  intro pre
  induction pre with
  | nil =>
    intro x suf h
    apply Follows.stop
    exact prev_get_zero hn (by rw [h]; simp)
  | cons y pre ih =>
    intro x suf h
    apply Follows.step (y := y)
    · rw [prev_get_succ hn (i := pre.length) (by rw [h]; simp), h]
      simp
    · exact ih y (x :: suf) (by rw [h]; simp)

/-! ### The map of compared functions -/

/-- The dictionary of the differences of a compared function. -/
def diffDict (ds : List YamlDiff) : Dict Str YamlDiff := ds.foldl (fun m d => m.set d.function d) []

theorem inner_fold (c : Str) : ∀ (ds : List YamlDiff) (m : Dict Str YamlDiff) (D : Dict Str (List Str)),
    (ds.foldl (addDiff c) (m, D)).1 = ds.foldl (fun m d => m.set d.function d) m := by
  intro ds
  induction ds with
  | nil => intro m D; rfl
  | cons d ds ih =>
    intro m D
    simp only [List.foldl_cons]
    exact ih _ _

theorem outer_comp : ∀ (R : ViewFile) (v : ViewResult),
    (R.foldl addCompared v).comp = R.foldl (fun (m : Dict Str (Dict Str YamlDiff)) r => m.set r.1 (diffDict r.2)) v.comp := by
  intro R
  induction R with
  | nil => intro v; rfl
  | cons r R ih =>
    intro v
    simp only [List.foldl_cons]
    rw [ih]
    congr 1
    simp only [addCompared, inner_fold, diffDict]

section
variable {α β γ : Type} [DecidableEq α]

theorem keys_foldl_nodup (k : γ → α) (val : γ → β) : ∀ (l : List γ) (m : Dict α β), (Dict.keys m).Nodup →
    (Dict.keys (l.foldl (fun m x => m.set (k x) (val x)) m)).Nodup := by
  intro l
  induction l with
  | nil => intro m h; exact h
  | cons x l ih => intro m h; exact ih _ (Dict.nodup_keys_set h _ _)

theorem keys_foldl_mem (k : γ → α) (val : γ → β) : ∀ (l : List γ) (m : Dict α β) (a : α),
    a ∈ Dict.keys (l.foldl (fun m x => m.set (k x) (val x)) m) ↔ a ∈ Dict.keys m ∨ a ∈ l.map k := by
  intro l
  induction l with
  | nil => intro m a; simp
  | cons x l ih =>
    intro m a
    simp only [List.foldl_cons, ih, List.map_cons, List.mem_cons]
    rw [Dict.mem_keys_iff, Dict.get?_set]
    by_cases hax : a = k x
    · simp [hax]
    · simp only [hax, if_false, false_or]
      rw [← Dict.mem_keys_iff]

theorem keys_foldl_sub (k : γ → α) (val : γ → β) : ∀ (l : List γ) (m : Dict α β),
    (Dict.keys (l.foldl (fun m x => m.set (k x) (val x)) m)).Sublist (Dict.keys m ++ l.map k) := by
  intro l
  induction l with
  | nil => intro m; simp
  | cons x l ih =>
    intro m
    simp only [List.foldl_cons, List.map_cons]
    refine (ih _).trans ?_
    rw [Dict.keys_set]
    split
    · exact List.Sublist.append_left (List.sublist_cons_self _ _) _
    · simp

theorem get_foldl_none (k : γ → α) (val : γ → β) : ∀ (l : List γ) (m : Dict α β) (a : α), a ∉ l.map k →
    Dict.get? (l.foldl (fun m x => m.set (k x) (val x)) m) a = Dict.get? m a := by
  intro l
  induction l with
  | nil => intro m a _; rfl
  | cons x l ih =>
    intro m a h
    simp only [List.map_cons, List.mem_cons, not_or] at h
    rw [List.foldl_cons, ih _ _ h.2, Dict.get?_set_ne _ _ h.1]

theorem get_foldl_mem (k : γ → α) (val : γ → β) : ∀ (l : List γ) (m : Dict α β), (l.map k).Nodup →
    ∀ x ∈ l, Dict.get? (l.foldl (fun m x => m.set (k x) (val x)) m) (k x) = some (val x) := by
  intro l
  induction l with
  | nil => intro m _ x hx; simp at hx
  | cons y l ih =>
    intro m hn x hx
    simp only [List.map_cons, List.nodup_cons] at hn
    rcases List.mem_cons.1 hx with rfl | hx
    · rw [List.foldl_cons, get_foldl_none k val l _ _ hn.1, Dict.get?_set_self]
    · exact ih _ hn.2 x hx

end

/-! ### The map of differing functions -/

/-- The list of compared functions of a differing function, empty if there is none. -/
def lookD (D : Dict Str (List Str)) (x : Str) : List Str := (D.get? x).getD []

/-- No empty lists. -/
def FullD (D : Dict Str (List Str)) : Prop := ∀ x l, D.get? x = some l → l ≠ []

theorem addDiff_look (c : Str) (m : Dict Str YamlDiff) (D : Dict Str (List Str)) (d : YamlDiff) (x : Str) :
    lookD (addDiff c (m, D) d).2 x = lookD D x ++ (if d.function = x then [c] else []) := by
  simp only [addDiff, lookD]
  cases h : Dict.get? D d.function with
  | none =>
    by_cases hx : d.function = x
    · subst hx; simp [h]
    · simp only [hx, if_false, List.append_nil]
      rw [Dict.get?_set_ne _ _ (fun h => hx h.symm)]
  | some l =>
    by_cases hx : d.function = x
    · subst hx; simp [h]
    · simp only [hx, if_false, List.append_nil]
      rw [Dict.get?_set_ne _ _ (fun h => hx h.symm)]

theorem addDiff_full (c : Str) (m : Dict Str YamlDiff) (D : Dict Str (List Str)) (d : YamlDiff)
    (h : FullD D ∧ (Dict.keys D).Nodup) : FullD (addDiff c (m, D) d).2 ∧ (Dict.keys (addDiff c (m, D) d).2).Nodup := by
  simp only [addDiff]
  cases hd : Dict.get? D d.function with
  | none =>
    refine ⟨?_, Dict.nodup_keys_set h.2 _ _⟩
    intro x l hl
    by_cases hx : x = d.function
    · subst hx; simp at hl; simp [← hl]
    · exact h.1 x l (by simpa [Dict.get?_set_ne _ _ hx] using hl)
  | some l0 =>
    refine ⟨?_, Dict.nodup_keys_set h.2 _ _⟩
    intro x l hl
    by_cases hx : x = d.function
    · subst hx; simp at hl; simp [← hl]
    · exact h.1 x l (by simpa [Dict.get?_set_ne _ _ hx] using hl)

theorem inner_look (c : Str) : ∀ (ds : List YamlDiff) (m : Dict Str YamlDiff) (D : Dict Str (List Str)) (x : Str),
    lookD (ds.foldl (addDiff c) (m, D)).2 x =
      lookD D x ++ (ds.filter (fun d => d.function = x)).map (fun _ => c) := by
  intro ds
  induction ds with
  | nil => intro m D x; simp
  | cons d ds ih =>
    intro m D x
    simp only [List.foldl_cons]
    have h1 := ih (addDiff c (m, D) d).1 (addDiff c (m, D) d).2 x
    rw [h1, addDiff_look]
    by_cases hx : d.function = x
    · simp [hx]
    · simp [hx]

theorem inner_full (c : Str) : ∀ (ds : List YamlDiff) (m : Dict Str YamlDiff) (D : Dict Str (List Str)),
    FullD D ∧ (Dict.keys D).Nodup → FullD (ds.foldl (addDiff c) (m, D)).2 ∧
      (Dict.keys (ds.foldl (addDiff c) (m, D)).2).Nodup := by
  intro ds
  induction ds with
  | nil => intro m D h; exact h
  | cons d ds ih =>
    intro m D h
    exact ih _ _ (addDiff_full c m D d h)

theorem outer_look : ∀ (R : ViewFile) (v : ViewResult) (x : Str),
    lookD (R.foldl addCompared v).diffs x =
      lookD v.diffs x ++ R.flatMap (fun r => (r.2.filter (fun d => d.function = x)).map (fun _ => r.1)) := by
  intro R
  induction R with
  | nil => intro v x; simp
  | cons r R ih =>
    intro v x
    simp only [List.foldl_cons, ih, List.flatMap_cons]
    rw [← List.append_assoc]
    congr 1
    exact inner_look r.1 r.2 [] v.diffs x

theorem outer_full : ∀ (R : ViewFile) (v : ViewResult), FullD v.diffs ∧ (Dict.keys v.diffs).Nodup →
    FullD (R.foldl addCompared v).diffs ∧ (Dict.keys (R.foldl addCompared v).diffs).Nodup := by
  intro R
  induction R with
  | nil => intro v h; exact h
  | cons r R ih =>
    intro v h
    exact ih _ (inner_full r.1 r.2 [] v.diffs h)

/-- Looking up does not depend on the order of a dictionary. -/
theorem get_perm {β : Type} {d d' : Dict Str β} (h : d.Perm d') (hn : (Dict.keys d).Nodup) (x : Str) :
    Dict.get? d' x = Dict.get? d x := by
  have hn' : (Dict.keys d').Nodup := (h.map Prod.fst).nodup_iff.1 hn
  cases hd : Dict.get? d x with
  | none =>
    rw [Dict.get?_eq_none_iff] at hd ⊢
    exact fun hm => hd ((h.map Prod.fst).mem_iff.2 hm)
  | some b =>
    exact Dict.mem_get? hn' (h.mem_iff.1 (Dict.get?_mem hd))

/-- The sorted results. -/
def sortedFile (le : Str → Str → Bool) (f : ViewFile) : ViewFile :=
  (jsSort le Prod.fst f).map fun r => (r.1, jsSort le YamlDiff.function r.2)

theorem sortedFile_mem {le : Str → Str → Bool} {f : ViewFile} {c : Str} {ds : List YamlDiff} :
    (c, ds) ∈ sortedFile le f ↔ ∃ ds', (c, ds') ∈ f ∧ ds = jsSort le YamlDiff.function ds' := by
  simp only [sortedFile, List.mem_map, jsSort, List.mem_insertionSort]
  constructor
  · rintro ⟨⟨c', ds'⟩, hm, he⟩
    simp only [Prod.mk.injEq] at he
    obtain ⟨rfl, rfl⟩ := he
    exact ⟨ds', hm, rfl⟩
  · rintro ⟨ds', hm, rfl⟩
    exact ⟨(c, ds'), hm, rfl⟩

theorem sortedFile_names {le : Str → Str → Bool} {f : ViewFile} :
    (sortedFile le f).map Prod.fst = (jsSort le Prod.fst f).map Prod.fst := by
  simp [sortedFile]

theorem sortedFile_has {le : Str → Str → Bool} {f : ViewFile} {c d : Str} {x : YamlDiff} :
    HasDiff (sortedFile le f) c d x ↔ HasDiff f c d x := by
  constructor
  · rintro ⟨ds, hm, hx, hd⟩
    obtain ⟨ds', hm', rfl⟩ := sortedFile_mem.1 hm
    exact ⟨ds', hm', by simpa [jsSort] using hx, hd⟩
  · rintro ⟨ds, hm, hx, hd⟩
    exact ⟨_, sortedFile_mem.2 ⟨ds, hm, rfl⟩, by simpa [jsSort] using hx, hd⟩

theorem sortedFile_distinct {le : Str → Str → Bool} {f : ViewFile} (h : ViewNames f) :
    ViewNames (sortedFile le f) := by
  refine ⟨?_, ?_⟩
  · rw [sortedFile_names]
    exact ((List.perm_insertionSort _ f).map Prod.fst).nodup_iff.2 h.comp
  · rintro ⟨c, ds⟩ hr
    obtain ⟨ds', hm', rfl⟩ := sortedFile_mem.1 hr
    exact ((List.perm_insertionSort _ ds').map YamlDiff.function).nodup_iff.2 (h.diffs _ hm')

theorem view_comp (le : Str → Str → Bool) (f : ViewFile) :
    (viewResult le f).comp = (sortedFile le f).foldl (fun (m : Dict Str (Dict Str YamlDiff)) r => m.set r.1 (diffDict r.2)) [] := by
  simp only [viewResult]
  exact outer_comp _ _

theorem view_diffs_get (le : Str → Str → Bool) (f : ViewFile) (x : Str) :
    (viewResult le f).diffs.get? x = ((sortedFile le f).foldl addCompared ⟨[], []⟩).diffs.get? x := by
  have hfull := outer_full (sortedFile le f) ⟨[], []⟩ ⟨fun x l h => by simp at h, by simp [Dict.keys]⟩
  exact get_perm (List.perm_insertionSort _ _).symm hfull.2 x

theorem view_compFunsFor (le : Str → Str → Bool) (f : ViewFile) (d : Str) :
    ((viewResult le f).compFunsFor d).getD [] =
      (sortedFile le f).flatMap (fun r => (r.2.filter (fun x => x.function = d)).map (fun _ => r.1)) := by
  have h := outer_look (sortedFile le f) ⟨[], []⟩ d
  simp only [ViewResult.compFunsFor, view_diffs_get]
  simpa [lookD] using h

theorem view_compFunsFor_ne (le : Str → Str → Bool) (f : ViewFile) (d : Str) :
    (viewResult le f).compFunsFor d ≠ some [] := by
  intro h
  have hfull := outer_full (sortedFile le f) ⟨[], []⟩ ⟨fun x l h => by simp at h, by simp [Dict.keys]⟩
  simp only [ViewResult.compFunsFor, view_diffs_get] at h
  exact hfull.1 d [] h rfl

theorem compFunsFor_mem (le : Str → Str → Bool) (f : ViewFile) (c d : Str) :
    (∃ l, (viewResult le f).compFunsFor d = some l ∧ c ∈ l) ↔ ∃ x, HasDiff f c d x := by
  have h := view_compFunsFor le f d
  have key : c ∈ ((viewResult le f).compFunsFor d).getD [] ↔ ∃ x, HasDiff f c d x := by
    rw [h]
    simp only [List.mem_flatMap, List.mem_map, List.mem_filter, decide_eq_true_eq]
    constructor
    · rintro ⟨⟨c', ds⟩, hr, x, ⟨hx, hd⟩, rfl⟩
      exact ⟨x, sortedFile_has.1 ⟨ds, hr, hx, hd⟩⟩
    · rintro ⟨x, hx⟩
      obtain ⟨ds, hr, hx, hd⟩ := sortedFile_has (le := le).2 hx
      exact ⟨(c, ds), hr, x, ⟨hx, hd⟩, rfl⟩
  rw [← key]
  cases (viewResult le f).compFunsFor d <;> simp

theorem diffDict_get {ds : List YamlDiff} (hn : (ds.map YamlDiff.function).Nodup) (d : Str) (x : YamlDiff) :
    (diffDict ds).get? d = some x ↔ x ∈ ds ∧ x.function = d := by
  constructor
  · intro h
    by_cases hd : d ∈ ds.map YamlDiff.function
    · obtain ⟨y, hy, rfl⟩ := List.mem_map.1 hd
      have := get_foldl_mem YamlDiff.function id ds [] hn y hy
      simp only [id] at this
      rw [diffDict, this] at h
      cases h
      exact ⟨hy, rfl⟩
    · have := get_foldl_none YamlDiff.function id ds [] d hd
      simp only [id] at this
      rw [diffDict, this] at h
      simp at h
  · rintro ⟨hx, rfl⟩
    have := get_foldl_mem YamlDiff.function id ds [] hn x hx
    simpa [diffDict] using this

theorem view_comp_get {le : Str → Str → Bool} {f : ViewFile} (hn : ViewNames f) (c : Str)
    (m : Dict Str YamlDiff) :
    (viewResult le f).comp.get? c = some m ↔
      ∃ ds, (c, ds) ∈ f ∧ m = diffDict (jsSort le YamlDiff.function ds) := by
  have hd := sortedFile_distinct (le := le) hn
  rw [view_comp]
  constructor
  · intro h
    by_cases hc : c ∈ (sortedFile le f).map Prod.fst
    · obtain ⟨⟨c', ds⟩, hr, rfl⟩ := List.mem_map.1 hc
      have := get_foldl_mem (Prod.fst (α := Str)) (fun r : Str × List YamlDiff => diffDict r.2) _ [] hd.comp _ hr
      rw [this] at h
      cases h
      obtain ⟨ds', hm, rfl⟩ := sortedFile_mem.1 hr
      exact ⟨ds', hm, rfl⟩
    · have := get_foldl_none (Prod.fst (α := Str)) (fun r : Str × List YamlDiff => diffDict r.2)
        (sortedFile le f) [] c hc
      rw [this] at h
      simp at h
  · rintro ⟨ds, hm, rfl⟩
    exact get_foldl_mem (Prod.fst (α := Str)) (fun r : Str × List YamlDiff => diffDict r.2) _ [] hd.comp
      (c, jsSort le YamlDiff.function ds) (sortedFile_mem.2 ⟨ds, hm, rfl⟩)

theorem jsSort_nodup {le : Str → Str → Bool} {ds : List YamlDiff} (h : (ds.map YamlDiff.function).Nodup) :
    ((jsSort le YamlDiff.function ds).map YamlDiff.function).Nodup :=
  ((List.perm_insertionSort _ ds).map YamlDiff.function).nodup_iff.2 h

theorem view_getDiff {le : Str → Str → Bool} {f : ViewFile} (hn : ViewNames f) (c d : Str) (x : YamlDiff) :
    (viewResult le f).getDiff c d = some x ↔ HasDiff f c d x := by
  simp only [ViewResult.getDiff, Option.bind_eq_some_iff, view_comp_get hn]
  constructor
  · rintro ⟨m, ⟨ds, hm, rfl⟩, h⟩
    rw [diffDict_get (jsSort_nodup (hn.diffs _ hm))] at h
    exact ⟨ds, hm, by simpa [jsSort] using h.1, h.2⟩
  · rintro ⟨ds, hm, hx, hd⟩
    refine ⟨_, ⟨ds, hm, rfl⟩, ?_⟩
    rw [diffDict_get (jsSort_nodup (hn.diffs _ hm))]
    exact ⟨by simpa [jsSort] using hx, hd⟩

theorem diffFunsFor_mem {le : Str → Str → Bool} {f : ViewFile} (hn : ViewNames f) (c d : Str) :
    (∃ l, (viewResult le f).diffFunsFor c = some l ∧ d ∈ l) ↔ ∃ x, HasDiff f c d x := by
  simp only [ViewResult.diffFunsFor, Option.map_eq_some_iff]
  constructor
  · rintro ⟨l, ⟨m, hm, rfl⟩, hd⟩
    obtain ⟨x, hx⟩ := (Dict.mem_keys_iff_ex m d).1 hd
    exact ⟨x, (view_getDiff (le := le) hn c d x).1 (by simp [ViewResult.getDiff, hm, hx])⟩
  · rintro ⟨x, hx⟩
    have := (view_getDiff (le := le) hn c d x).2 hx
    simp only [ViewResult.getDiff, Option.bind_eq_some_iff] at this
    obtain ⟨m, hm, hx⟩ := this
    exact ⟨_, ⟨m, hm, rfl⟩, (Dict.mem_keys_iff_ex m d).2 ⟨x, hx⟩⟩

theorem compFuns_nodup (le : Str → Str → Bool) (f : ViewFile) : (viewResult le f).compFuns.Nodup := by
  simp only [ViewResult.compFuns, view_comp]
  exact keys_foldl_nodup _ _ _ _ (by simp [Dict.keys])

theorem compFuns_mem (le : Str → Str → Bool) (f : ViewFile) (c : Str) :
    c ∈ (viewResult le f).compFuns ↔ c ∈ f.map Prod.fst := by
  simp only [ViewResult.compFuns, view_comp]
  rw [keys_foldl_mem (Prod.fst (α := Str)) (fun r : Str × List YamlDiff => diffDict r.2)]
  rw [sortedFile_names]
  simp [Dict.keys, jsSort]

theorem diffFunsFor_nodup (le : Str → Str → Bool) (f : ViewFile) (c : Str) (l : List Str)
    (h : (viewResult le f).diffFunsFor c = some l) : l.Nodup := by
  simp only [ViewResult.diffFunsFor, Option.map_eq_some_iff, view_comp] at h
  obtain ⟨m, hm, rfl⟩ := h
  have : ∀ (R : ViewFile) (M : Dict Str (Dict Str YamlDiff)), (∀ c m, M.get? c = some m → (Dict.keys m).Nodup) →
      ∀ c m, (R.foldl (fun (m : Dict Str (Dict Str YamlDiff)) r => m.set r.1 (diffDict r.2)) M).get? c = some m → (Dict.keys m).Nodup := by
    intro R
    induction R with
    | nil => intro M h; exact h
    | cons r R ih =>
      intro M h
      apply ih
      intro c m hm
      by_cases hc : c = r.1
      · subst hc
        simp at hm
        subst hm
        exact keys_foldl_nodup YamlDiff.function id r.2 [] (by simp [Dict.keys])
      · rw [Dict.get?_set_ne _ _ hc] at hm
        exact h c m hm
  exact this _ [] (by simp) c m hm

theorem jsSort_sorted {α : Type} {le : Str → Str → Bool} (ho : NameOrder le) (name : α → Str) (l : List α) :
    (jsSort le name l).Pairwise (fun a b => le (name a) (name b) = true) := by
  haveI : Std.Total (fun a b : α => le (name a) (name b) = true) := ⟨fun a b => ho.total (name a) (name b)⟩
  haveI : IsTrans α (fun a b : α => le (name a) (name b) = true) :=
    ⟨fun a b c => ho.trans (name a) (name b) (name c)⟩
  exact List.pairwise_insertionSort _ l

theorem compFuns_sorted {le : Str → Str → Bool} (ho : NameOrder le) (f : ViewFile) :
    (viewResult le f).compFuns.Pairwise (fun a b => le a b = true) := by
  simp only [ViewResult.compFuns, view_comp]
  refine List.Pairwise.sublist (keys_foldl_sub (Prod.fst (α := Str))
    (fun r : Str × List YamlDiff => diffDict r.2) (sortedFile le f) []) ?_
  simp only [Dict.keys, List.map_nil, List.nil_append]
  rw [sortedFile_names, List.pairwise_map]
  exact jsSort_sorted ho Prod.fst f

theorem diffFuns_sorted {le : Str → Str → Bool} (ho : NameOrder le) (f : ViewFile) :
    (viewResult le f).diffFuns.Pairwise (fun a b => le a b = true) := by
  simp only [ViewResult.diffFuns, viewResult, Dict.keys]
  rw [List.pairwise_map]
  exact jsSort_sorted ho Prod.fst _

end DK
