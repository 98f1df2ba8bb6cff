import Verif.Model.ErrorList
import Verif.Lemmas.Dict
import Mathlib.Data.List.Sort

/-! The lists of unknown functions and of errors (C160). -/

set_option autoImplicit false

namespace DK

/-- **C160** With `--show-errors`, the report lists exactly the functions counted as unknown and as errors. -/
def C160_statement : Prop :=
  ∀ r : Res, (r.inner.map (·.1)).Nodup → ∀ heading names, (heading, names) ∈ errorReport r →
    (heading = str! "Functions that are unknown: " → names.length = (symbolStat r).unknown) ∧
    (heading = str! "Functions whose comparison ended with an error: " → names.length = (symbolStat r).errors)

private def exTimeout : Res := (Res.new .none [] []).addInner (Res.new .timeout (str! "f") (str! "f"))

/-- **C160 (violated)** A function whose comparison has run out of time is counted but not listed. -/
theorem C160_fails : ¬ C160_statement := by
  intro h
  have := (h exTimeout (by decide) (str! "Functions whose comparison ended with an error: ") [] (by decide)).2 rfl
  exact absurd this (by decide)

private theorem listKind_mem (r : Res) (k : Kind) (f : Str) :
    f ∈ listKind r k ↔ ∃ x, (f, x) ∈ r.inner ∧ x.kind = k := by
  unfold listKind sortItems
  rw [List.mem_map]
  constructor
  · rintro ⟨⟨n, x⟩, hx, rfl⟩
    obtain ⟨h1, h2⟩ := List.mem_filter.1 hx
    exact ⟨x, (List.perm_insertionSort _ _).mem_iff.1 h1, of_decide_eq_true h2⟩
  · rintro ⟨x, hx, hk⟩
    exact ⟨(f, x), List.mem_filter.2 ⟨(List.perm_insertionSort _ _).mem_iff.2 hx, decide_eq_true hk⟩, rfl⟩

private theorem listKind_length (r : Res) (k : Kind) :
    (listKind r k).length = (r.inner.values.filter fun x => x.kind = k).length := by
  unfold listKind sortItems Dict.values
  rw [List.length_map, ((List.perm_insertionSort _ _).filter _).length_eq, List.filter_map, List.length_map]
  rfl

private theorem report_lists (r : Res) :
    (∀ names, (str! "Functions that are unknown: ", names) ∈ errorReport r ↔
      (∃ f x, (f, x) ∈ r.inner ∧ x.kind = .unknown) ∧ names = listKind r .unknown) ∧
    (∀ names, (str! "Functions whose comparison ended with an error: ", names) ∈ errorReport r ↔
      (∃ f x, (f, x) ∈ r.inner ∧ (x.kind = .error ∨ x.kind = .timeout)) ∧ names = listKind r .error) ∧
    (∀ k f, f ∈ listKind r k ↔ ∃ x, (f, x) ∈ r.inner ∧ x.kind = k) ∧
    (listKind r .unknown).length = (symbolStat r).unknown ∧
    ((∀ f x, (f, x) ∈ r.inner → x.kind ≠ .timeout) → (listKind r .error).length = (symbolStat r).errors) := by
  have ne : str! "Functions that are unknown: " ≠ str! "Functions whose comparison ended with an error: " := by decide
  have pos : ∀ p : Res → Bool, 0 < (r.inner.values.filter p).length ↔ ∃ f x, (f, x) ∈ r.inner ∧ p x = true := by
    intro p
    rw [List.length_pos_iff_exists_mem]
    constructor
    · rintro ⟨x, hx⟩
      obtain ⟨h1, h2⟩ := List.mem_filter.1 hx
      obtain ⟨⟨f, y⟩, h3, rfl⟩ := List.mem_map.1 h1
      exact ⟨f, y, h3, h2⟩
    · rintro ⟨f, x, hx, hp⟩
      exact ⟨x, List.mem_filter.2 ⟨List.mem_map.2 ⟨_, hx, rfl⟩, hp⟩⟩
  refine ⟨?_, ?_, listKind_mem r, listKind_length r _, ?_⟩
  · intro names
    have hp := pos fun x => x.kind = .unknown
    simp only [decide_eq_true_eq] at hp
    unfold errorReport
    rw [List.mem_append, ← hp]
    constructor
    · rintro (h | h)
      · split at h
        · rename_i h0
          exact ⟨h0, (Prod.mk.inj (List.mem_singleton.1 h)).2⟩
        · exact nomatch h
      · split at h
        · exact absurd (Prod.mk.inj (List.mem_singleton.1 h)).1 ne
        · exact nomatch h
    · rintro ⟨h0, rfl⟩
      left
      rw [if_pos (show (symbolStat r).unknown > 0 from h0)]
      exact List.mem_singleton.2 rfl
  · intro names
    have hp := pos fun x => x.kind = .error ∨ x.kind = .timeout
    simp only [decide_eq_true_eq] at hp
    unfold errorReport
    rw [List.mem_append, ← hp]
    constructor
    · rintro (h | h)
      · split at h
        · exact absurd (Prod.mk.inj (List.mem_singleton.1 h)).1.symm ne
        · exact nomatch h
      · split at h
        · rename_i h0
          exact ⟨h0, (Prod.mk.inj (List.mem_singleton.1 h)).2⟩
        · exact nomatch h
    · rintro ⟨h0, rfl⟩
      right
      rw [if_pos (show (symbolStat r).errors > 0 from h0)]
      exact List.mem_singleton.2 rfl
  · intro hnt
    rw [listKind_length]
    refine congrArg List.length (List.filter_congr fun x hx => ?_)
    obtain ⟨⟨f, y⟩, h3, rfl⟩ := List.mem_map.1 hx
    have := hnt f y h3
    simp [this]

/-- **C160 (partial)** There is a heading for unknown functions iff there are some, and below it are exactly their names. The same
holds of errors, except for functions whose comparison has run out of time: they are counted but not listed. Missing: see
`C160_fails`. -/
theorem C160_listed_partial (r : Res) :
    ((∃ names, (str! "Functions that are unknown: ", names) ∈ errorReport r) ↔ ∃ f x, (f, x) ∈ r.inner ∧ x.kind = .unknown) ∧
    (∀ names, (str! "Functions that are unknown: ", names) ∈ errorReport r →
      (∀ f, f ∈ names ↔ ∃ x, (f, x) ∈ r.inner ∧ x.kind = .unknown) ∧ names.length = (symbolStat r).unknown) ∧
    ((∃ names, (str! "Functions whose comparison ended with an error: ", names) ∈ errorReport r) ↔
      ∃ f x, (f, x) ∈ r.inner ∧ (x.kind = .error ∨ x.kind = .timeout)) ∧
    (∀ names, (str! "Functions whose comparison ended with an error: ", names) ∈ errorReport r →
      (∀ f, f ∈ names ↔ ∃ x, (f, x) ∈ r.inner ∧ x.kind = .error) ∧
      ((∀ f x, (f, x) ∈ r.inner → x.kind ≠ .timeout) → names.length = (symbolStat r).errors)) := by
  obtain ⟨h1, h2, h3, h4, h5⟩ := report_lists r
  refine ⟨⟨fun ⟨n, h⟩ => ((h1 n).1 h).1, fun h => ⟨_, (h1 _).2 ⟨h, rfl⟩⟩⟩, ?_, ⟨fun ⟨n, h⟩ => ((h2 n).1 h).1,
    fun h => ⟨_, (h2 _).2 ⟨h, rfl⟩⟩⟩, ?_⟩
  · intro names h
    rw [((h1 names).1 h).2]
    exact ⟨h3 _, h4⟩
  · intro names h
    rw [((h2 names).1 h).2]
    exact ⟨h3 _, h5⟩

-- Two unknown functions and an error
example : errorReport ((((Res.new .none [] []).addInner (Res.new .unknown (str! "g") (str! "g"))).addInner
    (Res.new .unknown (str! "f") (str! "f"))).addInner (Res.new .error (str! "h") (str! "h"))) =
    [(str! "Functions that are unknown: ", [str! "f", str! "g"]),
     (str! "Functions whose comparison ended with an error: ", [str! "h"])] := by decide

end DK
