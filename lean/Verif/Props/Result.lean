import Verif.Spec.Result
import Verif.Lemmas.FunctionsDiff

/-! C01 and C02: aggregation of verdicts and symbol statistics. -/

set_option autoImplicit false

namespace DK
open Spec

theorem atMost_iff (a b : Kind) : AtMost a b ↔ a.toNat ≤ b.toNat := by
  unfold AtMost
  cases a <;> cases b <;> decide

/-- **C01** After adding any sequence of inner results, the verdict is the worst of the initial verdict and all added
verdicts. -/
theorem C01_verdict_is_worst (r : Res) (xs : List Res) :
    Worst (r.kind :: xs.map Res.kind) (xs.foldl Res.addInner r).kind := by
  constructor
  · rcases foldl_addInner_mem xs r with h | ⟨x, hx, h⟩
    · rw [h]; simp
    · rw [h]; exact List.mem_cons_of_mem _ (List.mem_map.2 ⟨x, hx, rfl⟩)
  · intro k hk
    rw [atMost_iff]
    obtain ⟨h1, h2⟩ := foldl_addInner_le xs r
    rw [List.mem_cons, List.mem_map] at hk
    rcases hk with rfl | ⟨x, hx, rfl⟩
    · exact h1
    · exact h2 x hx

/-- The worst verdict is unique, so C01 determines the verdict. -/
theorem worst_unique {ks : List Kind} {a b : Kind} (ha : Worst ks a) (hb : Worst ks b) : a = b := by
  have h1 := (atMost_iff _ _).1 (ha.2 b hb.1)
  have h2 := (atMost_iff _ _).1 (hb.2 a ha.1)
  exact Kind.toNat_inj (by omega)

/-- **C01** The verdict does not depend on the order in which the results are added. -/
theorem C01_order_irrelevant (r : Res) (xs ys : List Res) (h : xs.Perm ys) :
    (xs.foldl Res.addInner r).kind = (ys.foldl Res.addInner r).kind := by
  refine worst_unique (C01_verdict_is_worst r xs) ?_
  have hy := C01_verdict_is_worst r ys
  have hp : (r.kind :: xs.map Res.kind).Perm (r.kind :: ys.map Res.kind) := (h.map _).cons _
  exact ⟨hp.mem_iff.2 hy.1, fun k hk => hy.2 k (hp.mem_iff.1 hk)⟩

/-- **C01** No addition lowers the verdict. -/
theorem C01_never_lowered (r : Res) (xs ys : List Res) :
    AtMost (xs.foldl Res.addInner r).kind ((xs ++ ys).foldl Res.addInner r).kind := by
  rw [atMost_iff, List.foldl_append]
  exact (foldl_addInner_le ys _).1

/-- Adding an equal, a not-equal and an unknown result gives unknown. -/
example : Worst [.none, .equal, .unknown, .notEqual]
    ([Res.new .equal [] [], Res.new .unknown [] [], Res.new .notEqual [] []].foldl Res.addInner (Res.new .none [] [])).kind :=
  C01_verdict_is_worst _ _

/-! ### C02 -/

/-- **C02** as stated: the four printed numbers sum up to the total. -/
def C02_statement : Prop :=
  ∀ r : Res, (symbolStat r).equal + (symbolStat r).notEqual + (symbolStat r).unknown + (symbolStat r).errors =
    (symbolStat r).total ∧ (symbolStat r).emptyDiff ≤ (symbolStat r).notEqual

/-- A result with verdict none is in no class (C20 shows that comparisons with `--full-diff` produce such results). -/
theorem C02_fails : ¬ C02_statement := by
  intro h
  have := (h ((Res.new .none [] []).addInner (Res.new .none (str! "f") (str! "f")))).1
  exact absurd this (by decide)

theorem count_split (vals : List Res) :
    (vals.filter (fun x => x.kind = .equal)).length + (vals.filter (fun x => x.kind = .notEqual)).length +
      (vals.filter (fun x => x.kind = .unknown)).length +
      (vals.filter (fun x => x.kind = .error ∨ x.kind = .timeout)).length +
      (vals.filter (fun x => x.kind = .none ∨ x.kind = .assumedEqual)).length = vals.length := by
  induction vals with
  | nil => rfl
  | cons x vals ih =>
    simp only [Bool.decide_or] at ih
    simp only [List.filter_cons, List.length_cons, Bool.decide_or]
    cases hk : x.kind <;> simp <;> omega

/-- **C02 (partial)** The four printed numbers and the number of results with verdict none or assumed-equal sum up to the
total; so the classes are disjoint, and they cover everything if no result is none or assumed-equal. The number of
empty diffs does not exceed that of not-equal results. Missing: results with verdict none are not printed at all. -/
theorem C02_statistics_partial (r : Res) :
    (symbolStat r).equal + (symbolStat r).notEqual + (symbolStat r).unknown + (symbolStat r).errors +
      (r.inner.values.filter (fun x => x.kind = .none ∨ x.kind = .assumedEqual)).length = (symbolStat r).total ∧
    ((∀ x ∈ r.inner.values, Counted x.kind) →
      (symbolStat r).equal + (symbolStat r).notEqual + (symbolStat r).unknown + (symbolStat r).errors = (symbolStat r).total) ∧
    (symbolStat r).emptyDiff ≤ (symbolStat r).notEqual := by
  have h := count_split r.inner.values
  have hl : r.inner.values.length = r.inner.length := by simp [Dict.values]
  have h1 : (symbolStat r).equal + (symbolStat r).notEqual + (symbolStat r).unknown + (symbolStat r).errors +
      (r.inner.values.filter (fun x => x.kind = .none ∨ x.kind = .assumedEqual)).length = (symbolStat r).total := by
    simp only [symbolStat]
    omega
  refine ⟨h1, ?_, ?_⟩
  · intro hc
    have : r.inner.values.filter (fun x => decide (x.kind = .none ∨ x.kind = .assumedEqual)) = [] := by
      rw [List.filter_eq_nil_iff]
      intro x hx
      rw [decide_eq_true_eq]
      rcases hc x hx with h | h | h | h | h <;> rw [h] <;> simp
    rw [this] at h1
    simpa using h1
  · simp only [symbolStat]
    generalize r.inner.values = vals
    induction vals with
    | nil => simp
    | cons x vals ih =>
      simp only [List.filter_cons]
      by_cases hk : x.kind = .notEqual
      · by_cases ha : (x.inner.values.all (fun y => y.diff = some [])) = true
        · simp only [hk, ha, and_self, decide_true, if_true, List.length_cons]; omega
        · simp only [hk, ha, false_and, decide_false, decide_true, if_true, List.length_cons, Bool.false_eq_true, if_false]; omega
      · simp only [hk, and_false, decide_false, Bool.false_eq_true, if_false]; exact ih

/-- One equal function, one not-equal function with an empty diff and a timeout. -/
example : symbolStat (((Res.new .none [] []).addInner (Res.new .equal (str! "f") (str! "f"))).addInner
    (Res.mk .notEqual { name := str! "g" } { name := str! "g" } none none
      [(str! "h", Res.mk .notEqual { name := str! "h" } { name := str! "h" } (some []) none [])]) |>.addInner
    (Res.new .timeout (str! "k") (str! "k"))) = ⟨3, 1, 1, 0, 1, 1⟩ := by decide

end DK
