import Verif.Spec.FunPairs
import Verif.Props.Search

/-! C08: the list of objects to compare. -/

set_option autoImplicit false

namespace DK
open Spec

/-- The syntax bodies that result from a list of differences. -/
def bodiesOf (s : Side) (b : Dict Str Str) (ds : List NonFunDiff) : Dict Str Str := ds.foldl (addBody s) b

theorem addNonfuns_spec {g : Graph} {btL btR : Dict Vid (Vid × Edge)} {f1 f2 : Str} {v s1 s2 : Vid}
    {pl pr : List (Vid × Edge)}
    (h1 : g.vertices.get? f1 = some s1) (h2 : g.vertices.get? f2 = some s2)
    (hl : getCallstack btL s1 v = .ok pl) (hr : getCallstack btR s2 v = .ok pr) :
    ∀ (ds : List NonFunDiff) (acc : PairAcc), addNonfuns g btL btR f1 f2 v acc ds =
      .ok { objs := acc.objs ++ ds.map (fun d => ⟨differenceEntry f1 .left pl d, differenceEntry f2 .right pr d, .notEqual⟩)
            bodiesL := bodiesOf .left acc.bodiesL ds
            bodiesR := bodiesOf .right acc.bodiesR ds } := by
  have ent : ∀ (bt : Dict Vid (Vid × Edge)) (f : Str) (s : Vid) (side : Side) (p : List (Vid × Edge)) (d : NonFunDiff),
      g.vertices.get? f = some s → getCallstack bt s v = .ok p →
      nonfunEntity g bt f side v d = .ok (differenceEntry f side p d) := by
    intro bt f s side p d hf hp
    unfold nonfunEntity differenceEntry callstackFrom
    rw [hf]
    simp only [hp]
    by_cases hpf : d.parentFun = f
    · simp only [hpf, ne_eq, not_true, if_false, if_true, List.nil_append]
      cases d <;> rfl
    · simp only [ne_eq, hpf, not_false_iff, if_true, if_false]
      cases d <;> rfl
  intro ds
  induction ds with
  | nil => intro acc; simp [addNonfuns, bodiesOf]
  | cons d ds ih =>
    intro acc
    unfold addNonfuns
    rw [ent btL f1 s1 .left pl d h1 hl]
    simp only
    rw [ent btR f2 s2 .right pr d h2 hr]
    simp only
    rw [ih]
    simp [bodiesOf]

theorem funEntity_spec {h : Heap} {g : Graph} {bt : Dict Vid (Vid × Edge)} {f : Str} {side : Side} {v s : Vid}
    {p : List (Vid × Edge)} (hf : g.vertices.get? f = some s) (hp : getCallstack bt s v = .ok p) :
    funEntity h g bt f side v = .ok (functionEntry h f side v p) := by
  have hc : decide ((h v).nonfunDiffs.length ≠ 0) = !(h v).nonfunDiffs.isEmpty := by
    cases (h v).nonfunDiffs <;> simp
  unfold funEntity functionEntry callstackFrom
  rw [hf]
  simp only [hp, hc]
  split <;> rfl

theorem pairLoop_spec {h : Heap} {g : Graph} {btL btR : Dict Vid (Vid × Edge)} {f1 f2 : Str} {full : Bool} {s1 s2 : Vid}
    {cs : Side → Vid → List (Vid × Edge)}
    (h1 : g.vertices.get? f1 = some s1) (h2 : g.vertices.get? f2 = some s2) :
    ∀ (vs : List Vid) (acc : PairAcc), (∀ v ∈ vs, getCallstack btL s1 v = .ok (cs .left v) ∧
        getCallstack btR s2 v = .ok (cs .right v)) →
      ∃ order, order = vs.filter (fun v => decide ((h v).result ≠ .assumedEqual ∧ ((h v).result = .equal → full = true))) ∧
      pairLoop h g btL btR f1 f2 full acc vs =
        .ok { objs := acc.objs ++ order.flatMap (fun v =>
                ⟨functionEntry h f1 .left v (cs .left v), functionEntry h f2 .right v (cs .right v), (h v).result⟩ ::
                (h v).nonfunDiffs.map (fun d =>
                  ⟨differenceEntry f1 .left (cs .left v) d, differenceEntry f2 .right (cs .right v) d, .notEqual⟩))
              bodiesL := bodiesOf .left acc.bodiesL (order.flatMap (fun v => (h v).nonfunDiffs))
              bodiesR := bodiesOf .right acc.bodiesR (order.flatMap (fun v => (h v).nonfunDiffs)) } := by
  intro vs
  induction vs with
  | nil => intro acc _; exact ⟨[], rfl, by simp [pairLoop, bodiesOf]⟩
  | cons v vs ih =>
    intro acc hv
    have hv' := fun w hw => hv w (List.mem_cons_of_mem _ hw)
    unfold pairLoop
    by_cases hc : ((h v).result = .equal ∧ ¬ full = true) ∨ (h v).result = .assumedEqual
    · rw [if_pos hc]
      obtain ⟨order, ho, he⟩ := ih acc hv'
      refine ⟨order, ?_, he⟩
      rw [ho, List.filter_cons, if_neg]
      simp only [decide_eq_true_eq, not_and]
      rcases hc with ⟨a, b⟩ | a
      · intro _ hh; exact b (hh a)
      · intro hh; exact absurd a hh
    · rw [if_neg hc]
      obtain ⟨q1, q2⟩ := hv v List.mem_cons_self
      rw [funEntity_spec h1 q1]
      simp only
      rw [funEntity_spec h2 q2]
      simp only
      rw [addNonfuns_spec h1 h2 q1 q2]
      simp only
      obtain ⟨order, ho, he⟩ := ih _ hv'
      refine ⟨v :: order, ?_, ?_⟩
      · rw [ho, List.filter_cons, if_pos]
        simp only [decide_eq_true_eq]
        refine ⟨fun hh => hc (Or.inr hh), fun hh => ?_⟩
        by_contra hf
        exact hc (Or.inl ⟨hh, hf⟩)
      · rw [he]
        simp [bodiesOf, List.foldl_append]

/-- **C08** If the compared functions are in the graph and the searches on both sides succeed, the list exists. The
functions in it are exactly those found on both sides that are interesting, each once (`order`); each function is
followed by exactly its non-function differences, with verdict not-equal; nothing else is listed. The call stacks shown
are call paths from the compared function (C06). The enumeration order of the set is arbitrary (`enum`). -/
theorem C08_exactly_interesting_differences (enum : List Vid → List Vid) (henum : ∀ l, (enum l).Perm l)
    (h : Heap) (g : Graph) (f1 f2 : Str) (full : Bool) (s1 s2 : Vid) (rl rr : List Vid)
    (btL btR : Dict Vid (Vid × Edge))
    (h1 : g.vertices.get? f1 = some s1) (h2 : g.vertices.get? f2 = some s2)
    (hl : reachableFrom h g .left f1 = .ok (rl, btL)) (hr : reachableFrom h g .right f2 = .ok (rr, btR)) :
    ∃ (order : List Vid) (cs : Side → Vid → List (Vid × Edge)) (res : PairAcc),
      funPairList enum h g f1 f2 full = .ok res ∧
      order.Nodup ∧
      (∀ v, v ∈ order ↔ v ∈ rl ∧ v ∈ rr ∧ Interesting full (h v).result) ∧
      (∀ v ∈ order, CallPath h g .left ((h s1).files .left) s1 (cs .left v) v ∧
        CallPath h g .right ((h s2).files .right) s2 (cs .right v) v) ∧
      res.objs = order.flatMap (fun v =>
        ⟨functionEntry h f1 .left v (cs .left v), functionEntry h f2 .right v (cs .right v), (h v).result⟩ ::
        (h v).nonfunDiffs.map (fun d =>
          ⟨differenceEntry f1 .left (cs .left v) d, differenceEntry f2 .right (cs .right v) d, .notEqual⟩)) ∧
      res.bodiesL = bodiesOf .left [] (order.flatMap (fun v => (h v).nonfunDiffs)) ∧
      res.bodiesR = bodiesOf .right [] (order.flatMap (fun v => (h v).nonfunDiffs)) := by
  classical
  have hL : ∀ v, ∃ p, v ∈ rl → CallPath h g .left ((h s1).files .left) s1 p v ∧ getCallstack btL s1 v = .ok p := by
    intro v
    by_cases hv : v ∈ rl
    · obtain ⟨p, a, _, b, _⟩ := C06_callstack_is_call_path h1 hl v hv
      exact ⟨p, fun _ => ⟨a, b⟩⟩
    · exact ⟨[], fun hh => absurd hh hv⟩
  have hR : ∀ v, ∃ p, v ∈ rr → CallPath h g .right ((h s2).files .right) s2 p v ∧ getCallstack btR s2 v = .ok p := by
    intro v
    by_cases hv : v ∈ rr
    · obtain ⟨p, a, _, b, _⟩ := C06_callstack_is_call_path h2 hr v hv
      exact ⟨p, fun _ => ⟨a, b⟩⟩
    · exact ⟨[], fun hh => absurd hh hv⟩
  choose cl hcl using hL
  choose cr hcr using hR
  have hmem : ∀ v, v ∈ enum (rl.dedup.filter (fun v => decide (v ∈ rr))) ↔ v ∈ rl ∧ v ∈ rr := by
    intro v
    rw [(henum _).mem_iff, List.mem_filter, List.mem_dedup]
    simp
  obtain ⟨order, ho, he⟩ := pairLoop_spec (h := h) (full := full)
    (cs := fun s v => match s with | .left => cl v | .right => cr v) h1 h2
    (enum (rl.dedup.filter (fun v => decide (v ∈ rr)))) {} (by
      intro v hv
      rw [hmem] at hv
      exact ⟨(hcl v hv.1).2, (hcr v hv.2).2⟩)
  have hord : ∀ v, v ∈ order ↔ v ∈ rl ∧ v ∈ rr ∧ Interesting full (h v).result := by
    intro v
    rw [ho, List.mem_filter, hmem]
    simp only [decide_eq_true_eq, Interesting]
    constructor
    · rintro ⟨⟨a, b⟩, c⟩; exact ⟨a, b, c⟩
    · rintro ⟨a, b, c⟩; exact ⟨⟨a, b⟩, c⟩
  refine ⟨order, fun s v => match s with | .left => cl v | .right => cr v, _, Eq.trans ?_ he, ?_, hord, ?_, ?_, ?_, ?_⟩
  · unfold funPairList
    rw [hl]; simp only; rw [hr]
  · rw [ho]
    refine List.Nodup.filter _ ?_
    rw [(henum _).nodup_iff]
    exact List.Nodup.filter _ (List.nodup_dedup _)
  · intro v hv
    rw [hord] at hv
    exact ⟨(hcl v hv.1).1, (hcr v hv.2.1).1⟩
  · simp
  · simp
  · simp

theorem SearchEx.runs_right : reachableFrom SearchEx.heap SearchEx.graph .right (str! "main") =
    .ok ([0, 1, 2, 2], [(1, (0, SearchEx.edge (str! "f") false)), (2, (0, SearchEx.edge (str! "g") false))]) := by
  have h0 : SearchEx.graph.vertices.get? (str! "main") = some 0 := by decide
  have h1 : searchIter SearchEx.heap SearchEx.graph .right (some (str! "a.c")) 5
      { visited := [], queue := [0], result := [0], bt := [] } =
      some (.ok { visited := [2, 2, 1, 0], queue := [], result := [0, 1, 2, 2],
                  bt := [(1, (0, SearchEx.edge (str! "f") false)), (2, (0, SearchEx.edge (str! "g") false))] }) := by rfl
  have h2 := searchLoop_of_iter h1
  unfold reachableFrom
  rw [h0]
  simp only
  rw [show (SearchEx.heap 0).files .right = some (str! "a.c") from rfl, h2]

/-- In the example graph only the not-equal function `f` is listed. -/
example : ∃ (order : List Vid) (res : PairAcc),
    funPairList id SearchEx.heap SearchEx.graph (str! "main") (str! "main") false = .ok res ∧
    order.Nodup ∧ (∀ v, v ∈ order ↔ v = 1) := by
  obtain ⟨order, cs, res, h1, h2, h3, _⟩ := C08_exactly_interesting_differences id (fun _ => List.Perm.refl _)
    SearchEx.heap SearchEx.graph (str! "main") (str! "main") false 0 0 _ _ _ _ (by decide) (by decide)
    SearchEx.runs SearchEx.runs_right
  refine ⟨order, res, h1, h2, ?_⟩
  intro v
  rw [h3]
  constructor
  · rintro ⟨a, _, b⟩
    simp at a
    rcases a with rfl | rfl | rfl
    · exact absurd (b.2 rfl) (by simp)
    · rfl
    · exact absurd (b.2 rfl) (by simp)
  · rintro rfl
    exact ⟨by simp, by simp, by simp [Interesting, SearchEx.heap]⟩

end DK
