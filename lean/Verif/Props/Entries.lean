import Verif.Props.Session

/-! C62 (every difference has its own entry) and C67 (no difference is hidden by a weak call). -/

set_option autoImplicit false

namespace DK
open Spec

/-! ### C67 -/

/-- `v` is reached by a strong call on the given side, starting in the function named `f`. -/
def Spec.StronglyReachableFrom (h : Heap) (g : Graph) (side : Side) (f : Str) (v : Vid) : Prop :=
  ∃ s, g.vertices.get? f = some s ∧ StronglyReachable h g side ((h s).files side) s v

/-- **C67** as stated: a not-equal function reached by strong calls on both sides makes the verdict not-equal or worse. -/
def C67_statement : Prop :=
  ∀ (env : FDEnv) (f1 f2 : Str) (prev : Option Graph) (fuel : Nat) (st st' : FDState) (res : Res) (g : Graph) (v : Vid),
    env.semdiff = none → Enumerates env → functionsDiff env f1 f2 prev fuel st = some (st', .ok res) → res.graph = some g →
    StronglyReachableFrom st'.heap g .left f1 v → StronglyReachableFrom st'.heap g .right f2 v →
    (st'.heap v).result = .notEqual → AtMost .notEqual res.kind

namespace WeakEx
/-- The engine returns the graph of `C05_fails`. -/
def env : FDEnv where
  engine _ _ _ _ := .ok (heap, graph, [])
  snapLookup _ _ _ := none
  srcLookup _ := none
  linkOk _ := false
  semdiff := none
  syntaxDiff _ := .ok []
  enum := id
  full := false

theorem diff : functionsDiff env (str! "start") (str! "start") none 1 LinkEx.state =
    some ({ LinkEx.state with heap := heap, curr := some graph, engineRuns := 1 },
      .ok (((Res.new .none (str! "start") (str! "start")).setKind .equal).setGraph (some graph))) := by
  have hl : engineLoop env (str! "start") none 1 { LinkEx.state with curr := none, engineRuns := 0 } =
      some ({ LinkEx.state with heap := heap, curr := some graph, engineRuns := 1 }, .ok graph) := rfl
  have hf : funPairList id heap graph (str! "start") (str! "start") false = .ok {} := by
    unfold funPairList
    rw [runs .left]
    simp only
    rw [runs .right]
    rfl
  rw [functionsDiff_eval hl hf]
  rfl
end WeakEx

/-- **C67 (violated)** Two functions are reported as equal although a function they depend on strongly differs, because the
first call of it found by the search is weak. -/
theorem C67_fails : ¬ C67_statement := by
  intro h
  have := h WeakEx.env _ _ _ _ _ _ _ WeakEx.graph 1 rfl (fun _ => List.Perm.refl _) WeakEx.diff rfl
    ⟨0, by decide, WeakEx.strong .left⟩ ⟨0, by decide, WeakEx.strong .right⟩ rfl
  exact absurd this (by decide)

/-- All calls of `v` by functions reachable from `f` are strong. -/
def Spec.EnteredStrongly (h : Heap) (g : Graph) (side : Side) (f : Str) (v : Vid) : Prop :=
  ∃ s, g.vertices.get? f = some s ∧ Reachable h g side ((h s).files side) s v ∧
    ∀ u e, Reachable h g side ((h s).files side) s u → Calls h g side ((h s).files side) u e v → e.weak = false

/-- **C67 (partial)** It holds for functions that are entered by strong calls only. Missing: functions that are also
entered by a weak call. -/
theorem C67_not_hidden_partial (env : FDEnv) (f1 f2 : Str) (prev : Option Graph) (fuel : Nat) (st st' : FDState) (res : Res)
    (g : Graph) (v : Vid) (hs : env.semdiff = none) (he : Enumerates env)
    (h : functionsDiff env f1 f2 prev fuel st = some (st', .ok res)) (hg : res.graph = some g)
    (hl : EnteredStrongly st'.heap g .left f1 v) (hr : EnteredStrongly st'.heap g .right f2 v)
    (hne : (st'.heap v).result = .notEqual) : AtMost .notEqual res.kind := by
  by_cases hk : res.kind = .error
  · rw [hk]; decide
  refine C19_difference_reported env hs he f1 f2 prev fuel st st' res g v h hg ?_ hne
  obtain ⟨st1, g', acc, _, hf, _, hg', _⟩ := functionsDiff_good h hk
  rw [hg] at hg'; cases hg'
  unfold funPairList at hf
  cases el : reachableFrom st'.heap g .left f1 with
  | error x => rw [el] at hf; simp at hf
  | ok a =>
    cases er : reachableFrom st'.heap g .right f2 with
    | error x => rw [el] at hf; simp only at hf; rw [er] at hf; simp at hf
    | ok b =>
      obtain ⟨s1, h1, h2, h3⟩ := hl
      obtain ⟨s2, h4, h5, h6⟩ := hr
      exact ⟨a.1, a.2, b.1, b.2, el, er, C05_strong_dependencies_found_partial h1 el v h2 h3,
        C05_strong_dependencies_found_partial h4 er v h5 h6⟩

/-! ### C62 -/

/-- **C62** as stated: every differing function and every non-function difference found in it has its own entry, and a
syntactic difference is shown with its own text. -/
def C62_statement : Prop :=
  ∀ (env : FDEnv) (f1 f2 : Str) (prev : Option Graph) (fuel : Nat) (st st' : FDState) (res : Res) (g : Graph),
    env.semdiff = none → Enumerates env → functionsDiff env f1 f2 prev fuel st = some (st', .ok res) → res.kind ≠ .error →
    res.graph = some g → ∀ v, FoundOnBothSides st'.heap g f1 f2 v → (st'.heap v).result = .notEqual →
      (∃ e ∈ res.inner.values, IsFunctionEntry st'.heap v e) ∧
      ∀ d ∈ (st'.heap v).nonfunDiffs, ∃ e ∈ res.inner.values, IsDifferenceEntry d e

namespace MacroEx
/-- `f` (0) and `g` (1) differ in a macro with the same name `M`, which has different values in them. -/
def dF : NonFunDiff := .syntax (str! "M") (str! "f") (fun _ => []) (fun s => if s = .left then str! "1" else str! "2")
def dG : NonFunDiff := .syntax (str! "M") (str! "g") (fun _ => []) (fun s => if s = .left then str! "3" else str! "4")
def heap : Heap
  | 0 => { names := fun _ => str! "f", result := .notEqual, files := fun _ => some (str! "a.c"), nonfunDiffs := [dF]
           succs := fun _ => [SearchEx.edge (str! "g") false] }
  | _ => { names := fun _ => str! "g", result := .notEqual, files := fun _ => some (str! "a.c"), nonfunDiffs := [dG] }
def graph : Graph := { vertices := [(str! "f", 0), (str! "g", 1)] }

theorem runs (side : Side) : reachableFrom heap graph side (str! "f") =
    .ok ([0, 1], [(1, (0, SearchEx.edge (str! "g") false))]) := by
  have h1 : searchIter heap graph side (some (str! "a.c")) 3 { visited := [], queue := [0], result := [0], bt := [] } =
      some (.ok { visited := [1, 0], queue := [], result := [0, 1], bt := [(1, (0, SearchEx.edge (str! "g") false))] }) := by
    cases side <;> rfl
  have h2 := searchLoop_of_iter h1
  unfold reachableFrom
  rw [show graph.vertices.get? (str! "f") = some 0 from rfl]
  simp only
  rw [show (heap 0).files side = some (str! "a.c") from rfl, h2]

def env : FDEnv where
  engine _ _ _ _ := .ok (heap, graph, [])
  snapLookup _ _ _ := none
  srcLookup _ := none
  linkOk _ := false
  semdiff := none
  syntaxDiff _ := .ok (str! "-")
  enum := id
  full := false

def stack : List Call := [⟨str! "g", str! "a.c", 1⟩]
def entity (n : Str) (cs : Option (List Call)) (k : DiffKind) : Entity :=
  match k with
  | .function => { name := n, filename := some (str! "a.c"), callstack := cs, covered := true }
  | k => { name := n, callstack := cs, kind := k }
def obj (n : Str) (cs : Option (List Call)) (k : DiffKind) : Obj := ⟨entity n cs k, entity n cs k, .notEqual⟩

def acc : PairAcc :=
  { objs := [obj (str! "f") none .function, obj (str! "M") (some []) .syntactic,
             obj (str! "g") (some stack) .function, obj (str! "M") (some stack) .syntactic]
    bodiesL := [(str! "M", str! "3")], bodiesR := [(str! "M", str! "4")] }

theorem list : funPairList id heap graph (str! "f") (str! "f") false = .ok acc := by
  unfold funPairList
  rw [runs .left]
  simp only
  rw [runs .right]
  rfl

theorem diff : functionsDiff env (str! "f") (str! "f") none 1 LinkEx.state =
    some ({ LinkEx.state with heap := heap, curr := some graph, engineRuns := 1 },
      .ok ((compareObjs env acc (Res.new .none (str! "f") (str! "f")) acc.objs).1.setGraph (some graph))) := by
  have hl : engineLoop env (str! "f") none 1 { LinkEx.state with curr := none, engineRuns := 0 } =
      some ({ LinkEx.state with heap := heap, curr := some graph, engineRuns := 1 }, .ok graph) := rfl
  rw [functionsDiff_eval hl list]
  rfl

theorem inner : ((compareObjs env acc (Res.new .none (str! "f") (str! "f")) acc.objs).1.setGraph (some graph)).inner.values =
    [entryOf (obj (str! "f") none .function) .notEqual (some (str! "-")),
     entryOf (obj (str! "M") (some stack) .syntactic) .notEqual (some (str! "  3\n\n  4\n")),
     entryOf (obj (str! "g") (some stack) .function) .notEqual (some (str! "-"))] := by rfl
end MacroEx

/-- **C62 (violated)** Two functions using a macro with the same name: there is one entry for the macro, with the text of
the function processed last. -/
theorem C62_fails : ¬ C62_statement := by
  intro h
  obtain ⟨e, he, h1, h2, h3, h4⟩ := (h MacroEx.env _ _ _ _ _ _ _ MacroEx.graph rfl (fun _ => List.Perm.refl _) MacroEx.diff
    (by decide) rfl 0 ⟨_, _, _, _, MacroEx.runs .left, MacroEx.runs .right, by simp, by simp⟩ rfl).2 MacroEx.dF (by simp [MacroEx.heap])
  rw [MacroEx.inner] at he
  simp only [List.mem_cons, List.not_mem_nil, or_false] at he
  rcases he with rfl | rfl | rfl
  · exact absurd h3 (by decide)
  · exact absurd h4 (by decide)
  · exact absurd h3 (by decide)

theorem foldl_set_notin (xs : List Res) : ∀ (d : Dict Str Res) (n : Str), n ∉ xs.map (fun x => x.first.name) →
    (xs.foldl (fun d x => Dict.set d x.first.name x) d).get? n = d.get? n := by
  induction xs with
  | nil => intro d n _; rfl
  | cons x xs ih =>
    intro d n hn
    simp only [List.map_cons, List.mem_cons, not_or] at hn
    rw [List.foldl_cons, ih _ _ hn.2, Dict.get?_set_ne _ _ hn.1]

theorem foldl_set_get (xs : List Res) : ∀ (d : Dict Str Res), (xs.map (fun x => x.first.name)).Nodup → ∀ x ∈ xs,
    (xs.foldl (fun d x => Dict.set d x.first.name x) d).get? x.first.name = some x := by
  induction xs with
  | nil => intro d _ x hx; simp at hx
  | cons y xs ih =>
    intro d hn x hx
    rw [List.map_cons, List.nodup_cons] at hn
    rw [List.foldl_cons]
    rw [List.mem_cons] at hx
    rcases hx with rfl | hx
    · rw [foldl_set_notin xs _ _ hn.1, Dict.get?_set_self]
    · exact ih _ hn.2 x hx

theorem bodiesOf_notin (s : Side) (ds : List NonFunDiff) : ∀ (b : Dict Str Str) (n : Str), n ∉ ds.map NonFunDiff.name →
    (bodiesOf s b ds).get? n = b.get? n := by
  induction ds with
  | nil => intro b n _; rfl
  | cons d ds ih =>
    intro b n hn
    simp only [List.map_cons, List.mem_cons, not_or] at hn
    unfold bodiesOf
    rw [List.foldl_cons]
    refine (ih _ _ hn.2).trans ?_
    cases d with
    | «syntax» m p c body => exact Dict.get?_set_ne _ _ hn.1
    | type m p c f l => rfl

theorem bodiesOf_get (s : Side) (ds : List NonFunDiff) : ∀ (b : Dict Str Str), (ds.map NonFunDiff.name).Nodup →
    ∀ n p c body, NonFunDiff.syntax n p c body ∈ ds → (bodiesOf s b ds).get? n = some (body s) := by
  induction ds with
  | nil => intro b _ n p c body h; simp at h
  | cons d ds ih =>
    intro b hn n p c body hm
    rw [List.map_cons, List.nodup_cons] at hn
    rw [List.mem_cons] at hm
    unfold bodiesOf
    rw [List.foldl_cons]
    rcases hm with rfl | hm
    · refine (bodiesOf_notin s ds _ _ hn.1).trans ?_
      exact Dict.get?_set_self _ _ _
    · exact ih _ hn.2 n p c body hm

/-- **C62 (partial)** If no two differing objects found in the comparison have the same name, every one of them has its
own entry, and a syntactic difference is shown with its own text. Missing: objects with the same name. -/
theorem C62_own_entries_partial (env : FDEnv) (f1 f2 : Str) (prev : Option Graph) (fuel : Nat) (st st' : FDState)
    (res : Res) (g : Graph) (hs : env.semdiff = none) (he : Enumerates env)
    (h : functionsDiff env f1 f2 prev fuel st = some (st', .ok res)) (hk : res.kind ≠ .error) (hg : res.graph = some g)
    (hd : DistinctNames st'.heap g f1 f2) (v : Vid) (hv : FoundOnBothSides st'.heap g f1 f2 v)
    (hne : (st'.heap v).result = .notEqual) :
    (∃ e ∈ res.inner.values, IsFunctionEntry st'.heap v e) ∧
    ∀ d ∈ (st'.heap v).nonfunDiffs, ∃ e ∈ res.inner.values, IsDifferenceEntry d e := by
  obtain ⟨st1, g', acc, _, hf, _, hg', _, _, hcase⟩ := functionsDiff_good h hk
  rw [hg] at hg'; cases hg'
  obtain ⟨rl, btL, rr, btR, hl, hr, hv1, hv2⟩ := hv
  obtain ⟨s1, h1, _⟩ := C04_reported_is_reachable hl
  obtain ⟨s2, h2, _⟩ := C04_reported_is_reachable hr
  obtain ⟨order, cs, acc', q1, q2, q3, q4, q5, q6, q7⟩ :=
    C08_exactly_interesting_differences env.enum he st'.heap g f1 f2 env.full s1 s2 rl rr btL btR h1 h2 hl hr
  rw [hf] at q1
  have q1 := Except.ok.inj q1
  subst q1
  have hvo : v ∈ order := (q3 v).2 ⟨hv1, hv2, by rw [hne]; simp [Interesting]⟩
  have hfound : ∀ w ∈ order, FoundOnBothSides st'.heap g f1 f2 w := by
    intro w hw
    obtain ⟨a, b, _⟩ := (q3 w).1 hw
    exact ⟨rl, btL, rr, btR, hl, hr, a, b⟩
  have hdn : ∀ (f : Str) (s : Side) (p : List (Vid × Edge)) (d : NonFunDiff), (differenceEntry f s p d).name = d.name := by
    intro f s p d; cases d <;> rfl
  -- the names of all objects are different
  have hnames : acc.objs.map (fun o => o.first.name) = order.flatMap (objectNames st'.heap) := by
    rw [q5, List.map_flatMap]
    congr 1
    funext w
    simp [objectNames, functionEntry, Function.comp_def, hdn]
  have hnodup : (order.flatMap (objectNames st'.heap)).Nodup := by
    rw [List.nodup_flatMap]
    refine ⟨fun w hw => hd.1 w (hfound w hw), ?_⟩
    refine List.Pairwise.imp_of_mem ?_ q2
    intro a b ha hb hab
    exact hd.2 a b (hfound a ha) (hfound b hb) hab
  have hdiffs : ((order.flatMap (fun w => (st'.heap w).nonfunDiffs)).map NonFunDiff.name).Nodup := by
    refine List.Nodup.sublist ?_ hnodup
    rw [List.map_flatMap]
    clear hvo hfound hnames hnodup q2 q3 q4 q5 q6 q7
    induction order with
    | nil => simp
    | cons a l ih =>
      rw [List.flatMap_cons, List.flatMap_cons]
      exact List.Sublist.append (List.sublist_cons_self _ _) ih
  rcases hcase with ⟨hnil, _⟩ | ⟨_, r, hr', hkind, hin⟩
  · exfalso
    have : acc.objs.map (fun o => o.first.name) = [] := by rw [hnil]; rfl
    rw [hnames] at this
    have hm : (st'.heap v).names .left ∈ order.flatMap (objectNames st'.heap) :=
      List.mem_flatMap.2 ⟨v, hvo, by simp [objectNames]⟩
    rw [this] at hm; simp at hm
  · obtain ⟨kept, k1, k2, k3, k4, _⟩ := compareObjs_plain hs _ _ _ hr'
    have hkn : ((kept.map (fun x => entryOf x.1 x.1.kind x.2)).map (fun x => x.first.name)).Nodup := by
      have : (kept.map (fun x => entryOf x.1 x.1.kind x.2)).map (fun x => x.first.name) =
          (kept.map Prod.fst).map (fun o => o.first.name) := by
        rw [List.map_map, List.map_map]; rfl
      rw [this]
      refine List.Nodup.sublist (k3.map _) ?_
      rw [hnames]; exact hnodup
    have hentry : ∀ o ∈ acc.objs, o.kind = .notEqual → ∃ d, objDiff env acc .notEqual o = .ok d ∧
        entryOf o .notEqual d ∈ res.inner.values := by
      intro o ho hok
      obtain ⟨d, hd'⟩ := k4 o ho (Or.inl hok)
      have hm : entryOf o o.kind d ∈ kept.map (fun x => entryOf x.1 x.1.kind x.2) := List.mem_map.2 ⟨_, hd', rfl⟩
      have hget := foldl_set_get _ (Res.new .none f1 f2).inner hkn _ hm
      rw [← foldl_addInner_inner, ← k1, ← hin] at hget
      have := (k2 _ hd').2
      simp only [hok] at this hget
      exact ⟨d, this, Dict.get?_mem_values hget⟩
    constructor
    · have ho : (⟨functionEntry st'.heap f1 .left v (cs .left v), functionEntry st'.heap f2 .right v (cs .right v),
          (st'.heap v).result⟩ : Obj) ∈ acc.objs := by
        rw [q5, List.mem_flatMap]; exact ⟨v, hvo, List.mem_cons_self⟩
      obtain ⟨d, _, hmem⟩ := hentry _ ho hne
      exact ⟨_, hmem, rfl, rfl, rfl, rfl⟩
    · intro d hdm
      have ho : (⟨differenceEntry f1 .left (cs .left v) d, differenceEntry f2 .right (cs .right v) d, .notEqual⟩ : Obj) ∈ acc.objs := by
        rw [q5, List.mem_flatMap]
        exact ⟨v, hvo, List.mem_cons_of_mem _ (List.mem_map.2 ⟨d, hdm, rfl⟩)⟩
      obtain ⟨t, ht, hmem⟩ := hentry _ ho rfl
      refine ⟨_, hmem, rfl, hdn _ _ _ _, ?_⟩
      have hall : d ∈ order.flatMap (fun w => (st'.heap w).nonfunDiffs) := List.mem_flatMap.2 ⟨v, hvo, hdm⟩
      cases d with
      | type n p c f l => rfl
      | «syntax» n p c body =>
        refine ⟨rfl, ?_⟩
        have e1 := bodiesOf_get .left _ [] hdiffs n p c body hall
        have e2 := bodiesOf_get .right _ [] hdiffs n p c body hall
        rw [← q6] at e1
        rw [← q7] at e2
        unfold objDiff at ht
        rw [if_pos (Or.inl rfl)] at ht
        simp only [differenceEntry, e1, e2] at ht
        have ht := Except.ok.inj ht
        rw [← ht]
        rfl

/-- A function with a macro difference and a type difference with different names. -/
example : ∃ h g v, DistinctNames h g (str! "f") (str! "f") ∧ FoundOnBothSides h g (str! "f") (str! "f") v ∧
    (h v).result = .notEqual ∧ (h v).nonfunDiffs ≠ [] := by
  let h : Heap := fun _ => { names := fun _ => str! "f", result := .notEqual, files := fun _ => some (str! "a.c")
                             nonfunDiffs := [MacroEx.dF, .type (str! "T") (str! "f") (fun _ => []) (fun _ => []) (fun _ => 1)] }
  have hr : ∀ s, reachableFrom h NoneEx.graph s (str! "f") = .ok ([0], []) := by
    intro s
    have h1 : searchIter h NoneEx.graph s (some (str! "a.c")) 2 { visited := [], queue := [0], result := [0], bt := [] } =
        some (.ok { visited := [0], queue := [], result := [0], bt := [] }) := by cases s <;> rfl
    have h2 := searchLoop_of_iter h1
    unfold reachableFrom
    rw [show NoneEx.graph.vertices.get? (str! "f") = some 0 from rfl]
    simp only
    rw [show (h 0).files s = some (str! "a.c") from rfl, h2]
  have hone : ∀ v, FoundOnBothSides h NoneEx.graph (str! "f") (str! "f") v → v = 0 := by
    rintro v ⟨rl, btL, rr, btR, h1, _, h3, _⟩
    rw [hr] at h1; cases h1
    simpa using h3
  refine ⟨h, NoneEx.graph, 0, ⟨?_, ?_⟩, ⟨_, _, _, _, hr .left, hr .right, by simp, by simp⟩, rfl, by simp [h]⟩
  · intro v _; exact (by decide : (objectNames h 0).Nodup)
  · intro v w hv hw hvw
    exact absurd ((hone v hv).trans (hone w hw).symm) hvw

end DK
