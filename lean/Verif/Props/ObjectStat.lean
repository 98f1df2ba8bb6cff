import Verif.Spec.ObjectStat

/-! Property C152: the extended statistics. -/

set_option autoImplicit false

namespace DK
open Spec

/-- **C152** as stated: the printed number of differences is the number of different objects (with name and kind) that
differ; each of them is counted in exactly one class. -/
def C152_statement : Prop :=
  ∀ (h : Heap) (r : Res) (s : ObjectStat), objectStat h r = .ok s →
    CountOf (fun o : Str × DiffKind => ∃ d, DiffersIn r o.1 o.2 d) s.total ∧
    s.functions + s.types + s.macros + s.asm = s.total

private def objRes (name : Str) (k : DiffKind) : Res := .mk .notEqual { name := name, kind := k } { name := name } (some (str! "d")) none []

private def outerRes (name : Str) (y : Res) : Res := .mk .notEqual { name := name } { name := name } none none [(y.first.name, y)]

private def twoKinds : Res :=
  .mk .notEqual { name := str! "old" } { name := str! "new" } none (some {})
    [(str! "f", outerRes (str! "f") (objRes (str! "list") .type)), (str! "g", outerRes (str! "g") (objRes (str! "list") .function))]

/-- **C152 (violated)** A type and a function with the same name are counted once. -/
theorem C152_fails : ¬ C152_statement := by
  intro h
  have e : ∃ s, objectStat (fun _ => { names := fun _ => [], result := .equal, files := fun _ => none }) twoKinds = .ok s ∧ s.total = 1 := by
    refine ⟨_, rfl, ?_⟩
    decide
  obtain ⟨s, e1, e2⟩ := e
  obtain ⟨⟨l, hn, hm, hl⟩, -⟩ := h _ _ _ e1
  rw [e2] at hl
  have h1 : (str! "list", DiffKind.type) ∈ l := (hm _).2 ⟨some (str! "d"), outerRes (str! "f") (objRes (str! "list") .type),
    by simp [twoKinds, Res.inner, Dict.values], objRes (str! "list") .type, by simp [outerRes, Res.inner, Dict.values], rfl, rfl, rfl, by simp [objRes, Res.diff]⟩
  have h2 : (str! "list", DiffKind.function) ∈ l := (hm _).2 ⟨some (str! "d"), outerRes (str! "g") (objRes (str! "list") .function),
    by simp [twoKinds, Res.inner, Dict.values], objRes (str! "list") .function, by simp [outerRes, Res.inner, Dict.values], rfl, rfl, rfl, by simp [objRes, Res.diff]⟩
  obtain ⟨x, rfl⟩ := List.length_eq_one_iff.1 hl
  rw [List.mem_singleton] at h1 h2
  rw [← h1] at h2
  cases h2

private theorem mem_differing {r y : Res} : y ∈ differingObjects r ↔
    ∃ x ∈ r.inner.values, y ∈ x.inner.values ∧ ¬ (y.diff = some [] ∧ y.first.covered = true) := by
  unfold differingObjects skippedDiff
  rw [List.mem_filter, List.mem_flatMap]
  simp only [Bool.not_eq_true', Bool.and_eq_false_iff, decide_eq_false_iff_not, not_and, Bool.not_eq_true]
  constructor
  · rintro ⟨⟨x, h1, h2⟩, h3⟩
    refine ⟨x, h1, h2, fun hd => ?_⟩
    rcases h3 with h3 | h3
    · exact absurd hd h3
    · exact h3
  · rintro ⟨x, h1, h2, h3⟩
    refine ⟨⟨x, h1, h2⟩, ?_⟩
    by_cases hd : y.diff = some []
    · exact .inr (h3 hd)
    · exact .inl hd

private theorem differs_iff {r : Res} {name : Str} {k : DiffKind} {d : Option Str} :
    DiffersIn r name k d ↔ ∃ y ∈ differingObjects r, y.first.name = name ∧ y.first.kind = k ∧ y.diff = d := by
  constructor
  · rintro ⟨x, hx, y, hy, h1, h2, h3, h4⟩
    exact ⟨y, mem_differing.2 ⟨x, hx, hy, h4⟩, h1, h2, h3⟩
  · rintro ⟨y, hy, h1, h2, h3⟩
    obtain ⟨x, hx, hy, h4⟩ := mem_differing.1 hy
    exact ⟨x, hx, y, hy, h1, h2, h3, h4⟩

/-- The set contains one result for each name. -/
private theorem foldl_addUnique : ∀ (l u : List Res), (u.map (fun y => y.first.name)).Nodup →
    ((l.foldl addUnique u).map (fun y => y.first.name)).Nodup ∧
    (∀ y ∈ l.foldl addUnique u, y ∈ u ∨ y ∈ l) ∧
    (∀ y ∈ u, y ∈ l.foldl addUnique u) ∧
    ∀ y ∈ l, ∃ z ∈ l.foldl addUnique u, z.first.name = y.first.name := by
  intro l
  induction l with
  | nil => intro u hn; exact ⟨hn, fun y hy => .inl hy, fun y hy => hy, by simp⟩
  | cons y l ih =>
    intro u hn
    rw [List.foldl_cons]
    have hstep : ((addUnique u y).map (fun y => y.first.name)).Nodup ∧ (∀ z ∈ addUnique u y, z ∈ u ∨ z = y) ∧
        (∀ z ∈ u, z ∈ addUnique u y) ∧ ∃ z ∈ addUnique u y, z.first.name = y.first.name := by
      unfold addUnique
      split
      · rename_i h
        rw [List.any_eq_true] at h
        obtain ⟨z, hz, he⟩ := h
        exact ⟨hn, fun z hz => .inl hz, fun z hz => hz, z, hz, by simpa using he⟩
      · rename_i h
        refine ⟨?_, ?_, fun z hz => List.mem_append_left _ hz, y, by simp, rfl⟩
        · rw [List.map_append, List.nodup_append]
          refine ⟨hn, by simp, ?_⟩
          intro a ha b hb
          rw [List.map_singleton, List.mem_singleton] at hb
          subst hb
          rintro rfl
          obtain ⟨z, hz, he⟩ := List.mem_map.1 ha
          exact h (List.any_eq_true.2 ⟨z, hz, by simpa using he⟩)
        · intro z hz
          rw [List.mem_append, List.mem_singleton] at hz
          exact hz
    obtain ⟨s1, s2, s3, z, hz, hzn⟩ := hstep
    obtain ⟨h1, h2, h3, h4⟩ := ih _ s1
    refine ⟨h1, ?_, fun w hw => h3 w (s3 w hw), ?_⟩
    · intro w hw
      rcases h2 w hw with hw | hw
      · rcases s2 w hw with hw | rfl
        · exact .inl hw
        · exact .inr (by simp)
      · exact .inr (by simp [hw])
    · intro w hw
      rcases List.mem_cons.1 hw with rfl | hw
      · exact ⟨z, h3 z hz, hzn⟩
      · exact h4 w hw

/-- A count over the set is a count of names. -/
private theorem count_unique {r : Res} (p : Res → Bool)
    (hp : ∀ y ∈ differingObjects r, ∀ z ∈ differingObjects r, y.first.name = z.first.name → p y = p z) :
    CountOf (fun n : Str => ∃ y ∈ differingObjects r, y.first.name = n ∧ p y = true) ((uniqueDiffs r).filter p).length := by
  obtain ⟨h1, h2, -, h4⟩ := foldl_addUnique (differingObjects r) [] (by simp)
  refine ⟨((uniqueDiffs r).filter p).map (fun y => y.first.name), ?_, ?_, by simp⟩
  · exact List.Nodup.sublist (List.Sublist.map _ List.filter_sublist) h1
  · intro n
    constructor
    · intro hn
      obtain ⟨y, hy, rfl⟩ := List.mem_map.1 hn
      rw [List.mem_filter] at hy
      rcases h2 y hy.1 with h | h
      · cases h
      · exact ⟨y, h, rfl, hy.2⟩
    · rintro ⟨y, hy, rfl, hpy⟩
      obtain ⟨z, hz, he⟩ := h4 y hy
      refine List.mem_map.2 ⟨z, List.mem_filter.2 ⟨hz, ?_⟩, he⟩
      rcases h2 z hz with h | h
      · cases h
      · rw [hp z h y hy he]; exact hpy

private theorem objectStat_ok {h : Heap} {r : Res} {s : ObjectStat} (hs : objectStat h r = .ok s) :
    s.total = (uniqueDiffs r).length ∧
    s.functions = ((uniqueDiffs r).filter (fun y => decide (y.first.kind = .function))).length ∧
    s.types = ((uniqueDiffs r).filter (fun y => decide (y.first.kind = .type))).length ∧
    s.macros = ((uniqueDiffs r).filter (fun y => decide (y.first.kind = .syntactic) && !isAsmDiff y)).length ∧
    s.asm = ((uniqueDiffs r).filter (fun y => decide (y.first.kind = .syntactic) && isAsmDiff y)).length ∧
    s.empty = ((uniqueDiffs r).filter (fun y => decide (y.diff = some []))).length := by
  unfold objectStat at hs
  split at hs
  · cases hs
  · simp only [Except.ok.injEq] at hs
    subst hs
    exact ⟨rfl, rfl, rfl, rfl, rfl, rfl⟩

/-- **C152 (partial)** Each counted object is in exactly one class, and there are at most as many empty differences as
objects. -/
theorem C152_classes_partial {h : Heap} {r : Res} {s : ObjectStat} (hs : objectStat h r = .ok s) :
    s.functions + s.types + s.macros + s.asm = s.total ∧ s.empty ≤ s.total := by
  obtain ⟨h1, h2, h3, h4, h5, h6⟩ := objectStat_ok hs
  rw [h1, h2, h3, h4, h5, h6]
  refine ⟨?_, List.length_filter_le _ _⟩
  clear h1 h2 h3 h4 h5 h6
  induction uniqueDiffs r with
  | nil => rfl
  | cons y u ih =>
    rw [List.length_cons]
    cases hk : y.first.kind <;> cases ha : isAsmDiff y <;>
      simp only [List.filter_cons, hk, ha, reduceCtorEq, decide_false, decide_true, Bool.true_and, Bool.false_and,
        Bool.not_true, Bool.not_false, if_true, List.length_cons, Bool.false_eq_true, if_false] at ih ⊢ <;> omega

/-- **C152 (partial)** If objects of different kinds have different names, the numbers are the numbers of differing
objects: all, functions, types, macros and pieces of assembly code; and if each object has the same difference everywhere,
those with an empty difference. Missing: see `C152_fails`. -/
theorem C152_counts_partial {h : Heap} {r : Res} {s : ObjectStat} (hs : objectStat h r = .ok s) (hk : NamesOfKinds r) :
    CountOf (fun o : Str × DiffKind => ∃ d, DiffersIn r o.1 o.2 d) s.total ∧
    CountOf (fun n => ∃ d, DiffersIn r n .function d) s.functions ∧
    CountOf (fun n => ∃ d, DiffersIn r n .type d) s.types ∧
    CountOf (fun n => (∃ d, DiffersIn r n .syntactic d) ∧ ¬ (str! "assembly code") <+: n) s.macros ∧
    CountOf (fun n => (∃ d, DiffersIn r n .syntactic d) ∧ (str! "assembly code") <+: n) s.asm ∧
    (NamesOfDiffs r → CountOf (fun n => ∃ k, DiffersIn r n k (some [])) s.empty) := by
  obtain ⟨h1, h2, h3, h4, h5, h6⟩ := objectStat_ok hs
  have hk' : ∀ y ∈ differingObjects r, ∀ z ∈ differingObjects r, y.first.name = z.first.name → y.first.kind = z.first.kind := by
    intro y hy z hz he
    exact hk y.first.name _ _ _ _ (differs_iff.2 ⟨y, hy, rfl, rfl, rfl⟩) (differs_iff.2 ⟨z, hz, he.symm, rfl, rfl⟩)
  have hasm : ∀ y z : Res, y.first.name = z.first.name → isAsmDiff y = isAsmDiff z := by
    intro y z he; unfold isAsmDiff; rw [he]
  have hasm' : ∀ y : Res, isAsmDiff y = true ↔ (str! "assembly code") <+: y.first.name := by
    intro y; unfold isAsmDiff; exact List.isPrefixOf_iff_prefix
  refine ⟨?_, ?_, ?_, ?_, ?_, ?_⟩
  · obtain ⟨g1, g2, -, g4⟩ := foldl_addUnique (differingObjects r) [] (by simp)
    refine ⟨(uniqueDiffs r).map (fun y => (y.first.name, y.first.kind)), ?_, ?_, by simp [h1]⟩
    · have : ((uniqueDiffs r).map (fun y => (y.first.name, y.first.kind))).map Prod.fst = (uniqueDiffs r).map (fun y => y.first.name) := by
        rw [List.map_map]; rfl
      refine List.Nodup.of_map Prod.fst ?_
      rw [this]
      exact g1
    · rintro ⟨n, k⟩
      constructor
      · intro hn
        obtain ⟨y, hy, he⟩ := List.mem_map.1 hn
        simp only [Prod.mk.injEq] at he
        rcases g2 y hy with hh | hh
        · cases hh
        · exact ⟨y.diff, differs_iff.2 ⟨y, hh, he.1, he.2, rfl⟩⟩
      · rintro ⟨d, hd⟩
        obtain ⟨y, hy, e1, e2, -⟩ := differs_iff.1 hd
        obtain ⟨z, hz, he⟩ := g4 y hy
        refine List.mem_map.2 ⟨z, hz, ?_⟩
        rcases g2 z hz with hh | hh
        · cases hh
        · simp only at e1 e2
          rw [he, hk' z hh y hy he, e1, e2]
  · rw [h2]
    have := count_unique (r := r) (fun y => decide (y.first.kind = .function)) (fun y hy z hz he => by simp only [hk' y hy z hz he])
    refine cast ?_ this
    congr 1
    funext n
    simp only [differs_iff, decide_eq_true_eq, eq_iff_iff]
    exact ⟨fun ⟨y, a, b, c⟩ => ⟨y.diff, y, a, b, c, rfl⟩, fun ⟨_, y, a, b, c, _⟩ => ⟨y, a, b, c⟩⟩
  · rw [h3]
    have := count_unique (r := r) (fun y => decide (y.first.kind = .type)) (fun y hy z hz he => by simp only [hk' y hy z hz he])
    refine cast ?_ this
    congr 1
    funext n
    simp only [differs_iff, decide_eq_true_eq, eq_iff_iff]
    exact ⟨fun ⟨y, a, b, c⟩ => ⟨y.diff, y, a, b, c, rfl⟩, fun ⟨_, y, a, b, c, _⟩ => ⟨y, a, b, c⟩⟩
  · rw [h4]
    have := count_unique (r := r) (fun y => decide (y.first.kind = .syntactic) && !isAsmDiff y)
      (fun y hy z hz he => by simp only [hk' y hy z hz he, hasm y z he])
    refine cast ?_ this
    congr 1
    funext n
    simp only [differs_iff, Bool.and_eq_true, decide_eq_true_eq, eq_iff_iff, Bool.not_eq_true', ← Bool.not_eq_true, hasm']
    constructor
    · rintro ⟨y, a, rfl, c, e⟩
      exact ⟨⟨y.diff, y, a, rfl, c, rfl⟩, e⟩
    · rintro ⟨⟨_, y, a, rfl, c, _⟩, e⟩
      exact ⟨y, a, rfl, c, e⟩
  · rw [h5]
    have := count_unique (r := r) (fun y => decide (y.first.kind = .syntactic) && isAsmDiff y)
      (fun y hy z hz he => by simp only [hk' y hy z hz he, hasm y z he])
    refine cast ?_ this
    congr 1
    funext n
    simp only [differs_iff, Bool.and_eq_true, decide_eq_true_eq, eq_iff_iff, hasm']
    constructor
    · rintro ⟨y, a, rfl, c, e⟩
      exact ⟨⟨y.diff, y, a, rfl, c, rfl⟩, e⟩
    · rintro ⟨⟨_, y, a, rfl, c, _⟩, e⟩
      exact ⟨y, a, rfl, c, e⟩
  · intro hd
    have hd' : ∀ y ∈ differingObjects r, ∀ z ∈ differingObjects r, y.first.name = z.first.name → y.diff = z.diff := by
      intro y hy z hz he
      exact hd y.first.name _ _ _ _ (differs_iff.2 ⟨y, hy, rfl, rfl, rfl⟩) (differs_iff.2 ⟨z, hz, he.symm, rfl, rfl⟩)
    rw [h6]
    have := count_unique (r := r) (fun y => decide (y.diff = some [])) (fun y hy z hz he => by simp only [hd' y hy z hz he])
    refine cast ?_ this
    congr 1
    funext n
    simp only [differs_iff, decide_eq_true_eq, eq_iff_iff]
    exact ⟨fun ⟨y, a, b, c⟩ => ⟨y.first.kind, y, a, b, rfl, c⟩, fun ⟨_, y, a, b, _, c⟩ => ⟨y, a, b, c⟩⟩

/-- The statistics need a graph: without one (see C23) the tool ends with an exception. -/
theorem C152_no_graph (h : Heap) (r : Res) : (∃ s, objectStat h r = .ok s) ↔ r.graph ≠ none := by
  unfold objectStat
  cases r.graph with
  | none => simp
  | some g => simp

private def twoObjects : Res :=
  .mk .notEqual { name := str! "old" } { name := str! "new" } none (some {})
    [(str! "f", outerRes (str! "f") (objRes (str! "list") .type)), (str! "g", outerRes (str! "g") (objRes (str! "h") .function))]

/-- A type and a function differ. -/
example : ∃ s, objectStat (fun _ => { names := fun _ => [], result := .equal, files := fun _ => none }) twoObjects = .ok s ∧
    s.total = 2 ∧ s.types = 1 ∧ s.functions = 1 ∧ NamesOfKinds twoObjects := by
  refine ⟨_, rfl, by decide, by decide, by decide, ?_⟩
  intro name k k' d d' h h'
  rw [differs_iff] at h h'
  have e : differingObjects twoObjects = [objRes (str! "list") .type, objRes (str! "h") .function] := rfl
  rw [e] at h h'
  obtain ⟨y, hy, h1, h2, -⟩ := h
  obtain ⟨z, hz, h3, h4, -⟩ := h'
  simp only [List.mem_cons, List.not_mem_nil, or_false] at hy hz
  rcases hy with rfl | rfl <;> rcases hz with rfl | rfl
  · exact h2.symm.trans h4
  · exact absurd (h1.trans h3.symm) (by decide)
  · exact absurd (h1.trans h3.symm) (by decide)
  · exact h2.symm.trans h4

end DK
