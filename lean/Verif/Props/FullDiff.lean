import Verif.Props.OwnText

/-! C181: whether a difference is reported does not depend on the option for full diffs. -/

set_option autoImplicit false

namespace DK
open Spec

/-- The same settings, with full diffs. -/
def Spec.withFull (env : FDEnv) (b : Bool) : FDEnv := { env with full := b }

/-- The verdict says that something is different or could not be shown equal. -/
def Spec.ReportsDifference (res : Res) : Prop := AtMost .notEqual res.kind

/-- **C181** as stated: the same two functions are reported as different with full diffs iff they are without. -/
def C181_statement : Prop :=
  ∀ (env : FDEnv) (f1 f2 : Str) (prev : Option Graph) (fuel : Nat) (st st1 st2 : FDState) (res1 res2 : Res),
    env.semdiff = none → Enumerates env →
    functionsDiff (withFull env false) f1 f2 prev fuel st = some (st1, .ok res1) → res1.kind ≠ .error →
    functionsDiff (withFull env true) f1 f2 prev fuel st = some (st2, .ok res2) → res2.kind ≠ .error →
    (ReportsDifference res1 ↔ ReportsDifference res2)

namespace FullEx
/-- `f` is equal, but a difference in the macro `M` was recorded before the equality was shown. -/
def heap : Heap
  | _ => { names := fun _ => str! "f", result := .equal, files := fun _ => some (str! "a.c"), nonfunDiffs := [MacroEx.dF] }
def graph : Graph := { vertices := [(str! "f", 0)] }
def env (b : Bool) : FDEnv := withFull { MacroEx.env with engine := fun _ _ _ _ => .ok (heap, graph, []) } b

theorem runs (side : Side) : reachableFrom heap graph side (str! "f") = .ok ([0], []) := by
  have h1 : searchIter heap graph side (some (str! "a.c")) 2 { visited := [], queue := [0], result := [0], bt := [] } =
      some (.ok { visited := [0], queue := [], result := [0], bt := [] }) := by
    cases side <;> rfl
  have h2 := searchLoop_of_iter h1
  unfold reachableFrom
  rw [show graph.vertices.get? (str! "f") = some 0 from rfl]
  simp only
  rw [show (heap 0).files side = some (str! "a.c") from rfl, h2]

def obj : Obj :=
  ⟨{ name := str! "f", filename := some (str! "a.c"), covered := true }, { name := str! "f", filename := some (str! "a.c"), covered := true }, .equal⟩

def acc (b : Bool) : PairAcc :=
  if b then { objs := [obj, MacroEx.obj (str! "M") (some []) .syntactic]
              bodiesL := [(str! "M", str! "1")], bodiesR := [(str! "M", str! "2")] }
  else {}

theorem list (b : Bool) : funPairList id heap graph (str! "f") (str! "f") b = .ok (acc b) := by
  unfold funPairList
  rw [runs .left]
  simp only
  rw [runs .right]
  cases b <;> rfl

theorem plain : functionsDiff (env false) (str! "f") (str! "f") none 1 LinkEx.state =
    some ({ LinkEx.state with heap := heap, curr := some graph, engineRuns := 1 },
      .ok (((Res.new .none (str! "f") (str! "f")).setKind .equal).setGraph (some graph))) := by
  have hl : engineLoop (env false) (str! "f") none 1 { LinkEx.state with curr := none, engineRuns := 0 } =
      some ({ LinkEx.state with heap := heap, curr := some graph, engineRuns := 1 }, .ok graph) := rfl
  rw [functionsDiff_eval hl (list false)]
  rfl

theorem full : functionsDiff (env true) (str! "f") (str! "f") none 1 LinkEx.state =
    some ({ LinkEx.state with heap := heap, curr := some graph, engineRuns := 1 },
      .ok ((compareObjs (env true) (acc true) (Res.new .none (str! "f") (str! "f")) (acc true).objs).1.setGraph (some graph))) := by
  have hl : engineLoop (env true) (str! "f") none 1 { LinkEx.state with curr := none, engineRuns := 0 } =
      some ({ LinkEx.state with heap := heap, curr := some graph, engineRuns := 1 }, .ok graph) := rfl
  rw [functionsDiff_eval hl (list true)]
  rfl
end FullEx

/-- **C181 (violated)** A difference recorded for a function that is shown equal in the end is reported with full diffs,
and the compared functions get the verdict not-equal. -/
theorem C181_fails : ¬ C181_statement := by
  intro h
  have := (h (FullEx.env false) _ _ _ _ _ _ _ _ _ rfl (fun _ => List.Perm.refl _) FullEx.plain (by decide) FullEx.full
    (by decide)).2
  unfold ReportsDifference at this
  exact absurd (this (by decide)) (by decide)

/-- The verdict of every function found on both sides is equal, assumed-equal or not-equal. -/
def Spec.AllDecided (h : Heap) (g : Graph) (f1 f2 : Str) : Prop :=
  ∀ v, FoundOnBothSides h g f1 f2 v → (h v).result = .equal ∨ (h v).result = .assumedEqual ∨ (h v).result = .notEqual

/-- No non-function difference is recorded for a function shown equal. -/
def Spec.NothingRecordedForEqual (h : Heap) (g : Graph) (f1 f2 : Str) : Prop :=
  ∀ v, FoundOnBothSides h g f1 f2 v → (h v).result = .equal → (h v).nonfunDiffs = []

/-- What is reported without a semantic tool. -/
theorem reports_iff {env : FDEnv} (hs : env.semdiff = none) (he : Enumerates env) {f1 f2 : Str} {prev : Option Graph}
    {fuel : Nat} {st st' : FDState} {res : Res} {g : Graph}
    (h : functionsDiff env f1 f2 prev fuel st = some (st', .ok res)) (hk : res.kind ≠ .error) (hg : res.graph = some g)
    (hdec : AllDecided st'.heap g f1 f2) :
    ReportsDifference res ↔ ∃ v, FoundOnBothSides st'.heap g f1 f2 v ∧ Interesting env.full (st'.heap v).result ∧
      (AtMost .notEqual (st'.heap v).result ∨ (st'.heap v).nonfunDiffs ≠ []) := by
  obtain ⟨st1, g', acc, _, hf, _, hg', _, _, hcase⟩ := functionsDiff_good h hk
  rw [hg] at hg'; cases hg'
  have hf0 := hf
  unfold funPairList at hf0
  cases el : reachableFrom st'.heap g .left f1 with
  | error x => rw [el] at hf0; simp at hf0
  | ok a =>
  cases er : reachableFrom st'.heap g .right f2 with
  | error x => rw [el] at hf0; simp only at hf0; rw [er] at hf0; simp at hf0
  | ok b =>
  obtain ⟨rl, btL⟩ := a
  obtain ⟨rr, btR⟩ := b
  obtain ⟨s1, h1, _⟩ := C04_reported_is_reachable el
  obtain ⟨s2, h2, _⟩ := C04_reported_is_reachable er
  obtain ⟨order, cs, acc', q1, q2, q3, q4, q5, _⟩ :=
    C08_exactly_interesting_differences env.enum he st'.heap g f1 f2 env.full s1 s2 rl rr btL btR h1 h2 el er
  rw [hf] at q1
  have q1 := Except.ok.inj q1
  subst q1
  have hobjs : (∃ o ∈ acc.objs, AtMost .notEqual o.kind) ↔ ∃ v, FoundOnBothSides st'.heap g f1 f2 v ∧
      Interesting env.full (st'.heap v).result ∧ (AtMost .notEqual (st'.heap v).result ∨ (st'.heap v).nonfunDiffs ≠ []) := by
    rw [q5]
    constructor
    · rintro ⟨o, ho, hok⟩
      obtain ⟨v, hv, ho⟩ := List.mem_flatMap.1 ho
      obtain ⟨x, y, z⟩ := (q3 v).1 hv
      refine ⟨v, ⟨rl, btL, rr, btR, el, er, x, y⟩, z, ?_⟩
      rw [List.mem_cons, List.mem_map] at ho
      rcases ho with rfl | ⟨d, hd, _⟩
      · exact Or.inl hok
      · exact Or.inr (List.ne_nil_of_mem hd)
    · rintro ⟨v, ⟨rl', btL', rr', btR', e1, e2, hv1, hv2⟩, hi, hor⟩
      rw [el] at e1; cases e1
      rw [er] at e2; cases e2
      have hv := (q3 v).2 ⟨hv1, hv2, hi⟩
      rcases hor with hor | hor
      · exact ⟨_, List.mem_flatMap.2 ⟨v, hv, List.mem_cons_self⟩, hor⟩
      · obtain ⟨d, hd⟩ := List.exists_mem_of_ne_nil _ hor
        exact ⟨_, List.mem_flatMap.2 ⟨v, hv, List.mem_cons_of_mem _ (List.mem_map.2 ⟨d, hd, rfl⟩)⟩,
          (atMost_iff _ _).2 (Nat.le_refl _)⟩
  rw [← hobjs]
  unfold ReportsDifference
  rcases hcase with ⟨hnil, hkind, _⟩ | ⟨_, r, hr, hkind, _⟩
  · rw [hkind, hnil]
    simp only [List.not_mem_nil, false_and, exists_false, iff_false]
    decide
  · obtain ⟨kept, k1, k2, _, k4, _⟩ := compareObjs_plain hs _ _ _ hr
    rw [hkind]
    constructor
    · intro hle
      rw [atMost_iff, k1] at hle
      rcases foldl_addInner_mem (kept.map (fun x => entryOf x.1 x.1.kind x.2)) (Res.new .none f1 f2) with e | ⟨x, hx, e⟩
      · rw [e] at hle
        exact absurd hle (by show ¬ Kind.notEqual.toNat ≤ Kind.none.toNat; decide)
      · rw [e] at hle
        obtain ⟨y, hy, rfl⟩ := List.mem_map.1 hx
        exact ⟨y.1, (k2 y hy).1, (atMost_iff _ _).2 hle⟩
    · rintro ⟨o, ho, hok⟩
      have hne : o.kind = .notEqual := by
        obtain ⟨v, hv, _, hor⟩ := (listed_objs he hf).2 o ho
        rcases hor with hor | hor
        · rcases hdec v hv with e | e | e
          · rw [hor, e] at hok; exact absurd hok (by decide)
          · rw [hor, e] at hok; exact absurd hok (by decide)
          · rw [hor, e]
        · exact hor
      obtain ⟨d, hd⟩ := k4 o ho (Or.inl hne)
      rw [atMost_iff, k1]
      have := (foldl_addInner_le (kept.map (fun x => entryOf x.1 x.1.kind x.2)) (Res.new .none f1 f2)).2 _
        (List.mem_map.2 ⟨_, hd, rfl⟩)
      simpa [entryOf, Res.kind, hne] using this

theorem engineLoop_full (env : FDEnv) (b : Bool) (f1 : Str) (prev : Option Graph) : ∀ (n : Nat) (st : FDState),
    engineLoop (withFull env b) f1 prev n st = engineLoop env f1 prev n st
  | 0, _ => rfl
  | n + 1, st => by
    unfold engineLoop
    rw [show (withFull env b).engine = env.engine from rfl]
    cases shortcut st.heap prev f1 with
    | some p => rfl
    | none =>
      simp only
      cases env.engine st.engineRuns (st.mods .left) (st.mods .right) st.heap with
      | error x => rfl
      | ok y =>
        simp only
        rw [show linkMissing (withFull env b) = linkMissing env from rfl]
        split
        · exact engineLoop_full env b f1 prev n _
        · rfl

/-- **C181 (partial)** It holds if the verdicts of all functions found on both sides are decided and no difference is
recorded for a function shown equal. In particular full diffs neither hide nor add a difference then. Missing: differences
recorded before equality is shown, and functions with verdict unknown (with full diffs they are left out if their texts are
the same). -/
theorem C181_full_diff_partial (env : FDEnv) (f1 f2 : Str) (prev : Option Graph) (fuel : Nat) (st st1 st2 : FDState)
    (res1 res2 : Res) (g : Graph) (hs : env.semdiff = none) (he : Enumerates env)
    (h1 : functionsDiff (withFull env false) f1 f2 prev fuel st = some (st1, .ok res1)) (hk1 : res1.kind ≠ .error)
    (h2 : functionsDiff (withFull env true) f1 f2 prev fuel st = some (st2, .ok res2)) (hk2 : res2.kind ≠ .error)
    (hg : res1.graph = some g) (hdec : AllDecided st1.heap g f1 f2) (hno : NothingRecordedForEqual st1.heap g f1 f2) :
    ReportsDifference res1 ↔ ReportsDifference res2 := by
  obtain ⟨s1, g1, acc1, e1, _, eh1, eg1, _⟩ := functionsDiff_good h1 hk1
  obtain ⟨s2, g2, acc2, e2, _, eh2, eg2, _⟩ := functionsDiff_good h2 hk2
  rw [engineLoop_full] at e1 e2
  rw [e1] at e2
  cases e2
  have hh : st2.heap = st1.heap := by rw [eh1, eh2]
  rw [hg] at eg1
  cases eg1
  rw [reports_iff (env := withFull env false) hs he h1 hk1 hg hdec,
    reports_iff (env := withFull env true) hs he h2 hk2 eg2 (by rw [hh]; exact hdec), hh]
  constructor
  · rintro ⟨v, a, b, c⟩
    exact ⟨v, a, ⟨b.1, fun _ => rfl⟩, c⟩
  · rintro ⟨v, a, b, c⟩
    refine ⟨v, a, ⟨b.1, fun he => ?_⟩, c⟩
    rcases c with c | c
    · rw [he] at c; exact absurd c (by decide)
    · exact absurd (hno v a he) c

/-- **C181 (partial)** Without full diffs, differences recorded for functions shown equal are not reported: if all
functions found on both sides are equal or assumed-equal, the verdict is equal and there are no entries. -/
theorem C181_equal_partial (env : FDEnv) (f1 f2 : Str) (prev : Option Graph) (fuel : Nat) (st st' : FDState) (res : Res)
    (g : Graph) (he : Enumerates env) (hfull : env.full = false)
    (h : functionsDiff env f1 f2 prev fuel st = some (st', .ok res)) (hk : res.kind ≠ .error) (hg : res.graph = some g)
    (hall : ∀ v, FoundOnBothSides st'.heap g f1 f2 v →
      (st'.heap v).result = .equal ∨ (st'.heap v).result = .assumedEqual) :
    res.kind = .equal ∧ res.inner = [] := by
  obtain ⟨st1, g', acc, _, hf, _, hg', _, _, hcase⟩ := functionsDiff_good h hk
  rw [hg] at hg'; cases hg'
  rcases hcase with ⟨_, a, b⟩ | ⟨hne, _⟩
  · exact ⟨a, b⟩
  · obtain ⟨o, ho⟩ := List.exists_mem_of_ne_nil _ hne
    obtain ⟨v, hv, hi, _⟩ := (listed_objs he hf).2 o ho
    rcases hall v hv with e | e
    · have := hi.2 e
      rw [hfull] at this; cases this
    · exact absurd e hi.1

/-- In the example the equality of `f` is reported without full diffs, although a difference is recorded for it. -/
example : (((Res.new .none (str! "f") (str! "f")).setKind .equal).setGraph (some FullEx.graph)).kind = .equal ∧
    (FullEx.heap 0).nonfunDiffs ≠ [] :=
  ⟨(C181_equal_partial (FullEx.env false) _ _ _ _ _ _ _ FullEx.graph (fun _ => List.Perm.refl _) rfl FullEx.plain (by decide) rfl
    (fun _ _ => Or.inl rfl)).1, by decide⟩

theorem FullEx.macros : ∃ st2 res2, functionsDiff (withFull MacroEx.env true) (str! "f") (str! "f") none 1 LinkEx.state =
    some (st2, .ok res2) ∧ res2.kind ≠ .error := by
  have hl : engineLoop (withFull MacroEx.env true) (str! "f") none 1 { LinkEx.state with curr := none, engineRuns := 0 } =
      some ({ LinkEx.state with heap := MacroEx.heap, curr := some MacroEx.graph, engineRuns := 1 }, .ok MacroEx.graph) := rfl
  have hf : funPairList id MacroEx.heap MacroEx.graph (str! "f") (str! "f") true = .ok MacroEx.acc := by
    unfold funPairList
    rw [MacroEx.runs .left]
    simp only
    rw [MacroEx.runs .right]
    rfl
  rw [functionsDiff_eval hl hf]
  exact ⟨_, _, rfl, by decide⟩

/-- Two functions that differ in the use of macros: the difference is reported with full diffs, too. -/
example : ∃ st2 res2, functionsDiff (withFull MacroEx.env true) (str! "f") (str! "f") none 1 LinkEx.state =
    some (st2, .ok res2) ∧ ReportsDifference res2 := by
  obtain ⟨st2, res2, h, hk⟩ := FullEx.macros
  refine ⟨st2, res2, h, (C181_full_diff_partial MacroEx.env _ _ _ _ _ _ _ _ _ MacroEx.graph rfl (fun _ => List.Perm.refl _)
    MacroEx.diff (by decide) h hk rfl ?_ ?_).1 (by unfold ReportsDifference; decide)⟩
  · intro v _
    match v with
    | 0 => exact Or.inr (Or.inr rfl)
    | _ + 1 => exact Or.inr (Or.inr rfl)
  · intro v _ e
    match v with
    | 0 => cases e
    | _ + 1 => cases e

end DK
