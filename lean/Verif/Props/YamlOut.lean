import Verif.Lemmas.YamlOut
import Verif.Props.Compare

/-! The YAML output: C56, C75, C76 and C77. -/

set_option autoImplicit false

namespace DK
open Spec

/-! ### C56 -/

/-- **C56** (full statement): the symbols of a call stack are classified by their tags, and a type is attributed to the
function it is used in. -/
def C56_statement : Prop :=
  ∀ (compared : Str) (calls : List Call), (∀ c ∈ calls, EntryOk c.name) →
    ∃ s, symbolNames compared calls = .ok s ∧ (∀ n, n ∈ s.funs ↔ ∃ c ∈ calls, IsFun c.name n) ∧
      (∀ n, n ∈ s.macros ↔ ∃ c ∈ calls, IsMacro c.name n) ∧ ∀ t p, (t, p) ∈ s.types ↔ TypeUsed compared calls t p

/-- It is violated: a type reached through a macro is attributed to the macro (including its tag), which is no function. -/
theorem C56_fails : ¬ C56_statement := by
  intro h
  obtain ⟨s, h1, _, _, h4⟩ := h (str! "f") [⟨str! "M (macro)", str! "a.h", 1⟩, ⟨str! "t (type)", str! "a.h", 2⟩] (by
    intro c hc
    simp only [List.mem_cons, List.not_mem_nil, or_false] at hc
    rcases hc with rfl | rfl
    · exact ⟨str! "M", Or.inr (Or.inl ⟨by decide, rfl⟩)⟩
    · exact ⟨str! "t", Or.inr (Or.inr ⟨by decide, rfl⟩)⟩)
  have : symbolNames (str! "f") [⟨str! "M (macro)", str! "a.h", 1⟩, ⟨str! "t (type)", str! "a.h", 2⟩] =
      .ok { funs := [], macros := [str! "M"], types := [(str! "t", str! "M (macro)")] } := by rfl
  rw [this] at h1; cases h1
  have := (h4 (str! "t") (str! "f")).2 ⟨[⟨str! "M (macro)", str! "a.h", 1⟩], ⟨str! "t (type)", str! "a.h", 2⟩, [], rfl,
    ⟨by decide, rfl⟩, Or.inr ⟨rfl, by
      intro e he n hn
      simp only [List.mem_cons, List.not_mem_nil, or_false] at he
      subst he
      exact isFun_space hn (by decide)⟩⟩
  revert this; decide

/-- **C56** (partial): it holds if types follow functions (or start the stack). Missing: types that follow macros or types. -/
theorem C56_symbols_partial {compared : Str} {calls : List Call} (hok : ∀ c ∈ calls, EntryOk c.name)
    (ht : TypesInFunctions calls) :
    ∃ s, symbolNames compared calls = .ok s ∧ (∀ n, n ∈ s.funs ↔ ∃ c ∈ calls, IsFun c.name n) ∧
      (∀ n, n ∈ s.macros ↔ ∃ c ∈ calls, IsMacro c.name n) ∧ ∀ t p, (t, p) ∈ s.types ↔ TypeUsed compared calls t p :=
  symbolNames_spec hok ht

/-- A call stack through a function, with a macro and a type. -/
def exStack : List Call :=
  [⟨str! "M (macro)", str! "a.h", 1⟩, ⟨str! "g", str! "a.c", 2⟩, ⟨str! "t (type)", str! "a.h", 3⟩]

theorem exStack_ok : ∀ c ∈ exStack, EntryOk c.name := by
  intro c hc
  simp only [exStack, List.mem_cons, List.not_mem_nil, or_false] at hc
  rcases hc with rfl | rfl | rfl
  · exact ⟨str! "M", Or.inr (Or.inl ⟨by decide, rfl⟩)⟩
  · exact ⟨str! "g", Or.inl ⟨by decide, rfl⟩⟩
  · exact ⟨str! "t", Or.inr (Or.inr ⟨by decide, rfl⟩)⟩

theorem exStack_types : TypesInFunctions exStack := by
  rintro before c d after t he ht
  match before, he with
  | [], he =>
    simp only [exStack, List.nil_append, List.cons.injEq] at he
    rw [← he.2.1] at ht
    exact absurd (isType_space ht) (by decide)
  | [x], he =>
    simp only [exStack, List.cons_append, List.nil_append, List.cons.injEq] at he
    exact ⟨str! "g", by decide, by rw [← he.2.1]⟩
  | x :: y :: b, he =>
    have := congrArg List.length he
    simp [exStack] at this
    omega

example : (∀ c ∈ exStack, EntryOk c.name) ∧ TypesInFunctions exStack ∧ TypeUsed (str! "f") exStack (str! "t") (str! "g") :=
  ⟨exStack_ok, exStack_types, [⟨str! "M (macro)", str! "a.h", 1⟩, ⟨str! "g", str! "a.c", 2⟩],
    ⟨str! "t (type)", str! "a.h", 3⟩, [], rfl, ⟨by decide, rfl⟩,
    Or.inl ⟨[⟨str! "M (macro)", str! "a.h", 1⟩], ⟨str! "g", str! "a.c", 2⟩, [], rfl, ⟨by decide, rfl⟩, by simp⟩⟩

/-! ### C75 -/

/-- **C75** (full statement): every function shown in the output (listed, or in an old or new call stack) that was compared
is defined with its places in both snapshots. -/
def C75_statement : Prop :=
  ∀ (env : YamlEnv) (r : Res) (g : Graph) st defs, YamlInput env r → r.graph = some g → yamlOutput env r = .ok (st, defs) →
    ∀ s n v, FunShown r s n → g.vertices.get? n = some v → ∃ d, Dict.get? defs n = some d ∧ DefinesFun env (env.heap v) d

/-- A vertex with a place. -/
def exYVertex (n : Str) : Vertex :=
  { names := fun _ => n, result := .notEqual, files := fun _ => some (str! "/s/a.c"), lines := fun _ => some 1 }

def exYEnv (heap : Heap) : YamlEnv :=
  { heap := heap, cwd := [], oldDir := str! "/s/", newDir := str! "/s/", endLine := fun _ _ _ => .ok none,
    enumF := id, enumT := id }

/-- `f` differs in `g`; the new version of `f` calls `g` through `h`. -/
def exYRes (old new : List Call) : Res :=
  .mk .notEqual { name := str! "old" } { name := str! "new" } none
    (some { vertices := [(str! "f", 0), (str! "g", 1), (str! "h", 2)] })
    [(str! "f", .mk .notEqual { name := str! "f" } { name := str! "f" } none none
      [(str! "g", .mk .notEqual { name := str! "g", callstack := some old } { name := str! "g", callstack := some new }
        (some (str! "d")) none [])])]

theorem exYRes_shown {old new : List Call} {s : Side} {f : Str} {calls : List Call}
    (h : ShownStack (exYRes old new) s f calls) : calls = (match s with | .left => old | .right => new) := by
  obtain ⟨x, hx, d, hd, _, hc⟩ := h
  have hx1 := hx.1
  simp only [exYRes, Res.inner, Dict.get?] at hx1
  split at hx1
  · cases hx1
    simp only [Res.inner, Dict.values, List.map_cons, List.map_nil, List.mem_singleton] at hd
    subst hd
    cases s <;> (simp only [Res.first, Res.second] at hc; cases hc; rfl)
  · cases hx1

theorem exYRes_stack (old new : List Call) (s : Side) :
    ShownStack (exYRes old new) s (str! "f") (match s with | .left => old | .right => new) := by
  refine ⟨_, ⟨rfl, rfl⟩, .mk .notEqual { name := str! "g", callstack := some old }
    { name := str! "g", callstack := some new } (some (str! "d")) none [], by simp [Res.inner, Dict.values], ?_, ?_⟩
  · simp [Shown, Res.diff]
  · cases s <;> rfl

theorem exYRes_input {old new : List Call} (hold : (∀ c ∈ old, EntryOk c.name) ∧ TypesInFunctions old)
    (hnew : (∀ c ∈ new, EntryOk c.name) ∧ TypesInFunctions new) (heap : Heap) : YamlInput (exYEnv heap) (exYRes old new) := by
  refine ⟨by simp [exYRes, Res.inner, Dict.keys], ?_, fun l => List.Perm.refl l, fun l => List.Perm.refl l⟩
  intro s f calls h
  have := exYRes_shown h
  cases s <;> (simp only at this; subst this; assumption)

theorem funStack_ok {calls : List Call} (h : ∀ c ∈ calls, ' ' ∉ c.name) :
    (∀ c ∈ calls, EntryOk c.name) ∧ TypesInFunctions calls := by
  refine ⟨fun c hc => ⟨c.name, Or.inl ⟨h c hc, rfl⟩⟩, ?_⟩
  intro b c d a t he ht
  exact ⟨c.name, h c (by simp [he]), rfl⟩

/-- It is violated: functions that occur in the new call stack only are not defined. -/
theorem C75_fails : ¬ C75_statement := by
  intro h
  have hin : YamlInput (exYEnv (fun _ => exYVertex (str! "x"))) (exYRes [⟨str! "g", str! "/s/a.c", 2⟩]
      [⟨str! "h", str! "/s/a.c", 2⟩, ⟨str! "g", str! "/s/a.c", 5⟩]) :=
    exYRes_input (funStack_ok (by simp)) (funStack_ok (by simp)) _
  have hout : ∃ st, yamlOutput (exYEnv (fun _ => exYVertex (str! "x"))) (exYRes [⟨str! "g", str! "/s/a.c", 2⟩]
      [⟨str! "h", str! "/s/a.c", 2⟩, ⟨str! "g", str! "/s/a.c", 5⟩]) = .ok (st,
        [(str! "f", ⟨.function, ⟨some 1, str! "a.c", none, none⟩, ⟨some 1, str! "a.c", none, none⟩⟩),
         (str! "g", ⟨.function, ⟨some 1, str! "a.c", none, none⟩, ⟨some 1, str! "a.c", none, none⟩⟩)]) := ⟨_, rfl⟩
  obtain ⟨st, hout⟩ := hout
  obtain ⟨d, hd, _⟩ := h _ _ _ _ _ hin rfl hout .right (str! "h") 2
    (Or.inr ⟨_, _, exYRes_stack _ _ .right, ⟨str! "h", str! "/s/a.c", 2⟩, by simp, by decide, rfl⟩) rfl
  revert hd
  simp [Dict.get?]

/-- **C75** (partial): every function that is listed or occurs in an old call stack, is known in the graph and has not the
name of a type shown is defined with its places; so is every type shown whose difference is known; and nothing else is.
Missing: functions that occur in new call stacks only, and functions with the name of a type. -/
theorem C75_definitions_partial {env : YamlEnv} {r : Res} {g : Graph} {st : List (Str × List YamlDiff)}
    {defs : Dict Str Defn} (hin : YamlInput env r) (hg : r.graph = some g) (h : yamlOutput env r = .ok (st, defs)) :
    (∀ n v, FunShown r .left n → g.vertices.get? n = some v → (∀ p, ¬ TypeShown r n p) →
      ∃ d, Dict.get? defs n = some d ∧ DefinesFun env (env.heap v) d) ∧
    (∀ t p v, TypeShown r t p → g.vertices.get? p = some v →
      (∃ q cs f l, NonFunDiff.type t q cs f l ∈ (env.heap v).nonfunDiffs) →
      ∃ d p' v', Dict.get? defs t = some d ∧ TypeShown r t p' ∧ g.vertices.get? p' = some v' ∧
        DefinesType env (env.heap v') t d) ∧
    ∀ n d, Dict.get? defs n = some d →
      (FunShown r .left n ∧ ∃ v, g.vertices.get? n = some v ∧ DefinesFun env (env.heap v) d) ∨
      ∃ p, TypeShown r n p ∧ ∃ v, g.vertices.get? p = some v ∧ DefinesType env (env.heap v) n d := by
  have hmem : ∀ f x, (f, x) ∈ r.inner ↔ Dict.get? r.inner f = some x := fun f x => Dict.mem_iff_get? hin.keyed
  obtain ⟨s, h1, h2, h3⟩ := yamlSymbols_spec r.inner {} (fun f x hx hk d hd hs calls hc =>
    hin.wf .left f calls ⟨x, ⟨(hmem f x).1 hx, hk⟩, d, hd, hs, hc⟩)
  have hfun : ∀ n, n ∈ s.funs ↔ FunShown r .left n := by
    intro n; rw [h2]
    simp only [List.not_mem_nil, false_or]
    constructor
    · rintro ⟨f, x, hx, hk, rfl | ⟨d, hd, hs, calls, hc, e⟩⟩
      · exact Or.inl ⟨x, (hmem _ x).1 hx, hk⟩
      · exact Or.inr ⟨f, calls, ⟨x, ⟨(hmem f x).1 hx, hk⟩, d, hd, hs, hc⟩, e⟩
    · rintro (⟨x, hx, hk⟩ | ⟨f, calls, ⟨x, ⟨hx, hk⟩, d, hd, hs, hc⟩, e⟩)
      · exact ⟨n, x, (hmem n x).2 hx, hk, Or.inl rfl⟩
      · exact ⟨f, x, (hmem f x).2 hx, hk, Or.inr ⟨d, hd, hs, calls, hc, e⟩⟩
  have htype : ∀ t p, (t, p) ∈ s.types ↔ TypeShown r t p := by
    intro t p; rw [h3]
    simp only [List.not_mem_nil, false_or]
    constructor
    · rintro ⟨f, x, hx, hk, d, hd, hs, calls, hc, e⟩
      exact ⟨f, calls, ⟨x, ⟨(hmem f x).1 hx, hk⟩, d, hd, hs, hc⟩, e⟩
    · rintro ⟨f, calls, ⟨x, ⟨hx, hk⟩, d, hd, hs, hc⟩, e⟩
      exact ⟨f, x, (hmem f x).2 hx, hk, d, hd, hs, calls, hc, e⟩
  unfold yamlOutput at h
  rw [h1] at h; simp only at h
  unfold yamlDefinitions at h
  rw [hg] at h; simp only at h
  cases hfs : funDefs env g (env.enumF s.funs.dedup) [] with
  | error e => rw [hfs] at h; cases h
  | ok fs =>
    rw [hfs] at h; simp only at h
    cases hts : typeDefs env g (env.enumT s.types.dedup) [] with
    | error e => rw [hts] at h; cases h
    | ok ts =>
      rw [hts] at h; cases h
      obtain ⟨f1, f2, _, _, f5⟩ := funDefs_spec env g _ _ _ hfs
      obtain ⟨t1, t2, _, t4⟩ := typeDefs_spec env g _ _ _ hts
      have hfmem : ∀ n, n ∈ env.enumF s.funs.dedup ↔ FunShown r .left n := fun n => by
        rw [(hin.enumF _).mem_iff, List.mem_dedup, hfun]
      have htmem : ∀ t p, (t, p) ∈ env.enumT s.types.dedup ↔ TypeShown r t p := fun t p => by
        rw [(hin.enumT _).mem_iff, List.mem_dedup, htype]
      have hget : ∀ n, Dict.get? (dictUpdate (dictUpdate [] fs) ts) n =
          match Dict.get? ts n with | some x => some x | none => Dict.get? fs n := by
        intro n
        rw [get?_dictUpdate ts (t4 (by simp [Dict.keys])), get?_dictUpdate fs (f5 (by simp [Dict.keys]))]
        cases Dict.get? ts n with
        | some x => rfl
        | none => cases Dict.get? fs n <;> rfl
      have tdef : ∀ n d, Dict.get? ts n = some d → ∃ p, TypeShown r n p ∧ ∃ v, g.vertices.get? p = some v ∧
          DefinesType env (env.heap v) n d := by
        intro n d hd
        rcases t2 n d hd with hd | ⟨p, hp, e⟩
        · cases hd
        · exact ⟨p, (htmem n p).1 hp, e⟩
      refine ⟨?_, ?_, ?_⟩
      · intro n v hn hv hno
        obtain ⟨d, hd, hdef⟩ := f1 n ((hfmem n).2 hn) v hv
        refine ⟨d, ?_, hdef⟩
        rw [hget]
        cases htn : Dict.get? ts n with
        | none => exact hd
        | some x =>
          obtain ⟨p, hp, _⟩ := tdef n x htn
          exact absurd hp (hno p)
      · intro t p v ht hv hex
        obtain ⟨d, hd⟩ := t1 t p ((htmem t p).2 ht) v hv hex
        obtain ⟨p', hp', v', hv', hdef⟩ := tdef t d hd
        exact ⟨d, p', v', by rw [hget, hd], hp', hv', hdef⟩
      · intro n d hd
        rw [hget] at hd
        cases htn : Dict.get? ts n with
        | some x => rw [htn] at hd; cases hd; exact Or.inr (tdef n d htn)
        | none =>
          rw [htn] at hd; simp only at hd
          rcases f2 n d hd with hd | ⟨hn, e⟩
          · cases hd
          · exact Or.inl ⟨(hfmem n).1 hn, e⟩

example : YamlInput (exYEnv (fun _ => exYVertex (str! "x"))) (exYRes exStack exStack) ∧
    (∃ st defs, yamlOutput (exYEnv (fun _ => exYVertex (str! "x"))) (exYRes exStack exStack) = .ok (st, defs)) ∧
    FunShown (exYRes exStack exStack) .left (str! "g") :=
  ⟨exYRes_input ⟨exStack_ok, exStack_types⟩ ⟨exStack_ok, exStack_types⟩ _, ⟨_, _, rfl⟩,
    Or.inr ⟨_, _, exYRes_stack _ _ .left, ⟨str! "g", str! "a.c", 2⟩, by simp [exStack], by decide, rfl⟩⟩

/-! ### C76 -/

/-- **C76** (full statement): a file of a snapshot is shown in call stacks by its path in the snapshot. -/
def C76_statement : Prop :=
  ∀ (dir : Str) (calls : List (Str × Str × Nat)),
    yamlStack dir (some (calls.map (fun c => ⟨c.1, dir ++ c.2.1, c.2.2⟩))) = calls.map (fun c => ⟨c.1, c.2.1, c.2.2⟩)

/-- It is violated if the path of the snapshot occurs again in the path of the file: snapshot `/s/`, file `a/s/b.c`. -/
theorem C76_fails : ¬ C76_statement := by
  intro h
  have := h (str! "/s/") [(str! "f", str! "a/s/b.c", 1)]
  revert this; decide

theorem removeFuel_id (p : Str) : ∀ (n : Nat) (s : Str), ¬ Occurs p s → removeFuel p n s = s := by
  intro n
  induction n with
  | zero => intro s _; rfl
  | succ n ih =>
    intro s h
    cases s with
    | nil => rfl
    | cons c cs =>
      rw [removeFuel, if_neg, ih]
      · rintro ⟨a, b, rfl⟩; exact h ⟨c :: a, b, rfl⟩
      · rintro ⟨hs, _⟩
        obtain ⟨b, hb⟩ := List.isPrefixOf_iff_prefix.1 hs
        exact h ⟨[], b, by rw [← hb]; rfl⟩

/-- A file outside the directory is shown as it is. -/
theorem removeAll_id {p s : Str} (h : ¬ Occurs p s) : removeAll p s = s := removeFuel_id p _ s h

theorem removeAll_prefix {dir rel : Str} (h : ¬ Occurs dir rel) : removeAll dir (dir ++ rel) = rel := by
  unfold removeAll
  cases dir with
  | nil => exact absurd ⟨[], rel, rfl⟩ h
  | cons c cs =>
    rw [List.length_append, List.length_cons, Nat.add_right_comm, List.cons_append, removeFuel, if_pos]
    · rw [show (c :: (cs ++ rel)).drop (c :: cs).length = rel from by
        rw [← List.cons_append, List.drop_left]]
      exact removeFuel_id _ _ _ h
    · refine ⟨?_, by simp⟩
      exact List.isPrefixOf_iff_prefix.2 ⟨rel, rfl⟩

/-- **C76** (partial): it holds if the path of the snapshot does not occur in the relative path; and other files, in which
it does not occur, are shown as they are. Missing: files in whose relative path it occurs. -/
theorem C76_paths_partial (dir : Str) (calls : List (Str × Str × Nat)) (h : ∀ c ∈ calls, ¬ Occurs dir c.2.1) :
    yamlStack dir (some (calls.map (fun c => ⟨c.1, dir ++ c.2.1, c.2.2⟩))) = calls.map (fun c => ⟨c.1, c.2.1, c.2.2⟩) ∧
    yamlStack dir (some (calls.map (fun c => ⟨c.1, c.2.1, c.2.2⟩))) = calls.map (fun c => ⟨c.1, c.2.1, c.2.2⟩) := by
  unfold yamlStack
  simp only [List.map_map]
  constructor
  · apply List.map_congr_left
    intro c hc
    simp only [Function.comp, removeAll_prefix (h c hc)]
  · apply List.map_congr_left
    intro c hc
    simp only [Function.comp, removeAll_id (h c hc)]

example : ¬ Occurs (str! "/s/") (str! "lib/a.c") := by
  rintro ⟨a, b, h⟩
  have : '/' :: 's' :: ['/'] <:+: str! "lib/a.c" := ⟨a, b, h.symm⟩
  revert this; decide

theorem yamlStack_shows (dir : Str) (cs : Option (List Call)) :
    List.Forall₂ (ShowsCall dir) (cs.getD []) (yamlStack dir cs) := by
  cases cs with
  | none => exact .nil
  | some cs =>
    simp only [Option.getD_some, yamlStack]
    induction cs with
    | nil => exact .nil
    | cons c cs ih =>
      refine .cons ⟨rfl, rfl, fun rel h1 h2 => ?_, fun h => removeAll_id h⟩ ih
      simp only [h1]
      exact removeAll_prefix h2

/-- **C76** (partial, whole output): the output lists exactly the functions that are not equal, each with its shown
differences in the order of their names, and each difference with both of its call stacks. -/
theorem C76_output_partial (env : YamlEnv) (r : Res) (out : List (Str × List YamlDiff)) (defs : Dict Str Defn)
    (hi : ∀ a ∈ r.inner, Keyed a.2) (h : yamlOutput env r = .ok (out, defs)) :
    (∀ f ds, (f, ds) ∈ out → ∃ x, (f, x) ∈ r.inner ∧ x.kind = .notEqual ∧ (ds.map YamlDiff.function).Pairwise StrLt ∧
      (∀ d ∈ ds, ∃ y ∈ x.inner.values, Shown y ∧ ShowsDiff env.oldDir env.newDir y d) ∧
      ∀ y ∈ x.inner.values, Shown y → ∃ d ∈ ds, ShowsDiff env.oldDir env.newDir y d) ∧
    ∀ f x, (f, x) ∈ r.inner → x.kind = .notEqual → ∃ ds, (f, ds) ∈ out := by
  have hout : out = yamlStacks env.oldDir env.newDir r := by
    unfold yamlOutput at h
    cases h1 : yamlSymbols r.inner {} with
    | error e => rw [h1] at h; cases h
    | ok s =>
      rw [h1] at h; simp only at h
      cases h2 : yamlDefinitions env r s with
      | error e => rw [h2] at h; cases h
      | ok d => rw [h2] at h; cases h; rfl
  subst hout
  unfold yamlStacks
  constructor
  · intro f ds hm
    obtain ⟨a, ha, he⟩ := List.mem_filterMap.1 hm
    by_cases hk : a.2.kind = .notEqual
    · rw [if_neg (by simp [hk])] at he
      simp only [Option.some.injEq, Prod.mk.injEq] at he
      obtain ⟨rfl, rfl⟩ := he
      have hka := hi a ha
      refine ⟨a.2, ha, hk, ?_, ?_, ?_⟩
      · have hs := (sortItems_sorted a.2.inner hka.1).filter
          (fun x => decide (¬ (x.2.diff = some [] ∧ x.2.first.covered = true)))
        rw [List.map_map, shownDiffs, List.map_map, List.pairwise_map]
        refine hs.imp_of_mem ?_
        intro x z hx hz hlt
        simp only [Function.comp]
        rw [hka.2 x ((mem_sortItems _ _).1 (List.mem_filter.1 hx).1), hka.2 z ((mem_sortItems _ _).1 (List.mem_filter.1 hz).1)]
        exact hlt
      · intro d hd
        obtain ⟨y, hy, rfl⟩ := List.mem_map.1 hd
        simp only [shownDiffs, List.mem_map, List.mem_filter, mem_sortItems, decide_eq_true_eq] at hy
        obtain ⟨b, ⟨hb, hs⟩, rfl⟩ := hy
        exact ⟨b.2, List.mem_map.2 ⟨b, hb, rfl⟩, hs, rfl, yamlStack_shows _ _, yamlStack_shows _ _⟩
      · intro y hy hs
        obtain ⟨b, hb, rfl⟩ := List.mem_map.1 hy
        refine ⟨_, List.mem_map.2 ⟨b.2, ?_, rfl⟩, rfl, yamlStack_shows _ _, yamlStack_shows _ _⟩
        simp only [shownDiffs, List.mem_map, List.mem_filter, mem_sortItems, decide_eq_true_eq]
        exact ⟨b, ⟨hb, hs⟩, rfl⟩
    · rw [if_pos hk] at he; cases he
  · intro f x hx hk
    refine ⟨(shownDiffs x).map (fun x =>
      ⟨x.first.name, yamlStack env.oldDir x.first.callstack, yamlStack env.newDir x.second.callstack⟩),
      List.mem_filterMap.2 ⟨(f, x), hx, ?_⟩⟩
    rw [if_neg (by simp [hk])]

example : (∀ a ∈ (exYRes exStack exStack).inner, Keyed a.2) ∧
    ∃ st defs, yamlOutput (exYEnv (fun _ => exYVertex (str! "x"))) (exYRes exStack exStack) = .ok (st, defs) ∧ st ≠ [] := by
  refine ⟨?_, _, _, rfl, by decide⟩
  intro a ha
  simp only [exYRes, Res.inner, List.mem_singleton] at ha
  subst ha
  refine ⟨by simp [Res.inner, Dict.keys], ?_⟩
  intro b hb
  simp only [Res.inner, List.mem_singleton] at hb
  subst hb; rfl

/-! ### C77 -/

/-- **C77** (full statement): the last line of a definition is the first line from its start that consists of the
terminator; none is given if there is no such line. -/
def C77_statement : Prop :=
  ∀ (kind : DefKind) (lines : List Str) (start : Nat),
    ∃ res, getEndLine kind lines start = .ok res ∧ FirstEnd kind lines start res

/-- It is violated: a start after the end of the file raises an exception that is not handled. -/
theorem C77_fails : ¬ C77_statement := by
  intro h
  obtain ⟨res, h1, _⟩ := h .function [str! "}"] 2
  cases h1

/-- It is also violated for line 0, for which the last line of the file is taken. -/
theorem C77_fails_zero : ∃ res, getEndLine .function [str! "int f()", str! "{", str! "}"] 0 = .ok res ∧
    ¬ FirstEnd .function [str! "int f()", str! "{", str! "}"] 0 res := by
  refine ⟨some 0, rfl, fun h => ?_⟩
  obtain ⟨_, ⟨i, _, hi, _⟩, _⟩ := (h 0).1 rfl
  cases hi

theorem pySpace_iff (c : Char) :
    pySpace c = true ↔ c ∈ [' ', '\t', '\n', '\x0b', '\x0c', '\r', '\x1c', '\x1d', '\x1e', '\x1f'] := by
  have key : ∀ d : Char, c = d ↔ c.toNat = d.toNat := fun d => ⟨fun h => h ▸ rfl, fun h => Char.toNat_inj.1 h⟩
  simp only [pySpace, List.mem_cons, List.not_mem_nil, or_false, decide_eq_true_eq, key]
  change c.toNat = 32 ∨ _ ↔ c.toNat = 32 ∨ c.toNat = 9 ∨ c.toNat = 10 ∨ c.toNat = 11 ∨ c.toNat = 12 ∨ c.toNat = 13 ∨
    c.toNat = 28 ∨ c.toNat = 29 ∨ c.toNat = 30 ∨ c.toNat = 31
  omega

theorem rstrip_eq {l t : Str} (ht : ∃ t' c, t = t' ++ [c] ∧ pySpace c = false) :
    rstrip l = t ↔ ∃ w, l = t ++ w ∧ ∀ c ∈ w, pySpace c = true := by
  obtain ⟨t', c, rfl, hc⟩ := ht
  unfold rstrip
  constructor
  · intro h
    refine ⟨(l.reverse.takeWhile pySpace).reverse, ?_, ?_⟩
    · rw [← h, ← List.reverse_append, List.takeWhile_append_dropWhile, List.reverse_reverse]
    · intro d hd
      exact (List.all_eq_true.1 List.all_takeWhile) d (List.mem_reverse.1 hd)
  · rintro ⟨w, rfl, hw⟩
    have h1 : ((t' ++ [c]) ++ w).reverse.dropWhile pySpace = (t' ++ [c]).reverse := by
      rw [List.reverse_append, List.dropWhile_append_of_pos]
      · rw [List.reverse_append]; simp [hc]
      · intro a ha; exact hw a (List.mem_reverse.1 ha)
    rw [h1, List.reverse_reverse]

theorem ends_iff (kind : DefKind) (l : Str) : rstrip l ∈ terminators kind ↔ Ends kind l := by
  unfold Ends
  rw [show enders kind = terminators kind from by cases kind <;> rfl]
  have hne : ∀ t ∈ terminators kind, ∃ t' c, t = t' ++ [c] ∧ pySpace c = false := by
    intro t ht
    cases kind
    · simp only [terminators, List.mem_cons, List.not_mem_nil, or_false] at ht
      rcases ht with rfl | rfl
      · exact ⟨[], '}', rfl, by decide⟩
      · exact ⟨[')'], ';', rfl, by decide⟩
    · simp only [terminators, List.mem_cons, List.not_mem_nil, or_false] at ht
      subst ht; exact ⟨['}'], ';', rfl, by decide⟩
  constructor
  · intro h
    obtain ⟨w, h1, h2⟩ := (rstrip_eq (hne _ h)).1 (rfl : rstrip l = rstrip l)
    exact ⟨_, h, w, h1, fun c hc => (pySpace_iff c).1 (h2 c hc)⟩
  · rintro ⟨t, ht, w, h1, h2⟩
    rw [(rstrip_eq (hne t ht)).2 ⟨w, h1, fun c hc => (pySpace_iff c).2 (h2 c hc)⟩]
    exact ht

theorem endLoop_spec (kind : DefKind) (lines : List Str) : ∀ (k i : Nat), lines.length - i = k →
    FirstEnd kind lines (i + 1) (endLoop kind (lines.drop i) (i + 1)) := by
  intro k
  induction k with
  | zero =>
    intro i hk n
    rw [List.drop_eq_nil_of_le (by omega)]
    simp only [endLoop]
    constructor
    · intro h; cases h
    · rintro ⟨h1, ⟨j, l, rfl, hl, _⟩, _⟩
      have := (List.getElem?_eq_some_iff.1 hl).1
      omega
  | succ k ih =>
    intro i hk n
    have hi : i < lines.length := by omega
    rw [List.drop_eq_getElem_cons hi, endLoop]
    by_cases he : rstrip lines[i] ∈ terminators kind
    · rw [if_pos he]
      have hE : LineEnds kind lines (i + 1) := ⟨i, lines[i], rfl, List.getElem?_eq_getElem hi, (ends_iff _ _).1 he⟩
      constructor
      · intro h; cases h
        exact ⟨le_refl _, hE, fun m h1 h2 => absurd h1 (by omega)⟩
      · rintro ⟨h1, _, h3⟩
        by_contra hn
        exact h3 (i + 1) (le_refl _) (by
          have : n ≠ i + 1 := fun h => hn (h ▸ rfl)
          omega) hE
    · rw [if_neg he, ih (i + 1) (by omega) n]
      have hE : ¬ LineEnds kind lines (i + 1) := by
        rintro ⟨j, l, hj, hl, hends⟩
        have : j = i := by omega
        subst this
        rw [List.getElem?_eq_getElem hi] at hl; cases hl
        exact he ((ends_iff _ _).2 hends)
      constructor
      · rintro ⟨h1, h2, h3⟩
        refine ⟨by omega, h2, fun m hm1 hm2 => ?_⟩
        by_cases hm : m = i + 1
        · subst hm; exact hE
        · exact h3 m (by omega) hm2
      · rintro ⟨h1, h2, h3⟩
        refine ⟨?_, h2, fun m hm1 hm2 => h3 m (by omega) hm2⟩
        by_contra hn
        have : n = i + 1 := by omega
        subst this; exact hE h2

/-- **C77** (partial): it holds for lines of the file. Missing: line 0 and lines after the end. -/
theorem C77_endLine_partial (kind : DefKind) (lines : List Str) (start : Nat) (h1 : 1 ≤ start) (h2 : start ≤ lines.length) :
    ∃ res, getEndLine kind lines start = .ok res ∧ FirstEnd kind lines start res := by
  obtain ⟨i, rfl⟩ : ∃ i, start = i + 1 := ⟨start - 1, by omega⟩
  refine ⟨endLoop kind (lines.drop i) (i + 1), ?_, endLoop_spec kind lines _ i rfl⟩
  unfold getEndLine
  simp only
  rw [if_neg (by omega)]

example : getEndLine .function [str! "int f()", str! "{", str! "}  ", str! "}"] 1 = .ok (some 3) := by rfl

end DK
