import Verif.Spec.YamlOut
import Verif.Lemmas.Paths
import Verif.Lemmas.Compare
import Verif.Lemmas.Dict

set_option autoImplicit false

namespace DK
open Spec

theorem isType_space {e n : Str} (h : IsType e n) : ' ' ∈ e := by rw [h.2]; simp
theorem isMacro_space {e n : Str} (h : IsMacro e n) : ' ' ∈ e := by rw [h.2]; simp
theorem isFun_space {e n : Str} (h : IsFun e n) : ' ' ∉ e := by rw [h.2]; exact h.1

theorem split_macro {e n : Str} (h : IsMacro e n) : splitChar ' ' e = [n, str! "(macro)"] := by
  rw [h.2]; exact splitChar_append ' ' n (str! "(macro)") h.1
theorem split_type {e n : Str} (h : IsType e n) : splitChar ' ' e = [n, str! "(type)"] := by
  rw [h.2]; exact splitChar_append ' ' n (str! "(type)") h.1

theorem symbolOf_fun {p e n : Str} (h : IsFun e n) (s : SymNames) :
    symbolOf p e s = .ok { s with funs := s.funs ++ [n] } := by
  unfold symbolOf; rw [if_neg (isFun_space h), h.2]
theorem symbolOf_macro {p e n : Str} (h : IsMacro e n) (s : SymNames) :
    symbolOf p e s = .ok { s with macros := s.macros ++ [n] } := by
  unfold symbolOf; rw [if_pos (isMacro_space h), split_macro h]
  simp
theorem symbolOf_type {p e n : Str} (h : IsType e n) (s : SymNames) :
    symbolOf p e s = .ok { s with types := s.types ++ [(n, p)] } := by
  unfold symbolOf; rw [if_pos (isType_space h), split_type h]
  simp

theorem isFun_iff_of_fun {e n : Str} (h : IsFun e n) (m : Str) : IsFun e m ↔ m = n :=
  ⟨fun h' => h'.2.symm.trans h.2, fun h' => h' ▸ h⟩
theorem isMacro_of_macro {e n : Str} (h : IsMacro e n) (m : Str) : IsMacro e m ↔ m = n :=
  ⟨fun h' => by have := (split_macro h').symm.trans (split_macro h); simpa using this, fun h' => h' ▸ h⟩
theorem isType_of_type {e n : Str} (h : IsType e n) (m : Str) : IsType e m ↔ m = n :=
  ⟨fun h' => by have := (split_type h').symm.trans (split_type h); simpa using this, fun h' => h' ▸ h⟩
theorem not_macro_of_fun {e n m : Str} (h : IsFun e n) : ¬ IsMacro e m := fun h' => isFun_space h (isMacro_space h')
theorem not_type_of_fun {e n m : Str} (h : IsFun e n) : ¬ IsType e m := fun h' => isFun_space h (isType_space h')
theorem not_type_of_macro {e n m : Str} (h : IsMacro e n) : ¬ IsType e m := fun h' => by
  have := (split_macro h).symm.trans (split_type h'); simp at this

/-- Name in the entry before. -/
def prevName (compared : Str) (before : List Call) : Str := ((before.getLast?).map Call.name).getD compared

theorem prevName_cons (p : Str) (c : Call) (b : List Call) : prevName p (c :: b) = prevName c.name b := by
  cases b with
  | nil => rfl
  | cons d b => unfold prevName; rw [List.getLast?_cons_cons]; simp [List.getLast?_cons]

theorem typePos_cons (p0 : Str) (c : Call) (cs : List Call) (t p : Str) :
    (∃ before d after, c :: cs = before ++ d :: after ∧ IsType d.name t ∧ p = prevName p0 before) ↔
      (IsType c.name t ∧ p = p0) ∨
        ∃ before d after, cs = before ++ d :: after ∧ IsType d.name t ∧ p = prevName c.name before := by
  constructor
  · rintro ⟨before, d, after, he, ht, hp⟩
    cases before with
    | nil => simp only [List.nil_append, List.cons.injEq] at he; left; rw [he.1]; exact ⟨ht, hp⟩
    | cons x xs =>
      simp only [List.cons_append, List.cons.injEq] at he
      refine Or.inr ⟨xs, d, after, he.2, ht, ?_⟩
      rw [hp, prevName_cons, he.1]
  · rintro (⟨ht, hp⟩ | ⟨before, d, after, he, ht, hp⟩)
    · exact ⟨[], c, cs, rfl, ht, hp⟩
    · exact ⟨c :: before, d, after, by rw [he]; rfl, ht, by rw [hp, prevName_cons]⟩

theorem symbolLoop_spec : ∀ (cs : List Call) (p0 : Str) (s : SymNames), (∀ c ∈ cs, EntryOk c.name) →
    ∃ s', symbolLoop p0 cs s = .ok s' ∧ (∀ n, n ∈ s'.funs ↔ n ∈ s.funs ∨ ∃ c ∈ cs, IsFun c.name n) ∧
      (∀ n, n ∈ s'.macros ↔ n ∈ s.macros ∨ ∃ c ∈ cs, IsMacro c.name n) ∧
      ∀ t p, (t, p) ∈ s'.types ↔ (t, p) ∈ s.types ∨
        ∃ before c after, cs = before ++ c :: after ∧ IsType c.name t ∧ p = prevName p0 before := by
  intro cs
  induction cs with
  | nil => intro p0 s _; exact ⟨s, rfl, by simp, by simp, by simp⟩
  | cons c cs ih =>
    intro p0 s hok
    obtain ⟨n0, h0⟩ := hok c (by simp)
    have hcs : ∀ d ∈ cs, EntryOk d.name := fun d hd => hok d (by simp [hd])
    simp only [typePos_cons]
    rcases h0 with h0 | h0 | h0
    · obtain ⟨s', h1, h2, h3, h4⟩ := ih c.name { s with funs := s.funs ++ [n0] } hcs
      refine ⟨s', by rw [symbolLoop, symbolOf_fun h0]; exact h1, ?_, ?_, ?_⟩
      · intro n; rw [h2]; simp [isFun_iff_of_fun h0, or_assoc]
      · intro n; rw [h3]; simp [not_macro_of_fun h0]
      · intro t p; rw [h4]; simp [not_type_of_fun h0]
    · obtain ⟨s', h1, h2, h3, h4⟩ := ih c.name { s with macros := s.macros ++ [n0] } hcs
      have hf : ∀ n, ¬ IsFun c.name n := fun n h => not_macro_of_fun h h0
      refine ⟨s', by rw [symbolLoop, symbolOf_macro h0]; exact h1, ?_, ?_, ?_⟩
      · intro n; rw [h2]; simp [hf]
      · intro n; rw [h3]; simp [isMacro_of_macro h0, or_assoc]
      · intro t p; rw [h4]; simp [not_type_of_macro h0]
    · obtain ⟨s', h1, h2, h3, h4⟩ := ih c.name { s with types := s.types ++ [(n0, p0)] } hcs
      have hf : ∀ n, ¬ IsFun c.name n := fun n h => not_type_of_fun h h0
      have hm : ∀ n, ¬ IsMacro c.name n := fun n h => not_type_of_macro h h0
      refine ⟨s', by rw [symbolLoop, symbolOf_type h0]; exact h1, ?_, ?_, ?_⟩
      · intro n; rw [h2]; simp [hf]
      · intro n; rw [h3]; simp [hm]
      · intro t p; rw [h4]; simp [isType_of_type h0, or_assoc]

/-- After a function the entry before is the function we are in. -/
theorem inFunction_prev {compared : Str} {before : List Call} {c : Call} {after : List Call} {t : Str}
    {calls : List Call} (ht : TypesInFunctions calls) (he : calls = before ++ c :: after) (hc : IsType c.name t) (p : Str) :
    InFunction compared before p ↔ p = prevName compared before := by
  rcases List.eq_nil_or_concat before with rfl | ⟨b, d, rfl⟩
  · unfold InFunction prevName; simp
  · rw [List.concat_eq_append] at *
    obtain ⟨n, hn⟩ := ht b d c after t (by rw [he]; simp) hc
    have hp : prevName compared (b ++ [d]) = n := by unfold prevName; simp [hn.2]
    rw [hp]
    constructor
    · rintro (⟨l, e, r, h1, h2, h3⟩ | ⟨_, h⟩)
      · rcases List.eq_nil_or_concat r with rfl | ⟨r', x, rfl⟩
        · have := List.append_inj_right' h1 rfl
          simp only [List.cons.injEq, and_true] at this
          subst this
          exact (isFun_iff_of_fun hn p).1 h2
        · rw [List.concat_eq_append] at *
          have : b ++ [d] = (l ++ e :: r') ++ [x] := by rw [h1]; simp
          have := List.append_inj_right' this rfl
          simp only [List.cons.injEq, and_true] at this
          subst this
          exact absurd hn (h3 d (by simp) n)
      · exact absurd hn (h d (by simp) n)
    · intro h; subst h
      exact Or.inl ⟨b, d, [], rfl, hn, by simp⟩

theorem symbolNames_spec {compared : Str} {calls : List Call} (hok : ∀ c ∈ calls, EntryOk c.name)
    (ht : TypesInFunctions calls) :
    ∃ s, symbolNames compared calls = .ok s ∧ (∀ n, n ∈ s.funs ↔ ∃ c ∈ calls, IsFun c.name n) ∧
      (∀ n, n ∈ s.macros ↔ ∃ c ∈ calls, IsMacro c.name n) ∧ ∀ t p, (t, p) ∈ s.types ↔ TypeUsed compared calls t p := by
  obtain ⟨s, h1, h2, h3, h4⟩ := symbolLoop_spec calls compared {} hok
  refine ⟨s, h1, by simpa using h2, by simpa using h3, fun t p => ?_⟩
  rw [h4]
  simp only [List.not_mem_nil, false_or]
  constructor
  · rintro ⟨b, c, a, he, hc, hp⟩; exact ⟨b, c, a, he, hc, (inFunction_prev ht he hc p).2 hp⟩
  · rintro ⟨b, c, a, he, hc, hp⟩; exact ⟨b, c, a, he, hc, (inFunction_prev ht he hc p).1 hp⟩

/-! ### Symbols of a result -/

theorem mem_shownDiffs {r d : Res} : d ∈ shownDiffs r ↔ d ∈ r.inner.values ∧ Shown d := by
  unfold shownDiffs Shown
  simp only [List.mem_map, List.mem_filter, mem_sortItems, decide_eq_true_eq, Dict.values]
  constructor
  · rintro ⟨x, ⟨hx, h⟩, rfl⟩; exact ⟨⟨x, hx, rfl⟩, h⟩
  · rintro ⟨⟨x, hx, rfl⟩, h⟩; exact ⟨x, ⟨hx, h⟩, rfl⟩

/-- All call stacks (old side) of the differences. -/
def StacksOk (r : Res) : Prop :=
  ∀ f calls, ShownStack r .left f calls → (∀ c ∈ calls, EntryOk c.name) ∧ TypesInFunctions calls

theorem symbolsOfDiffs_spec (compared : Str) : ∀ (xs : List Res) (s : SymNames),
    (∀ x ∈ xs, ∀ calls, x.first.callstack = some calls → (∀ c ∈ calls, EntryOk c.name) ∧ TypesInFunctions calls) →
    ∃ s', symbolsOfDiffs compared xs s = .ok s' ∧
      (∀ n, n ∈ s'.funs ↔ n ∈ s.funs ∨ ∃ x ∈ xs, ∃ calls, x.first.callstack = some calls ∧ ∃ c ∈ calls, IsFun c.name n) ∧
      ∀ t p, (t, p) ∈ s'.types ↔ (t, p) ∈ s.types ∨
        ∃ x ∈ xs, ∃ calls, x.first.callstack = some calls ∧ TypeUsed compared calls t p := by
  intro xs
  induction xs with
  | nil => intro s _; exact ⟨s, rfl, by simp, by simp⟩
  | cons x xs ih =>
    intro s h
    have hxs := fun y hy => h y (List.mem_cons_of_mem x hy)
    unfold symbolsOfDiffs
    cases hc : x.first.callstack with
    | none =>
      obtain ⟨s', h1, h2, h3⟩ := ih s hxs
      exact ⟨s', h1, by simpa [hc] using h2, by simpa [hc] using h3⟩
    | some calls =>
      obtain ⟨hok, ht⟩ := h x (by simp) calls hc
      obtain ⟨t, ht1, ht2, _, ht4⟩ := symbolNames_spec (compared := compared) hok ht
      obtain ⟨s', h1, h2, h3⟩ := ih ⟨s.funs ++ t.funs, s.macros ++ t.macros, s.types ++ t.types⟩ hxs
      refine ⟨s', by simp only [ht1]; exact h1, ?_, ?_⟩
      · intro n; rw [h2]; simp [ht2, hc, or_assoc]
      · intro a b; rw [h3]; simp [ht4, hc, or_assoc]

theorem yamlSymbols_spec : ∀ (rs : List (Str × Res)) (s : SymNames),
    (∀ f x, (f, x) ∈ rs → x.kind = .notEqual → ∀ d ∈ x.inner.values, Shown d → ∀ calls, d.first.callstack = some calls →
      (∀ c ∈ calls, EntryOk c.name) ∧ TypesInFunctions calls) →
    ∃ s', yamlSymbols rs s = .ok s' ∧
      (∀ n, n ∈ s'.funs ↔ n ∈ s.funs ∨ ∃ f x, (f, x) ∈ rs ∧ x.kind = .notEqual ∧
        (n = f ∨ ∃ d ∈ x.inner.values, Shown d ∧ ∃ calls, d.first.callstack = some calls ∧ ∃ c ∈ calls, IsFun c.name n)) ∧
      ∀ t p, (t, p) ∈ s'.types ↔ (t, p) ∈ s.types ∨ ∃ f x, (f, x) ∈ rs ∧ x.kind = .notEqual ∧
        ∃ d ∈ x.inner.values, Shown d ∧ ∃ calls, d.first.callstack = some calls ∧ TypeUsed f calls t p := by
  intro rs
  induction rs with
  | nil => intro s _; exact ⟨s, rfl, by simp, by simp⟩
  | cons a rs ih =>
    obtain ⟨f, x⟩ := a
    intro s h
    have hrs := fun g y hy => h g y (List.mem_cons_of_mem (f, x) hy)
    unfold yamlSymbols
    by_cases hk : x.kind = .notEqual
    · rw [if_neg (by simpa using hk)]
      obtain ⟨s1, h1, h2, h3⟩ := symbolsOfDiffs_spec f (shownDiffs x) { s with funs := s.funs ++ [f] } (fun d hd calls hc =>
        h f x (by simp) hk d (mem_shownDiffs.1 hd).1 (mem_shownDiffs.1 hd).2 calls hc)
      obtain ⟨s2, h4, h5, h6⟩ := ih s1 hrs
      refine ⟨s2, by simp only [h1]; exact h4, ?_, ?_⟩
      · intro n; rw [h5, h2]
        constructor
        · rintro ((h | ⟨d, hd, e⟩) | ⟨g, y, hy, e⟩)
          · simp only [List.mem_append, List.mem_singleton] at h
            rcases h with h | h
            · exact Or.inl h
            · exact Or.inr ⟨f, x, by simp, hk, Or.inl h⟩
          · obtain ⟨a, b⟩ := mem_shownDiffs.1 hd
            exact Or.inr ⟨f, x, by simp, hk, Or.inr ⟨d, a, b, e⟩⟩
          · exact Or.inr ⟨g, y, by simp [hy], e⟩
        · rintro (h | ⟨g, y, hy, hk', e⟩)
          · exact Or.inl (Or.inl (by simp [h]))
          · rcases List.mem_cons.1 hy with hy | hy
            · cases hy
              rcases e with e | ⟨d, a, b, e⟩
              · exact Or.inl (Or.inl (by simp [e]))
              · exact Or.inl (Or.inr ⟨d, mem_shownDiffs.2 ⟨a, b⟩, e⟩)
            · exact Or.inr ⟨g, y, hy, hk', e⟩
      · intro t p; rw [h6, h3]
        constructor
        · rintro ((h | ⟨d, hd, e⟩) | ⟨g, y, hy, e⟩)
          · exact Or.inl h
          · obtain ⟨a, b⟩ := mem_shownDiffs.1 hd
            exact Or.inr ⟨f, x, by simp, hk, d, a, b, e⟩
          · exact Or.inr ⟨g, y, by simp [hy], e⟩
        · rintro (h | ⟨g, y, hy, hk', d, a, b, e⟩)
          · exact Or.inl (Or.inl h)
          · rcases List.mem_cons.1 hy with hy | hy
            · cases hy; exact Or.inl (Or.inr ⟨d, mem_shownDiffs.2 ⟨a, b⟩, e⟩)
            · exact Or.inr ⟨g, y, hy, hk', d, a, b, e⟩
    · rw [if_pos (by simpa using hk)]
      obtain ⟨s1, h1, h2, h3⟩ := ih s hrs
      refine ⟨s1, h1, ?_, ?_⟩
      · intro n; rw [h2]
        constructor
        · rintro (h | ⟨g, y, hy, e⟩)
          · exact Or.inl h
          · exact Or.inr ⟨g, y, by simp [hy], e⟩
        · rintro (h | ⟨g, y, hy, hk', e⟩)
          · exact Or.inl h
          · rcases List.mem_cons.1 hy with hy | hy
            · cases hy; exact absurd hk' hk
            · exact Or.inr ⟨g, y, hy, hk', e⟩
      · intro t p; rw [h3]
        constructor
        · rintro (h | ⟨g, y, hy, e⟩)
          · exact Or.inl h
          · exact Or.inr ⟨g, y, by simp [hy], e⟩
        · rintro (h | ⟨g, y, hy, hk', e⟩)
          · exact Or.inl h
          · rcases List.mem_cons.1 hy with hy | hy
            · cases hy; exact absurd hk' hk
            · exact Or.inr ⟨g, y, hy, hk', e⟩

/-! ### Definitions -/

theorem defInfo_locates {env : YamlEnv} {line : Option Nat} {file : Option Str} {dir : Str} {kind : DefKind} {i : DefInfo}
    (h : defInfo env line file dir kind = .ok i) : Locates env kind dir line file i ∧ i.name = none := by
  unfold defInfo at h
  cases file with
  | none => cases h
  | some f =>
    simp only at h
    cases hr : relpath env.cwd f dir with
    | error e => rw [hr] at h; cases h
    | ok rel =>
      rw [hr] at h; simp only at h
      cases he : env.endLine f line kind with
      | error e => rw [he] at h; cases h
      | ok n => rw [he] at h; cases h; exact ⟨⟨rfl, f, rfl, hr, he⟩, rfl⟩

theorem mkDefn_ok {env : YamlEnv} {kind : DefKind} {lines : Side → Option Nat} {files : Side → Option Str}
    {nn : Option Str} {d : Defn} (h : mkDefn env kind lines files nn = .ok d) :
    d.kind = kind ∧ Locates env kind env.oldDir (lines .left) (files .left) d.old ∧
      Locates env kind env.newDir (lines .right) (files .right) d.new ∧ d.new.name = nn := by
  unfold mkDefn at h
  cases ha : defInfo env (lines .left) (files .left) env.oldDir kind with
  | error e => rw [ha] at h; cases h
  | ok a =>
    rw [ha] at h; simp only at h
    cases hb : defInfo env (lines .right) (files .right) env.newDir kind with
    | error e => rw [hb] at h; cases h
    | ok b =>
      rw [hb] at h; cases h
      exact ⟨rfl, (defInfo_locates ha).1, (defInfo_locates hb).1, rfl⟩

theorem funDefs_spec (env : YamlEnv) (g : Graph) : ∀ (ns : List Str) (d d' : Dict Str Defn), funDefs env g ns d = .ok d' →
    (∀ n ∈ ns, ∀ v, g.vertices.get? n = some v → ∃ x, d'.get? n = some x ∧ DefinesFun env (env.heap v) x) ∧
    (∀ n x, d'.get? n = some x → d.get? n = some x ∨
      (n ∈ ns ∧ ∃ v, g.vertices.get? n = some v ∧ DefinesFun env (env.heap v) x)) ∧
    (∀ n, n ∉ ns → d'.get? n = d.get? n) ∧ (∀ n, d.get? n ≠ none → d'.get? n ≠ none) ∧
    ((Dict.keys d).Nodup → (Dict.keys d').Nodup) := by
  intro ns
  induction ns with
  | nil => intro d d' h; cases h; exact ⟨by simp, fun n x h => Or.inl h, by simp, by simp, id⟩
  | cons n ns ih =>
    intro d d' h
    unfold funDefs at h
    cases hv : g.vertices.get? n with
    | none =>
      rw [hv] at h; simp only at h
      obtain ⟨h1, h2, h3, h4, h5⟩ := ih d d' h
      refine ⟨?_, ?_, ?_, h4, h5⟩
      · intro m hm v hmv
        rcases List.mem_cons.1 hm with rfl | hm
        · rw [hv] at hmv; cases hmv
        · exact h1 m hm v hmv
      · intro m x hx
        rcases h2 m x hx with h | ⟨a, b⟩
        · exact Or.inl h
        · exact Or.inr ⟨by simp [a], b⟩
      · intro m hm; exact h3 m (by simp at hm; exact hm.2)
    | some v =>
      rw [hv] at h; simp only at h
      cases hx : mkDefn env .function (env.heap v).lines (env.heap v).files
          (if (env.heap v).names .right ≠ (env.heap v).names .left then some ((env.heap v).names .right) else none) with
      | error e => rw [hx] at h; cases h
      | ok x =>
        rw [hx] at h; simp only at h
        have hdef : DefinesFun env (env.heap v) x := by
          obtain ⟨a, b, c, e⟩ := mkDefn_ok hx
          refine ⟨a, b, c, fun m => ?_⟩
          rw [e]
          split
          · rename_i hne
            constructor
            · intro h; cases h; exact ⟨rfl, hne⟩
            · rintro ⟨rfl, -⟩; rfl
          · rename_i hne; simp [not_not.1 hne]
        obtain ⟨h1, h2, h3, h4, h5⟩ := ih (d.set n x) d' h
        refine ⟨?_, ?_, ?_, ?_, fun hn => h5 (Dict.nodup_keys_set hn n x)⟩
        · intro m hm w hw
          by_cases hmem : m ∈ ns
          · exact h1 m hmem w hw
          · have : m = n := (List.mem_cons.1 hm).resolve_right hmem
            subst this
            rw [hv] at hw; cases hw
            exact ⟨x, by rw [h3 m hmem, Dict.get?_set_self], hdef⟩
        · intro m y hy
          rcases h2 m y hy with h | ⟨a, b⟩
          · by_cases hmn : m = n
            · subst hmn
              rw [Dict.get?_set_self] at h; cases h
              exact Or.inr ⟨by simp, v, hv, hdef⟩
            · rw [Dict.get?_set_ne _ _ hmn] at h; exact Or.inl h
          · exact Or.inr ⟨by simp [a], b⟩
        · intro m hm
          simp only [List.mem_cons, not_or] at hm
          rw [h3 m hm.2, Dict.get?_set_ne _ _ hm.1]
        · intro m hm
          apply h4
          by_cases hmn : n = m
          · subst hmn; rw [Dict.get?_set_self]; simp
          · rw [Dict.get?_set_ne _ _ (Ne.symm hmn)]; exact hm

theorem findType_some {n : Str} {ds : List NonFunDiff} {f : Side → Str} {l : Side → Nat} (h : findType n ds = some (f, l)) :
    ∃ p cs, NonFunDiff.type n p cs f l ∈ ds := by
  induction ds with
  | nil => cases h
  | cons d ds ih =>
    cases d with
    | «syntax» a b c e =>
      obtain ⟨p, cs, hm⟩ := ih h
      exact ⟨p, cs, by simp [hm]⟩
    | type m p cs f' l' =>
      rw [findType] at h
      by_cases hm : m = n
      · rw [if_pos hm] at h; cases h; subst hm; exact ⟨p, cs, by simp⟩
      · rw [if_neg hm] at h
        obtain ⟨p, cs, hm⟩ := ih h
        exact ⟨p, cs, by simp [hm]⟩

theorem findType_none {n : Str} {ds : List NonFunDiff} (h : findType n ds = none) (p : Str) (cs : Side → List Call)
    (f : Side → Str) (l : Side → Nat) : NonFunDiff.type n p cs f l ∉ ds := by
  induction ds with
  | nil => simp
  | cons d ds ih =>
    cases d with
    | «syntax» a b c e => rw [findType] at h; simp [ih h]
    | type m p' cs' f' l' =>
      rw [findType] at h
      by_cases hm : m = n
      · rw [if_pos hm] at h; cases h
      · rw [if_neg hm] at h
        intro hmem
        rcases List.mem_cons.1 hmem with he | hmem
        · cases he; exact hm rfl
        · exact ih h hmem

theorem typeDefs_spec (env : YamlEnv) (g : Graph) : ∀ (ns : List (Str × Str)) (d d' : Dict Str Defn),
    typeDefs env g ns d = .ok d' →
    (∀ n p, (n, p) ∈ ns → ∀ v, g.vertices.get? p = some v →
      (∃ q cs f l, NonFunDiff.type n q cs f l ∈ (env.heap v).nonfunDiffs) → ∃ x, d'.get? n = some x) ∧
    (∀ n x, d'.get? n = some x → d.get? n = some x ∨
      ∃ p, (n, p) ∈ ns ∧ ∃ v, g.vertices.get? p = some v ∧ DefinesType env (env.heap v) n x) ∧
    (∀ n, d.get? n ≠ none → d'.get? n ≠ none) ∧
    ((Dict.keys d).Nodup → (Dict.keys d').Nodup) := by
  intro ns
  induction ns with
  | nil => intro d d' h; cases h; exact ⟨by simp, fun n x h => Or.inl h, by simp, id⟩
  | cons a ns ih =>
    obtain ⟨n, p⟩ := a
    intro d d' h
    unfold typeDefs at h
    have skip : typeDefs env g ns d = .ok d' →
        (∀ v, g.vertices.get? p = some v → findType n (env.heap v).nonfunDiffs = none) →
        (∀ n' p', (n', p') ∈ (n, p) :: ns → ∀ v, g.vertices.get? p' = some v →
          (∃ q cs f l, NonFunDiff.type n' q cs f l ∈ (env.heap v).nonfunDiffs) → ∃ x, d'.get? n' = some x) ∧
        (∀ n' x, d'.get? n' = some x → d.get? n' = some x ∨
          ∃ p', (n', p') ∈ (n, p) :: ns ∧ ∃ v, g.vertices.get? p' = some v ∧ DefinesType env (env.heap v) n' x) ∧
        (∀ n, d.get? n ≠ none → d'.get? n ≠ none) ∧
        ((Dict.keys d).Nodup → (Dict.keys d').Nodup) := by
      intro h hnone
      obtain ⟨h1, h2, h3, h4⟩ := ih d d' h
      refine ⟨?_, ?_, h3, h4⟩
      · intro m q hm v hv hex
        rcases List.mem_cons.1 hm with he | hm
        · cases he
          obtain ⟨q, cs, f, l, hmem⟩ := hex
          exact absurd hmem (findType_none (hnone v hv) q cs f l)
        · exact h1 m q hm v hv hex
      · intro m x hx
        rcases h2 m x hx with h | ⟨q, a, b⟩
        · exact Or.inl h
        · exact Or.inr ⟨q, by simp [a], b⟩
    cases hv : g.vertices.get? p with
    | none =>
      rw [hv] at h; simp only at h
      exact skip h (fun v hv' => by rw [hv] at hv'; cases hv')
    | some v =>
      rw [hv] at h; simp only at h
      cases hf : findType n (env.heap v).nonfunDiffs with
      | none =>
        rw [hf] at h; simp only at h
        exact skip h (fun v' hv' => by rw [hv] at hv'; cases hv'; exact hf)
      | some fl =>
        obtain ⟨f, l⟩ := fl
        rw [hf] at h; simp only at h
        cases hx : mkDefn env .type (fun s => some (l s)) (fun s => some (f s)) none with
        | error e => rw [hx] at h; cases h
        | ok x =>
          rw [hx] at h; simp only at h
          have hdef : DefinesType env (env.heap v) n x := by
            obtain ⟨a, b, c, e⟩ := mkDefn_ok hx
            obtain ⟨q, cs, hm⟩ := findType_some hf
            exact ⟨a, q, cs, f, l, hm, b, c⟩
          obtain ⟨h1, h2, h3, h4⟩ := ih (d.set n x) d' h
          refine ⟨?_, ?_, ?_, fun hn => h4 (Dict.nodup_keys_set hn n x)⟩
          · intro m q hm w hw hex
            rcases List.mem_cons.1 hm with he | hm
            · cases he
              have := h3 n (by rw [Dict.get?_set_self]; simp)
              exact Option.ne_none_iff_exists'.1 this
            · exact h1 m q hm w hw hex
          · intro m y hy
            rcases h2 m y hy with h | ⟨q, a, b⟩
            · by_cases hmn : m = n
              · subst hmn
                rw [Dict.get?_set_self] at h; cases h
                exact Or.inr ⟨p, by simp, v, hv, hdef⟩
              · rw [Dict.get?_set_ne _ _ hmn] at h; exact Or.inl h
            · exact Or.inr ⟨q, by simp [a], b⟩
          · intro m hm
            apply h3
            by_cases hmn : n = m
            · subst hmn; rw [Dict.get?_set_self]; simp
            · rw [Dict.get?_set_ne _ _ (Ne.symm hmn)]; exact hm

theorem get?_dictUpdate {β : Type} (e : Dict Str β) (he : (Dict.keys e).Nodup) (d : Dict Str β) (n : Str) :
    (dictUpdate d e).get? n = match e.get? n with | some x => some x | none => d.get? n := by
  unfold dictUpdate
  induction e generalizing d with
  | nil => simp [Dict.get?]
  | cons a e ih =>
    obtain ⟨k, x⟩ := a
    simp only [Dict.keys, List.map_cons, List.nodup_cons] at he
    rw [List.foldl_cons, ih he.2]
    by_cases hk : k = n
    · subst hk
      have : Dict.get? e k = none := (Dict.get?_eq_none_iff _ _).2 he.1
      rw [this]; simp [Dict.get?]
    · simp only [Dict.get?, if_neg hk]
      rw [Dict.get?_set_ne _ _ (Ne.symm hk)]

end DK
