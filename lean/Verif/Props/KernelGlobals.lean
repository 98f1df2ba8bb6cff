import Verif.Spec.KernelGlobals

/-!
C143, C144: simplification of kernel globals and names of anonymous structures.
-/

set_option autoImplicit false

namespace DK

open Spec

/-! ### Kernel globals -/

/-- C143: the simplification of kernel globals succeeds and keeps code, up to the numbers of declared compile-time
assertions. -/
def C143_statement : Prop :=
  ∀ (m : KgMod) (f : KgFun) (b : List KgOp), (m.globs.map KgGlob.name ++ m.funs.map KgFun.name).Nodup →
    f ∈ m.funs → f.body = some b →
    ∃ m' b', simplifyKernelGlobals m = some m' ∧ (⟨f.name, some b'⟩ : KgFun) ∈ m'.funs ∧ List.Forall₂ (SamePart m) b b'

/-- A function uses a variable whose name begins as those of the symbol table: it gets null. -/
theorem C143_fails : ¬ C143_statement := by
  intro h
  obtain ⟨m', b', h1, h2, h3⟩ := h ⟨[⟨str! "__ksym_cache", some [.other 7]⟩], none, [⟨str! "get", some [.ref (str! "__ksym_cache")]⟩]⟩
    ⟨str! "get", some [.ref (str! "__ksym_cache")]⟩ [.ref (str! "__ksym_cache")] (by decide) (by decide) rfl
  have hm : m' = ⟨[], none, [⟨str! "get", some [.null]⟩]⟩ := by
    have : simplifyKernelGlobals ⟨[⟨str! "__ksym_cache", some [.other 7]⟩], none, [⟨str! "get", some [.ref (str! "__ksym_cache")]⟩]⟩
      = some ⟨[], none, [⟨str! "get", some [.null]⟩]⟩ := by decide
    rw [this] at h1
    exact (Option.some.inj h1).symm
  subst hm
  rw [List.mem_singleton] at h2
  injection h2 with _ h2
  injection h2 with h2
  subst h2
  cases h3 with
  | cons h _ =>
    rcases h with h | ⟨n, hn, ⟨d, hd, _⟩, _⟩
    · cases h
    · injection hn with hn
      rw [hd] at hn
      revert hn
      simp

/-- Two functions with code, whose names contain that of the assertions, are taken for one. -/
theorem C143_fails_merged : ¬ C143_statement := by
  intro h
  obtain ⟨m', b', h1, h2, h3⟩ := h ⟨[], none, [⟨str! "a__compiletime_assert", some [.other 1]⟩,
      ⟨str! "b__compiletime_assert", some [.other 2]⟩, ⟨str! "f", some [.ref (str! "b__compiletime_assert")]⟩]⟩
    ⟨str! "f", some [.ref (str! "b__compiletime_assert")]⟩ [.ref (str! "b__compiletime_assert")] (by decide) (by decide) rfl
  have hm : m' = ⟨[], none, [⟨str! "__compiletime_assert", some [.other 1]⟩, ⟨str! "b__compiletime_assert", some [.other 2]⟩,
      ⟨str! "f", some [.ref (str! "__compiletime_assert")]⟩]⟩ := by
    have : simplifyKernelGlobals ⟨[], none, [⟨str! "a__compiletime_assert", some [.other 1]⟩,
      ⟨str! "b__compiletime_assert", some [.other 2]⟩, ⟨str! "f", some [.ref (str! "b__compiletime_assert")]⟩]⟩
      = some ⟨[], none, [⟨str! "__compiletime_assert", some [.other 1]⟩, ⟨str! "b__compiletime_assert", some [.other 2]⟩,
      ⟨str! "f", some [.ref (str! "__compiletime_assert")]⟩]⟩ := by decide +kernel
    rw [this] at h1
    exact (Option.some.inj h1).symm
  subst hm
  have hb : b' = [.ref (str! "__compiletime_assert")] := by
    simpa using h2
  subst hb
  cases h3 with
  | cons h _ =>
    rcases h with h | ⟨n, hn, ⟨d, hd, _⟩, _⟩
    · revert h; simp
    · injection hn with hn
      rw [hd] at hn
      revert hn
      simp

/-- A kernel symbol is only declared: the tool ends. -/
theorem C143_fails_declared : ¬ C143_statement := by
  intro h
  obtain ⟨m', b', h1, _⟩ := h ⟨[⟨str! "__ksymtab_f", none⟩], none, [⟨str! "f", some []⟩]⟩ ⟨str! "f", some []⟩ [] (by decide) (by decide) rfl
  have : simplifyKernelGlobals ⟨[⟨str! "__ksymtab_f", none⟩], none, [⟨str! "f", some []⟩]⟩ = none := by decide
  rw [this] at h1
  cases h1

theorem isAssertFun_assertName : isAssertFun assertName = false := by decide

/-- References to the named assertions get one name. -/
def assertSubst (ns : List Str) (n : Str) : KgOp := if n ∈ ns ∧ isAssertFun n = true then .ref assertName else .ref n

theorem assertSubst_comp (n : Str) (ns : List Str) (o : KgOp) (hn : isAssertFun n = true) :
    (o.subst (fun k => if k = n then .ref assertName else .ref k)).subst (assertSubst ns) = o.subst (assertSubst (n :: ns)) := by
  cases o with
  | null => rfl
  | other t => rfl
  | ref k =>
    unfold KgOp.subst
    dsimp only
    by_cases hk : k = n
    · subst hk
      rw [if_pos rfl]
      dsimp only
      unfold assertSubst
      rw [isAssertFun_assertName, if_neg (by simp), if_pos ⟨List.mem_cons_self, hn⟩]
    · rw [if_neg hk]
      dsimp only
      unfold assertSubst
      simp [hk]

theorem assertSubst_skip (n : Str) (ns : List Str) (hn : isAssertFun n = false) : assertSubst (n :: ns) = assertSubst ns := by
  funext k
  unfold assertSubst
  by_cases hk : k = n
  · subst hk
    rw [hn]
    simp
  · simp [hk]

theorem map_assert_comp (n : Str) (ns : List Str) (hn : isAssertFun n = true) (b : Option (List KgOp)) :
    (b.map (List.map (KgOp.subst (fun k => if k = n then .ref assertName else .ref k)))).map (List.map (KgOp.subst (assertSubst ns)))
      = b.map (List.map (KgOp.subst (assertSubst (n :: ns)))) := by
  cases b with
  | none => rfl
  | some b =>
    simp only [Option.map_some, List.map_map, Option.some.injEq]
    apply List.map_congr_left
    intro o _
    exact assertSubst_comp n ns o hn

theorem mergeAssert_parts (m : KgMod) (n : Str) (hn : isAssertFun n = true) :
    (mergeAssert m n).globs = (m.subst (fun k => if k = n then .ref assertName else .ref k)).globs ∧
    (mergeAssert m n).used = (m.subst (fun k => if k = n then .ref assertName else .ref k)).used ∧
    ∀ f : KgFun, f ∈ (m.subst (fun k => if k = n then .ref assertName else .ref k)).funs → isAssertFun f.name = false →
      f ∈ (mergeAssert m n).funs := by
  unfold mergeAssert
  rw [if_pos hn]
  dsimp only
  split
  · exact ⟨rfl, rfl, fun _ h _ => h⟩
  · refine ⟨rfl, rfl, fun f hf hna => ?_⟩
    rw [List.mem_map]
    refine ⟨f, hf, ?_⟩
    rw [if_neg (fun he => by rw [he, hn] at hna; cases hna)]

theorem mergeAsserts (ns : List Str) : ∀ (m : KgMod),
    (ns.foldl mergeAssert m).globs = (m.subst (assertSubst ns)).globs ∧
    (ns.foldl mergeAssert m).used = (m.subst (assertSubst ns)).used ∧
    ∀ f : KgFun, f ∈ m.funs → isAssertFun f.name = false →
      (⟨f.name, f.body.map (List.map (KgOp.subst (assertSubst ns)))⟩ : KgFun) ∈ (ns.foldl mergeAssert m).funs := by
  induction ns with
  | nil =>
    intro m
    have h0 : ∀ o : KgOp, o.subst (assertSubst []) = o := by
      intro o
      cases o <;> simp [KgOp.subst, assertSubst]
    have h1 : ∀ b : Option (List KgOp), b.map (List.map (KgOp.subst (assertSubst []))) = b := by
      intro b
      cases b with
      | none => rfl
      | some b =>
        simp only [Option.map_some, Option.some.injEq]
        rw [List.map_congr_left (fun o _ => h0 o)]
        exact List.map_id' _
    refine ⟨?_, ?_, ?_⟩
    · show m.globs = m.globs.map _
      rw [List.map_congr_left (g := id)]
      · simp
      · intro g _
        rw [h1]; rfl
    · show m.used = _
      unfold KgMod.subst
      rw [h1]
    · intro f hf _
      rw [h1]
      exact hf
  | cons n ns ih =>
    intro m
    rw [List.foldl_cons]
    by_cases hn : isAssertFun n = true
    · obtain ⟨h1, h2, h3⟩ := mergeAssert_parts m n hn
      obtain ⟨i1, i2, i3⟩ := ih (mergeAssert m n)
      refine ⟨?_, ?_, ?_⟩
      · rw [i1]
        unfold KgMod.subst
        dsimp only
        rw [h1]
        unfold KgMod.subst
        dsimp only
        rw [List.map_map]
        apply List.map_congr_left
        intro g _
        dsimp only [Function.comp]
        rw [map_assert_comp n ns hn]
      · rw [i2]
        unfold KgMod.subst
        dsimp only
        rw [h2]
        unfold KgMod.subst
        dsimp only
        rw [map_assert_comp n ns hn]
      · intro f hf hna
        have := i3 ⟨f.name, f.body.map (List.map (KgOp.subst (fun k => if k = n then .ref assertName else .ref k)))⟩
          (h3 _ (by
            unfold KgMod.subst
            exact List.mem_map_of_mem hf) hna) hna
        rw [map_assert_comp n ns hn] at this
        exact this
    · have hn2 := Bool.not_eq_true _ ▸ hn
      have hm : mergeAssert m n = m := by
        unfold mergeAssert
        rw [if_neg hn]
      rw [hm, assertSubst_skip n ns (by simpa using hn)]
      exact ih m

theorem replaced_eq (ks fs : List Str) (o : KgOp) :
    (o.subst (fun n => if ks.contains n then .null else .ref n)).subst (assertSubst fs)
      = replaced ks (fs.filter isAssertFun) o := by
  cases o with
  | null => rfl
  | other t => rfl
  | ref n =>
    unfold KgOp.subst replaced
    dsimp only
    by_cases h : n ∈ ks
    · rw [if_pos (by simpa using h), if_pos h]
    · rw [if_neg (by simpa using h), if_neg h]
      dsimp only
      unfold assertSubst
      simp only [List.mem_filter]
      rfl

/-- C143 up to removed variables and merged functions: if all kernel symbols have initializers, the pass succeeds; in the code of
other functions, and in the initializers of other variables, only references to kernel symbols and to functions called as
compile-time assertions change; kernel symbols are gone from the list of used variables. -/
theorem C143_code_partial (m : KgMod) (hk : ∀ g ∈ m.globs, isKsym g.name = true → g.init ≠ none) :
    ∃ m', simplifyKernelGlobals m = some m' ∧
      (∀ f ∈ m.funs, isAssertFun f.name = false →
        (⟨f.name, f.body.map (List.map (replaced ((m.globs.filter (fun g => isKsym g.name)).map KgGlob.name)
          ((m.funs.map KgFun.name).filter isAssertFun)))⟩ : KgFun) ∈ m'.funs) ∧
      m'.globs = (m.globs.filter (fun g => !isKsym g.name)).map (fun g =>
        (⟨g.name, g.init.map (List.map (replaced ((m.globs.filter (fun g => isKsym g.name)).map KgGlob.name)
          ((m.funs.map KgFun.name).filter isAssertFun)))⟩ : KgGlob)) ∧
      (∀ us', m'.used = some us' → ∃ us, m.used = some us ∧ us' = (us.filter (fun o => match o with | .ref n => !isKsym n | _ => true)).map
        (replaced ((m.globs.filter (fun g => isKsym g.name)).map KgGlob.name) ((m.funs.map KgFun.name).filter isAssertFun))) := by
  have hno : (m.globs.any (fun g => isKsym g.name && g.init.isNone)) = false := by
    rw [List.any_eq_false]
    intro g hg
    simp only [Bool.and_eq_true, Option.isNone_iff_eq_none, not_and]
    exact hk g hg
  unfold simplifyKernelGlobals removeKsyms
  rw [hno]
  simp only [Bool.false_eq_true, if_false, Option.map_some]
  generalize hgone : (m.globs.filter (fun g => isKsym g.name)).map KgGlob.name = gone
  have hcomp : ∀ b : Option (List KgOp), (b.map (List.map (KgOp.subst (fun n => if gone.contains n then .null else .ref n)))).map
      (List.map (KgOp.subst (assertSubst (m.funs.map KgFun.name)))) = b.map (List.map (replaced gone
        ((m.funs.map KgFun.name).filter isAssertFun))) := by
    intro b
    cases b with
    | none => rfl
    | some b =>
      simp only [Option.map_some, List.map_map, Option.some.injEq]
      apply List.map_congr_left
      intro o _
      exact replaced_eq gone _ o
  refine ⟨_, rfl, ?_⟩
  have hnames : ((({ m with used := usedWithoutKsyms m.used, globs := m.globs.filter (fun g => !isKsym g.name) } : KgMod).subst
      (fun n => if gone.contains n then .null else .ref n)).funs.map KgFun.name) = m.funs.map KgFun.name := by
    unfold KgMod.subst
    rw [List.map_map]
    rfl
  rw [hnames]
  obtain ⟨h1, h2, h3⟩ := mergeAsserts (m.funs.map KgFun.name)
    (({ m with used := usedWithoutKsyms m.used, globs := m.globs.filter (fun g => !isKsym g.name) } : KgMod).subst
      (fun n => if gone.contains n then .null else .ref n))
  refine ⟨?_, ?_, ?_⟩
  · intro f hf hna
    have := h3 ⟨f.name, f.body.map (List.map (KgOp.subst (fun n => if gone.contains n then .null else .ref n)))⟩
      (by
        unfold KgMod.subst
        exact List.mem_map_of_mem hf) hna
    rw [hcomp] at this
    exact this
  · rw [h1]
    unfold KgMod.subst
    dsimp only
    rw [List.map_map]
    apply List.map_congr_left
    intro g _
    dsimp only [Function.comp]
    rw [hcomp]
  · intro us' hu
    rw [h2] at hu
    unfold KgMod.subst at hu
    dsimp only at hu
    rw [hcomp] at hu
    unfold usedWithoutKsyms at hu
    cases hus : m.used with
    | none => rw [hus] at hu; cases hu
    | some us =>
      rw [hus] at hu
      dsimp only at hu
      split at hu
      · cases hu
      · exact ⟨us, rfl, (Option.some.inj hu).symm⟩

/-- Two versions whose assertions have other numbers have the same code afterwards. -/
example : ∃ m', simplifyKernelGlobals ⟨[⟨str! "__ksymtab_f", some [.ref (str! "f")]⟩, ⟨str! "x", some [.other 1]⟩],
      some [.ref (str! "__ksymtab_f"), .ref (str! "x")],
      [⟨str! "f", some [.ref (str! "__compiletime_assert_5"), .ref (str! "x"), .ref (str! "__compiletime_assert_6")]⟩,
       ⟨str! "__compiletime_assert_5", none⟩, ⟨str! "__compiletime_assert_6", none⟩]⟩ = some m' ∧
    (⟨str! "f", some [.ref (str! "__compiletime_assert"), .ref (str! "x"), .ref (str! "__compiletime_assert")]⟩ : KgFun) ∈ m'.funs := by
  obtain ⟨m', h1, h2, _⟩ := C143_code_partial ⟨[⟨str! "__ksymtab_f", some [.ref (str! "f")]⟩, ⟨str! "x", some [.other 1]⟩],
      some [.ref (str! "__ksymtab_f"), .ref (str! "x")],
      [⟨str! "f", some [.ref (str! "__compiletime_assert_5"), .ref (str! "x"), .ref (str! "__compiletime_assert_6")]⟩,
       ⟨str! "__compiletime_assert_5", none⟩, ⟨str! "__compiletime_assert_6", none⟩]⟩ (by decide)
  exact ⟨m', h1, h2 _ List.mem_cons_self (by decide)⟩

/-- C143 when kernel symbols have initializers and are not used in the code, and functions called as compile-time assertions
are declared assertions with numbers. -/
theorem C143_same_partial (m : KgMod) (f : KgFun) (b : List KgOp) (hf : f ∈ m.funs) (hb : f.body = some b)
    (hk : ∀ g ∈ m.globs, isKsym g.name = true → g.init ≠ none)
    (hr : ∀ g ∈ m.globs, isKsym g.name = true → KgOp.ref g.name ∉ b)
    (ha : ∀ k ∈ m.funs, isAssertFun k.name = true → AssertNumber k.name ∧ k.body = none) :
    ∃ m' b', simplifyKernelGlobals m = some m' ∧ (⟨f.name, some b'⟩ : KgFun) ∈ m'.funs ∧ List.Forall₂ (SamePart m) b b' := by
  obtain ⟨m', h1, h2, _⟩ := C143_code_partial m hk
  have hna : isAssertFun f.name = false := by
    apply Bool.eq_false_iff.mpr
    intro h
    have := (ha f hf h).2
    rw [hb] at this
    cases this
  have h3 := h2 f hf hna
  rw [hb, Option.map_some] at h3
  refine ⟨m', _, h1, h3, ?_⟩
  rw [List.forall₂_map_right_iff]
  apply List.forall₂_same.mpr
  intro o ho
  unfold replaced
  cases o with
  | null => exact Or.inl rfl
  | other t => exact Or.inl rfl
  | ref n =>
    dsimp only
    rw [if_neg]
    · split
      · rename_i hn
        rw [List.mem_filter, List.mem_map] at hn
        obtain ⟨⟨k, hkm, hkn⟩, hna⟩ := hn
        have h4 := ha k hkm (hkn ▸ hna)
        right
        refine ⟨n, rfl, hkn ▸ h4.1, ?_, rfl⟩
        have : k = ⟨n, none⟩ := by
          cases k
          simp only at hkn h4
          rw [hkn, h4.2]
        exact this ▸ hkm
      · exact Or.inl rfl
    · intro hn
      rw [List.mem_map] at hn
      obtain ⟨g, hg, hgn⟩ := hn
      rw [List.mem_filter] at hg
      exact hr g hg.1 hg.2 (hgn ▸ ho)

example : ∃ m' b', simplifyKernelGlobals ⟨[⟨str! "__ksymtab_f", some [.ref (str! "f")]⟩], none,
      [⟨str! "f", some [.ref (str! "__compiletime_assert_5")]⟩, ⟨str! "__compiletime_assert_5", none⟩]⟩ = some m' ∧
    (⟨str! "f", some b'⟩ : KgFun) ∈ m'.funs ∧ List.Forall₂ (SamePart ⟨[⟨str! "__ksymtab_f", some [.ref (str! "f")]⟩], none,
      [⟨str! "f", some [.ref (str! "__compiletime_assert_5")]⟩, ⟨str! "__compiletime_assert_5", none⟩]⟩)
      [.ref (str! "__compiletime_assert_5")] b' := by
  refine C143_same_partial _ ⟨str! "f", some [.ref (str! "__compiletime_assert_5")]⟩ _ (by decide) rfl (by decide) (by decide) ?_
  intro k hk h
  simp only [List.mem_cons, List.not_mem_nil, or_false] at hk
  rcases hk with rfl | rfl
  · exact absurd h (by decide)
  · exact ⟨⟨str! "5", rfl, by decide, by decide⟩, rfl⟩

/-! ### Names of anonymous structures -/

/-- C144: a structure with a name keeps it, and anonymous structures that are declared in the same way have the same name in both
versions. -/
def C144_statement : Prop :=
  ∀ (fresh : List Str → Str → Str) (hash : List Str → Nat) (l r : List HashType), (l.map HashType.name).Nodup → (r.map HashType.name).Nodup →
    (∀ names n, fresh names n ∉ names) →
    (∀ (i : Nat) x, l[i]? = some x → ¬ Anonymous x.name → (structHashPass fresh hash l)[i]? = some x.name) ∧
    ∀ R i j, SameDecls l r R → R i j → (structHashPass fresh hash l)[i]? = (structHashPass fresh hash r)[j]?

def freshName (names : List Str) (n : Str) : Str := n ++ '.' :: (names.flatten ++ n)

theorem freshName_fresh (names : List Str) (n : Str) : freshName names n ∉ names := by
  intro h
  have : ∀ (l : List Str) (x : Str), x ∈ l → x.length ≤ l.flatten.length := by
    intro l x hx
    induction l with
    | nil => cases hx
    | cons a l ih =>
      rw [List.flatten_cons, List.length_append]
      rcases List.mem_cons.mp hx with h | h
      · rw [h]; omega
      · have := ih h; omega
  have h2 := this _ _ h
  unfold freshName at h2
  simp only [List.length_append, List.length_cons] at h2
  omega

/-- A structure of the kernel called `anon_vma` is renamed. -/
theorem C144_fails : ¬ C144_statement := by
  intro h
  have := (h freshName (fun d => d.length) [⟨str! "struct.anon_vma", some []⟩] [] (by decide) (by decide) freshName_fresh).1 0 _ rfl (by
    rintro ⟨p, rfl | rfl, h | ⟨d, h, _⟩⟩ <;> revert h <;> simp)
  revert this
  decide

/-- An anonymous structure in an anonymous structure has another number in the new version: the outer structure gets another
name. -/
theorem C144_fails_nested : ¬ C144_statement := by
  intro h
  have := (h freshName (fun d => (d.map List.length).sum) [⟨str! "struct.anon", some [.struct 1]⟩, ⟨str! "struct.anon.5", some [.text (str! "i32")]⟩]
    [⟨str! "struct.anon", some [.struct 1]⟩, ⟨str! "struct.anon.16", some [.text (str! "i32")]⟩] (by decide) (by decide) freshName_fresh).2
    (fun i j => (i = 0 ∧ j = 0) ∨ (i = 1 ∧ j = 1)) 0 0 ?_ (Or.inl ⟨rfl, rfl⟩)
  · revert this
    decide
  · constructor
    · rintro i j (⟨rfl, rfl⟩ | ⟨rfl, rfl⟩)
      · refine ⟨_, _, _, _, rfl, rfl, ⟨_, Or.inl rfl, Or.inl rfl⟩, ⟨_, Or.inl rfl, Or.inl rfl⟩, rfl, rfl, ?_⟩
        exact List.Forall₂.cons (Or.inr (Or.inl ⟨1, 1, rfl, rfl, Or.inr ⟨rfl, rfl⟩⟩)) List.Forall₂.nil
      · refine ⟨_, _, _, _, rfl, rfl, ⟨_, Or.inl rfl, Or.inr ⟨str! "5", rfl, by decide⟩⟩,
          ⟨_, Or.inl rfl, Or.inr ⟨str! "16", rfl, by decide⟩⟩, rfl, rfl, ?_⟩
        exact List.Forall₂.cons (Or.inl ⟨_, rfl, rfl⟩) List.Forall₂.nil
    · rintro i j x y (⟨rfl, rfl⟩ | ⟨rfl, rfl⟩) hx hy
      · cases hx; cases hy; rfl
      · cases hx; cases hy; rfl

theorem setTypeName_other (fresh : List Str → Str → Str) (names : List Str) (i k : Nat) (new : Str) (h : i ≠ k) :
    (setTypeName fresh names i new)[k]? = names[k]? := by
  unfold setTypeName
  split
  · rfl
  · split
    · rw [List.getElem?_set_ne h]
    · rw [List.getElem?_set_ne h]

theorem renameAnon_other (fresh : List Str → Str → Str) (hash : List Str → Nat) (types : List HashType) (names : List Str) (i k : Nat)
    (h : i ≠ k) : (renameAnon fresh hash types names i)[k]? = names[k]? := by
  unfold renameAnon
  split
  · exact setTypeName_other _ _ _ _ _ h
  · rfl

theorem renameAnon_kept (fresh : List Str → Str → Str) (hash : List Str → Nat) (types : List HashType) (names : List Str) (i k : Nat)
    (n : Str) (hk : names[k]? = some n) (hn : anonPrefix n = none) : (renameAnon fresh hash types names i)[k]? = some n := by
  by_cases h : i = k
  · subst h
    have : names.getD i [] = n := by rw [List.getD_eq_getElem?_getD, hk]; rfl
    unfold renameAnon
    rw [this, hn]
    exact hk
  · rw [renameAnon_other _ _ _ _ _ _ h]
    exact hk

theorem renameAnons_kept (fresh : List Str → Str → Str) (hash : List Str → Nat) (types : List HashType) (k : Nat)
    (n : Str) (hn : anonPrefix n = none) (is : List Nat) : ∀ names : List Str, names[k]? = some n →
    (is.foldl (renameAnon fresh hash types) names)[k]? = some n := by
  induction is with
  | nil => intro names h; exact h
  | cons i is ih => intro names h; exact ih _ (renameAnon_kept fresh hash types names i k n h hn)

theorem renameAnons_other (fresh : List Str → Str → Str) (hash : List Str → Nat) (types : List HashType) (k : Nat) (is : List Nat)
    (h : k ∉ is) : ∀ names : List Str, (is.foldl (renameAnon fresh hash types) names)[k]? = names[k]? := by
  induction is with
  | nil => intro names; rfl
  | cons i is ih =>
    intro names
    rw [List.foldl_cons, ih (fun hk => h (List.mem_cons_of_mem _ hk))]
    exact renameAnon_other _ _ _ _ _ _ (fun he => h (he ▸ List.mem_cons_self))

/-- C144 for structures with names: those that do not begin with `anon` keep their names. -/
theorem C144_named_partial (fresh : List Str → Str → Str) (hash : List Str → Nat) (l : List HashType) (i : Nat) (x : HashType)
    (hx : l[i]? = some x) (hs : ¬ str! "struct.anon" <+: x.name) (hu : ¬ str! "union.anon" <+: x.name) :
    (structHashPass fresh hash l)[i]? = some x.name := by
  unfold structHashPass
  apply renameAnons_kept
  · unfold anonPrefix
    rw [if_neg (by rw [List.isPrefixOf_iff_prefix]; exact hu), if_neg (by rw [List.isPrefixOf_iff_prefix]; exact hs)]
  · rw [List.getElem?_map, hx]
    rfl

example : (structHashPass freshName (fun d => d.length) [⟨str! "struct.anon", some [.struct 1]⟩, ⟨str! "struct.list", some []⟩])[1]?
    = some (str! "struct.list") :=
  C144_named_partial _ _ _ 1 ⟨str! "struct.list", some []⟩ rfl (by decide) (by decide)

/-- No other type can get the name. -/
def NameFree (fresh : List Str → Str → Str) (hash : List Str → Nat) (l : List HashType) (i : Nat) (n : Str) : Prop :=
  (∀ (k : Nat) x, l[k]? = some x → k ≠ i → x.name ≠ n ∧ ∀ fs names p, x.fields = some fs → p ++ Nat.toDigits 10 (hash (declText names fs)) ≠ n) ∧
  ∀ names m, fresh names m ≠ n

theorem renameAnon_free (fresh : List Str → Str → Str) (hash : List Str → Nat) (l : List HashType) (i : Nat) (n : Str)
    (hf : NameFree fresh hash l i n) (names : List Str) (h : ∀ k, k ≠ i → names[k]? ≠ some n) (j : Nat) :
    ∀ k, k ≠ i → (renameAnon fresh hash l names j)[k]? ≠ some n := by
  intro k hk
  by_cases hj : j = k
  · subst hj
    unfold renameAnon
    split
    · rename_i p fs hp hfs
      cases hx : l[j]? with
      | none => rw [hx] at hfs; cases hfs
      | some x =>
        rw [hx] at hfs
        have hne := (hf.1 j x hx hk).2 fs names p hfs
        unfold setTypeName
        split
        · exact h j hk
        · split
          · intro hc
            rw [List.getElem?_set] at hc
            simp only [if_pos] at hc
            split at hc
            · exact hf.2 _ _ (Option.some.inj hc)
            · cases hc
          · intro hc
            rw [List.getElem?_set] at hc
            simp only [if_pos] at hc
            split at hc
            · exact hne (Option.some.inj hc)
            · cases hc
    · exact h j hk
  · rw [renameAnon_other _ _ _ _ _ _ hj]
    exact h k hk

theorem renameAnons_free (fresh : List Str → Str → Str) (hash : List Str → Nat) (l : List HashType) (i : Nat) (n : Str)
    (hf : NameFree fresh hash l i n) (is : List Nat) : ∀ names : List Str, (∀ k, k ≠ i → names[k]? ≠ some n) →
    ∀ k, k ≠ i → (is.foldl (renameAnon fresh hash l) names)[k]? ≠ some n := by
  induction is with
  | nil => intro names h; exact h
  | cons j is ih => intro names h; exact ih _ (renameAnon_free fresh hash l i n hf names h j)

/-- The name of an anonymous structure without anonymous fields, if no other type can get it: the hash of its declaration. -/
theorem anon_name (fresh : List Str → Str → Str) (hash : List Str → Nat) (l : List HashType) (i : Nat) (x : HashType) (p : Str)
    (fs : List HashField) (hx : l[i]? = some x) (hp : anonPrefix x.name = some p) (hfs : x.fields = some fs)
    (hn : ∀ a, HashField.struct a ∈ fs → ∃ y, l[a]? = some y ∧ anonPrefix y.name = none)
    (hf : NameFree fresh hash l i (p ++ Nat.toDigits 10 (hash (declText (l.map HashType.name) fs)))) :
    (structHashPass fresh hash l)[i]? = some (p ++ Nat.toDigits 10 (hash (declText (l.map HashType.name) fs))) := by
  have hi : i < l.length := (List.getElem?_eq_some_iff.mp hx).1
  obtain ⟨pre, post, hr⟩ := List.append_of_mem (List.mem_range.mpr hi)
  have hnd : (List.range l.length).Nodup := List.nodup_range
  rw [hr] at hnd
  have hpre : i ∉ pre := fun h => (List.nodup_append.mp hnd).2.2 i h i List.mem_cons_self rfl
  have hpost : i ∉ post := (List.nodup_cons.mp (List.nodup_append.mp hnd).2.1).1
  unfold structHashPass
  rw [hr, List.foldl_append, List.foldl_cons, renameAnons_other _ _ _ _ _ hpost]
  have hlen : ∀ (is : List Nat) (names : List Str), (is.foldl (renameAnon fresh hash l) names).length = names.length := by
    intro is
    induction is with
    | nil => intro names; rfl
    | cons j is ih =>
      intro names
      rw [List.foldl_cons, ih]
      unfold renameAnon
      split
      · unfold setTypeName
        split
        · rfl
        · split <;> rw [List.length_set]
      · rfl
  have hnamei : (pre.foldl (renameAnon fresh hash l) (l.map HashType.name))[i]? = some x.name := by
    rw [renameAnons_other _ _ _ _ _ hpre, List.getElem?_map, hx]
    rfl
  have hfree := renameAnons_free fresh hash l i _ hf pre (l.map HashType.name) (by
    intro k hk hc
    rw [List.getElem?_map] at hc
    cases hy : l[k]? with
    | none => rw [hy] at hc; cases hc
    | some y =>
      rw [hy] at hc
      exact (hf.1 k y hy hk).1 (Option.some.inj hc))
  have hdecl : declText (pre.foldl (renameAnon fresh hash l) (l.map HashType.name)) fs = declText (l.map HashType.name) fs := by
    unfold declText
    apply List.map_congr_left
    intro f hfm
    cases f with
    | text t => rfl
    | struct a =>
      obtain ⟨y, hy, hyp⟩ := hn a hfm
      dsimp only
      have h1 : (l.map HashType.name)[a]? = some y.name := by rw [List.getElem?_map, hy]; rfl
      rw [List.getD_eq_getElem?_getD, List.getD_eq_getElem?_getD, renameAnons_kept fresh hash l a y.name hyp pre _ h1, h1]
  generalize hN : pre.foldl (renameAnon fresh hash l) (l.map HashType.name) = names at *
  have hgd : names.getD i [] = x.name := by rw [List.getD_eq_getElem?_getD, hnamei]; rfl
  unfold renameAnon
  rw [hgd, hp, hx]
  simp only [Option.bind_some, hfs]
  rw [hdecl]
  unfold setTypeName
  split
  · rename_i h
    exact h
  · rename_i hne
    rw [if_neg]
    · have : i < names.length := (List.getElem?_eq_some_iff.mp hnamei).1
      rw [List.getElem?_set]
      simp [this]
    · intro hc
      have hc2 : _ ∈ names := List.contains_iff_mem.mp hc
      obtain ⟨k, hk⟩ := List.mem_iff_getElem?.mp hc2
      by_cases hki : k = i
      · exact hne (hki ▸ hk)
      · exact hfree k hki hk

/-- C144 for an anonymous structure whose fields are not anonymous structures, if no other type can get its new name: two versions
that declare it by the same text give it the same name. -/
theorem C144_same_partial (fresh : List Str → Str → Str) (hash : List Str → Nat) (l r : List HashType) (i j : Nat) (x y : HashType) (p : Str)
    (fs gs : List HashField) (hx : l[i]? = some x) (hy : r[j]? = some y)
    (hpx : anonPrefix x.name = some p) (hpy : anonPrefix y.name = some p) (hfs : x.fields = some fs) (hgs : y.fields = some gs)
    (hnl : ∀ a, HashField.struct a ∈ fs → ∃ z, l[a]? = some z ∧ anonPrefix z.name = none)
    (hnr : ∀ a, HashField.struct a ∈ gs → ∃ z, r[a]? = some z ∧ anonPrefix z.name = none)
    (hd : declText (l.map HashType.name) fs = declText (r.map HashType.name) gs)
    (hl : NameFree fresh hash l i (p ++ Nat.toDigits 10 (hash (declText (l.map HashType.name) fs))))
    (hr : NameFree fresh hash r j (p ++ Nat.toDigits 10 (hash (declText (r.map HashType.name) gs)))) :
    (structHashPass fresh hash l)[i]? = (structHashPass fresh hash r)[j]? := by
  rw [anon_name fresh hash l i x p fs hx hpx hfs hnl hl, anon_name fresh hash r j y p gs hy hpy hgs hnr hr, hd]

/-- The number of an anonymous structure changes, but it gets the same name. -/
example : (structHashPass (fun ns n => '#' :: freshName ns n) (fun d => d.length) [⟨str! "struct.anon", some [.struct 1, .text (str! "i32")]⟩, ⟨str! "struct.list", none⟩])[0]?
    = (structHashPass (fun ns n => '#' :: freshName ns n) (fun d => d.length) [⟨str! "struct.list", none⟩, ⟨str! "struct.anon.7", some [.struct 0, .text (str! "i32")]⟩])[1]? := by
  refine C144_same_partial _ _ _ _ 0 1 _ _ (str! "struct.anon.") _ _ rfl rfl (by decide) (by decide) rfl rfl ?_ ?_ (by decide) ?_ ?_
  · intro a ha
    simp only [List.mem_cons, HashField.struct.injEq, reduceCtorEq, List.not_mem_nil, or_false] at ha
    subst ha
    exact ⟨_, rfl, by decide⟩
  · intro a ha
    simp only [List.mem_cons, HashField.struct.injEq, reduceCtorEq, List.not_mem_nil, or_false] at ha
    subst ha
    exact ⟨_, rfl, by decide⟩
  · refine ⟨?_, fun names m h => by injection h with h; exact absurd h (by decide)⟩
    intro k x hk hne
    rcases k with _ | _ | k
    · exact absurd rfl hne
    · cases hk
      exact ⟨by decide, fun _ _ _ h => nomatch h⟩
    · cases hk
  · refine ⟨?_, fun names m h => by injection h with h; exact absurd h (by decide)⟩
    intro k x hk hne
    rcases k with _ | _ | k
    · cases hk
      exact ⟨by decide, fun _ _ _ h => nomatch h⟩
    · exact absurd rfl hne
    · cases hk

end DK
