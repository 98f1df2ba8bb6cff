import Verif.Lemmas.Fields

/-! Accesses to members of structures are compared by the names of the members: C121-C123. -/

set_option autoImplicit false

namespace DK
open Spec

/-! ### C121: index of a member and name at an index -/

def C121_statement : Prop :=
  ∀ (ms : List DMember) (m : DMember), ValidStruct ms → DistinctMembers ms → m ∈ ms →
    ∃ x ∈ ms, elementName ms (toU64 (memberIndex ms m.name)) = x.name ∧ unitOf x = unitOf m

/-- `struct { char a; int b __attribute__((aligned(8))); }`. -/
def exAligned : List DMember :=
  [⟨str! "a", 0, 8, 0, none⟩, ⟨str! "b", 64, 32, 64, none⟩]

/-- After an explicit alignment the index of a member counts the padding, but the name at an index
does not. -/
theorem C121_fails : ¬ C121_statement := fun h => by
  have := h exAligned ⟨str! "b", 64, 32, 64, none⟩
    (by simp [exAligned, ValidStruct, LaidOut, unitOf])
    (by unfold DistinctMembers; decide +kernel) (by decide +kernel)
  revert this
  decide +kernel

/-- In a structure without explicit alignments and empty members, also with bit fields, the index of
a member is its position, and the name at the position is that of a member of the same storage
unit. Missing: explicit alignments and empty members. -/
theorem C121_round_trip_partial (ms : List DMember) (m : DMember) (hv : ValidStruct ms)
    (hd : DistinctMembers ms) (hp : PlainMembers ms) (hm : m ∈ ms) :
    memberIndex ms m.name = placeOf ms m ∧
      ∃ x ∈ ms, elementName ms (placeOf ms m) = x.name ∧ unitOf x = unitOf m :=
  member_round hm hv hp hd

/-- A name that is found at an index is that of a member at this position. -/
theorem C121_name_partial (ms : List DMember) (n : Nat) (hv : ValidStruct ms)
    (hp : PlainMembers ms) (hn : elementName ms n ≠ []) :
    ∃ m ∈ ms, m.name = elementName ms n ∧ placeOf ms m = n :=
  elementName_at hn hv hp rfl

/-- `struct { int a; int f : 3; int g : 5; long b; }`. -/
def exBits : List DMember :=
  [⟨str! "a", 0, 32, 0, none⟩, ⟨str! "f", 32, 3, 0, some 32⟩, ⟨str! "g", 35, 5, 0, some 32⟩,
    ⟨str! "b", 64, 64, 0, none⟩]

example : ValidStruct exBits ∧ DistinctMembers exBits ∧ PlainMembers exBits ∧
    memberIndex exBits (str! "g") = 1 ∧ elementName exBits 1 = str! "f" ∧
    memberIndex exBits (str! "b") = 2 ∧ elementName exBits 2 = str! "b" := by
  refine ⟨by simp [exBits, ValidStruct, LaidOut, unitOf], ?_, ?_, ?_⟩
  · unfold DistinctMembers; decide +kernel
  · unfold PlainMembers; decide +kernel
  · decide +kernel

/-! ### C122: collected names are true -/

/-- The assumptions on the debug information and types of two modules: plain structures, and types
with the names that the modules give them. -/
def NamedModules (E : NameEnv) (namesL namesR : Nat → Option Str)
    (gs : List (Gep × Option Gep)) : Prop :=
  (∀ s ms, E.first s = some ms → PlainStruct ms) ∧
  (∀ s ms, E.second s = some ms → PlainStruct ms) ∧
  (∀ s t, E.typeByName s = some t → namesR t = some s) ∧
  ∀ g ∈ gs, HasNames namesL g.1.src ∧ ∀ o, g.2 = some o → HasNames namesR o.src

def C122_statement : Prop :=
  ∀ (E : NameEnv) (namesL namesR : Nat → Option Str) (gs : List (Gep × Option Gep)) (id n : Nat)
    (name : Str), NamedModules E namesL namesR gs → ((id, n), name) ∈ (recordAll E gs).names →
    n < 2 ^ 32 → name ≠ [] → TrueName E namesL namesR id n name

/-- `struct s { int a; int x; }` -/
def exS : List DMember := [⟨str! "a", 0, 32, 0, none⟩, ⟨str! "x", 32, 32, 0, none⟩]

/-- `struct t { int b; int y; }` -/
def exT : List DMember := [⟨str! "b", 0, 32, 0, none⟩, ⟨str! "y", 32, 32, 0, none⟩]

/-- Both modules have `struct s` and `struct t`. -/
def exNames : NameEnv where
  first n := if n = str! "s" then some exS else if n = str! "t" then some exT else none
  second n := if n = str! "s" then some exS else if n = str! "t" then some exT else none
  typeByName n :=
    if n = str! "struct.s" then some 3 else if n = str! "struct.t" then some 4 else none

/-- The types of the first module are 1 and 2, those of the second module are 3 and 4. -/
def exNamesL (id : Nat) : Option Str :=
  if id = 1 then some (str! "struct.s") else if id = 2 then some (str! "struct.t") else none
def exNamesR (id : Nat) : Option Str :=
  if id = 3 then some (str! "struct.s") else if id = 4 then some (str! "struct.t") else none

def exSrc (id : Nat) (name : Str) : FTy := .struct id name [.leaf 4, .leaf 4]

theorem exSrc_names {f : Nat → Option Str} {id : Nat} {name : Str} (h : f id = some name) :
    HasNames f (exSrc id name) := by
  intro is i nm es hw
  cases is with
  | nil => cases hw; exact h
  | cons j is =>
    simp only [exSrc, FTy.walk] at hw
    split at hw
    · rename_i t ht
      have : t = .leaf 4 := by
        cases j with
        | var v => simp [FTy.step] at ht
        | const n =>
          simp only [FTy.step] at ht
          have := List.mem_of_getElem? ht
          simpa using this
      subst this
      cases is with
      | nil => cases hw
      | cons k is => cases k <;> simp [FTy.walk, FTy.step] at hw
    · cases hw

theorem exS_plain : PlainStruct exS ∧ PlainStruct exT := by
  constructor
  all_goals
    refine ⟨by simp [exS, exT, ValidStruct, LaidOut, unitOf], ?_, ?_, by decide⟩
    · unfold PlainMembers; decide +kernel
    · unfold DistinctMembers; decide +kernel

theorem exNames_ok {gs : List (Gep × Option Gep)}
    (h : ∀ g ∈ gs, HasNames exNamesL g.1.src ∧ ∀ o, g.2 = some o → HasNames exNamesR o.src) :
    NamedModules exNames exNamesL exNamesR gs := by
  refine ⟨?_, ?_, ?_, h⟩
  · intro s ms h
    simp only [exNames] at h
    split_ifs at h
    · cases h; exact exS_plain.1
    · cases h; exact exS_plain.2
  · intro s ms h
    simp only [exNames] at h
    split_ifs at h
    · cases h; exact exS_plain.1
    · cases h; exact exS_plain.2
  · intro s t h
    simp only [exNames] at h
    split_ifs at h with h1 h2
    · cases h; rw [h1]; decide
    · cases h; rw [h2]; decide

/-- An access `s->x` in the first module, at whose position the second has an access to `t`. -/
def exUnrelated : List (Gep × Option Gep) :=
  [(⟨exSrc 1 (str! "struct.s"), [.const 0, .const 1]⟩,
    some ⟨exSrc 4 (str! "struct.t"), [.const 0, .const 0]⟩)]

/-- The name is recorded for whatever structure the instruction at the same position accesses:
`x` becomes the name of a member of `struct t`. -/
theorem C122_fails : ¬ C122_statement := fun h => by
  have := h exNames exNamesL exNamesR exUnrelated 4 1 (str! "x")
    (exNames_ok (by
      intro g hg
      simp only [exUnrelated, List.mem_singleton] at hg
      subst hg
      exact ⟨exSrc_names (by decide), fun o ho => by cases ho; exact exSrc_names (by decide)⟩))
    (by decide +kernel) (by decide) (by decide)
  rcases this with ⟨s, ms, h1, -, -⟩ | ⟨s, ms, h1, h2, m, hm, h3, -⟩
  · exact absurd h1 (by simp [exNamesL])
  · have hs : s = str! "struct.t" := by simpa [exNamesR] using h1.symm
    subst hs
    have hms : ms = exT := by
      have : exNames.second (cTypeName (str! "struct.t")) = some exT := by decide +kernel
      rw [this] at h2
      exact (Option.some.inj h2).symm
    subst hms
    have : ∀ m ∈ exT, m.name ≠ str! "x" := by decide +kernel
    exact this m ‹_› ‹_›

/-- All names that are collected are names of members at the recorded index, if instructions at the
same position are no accesses, or simple accesses `p->x` to structures with the same name. Missing:
other accesses at the same position. Names recorded for indices that no structure has are left
out. -/
theorem C122_names_partial (E : NameEnv) (namesL namesR : Nat → Option Str)
    (gs : List (Gep × Option Gep)) (id n : Nat) (name : Str)
    (hm : NamedModules E namesL namesR gs)
    (ho : ∀ g ∈ gs, ∀ o, g.2 = some o → sourceName o.src = sourceName g.1.src ∧
      g.1.idxs.length ≤ 2)
    (h : ((id, n), name) ∈ (recordAll E gs).names) (hn : n < 2 ^ 32) (hne : name ≠ []) :
    TrueName E namesL namesR id n name :=
  recordAll_ok hm.1 hm.2.1 hm.2.2.1
    (fun g hg => ⟨(hm.2.2.2 g hg).1, fun o hoo =>
      ⟨(hm.2.2.2 g hg).2 o hoo, (ho g hg o hoo).1, (ho g hg o hoo).2⟩⟩) id n name h hn hne

/-- Accesses `s->x` at the same position of both modules. -/
def exRelated : List (Gep × Option Gep) :=
  [(⟨exSrc 1 (str! "struct.s"), [.const 0, .const 1]⟩,
    some ⟨exSrc 3 (str! "struct.s"), [.const 0, .const 1]⟩),
   (⟨exSrc 2 (str! "struct.t"), [.const 0, .const 1]⟩, none)]

example : NamedModules exNames exNamesL exNamesR exRelated ∧
    (∀ g ∈ exRelated, ∀ o, g.2 = some o → sourceName o.src = sourceName g.1.src ∧
      g.1.idxs.length ≤ 2) ∧
    (recordAll exNames exRelated).names =
      [((1, 1), str! "x"), ((3, 1), str! "x"), ((2, 1), str! "y"), ((4, 1), str! "y")] := by
  refine ⟨exNames_ok ?_, ?_, by decide +kernel⟩
  · intro g hg
    simp only [exRelated, List.mem_cons, List.not_mem_nil, or_false] at hg
    rcases hg with rfl | rfl
    · exact ⟨exSrc_names (by decide), fun o ho => by cases ho; exact exSrc_names (by decide)⟩
    · exact ⟨exSrc_names (by decide), fun o ho => by cases ho⟩
  · intro g hg o ho
    simp only [exRelated, List.mem_cons, List.not_mem_nil, or_false] at hg
    rcases hg with rfl | rfl
    · cases ho; exact ⟨rfl, by decide⟩
    · cases ho

/-- In accesses to members of members the type is found with the index after the current one: the
access `p->m.x` of `struct o { struct i { int a; int x; } m; int n; }` leads to no name. -/
theorem C122_inner_names_missed :
    let o : FTy := .struct 1 (str! "struct.o") [exSrc 2 (str! "struct.i"), .leaf 4]
    let E : NameEnv := { first := fun n => if n = str! "i" then some exS else none
                         second := fun n => if n = str! "i" then some exS else none
                         typeByName := fun _ => some 3 }
    (recordAll E [(⟨o, [.const 0, .const 0, .const 1]⟩, none)]).names = [] ∧
    indexedType o [.const 0, .const 0] = some (exSrc 2 (str! "struct.i")) ∧
    elementName exS 1 = str! "x" ∧ memberIndex exS (str! "x") = 1 := by
  dsimp only
  exact ⟨by decide +kernel, rfl, by decide +kernel, by decide +kernel⟩

/-- A variable first index, as in `p[n].m.x`, does not hide the members after it: the structure of the other module is found with as many
indices as the one of this module. -/
theorem C122_variable_first_index :
    let src (a b : Nat) : FTy := .struct a (str! "struct.o") [.leaf 4, exSrc b (str! "struct.i")]
    let E : NameEnv := { first := fun _ => some exS, second := fun _ => some exS, typeByName := fun _ => none }
    (recordAll E [(⟨src 1 2, [.var 0, .const 1, .const 1]⟩, some ⟨src 4 3, [.var 0, .const 1, .const 1]⟩)]).names =
      [((1, 1), str! "x"), ((4, 1), str! "x"), ((2, 1), str! "x"), ((3, 1), str! "x")] := by
  decide +kernel

/-- Debug information is looked up under the name in C: without `struct.`, and without the suffix that LLVM adds to types of the same
name. -/
theorem C122_type_name (n s : Str) (hs : '.' ∉ s) :
    ('.' ∉ n → cTypeName (str! "struct." ++ n) = n) ∧ cTypeName (str! "struct." ++ (n ++ '.' :: s)) = n := by
  constructor
  · intro h
    have e : (str! "struct." ++ n).drop 7 = n := rfl
    unfold cTypeName
    rw [e]
    simp [h]
  · have e : (str! "struct." ++ (n ++ '.' :: s)).drop 7 = n ++ '.' :: s := rfl
    unfold cTypeName
    rw [e]
    have h2 : (n ++ '.' :: s).reverse = s.reverse ++ '.' :: n.reverse := by simp
    have h3 : ∀ (l m : Str), '.' ∉ l → (l ++ '.' :: m).dropWhile (· ≠ '.') = '.' :: m := by
      intro l m hl
      induction l with
      | nil => simp
      | cons c l ih =>
        rw [List.mem_cons, not_or] at hl
        rw [List.cons_append, List.dropWhile_cons, if_pos (by simpa using fun h => hl.1 h.symm), ih hl.2]
    simp only [List.mem_append, List.mem_cons, true_or, or_true, if_true]
    rw [h2, h3 _ _ (by simpa using hs)]
    simp

example : cTypeName (str! "struct.page.12") = str! "page" := by decide

/-! ### C123: accesses that are found equal -/

def C123_statement : Prop :=
  ∀ (E : GepEnv) (field : Nat → Nat → Option Str) (l r : Gep) (is js : List Nat),
    (∀ id n x, Dict.get? E.names (id, n) = some x → field id n = some x) →
    E.offsetL = byteOffset → E.offsetR = byteOffset →
    constIdxs l.idxs = some is → constIdxs r.idxs = some js →
    gepEq true E l r = true →
    byteOffset l.src is = byteOffset r.src js ∨ SameAccess field l.src r.src is js

def exGepEnv (names : Dict (Nat × Nat) Str) : GepEnv where
  names := names
  offsetL := byteOffset
  offsetR := byteOffset
  typeEq _ _ := false
  valueEq _ _ := false
  enumL _ := false
  enumR _ := false

/-- `struct s { int a; long b; }` of the first module. -/
def exOld : FTy := .struct 1 (str! "struct.s") [.leaf 4, .leaf 8]

/-- `struct s { int a; int c; long b; }` of the second module. -/
def exNew : FTy := .struct 2 (str! "struct.s") [.leaf 4, .leaf 4, .leaf 8]

/-- Names of the members of both structures. -/
def exField (id n : Nat) : Option Str :=
  if id = 1 then [str! "a", str! "b"][n]? else
  if id = 2 then [str! "a", str! "c", str! "b"][n]? else none

/-- Different members at the same index are equal, although their names are known: `p->b` of the
first module and `p->c` of the second one. -/
theorem C123_fails : ¬ C123_statement := fun h => by
  have := h (exGepEnv [((1, 1), str! "b"), ((2, 1), str! "c"), ((2, 2), str! "b")]) exField
    ⟨exOld, [.const 0, .const 1]⟩ ⟨exNew, [.const 0, .const 1]⟩ [0, 1] [0, 1]
    (by
      intro id n x hx
      simp only [exGepEnv, Dict.get?] at hx
      split_ifs at hx <;> cases hx <;> rename_i hk <;> cases hk <;> decide)
    rfl rfl rfl rfl (by decide +kernel)
  rcases this with h1 | ⟨-, ⟨x, h1, h2⟩, -⟩
  · exact absurd h1 (by decide +kernel)
  · have h3 : exField 1 1 = some (str! "b") := by decide +kernel
    have h4 : exField 2 1 = some (str! "c") := by decide +kernel
    rw [h3] at h1
    rw [h4] at h2
    rw [← h2] at h1
    exact absurd h1 (by decide)

/-- `struct s { int b; long c; }` of the first module. -/
def exOld' : FTy := .struct 1 (str! "struct.s") [.leaf 4, .leaf 8]

/-- Names of the members if a first member was added. -/
def exField' (id n : Nat) : Option Str :=
  if id = 1 then [str! "b", str! "c"][n]? else
  if id = 2 then [str! "a", str! "b", str! "c"][n]? else none

/-- The number of the array element is compared as if it was the index of a member: `p[0].c` of the
first module is equal to `p[1].c` of the second one. -/
theorem C123_fails_element : ¬ C123_statement := fun h => by
  have := h (exGepEnv [((1, 0), str! "b"), ((2, 1), str! "b"), ((1, 1), str! "c"),
      ((2, 2), str! "c")]) exField'
    ⟨exOld', [.const 0, .const 1]⟩ ⟨exNew, [.const 1, .const 2]⟩ [0, 1] [1, 2]
    (by
      intro id n x hx
      simp only [exGepEnv, Dict.get?] at hx
      split_ifs at hx <;> cases hx <;> rename_i hk <;> cases hk <;> decide)
    rfl rfl rfl rfl (by decide +kernel)
  rcases this with h1 | ⟨h1, -⟩
  · exact absurd h1 (by decide +kernel)
  · exact absurd h1 (by decide)

/-- Accesses with constant indices to structures, with the same first index, that are found equal
have the same offset, or begin with structures of the same C name and have at each level the same
member name or the same index. Missing: different members at the same index, and different array
elements. -/
theorem C123_members_partial (E : GepEnv) (field : Nat → Nat → Option Str) (l r : Gep)
    (i : Nat) (is js : List Nat)
    (hn : ∀ id n x, Dict.get? E.names (id, n) = some x → field id n = some x)
    (hl : constIdxs l.idxs = some (i :: is)) (hr : constIdxs r.idxs = some (i :: js))
    (ha : ∀ n e, l.src ≠ .arr n e)
    (h : gepEq true E l r = true) :
    E.offsetL l.src (i :: is) = E.offsetR r.src (i :: js) ∨
      (sourceName l.src).map cTypeName = (sourceName r.src).map cTypeName ∧
        SameMemberOrIndex field l.src r.src is js := by
  unfold gepEq at h
  rw [Bool.or_eq_true] at h
  rcases h with h | h
  · left
    simpa [gepOrig, hl, hr] using h
  · right
    rw [Bool.true_and] at h
    split at h
    · rename_i n e _ _ heq _; exact absurd heq (ha n e)
    · rename_i hsl hsr
      simp only [Bool.and_eq_true, beq_iff_eq, hl, hr] at h
      obtain ⟨⟨hname, hlen⟩, hgo⟩ := h
      refine ⟨by rw [hsl, hsr]; simp [sourceName, hname], ?_⟩
      have hl2 := constIdxs_length hl
      have hr2 := constIdxs_length hr
      simp only [namesGo, Bool.and_eq_true, List.nil_append] at hgo
      refine namesGo_sound hn is js [i] [i] l.src r.src ?_ (by simp) (by simp) rfl rfl hgo.2
      simp only [List.length_cons] at hl2 hr2
      omega
    · cases h

/-- Without the pattern for changed structures, accesses with constant indices are equal exactly if
they have the same offset. -/
theorem C123_without_pattern (E : GepEnv) (l r : Gep) (is js : List Nat)
    (hl : constIdxs l.idxs = some is) (hr : constIdxs r.idxs = some js) :
    gepEq false E l r = true ↔ E.offsetL l.src is = E.offsetR r.src js := by
  simp [gepEq, gepOrig, hl, hr]

/-- Without the pattern, accesses with an index that is no constant are equal exactly if they start with equal types and have equal
indices in the same number. -/
theorem C123_variable_indices (E : GepEnv) (l r : Gep) (h : constIdxs l.idxs = none ∨ constIdxs r.idxs = none) :
    gepEq false E l r = true ↔
      E.typeEq l.src r.src = true ∧ List.Forall₂ (SameIndex E.valueEq) l.idxs r.idxs := by
  have one : ∀ i j : GIdx, E.idxEq i j = true ↔ SameIndex E.valueEq i j := by
    intro i j
    cases i <;> cases j <;> simp [GepEnv.idxEq, SameIndex]
  have key : ∀ is js : List GIdx, E.idxsEq is js = true ↔ List.Forall₂ (SameIndex E.valueEq) is js := by
    intro is
    induction is with
    | nil =>
      intro js
      cases js <;> simp [GepEnv.idxsEq]
    | cons i is ih =>
      intro js
      cases js with
      | nil => simp [GepEnv.idxsEq]
      | cons j js => simp [GepEnv.idxsEq, ih, one]
  have e : gepOrig E l r = (E.typeEq l.src r.src && E.idxsEq l.idxs r.idxs) := by
    unfold gepOrig
    rcases h with h | h
    · rw [h]
    · rw [h]
      cases constIdxs l.idxs <;> rfl
  simp [gepEq, e, key]

/-- `a[i].x` and `a[j].x` for equal variables `i` and `j`. -/
example : gepEq false { exGepEnv [] with typeEq := fun _ _ => true, valueEq := fun a b => a == b + 1 }
    ⟨exOld, [.var 2, .const 1]⟩ ⟨exNew, [.var 1, .const 1]⟩ = true := by decide +kernel

example : gepEq true (exGepEnv [((1, 1), str! "b"), ((2, 2), str! "b")])
      ⟨exOld, [.const 0, .const 1]⟩ ⟨exNew, [.const 0, .const 2]⟩ = true ∧
    gepEq true (exGepEnv [((1, 1), str! "b"), ((2, 2), str! "b")])
      ⟨exOld, [.const 0, .const 0]⟩ ⟨exNew, [.const 0, .const 1]⟩ = false ∧
    gepEq false (exGepEnv [((1, 1), str! "b"), ((2, 2), str! "b")])
      ⟨exNew, [.const 0, .const 1]⟩ ⟨exNew, [.const 0, .const 2]⟩ = false := by decide +kernel

end DK
