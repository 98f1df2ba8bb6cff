import Verif.Spec.StructInfo
import Verif.Lemmas.Dict
import Verif.Props.Text
import Mathlib.Data.List.Chain

/-!
C141, C142: reports of differences between structures.
-/

set_option autoImplicit false

namespace DK

open Spec

/-! ### The search in debug information -/

theorem dieSearch_sound (g : List DieNode) (R : Nat → Prop) (Q : Str → Nat → Prop)
    (hR : ∀ n (hn : n < g.length), R n → ∀ m ∈ (g[n]).next, R m)
    (hQ : ∀ n c name es f l, R n → g[n]? = some (.composite true c name es f l) → name ≠ [] → Q name n)
    (st done : List Nat) (res : Dict Str Nat) (hst : ∀ n ∈ st, R n)
    (hres : ∀ name n, Dict.get? res name = some n → Q name n) :
    ∀ name n, Dict.get? (dieSearch g st done res) name = some n → Q name n := by
  induction st, done, res using dieSearch.induct g with
  | case1 done res => rw [dieSearch]; exact hres
  | case2 n st done res hd ih =>
    rw [dieSearch, dif_pos hd]
    exact ih (fun m hm => hst m (List.mem_cons_of_mem _ hm)) hres
  | case3 n st done res hd hn ih =>
    rw [dieSearch, dif_neg hd, dif_pos hn]
    have hRn : R n := hst n List.mem_cons_self
    apply ih
    · intro m hm
      rcases List.mem_append.mp hm with hm | hm
      · exact hR n hn hRn m (List.mem_reverse.mp hm)
      · exact hst m (List.mem_cons_of_mem _ hm)
    · intro name m hm
      have hg : g[n]? = some g[n] := List.getElem?_eq_getElem hn
      generalize g[n] = k at hm hg
      unfold DieNode.enter at hm
      split at hm
      · split at hm
        · exact hres name m hm
        · rename_i hne
          rw [Dict.get?_set] at hm
          split at hm
          · rename_i he
            injection hm with hm
            subst hm
            subst he
            exact hQ _ _ _ _ _ _ hRn hg hne
          · exact hres name m hm
      · exact hres name m hm
  | case4 n st done res hd hn ih =>
    rw [dieSearch, dif_neg hd, dif_neg hn]
    exact ih (fun m hm => hst m (List.mem_cons_of_mem _ hm)) hres

theorem enter_keeps (k : DieNode) (n : Nat) (res : Dict Str Nat) (name : Str) (h : (Dict.get? res name).isSome = true) :
    (Dict.get? (k.enter n res) name).isSome = true := by
  unfold DieNode.enter
  split
  · split
    · exact h
    · rw [Dict.get?_set]
      split
      · rfl
      · exact h
  · exact h

theorem dieSearch_keeps (g : List DieNode) (st done : List Nat) (res : Dict Str Nat) (name : Str)
    (h : (Dict.get? res name).isSome = true) : (Dict.get? (dieSearch g st done res) name).isSome = true := by
  induction st, done, res using dieSearch.induct g with
  | case1 done res => rw [dieSearch]; exact h
  | case2 n st done res hd ih => rw [dieSearch, dif_pos hd]; exact ih h
  | case3 n st done res hd hn ih => rw [dieSearch, dif_neg hd, dif_pos hn]; exact ih (enter_keeps _ _ _ _ h)
  | case4 n st done res hd hn ih => rw [dieSearch, dif_neg hd, dif_neg hn]; exact ih h

theorem dieSearch_complete (g : List DieNode) (st done : List Nat) (res : Dict Str Nat)
    (h1 : ∀ n ∈ done, ∀ hn : n < g.length, ∀ m ∈ (g[n]).next, m ∈ done ∨ m ∈ st)
    (h2 : ∀ n ∈ done, ∀ c name es f l, g[n]? = some (.composite true c name es f l) → name ≠ [] →
      (Dict.get? res name).isSome = true) :
    ∃ D : List Nat, (∀ n ∈ done, n ∈ D) ∧ (∀ n ∈ st, n ∈ D) ∧ (∀ n ∈ D, ∀ hn : n < g.length, ∀ m ∈ (g[n]).next, m ∈ D) ∧
      ∀ n ∈ D, ∀ c name es f l, g[n]? = some (.composite true c name es f l) → name ≠ [] →
        (Dict.get? (dieSearch g st done res) name).isSome = true := by
  induction st, done, res using dieSearch.induct g with
  | case1 done res =>
    rw [dieSearch]
    refine ⟨done, fun _ h => h, fun _ h => absurd h List.not_mem_nil, fun n hn hl m hm => ?_, h2⟩
    rcases h1 n hn hl m hm with h | h
    · exact h
    · exact absurd h List.not_mem_nil
  | case2 n st done res hd ih =>
    rw [dieSearch, dif_pos hd]
    have hdn : n ∈ done := by simpa using hd
    obtain ⟨D, ha, hb, hc, hdd⟩ := ih (fun k hk hl m hm => by
      rcases h1 k hk hl m hm with h | h
      · exact Or.inl h
      · rcases List.mem_cons.mp h with h | h
        · exact Or.inl (h ▸ hdn)
        · exact Or.inr h) h2
    refine ⟨D, ha, ?_, hc, hdd⟩
    intro m hm
    rcases List.mem_cons.mp hm with h | h
    · exact ha m (h ▸ hdn)
    · exact hb m h
  | case3 n st done res hd hn ih =>
    rw [dieSearch, dif_neg hd, dif_pos hn]
    obtain ⟨D, ha, hb, hc, hdd⟩ := ih (fun k hk hl m hm => by
      rcases List.mem_cons.mp hk with h | h
      · subst h
        exact Or.inr (List.mem_append.mpr (Or.inl (List.mem_reverse.mpr hm)))
      · rcases h1 k h hl m hm with h | h
        · exact Or.inl (List.mem_cons_of_mem _ h)
        · rcases List.mem_cons.mp h with h | h
          · exact Or.inl (h ▸ List.mem_cons_self)
          · exact Or.inr (List.mem_append.mpr (Or.inr h)))
      (fun k hk c name es f l hg hne => by
        rcases List.mem_cons.mp hk with h | h
        · subst h
          rw [List.getElem?_eq_getElem hn] at hg
          injection hg with hg
          rw [hg]
          unfold DieNode.enter
          simp only [if_neg hne, Dict.get?_set_self, Option.isSome_some]
        · exact enter_keeps _ _ _ _ (h2 k h c name es f l hg hne))
    refine ⟨D, fun m hm => ha m (List.mem_cons_of_mem _ hm), ?_, hc, hdd⟩
    intro m hm
    rcases List.mem_cons.mp hm with h | h
    · exact ha m (h ▸ List.mem_cons_self)
    · exact hb m (List.mem_append.mpr (Or.inr h))
  | case4 n st done res hd hn ih =>
    rw [dieSearch, dif_neg hd, dif_neg hn]
    obtain ⟨D, ha, hb, hc, hdd⟩ := ih (fun k hk hl m hm => by
      rcases List.mem_cons.mp hk with h | h
      · exact absurd (h ▸ hl) hn
      · rcases h1 k h hl m hm with h | h
        · exact Or.inl (List.mem_cons_of_mem _ h)
        · rcases List.mem_cons.mp h with h | h
          · exact Or.inl (h ▸ List.mem_cons_self)
          · exact Or.inr h)
      (fun k hk c name es f l hg hne => by
        rcases List.mem_cons.mp hk with h | h
        · subst h
          exact absurd (List.getElem?_eq_some_iff.mp hg).1 hn
        · exact h2 k h c name es f l hg hne)
    refine ⟨D, fun m hm => ha m (List.mem_cons_of_mem _ hm), ?_, hc, hdd⟩
    intro m hm
    rcases List.mem_cons.mp hm with h | h
    · exact ha m (h ▸ List.mem_cons_self)
    · exact hb m h

theorem mentions_iff (d : DieMod) (n : Nat) (hn : n < d.nodes.length) (m : Nat) :
    DieMentions d n m ↔ m ∈ (d.nodes[n]).next := by
  unfold DieMentions
  rw [List.getElem?_eq_getElem hn]
  generalize d.nodes[n] = k
  cases k with
  | derived b =>
    cases b with
    | none => simp [DieNode.next]
    | some b => simp [DieNode.next, eq_comm]
  | composite s c name es f l =>
    simp only [DieNode.next]
    constructor
    · rintro (h | ⟨_, _, _, _, _, _, h, hm⟩)
      · cases h
      · cases h; exact hm
    · intro hm
      exact Or.inr ⟨_, _, _, _, _, _, rfl, hm⟩
  | other => simp [DieNode.next]

theorem mentions_lt {d : DieMod} {n m : Nat} (h : DieMentions d n m) : n < d.nodes.length := by
  rcases h with h | ⟨_, _, _, _, _, _, h, _⟩
  · exact (List.getElem?_eq_some_iff.mp h).1
  · exact (List.getElem?_eq_some_iff.mp h).1

theorem structInfo_sound (d : DieMod) (name : Str) (n : Nat) (h : Dict.get? (structInfo d) name = some n) :
    Found d n ∧ ∃ f l, Describes d n name f l := by
  have key : ∀ (us : List (List Nat × List Nat)) (res : Dict Str Nat), (∀ u ∈ us, u ∈ d.units) →
      (∀ name n, Dict.get? res name = some n → Found d n ∧ ∃ f l, Describes d n name f l) →
      ∀ name n, Dict.get? (us.foldl (fun res u => dieSearch d.nodes (u.1 ++ u.2).reverse [] res) res) name = some n →
        Found d n ∧ ∃ f l, Describes d n name f l := by
    intro us
    induction us with
    | nil => intro res _ h; exact h
    | cons u us ih =>
      intro res hu h
      apply ih _ (fun v hv => hu v (List.mem_cons_of_mem _ hv))
      apply dieSearch_sound d.nodes (Found d) (fun name n => Found d n ∧ ∃ f l, Describes d n name f l)
      · intro k hk hf m hm
        exact Found.step hf ((mentions_iff d k hk m).mpr hm)
      · intro k c nm es f l hf hg hne
        exact ⟨hf, f, l, hne, c, es, hg⟩
      · intro k hk
        exact Found.root (hu u List.mem_cons_self) (List.mem_append.mp (List.mem_reverse.mp hk))
      · exact h
  exact key d.units [] (fun _ h => h) (fun _ _ h => nomatch h) name n h

theorem structInfo_complete (d : DieMod) (n : Nat) (name f : Str) (l : Nat) (hf : Found d n) (hd : Describes d n name f l) :
    ∃ m, Dict.get? (structInfo d) name = some m := by
  have keep : ∀ (us : List (List Nat × List Nat)) (res : Dict Str Nat), (Dict.get? res name).isSome = true →
      (Dict.get? (us.foldl (fun res u => dieSearch d.nodes (u.1 ++ u.2).reverse [] res) res) name).isSome = true := by
    intro us
    induction us with
    | nil => intro _ h; exact h
    | cons u us ih => intro res h; exact ih _ (dieSearch_keeps _ _ _ _ _ h)
  -- every found node is reached from one compile unit
  have hun : ∃ u ∈ d.units, ∀ D : List Nat, (∀ k ∈ u.1 ++ u.2, k ∈ D) →
      (∀ k ∈ D, ∀ hk : k < d.nodes.length, ∀ m ∈ (d.nodes[k]).next, m ∈ D) → n ∈ D := by
    clear hd
    induction hf with
    | root hu hr => exact ⟨_, hu, fun D h _ => h _ (List.mem_append.mpr hr)⟩
    | step hfn hm ih =>
      obtain ⟨u, hu, h⟩ := ih
      exact ⟨u, hu, fun D ha hb => hb _ (h D ha hb) (mentions_lt hm) _ ((mentions_iff d _ (mentions_lt hm) _).mp hm)⟩
  obtain ⟨u, hu, h⟩ := hun
  obtain ⟨pre, post, hsp⟩ := List.append_of_mem hu
  unfold structInfo
  rw [hsp, List.foldl_append, List.foldl_cons]
  apply Option.isSome_iff_exists.mp
  apply keep
  obtain ⟨D, _, hb, hc, hdd⟩ := dieSearch_complete d.nodes (u.1 ++ u.2).reverse []
    (pre.foldl (fun res u => dieSearch d.nodes (u.1 ++ u.2).reverse [] res) [])
    (fun k hk => absurd hk List.not_mem_nil) (fun k hk => absurd hk List.not_mem_nil)
  obtain ⟨hne, c, es, hg⟩ := hd
  exact hdd n (h D (fun k hk => hb k (List.mem_reverse.mpr hk)) hc) c name es f l hg hne

/-! ### Reports -/

/-- C141: a difference between two structures of the same name on the way of a field access is reported with the places of
their definitions. -/
def C141_statement : Prop :=
  ∀ (dl dr : DieMod) (differ : Str → Str → Bool) (tl tr : List (Option Str)) (name : Str) (nl nr : Nat) (fl fr : Str) (ll lr : Nat),
    Clash differ tl tr name →
    Defines dl nl name fl ll → (∀ m f l, Defines dl m name f l → m = nl) →
    Defines dr nr name fr lr → (∀ m f l, Defines dr m name f l → m = nr) →
    (⟨name, fl, fr, (ll : Int) - 1, (lr : Int) - 1⟩ : TypeDiff) ∈ findTypeDifferences dl dr differ tl tr

def siteDie (file : Str) (line : Nat) : DieNode := .composite true false (str! "site") [] file line

/-- The structure is used only in a function, so that no retained type or global variable leads to it. -/
theorem C141_fails : ¬ C141_statement := by
  intro h
  have := h ⟨[siteDie (str! "a.c") 5], [([], [])]⟩ ⟨[siteDie (str! "a.c") 6], [([], [])]⟩ (fun _ _ => true)
    [some (str! "struct.site")] [some (str! "struct.site")] (str! "site") 0 0 (str! "a.c") (str! "a.c") 5 6
    ⟨0, str! "struct.site", str! "struct.site", rfl, rfl, (stem_iff _ _).mpr (by decide), (stem_iff _ _).mpr (by decide), rfl⟩
    ⟨by decide, _, rfl⟩ (by rintro m f l ⟨_, _, hm⟩; have := (List.getElem?_eq_some_iff.mp hm).1; simp at this; exact this)
    ⟨by decide, _, rfl⟩ (by rintro m f l ⟨_, _, hm⟩; have := (List.getElem?_eq_some_iff.mp hm).1; simp at this; exact this)
  revert this
  simp [findTypeDifferences, typePairDifference, findTypeDifference, structInfo, dieSearch, Dict.get?]

/-- Another compile unit of the old version only declares the structure: the declaration is reported instead of the
definition. -/
theorem C141_fails_declaration : ¬ C141_statement := by
  intro h
  have := h ⟨[siteDie (str! "a.c") 5, .composite true true (str! "site") [] (str! "b.h") 2], [([0], []), ([1], [])]⟩
    ⟨[siteDie (str! "a.c") 6], [([0], [])]⟩ (fun _ _ => true)
    [some (str! "struct.site")] [some (str! "struct.site")] (str! "site") 0 0 (str! "a.c") (str! "a.c") 5 6
    ⟨0, str! "struct.site", str! "struct.site", rfl, rfl, (stem_iff _ _).mpr (by decide), (stem_iff _ _).mpr (by decide), rfl⟩
    ⟨by decide, _, rfl⟩ (by
      rintro m f l ⟨_, _, hm⟩
      rcases m with _ | _ | m
      · rfl
      · cases hm
      · cases hm)
    ⟨by decide, _, rfl⟩ (by rintro m f l ⟨_, _, hm⟩; have := (List.getElem?_eq_some_iff.mp hm).1; simp at this; exact this)
  revert this
  simp [findTypeDifferences, typePairDifference, findTypeDifference, structInfo, dieSearch, Dict.get?, siteDie, DieNode.next,
    DieNode.enter, Dict.set, structKey, stem, diePos]

/-- The type has a suffix in the old version: its debug information is looked up with the suffix. -/
theorem C141_fails_suffix : ¬ C141_statement := by
  intro h
  have := h ⟨[siteDie (str! "a.c") 5], [([0], [])]⟩ ⟨[siteDie (str! "a.c") 6], [([0], [])]⟩ (fun _ _ => true)
    [some (str! "struct.site.12")] [some (str! "struct.site")] (str! "site") 0 0 (str! "a.c") (str! "a.c") 5 6
    ⟨0, str! "struct.site.12", str! "struct.site", rfl, rfl, (stem_iff _ _).mpr (by decide), (stem_iff _ _).mpr (by decide), rfl⟩
    ⟨by decide, _, rfl⟩ (by rintro m f l ⟨_, _, hm⟩; have := (List.getElem?_eq_some_iff.mp hm).1; simp at this; exact this)
    ⟨by decide, _, rfl⟩ (by rintro m f l ⟨_, _, hm⟩; have := (List.getElem?_eq_some_iff.mp hm).1; simp at this; exact this)
  revert this
  simp [findTypeDifferences, typePairDifference, findTypeDifference, structInfo, dieSearch, Dict.get?, siteDie, DieNode.next,
    DieNode.enter, Dict.set, structKey, stem, diePos]

theorem structKey_struct (name : Str) : structKey (str! "struct." ++ name) = name := by
  unfold structKey
  rw [if_pos (by rw [List.isPrefixOf_iff_prefix]; exact List.prefix_append _ _)]
  rfl

theorem diePos_describes {d : DieMod} {n : Nat} {name f : Str} {l : Nat} (h : Describes d n name f l) :
    diePos d n = (f, (l : Int) - 1) := by
  obtain ⟨_, c, es, hg⟩ := h
  unfold diePos
  rw [hg]

/-- C141 when the old type has no suffix and each version has only one structure of this name that is found from the retained
types and global variables. -/
theorem C141_reported_partial (dl dr : DieMod) (differ : Str → Str → Bool) (tl tr : List (Option Str)) (i : Nat) (name r : Str)
    (nl nr : Nat) (fl fr : Str) (ll lr : Nat)
    (hl : tl[i]? = some (some (str! "struct." ++ name))) (hr : tr[i]? = some (some r))
    (hsl : Stem (str! "struct." ++ name) (str! "struct." ++ name)) (hsr : Stem r (str! "struct." ++ name))
    (hd : differ (str! "struct." ++ name) r = true)
    (hfl : Found dl nl) (hdl : Describes dl nl name fl ll) (hul : ∀ m f l, Found dl m → Describes dl m name f l → m = nl)
    (hfr : Found dr nr) (hdr : Describes dr nr name fr lr) (hur : ∀ m f l, Found dr m → Describes dr m name f l → m = nr) :
    (⟨name, fl, fr, (ll : Int) - 1, (lr : Int) - 1⟩ : TypeDiff) ∈ findTypeDifferences dl dr differ tl tr := by
  have hgl : Dict.get? (structInfo dl) name = some nl := by
    obtain ⟨m, hm⟩ := structInfo_complete dl nl name fl ll hfl hdl
    obtain ⟨h1, f, l, h2⟩ := structInfo_sound dl name m hm
    rw [hm, hul m f l h1 h2]
  have hgr : Dict.get? (structInfo dr) name = some nr := by
    obtain ⟨m, hm⟩ := structInfo_complete dr nr name fr lr hfr hdr
    obtain ⟨h1, f, l, h2⟩ := structInfo_sound dr name m hm
    rw [hm, hur m f l h1 h2]
  unfold findTypeDifferences
  rw [List.mem_filterMap]
  refine ⟨(some (str! "struct." ++ name), some r), ?_, ?_⟩
  · apply List.mem_of_getElem? (i := i)
    rw [List.getElem?_zip_eq_some]
    exact ⟨hl, hr⟩
  · unfold typePairDifference
    dsimp only
    rw [← (stem_iff _ _).mp hsl, ← (stem_iff _ _).mp hsr, if_pos rfl]
    unfold findTypeDifference
    rw [if_pos hd, structKey_struct, hgl, hgr]
    dsimp only
    rw [diePos_describes hdl, diePos_describes hdr]

/-- What is reported is a difference: at one place the field accesses go through structures whose names are the same up to
suffixes and that differ, and the places are those of structures of the reported name. -/
theorem C141_only_partial (dl dr : DieMod) (differ : Str → Str → Bool) (tl tr : List (Option Str)) (t : TypeDiff)
    (h : t ∈ findTypeDifferences dl dr differ tl tr) :
    ∃ (i : Nat) (l r b : Str) (nl nr ll lr : Nat), tl[i]? = some (some l) ∧ tr[i]? = some (some r) ∧ Stem l b ∧ Stem r b ∧
      differ l r = true ∧ (l = str! "struct." ++ t.name ∨ l = t.name) ∧
      Found dl nl ∧ Describes dl nl t.name t.fileL ll ∧ t.lineL = (ll : Int) - 1 ∧
      Found dr nr ∧ Describes dr nr t.name t.fileR lr ∧ t.lineR = (lr : Int) - 1 := by
  unfold findTypeDifferences at h
  obtain ⟨⟨a, b⟩, hm, hp⟩ := List.mem_filterMap.mp h
  obtain ⟨i, hi⟩ := List.mem_iff_getElem?.mp hm
  rw [List.getElem?_zip_eq_some] at hi
  unfold typePairDifference at hp
  cases a with
  | none => cases hp
  | some l =>
    cases b with
    | none => cases hp
    | some r =>
      dsimp only at hp
      split at hp
      · rename_i hs
        unfold findTypeDifference at hp
        split at hp
        · rename_i hd
          split at hp
          · rename_i x y hx hy
            injection hp with hp
            obtain ⟨hfx, fx, lx, hdx⟩ := structInfo_sound dl _ _ hx
            obtain ⟨hfy, fy, ly, hdy⟩ := structInfo_sound dr _ _ hy
            rw [diePos_describes hdx, diePos_describes hdy] at hp
            subst hp
            refine ⟨i, l, r, stem l, x, y, lx, ly, hi.1, hi.2, (stem_iff _ _).mpr rfl, (stem_iff _ _).mpr hs, hd, ?_, hfx, hdx, rfl,
              hfy, hdy, rfl⟩
            dsimp only
            unfold structKey
            split
            · rename_i hpre
              obtain ⟨rest, hrest⟩ := List.isPrefixOf_iff_prefix.mp hpre
              left
              rw [← hrest]
              rfl
            · exact Or.inr rfl
          · cases hp
        · cases hp
      · cases hp

/-- A list of sites leads to the structure through a pointer, and both versions define it. -/
example : (⟨str! "site", str! "a.c", str! "a.c", 4, 5⟩ : TypeDiff) ∈ findTypeDifferences
    ⟨[.derived (some 1), .composite true false (str! "list") [0, 2] (str! "l.h") 1, siteDie (str! "a.c") 5], [([0], [])]⟩
    ⟨[siteDie (str! "a.c") 6, .other], [([], [1, 0])]⟩ (fun _ _ => true)
    [none, some (str! "struct.site")] [some (str! "struct.list"), some (str! "struct.site.4")] :=
  C141_reported_partial _ _ _ _ _ 1 (str! "site") (str! "struct.site.4") 2 0 (str! "a.c") (str! "a.c") 5 6 rfl rfl
    ((stem_iff _ _).mpr (by decide)) ((stem_iff _ _).mpr (by decide)) rfl
    (Found.step (n := 1) (Found.step (n := 0) (Found.root (u := ([0], [])) (by simp) (Or.inl (by simp))) (Or.inl rfl))
      (Or.inr ⟨_, _, _, _, _, _, rfl, by simp⟩))
    ⟨by decide, _, _, rfl⟩ (by
      rintro m f l _ ⟨_, _, _, hm⟩
      rcases m with _ | _ | _ | m
      · cases hm
      · cases hm
      · rfl
      · cases hm)
    (Found.root (u := ([], [1, 0])) (by simp) (Or.inr (by simp)))
    ⟨by decide, _, _, rfl⟩ (by
      rintro m f l _ ⟨_, _, _, hm⟩
      rcases m with _ | _ | m
      · rfl
      · cases hm
      · cases hm)

/-! ### Types on the way of a field access -/

/-- C142: when a difference is found at the end of a field access, the types of all its GEPs are looked at. -/
def C142_statement : Prop :=
  ∀ (pre post w : List FaInst) (first last : FaInst) (t : Option Str),
    ((pre ++ first :: post).map FaInst.id).Nodup →
    accessStart (pre ++ first :: post).reverse last.id = some first.id →
    AccessWay (first :: post) (first :: w) → (first :: w).getLast? = some last →
    (∃ i ∈ first :: w, GoesThrough i t) → t ∈ sourceTypes (first :: post)

/-- Two fields of a structure are used one after another, and only the first use is followed. -/
theorem C142_fails : ¬ C142_statement := by
  intro h
  have := h [] [⟨1, .gep (some (str! "struct.b")) none, some 0⟩, ⟨2, .gep (some (str! "struct.c")) none, some 0⟩]
    [⟨2, .gep (some (str! "struct.c")) none, some 0⟩] ⟨0, .gep (some (str! "struct.a")) none, none⟩
    ⟨2, .gep (some (str! "struct.c")) none, some 0⟩ (some (str! "struct.c")) (by decide) (by decide)
    ⟨by decide, by simp [TakesFurther]⟩ rfl ⟨_, List.mem_cons_of_mem _ List.mem_cons_self, _, rfl⟩
  exact absurd this (by decide)

/-- The pointer is converted to a number and back. -/
theorem C142_fails_number : ¬ C142_statement := by
  intro h
  have := h [] [⟨1, .cast true, some 0⟩, ⟨2, .cast false, some 1⟩, ⟨3, .gep (some (str! "struct.c")) none, some 2⟩]
    [⟨1, .cast true, some 0⟩, ⟨2, .cast false, some 1⟩, ⟨3, .gep (some (str! "struct.c")) none, some 2⟩]
    ⟨0, .gep (some (str! "struct.a")) none, none⟩
    ⟨3, .gep (some (str! "struct.c")) none, some 2⟩ (some (str! "struct.c")) (by decide) (by decide)
    ⟨by decide, by simp [TakesFurther]⟩ rfl
    ⟨⟨3, .gep (some (str! "struct.c")) none, some 2⟩, by simp, _, rfl⟩
  exact absurd this (by decide)

theorem faFollows_iff (i : FaInst) (n : Nat) : faFollows i n = true ↔ (i.kind ≠ .other ∧ i.kind ≠ .cast true) ∧ i.op = some n := by
  unfold faFollows
  rw [Bool.and_eq_true, beq_iff_eq]
  apply and_congr_left'
  cases i.kind with
  | gep s t => simp
  | cast t => cases t <;> simp
  | other => simp

theorem sourceTypesAfter_prefix (post : List FaInst) : ∀ (e : FaInst) (w : List FaInst),
    w.Sublist post → (e :: w).IsChain (fun j i => TakesFurther i j) → (∀ i ∈ w, i.kind ≠ .cast true) →
    ((e :: w).map FaInst.id).Nodup →
    (∀ i ∈ post, ∀ j ∈ (e :: w).dropLast, TakesFurther i j → i ∈ w) →
    w.flatMap FaInst.types <+: sourceTypesAfter e.id post := by
  induction post with
  | nil =>
    intro e w hs _ _ _ _
    rw [List.sublist_nil.mp hs]
    exact List.nil_prefix
  | cons i post ih =>
    intro e w hs hc hk hn hf
    cases w with
    | nil => exact List.nil_prefix
    | cons a w =>
      rw [List.isChain_cons_cons] at hc
      have hn2 : ((a :: w).map FaInst.id).Nodup := by
        rw [List.map_cons] at hn
        exact (List.nodup_cons.mp hn).2
      unfold sourceTypesAfter
      by_cases hi : i = a
      · subst hi
        rw [if_pos ((faFollows_iff _ _).mpr ⟨⟨hc.1.1, hk i List.mem_cons_self⟩, hc.1.2⟩)]
        rw [List.flatMap_cons]
        rw [List.prefix_append_right_inj]
        apply ih i w (List.cons_sublist_cons.mp hs) hc.2 (fun j hj => hk j (List.mem_cons_of_mem _ hj)) hn2
        intro j hj k hkm ht
        have h1 := hf j (List.mem_cons_of_mem _ hj) k (by
          rw [List.dropLast_cons_of_ne_nil (List.cons_ne_nil _ _)]
          exact List.mem_cons_of_mem _ hkm) ht
        rcases List.mem_cons.mp h1 with h2 | h2
        · exfalso
          -- `j` would take both `e` and `k` further
          subst h2
          have h3 : k.id = e.id := by
            have := ht.2.symm.trans hc.1.2
            injection this
          rw [List.map_cons] at hn
          exact (List.nodup_cons.mp hn).1 (h3 ▸ List.mem_map_of_mem (List.dropLast_subset _ hkm))
        · exact h2
      · have hne : faFollows i e.id = false := by
          apply Bool.eq_false_iff.mpr
          intro h
          have h1 := (faFollows_iff _ _).mp h
          have h2 := hf i List.mem_cons_self e (by
            rw [List.dropLast_cons_of_ne_nil (List.cons_ne_nil _ _)]
            exact List.mem_cons_self) ⟨h1.1.1, h1.2⟩
          rcases List.mem_cons.mp h2 with h3 | h3
          · exact hi h3
          · -- `i` is later on the way, so it takes another instruction further
            obtain ⟨u, v, huv⟩ := List.append_of_mem h3
            have hch := hc.2
            rw [huv] at hch
            have : ∃ k ∈ a :: u, TakesFurther i k := by
              have h4 : (a :: u ++ i :: v).IsChain (fun j i => TakesFurther i j) := hch
              rw [List.isChain_append] at h4
              obtain ⟨k, hk2⟩ : ∃ k, (a :: u).getLast? = some k := ⟨_, List.getLast?_eq_some_getLast (List.cons_ne_nil _ _)⟩
              exact ⟨k, List.mem_of_getLast? hk2, h4.2.2 k hk2 i rfl⟩
            obtain ⟨k, hkm, hkt⟩ := this
            have h5 : k.id = e.id := by
              have := hkt.2.symm.trans h1.2
              injection this
            rw [List.map_cons] at hn
            apply (List.nodup_cons.mp hn).1
            rw [← h5]
            apply List.mem_map_of_mem
            rw [huv]
            have : k ∈ (a :: u) ++ i :: v := List.mem_append.mpr (Or.inl hkm)
            exact this
        rw [hne]
        simp only [Bool.false_eq_true, if_false]
        apply ih e (a :: w) _ (List.isChain_cons_cons.mpr hc) hk hn (fun j hj => hf j (List.mem_cons_of_mem _ hj))
        cases hs with
        | cons _ h => exact h
        | cons_cons _ h => exact absurd rfl hi

theorem accessStart_none (pre : List FaInst) (o : Nat) (h : ∀ i ∈ pre, i.id = o → i.kind = .other) :
    accessStart pre o = none := by
  induction pre with
  | nil => rfl
  | cons i pre ih =>
    unfold accessStart
    split
    · rename_i he
      have hk := h i List.mem_cons_self he
      rw [hk]
    · exact ih (fun j hj => h j (List.mem_cons_of_mem _ hj))

theorem accessStart_first (first : FaInst) (pre : List FaInst) (t : Option Str) (inn : Option (Option Str))
    (hg : first.kind = .gep t inn) (ho : ∀ i ∈ pre, first.op = some i.id → i.kind = .other) :
    accessStart (first :: pre) first.id = some first.id := by
  unfold accessStart
  rw [if_pos rfl, hg]
  cases hop : first.op with
  | none => rfl
  | some o =>
    dsimp only
    rw [accessStart_none pre o (fun i hi he => ho i hi (by rw [hop, he]))]
    rfl

theorem accessStart_way (first : FaInst) (pre : List FaInst) (t : Option Str) (inn : Option (Option Str))
    (hg : first.kind = .gep t inn) (ho : ∀ i ∈ pre, first.op = some i.id → i.kind = .other) (l : List FaInst) :
    ∀ (rw : List FaInst) (c : FaInst), rw.Sublist l → ((l ++ first :: pre).map FaInst.id).Nodup →
      (rw ++ [first]).IsChain (fun i j => TakesFurther i j) → (rw ++ [first]).head? = some c →
      accessStart (l ++ first :: pre) c.id = some first.id := by
  induction l with
  | nil =>
    intro w c hs _ _ hc
    rw [List.sublist_nil.mp hs] at hc
    injection hc with hc
    subst hc
    exact accessStart_first first pre t inn hg ho
  | cons i l ih =>
    intro w c hs hn hch hc
    have hn1 : i.id ∉ (l ++ first :: pre).map FaInst.id := by
      rw [List.cons_append, List.map_cons] at hn
      exact (List.nodup_cons.mp hn).1
    have hn2 : ((l ++ first :: pre).map FaInst.id).Nodup := by
      rw [List.cons_append, List.map_cons] at hn
      exact (List.nodup_cons.mp hn).2
    rw [List.cons_append]
    unfold accessStart
    cases w with
    | nil =>
      injection hc with hc
      subst hc
      have hne : i.id ≠ first.id := fun he =>
        hn1 (he ▸ List.mem_map_of_mem (List.mem_append.mpr (Or.inr List.mem_cons_self)))
      rw [if_neg hne]
      exact ih [] _ (List.nil_sublist _) hn2 hch rfl
    | cons a w =>
      injection hc with hc
      subst hc
      by_cases hi : i = a
      · subst hi
        rw [if_pos rfl]
        obtain ⟨b, hb⟩ : ∃ b, (w ++ [first]).head? = some b := by
          cases w with
          | nil => exact ⟨_, rfl⟩
          | cons b w => exact ⟨_, rfl⟩
        rw [List.cons_append] at hch
        have hch2 : TakesFurther i b ∧ (w ++ [first]).IsChain (fun i j => TakesFurther i j) := by
          cases hw : w ++ [first] with
          | nil => rw [hw] at hb; cases hb
          | cons b' w' =>
            rw [hw] at hb hch
            injection hb with hb
            subst hb
            exact List.isChain_cons_cons.mp hch
        have h1 := ih w b (List.cons_sublist_cons.mp hs) hn2 hch2.2 hb
        rw [hch2.1.2]
        cases hk : i.kind with
        | gep s t => dsimp only; rw [h1]; rfl
        | cast t => exact h1
        | other => exact absurd hk hch2.1.1
      · have hs2 : (a :: w).Sublist l := by
          cases hs with
          | cons _ h => exact h
          | cons_cons _ h => exact absurd rfl hi
        have hne : i.id ≠ a.id := fun he =>
          hn1 (he ▸ List.mem_map_of_mem (List.mem_append.mpr (Or.inl (hs2.subset List.mem_cons_self))))
        rw [if_neg hne]
        exact ih (a :: w) a hs2 hn2 hch rfl

/-- C142 when the pointer is not converted to a number, only one instruction of the block takes each pointer on the way further,
and the field access does not begin with a cast: the access is found from its end, and its types are the first types that are
looked at, in order. -/
theorem C142_types_partial (pre post w : List FaInst) (first last : FaInst) (t : Option Str)
    (hn : ((pre ++ first :: post).map FaInst.id).Nodup)
    (hg : GoesThrough first t) (ho : ∀ i ∈ pre, first.op = some i.id → i.kind = .other)
    (hw : AccessWay (first :: post) (first :: w)) (hlast : (first :: w).getLast? = some last)
    (hk : ∀ i ∈ w, i.kind ≠ .cast true)
    (hf : ∀ i ∈ post, ∀ j ∈ (first :: w).dropLast, TakesFurther i j → i ∈ w) :
    accessStart (pre ++ first :: post).reverse last.id = some first.id ∧
      (first :: w).flatMap FaInst.types <+: sourceTypes (first :: post) := by
  have hs : w.Sublist post := List.cons_sublist_cons.mp hw.1
  obtain ⟨inn, hg⟩ := hg
  constructor
  · have hr : (pre ++ first :: post).reverse = post.reverse ++ first :: pre.reverse := by simp
    have hn2 : ((post.reverse ++ first :: pre.reverse).map FaInst.id).Nodup := by
      rw [← hr, List.map_reverse, List.nodup_reverse]
      exact hn
    rw [hr]
    have hch : (w.reverse ++ [first]).IsChain (fun i j => TakesFurther i j) := by
      have := List.isChain_reverse.mpr hw.2
      rw [List.reverse_cons] at this
      exact this
    apply accessStart_way first pre.reverse t inn hg (fun i hi => ho i (List.mem_reverse.mp hi)) post.reverse w.reverse last
      (List.reverse_sublist.mpr hs) hn2 hch
    rw [← List.reverse_cons, List.head?_reverse]
    exact hlast
  · unfold sourceTypes
    rw [List.flatMap_cons, List.prefix_append_right_inj]
    apply sourceTypesAfter_prefix post first w hs hw.2 hk _ hf
    exact (hw.1.map FaInst.id).nodup (List.nodup_append.mp (by rw [List.map_append] at hn; exact hn)).2.1

/-- So all types of the access are looked at. -/
theorem C142_through_partial (pre post w : List FaInst) (first last : FaInst) (t : Option Str)
    (hn : ((pre ++ first :: post).map FaInst.id).Nodup)
    (hg : GoesThrough first t) (ho : ∀ i ∈ pre, first.op = some i.id → i.kind = .other)
    (hw : AccessWay (first :: post) (first :: w)) (hlast : (first :: w).getLast? = some last)
    (hk : ∀ i ∈ w, i.kind ≠ .cast true)
    (hf : ∀ i ∈ post, ∀ j ∈ (first :: w).dropLast, TakesFurther i j → i ∈ w) (i : FaInst) (hi : i ∈ first :: w) (s : Option Str)
    (hs : GoesThrough i s) : s ∈ sourceTypes (first :: post) := by
  apply (C142_types_partial pre post w first last t hn hg ho hw hlast hk hf).2.subset
  rw [List.mem_flatMap]
  refine ⟨i, hi, ?_⟩
  obtain ⟨inn, hik⟩ := hs
  unfold FaInst.types
  rw [hik]
  cases inn with
  | none => exact List.mem_cons_self
  | some _ => exact List.mem_cons_self

/-- A load, then a GEP, an unrelated instruction, a cast, and another GEP. -/
example : sourceTypes [⟨1, .gep (some (str! "struct.a")) none, some 0⟩, ⟨2, .other, some 0⟩, ⟨3, .cast false, some 1⟩,
      ⟨4, .gep (some (str! "struct.b")) none, some 3⟩]
    = [some (str! "struct.a"), some (str! "struct.b")] ∧
    accessStart [⟨4, .gep (some (str! "struct.b")) none, some 3⟩, ⟨3, .cast false, some 1⟩, ⟨2, .other, some 0⟩,
      ⟨1, .gep (some (str! "struct.a")) none, some 0⟩, ⟨0, .other, none⟩] 4 = some 1 := by
  have h := C142_types_partial [⟨0, .other, none⟩] [⟨2, .other, some 0⟩, ⟨3, .cast false, some 1⟩,
    ⟨4, .gep (some (str! "struct.b")) none, some 3⟩]
    [⟨3, .cast false, some 1⟩, ⟨4, .gep (some (str! "struct.b")) none, some 3⟩] ⟨1, .gep (some (str! "struct.a")) none, some 0⟩
    ⟨4, .gep (some (str! "struct.b")) none, some 3⟩ (some (str! "struct.a")) (by decide) ⟨_, rfl⟩ (by decide)
    ⟨by decide, by simp [TakesFurther]⟩ rfl (by decide) (by simp [TakesFurther])
  exact ⟨by decide, h.1⟩

end DK
