import Verif.Lemmas.Snapshot

/-! C25–C27, C69, C70: snapshots. -/

set_option autoImplicit false

namespace DK
open Spec

/-! ### C25 -/

/-- **C25** After any sequence of additions to an empty snapshot, looking up a name in a group gives the description of
the last addition of that name to that group, and nothing if there was none. -/
theorem C25_lookup_last_addition (adds : List Addition) (name : Str) (group : Option Str) :
    (adds.foldl (fun (s : FunGroups) a => s.addFun a.1 a.2.1 a.2.2) []).getByName name group =
      lastAddition name group adds := by
  suffices H : ∀ s : FunGroups, (adds.foldl (fun (s : FunGroups) a => s.addFun a.1 a.2.1 a.2.2) s).getByName name group =
      (lastAddition name group adds).or (s.getByName name group) by
    rw [H]; simp [FunGroups.getByName]
  induction adds with
  | nil => intro s; simp [lastAddition]
  | cons a adds ih =>
    intro s
    rw [List.foldl_cons, ih, getByName_addFun, lastAddition]
    cases lastAddition name group adds with
    | some d => simp
    | none =>
      simp only [Option.none_or]
      split <;> simp

/-- Two additions of the same name to one group and one to another. -/
example : (([(str! "f", ⟨some (str! "a.ll"), none, none⟩, none), (str! "f", ⟨some (str! "b.ll"), none, none⟩, some (str! "g")),
    (str! "f", ⟨none, none, none⟩, none)] : List Addition).foldl (fun (s : FunGroups) a => s.addFun a.1 a.2.1 a.2.2) []).getByName
      (str! "f") none = some ⟨none, none, none⟩ := by
  rw [C25_lookup_last_addition]; decide

/-! ### C26 -/

/-- The snapshots the tool creates: functions are added one after another, without a group in snapshots of a list of
functions and with a group in snapshots of a list of sysctls. -/
inductive Created : Str → FunGroups → Prop
  | empty (k : Str) : k = str! "function" ∨ k = str! "sysctl" → Created k []
  | function {s : FunGroups} (n : Str) (d : FunDesc) : Created (str! "function") s →
      Created (str! "function") (s.addFun n d none)
  | sysctl {s : FunGroups} (n : Str) (d : FunDesc) (g : Str) : Created (str! "sysctl") s →
      Created (str! "sysctl") (s.addFun n d (some g))

/-- The loaded snapshot has the same groups and functions in the same order, with descriptions that agree. -/
def SameSnapshot (cwd : List Str) (dir : Str) (s : FunGroups) (cwd' : List Str) (dir' : Str) (s' : FunGroups) : Prop :=
  List.Forall₂ (fun a b => b.1 = a.1 ∧
    List.Forall₂ (fun x y => y.1 = x.1 ∧ SameDesc cwd dir x.2 cwd' dir' y.2) a.2 b.2) s s'

/-- Dictionaries of a snapshot: keys differ and no group is empty. -/
def GoodGroups (s : FunGroups) : Prop :=
  (Dict.keys s).Nodup ∧ ∀ a ∈ s, (Dict.keys a.2).Nodup ∧ a.2 ≠ []

theorem set_ne_nil {α β : Type} [DecidableEq α] (d : Dict α β) (a : α) (b : β) : Dict.set d a b ≠ [] := by
  cases d with
  | nil => simp [Dict.set]
  | cons p d => rw [Dict.set]; split <;> simp

theorem goodGroups_addFun {s : FunGroups} (h : GoodGroups s) (n : Str) (d : FunDesc) (g : Option Str) :
    GoodGroups (s.addFun n d g) := by
  refine ⟨Dict.nodup_keys_set h.1 _ _, ?_⟩
  intro a ha
  unfold FunGroups.addFun at ha
  rw [Dict.mem_set h.1] at ha
  rcases ha with rfl | ha
  · refine ⟨Dict.nodup_keys_set ?_ _ _, set_ne_nil _ _ _⟩
    cases hg : Dict.get? s g with
    | none => simp [Dict.keys]
    | some l => exact (h.2 _ (Dict.get?_mem hg)).1
  · exact h.2 a ha.1

theorem keys_addFun (s : FunGroups) (n : Str) (d : FunDesc) (g : Option Str) :
    ∀ k ∈ Dict.keys (s.addFun n d g), k = g ∨ k ∈ Dict.keys s := by
  intro k hk
  unfold FunGroups.addFun at hk
  rw [Dict.keys_set] at hk
  split at hk
  · exact Or.inr hk
  · rw [List.mem_append, List.mem_singleton] at hk
    exact hk.symm

theorem created_good {k : Str} {s : FunGroups} (h : Created k s) :
    GoodGroups s ∧ ((k = str! "function" ∧ ∀ g ∈ Dict.keys s, g = none) ∨
      (k = str! "sysctl" ∧ ∀ g ∈ Dict.keys s, g ≠ none)) := by
  induction h with
  | empty k hk =>
    refine ⟨⟨by simp [Dict.keys], by simp⟩, ?_⟩
    rcases hk with rfl | rfl
    · exact Or.inl ⟨rfl, by simp [Dict.keys]⟩
    · exact Or.inr ⟨rfl, by simp [Dict.keys]⟩
  | function n d _ ih =>
    refine ⟨goodGroups_addFun ih.1 _ _ _, Or.inl ⟨rfl, ?_⟩⟩
    intro g hg
    rcases ih.2 with ⟨_, h⟩ | ⟨h, _⟩
    · rcases keys_addFun _ _ _ _ g hg with e | e
      · exact e
      · exact h g e
    · exact absurd h (by decide)
  | sysctl n d gr _ ih =>
    refine ⟨goodGroups_addFun ih.1 _ _ _, Or.inr ⟨rfl, ?_⟩⟩
    intro g hg
    rcases ih.2 with ⟨h, _⟩ | ⟨_, h⟩
    · exact absurd h (by decide)
    · rcases keys_addFun _ _ _ _ g hg with e | e
      · rw [e]; simp
      · exact h g e

/-- How the entry of a function in the YAML file relates to its description. -/
def YamlOf (cwd : List Str) (dir : Str) (x : Str × FunDesc) (f : FunYaml) : Prop :=
  funToYaml cwd dir x.1 x.2 = .ok f

theorem mapExcept_forall₂ {α β : Type} (f : α → Except PyErr β) : ∀ (l : List α) (r : List β), mapExcept f l = .ok r →
    List.Forall₂ (fun a b => f a = .ok b) l r
  | [], r, h => by simp [mapExcept] at h; subst h; exact .nil
  | a :: l, r, h => by
    unfold mapExcept at h
    cases hf : f a with
    | error e => rw [hf] at h; simp at h
    | ok b =>
      rw [hf] at h
      simp only at h
      cases hm : mapExcept f l with
      | error e => rw [hm] at h; simp at h
      | ok bs =>
        rw [hm] at h
        simp only [Except.ok.injEq] at h
        subst h
        exact .cons hf (mapExcept_forall₂ f l bs hm)

theorem mapExcept_total {α β : Type} (f : α → Except PyErr β) : ∀ (l : List α), (∀ a ∈ l, ∃ b, f a = .ok b) →
    ∃ r, mapExcept f l = .ok r
  | [], _ => ⟨[], rfl⟩
  | a :: l, h => by
    obtain ⟨b, hb⟩ := h a (by simp)
    obtain ⟨r, hr⟩ := mapExcept_total f l (fun x hx => h x (by simp [hx]))
    exact ⟨b :: r, by rw [mapExcept, hb, hr]⟩

/-- One function: saving and loading. -/
theorem loadFun_yaml {cwd cwd' : List Str} (hc : GoodDir cwd) (hc' : GoodDir cwd') {dir dir' : Str} (hd : dir' ≠ [])
    {x : Str × FunDesc} {f : FunYaml} (hb : ∀ p, x.2.mod = some p → ∃ rel, IsBelow cwd dir p rel)
    (h : funToYaml cwd dir x.1 x.2 = .ok f) (group : Option Str) (s : FunGroups) :
    ∃ d, loadFun cwd' dir' group s f = .ok (s.addFun x.1 d group) ∧ SameDesc cwd dir x.2 cwd' dir' d := by
  unfold funToYaml at h
  unfold loadFun
  cases hm : x.2.mod with
  | none =>
    rw [hm] at h
    simp only [Except.ok.injEq] at h
    subst h
    exact ⟨_, rfl, rfl, rfl, Or.inl ⟨hm, rfl⟩⟩
  | some p =>
    rw [hm] at h
    simp only at h
    cases hr : relpath cwd p dir with
    | error e => rw [hr] at h; simp at h
    | ok r =>
      rw [hr] at h
      simp only [Except.ok.injEq] at h
      subst h
      obtain ⟨rel, hne, hrel⟩ := hb p hm
      -- the relative path consists of the components below the directory
      have hgood : ∀ w ∈ rel, NormalComp w := by
        intro w hw
        apply absComps_good hc p w
        rw [hrel]; simp [hw]
      have hr' : r = joinChar '/' rel := by
        unfold relpath at hr
        split at hr
        · simp at hr
        simp only [Except.ok.injEq] at hr
        rw [← hr, hrel, commonLen_append]
        simp [hne]
      have hmm : ∀ w ∈ rel, w ≠ [] ∧ '/' ∉ w := fun w hw => ⟨(hgood w hw).1, (hgood w hw).2.2.2⟩
      obtain ⟨d, hdd⟩ : ∃ d, relpath cwd' dir' (str! ".") = .ok d := by
        unfold relpath
        rw [if_neg hd]
        exact ⟨_, rfl⟩
      have hne' : r ≠ [] := by rw [hr']; exact (joinChar_split_ne rel hne hmm).1
      refine ⟨⟨some (pathJoin d r), x.2.globVar, x.2.tag⟩, ?_, rfl, rfl, Or.inr ⟨p, _, rel, hm, rfl, ⟨hne, hrel⟩, hne, ?_⟩⟩
      · cases r with
        | nil => exact absurd rfl hne'
        | cons c r => simp only [hdd]
      · rw [hr', loaded_path hc' hdd hne hmm, foldl_normStep _ hgood]

/-- A group of functions that is not yet in the snapshot. -/
theorem addFun_last (s : FunGroups) (group : Option Str) (hg : group ∉ Dict.keys s) (l : Dict Str FunDesc) (n : Str) (d : FunDesc)
    (hn : n ∉ Dict.keys l) : FunGroups.addFun (s ++ [(group, l)]) n d group = s ++ [(group, l ++ [(n, d)])] := by
  unfold FunGroups.addFun
  rw [get?_append_last s group l hg, set_append_last s group l _ hg]
  simp only [Option.getD_some]
  rw [set_append_new l n d hn]

theorem addFun_first (s : FunGroups) (group : Option Str) (hg : group ∉ Dict.keys s) (n : Str) (d : FunDesc) :
    FunGroups.addFun s n d group = s ++ [(group, [(n, d)])] := by
  unfold FunGroups.addFun
  rw [(Dict.get?_eq_none_iff s group).2 hg, set_append_new _ _ _ hg]
  rfl

theorem loadFuns_more {cwd cwd' : List Str} (hc : GoodDir cwd) (hc' : GoodDir cwd') {dir dir' : Str} (hd : dir' ≠ [])
    (s : FunGroups) (group : Option Str) (hg : group ∉ Dict.keys s) :
    ∀ (g : Dict Str FunDesc) (fs : List FunYaml) (l : Dict Str FunDesc),
      List.Forall₂ (fun x f => funToYaml cwd dir x.1 x.2 = .ok f) g fs →
      (∀ x ∈ g, ∀ p, x.2.mod = some p → ∃ rel, IsBelow cwd dir p rel) →
      (Dict.keys g).Nodup → (∀ k ∈ Dict.keys g, k ∉ Dict.keys l) →
      ∃ l', loadFuns cwd' dir' group fs (s ++ [(group, l)]) = .ok (s ++ [(group, l ++ l')]) ∧
        List.Forall₂ (fun x y => y.1 = x.1 ∧ SameDesc cwd dir x.2 cwd' dir' y.2) g l'
  | [], fs, l, h, _, _, _ => by
    cases h
    exact ⟨[], by simp [loadFuns], .nil⟩
  | x :: g, fs, l, h, hb, hn, hdis => by
    cases h with
    | cons hx hrest =>
      rename_i f fs
      obtain ⟨d, h1, h2⟩ := loadFun_yaml hc hc' hd (hb x (by simp)) hx group (s ++ [(group, l)])
      rw [addFun_last s group hg l x.1 d (hdis x.1 (by simp [Dict.keys]))] at h1
      simp only [Dict.keys, List.map_cons, List.nodup_cons] at hn
      obtain ⟨l', h3, h4⟩ := loadFuns_more hc hc' hd s group hg g fs (l ++ [(x.1, d)]) hrest
        (fun y hy => hb y (by simp [hy])) hn.2 (by
          intro k hk
          simp only [Dict.keys, List.map_append, List.map_cons, List.map_nil, List.mem_append, List.mem_singleton, not_or]
          refine ⟨hdis k (by simp only [Dict.keys, List.map_cons, List.mem_cons]; exact Or.inr hk), ?_⟩
          rintro rfl
          exact hn.1 hk)
      refine ⟨(x.1, d) :: l', ?_, .cons ⟨rfl, h2⟩ h4⟩
      rw [loadFuns, h1]
      simp only
      rw [h3]
      simp

theorem loadFuns_group {cwd cwd' : List Str} (hc : GoodDir cwd) (hc' : GoodDir cwd') {dir dir' : Str} (hd : dir' ≠ [])
    (s : FunGroups) (group : Option Str) (hg : group ∉ Dict.keys s) (g : Dict Str FunDesc) (fs : List FunYaml)
    (h : List.Forall₂ (fun x f => funToYaml cwd dir x.1 x.2 = .ok f) g fs)
    (hb : ∀ x ∈ g, ∀ p, x.2.mod = some p → ∃ rel, IsBelow cwd dir p rel) (hn : (Dict.keys g).Nodup) (hne : g ≠ []) :
    ∃ l', loadFuns cwd' dir' group fs s = .ok (s ++ [(group, l')]) ∧
      List.Forall₂ (fun x y => y.1 = x.1 ∧ SameDesc cwd dir x.2 cwd' dir' y.2) g l' := by
  cases h with
  | nil => exact absurd rfl hne
  | cons hx hrest =>
    rename_i x f g fs
    obtain ⟨d, h1, h2⟩ := loadFun_yaml hc hc' hd (hb x (by simp)) hx group s
    rw [addFun_first s group hg x.1 d] at h1
    simp only [Dict.keys, List.map_cons, List.nodup_cons] at hn
    obtain ⟨l', h3, h4⟩ := loadFuns_more hc hc' hd s group hg g fs [(x.1, d)] hrest
      (fun y hy => hb y (by simp [hy])) hn.2 (by
        intro k hk
        simp only [Dict.keys, List.map_cons, List.map_nil, List.mem_singleton]
        rintro rfl
        exact hn.1 hk)
    refine ⟨(x.1, d) :: l', ?_, .cons ⟨rfl, h2⟩ h4⟩
    rw [loadFuns, h1]
    simp only
    rw [h3]
    simp

theorem loadItems_fn (cwd : List Str) (dir : Str) : ∀ (fs : List FunYaml) (s : FunGroups),
    loadItems cwd dir (fs.map .fn) s = loadFuns cwd dir none fs s
  | [], _ => rfl
  | f :: fs, s => by
    rw [List.map_cons, loadItems, loadFuns]
    cases loadFun cwd dir none s f with
    | error e => rfl
    | ok s' => exact loadItems_fn cwd dir fs s'

theorem loadGroups_all {cwd cwd' : List Str} (hc : GoodDir cwd) (hc' : GoodDir cwd') {dir dir' : Str} (hd : dir' ≠ []) :
    ∀ (s : FunGroups) (items : List YamlItem) (s0 : FunGroups),
      List.Forall₂ (fun a b => groupToYaml cwd dir (str! "sysctl") a = .ok b) s items →
      (∀ a ∈ s, ∀ x ∈ a.2, ∀ p, x.2.mod = some p → ∃ rel, IsBelow cwd dir p rel) →
      GoodGroups s → (∀ k ∈ Dict.keys s, k ∉ Dict.keys s0) →
      ∃ s', loadGroups cwd' dir' items s0 = .ok (s0 ++ s') ∧ SameSnapshot cwd dir s cwd' dir' s'
  | [], items, s0, h, _, _, _ => by
    cases h
    exact ⟨[], by simp [loadGroups], .nil⟩
  | a :: s, items, s0, h, hb, hgood, hdis => by
    cases h with
    | cons ha hrest =>
      rename_i it items
      unfold groupToYaml at ha
      cases hm : mapExcept (fun p : Str × FunDesc => funToYaml cwd dir p.1 p.2) a.2 with
      | error e => rw [hm] at ha; simp at ha
      | ok fs =>
        rw [hm] at ha
        simp only [Except.ok.injEq] at ha
        subst ha
        have hf := mapExcept_forall₂ _ _ _ hm
        have hga := hgood.2 a (by simp)
        obtain ⟨l', h1, h2⟩ := loadFuns_group hc hc' hd s0 a.1 (hdis a.1 (by simp [Dict.keys])) a.2 fs hf
          (hb a (by simp)) hga.1 hga.2
        have hn := hgood.1
        simp only [Dict.keys, List.map_cons, List.nodup_cons] at hn
        obtain ⟨s', h3, h4⟩ := loadGroups_all hc hc' hd s items (s0 ++ [(a.1, l')]) hrest
          (fun b hb' => hb b (by simp [hb'])) ⟨hn.2, fun b hb' => hgood.2 b (by simp [hb'])⟩ (by
            intro k hk
            simp only [Dict.keys, List.map_append, List.map_cons, List.map_nil, List.mem_append, List.mem_singleton, not_or]
            refine ⟨hdis k (by simp only [Dict.keys, List.map_cons, List.mem_cons]; exact Or.inr hk), ?_⟩
            rintro rfl
            exact hn.1 hk)
        refine ⟨(a.1, l') :: s', ?_, .cons ⟨rfl, h2⟩ h4⟩
        rw [loadGroups, if_pos rfl, h1]
        simp only
        rw [h3]
        simp

/-- **C26** A snapshot created by the tool whose LLVM files are in the snapshot directory can be saved and loaded again,
possibly after the directory has been moved to `dir'` and from another working directory: the loaded snapshot has the same
groups and functions in the same order, with the same variables, tags and files. -/
theorem C26_save_load (kind : Str) (s : FunGroups) (hs : Created kind s) (cwd cwd' : List Str) (hc : GoodDir cwd)
    (hc' : GoodDir cwd') (dir dir' : Str) (hd : dir' ≠ [])
    (hb : ∀ n g d p, s.getByName n g = some d → d.mod = some p → p ≠ [] ∧ ∃ rel, IsBelow cwd dir p rel) :
    ∃ y s', toYaml cwd dir kind s = .ok y ∧ fromYaml cwd' dir' y = .ok s' ∧ SameSnapshot cwd dir s cwd' dir' s' := by
  obtain ⟨hgood, hkind⟩ := created_good hs
  have hbb : ∀ a ∈ s, ∀ x ∈ a.2, ∀ p, x.2.mod = some p → p ≠ [] ∧ ∃ rel, IsBelow cwd dir p rel := by
    intro a ha x hx p hp
    refine hb x.1 a.1 x.2 p ?_ hp
    unfold FunGroups.getByName
    rw [Dict.mem_get? hgood.1 (show (a.1, a.2) ∈ s from ha)]
    exact Dict.mem_get? (hgood.2 a ha).1 (show (x.1, x.2) ∈ a.2 from hx)
  have hfun : ∀ a ∈ s, ∃ r, mapExcept (fun p : Str × FunDesc => funToYaml cwd dir p.1 p.2) a.2 = .ok r := by
    intro a ha
    apply mapExcept_total
    intro x hx
    unfold funToYaml
    cases hm : x.2.mod with
    | none => exact ⟨_, rfl⟩
    | some p =>
      obtain ⟨r, hr⟩ : ∃ r, relpath cwd p dir = .ok r := by
        unfold relpath
        rw [if_neg (hbb a ha x hx p hm).1]
        exact ⟨_, rfl⟩
      simp only [hr]
      exact ⟨_, rfl⟩
  have hgr : ∀ a ∈ s, ∃ r, groupToYaml cwd dir kind a = .ok r := by
    intro a ha
    obtain ⟨r, hr⟩ := hfun a ha
    unfold groupToYaml
    rw [hr]
    exact ⟨_, rfl⟩
  obtain ⟨gs, hgs⟩ := mapExcept_total _ s hgr
  have hf2 := mapExcept_forall₂ _ _ _ hgs
  unfold toYaml
  rw [hgs]
  simp only
  rcases hkind with ⟨rfl, hk⟩ | ⟨rfl, hk⟩
  · -- a list of functions: no group or the group `none`
    match s, hgood, hf2, hbb, hk with
    | [], _, hf2, _, _ =>
      cases hf2
      exact ⟨⟨str! "function", []⟩, [], rfl, rfl, .nil⟩
    | [(g, l)], hgood, hf2, hbb, hk =>
      have := hk g (by simp [Dict.keys])
      subst this
      cases hf2 with
      | cons h1 h2 =>
        cases h2
        unfold groupToYaml at h1
        cases hm : mapExcept (fun p : Str × FunDesc => funToYaml cwd dir p.1 p.2) l with
        | error e => rw [hm] at h1; simp at h1
        | ok fs =>
          rw [hm] at h1
          simp only [Except.ok.injEq] at h1
          subst h1
          have hga := hgood.2 (none, l) (by simp)
          obtain ⟨l', h3, h4⟩ := loadFuns_group hc hc' hd [] none (by simp [Dict.keys]) l fs (mapExcept_forall₂ _ _ _ hm)
            (fun x hx p hp => (hbb (none, l) (by simp) x hx p hp).2) hga.1 hga.2
          refine ⟨⟨str! "function", fs.map .fn⟩, [(none, l')], rfl, ?_, .cons ⟨rfl, h4⟩ .nil⟩
          unfold fromYaml
          rw [if_pos rfl]
          simp only
          rw [loadItems_fn, h3]
          rfl
    | (g, l) :: (g', l') :: s, hgood, _, _, hk =>
      have h1 := hk g (by simp [Dict.keys])
      have h2 := hk g' (by simp [Dict.keys])
      subst h1 h2
      have := hgood.1
      simp [Dict.keys] at this
  · have hy : (match s, gs with
        | [(none, _)], [.group _ _ fs] => (Except.ok ⟨str! "sysctl", fs.map .fn⟩ : Except PyErr SnapYaml)
        | _, _ => .ok ⟨str! "sysctl", gs⟩) = .ok ⟨str! "sysctl", gs⟩ := by
      split
      · exact absurd rfl (hk none (by simp [Dict.keys]))
      · rfl
    obtain ⟨s', h1, h2⟩ := loadGroups_all hc hc' hd s gs [] hf2 (fun a ha x hx p hp => (hbb a ha x hx p hp).2) hgood
      (by simp [Dict.keys])
    refine ⟨⟨str! "sysctl", gs⟩, s', hy, ?_, h2⟩
    unfold fromYaml
    rw [if_neg (by show (str! "sysctl") ≠ str! "function"; decide)]
    simpa using h1

def SaveEx.snapshot : FunGroups :=
  (FunGroups.addFun [] (str! "f") ⟨some (str! "/s/k/a.ll"), some (str! "v"), none⟩ (some (str! "k.x"))).addFun
    (str! "f") ⟨none, none, none⟩ (some (str! "k.y"))

/-- Two sysctl groups, saved in `/s` and loaded from `/t` in another working directory. -/
example :
    ∃ y s', toYaml [] (str! "/s") (str! "sysctl") SaveEx.snapshot = .ok y ∧
    fromYaml [str! "w"] (str! "/t") y = .ok s' ∧ SameSnapshot [] (str! "/s") SaveEx.snapshot [str! "w"] (str! "/t") s' := by
  refine C26_save_load _ _ (.sysctl _ _ _ (.sysctl _ _ _ (.empty _ (Or.inr rfl)))) _ _ (by unfold GoodDir; decide)
    (by unfold GoodDir; decide) _ _ (by decide) ?_
  intro n g d p h hp
  unfold SaveEx.snapshot at h
  rw [getByName_addFun, getByName_addFun] at h
  split at h
  · cases h; simp at hp
  · split at h
    · cases h
      simp only [Option.some.injEq] at hp
      subst hp
      exact ⟨by decide, [str! "k", str! "a.ll"], by decide, by decide⟩
    · simp [FunGroups.getByName] at h

/-- A snapshot of sysctls with functions outside of groups cannot be loaded (the tool does not create such snapshots). -/
theorem C26_ungrouped_sysctl_not_loadable : ∃ y, toYaml [] (str! "/s") (str! "sysctl")
      (FunGroups.addFun [] (str! "f") ⟨none, none, none⟩ none) = .ok y ∧ fromYaml [] (str! "/s") y = .error .typeError :=
  ⟨_, rfl, rfl⟩

/-! ### C27 -/

theorem pick_ok (g : Dict Str FunDesc) : ∀ (names : List Str) (acc r : Dict Str FunDesc),
    FunGroups.pick g names acc = .ok r → (∀ f ∈ names, (Dict.get? g f).isSome) ∧
      (∀ f, Dict.get? r f = if f ∈ names then Dict.get? g f else Dict.get? acc f) ∧
      (names.Nodup → (∀ f ∈ names, f ∉ Dict.keys acc) → Dict.keys r = Dict.keys acc ++ names)
  | [], acc, r, h => by
    simp [FunGroups.pick] at h; subst h; simp
  | f :: fs, acc, r, h => by
    unfold FunGroups.pick at h
    cases hg : Dict.get? g f with
    | none => rw [hg] at h; simp at h
    | some d =>
      rw [hg] at h
      simp only at h
      obtain ⟨h1, h2, h3⟩ := pick_ok g fs _ r h
      refine ⟨?_, ?_, ?_⟩
      · intro x hx
        rcases List.mem_cons.1 hx with rfl | hx
        · rw [hg]; rfl
        · exact h1 x hx
      · intro x
        rw [h2 x]
        by_cases hx : x ∈ fs
        · simp [hx]
        · rw [if_neg hx, Dict.get?_set]
          by_cases hxf : x = f
          · subst hxf; simp [hg]
          · simp [hxf, hx]
      · intro hn hd
        rw [List.nodup_cons] at hn
        have hf := hd f (by simp)
        rw [h3 hn.2 ?_, Dict.keys_set, if_neg hf]
        · simp
        · intro x hx
          rw [Dict.keys_set, if_neg hf, List.mem_append, List.mem_singleton, not_or]
          refine ⟨hd x (by simp [hx]), ?_⟩
          rintro rfl
          exact hn.1 hx

theorem pick_error (g : Dict Str FunDesc) : ∀ (names : List Str) (acc : Dict Str FunDesc),
    (∃ e, FunGroups.pick g names acc = .error e) ↔ ∃ f ∈ names, Dict.get? g f = none
  | [], acc => by simp [FunGroups.pick]
  | f :: fs, acc => by
    unfold FunGroups.pick
    cases hg : Dict.get? g f with
    | none => simp [hg]
    | some d => simp [pick_error g fs, hg]

/-- **C27** Filtering a group to a list of names succeeds iff the group exists and contains all the names. Then the group
contains exactly these names with their descriptions, in that order if no name is repeated, and all other groups are
unchanged. -/
theorem C27_filter (s : FunGroups) (names : List Str) (group : Option Str) :
    ((∃ s', s.filter names group = .ok s') ↔ ((Dict.get? s group).isSome ∧ ∀ f ∈ names, (s.getByName f group).isSome)) ∧
    ∀ s', s.filter names group = .ok s' →
      (∀ f, s'.getByName f group = if f ∈ names then s.getByName f group else none) ∧
      (names.Nodup → ∃ g, Dict.get? s' group = some g ∧ Dict.keys g = names) ∧
      (∀ g, g ≠ group → Dict.get? s' g = Dict.get? s g) ∧ Dict.keys s' = Dict.keys s := by
  unfold FunGroups.filter FunGroups.getByName
  cases hg : Dict.get? s group with
  | none => simp
  | some g =>
    simp only
    constructor
    · cases hp : FunGroups.pick g names [] with
      | error e =>
        obtain ⟨f, hf, hn⟩ := (pick_error g names []).1 ⟨e, hp⟩
        simp only [reduceCtorEq, exists_false, Option.isSome_some, true_and, false_iff, not_forall]
        exact ⟨f, hf, by simp [hn]⟩
      | ok r =>
        simp only [Except.ok.injEq, exists_eq', Option.isSome_some, true_and, true_iff]
        exact (pick_ok g names [] r hp).1
    · intro s' h
      cases hp : FunGroups.pick g names [] with
      | error e => rw [hp] at h; simp at h
      | ok r =>
        rw [hp] at h
        simp only [Except.ok.injEq] at h
        subst h
        obtain ⟨_, h2, h3⟩ := pick_ok g names [] r hp
        refine ⟨?_, ?_, ?_, ?_⟩
        · intro f
          rw [Dict.get?_set_self]
          simp only
          rw [h2 f]; simp
        · intro hn
          exact ⟨r, Dict.get?_set_self _ _ _, by rw [h3 hn (by simp [Dict.keys])]; simp [Dict.keys]⟩
        · intro x hx
          exact Dict.get?_set_ne _ _ hx
        · rw [Dict.keys_set, if_pos]
          rw [Dict.mem_keys_iff, hg]; rfl

/-- Filtering a group of two functions to one of them. -/
example : ∃ s', FunGroups.filter [(none, [(str! "f", ⟨none, none, none⟩), (str! "g", ⟨some (str! "a.ll"), none, none⟩)])]
    [str! "g"] none = .ok s' ∧ s'.getByName (str! "f") none = none := by
  have h : FunGroups.filter [(none, [(str! "f", ⟨none, none, none⟩), (str! "g", ⟨some (str! "a.ll"), none, none⟩)])]
    [str! "g"] none = .ok [(none, [(str! "g", ⟨some (str! "a.ll"), none, none⟩)])] := rfl
  refine ⟨_, h, ?_⟩
  rw [((C27_filter _ _ _).2 _ h).1]
  decide

/-! ### C69: files written when a snapshot is created -/

/-- **C69** as stated: the LLVM file written for a module is in the snapshot directory. -/
def C69_statement : Prop :=
  ∀ (cwd : List Str) (old new path dest : Str), GoodDir cwd → moveToRoot cwd old new path = .ok (dest, true) →
    new.head? = some '/' → absComps cwd new <+: absComps cwd dest

/-- **C69 (violated)** A file outside of the source directory whose path starts with the text of the directory's path is
written outside of the snapshot; here the original file itself is overwritten. -/
theorem C69_fails : ¬ C69_statement ∧
    ∃ dest, moveToRoot [] (str! "/p/src") (str! "/p/snap") (str! "/p/src2/a.ll") = .ok (dest, true) ∧
      absComps [] dest = absComps [] (str! "/p/src2/a.ll") := by
  constructor
  · intro h
    have := h [] (str! "/p/src") (str! "/p/snap") (str! "/p/src2/a.ll") (str! "/p/snap/../src2/a.ll")
      (by intro w hw; cases hw) rfl (by decide)
    revert this
    decide
  · exact ⟨_, rfl, by decide⟩

/-- **C69 (partial)** A module in the source directory is written to the same place in the snapshot directory, and modules
whose path does not start with the source directory are not written. Missing: see `C69_fails`. -/
theorem C69_written_in_snapshot_partial (cwd : List Str) (hc : GoodDir cwd) (old new path : Str)
    (hnew : new ≠ []) (hlast : new.getLast? ≠ some '/') (hp : path ≠ []) :
    (∀ rel, IsBelow cwd old path rel → startsWith path old = true →
      ∃ dest, moveToRoot cwd old new path = .ok (dest, true) ∧ IsBelow cwd new dest rel) ∧
    (startsWith path old = false → moveToRoot cwd old new path = .ok (path, false)) := by
  constructor
  · rintro rel ⟨hne, hrel⟩ hs
    have hgood : ∀ w ∈ rel, NormalComp w := by
      intro w hw
      apply absComps_good hc path w
      rw [hrel]; simp [hw]
    have hmm : ∀ w ∈ rel, w ≠ [] ∧ '/' ∉ w := fun w hw => ⟨(hgood w hw).1, (hgood w hw).2.2.2⟩
    have hr : relpath cwd path old = .ok (joinChar '/' rel) := by
      unfold relpath
      rw [if_neg hp, hrel]
      simp [commonLen_append, hne]
    refine ⟨pathJoin new (joinChar '/' rel), ?_, hne, ?_⟩
    · unfold moveToRoot
      rw [if_pos hs, hr]
    · rw [absComps_pathJoin hnew hlast hne hmm, foldl_normStep _ hgood]
  · intro h
    unfold moveToRoot
    rw [h]
    rfl

/-- A module in a subdirectory. -/
example : ∃ dest, moveToRoot [] (str! "/p/src") (str! "/p/snap") (str! "/p/src/d/a.ll") = .ok (dest, true) ∧
    IsBelow [] (str! "/p/snap") dest [str! "d", str! "a.ll"] :=
  (C69_written_in_snapshot_partial [] (by intro w hw; cases hw) _ _ _ (by decide) (by decide) (by decide)).1 _
    ⟨by decide, by decide⟩ (by decide)

/-! ### C70: generating a snapshot from a list of functions -/

/-- **C70** A snapshot generated from a list of symbols contains exactly the symbols of the list; a symbol has a module iff a module was found for it that defines it as a function. -/
theorem C70_generated_exactly (lookup : Str → Option (Str × Bool)) (syms : List Str) (name : Str) (group : Option Str) :
    (generateFunctions lookup syms []).getByName name group =
      if name ∈ syms ∧ group = none then
        some ⟨(lookup name).bind (fun r => if r.2 then some r.1 else none), none, none⟩
      else none := by
  suffices H : ∀ s : FunGroups, (generateFunctions lookup syms s).getByName name group =
      if name ∈ syms ∧ group = none then
        some ⟨(lookup name).bind (fun r => if r.2 then some r.1 else none), none, none⟩
      else s.getByName name group by
    rw [H]
    simp [FunGroups.getByName]
  unfold generateFunctions
  induction syms with
  | nil => intro s; simp
  | cons x syms ih =>
    intro s
    have hx : ∀ d : FunDesc, (some d = if x = name ∧ none = group then
        some (⟨(lookup name).bind (fun r => if r.2 then some r.1 else none), none, none⟩ : FunDesc) else some d) →
        (if name ∈ syms ∧ group = none then
          some ⟨(lookup name).bind (fun r => if r.2 then some r.1 else none), none, none⟩
        else (s.addFun x d none).getByName name group) =
        if name ∈ x :: syms ∧ group = none then
          some ⟨(lookup name).bind (fun r => if r.2 then some r.1 else none), none, none⟩
        else s.getByName name group := by
      intro d hd
      rw [getByName_addFun]
      by_cases hg : group = none
      · subst hg
        by_cases h1 : name ∈ syms
        · simp [h1]
        · by_cases h2 : x = name
          · subst h2; simp [h1] at hd ⊢; exact hd
          · simp [h1, h2, Ne.symm h2]
      · simp [hg, Ne.symm hg]
    rw [List.foldl_cons, ih]
    cases hl : lookup x with
    | none =>
      refine hx _ ?_
      split
      · next h => rw [← h.1, hl]; rfl
      · rfl
    | some r =>
      obtain ⟨q, b⟩ := r
      cases b
      all_goals
        refine hx _ ?_
        split
        · next h => rw [← h.1, hl]; rfl
        · rfl

/-- Snapshots generated this way are among those that can be saved and loaded (C26). -/
theorem generateFunctions_created (lookup : Str → Option (Str × Bool)) (syms : List Str) {s : FunGroups}
    (h : Created (str! "function") s) : Created (str! "function") (generateFunctions lookup syms s) := by
  unfold generateFunctions
  induction syms generalizing s with
  | nil => exact h
  | cons x syms ih =>
    rw [List.foldl_cons]
    apply ih
    cases lookup x with
    | none => exact .function _ _ h
    | some r => obtain ⟨p, b⟩ := r; cases b <;> exact .function _ _ h

/-- A function that is found, a variable and a symbol that is not found. -/
example : (generateFunctions (fun s => if s = str! "f" then some (str! "a.ll", true) else if s = str! "v" then some (str! "b.ll", false) else none)
    [str! "f", str! "v", str! "x", str! "f"] []).getByName (str! "f") none = some ⟨some (str! "a.ll"), none, none⟩ := by
  rw [C70_generated_exactly]; decide

end DK
