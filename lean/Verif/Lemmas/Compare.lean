import Verif.Spec.Compare
import Verif.Lemmas.Dict

set_option autoImplicit false

namespace DK
open Spec

/-! ### Order of strings -/

theorem strLe_refl (a : Str) : strLe a a = true := by
  induction a with
  | nil => rfl
  | cons x a ih => simp [strLe, ih]

theorem strLe_total (a b : Str) : strLe a b = true ∨ strLe b a = true := by
  induction a generalizing b with
  | nil => left; rfl
  | cons x a ih =>
    cases b with
    | nil => right; rfl
    | cons y b =>
      unfold strLe
      by_cases h : x = y
      · subst h; simpa using ih b
      · have hn : x.toNat ≠ y.toNat := fun hh => h (Char.toNat_inj.1 hh)
        rw [if_neg h, if_neg (Ne.symm h)]
        simp only [decide_eq_true_eq]
        omega

theorem strLe_trans {a b c : Str} (h1 : strLe a b = true) (h2 : strLe b c = true) : strLe a c = true := by
  induction a generalizing b c with
  | nil => rfl
  | cons x a ih =>
    cases b with
    | nil => simp [strLe] at h1
    | cons y b =>
      cases c with
      | nil => simp [strLe] at h2
      | cons z c =>
        unfold strLe at h1 h2 ⊢
        split at h1 <;> split at h2
        · next e1 e2 => subst e1 e2; rw [if_pos rfl]; exact ih h1 h2
        · next e1 e2 => subst e1; rw [if_neg e2]; exact h2
        · next e1 e2 => subst e2; rw [if_neg e1]; exact h1
        · simp only [decide_eq_true_eq] at h1 h2
          rw [if_neg]
          · simp only [decide_eq_true_eq]; omega
          · rintro rfl; omega

theorem strLe_lt {a b : Str} (h : strLe a b = true) (hn : a ≠ b) : StrLt a b := by
  induction a generalizing b with
  | nil =>
    cases b with
    | nil => exact absurd rfl hn
    | cons y b => exact .nil
  | cons x a ih =>
    cases b with
    | nil => simp [strLe] at h
    | cons y b =>
      unfold strLe at h
      split at h
      · next e => subst e; exact .tail (ih h (fun e => hn (by rw [e])))
      · simp only [decide_eq_true_eq] at h; exact .head h

theorem strLt_not_self (a : Str) : ¬ StrLt a a := by
  intro h
  have : ∀ {a b : Str}, StrLt a b → a ≠ b := by
    intro a b h
    induction h with
    | nil => simp
    | head h => rintro ⟨⟩; omega
    | tail _ ih => intro e; exact ih (by injection e)
  exact this h rfl

theorem sortItems_perm {β : Type} (d : Dict Str β) : (sortItems d).Perm d := List.perm_insertionSort _ _

theorem mem_sortItems {β : Type} (d : Dict Str β) (x : Str × β) : x ∈ sortItems d ↔ x ∈ d := (sortItems_perm d).mem_iff

theorem sortItems_sorted {β : Type} (d : Dict Str β) (hn : (Dict.keys d).Nodup) :
    (sortItems d).Pairwise (fun x y => StrLt x.1 y.1) := by
  have h1 : (sortItems d).Pairwise (fun x y => strLe x.1 y.1 = true) := by
    haveI : Std.Total (fun x y : Str × β => strLe x.1 y.1 = true) := ⟨fun x y => strLe_total x.1 y.1⟩
    haveI : IsTrans (Str × β) (fun x y : Str × β => strLe x.1 y.1 = true) := ⟨fun _ _ _ => strLe_trans⟩
    exact List.pairwise_insertionSort _ d
  have h2 : (sortItems d).Pairwise (fun x y => x.1 ≠ y.1) := by
    have : ((sortItems d).map Prod.fst).Nodup := ((sortItems_perm d).map Prod.fst).nodup_iff.2 hn
    rw [List.Nodup, List.pairwise_map] at this
    exact this
  exact (h1.and h2).imp (fun h => strLe_lt h.1 h.2)

/-! ### The plan of a comparison -/

/-- The functions of a list of groups in the order of processing. -/
def planOf (gs : List (Option Str × Dict Str FunDesc)) : List (Option Str × Str × FunDesc) :=
  gs.flatMap (fun g => (sortItems g.2).map (fun x => (g.1, x.1, x.2)))

theorem mapNamed_ok : ∀ (s : FunGroups) (named : List (Str × Dict Str FunDesc)),
    mapExcept (fun g : Option Str × Dict Str FunDesc =>
      match g.1 with | none => .error .typeError | some n => .ok (n, g.2)) s = .ok named →
    s = named.map (fun g => (some g.1, g.2))
  | [], named, h => by simp [mapExcept] at h; subst h; rfl
  | (none, l) :: s, named, h => by simp [mapExcept] at h
  | (some n, l) :: s, named, h => by
    unfold mapExcept at h
    simp only at h
    split at h
    · simp at h
    · next bs hb =>
      simp only [Except.ok.injEq] at h
      subst h
      rw [mapNamed_ok s bs hb]
      simp

theorem sortGroups_ok {s : FunGroups} {gs : List (Option Str × Dict Str FunDesc)} (h : sortGroups s = .ok gs) :
    gs.Perm s ∧ (s.length ≤ 1 ∨ ∃ named : List (Str × Dict Str FunDesc), s = named.map (fun g => (some g.1, g.2)) ∧
      gs = (sortItems named).map (fun g => (some g.1, g.2))) := by
  unfold sortGroups at h
  split at h
  · cases h; exact ⟨List.Perm.refl _, Or.inl (by simp)⟩
  · cases h; exact ⟨List.Perm.refl _, Or.inl (by simp)⟩
  · split at h
    · simp at h
    · next named hn =>
      simp only [Except.ok.injEq] at h
      have hs := mapNamed_ok _ _ hn
      subst h
      refine ⟨?_, Or.inr ⟨named, hs, rfl⟩⟩
      rw [hs]
      exact (sortItems_perm named).map _

theorem mem_planOf {s : FunGroups} (hp : ProperGroups s) {gs : List (Option Str × Dict Str FunDesc)} (h : sortGroups s = .ok gs)
    (g : Option Str) (f : Str) (d : FunDesc) : (g, f, d) ∈ planOf gs ↔ s.getByName f g = some d := by
  have hperm := (sortGroups_ok h).1
  unfold planOf FunGroups.getByName
  rw [List.mem_flatMap]
  constructor
  · rintro ⟨a, ha, hx⟩
    rw [List.mem_map] at hx
    obtain ⟨x, hx, he⟩ := hx
    rw [mem_sortItems] at hx
    simp only [Prod.mk.injEq] at he
    obtain ⟨rfl, rfl, rfl⟩ := he
    have ha' := hperm.mem_iff.1 ha
    rw [Dict.mem_get? hp.1 (show (a.1, a.2) ∈ s from ha')]
    exact Dict.mem_get? (hp.2 a ha') (show (x.1, x.2) ∈ a.2 from hx)
  · intro hd
    cases hg : Dict.get? s g with
    | none => rw [hg] at hd; simp at hd
    | some l =>
      rw [hg] at hd
      simp only at hd
      exact ⟨(g, l), hperm.mem_iff.2 (Dict.get?_mem hg), List.mem_map.2 ⟨(f, d), (mem_sortItems _ _).2 (Dict.get?_mem hd), rfl⟩⟩

theorem planOf_sorted {s : FunGroups} (hp : ProperGroups s) {gs : List (Option Str × Dict Str FunDesc)} (h : sortGroups s = .ok gs) :
    (planOf gs).Pairwise (fun x y => Before (x.1, x.2.1) (y.1, y.2.1)) := by
  obtain ⟨hperm, hcase⟩ := sortGroups_ok h
  have hgs : gs.Pairwise (fun x y => ∃ a b, x.1 = some a ∧ y.1 = some b ∧ StrLt a b) := by
    rcases hcase with hlen | ⟨named, h1, h2⟩
    · rw [← hperm.length_eq] at hlen
      match gs, hlen with
      | [], _ => simp
      | [a], _ => simp
    · rw [h2, List.pairwise_map]
      refine (sortItems_sorted named ?_).imp (fun h => ⟨_, _, rfl, rfl, h⟩)
      have := hp.1
      rw [h1] at this
      simp only [Dict.keys, List.map_map] at this
      have h3 : ((Prod.fst ∘ fun g : Str × Dict Str FunDesc => (some g.1, g.2)) : _ → Option Str) = some ∘ Prod.fst := rfl
      rw [h3, ← List.map_map] at this
      exact List.Nodup.of_map _ this
  have hin : ∀ a ∈ gs, (Dict.keys a.2).Nodup := fun a ha => hp.2 a (hperm.mem_iff.1 ha)
  clear hcase hperm h
  unfold planOf
  rw [List.pairwise_flatMap]
  refine ⟨?_, ?_⟩
  · intro a ha
    rw [List.pairwise_map]
    exact (sortItems_sorted a.2 (hin a ha)).imp (fun h => Or.inr ⟨rfl, h⟩)
  · refine hgs.imp ?_
    rintro x y ⟨a, b, hx, hy, hlt⟩ u hu v hv
    obtain ⟨u', _, rfl⟩ := List.mem_map.1 hu
    obtain ⟨v', _, rfl⟩ := List.mem_map.1 hv
    exact Or.inl ⟨a, b, hx, hy, hlt⟩

/-! ### Induction over a comparison -/

theorem compareFuns_ind {σ : Type} (env : CmpEnv σ) (second : FunGroups) (g : Option Str)
    (P : List (Option Str × Str × FunDesc) → CmpState σ → Prop) :
    ∀ (fs : List (Str × FunDesc)) (done : List (Option Str × Str × FunDesc)) (st st' : CmpState σ),
      (∀ f old done st st', (f, old) ∈ fs → P done st → compareFun env second g f old st = .ok st' → P (done ++ [(g, f, old)]) st') →
      compareFuns env second g fs st = .ok st' → P done st → P (done ++ fs.map (fun x => (g, x.1, x.2))) st'
  | [], done, st, st', _, h, hp => by
    simp [compareFuns] at h; subst h; simpa using hp
  | (f, old) :: fs, done, st, st', hstep, h, hp => by
    unfold compareFuns at h
    cases hc : compareFun env second g f old st with
    | error e => rw [hc] at h; simp at h
    | ok st1 =>
      rw [hc] at h
      simp only at h
      have h1 := hstep f old done st st1 (by simp) hp hc
      have h2 := compareFuns_ind env second g P fs _ st1 st' (fun f old d s s' hm => hstep f old d s s' (by simp [hm])) h h1
      simpa using h2

/-- `P` may depend on the current group. -/
theorem compareGroups_ind {σ : Type} (env : CmpEnv σ) (second : FunGroups)
    (P : Option Str → List (Option Str × Str × FunDesc) → CmpState σ → Prop)
    (hnew : ∀ g0 g done st, (∀ x ∈ done, x.1 ≠ g) → P g0 done st →
      P g done { st with graph := none, groupPrinted := false, world := env.newGroup st.world }) :
    ∀ (gs : List (Option Str × Dict Str FunDesc)) (g0 : Option Str) (done : List (Option Str × Str × FunDesc)) (st st' : CmpState σ),
      (Dict.keys gs).Nodup → (∀ x ∈ done, x.1 ∉ Dict.keys gs) →
      (∀ g f old done st st', (g, f, old) ∈ planOf gs → P g done st → compareFun env second g f old st = .ok st' →
        P g (done ++ [(g, f, old)]) st') →
      compareGroups env second gs st = .ok st' → P g0 done st → ∃ g1, P g1 (done ++ planOf gs) st'
  | [], g0, done, st, st', _, _, _, h, hp => by
    simp [compareGroups] at h; subst h; exact ⟨g0, by simpa [planOf] using hp⟩
  | (g, fs) :: gs, g0, done, st, st', hnd, hdis, hstep, h, hp => by
    unfold compareGroups at h
    cases hc : compareFuns env second g (sortItems fs) { st with graph := none, groupPrinted := false, world := env.newGroup st.world } with
    | error e => rw [hc] at h; simp at h
    | ok st1 =>
      rw [hc] at h
      simp only at h
      simp only [Dict.keys, List.map_cons, List.nodup_cons] at hnd
      have h1 := compareFuns_ind env second g (P g) (sortItems fs) done _ st1 (fun f old d s s' hm => hstep g f old d s s' (by
        unfold planOf
        rw [List.flatMap_cons, List.mem_append]
        exact Or.inl (List.mem_map.2 ⟨(f, old), hm, rfl⟩))) hc (hnew g0 g _ _ (by
          intro x hx e
          exact hdis x hx (by simp [Dict.keys, e])) hp)
      obtain ⟨g1, h2⟩ := compareGroups_ind env second P hnew gs g _ st1 st' hnd.2 (by
        intro x hx
        rcases List.mem_append.1 hx with hx | hx
        · intro hk
          exact hdis x hx (by simp only [Dict.keys, List.map_cons, List.mem_cons]; exact Or.inr hk)
        · obtain ⟨y, _, rfl⟩ := List.mem_map.1 hx
          exact hnd.1) (fun g f old d s s' hm => hstep g f old d s s' (by
        unfold planOf at hm ⊢
        rw [List.flatMap_cons, List.mem_append]
        exact Or.inr hm)) h h1
      refine ⟨g1, ?_⟩
      unfold planOf at h2 ⊢
      rw [List.flatMap_cons]
      simpa using h2

/-- The form used for properties of whole comparisons. -/
theorem compareSnapshots_ind {σ : Type} {env : CmpEnv σ} {dir : Str} {first second : FunGroups} {w : σ} {st : CmpState σ}
    (hp : ProperGroups first) (h : compareSnapshots env dir first second w = .ok st)
    (P : Option Str → List (Option Str × Str × FunDesc) → CmpState σ → Prop)
    (h0 : P none [] { world := w, result := Res.new .none dir dir })
    (hnew : ∀ g0 g done st, (∀ x ∈ done, x.1 ≠ g) → P g0 done st →
      P g done { st with graph := none, groupPrinted := false, world := env.newGroup st.world })
    (hstep : ∀ g f old done st st', first.getByName f g = some old → P g done st → compareFun env second g f old st = .ok st' →
      P g (done ++ [(g, f, old)]) st') :
    ∃ plan, (∃ g, P g plan st) ∧ (∀ g f old, (g, f, old) ∈ plan ↔ first.getByName f g = some old) ∧
      plan.Pairwise (fun x y => Before (x.1, x.2.1) (y.1, y.2.1)) := by
  unfold compareSnapshots at h
  cases hg : sortGroups first with
  | error e => rw [hg] at h; simp at h
  | ok gs =>
    rw [hg] at h
    simp only at h
    have hnd : (Dict.keys gs).Nodup := ((sortGroups_ok hg).1.map Prod.fst).nodup_iff.2 hp.1
    obtain ⟨g1, this⟩ := compareGroups_ind env second P hnew gs none [] _ st hnd (by simp)
      (fun g f old d s s' hm => hstep g f old d s s' ((mem_planOf hp hg g f old).1 hm)) h h0
    exact ⟨planOf gs, ⟨g1, by simpa using this⟩, fun g f old => mem_planOf hp hg g f old, planOf_sorted hp hg⟩

/-! ### One function -/

theorem header_eq {σ : Type} (st : CmpState σ) (g : Option Str) :
    ∃ os, (∀ o ∈ os, ∃ n, o = .groupName n) ∧ ∃ b, st.header g = { st with groupPrinted := b, outs := st.outs ++ os } := by
  unfold CmpState.header
  cases g with
  | none => exact ⟨[], by simp, st.groupPrinted, by simp⟩
  | some g =>
    simp only
    split
    · exact ⟨[], by simp, st.groupPrinted, by simp⟩
    · exact ⟨[.groupName g], by simp, true, rfl⟩

theorem anyMatch_ok (m : Str → Bool) : ∀ (rs : List Res) (b : Bool), anyMatch m rs = .ok b →
    (b = true ∧ ∃ x ∈ rs, ∃ d, x.diff = some d ∧ m d = true) ∨
    (b = false ∧ ∀ x ∈ rs, ∃ d, x.diff = some d ∧ m d = false)
  | [], b, h => by simp [anyMatch] at h; subst h; right; simp
  | r :: rs, b, h => by
    unfold anyMatch at h
    cases hd : r.diff with
    | none => rw [hd] at h; simp at h
    | some d =>
      rw [hd] at h
      simp only at h
      cases hm : m d with
      | true =>
        rw [hm] at h; simp at h; subst h
        exact Or.inl ⟨rfl, r, by simp, d, hd, hm⟩
      | false =>
        rw [hm] at h
        simp only [Bool.false_eq_true, if_false] at h
        rcases anyMatch_ok m rs b h with ⟨h1, x, hx, h2⟩ | ⟨h1, h2⟩
        · exact Or.inl ⟨h1, x, by simp [hx], h2⟩
        · refine Or.inr ⟨h1, ?_⟩
          intro x hx
          rcases List.mem_cons.1 hx with rfl | hx
          · exact ⟨d, hd, hm⟩
          · exact h2 x hx

theorem regexFilter_filtered {regex : Option (Str → Bool)} {r r' : Res} (h : regexFilter regex r = .ok r') :
    Filtered regex r r' := by
  unfold regexFilter at h
  unfold Filtered
  cases regex with
  | none => simp only [Except.ok.injEq] at h; exact h.symm
  | some m =>
    simp only at h ⊢
    cases hm : anyMatch m r.inner.values with
    | error e => rw [hm] at h; simp at h
    | ok b =>
      rw [hm] at h
      rcases anyMatch_ok m _ _ hm with ⟨rfl, h2⟩ | ⟨rfl, h2⟩
      · simp only [Except.ok.injEq] at h
        exact Or.inl ⟨h2, h.symm⟩
      · simp only [Except.ok.injEq] at h
        refine Or.inr ⟨?_, h.symm⟩
        intro x hx d hd
        obtain ⟨d', h3, h4⟩ := h2 x hx
        rw [hd] at h3; cases h3; exact h4

theorem filtered_graph {regex : Option (Str → Bool)} {r r' : Res} (h : Filtered regex r r') :
    r'.graph = r.graph ∧ r'.first = r.first ∧ r'.inner = r.inner := by
  unfold Filtered at h
  cases regex with
  | none => simp only at h; subst h; exact ⟨rfl, rfl, rfl⟩
  | some m =>
    rcases h with ⟨_, rfl⟩ | ⟨_, rfl⟩ <;> exact ⟨rfl, rfl, rfl⟩

/-- The output for one result. -/
def Reported {σ : Type} (env : CmpEnv σ) (g : Option Str) (f : Str) (r : Res) (os : List Out) : Prop :=
  if r.kind = .notEqual ∨ env.full = true then printSyntaxDiff env.showDiff env.full g f r = .ok os
  else if r.kind = .unknown ∨ r.kind = .error then os = [.status f r.kind]
  else os = []

theorem reportFun_ok {σ : Type} {env : CmpEnv σ} {g : Option Str} {f : Str} {r : Res} {st st' : CmpState σ}
    (h : reportFun env g f r st = .ok st') :
    ∃ hdr os, (∀ o ∈ hdr, ∃ n, o = .groupName n) ∧ Reported env g f r os ∧ st'.outs = st.outs ++ hdr ++ os ∧
      st'.result = st.result ∧ st'.world = st.world ∧ st'.graph = st.graph := by
  unfold reportFun at h
  unfold Reported
  by_cases h1 : r.kind = .notEqual ∨ env.full = true
  · have : r.kind = .notEqual ∨ r.kind = .unknown ∨ r.kind = .error ∨ env.full = true := by
      rcases h1 with h1 | h1
      · exact Or.inl h1
      · exact Or.inr (Or.inr (Or.inr h1))
    rw [if_pos this, if_pos h1] at h
    cases hp : printSyntaxDiff env.showDiff env.full g f r with
    | error e => rw [hp] at h; simp at h
    | ok os =>
      rw [hp] at h
      simp only [Except.ok.injEq] at h
      obtain ⟨hdr, hh, b, he⟩ := header_eq st g
      cases ht : env.toDir with
      | true =>
        rw [ht] at h
        subst h
        exact ⟨[], os, by simp, by rw [if_pos h1], by simp, rfl, rfl, rfl⟩
      | false =>
        rw [ht] at h
        simp only [Bool.false_eq_true, if_false] at h
        subst h
        exact ⟨hdr, os, hh, by rw [if_pos h1], by rw [he], by rw [he], by rw [he], by rw [he]⟩
  · rw [if_neg h1] at h
    by_cases h2 : r.kind = .unknown ∨ r.kind = .error
    · have : r.kind = .notEqual ∨ r.kind = .unknown ∨ r.kind = .error ∨ env.full = true := by
        rcases h2 with h2 | h2
        · exact Or.inr (Or.inl h2)
        · exact Or.inr (Or.inr (Or.inl h2))
      rw [if_pos this] at h
      simp only [Except.ok.injEq] at h
      obtain ⟨hdr, hh, b, he⟩ := header_eq st g
      subst h
      refine ⟨hdr, [.status f r.kind], hh, by rw [if_neg h1, if_pos h2], by rw [he], by rw [he], by rw [he], by rw [he]⟩
    · rw [if_neg] at h
      · simp only [Except.ok.injEq] at h
        subst h
        exact ⟨[], [], by simp, by rw [if_neg h1, if_neg h2], by simp, rfl, rfl, rfl⟩
      · rintro (h3 | h3 | h3 | h3)
        · exact h1 (Or.inl h3)
        · exact h2 (Or.inl h3)
        · exact h2 (Or.inr h3)
        · exact h1 (Or.inr h3)

/-- What comparing one function does. -/
theorem compareFun_cases {σ : Type} {env : CmpEnv σ} {second : FunGroups} {g : Option Str} {f : Str} {old : FunDesc}
    {st st' : CmpState σ} (h : compareFun env second g f old st = .ok st') :
    (second.getByName f g = none ∧ st' = st) ∨
    ∃ new, second.getByName f g = some new ∧
      (((old.mod = none ∨ new.mod = none) ∧ st'.result = st.result.addInner (Res.new .unknown f f) ∧ st'.world = st.world ∧
          st'.graph = st.graph ∧ ∃ hdr, (∀ o ∈ hdr, ∃ n, o = .groupName n) ∧ st'.outs = st.outs ++ hdr ++ [.status f .unknown]) ∨
       (old.mod ≠ none ∧ new.mod ≠ none ∧ ∃ res res', (env.diff g f old new st.graph st.world).2 = .ok res ∧
          regexFilter env.regex res = .ok res' ∧ st'.result = st.result.addInner res' ∧
          st'.world = (env.diff g f old new st.graph st.world).1 ∧ st'.graph = res.graph ∧
          ∃ hdr os, (∀ o ∈ hdr, ∃ n, o = .groupName n) ∧ Reported env g f res' os ∧ st'.outs = st.outs ++ hdr ++ os)) := by
  unfold compareFun at h
  cases hs : second.getByName f g with
  | none => rw [hs] at h; simp only [Except.ok.injEq] at h; exact Or.inl ⟨rfl, h.symm⟩
  | some new =>
    rw [hs] at h
    simp only at h
    refine Or.inr ⟨new, rfl, ?_⟩
    by_cases hm : old.mod = none ∨ new.mod = none
    · rw [if_pos hm] at h
      simp only [Except.ok.injEq] at h
      obtain ⟨hdr, hh, b, he⟩ := header_eq { st with result := st.result.addInner (Res.new .unknown f f) } g
      subst h
      exact Or.inl ⟨hm, by rw [he], by rw [he], by rw [he], hdr, hh, by rw [he]⟩
    · rw [if_neg hm] at h
      rw [not_or] at hm
      cases hd : (env.diff g f old new st.graph st.world).2 with
      | error e => rw [hd] at h; simp at h
      | ok res =>
        rw [hd] at h
        simp only at h
        cases hr : regexFilter env.regex res with
        | error e => rw [hr] at h; simp at h
        | ok res' =>
          rw [hr] at h
          simp only at h
          obtain ⟨hdr, os, h1, h2, h3, h4, h5, h6⟩ := reportFun_ok h
          exact Or.inr ⟨hm.1, hm.2, res, res', rfl, hr, h4, h5, h6, hdr, os, h1, h2, h3⟩

end DK
