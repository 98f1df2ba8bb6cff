import Verif.Model.Search
import Verif.Spec.Graph

/-! Invariant of the search loop. -/

namespace DK
open Spec

section
variable {h : Heap} {g : Graph} {side : Side} {orig : Option Str} {s : Vid}

theorem set_absent {α β : Type} [DecidableEq α] {d : Dict α β} {a : α} {b : β} (hn : a ∉ d.keys) :
    d.set a b = d ++ [(a, b)] := by
  induction d with
  | nil => rfl
  | cons p d ih =>
    obtain ⟨k, v⟩ := p
    simp only [Dict.keys, List.map_cons, List.mem_cons, not_or] at hn
    have : ¬ k = a := fun e => hn.1 e.symm
    simp only [Dict.set, this, if_false, List.cons_append]
    rw [ih hn.2]

/-- Backtracking maps built by the search: every entry's caller is the start function or an earlier entry. -/
inductive BtOk (h : Heap) (g : Graph) (side : Side) (orig : Option Str) (s : Vid) :
    Dict Vid (Vid × Edge) → Prop
  | nil : BtOk h g side orig s []
  | snoc {bt u e v} : BtOk h g side orig s bt → (u = s ∨ u ∈ bt.keys) → v ∉ bt.keys → v ≠ s →
      Calls h g side orig u e v → BtOk h g side orig s (bt ++ [(v, (u, e))])

theorem BtOk.nodup {bt} (hb : BtOk h g side orig s bt) : bt.keys.Nodup := by
  induction hb with
  | nil => simp [Dict.keys]
  | snoc _ _ hv _ _ ih =>
    simp only [Dict.keys, List.map_append, List.map_cons, List.map_nil] at *
    rw [List.nodup_append]
    refine ⟨ih, by simp, ?_⟩
    intro x hx y hy
    simp only [List.mem_singleton] at hy
    subst hy
    rintro rfl
    exact hv hx

theorem BtOk.start {bt} (hb : BtOk h g side orig s bt) : s ∉ bt.keys := by
  induction hb with
  | nil => simp [Dict.keys]
  | snoc _ _ hv hne _ ih =>
    simp only [Dict.keys, List.map_append, List.map_cons, List.map_nil, List.mem_append,
      List.mem_singleton, not_or] at *
    exact ⟨ih, fun e => hne e.symm⟩

/-- Path for each entry, together with the behaviour of the callstack loop on any larger map. -/
theorem BtOk.path {bt} (hb : BtOk h g side orig s bt) :
    ∀ v ∈ bt.keys, ∃ p c e, CallPath h g side orig s (p ++ [(c, e)]) v ∧ p.length + 1 ≤ bt.length ∧
      bt.get? v = some (c, e) ∧
      ∀ ext : Dict Vid (Vid × Edge), (∀ x ∈ bt.keys, ext.get? x = bt.get? x) →
        ∀ n, p.length + 1 ≤ n → ∀ acc,
        callstackLoop ext s n (c, e) acc = some (.ok (p ++ [(c, e)] ++ acc)) := by
  induction hb with
  | nil => intro v hv; simp [Dict.keys] at hv
  | @snoc bt u e v hb hu hv hne hc ih =>
    have hnd := (BtOk.snoc hb hu hv hne hc).nodup
    have hold : ∀ x ∈ bt.keys, (bt ++ [(v, (u, e))]).get? x = bt.get? x := by
      intro x hx
      have : (bt.get? x).isSome := (Dict.mem_keys_iff bt x).1 hx
      obtain ⟨y, hy⟩ := Option.isSome_iff_exists.1 this
      rw [hy]
      exact Dict.mem_get? hnd (List.mem_append_left _ (Dict.get?_mem hy))
    have hnew : (bt ++ [(v, (u, e))]).get? v = some (u, e) :=
      Dict.mem_get? hnd (by simp)
    intro x hx
    simp only [Dict.keys, List.map_append, List.map_cons, List.map_nil, List.mem_append,
      List.mem_singleton] at hx
    rcases hx with hx | hx
    · obtain ⟨p, c, e', h1, h2, h3, h4⟩ := ih x hx
      refine ⟨p, c, e', h1, by simp; omega, by rw [hold x hx, h3], ?_⟩
      intro ext hext n hn acc
      apply h4 ext _ n hn acc
      intro y hy
      rw [hext y (by simp [Dict.keys] at hy ⊢; exact Or.inl hy), hold y hy]
    · subst hx
      rcases hu with rfl | hu
      · refine ⟨[], u, e, ?_, by simp, hnew, ?_⟩
        · exact CallPath.snoc CallPath.nil hc
        · intro ext _ n hn acc
          obtain ⟨m, rfl⟩ : ∃ m, n = m + 1 := ⟨n - 1, by simp at hn; omega⟩
          simp [callstackLoop]
      · obtain ⟨p, c, e', h1, h2, h3, h4⟩ := ih u hu
        refine ⟨p ++ [(c, e')], u, e, CallPath.snoc h1 hc, by simp; omega, hnew, ?_⟩
        intro ext hext n hn acc
        obtain ⟨m, rfl⟩ : ∃ m, n = m + 1 := ⟨n - 1, by simp at hn; omega⟩
        have hus : u ≠ s := by rintro rfl; exact hb.start hu
        have hextu : ext.get? u = some (c, e') := by
          rw [hext u (by simp [Dict.keys] at hu ⊢; exact Or.inl hu), hold u hu, h3]
        simp only [callstackLoop, hus, if_false, hextu]
        rw [h4 ext _ m (by simp at hn ⊢; omega) ((u, e) :: acc)]
        · simp
        · intro y hy
          rw [hext y (by simp [Dict.keys] at hy ⊢; exact Or.inl hy), hold y hy]

/-- The invariant of the search. -/
structure SearchInv (h : Heap) (g : Graph) (side : Side) (orig : Option Str) (s : Vid) (st : Search) : Prop where
  bt : BtOk h g side orig s st.bt
  start : s ∈ st.visited ∨ (st.queue = [s] ∧ st.visited = [] ∧ st.bt = [])
  queue : ∀ v ∈ st.queue, v = s ∨ v ∈ st.bt.keys
  visited : ∀ v ∈ st.visited, v = s ∨ v ∈ st.bt.keys
  keys : ∀ v ∈ st.bt.keys, v ∈ st.visited ∨ v ∈ st.queue
  result : ∀ v ∈ st.result, v = s ∨ (v ∈ st.bt.keys ∧ StronglyReachable h g side orig s v)
  startRes : s ∈ st.result
  weak : ∀ v ∈ st.bt.keys, v ∈ st.result ∨ ∃ u e, Reachable h g side orig s u ∧ Calls h g side orig u e v ∧ e.weak = true

theorem BtOk.reachable {bt} (hb : BtOk h g side orig s bt) {v} (hv : v ∈ bt.keys) :
    Reachable h g side orig s v := by
  obtain ⟨p, c, e, h1, _⟩ := hb.path v hv
  exact ⟨_, h1⟩

theorem crossesBoundary_false {t : Vid} (hc : crossesBoundary h side orig t = .ok false) :
    ∃ f, (h t).files side = some f ∧ ((str! ".c") <:+ f → orig = some f) := by
  unfold crossesBoundary at hc
  split at hc
  · cases hc
  · rename_i f hf
    refine ⟨f, hf, ?_⟩
    intro hsuf
    have hc' : (endsWith f (str! ".c") && orig != some f) = false := by simpa using hc
    have h1 : endsWith f (str! ".c") = true := by simpa [endsWith, List.isSuffixOf_iff_suffix] using hsuf
    rw [h1] at hc'
    simpa using hc'

theorem crossesBoundary_true {t : Vid} (hc : crossesBoundary h side orig t = .ok true) :
    ¬ ∃ f, (h t).files side = some f ∧ ((str! ".c") <:+ f → orig = some f) := by
  rintro ⟨f, hf, hb⟩
  simp only [crossesBoundary, hf, Except.ok.injEq, Bool.and_eq_true, endsWith,
    List.isSuffixOf_iff_suffix, bne_iff_ne, ne_eq] at hc
  exact hc.2 (hb hc.1)

/-- The inner loop keeps the invariant and handles all calls of `c`. -/
theorem searchEdges_inv {c : Vid} :
    ∀ {es : List Edge} {st st' : Search}, (∀ e ∈ es, e ∈ (h c).succs side) →
      searchEdges h g side orig c es st = .ok st' → SearchInv h g side orig s st → c ∈ st.visited →
      s ∈ st.visited →
      SearchInv h g side orig s st' ∧
      (∀ x ∈ st.result, x ∈ st'.result) ∧ (∀ x ∈ st.queue, x ∈ st'.queue) ∧
      (∀ x ∈ st.bt.keys, x ∈ st'.bt.keys) ∧
      (∀ e ∈ es, ∀ v, Calls h g side orig c e v →
        v ∈ st'.visited ∨ (v ∈ st'.queue ∧ (e.weak = false → v ∈ st'.result))) := by
  intro es
  induction es with
  | nil =>
    intro st st' _ h1 hi _ _
    simp only [searchEdges, Except.ok.injEq] at h1
    subst h1
    exact ⟨hi, fun _ h => h, fun _ h => h, fun _ h => h, by simp⟩
  | cons e es ih =>
    intro st st' hes h1 hi hcv hsv
    have hes' : ∀ e ∈ es, e ∈ (h c).succs side := fun x hx => hes x (List.mem_cons_of_mem _ hx)
    unfold searchEdges at h1
    split at h1
    · rename_i hnone
      obtain ⟨a1, a2, a3, a3', a4⟩ := ih hes' h1 hi hcv hsv
      refine ⟨a1, a2, a3, a3', ?_⟩
      intro x hx v hv
      rcases List.mem_cons.1 hx with rfl | hx
      · rw [hv.target] at hnone; cases hnone
      · exact a4 x hx v hv
    · rename_i t ht
      split at h1
      · rename_i hvis
        have hvis' := (searchEdges_queue h1).1
        obtain ⟨a1, a2, a3, a3', a4⟩ := ih hes' h1 hi hcv hsv
        refine ⟨a1, a2, a3, a3', ?_⟩
        intro x hx v hv
        rcases List.mem_cons.1 hx with rfl | hx
        · have : v = t := by have := hv.target; rw [ht] at this; injection this with this; exact this.symm
          subst this
          left; rw [hvis']; exact hvis
        · exact a4 x hx v hv
      · rename_i hvis
        split at h1
        · cases h1
        · rename_i hcb
          obtain ⟨a1, a2, a3, a3', a4⟩ := ih hes' h1 hi hcv hsv
          refine ⟨a1, a2, a3, a3', ?_⟩
          intro x hx v hv
          rcases List.mem_cons.1 hx with rfl | hx
          · have : v = t := by have := hv.target; rw [ht] at this; injection this with this; exact this.symm
            subst this
            exact absurd hv.boundary (crossesBoundary_true hcb)
          · exact a4 x hx v hv
        · rename_i hcb
          have hts : t ≠ s := by rintro rfl; exact hvis hsv
          have hcall : Calls h g side orig c e t :=
            ⟨hes e (by simp), ht, crossesBoundary_false hcb⟩
          have hcreach : Reachable h g side orig s c := by
            rcases hi.visited c hcv with rfl | hk
            · exact ⟨[], CallPath.nil⟩
            · exact hi.bt.reachable hk
          -- the new backtracking map
          have hbt : ∃ bt', (if st.bt.contains t then st.bt else st.bt.set t (c, e)) = bt' ∧
              BtOk h g side orig s bt' ∧ (∀ x, x ∈ bt'.keys ↔ x ∈ st.bt.keys ∨ x = t) := by
            by_cases hk : t ∈ st.bt.keys
            · refine ⟨st.bt, ?_, hi.bt, ?_⟩
              · rw [if_pos ((Dict.contains_iff _ _).2 hk)]
              · intro x
                constructor
                · exact Or.inl
                · rintro (h | rfl)
                  · exact h
                  · exact hk
            · refine ⟨st.bt ++ [(t, (c, e))], ?_, ?_, ?_⟩
              · rw [if_neg (fun h => hk ((Dict.contains_iff _ _).1 h)), set_absent hk]
              · exact BtOk.snoc hi.bt (hi.visited c hcv) hk hts hcall
              · intro x
                simp [Dict.keys]
          obtain ⟨bt', hbt1, hbt2, hbt3⟩ := hbt
          rw [hbt1] at h1
          have hi' : SearchInv h g side orig s
              { st with queue := st.queue ++ [t], bt := bt',
                        result := if e.weak then st.result else st.result ++ [t] } := by
            constructor
            · exact hbt2
            · exact Or.inl hsv
            · intro v hv
              rcases List.mem_append.1 hv with hv | hv
              · rcases hi.queue v hv with h | h
                · exact Or.inl h
                · exact Or.inr ((hbt3 v).2 (Or.inl h))
              · exact Or.inr ((hbt3 v).2 (Or.inr (by simpa using hv)))
            · intro v hv
              rcases hi.visited v hv with h | h
              · exact Or.inl h
              · exact Or.inr ((hbt3 v).2 (Or.inl h))
            · intro v hv
              rcases (hbt3 v).1 hv with hv | rfl
              · rcases hi.keys v hv with h | h
                · exact Or.inl h
                · exact Or.inr (List.mem_append_left _ h)
              · exact Or.inr (by simp)
            · intro v hv
              have hold : v ∈ st.result →
                  v = s ∨ (v ∈ bt'.keys ∧ StronglyReachable h g side orig s v) := by
                intro hv
                rcases hi.result v hv with h | ⟨h, h'⟩
                · exact Or.inl h
                · exact Or.inr ⟨(hbt3 v).2 (Or.inl h), h'⟩
              cases hw : e.weak with
              | true => simp only [hw, if_true] at hv; exact hold hv
              | false =>
                simp only [hw, Bool.false_eq_true, if_false, List.mem_append, List.mem_singleton] at hv
                rcases hv with hv | rfl
                · exact hold hv
                · exact Or.inr ⟨(hbt3 v).2 (Or.inr rfl), c, e, hcreach, hcall, hw⟩
            · show s ∈ (if e.weak then st.result else st.result ++ [t])
              split
              · exact hi.startRes
              · exact List.mem_append_left _ hi.startRes
            · intro v hv
              show v ∈ (if e.weak then st.result else st.result ++ [t]) ∨ _
              rcases (hbt3 v).1 hv with hv | rfl
              · rcases hi.weak v hv with h | h
                · left; split
                  · exact h
                  · exact List.mem_append_left _ h
                · exact Or.inr h
              · cases hw : e.weak with
                | true => exact Or.inr ⟨c, e, hcreach, hcall, hw⟩
                | false => left; simp
          obtain ⟨a1, a2, a3, a3', a4⟩ := ih hes' h1 hi' hcv hsv
          refine ⟨a1, ?_, ?_, ?_, ?_⟩
          · intro x hx
            apply a2
            show x ∈ (if e.weak then st.result else st.result ++ [t])
            split
            · exact hx
            · exact List.mem_append_left _ hx
          · intro x hx; exact a3 x (List.mem_append_left _ hx)
          · intro x hx; exact a3' x ((hbt3 x).2 (Or.inl hx))
          · intro x hx v hv
            rcases List.mem_cons.1 hx with rfl | hx
            · have : v = t := by have := hv.target; rw [ht] at this; injection this with this; exact this.symm
              subst this
              right
              refine ⟨a3 _ (by simp), ?_⟩
              intro hw
              apply a2
              simp [hw]
            · exact a4 x hx v hv

/-- Calls of visited functions have been followed. -/
def SearchClosed (h : Heap) (g : Graph) (side : Side) (orig : Option Str) (st : Search) : Prop :=
  ∀ u ∈ st.visited, ∀ e v, Calls h g side orig u e v → v ∈ st.visited ∨ v ∈ st.queue

theorem searchStep_inv {st st' : Search} (hs : searchStep h g side orig st = .ok (some st'))
    (hi : SearchInv h g side orig s st) (hcl : SearchClosed h g side orig st) :
    SearchInv h g side orig s st' ∧ SearchClosed h g side orig st' := by
  unfold searchStep at hs
  split at hs
  · cases hs
  · rename_i c q hq
    split at hs
    · cases hs
    · rename_i st2 h2
      simp only [Except.ok.injEq, Option.some.injEq] at hs
      subst hs
      have hsv : s ∈ c :: st.visited := by
        rcases hi.start with h | ⟨h1, _, _⟩
        · exact List.mem_cons_of_mem _ h
        · rw [hq] at h1; injection h1 with h1 _; simp [h1]
      have hi2 : SearchInv h g side orig s { st with queue := q, visited := c :: st.visited } := by
        constructor
        · exact hi.bt
        · exact Or.inl hsv
        · intro v hv; exact hi.queue v (by rw [hq]; exact List.mem_cons_of_mem _ hv)
        · intro v hv
          rcases List.mem_cons.1 hv with rfl | hv
          · exact hi.queue v (by rw [hq]; simp)
          · exact hi.visited v hv
        · intro v hv
          rcases hi.keys v hv with h | h
          · exact Or.inl (List.mem_cons_of_mem _ h)
          · rw [hq] at h
            rcases List.mem_cons.1 h with rfl | h
            · exact Or.inl (by simp)
            · exact Or.inr h
        · exact hi.result
        · exact hi.startRes
        · exact hi.weak
      obtain ⟨a1, a2, a3, _, a4⟩ := searchEdges_inv (fun _ h => h) h2 hi2 (by simp) hsv
      have hvis := (searchEdges_queue h2).1
      refine ⟨a1, ?_⟩
      intro u hu e v hv
      rw [hvis] at hu
      rcases List.mem_cons.1 hu with rfl | hu
      · rcases a4 e hv.recorded v hv with h | ⟨h, _⟩
        · exact Or.inl h
        · exact Or.inr h
      · rcases hcl u hu e v hv with h | h
        · left; rw [hvis]; exact List.mem_cons_of_mem _ h
        · rw [hq] at h
          rcases List.mem_cons.1 h with rfl | h
          · left; rw [hvis]; simp
          · right; exact a3 v h

theorem searchLoop_inv {st st' : Search} (hs : searchLoop h g side orig st = .ok st')
    (hi : SearchInv h g side orig s st) (hcl : SearchClosed h g side orig st) :
    SearchInv h g side orig s st' ∧ SearchClosed h g side orig st' ∧ st'.queue = [] := by
  induction st using searchLoop.induct h g side orig with
  | case1 st x hx => rw [searchLoop] at hs; split at hs <;> simp_all
  | case2 st hx =>
    rw [searchLoop] at hs
    split at hs
    · simp_all
    · simp only [Except.ok.injEq] at hs
      subst hs
      refine ⟨hi, hcl, ?_⟩
      unfold searchStep at hx
      split at hx
      · assumption
      · split at hx <;> simp_all
    · simp_all
  | case3 st st2 hx ih =>
    rw [searchLoop] at hs
    split at hs
    · simp_all
    · simp_all
    · rename_i st3 h3
      rw [hx] at h3
      injection h3 with h3
      injection h3 with h3
      subst h3
      obtain ⟨b1, b2⟩ := searchStep_inv hx hi hcl
      exact ih hs b1 b2

theorem initial_inv :
    SearchInv h g side orig s { visited := [], queue := [s], result := [s], bt := [] } ∧
    SearchClosed h g side orig { visited := [], queue := [s], result := [s], bt := [] } := by
  refine ⟨⟨BtOk.nil, Or.inr ⟨rfl, rfl, rfl⟩, ?_, ?_, ?_, ?_, ?_, ?_⟩, ?_⟩ <;>
    simp [Dict.keys, SearchClosed]

/-- Everything the theorems need to know about the outcome of a search. -/
structure SearchResult (h : Heap) (g : Graph) (side : Side) (orig : Option Str) (s : Vid)
    (r : List Vid) (bt : Dict Vid (Vid × Edge)) : Prop where
  btOk : BtOk h g side orig s bt
  result : ∀ v ∈ r, v = s ∨ (v ∈ bt.keys ∧ StronglyReachable h g side orig s v)
  startRes : s ∈ r
  complete : ∀ v, Reachable h g side orig s v → v = s ∨ v ∈ bt.keys
  weak : ∀ v ∈ bt.keys, v ∈ r ∨ ∃ u e, Reachable h g side orig s u ∧ Calls h g side orig u e v ∧ e.weak = true

theorem reachableFrom_result {start : Str} {r bt} (hr : reachableFrom h g side start = .ok (r, bt)) :
    ∃ s, g.vertices.get? start = some s ∧ SearchResult h g side ((h s).files side) s r bt := by
  unfold reachableFrom at hr
  split at hr
  · cases hr
  · rename_i s hs
    refine ⟨s, hs, ?_⟩
    split at hr
    · cases hr
    · rename_i st hst
      simp only [Except.ok.injEq, Prod.mk.injEq] at hr
      obtain ⟨rfl, rfl⟩ := hr
      obtain ⟨i1, i2⟩ := initial_inv (h := h) (g := g) (side := side) (orig := (h s).files side) (s := s)
      obtain ⟨j1, j2, j3⟩ := searchLoop_inv hst i1 i2
      have hsv : s ∈ st.visited := by
        rcases j1.start with h | ⟨h, _, _⟩
        · exact h
        · rw [j3] at h; cases h
      refine ⟨j1.bt, j1.result, j1.startRes, ?_, j1.weak⟩
      rintro v ⟨p, hp⟩
      have : v ∈ st.visited := by
        induction hp with
        | nil => exact hsv
        | snoc _ hc ih =>
          rcases j2 _ ih _ _ hc with h | h
          · exact h
          · rw [j3] at h; simp at h
      exact j1.visited v this

end
end DK
