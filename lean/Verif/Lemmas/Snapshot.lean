import Verif.Spec.Snapshot
import Verif.Lemmas.Dict

set_option autoImplicit false

namespace DK
open Spec

/-! ### Dictionaries -/

theorem set_append_new {α β : Type} [DecidableEq α] (d : Dict α β) (a : α) (b : β) (h : a ∉ Dict.keys d) :
    Dict.set d a b = d ++ [(a, b)] := by
  induction d with
  | nil => rfl
  | cons p d ih =>
    obtain ⟨k, v⟩ := p
    simp only [Dict.keys, List.map_cons, List.mem_cons, not_or] at h
    rw [Dict.set, if_neg (Ne.symm h.1), ih (by simpa [Dict.keys] using h.2), List.cons_append]

theorem set_append_last {α β : Type} [DecidableEq α] (d : Dict α β) (a : α) (b c : β) (h : a ∉ Dict.keys d) :
    Dict.set (d ++ [(a, b)]) a c = d ++ [(a, c)] := by
  induction d with
  | nil => simp [Dict.set]
  | cons p d ih =>
    obtain ⟨k, v⟩ := p
    simp only [Dict.keys, List.map_cons, List.mem_cons, not_or] at h
    rw [List.cons_append, Dict.set, if_neg (Ne.symm h.1), ih (by simpa [Dict.keys] using h.2), List.cons_append]

theorem get?_append_last {α β : Type} [DecidableEq α] (d : Dict α β) (a : α) (b : β) (h : a ∉ Dict.keys d) :
    Dict.get? (d ++ [(a, b)]) a = some b := by
  rw [← set_append_new d a b h, Dict.get?_set_self]

/-! ### Adding functions -/

theorem getByName_addFun (s : FunGroups) (n : Str) (d : FunDesc) (g : Option Str) (name : Str) (group : Option Str) :
    (s.addFun n d g).getByName name group = if n = name ∧ g = group then some d else s.getByName name group := by
  unfold FunGroups.getByName FunGroups.addFun
  rw [Dict.get?_set]
  by_cases hg : group = g
  · subst hg
    rw [if_pos rfl]
    simp only [and_true]
    rw [Dict.get?_set]
    by_cases hn : n = name
    · subst hn; simp
    · rw [if_neg (Ne.symm hn), if_neg hn]
      cases hh : Dict.get? s group with
      | none => simp
      | some g => simp
  · rw [if_neg hg, if_neg (fun h => hg h.2.symm)]

/-! ### Paths -/

theorem splitChar_append_sep (c : Char) (a b : Str) : splitChar c (a ++ c :: b) = splitChar c a ++ splitChar c b := by
  induction a with
  | nil => simp [splitChar]
  | cons x a ih =>
    rw [List.cons_append]
    by_cases hx : x = c
    · rw [splitChar, if_pos hx, ih, splitChar, if_pos hx, List.cons_append]
    · obtain ⟨w, ws, h1, h2⟩ := splitChar_cons_ne a hx
      rw [splitChar, if_neg hx, ih, h1, h2]
      rfl

theorem foldl_normStep_up (n : Nat) (acc : List Str) :
    (List.replicate n (str! "..")).foldl normStep acc = acc.take (acc.length - n) := by
  induction n generalizing acc with
  | zero => simp
  | succ n ih =>
    rw [List.replicate_succ, List.foldl_cons, ih]
    have : normStep acc (str! "..") = acc.dropLast := by
      unfold normStep
      rw [if_neg (by decide), if_pos rfl]
    rw [this, List.dropLast_eq_take, List.take_take, List.length_take]
    congr 1
    omega

theorem absComps_good {cwd : List Str} (h : GoodDir cwd) (p : Str) : ∀ w ∈ absComps cwd p, NormalComp w := by
  unfold absComps
  have key : ∀ (ws acc : List Str), (∀ w ∈ acc, NormalComp w) → (∀ w ∈ ws, '/' ∉ w) → ∀ w ∈ ws.foldl normStep acc, NormalComp w := by
    intro ws
    induction ws with
    | nil => intro acc h _; exact h
    | cons v ws ih =>
      intro acc hacc hws
      rw [List.foldl_cons]
      refine ih _ ?_ (fun w hw => hws w (by simp [hw]))
      intro w hw
      unfold normStep at hw
      split at hw
      · exact hacc w hw
      · next h1 =>
        split at hw
        · exact hacc w (List.mem_of_mem_dropLast hw)
        · next h2 =>
          rw [List.mem_append, List.mem_singleton] at hw
          rcases hw with hw | rfl
          · exact hacc w hw
          · exact ⟨fun hh => h1 (Or.inl hh), fun hh => h1 (Or.inr hh), h2, hws _ (by simp)⟩
  refine key _ _ ?_ (fun w hw => (mem_splitChar hw).1)
  split
  · simp
  · exact h

theorem joinChar_split_ne (ws : List Str) (hne : ws ≠ []) (h : ∀ w ∈ ws, w ≠ [] ∧ '/' ∉ w) :
    (joinChar '/' ws) ≠ [] ∧ (joinChar '/' ws).head? ≠ some '/' ∧ (joinChar '/' ws).getLast? ≠ some '/' := by
  have hj : ∀ ws : List Str, ws ≠ [] → (∀ w ∈ ws, w ≠ [] ∧ '/' ∉ w) →
      (joinChar '/' ws) ≠ [] ∧ (joinChar '/' ws).getLast? ≠ some '/' := by
    intro ws
    induction ws with
    | nil => intro h; exact absurd rfl h
    | cons w ws ih =>
      intro _ h
      have hw := h w (by simp)
      cases ws with
      | nil =>
        rw [joinChar]
        refine ⟨hw.1, fun hl => hw.2 (List.mem_of_getLast? hl)⟩
      | cons v ws =>
        have := ih (by simp) (fun x hx => h x (by simp [hx]))
        rw [joinChar]
        refine ⟨by simp, ?_⟩
        rw [List.getLast?_append, List.getLast?_cons]
        simp only [Option.some_or]
        rw [List.getLast?_eq_some_getLast this.1] at this
        rw [List.getLast?_eq_some_getLast this.1]
        exact this.2
  refine ⟨(hj ws hne h).1, ?_, (hj ws hne h).2⟩
  cases ws with
  | nil => exact absurd rfl hne
  | cons w ws =>
    have hw := h w (by simp)
    rw [joinChar_head w ws hw.1]
    intro hh
    exact hw.2 (List.mem_of_mem_head? hh)

/-- A relative path as `relpath` produces it: proper components after some `..`. -/
theorem relpath_ok {cwd : List Str} (hc : GoodDir cwd) {p start r : Str} (h : relpath cwd p start = .ok r) :
    ∃ comps, comps ≠ [] ∧ r = joinChar '/' comps ∧ (∀ w ∈ comps, w ≠ [] ∧ '/' ∉ w) ∧
      comps.foldl normStep (absComps cwd start) = absComps cwd p := by
  unfold relpath at h
  split at h
  · simp at h
  simp only [Except.ok.injEq] at h
  have hgood := absComps_good hc p
  generalize hsl : absComps cwd start = sl at h ⊢
  generalize hpl : absComps cwd p = pl at h hgood ⊢
  have hle := commonLen_le sl pl
  have htake := commonLen_take sl pl
  have hfold : (List.replicate (sl.length - commonLen sl pl) (str! "..") ++ pl.drop (commonLen sl pl)).foldl normStep sl = pl := by
    rw [List.foldl_append, foldl_normStep_up, foldl_normStep _ (fun w hw => hgood w (List.mem_of_mem_drop hw))]
    rw [show sl.length - (sl.length - commonLen sl pl) = commonLen sl pl by omega, htake, List.take_append_drop]
  generalize hrel : List.replicate (sl.length - commonLen sl pl) (str! "..") ++ pl.drop (commonLen sl pl) = rel at h hfold
  have hmem : ∀ w ∈ rel, w ≠ [] ∧ '/' ∉ w := by
    intro w hw
    rw [← hrel, List.mem_append] at hw
    rcases hw with hw | hw
    · rw [(List.mem_replicate.1 hw).2]; decide
    · have := hgood w (List.mem_of_mem_drop hw); exact ⟨this.1, this.2.2.2⟩
  by_cases hn : rel = []
  · rw [if_pos hn] at h
    refine ⟨[str! "."], by simp, by rw [← h]; rfl, by decide, ?_⟩
    rw [hn] at hfold
    simp only [List.foldl_nil] at hfold
    rw [← hfold]
    rfl
  · rw [if_neg hn] at h
    exact ⟨rel, hn, h.symm, hmem, hfold⟩

theorem absComps_dot (cwd : List Str) : absComps cwd (str! ".") = cwd := rfl

/-- Joining a directory given relative to the working directory with a relative path. -/
theorem absComps_pathJoin {cwd : List Str} {d : Str} {comps : List Str} (hd : d ≠ []) (hl : d.getLast? ≠ some '/')
    (hne : comps ≠ []) (h : ∀ w ∈ comps, w ≠ [] ∧ '/' ∉ w) :
    absComps cwd (pathJoin d (joinChar '/' comps)) = comps.foldl normStep (absComps cwd d) := by
  unfold pathJoin
  rw [if_neg (joinChar_split_ne comps hne h).2.1, if_neg (by rintro (hh | hh); exacts [hd hh, hl hh])]
  unfold absComps
  rw [splitChar_append_sep, splitChar_join '/' comps hne (fun w hw => (h w hw).2), List.foldl_append]
  cases d with
  | nil => exact absurd rfl hd
  | cons x d => rfl

/-- The path of a loaded module. -/
theorem loaded_path {cwd : List Str} (hc : GoodDir cwd) {dir d : Str} (h : relpath cwd dir (str! ".") = .ok d)
    {comps : List Str} (hne : comps ≠ []) (hm : ∀ w ∈ comps, w ≠ [] ∧ '/' ∉ w) :
    absComps cwd (pathJoin d (joinChar '/' comps)) = comps.foldl normStep (absComps cwd dir) := by
  obtain ⟨cd, h1, h2, h3, h4⟩ := relpath_ok hc h
  have := joinChar_split_ne cd h1 h3
  rw [absComps_pathJoin (by rw [h2]; exact this.1) (by rw [h2]; exact this.2.2) hne hm]
  congr 1
  rw [h2]
  unfold absComps
  rw [splitChar_join '/' cd h1 (fun w hw => (h3 w hw).2), if_neg this.2.1]
  exact h4

end DK
