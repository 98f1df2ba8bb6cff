import Verif.Spec.SliceEnd

/-! The function after slicing: C200. -/

set_option autoImplicit false

namespace DK
open Spec

/-- What a visit does: new visited blocks have their successors among the reachable ones, and these are visited. -/
private structure VisitSpec (succ : Nat → List Nat) (rv rv' : List Nat × List Nat) : Prop where
  reach : ∀ b ∈ rv.1, b ∈ rv'.1
  seen : ∀ b ∈ rv.2, b ∈ rv'.2
  closed : ∀ b ∈ rv'.2, b ∉ rv.2 → ∀ s ∈ succ b, s ∈ rv'.1 ∧ s ∈ rv'.2
  fresh : ∀ b ∈ rv'.1, b ∈ rv.1 ∨ b ∈ rv'.2

private theorem visitBlocks_spec (succ : Nat → List Nat) (n b : Nat) (rv rv' : List Nat × List Nat)
    (h : visitBlocks succ n b rv = some rv') : VisitSpec succ rv rv' ∧ b ∈ rv'.2 := by
  induction n generalizing b rv rv' with
  | zero => cases h
  | succ n ih =>
    unfold visitBlocks at h
    split at h
    · rename_i hb
      cases h
      exact ⟨⟨fun _ h => h, fun _ h => h, fun _ h hn => absurd h hn, fun _ h => Or.inl h⟩, hb⟩
    · rename_i hb
      have hall : ∀ (l : List Nat) (rv0 : List Nat × List Nat),
          l.foldlM (fun rv s => visitBlocks succ n s (s :: rv.1, rv.2)) rv0 = some rv' →
          VisitSpec succ rv0 rv' ∧ ∀ s ∈ l, s ∈ rv'.1 ∧ s ∈ rv'.2 := by
        intro l
        induction l with
        | nil =>
          intro rv0 h
          cases h
          exact ⟨⟨fun _ h => h, fun _ h => h, fun _ h hn => absurd h hn, fun _ h => Or.inl h⟩, fun _ h => nomatch h⟩
        | cons s l ihl =>
          intro rv0 h
          rw [List.foldlM_cons] at h
          cases hs : visitBlocks succ n s (s :: rv0.1, rv0.2) with
          | none => rw [hs] at h; cases h
          | some rv1 =>
            rw [hs] at h
            obtain ⟨a, a'⟩ := ih s _ _ hs
            obtain ⟨c, c'⟩ := ihl rv1 h
            refine ⟨⟨fun x hx => c.reach x (a.reach x (List.mem_cons_of_mem _ hx)), fun x hx => c.seen x (a.seen x hx), ?_, ?_⟩, ?_⟩
            · intro x hx hn t ht
              by_cases hx1 : x ∈ rv1.2
              · exact ⟨c.reach t (a.closed x hx1 hn t ht).1, c.seen t (a.closed x hx1 hn t ht).2⟩
              · exact c.closed x hx hx1 t ht
            · intro x hx
              rcases c.fresh x hx with h1 | h1
              · rcases a.fresh x h1 with h2 | h2
                · rcases List.mem_cons.1 h2 with rfl | h2
                  · exact Or.inr (c.seen _ a')
                  · exact Or.inl h2
                · exact Or.inr (c.seen _ h2)
              · exact Or.inr h1
            · intro t ht
              rcases List.mem_cons.1 ht with rfl | ht
              · exact ⟨c.reach _ (a.reach _ List.mem_cons_self), c.seen _ a'⟩
              · exact c' t ht
      obtain ⟨c, c'⟩ := hall _ _ h
      refine ⟨⟨c.reach, fun x hx => c.seen x (List.mem_cons_of_mem _ hx), ?_, c.fresh⟩, c.seen b List.mem_cons_self⟩
      intro x hx hn t ht
      by_cases hxb : x = b
      · subst hxb
        exact c' t ht
      · exact c.closed x hx (fun hm => (List.mem_cons.1 hm).elim hxb hn) t ht

private theorem visit_sound (succ : Nat → List Nat) (e n b : Nat) (rv rv' : List Nat × List Nat)
    (h : visitBlocks succ n b rv = some rv') (hb : Reached succ e b) (hr : ∀ x ∈ rv.1, Reached succ e x) :
    ∀ x ∈ rv'.1, Reached succ e x := by
  induction n generalizing b rv rv' with
  | zero => cases h
  | succ n ih =>
    unfold visitBlocks at h
    split at h
    · cases h
      exact hr
    · have hall : ∀ (l : List Nat) (rv0 : List Nat × List Nat), (∀ s ∈ l, s ∈ succ b) → (∀ x ∈ rv0.1, Reached succ e x) →
          l.foldlM (fun rv s => visitBlocks succ n s (s :: rv.1, rv.2)) rv0 = some rv' → ∀ x ∈ rv'.1, Reached succ e x := by
        intro l
        induction l with
        | nil => intro rv0 _ h0 h; cases h; exact h0
        | cons s l ihl =>
          intro rv0 hl h0 h
          rw [List.foldlM_cons] at h
          cases hs : visitBlocks succ n s (s :: rv0.1, rv0.2) with
          | none => rw [hs] at h; cases h
          | some rv1 =>
            rw [hs] at h
            have hse : Reached succ e s := Relation.ReflTransGen.tail hb (hl s List.mem_cons_self)
            refine ihl rv1 (fun x hx => hl x (List.mem_cons_of_mem _ hx)) (ih s _ _ hs hse ?_) h
            intro x hx
            rcases List.mem_cons.1 hx with rfl | hx
            · exact hse
            · exact h0 x hx
      exact hall _ (rv.1, b :: rv.2) (fun _ h => h) hr h

/-- The blocks that are left are those that are reached. -/
private theorem delete_exact (n : Nat) (f g : SlBody) (h : deleteUnreached n f = some g) :
    ∃ e, f.blocks.head? = some e ∧ g.succ = f.succ ∧ g.blocks.head? = some e ∧
      g.blocks.Sublist f.blocks ∧ ∀ b ∈ f.blocks, b ∈ g.blocks ↔ Reached f.succ e b := by
  unfold deleteUnreached at h
  split at h
  · cases h
  · rename_i e l he
    obtain ⟨rv, hv, rfl⟩ := Option.map_eq_some_iff.1 h
    obtain ⟨hs, hb⟩ := visitBlocks_spec f.succ n e _ _ hv
    have hee : e ∈ rv.1 := hs.reach e List.mem_cons_self
    have hall : ∀ x, Reached f.succ e x → x ∈ rv.1 ∧ x ∈ rv.2 := by
      intro x hx
      induction hx with
      | refl => exact ⟨hee, hb⟩
      | tail _ h2 ih => exact hs.closed _ ih.2 (fun h => nomatch h) _ h2
    refine ⟨e, by rw [he]; rfl, rfl, ?_, List.filter_sublist, ?_⟩
    · show (f.blocks.filter fun b => decide (b ∈ rv.1)).head? = some e
      rw [he, List.filter_cons_of_pos (by simpa using hee)]
      rfl
    · intro b hbf
      show b ∈ (f.blocks.filter fun b => decide (b ∈ rv.1)) ↔ _
      rw [List.mem_filter, decide_eq_true_eq]
      refine ⟨fun h => visit_sound f.succ e n e _ _ hv .refl ?_ b h.2, fun h => ⟨hbf, (hall b h).1⟩⟩
      intro x hx
      rw [List.mem_singleton] at hx
      rw [hx]
      exact .refl

/-- **C200** (false) In a function that was sliced every block is reached. -/
def C200_statement : Prop :=
  ∀ (simplify : SlBody → SlBody) (n : Nat) (keepsReturn called : Bool) (f : SlDef) (m : List SlDef),
    sliceEnd simplify n keepsReturn called f = some m → ∀ g ∈ m, g.name = f.name → EachReached g.body

namespace SliceEndEx

/-- A function whose block 1 is no longer reached. -/
def skipping : SlDef where
  name := str! "f"
  void := false
  body := ⟨[0, 1, 2], fun b => match b with | 0 => [2] | 1 => [2] | _ => []⟩

end SliceEndEx

/-- If the return type becomes void, the blocks are removed from the old function only. The clone, which has its name, keeps
them. -/
theorem C200_fails : ¬ C200_statement := by
  intro h
  have hs : ∃ m, sliceEnd id 9 false false SliceEndEx.skipping = some m ∧
      { SliceEndEx.skipping with void := true } ∈ m := ⟨_, rfl, List.mem_cons_of_mem _ List.mem_cons_self⟩
  obtain ⟨m, hm, hg⟩ := hs
  obtain ⟨e, he, hr⟩ := h _ _ _ _ _ m hm _ hg rfl
  cases he
  have h1 := hr 1 (by decide)
  have all : ∀ x, Reached SliceEndEx.skipping.body.succ 0 x → x ≠ 1 := by
    intro x hx
    induction hx with
    | refl => decide
    | tail _ h2 ih =>
      rename_i a b _
      rintro rfl
      unfold Edge at h2
      match a with
      | 0 => simp [SliceEndEx.skipping] at h2
      | 1 => simp [SliceEndEx.skipping] at h2
      | a + 2 => simp [SliceEndEx.skipping] at h2
  exact all 1 h1 rfl

/-- **C200 (partial)** If the return is kept, or the function returns void before, or it is called, the function keeps its name and
type, and exactly the blocks that are not reached are removed. Missing: functions whose return type becomes void. -/
theorem C200_reached_partial (simplify : SlBody → SlBody) (n : Nat) (keepsReturn called : Bool) (f : SlDef) (m : List SlDef)
    (h : sliceEnd simplify n keepsReturn called f = some m) (hk : keepsReturn = true ∨ f.void = true ∨ called = true) :
    ∃ g, m = [g] ∧ g.name = f.name ∧ g.void = f.void ∧ EachReached g.body ∧ g.body.succ = (simplify f.body).succ ∧
      g.body.blocks.Sublist (simplify f.body).blocks ∧ ∃ e, (simplify f.body).blocks.head? = some e ∧
      ∀ b ∈ (simplify f.body).blocks, b ∈ g.body.blocks ↔ Reached (simplify f.body).succ e b := by
  have hr : (if !keepsReturn && !f.void then changeToVoid called f else (f, [])) = (f, []) := by
    rcases hk with rfl | hk | rfl
    · rfl
    · rw [hk]; simp
    · unfold changeToVoid; simp
  unfold sliceEnd at h
  rw [hr] at h
  obtain ⟨b, hb, rfl⟩ := Option.map_eq_some_iff.1 h
  obtain ⟨e, h1, h2, h3, h4, h5⟩ := delete_exact n _ _ hb
  refine ⟨_, rfl, rfl, rfl, ⟨e, h3, fun x hx => ?_⟩, h2, h4, e, h1, h5⟩
  show Reached b.succ e x
  rw [h2]
  exact (h5 x (h4.subset hx)).1 hx

/-- **C200 (partial)** If the return type becomes void, the function with the name returns void and has the same blocks as before
the removal; the cleaned one has the suffix `.old`. -/
theorem C200_void_partial (simplify : SlBody → SlBody) (n : Nat) (f : SlDef) (m : List SlDef)
    (h : sliceEnd simplify n false false f = some m) (hv : f.void = false) :
    ∃ g, m = [g, { f with void := true }] ∧ g.name = f.name ++ str! ".old" ∧ g.void = false ∧ EachReached g.body := by
  unfold sliceEnd at h
  rw [hv] at h
  obtain ⟨b, hb, rfl⟩ := Option.map_eq_some_iff.1 h
  obtain ⟨e, h1, h2, h3, h4, h5⟩ := delete_exact n _ _ hb
  refine ⟨_, rfl, rfl, hv, e, h3, fun x hx => ?_⟩
  show Reached b.succ e x
  rw [h2]
  exact (h5 x (h4.subset hx)).1 hx

/-! ### The end of the recursion -/

private def notVisited (u v : List Nat) : Nat := (u.filter fun i => decide (i ∉ v)).length

private theorem notVisited_mono (u v v' : List Nat) (h : ∀ j ∈ v, j ∈ v') : notVisited u v' ≤ notVisited u v := by
  unfold notVisited
  refine (List.monotone_filter_right u fun i hi => ?_).length_le
  rw [decide_eq_true_eq] at hi ⊢
  exact fun hm => hi (h i hm)

private theorem notVisited_cons (u v : List Nat) (o : Nat) (ho : o ∈ u) (hn : o ∉ v) : notVisited u (o :: v) < notVisited u v := by
  unfold notVisited
  induction u with
  | nil => cases ho
  | cons x u ih =>
    have hm := notVisited_mono u v (o :: v) fun j hj => List.mem_cons_of_mem _ hj
    unfold notVisited at hm
    by_cases hx : x = o
    · subst hx
      rw [List.filter_cons_of_neg (by simp), List.filter_cons_of_pos (by simpa using hn)]
      exact Nat.lt_succ_of_le hm
    · have hou := (List.mem_cons.1 ho).resolve_left fun h => hx h.symm
      have := ih hou
      by_cases hxi : x ∈ v
      · rw [List.filter_cons_of_neg (by simp [hxi]), List.filter_cons_of_neg (by simp [hxi])]
        exact this
      · rw [List.filter_cons_of_pos (by simp [hxi, hx]), List.filter_cons_of_pos (by simp [hxi])]
        exact Nat.succ_lt_succ this

private theorem visitBlocks_ends (succ : Nat → List Nat) (u : List Nat) (hg : GraphOn succ u) (n b : Nat) (rv : List Nat × List Nat)
    (hb : b ∈ u) (h : notVisited u rv.2 < n) : ∃ rv', visitBlocks succ n b rv = some rv' := by
  induction n generalizing b rv with
  | zero => omega
  | succ n ih =>
    unfold visitBlocks
    split
    · exact ⟨_, rfl⟩
    · rename_i hn
      have hlt := notVisited_cons u rv.2 b hb hn
      have hall : ∀ (l : List Nat) (rv0 : List Nat × List Nat), (∀ s ∈ l, s ∈ u) → notVisited u rv0.2 < n →
          ∃ rv', l.foldlM (fun rv s => visitBlocks succ n s (s :: rv.1, rv.2)) rv0 = some rv' := by
        intro l
        induction l with
        | nil => exact fun rv0 _ _ => ⟨rv0, rfl⟩
        | cons s l ihl =>
          intro rv0 hl hm
          rw [List.foldlM_cons]
          obtain ⟨rv1, h1⟩ := ih s (s :: rv0.1, rv0.2) (hl s List.mem_cons_self) hm
          rw [h1]
          have := notVisited_mono u rv0.2 rv1.2 (visitBlocks_spec succ n s _ _ h1).1.seen
          exact ihl rv1 (fun x hx => hl x (List.mem_cons_of_mem _ hx)) (by omega)
      exact hall _ _ (hg b hb) (by dsimp only; omega)

/-- **C200 (the recursion ends)** The search is never deeper than the number of blocks and one. -/
theorem C200_ends (simplify : SlBody → SlBody) (n : Nat) (keepsReturn called : Bool) (f : SlDef)
    (hg : GraphOn (simplify f.body).succ (simplify f.body).blocks) (hne : (simplify f.body).blocks ≠ [])
    (hn : (simplify f.body).blocks.length < n) : ∃ m, sliceEnd simplify n keepsReturn called f = some m := by
  have hbody : (if !keepsReturn && !f.void then changeToVoid called f else (f, [])).1.body = f.body := by
    split
    · unfold changeToVoid
      split <;> rfl
    · rfl
  unfold sliceEnd
  dsimp only
  rw [hbody]
  obtain ⟨e, l, he⟩ := List.exists_cons_of_ne_nil hne
  obtain ⟨rv, hv⟩ := visitBlocks_ends (simplify f.body).succ (simplify f.body).blocks hg n e ([e], [])
    (by rw [he]; exact List.mem_cons_self) (Nat.lt_of_le_of_lt (List.length_filter_le _ _) hn)
  have : ∃ b, deleteUnreached n (simplify f.body) = some b := by
    unfold deleteUnreached
    rw [he]
    dsimp only
    rw [hv]
    exact ⟨_, rfl⟩
  obtain ⟨b, hb⟩ := this
  rw [hb]
  exact ⟨_, rfl⟩

/-- The return is kept: block 1 is removed. The return type becomes void: it stays in the function that has the name. -/
example : (sliceEnd id 9 true false SliceEndEx.skipping).map (List.map fun g => (g.name, g.body.blocks)) =
      some [(str! "f", [0, 2])] ∧
    (sliceEnd id 9 false false SliceEndEx.skipping).map (List.map fun g => (g.name, g.body.blocks)) =
      some [(str! "f.old", [0, 2]), (str! "f", [0, 1, 2])] := by
  refine ⟨by decide +kernel, by decide +kernel⟩

/-! ### C202: removal of the entry -/

/-- **C202** (false) If the entry of a function is removed, the included blocks are still reached. -/
def C202_statement : Prop :=
  ∀ (incB : List Nat) (f : SlBody) (e : Nat), GraphOn f.succ f.blocks → f.blocks.Nodup → f.blocks.head? = some e →
    (∀ a, e ∉ f.succ a) → ∀ b ∈ incB, Reached f.succ e b →
    ∃ e', (removeFirst incB f).blocks.head? = some e' ∧ Reached (removeFirst incB f).succ e' b

namespace SliceEndEx

/-- `switch (x) { case 1: switch (y) { case 1: g(var); } break; case 2: switch (y) { case 1: h(var); } }`: blocks 3 and 4 with the
calls are included. -/
def nested : SlBody := ⟨[0, 1, 2, 3, 4, 5], fun b => match b with
  | 0 => [1, 2] | 1 => [3, 5] | 2 => [4, 5] | 3 => [5] | 4 => [5] | _ => []⟩

end SliceEndEx

/-- The entry with the outer switch is removed, so that only one of the inner ones is left. -/
theorem C202_fails : ¬ C202_statement := by
  intro h
  obtain ⟨e', he, hr⟩ := h [3, 4] SliceEndEx.nested 0 (by unfold GraphOn; decide) (by decide) rfl (by
    intro a
    match a with
    | 0 => decide
    | 1 => decide
    | 2 => decide
    | 3 => decide
    | 4 => decide
    | a + 5 => simp [SliceEndEx.nested]) 4 (by decide)
    ((Relation.ReflTransGen.single (b := 2) (by unfold Edge; decide)).tail (c := 4) (by unfold Edge; decide))
  have : (removeFirst [3, 4] SliceEndEx.nested).blocks.head? = some 1 := by decide
  rw [this] at he
  cases he
  have all : ∀ x, Reached (removeFirst [3, 4] SliceEndEx.nested).succ 1 x → x = 1 ∨ x = 3 ∨ x = 5 := by
    intro x hx
    induction hx with
    | refl => exact Or.inl rfl
    | tail _ h2 ih =>
      rename_i a b _
      have h2 : b ∈ (removeFirst [3, 4] SliceEndEx.nested).succ a := h2
      rcases ih with rfl | rfl | rfl
      · have : (removeFirst [3, 4] SliceEndEx.nested).succ 1 = [3, 5] := by decide
        rw [this] at h2
        simp at h2
        omega
      · have : (removeFirst [3, 4] SliceEndEx.nested).succ 3 = [5] := by decide
        rw [this] at h2
        simp at h2
        omega
      · have : (removeFirst [3, 4] SliceEndEx.nested).succ 5 = [] := by decide
        rw [this] at h2
        cases h2
  rcases all 4 hr with h | h | h <;> cases h

/-- **C202 (partial)** The entry is removed only if neither it nor one of its successors is included, otherwise nothing changes. If its
only successor is the next block, all other blocks are reached as before. Missing: other entries. -/
theorem C202_entry_partial (incB : List Nat) (f : SlBody) (e : Nat) (l : List Nat) (hb : f.blocks = e :: l) (hn : f.blocks.Nodup)
    (hp : ∀ a, e ∉ f.succ a) :
    ((e ∈ incB ∨ ∃ s ∈ f.succ e, s ∈ incB) → removeFirst incB f = f) ∧
    ((e ∉ incB ∧ ∀ s ∈ f.succ e, s ∉ incB) → (removeFirst incB f).blocks = l ∧ ∀ b, b ≠ e →
      (removeFirst incB f).succ b = f.succ b) ∧
    (∀ s l', f.succ e = [s] → l = s :: l' → ∀ b, b ≠ e → Reached f.succ e b →
      ∃ e', (removeFirst incB f).blocks.head? = some e' ∧ Reached (removeFirst incB f).succ e' b) := by
  have hall : canRemoveFirst incB f e = true ↔ ∀ s ∈ f.succ e, s ∉ incB := by
    unfold canRemoveFirst
    rw [List.all_eq_true]
    refine forall_congr' fun s => forall_congr' fun hs => ?_
    have hany : (f.blocks.any fun b => decide (s ∈ f.succ b)) = true :=
      List.any_eq_true.2 ⟨e, by rw [hb]; exact List.mem_cons_self, by simpa using hs⟩
    rw [hany]
    simp
  have hrm : (e ∉ incB ∧ ∀ s ∈ f.succ e, s ∉ incB) → removeFirst incB f = ⟨l, fun b => if b = e then [] else f.succ b⟩ := by
    rintro ⟨h1, h2⟩
    unfold removeFirst
    rw [hb]
    dsimp only
    rw [if_pos (by simp [h1, hall.2 h2])]
  have hkeep : ¬ (e ∉ incB ∧ ∀ s ∈ f.succ e, s ∉ incB) → removeFirst incB f = f := by
    intro h
    unfold removeFirst
    rw [hb]
    dsimp only
    rw [if_neg]
    intro hc
    rw [Bool.and_eq_true, decide_eq_true_eq] at hc
    exact h ⟨hc.1, hall.1 hc.2⟩
  refine ⟨?_, ?_, ?_⟩
  · intro h
    apply hkeep
    rintro ⟨h1, h2⟩
    rcases h with h | ⟨s, hs, h⟩
    · exact h1 h
    · exact h2 s hs h
  · intro h
    rw [hrm h]
    exact ⟨rfl, fun b hbe => if_neg hbe⟩
  · intro s l' hs hl b hbe hr
    by_cases hc : e ∉ incB ∧ ∀ s ∈ f.succ e, s ∉ incB
    · rw [hrm hc]
      refine ⟨s, by rw [hl]; rfl, ?_⟩
      have key : ∀ x, Reached f.succ e x → x = e ∨ (x ≠ e ∧ Reached (fun b => if b = e then [] else f.succ b) s x) := by
        intro x hx
        induction hx with
        | refl => exact Or.inl rfl
        | tail _ h2 ih =>
          rename_i a c _
          have hce : c ≠ e := fun h => hp a (h ▸ h2)
          right
          rcases ih with rfl | ⟨hae, ih⟩
          · have h2 : c ∈ f.succ a := h2
            rw [hs, List.mem_singleton] at h2
            exact ⟨hce, h2 ▸ .refl⟩
          · refine ⟨hce, ih.tail ?_⟩
            show c ∈ (if a = e then [] else f.succ a)
            rw [if_neg hae]
            exact h2
      exact ((key b hr).resolve_left hbe).2
    · rw [hkeep hc]
      exact ⟨e, by rw [hb]; rfl, hr⟩

/-- The entry of a function is removed, that of another one is kept. -/
example : (removeFirst [3, 4] SliceEndEx.nested).blocks = [1, 2, 3, 4, 5] ∧
    (removeFirst [2, 3] SliceEndEx.nested).blocks = [0, 1, 2, 3, 4, 5] := by decide

/-! ### C203: removal of other blocks -/

private theorem incomingFor_spec (phi : List (Nat × Nat)) (h : OneValue phi) (b v : Nat) :
    incomingFor phi b = some v ↔ (b, v) ∈ phi := by
  unfold incomingFor
  constructor
  · intro hv
    obtain ⟨⟨b', v'⟩, hf, rfl⟩ := Option.map_eq_some_iff.1 hv
    have h1 := List.find?_some hf
    rw [decide_eq_true_eq] at h1
    have h1 : b' = b := h1
    subst h1
    exact List.mem_of_find?_eq_some hf
  · intro hm
    cases hf : phi.find? fun e => decide (e.1 = b) with
    | none =>
      have := List.find?_eq_none.1 hf _ hm
      simp at this
    | some e =>
      obtain ⟨b', v'⟩ := e
      have h1 := List.find?_some hf
      rw [decide_eq_true_eq] at h1
      have h1 : b' = b := h1
      subst h1
      exact congrArg some (h _ _ _ (List.mem_of_find?_eq_some hf) hm)

/-- **C203** A block may be removed exactly if it has one successor and afterwards every phi of the successor still has one value for each
incoming block. -/
theorem C203_phis (succs : Nat) (preds : List Nat) (phis : List (List (Nat × Nat))) (bb : Nat) (val : List (Nat × Nat) → Nat)
    (hone : ∀ phi ∈ phis, OneValue phi) (hval : ∀ phi ∈ phis, (bb, val phi) ∈ phi) (hloop : bb ∉ preds) :
    canRemoveBlock succs preds phis bb = true ↔
      succs = 1 ∧ ∀ phi ∈ phis, OneValue (withoutBlock phi preds bb (val phi)) := by
  unfold canRemoveBlock
  rw [Bool.and_eq_true, decide_eq_true_eq, List.all_eq_true]
  refine and_congr_right fun _ => forall_congr' fun phi => forall_congr' fun hphi => ?_
  have hs := incomingFor_spec phi (hone phi hphi)
  have hb : incomingFor phi bb = some (val phi) := (hs bb _).2 (hval phi hphi)
  rw [List.all_eq_true, hb]
  constructor
  · intro h
    have key : ∀ b v, b ≠ bb → (b, v) ∈ phi → b ∈ preds → v = val phi := by
      intro b v hbb hm hp
      have h1 := h (b, v) hm
      rw [Bool.or_eq_true, decide_eq_true_eq, List.all_eq_true] at h1
      have h2 := h1.resolve_left hbb b hp
      rw [(hs b v).2 hm] at h2
      simpa using h2
    intro b v w hv hw
    unfold withoutBlock at hv hw
    have cases' : ∀ v, (b, v) ∈ (phi.filter fun e => decide (e.1 ≠ bb)) ++ preds.map (fun p => (p, val phi)) →
        ((b, v) ∈ phi ∧ b ≠ bb) ∨ (b ∈ preds ∧ v = val phi) := by
      intro v hv
      rcases List.mem_append.1 hv with hv | hv
      · have := List.mem_filter.1 hv
        exact Or.inl ⟨this.1, by simpa using this.2⟩
      · obtain ⟨p, hp, he⟩ := List.mem_map.1 hv
        cases he
        exact Or.inr ⟨hp, rfl⟩
    rcases cases' v hv with ⟨v1, v2⟩ | ⟨v1, v2⟩ <;> rcases cases' w hw with ⟨w1, w2⟩ | ⟨w1, w2⟩
    · exact hone phi hphi b v w v1 w1
    · rw [w2]; exact key b v v2 v1 w1
    · rw [v2]; exact (key b w w2 w1 v1).symm
    · rw [v2, w2]
  · intro h e _
    rw [Bool.or_eq_true, decide_eq_true_eq, List.all_eq_true]
    right
    intro p hp
    cases hi : incomingFor phi p with
    | none => rfl
    | some v =>
      have hpb : p ≠ bb := fun hpb => hloop (hpb ▸ hp)
      have hm := (hs p v).1 hi
      have := h p v (val phi)
        (List.mem_append.2 (Or.inl (List.mem_filter.2 ⟨hm, by simpa using hpb⟩)))
        (List.mem_append.2 (Or.inr (List.mem_map.2 ⟨p, hp, rfl⟩)))
      rw [this]
      simp

/-- A phi with values for block 1 and for its predecessor 0: block 1 may be removed if the values are the same. -/
example : canRemoveBlock 1 [0] [[(0, 7), (1, 7)]] 1 = true ∧ canRemoveBlock 1 [0] [[(0, 7), (1, 8)]] 1 = false ∧
    canRemoveBlock 1 [0] [[(2, 7), (1, 8)]] 1 = true ∧ canRemoveBlock 2 [0] [] 1 = false ∧
    OneValue [(0, 7), (1, 8)] := by
  refine ⟨by decide, by decide, by decide, by decide, ?_⟩
  intro b v w hv hw
  simp at hv hw
  omega

end DK
