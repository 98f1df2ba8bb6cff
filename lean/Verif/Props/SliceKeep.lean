import Verif.Spec.SliceKeep
import Verif.Lemmas.VarSlicer

/-! What is kept by slicing: C198 (blocks), C199 (operands). -/

set_option autoImplicit false

namespace DK
open Spec

/-! ### Included operands -/

private theorem fold_ops (f : SlFun) (dep : List Nat) (n : Nat)
    (ih : ∀ i inc inc', addAllOps f dep n i inc = some inc' → (∀ j ∈ inc, j ∈ inc') ∧ (∀ o ∈ f.targets i, o ∈ inc' ∨ o ∈ dep) ∧
      ∀ j ∈ inc', j ∉ inc → ∀ o ∈ f.targets j, o ∈ inc' ∨ o ∈ dep)
    (l inc inc' : List Nat)
    (h : l.foldlM (fun inc o => if o ∈ dep ∨ o ∈ inc then some inc else addAllOps f dep n o (o :: inc)) inc = some inc') :
    (∀ j ∈ inc, j ∈ inc') ∧ (∀ o ∈ l, o ∈ inc' ∨ o ∈ dep) ∧ ∀ j ∈ inc', j ∉ inc → ∀ o ∈ f.targets j, o ∈ inc' ∨ o ∈ dep := by
  induction l generalizing inc with
  | nil =>
    cases h
    exact ⟨fun _ h => h, (fun _ h => nomatch h), fun j hj hn => absurd hj hn⟩
  | cons o l ihl =>
    rw [List.foldlM_cons] at h
    by_cases hc : o ∈ dep ∨ o ∈ inc
    · simp only [if_pos hc] at h
      obtain ⟨h1, h2, h3⟩ := ihl inc h
      refine ⟨h1, ?_, h3⟩
      intro x hx
      rcases List.mem_cons.1 hx with rfl | hx
      · exact hc.elim Or.inr fun h => Or.inl (h1 _ h)
      · exact h2 x hx
    · simp only [if_neg hc] at h
      cases ho : addAllOps f dep n o (o :: inc) with
      | none => rw [ho] at h; cases h
      | some inc1 =>
        rw [ho] at h
        obtain ⟨a1, a2, a3⟩ := ih o _ _ ho
        obtain ⟨h1, h2, h3⟩ := ihl inc1 h
        have lift : ∀ x, x ∈ inc1 ∨ x ∈ dep → x ∈ inc' ∨ x ∈ dep := fun x hx => hx.imp_left (h1 x)
        refine ⟨fun j hj => h1 j (a1 j (List.mem_cons_of_mem _ hj)), ?_, ?_⟩
        · intro x hx
          rcases List.mem_cons.1 hx with rfl | hx
          · exact Or.inl (h1 _ (a1 _ List.mem_cons_self))
          · exact h2 x hx
        · intro j hj hn
          by_cases hj1 : j ∈ inc1
          · by_cases hjo : j = o
            · subst hjo
              intro x hx
              exact lift x (a2 x hx)
            · intro x hx
              exact lift x (a3 j hj1 (fun hm => (List.mem_cons.1 hm).elim hjo hn) x hx)
          · exact h3 j hj hj1

private theorem addAllOps_spec (f : SlFun) (dep : List Nat) (n i : Nat) (inc inc' : List Nat)
    (h : addAllOps f dep n i inc = some inc') : (∀ j ∈ inc, j ∈ inc') ∧ (∀ o ∈ f.targets i, o ∈ inc' ∨ o ∈ dep) ∧
      ∀ j ∈ inc', j ∉ inc → ∀ o ∈ f.targets j, o ∈ inc' ∨ o ∈ dep := by
  induction n generalizing i inc inc' with
  | zero => cases h
  | succ n ih => exact fold_ops f dep n ih _ _ _ h

/-- The operands of the included instructions, and the stores to them, are included. -/
private def OpsIn (f : SlFun) (dep inc : List Nat) : Prop := ∀ j ∈ inc, ∀ o ∈ f.targets j, o ∈ inc ∨ o ∈ dep

/-- Adding an instruction with its operands. -/
private theorem add_inst (f : SlFun) (dep : List Nat) (n i : Nat) (inc inc' : List Nat) (c : Prop) [Decidable c]
    (h : addAllOps f dep n i (if c then inc else i :: inc) = some inc') (ho : OpsIn f dep inc) :
    OpsIn f dep inc' ∧ (∀ j ∈ inc, j ∈ inc') ∧ (∀ o ∈ f.targets i, o ∈ inc' ∨ o ∈ dep) ∧ (¬ c → i ∈ inc') := by
  obtain ⟨h1, h2, h3⟩ := addAllOps_spec f dep n i _ _ h
  have hi := h2
  have hs : ∀ j ∈ inc, j ∈ inc' := by
    intro j hj
    apply h1
    split
    · exact hj
    · exact List.mem_cons_of_mem _ hj
  refine ⟨?_, hs, hi, ?_⟩
  · intro j hj
    by_cases hm : j ∈ (if c then inc else i :: inc)
    · split at hm
      · exact fun o hoo => (ho j hm o hoo).imp_left (hs o)
      · rcases List.mem_cons.1 hm with rfl | hm
        · exact hi
        · exact fun o hoo => (ho j hm o hoo).imp_left (hs o)
    · exact h3 j hj hm
  · intro hc
    apply h1
    rw [if_neg hc]
    exact List.mem_cons_self

private theorem phase_deps (f : SlFun) (dep : List Nat) (n : Nat) (l inc inc' : List Nat)
    (h : l.foldlM (fun inc i => addAllOps f dep n i inc) inc = some inc') (ho : OpsIn f dep inc) :
    OpsIn f dep inc' ∧ (∀ j ∈ inc, j ∈ inc') ∧ ∀ i ∈ l, ∀ o ∈ f.targets i, o ∈ inc' ∨ o ∈ dep := by
  induction l generalizing inc with
  | nil =>
    cases h
    exact ⟨ho, fun _ h => h, fun _ h => nomatch h⟩
  | cons i l ih =>
    rw [List.foldlM_cons] at h
    cases h1 : addAllOps f dep n i inc with
    | none => rw [h1] at h; cases h
    | some inc1 =>
      rw [h1] at h
      obtain ⟨a1, a2, a3, _⟩ := add_inst f dep n i inc inc1 True (by rw [if_pos trivial]; exact h1) ho
      obtain ⟨b1, b2, b3⟩ := ih inc1 h a1
      refine ⟨b1, fun j hj => b2 j (a2 j hj), ?_⟩
      intro x hx
      rcases List.mem_cons.1 hx with rfl | hx
      · exact fun o ho => (a3 o ho).imp_left (b2 o)
      · exact b3 x hx

private theorem fold_phi_ops (f : SlFun) (dep : List Nat) (n : Nat) (l inc inc' : List Nat)
    (h : l.foldlM (fun inc o => addAllOps f dep n o (if o ∈ dep ∨ o ∈ inc then inc else o :: inc)) inc = some inc')
    (ho : OpsIn f dep inc) : OpsIn f dep inc' ∧ (∀ j ∈ inc, j ∈ inc') ∧ ∀ o ∈ l, o ∈ inc' ∨ o ∈ dep := by
  induction l generalizing inc with
  | nil =>
    cases h
    exact ⟨ho, fun _ h => h, fun _ h => nomatch h⟩
  | cons i l ih =>
    rw [List.foldlM_cons] at h
    cases h1 : addAllOps f dep n i (if i ∈ dep ∨ i ∈ inc then inc else i :: inc) with
    | none => rw [h1] at h; cases h
    | some inc1 =>
      rw [h1] at h
      obtain ⟨a1, a2, _, a4⟩ := add_inst f dep n i inc inc1 _ h1 ho
      obtain ⟨b1, b2, b3⟩ := ih inc1 h a1
      refine ⟨b1, fun j hj => b2 j (a2 j hj), ?_⟩
      intro x hx
      rcases List.mem_cons.1 hx with rfl | hx
      · by_cases hc : x ∈ dep ∨ x ∈ inc
        · exact hc.elim Or.inr fun h => Or.inl (b2 _ (a2 _ h))
        · exact Or.inl (b2 _ (a4 hc))
      · exact b3 x hx

private theorem phase_phis (f : SlFun) (dep : List Nat) (n : Nat) (l inc inc' : List Nat)
    (h : l.foldlM (phiStep f dep n) inc = some inc') (ho : OpsIn f dep inc) :
    OpsIn f dep inc' ∧ (∀ j ∈ inc, j ∈ inc') ∧ ∀ p ∈ l, f.phi p = true → p ∈ dep → ∀ o ∈ f.ops p, o ∈ inc' ∨ o ∈ dep := by
  induction l generalizing inc with
  | nil =>
    cases h
    exact ⟨ho, fun _ h => h, fun _ h => nomatch h⟩
  | cons p l ih =>
    rw [List.foldlM_cons] at h
    cases h1 : phiStep f dep n inc p with
    | none => rw [h1] at h; cases h
    | some inc1 =>
      rw [h1] at h
      have hp : OpsIn f dep inc1 ∧ (∀ j ∈ inc, j ∈ inc1) ∧ (f.phi p = true → p ∈ dep → ∀ o ∈ f.ops p, o ∈ inc1 ∨ o ∈ dep) := by
        unfold phiStep at h1
        split at h1
        · obtain ⟨a1, a2, a3⟩ := fold_phi_ops f dep n _ _ _ h1 ho
          exact ⟨a1, a2, fun _ _ => a3⟩
        · rename_i hc
          cases h1
          exact ⟨ho, fun _ h => h, fun h1 h2 => absurd ⟨h1, Or.inr h2⟩ hc⟩
      obtain ⟨b1, b2, b3⟩ := ih inc1 h hp.1
      refine ⟨b1, fun j hj => b2 j (hp.2.1 j hj), ?_⟩
      intro x hx k1 k2
      rcases List.mem_cons.1 hx with rfl | hx
      · exact fun o ho => (hp.2.2 k1 k2 o ho).imp_left (b2 o)
      · exact b3 x hx k1 k2

/-! ### Branches -/

private theorem choose_two (succ : Nat → List Nat) (blocks incB : List Nat) (exit : Option Nat) (src t e : Nat)
    (hs : succ src = [t, e]) : includedSuccessors succ blocks incB exit src = [t, e] ∨ ∃ c, (c = t ∨ c = e) ∧
      includedSuccessors succ blocks incB exit src = [c] ∧ ∀ s, s = t ∨ s = e → ∀ b ∈ incB, some b ≠ exit →
        b ∈ reachableThroughSucc succ blocks src s → b ∈ reachableThroughSucc succ blocks src c := by
  unfold includedSuccessors
  rw [hs]
  simp only
  generalize hrt : ((reachableThroughSucc succ blocks src t).filter fun b => decide (b ∈ incB ∧ some b ≠ exit)) = rt
  generalize hrf : ((reachableThroughSucc succ blocks src e).filter fun b => decide (b ∈ incB ∧ some b ≠ exit)) = rf
  have mt : ∀ b, b ∈ rt ↔ b ∈ reachableThroughSucc succ blocks src t ∧ b ∈ incB ∧ some b ≠ exit := by
    intro b; rw [← hrt, List.mem_filter, decide_eq_true_eq]
  have mf : ∀ b, b ∈ rf ↔ b ∈ reachableThroughSucc succ blocks src e ∧ b ∈ incB ∧ some b ≠ exit := by
    intro b; rw [← hrf, List.mem_filter, decide_eq_true_eq]
  have okT : (∀ b ∈ rf, b ∈ rt) → ∀ s, s = t ∨ s = e → ∀ b ∈ incB, some b ≠ exit →
      b ∈ reachableThroughSucc succ blocks src s → b ∈ reachableThroughSucc succ blocks src t := by
    rintro h s (rfl | rfl) b hb hx hr
    · exact hr
    · exact ((mt b).1 (h b ((mf b).2 ⟨hr, hb, hx⟩))).1
  have okE : (∀ b ∈ rt, b ∈ rf) → ∀ s, s = t ∨ s = e → ∀ b ∈ incB, some b ≠ exit →
      b ∈ reachableThroughSucc succ blocks src s → b ∈ reachableThroughSucc succ blocks src e := by
    rintro h s (rfl | rfl) b hb hx hr
    · exact ((mf b).1 (h b ((mt b).2 ⟨hr, hb, hx⟩))).1
    · exact hr
  split
  · rename_i heq
    right
    have cT := okT heq.1
    have cE := okE heq.2
    have pick : ∃ c, (c = t ∨ c = e) ∧ [if some t = exit then e else t] = [c] ∧ ∀ s, s = t ∨ s = e → ∀ b ∈ incB, some b ≠ exit →
        b ∈ reachableThroughSucc succ blocks src s → b ∈ reachableThroughSucc succ blocks src c := by
      by_cases hx : some t = exit
      · exact ⟨e, Or.inr rfl, by rw [if_pos hx], cE⟩
      · exact ⟨t, Or.inl rfl, by rw [if_neg hx], cT⟩
    split
    · exact pick
    · split
      · exact ⟨t, Or.inl rfl, rfl, cT⟩
      · split
        · exact ⟨e, Or.inr rfl, rfl, cE⟩
        · exact pick
  · split
    · rename_i h
      exact Or.inr ⟨t, Or.inl rfl, rfl, okT h⟩
    · split
      · rename_i h
        exact Or.inr ⟨e, Or.inr rfl, rfl, okE h⟩
      · exact Or.inl rfl

/-- What a step does to the successors. -/
private theorem step_succ (f : SlFun) (dep base : List Nat) (exit : Option Nat) (n : Nat) (st st' : SlSt) (b : Nat)
    (h : branchStep f dep base exit n st b = some st')
    (hl : f.branch b = true → (st.succ b).length = 1 ∨ (st.succ b).length = 2) :
    (st'.succ = st.succ ∧ st'.replaced = st.replaced ∧ (f.branch b = true → f.term b ∉ dep →
      ∃ t e, st.succ b = [t, e] ∧ addAllOps f dep n (f.term b) (if f.term b ∈ st.inc then st.inc else f.term b :: st.inc) =
        some st'.inc) ∧ ((f.branch b = true → f.term b ∉ dep → False) → st' = st)) ∨
    (∃ c ∈ st.succ b, st'.succ = (fun a => if a = b then [c] else st.succ a) ∧ st'.inc = st.inc ∧ st'.replaced = b :: st.replaced ∧
      ∀ s ∈ st.succ b, ∀ x ∈ base, some x ≠ exit →
        (s = c ∨ (x ∈ reachableThroughSucc st.succ f.blocks b s → x ∈ reachableThroughSucc st.succ f.blocks b c))) := by
  unfold branchStep at h
  split at h
  · rename_i hc
    rcases hl hc.1 with h1 | h1
    · obtain ⟨t, ht⟩ := List.length_eq_one_iff.1 h1
      have hi : includedSuccessors st.succ f.blocks (base ++ st.inc.map f.blockOf) exit b = [t] := by
        unfold includedSuccessors; rw [ht]
      rw [hi] at h
      cases h
      right
      refine ⟨t, by rw [ht]; exact List.mem_cons_self, rfl, rfl, rfl, ?_⟩
      intro s hs x _ _
      rw [ht, List.mem_singleton] at hs
      exact Or.inl hs
    · obtain ⟨t, e, ht⟩ := List.length_eq_two.1 h1
      rcases choose_two st.succ f.blocks (base ++ st.inc.map f.blockOf) exit b t e ht with hi | ⟨c, hc', hi, hk⟩
      · rw [hi] at h
        left
        obtain ⟨inc, h2, rfl⟩ := Option.map_eq_some_iff.1 h
        exact ⟨rfl, rfl, fun _ _ => ⟨t, e, ht, h2⟩, fun hf => (hf hc.1 hc.2.1).elim⟩
      · rw [hi] at h
        cases h
        right
        refine ⟨c, by rw [ht]; rcases hc' with rfl | rfl <;> simp, rfl, rfl, rfl, ?_⟩
        intro s hs x hx he
        right
        exact hk s (by rw [ht] at hs; simpa using hs) x (List.mem_append.2 (Or.inl hx)) he
  · rename_i hc
    cases h
    refine Or.inl ⟨rfl, rfl, fun h1 h2 => ?_, fun _ => rfl⟩
    exfalso
    refine hc ⟨h1, h2, fun h3 => ?_⟩
    rcases hl h1 with h | h <;> rw [h3] at h <;> cases h

/-- Reached blocks stay reached when the branch of `src` goes to `c` only. -/
private theorem reach_one (succ : Nat → List Nat) (entry src c b : Nat) (h : Reached succ entry b) :
    Reached (fun a => if a = src then [c] else succ a) entry b ∨
    (Reached (fun a => if a = src then [c] else succ a) entry src ∧ ∃ s ∈ succ src, Through succ src s b) := by
  induction h with
  | refl => exact Or.inl .refl
  | tail _ h2 ih =>
    rename_i a b _
    by_cases ha : a = src
    · subst ha
      right
      refine ⟨ih.elim id And.left, b, h2, .refl⟩
    · rcases ih with ih | ⟨ih1, s, hs, ih2⟩
      · refine Or.inl (ih.tail ?_)
        show b ∈ (if a = src then [c] else succ a)
        rw [if_neg ha]
        exact h2
      · refine Or.inr ⟨ih1, s, hs, ih2.tail ?_⟩
        unfold EdgeVia
        rw [if_neg ha]
        exact h2

private theorem via_reached (succ : Nat → List Nat) (src c b : Nat) (h : Through succ src c b) :
    Reached (fun a => if a = src then [c] else succ a) c b := by
  induction h with
  | refl => exact .refl
  | tail _ h2 ih =>
    rename_i a d _
    refine ih.tail ?_
    unfold EdgeVia at h2
    show d ∈ (if a = src then [c] else succ a)
    by_cases ha : a = src
    · rw [if_pos ha] at h2 ⊢
      exact List.mem_singleton.2 h2
    · rw [if_neg ha] at h2 ⊢
      exact h2

/-- What holds during the loop over branches. -/
private structure LoopInv (f : SlFun) (dep base : List Nat) (exit : Option Nat) (entry : Nat) (st : SlSt) : Prop where
  graph : GraphOn st.succ f.blocks
  branches : ∀ b ∈ f.blocks, f.branch b = true → (st.succ b).length = 1 ∨ (st.succ b).length = 2
  sub : ∀ a, ∀ s ∈ st.succ a, s ∈ f.succ a
  nonempty : ∀ a, f.succ a ≠ [] → st.succ a ≠ []
  reach : f.blocks.length < 32 → ∀ b ∈ base, b ∈ f.blocks → some b ≠ exit → Reached f.succ entry b → Reached st.succ entry b
  ops : OpsIn f dep st.inc

private theorem step_loop (f : SlFun) (dep base : List Nat) (exit : Option Nat) (n entry : Nat) (st st' : SlSt) (b : Nat)
    (hb : b ∈ f.blocks) (hi : LoopInv f dep base exit entry st) (h : branchStep f dep base exit n st b = some st') :
    LoopInv f dep base exit entry st' ∧ (∀ j ∈ st.inc, j ∈ st'.inc) ∧ (∀ a ∈ st.replaced, a ∈ st'.replaced) ∧
      (f.branch b = true → b ∈ st'.replaced ∨ f.term b ∈ dep ∨ f.term b ∈ st'.inc) := by
  rcases step_succ f dep base exit n st st' b h (hi.branches b hb) with ⟨h1, h2, h3, h4⟩ | ⟨c, hc, h1, h2, h3, h4⟩
  · by_cases hk : f.branch b = true ∧ f.term b ∉ dep
    · obtain ⟨_, _, _, ha⟩ := h3 hk.1 hk.2
      obtain ⟨a1, a2, _, a4⟩ := add_inst f dep n _ _ _ _ ha hi.ops
      refine ⟨⟨h1 ▸ hi.graph, h1 ▸ hi.branches, h1 ▸ hi.sub, h1 ▸ hi.nonempty, h1 ▸ hi.reach, a1⟩, a2, h2 ▸ fun _ h => h, ?_⟩
      intro _
      right; right
      by_cases hm : f.term b ∈ st.inc
      · exact a2 _ hm
      · exact a4 hm
    · have := h4 fun x y => hk ⟨x, y⟩
      subst this
      refine ⟨hi, fun _ h => h, fun _ h => h, fun hbr => Or.inr (Or.inl ?_)⟩
      by_contra hd
      exact hk ⟨hbr, hd⟩
  · refine ⟨⟨?_, ?_, ?_, ?_, ?_, h2 ▸ hi.ops⟩, h2 ▸ fun _ h => h, ?_, ?_⟩
    · rw [h1]
      intro x hx y hy
      by_cases e : x = b
      · simp only [if_pos e, List.mem_singleton] at hy
        rw [hy]
        exact hi.graph b hb c hc
      · simp only [if_neg e] at hy
        exact hi.graph x hx y hy
    · rw [h1]
      intro x hx hbr
      by_cases e : x = b
      · simp only [if_pos e]
        exact Or.inl rfl
      · simp only [if_neg e]
        exact hi.branches x hx hbr
    · rw [h1]
      intro a s hs
      by_cases e : a = b
      · simp only [if_pos e, List.mem_singleton] at hs
        rw [hs, e]
        exact hi.sub b c hc
      · simp only [if_neg e] at hs
        exact hi.sub a s hs
    · rw [h1]
      intro a ha
      by_cases e : a = b
      · simp only [if_pos e]
        exact List.cons_ne_nil _ _
      · simp only [if_neg e]
        exact hi.nonempty a ha
    · intro hl x hx hxb hxe hr
      have hr := hi.reach hl x hx hxb hxe hr
      rw [h1]
      rcases reach_one st.succ entry b c x hr with h | ⟨hs, s, hsm, ht⟩
      · exact h
      · by_cases e : x = b
        · rw [e]; exact hs
        · have hc' : Through st.succ b c x := by
            rcases h4 s hsm x hx hxe with rfl | hk
            · exact ht
            · have := hk ((mem_reachableThroughSucc hi.graph hl hb hsm x).2 ⟨hxb, fun h => e h.symm, ht⟩)
              exact ((mem_reachableThroughSucc hi.graph hl hb hc x).1 this).2.2
          refine Relation.ReflTransGen.trans (hs.tail ?_) (via_reached _ _ _ _ hc')
          show c ∈ (if b = b then [c] else st.succ b)
          rw [if_pos rfl]
          exact List.mem_singleton.2 rfl
    · rw [h3]
      exact fun a ha => List.mem_cons_of_mem _ ha
    · intro _
      rw [h3]
      exact Or.inl List.mem_cons_self

private theorem fold_loop (f : SlFun) (dep base : List Nat) (exit : Option Nat) (n entry : Nat) (l : List Nat) (st st' : SlSt)
    (hl : ∀ b ∈ l, b ∈ f.blocks) (hi : LoopInv f dep base exit entry st)
    (h : l.foldlM (branchStep f dep base exit n) st = some st') :
    LoopInv f dep base exit entry st' ∧ (∀ j ∈ st.inc, j ∈ st'.inc) ∧ (∀ a ∈ st.replaced, a ∈ st'.replaced) ∧
      ∀ b ∈ l, f.branch b = true → b ∈ st'.replaced ∨ f.term b ∈ dep ∨ f.term b ∈ st'.inc := by
  induction l generalizing st with
  | nil =>
    cases h
    exact ⟨hi, fun _ h => h, fun _ h => h, fun _ h => nomatch h⟩
  | cons b l ih =>
    rw [List.foldlM_cons] at h
    cases h1 : branchStep f dep base exit n st b with
    | none => rw [h1] at h; cases h
    | some st1 =>
      rw [h1] at h
      obtain ⟨a1, a2, a3, a4⟩ := step_loop f dep base exit n entry st st1 b (hl b List.mem_cons_self) hi h1
      obtain ⟨b1, b2, b3, b4⟩ := ih st1 (fun x hx => hl x (List.mem_cons_of_mem _ hx)) a1 h
      refine ⟨b1, fun j hj => b2 j (a2 j hj), fun a ha => b3 a (a3 a ha), ?_⟩
      intro x hx hbr
      rcases List.mem_cons.1 hx with rfl | hx
      · exact (a4 hbr).imp (b3 _) fun h => h.imp_right (b2 _)
      · exact b4 x hx hbr

/-- All parts of the second phase. -/
private theorem phase_all (f : SlFun) (dep base : List Nat) (exit : Option Nat) (n entry : Nat) (st : SlSt)
    (hw : SlWellFormed f dep) (h : secondPhase f dep base exit n = some st) :
    ∃ inc, LoopInv f dep base exit entry ⟨st.succ, inc, st.replaced⟩ ∧ (∀ i ∈ st.inc, ∀ o ∈ f.ops i, o ∈ st.inc) ∧
      (∀ i ∈ st.inc, f.phi i = false → ∀ o ∈ f.targets i, o ∈ st.inc) ∧ ∀ b ∈ f.blocks, f.branch b = true → b ∈ st.replaced ∨ f.term b ∈ st.inc := by
  unfold secondPhase at h
  obtain ⟨inc1, h1, h⟩ := Option.bind_eq_some_iff.1 h
  obtain ⟨st1, h2, h⟩ := Option.bind_eq_some_iff.1 h
  obtain ⟨inc3, h3, rfl⟩ := Option.map_eq_some_iff.1 h
  obtain ⟨a1, _, a3⟩ := phase_deps f dep n _ _ _ h1 (fun _ h => nomatch h)
  have h0 : LoopInv f dep base exit entry ⟨f.succ, inc1, []⟩ :=
    ⟨hw.graph, hw.branches, fun _ _ h => h, fun _ h => h, fun _ _ _ _ _ h => h, a1⟩
  obtain ⟨b1, b2, _, b4⟩ := fold_loop f dep base exit n entry _ _ _ (fun _ h => h) h0 h2
  obtain ⟨c1, c2, c3⟩ := phase_phis f dep n _ _ _ h3 b1.ops
  refine ⟨st1.inc, ⟨b1.graph, b1.branches, b1.sub, b1.nonempty, b1.reach, b1.ops⟩, ?_, ?_, ?_⟩
  · intro i hi o ho
    have hot : o ∈ f.targets i := List.mem_flatMap.2 ⟨o, ho, List.mem_cons_self⟩
    show o ∈ inc3 ++ dep
    rw [List.mem_append]
    rcases List.mem_append.1 hi with hi | hi
    · exact c1 i hi o hot
    · cases hp : f.phi i with
      | false => exact (a3 i (List.mem_filter.2 ⟨hi, by simp [hp]⟩) o hot).imp_left fun h => c2 _ (b2 _ h)
      | true =>
        obtain ⟨b, hb, hib⟩ := hw.dep i hi
        exact c3 i (List.mem_flatMap.2 ⟨b, hb, hib⟩) hp hi o ho
  · intro i hi hp o ho
    show o ∈ inc3 ++ dep
    rw [List.mem_append]
    rcases List.mem_append.1 hi with hi | hi
    · exact c1 i hi o ho
    · exact (a3 i (List.mem_filter.2 ⟨hi, by simp [hp]⟩) o ho).imp_left fun h => c2 _ (b2 _ h)
  · intro b hb hbr
    refine (b4 b hb hbr).imp_right fun h => List.mem_append.2 ?_
    exact h.elim Or.inr fun h => Or.inl (c2 _ h)

/-! ### C198 -/

/-- **C198** (false) Blocks of instructions that depend on the variable are still reached after branches were replaced. `base` are
these blocks, `exit` is the block of the return. -/
def C198_statement : Prop :=
  ∀ (f : SlFun) (dep base : List Nat) (exit : Option Nat) (n entry : Nat) (st : SlSt), SlWellFormed f dep →
    secondPhase f dep base exit n = some st → ∀ b ∈ base, b ∈ f.blocks → Reached f.succ entry b → Reached st.succ entry b

namespace SliceKeepEx

/-- `while (c) ; return var;` -/
def waiting : SlFun where
  blocks := [0, 1, 2, 3]
  succ := fun b => match b with | 0 => [1] | 1 => [2, 3] | 2 => [1] | _ => []
  branch := fun b => decide (b < 3)
  insts := fun b => match b with | 0 => [0] | 1 => [1, 2] | 2 => [3] | 3 => [4, 5] | _ => []
  term := fun b => match b with | 0 => 0 | 1 => 2 | 2 => 3 | _ => 5
  ops := fun i => match i with | 2 => [1] | 5 => [4] | _ => []
  alloca := fun _ => false
  phi := fun _ => false
  stores := fun _ _ => []
  blockOf := fun i => match i with | 0 => 0 | 1 => 1 | 2 => 1 | 3 => 2 | _ => 3

/-- `switch (x) { case 1: g(var); }` where `x` is loaded. -/
def switching : SlFun where
  blocks := [0, 1, 2]
  succ := fun b => match b with | 0 => [1, 2] | 1 => [2] | _ => []
  branch := fun b => decide (b = 1)
  insts := fun b => match b with | 0 => [0, 1] | 1 => [2, 3] | 2 => [4] | _ => []
  term := fun b => match b with | 0 => 1 | 1 => 3 | _ => 4
  ops := fun i => match i with | 1 => [0] | _ => []
  alloca := fun _ => false
  phi := fun _ => false
  stores := fun _ _ => []
  blockOf := fun i => match i with | 0 => 0 | 1 => 0 | 2 => 1 | 3 => 1 | _ => 2

/-- `if (c) g(var); a = 1; h(&a, var); return;` with blocks 0, 1 and 2; the condition is kept with its operands, the alloca with
its store. -/
def calling : SlFun where
  blocks := [0, 1, 3, 2]
  succ := fun b => match b with | 0 => [1, 3] | 1 => [2] | 3 => [2] | _ => []
  branch := fun b => decide (b ≠ 2)
  insts := fun b => match b with | 0 => [8, 0, 1, 2] | 1 => [3, 4] | 3 => [5, 6, 9] | 2 => [7] | _ => []
  term := fun b => match b with | 0 => 2 | 1 => 4 | 3 => 9 | _ => 7
  ops := fun i => match i with | 1 => [0] | 2 => [1] | 5 => [8] | 6 => [8] | _ => []
  alloca := fun i => decide (i = 8)
  phi := fun _ => false
  stores := fun a u => if a = 8 ∧ u = 6 then [5] else []
  blockOf := fun i => match i with | 8 => 0 | 0 => 0 | 1 => 0 | 2 => 0 | 3 => 1 | 4 => 1 | 7 => 2 | _ => 3

end SliceKeepEx

private theorem waiting_ok : SlWellFormed SliceKeepEx.waiting [4, 5] :=
  ⟨by unfold GraphOn; decide, by decide, by decide⟩

/-- After a loop that does not depend on the variable, the return of the variable is no longer reached: the function ends in the
loop. -/
theorem C198_fails : ¬ C198_statement := by
  intro h
  have hs : ∃ st, secondPhase SliceKeepEx.waiting [4, 5] [3] (some 3) 9 = some st ∧ st.succ 0 = [1] ∧ st.succ 1 = [2] ∧
      st.succ 2 = [1] := ⟨_, rfl, by decide +kernel, by decide +kernel, by decide +kernel⟩
  obtain ⟨st, hs, s0, s1, s2⟩ := hs
  have := h _ _ _ _ _ 0 st waiting_ok hs 3 (by decide) (by decide)
    (((Relation.ReflTransGen.single (b := 1) (by unfold Edge; decide)).tail (c := 3) (by unfold Edge; decide)))
  have all : ∀ x, Reached st.succ 0 x → x ≤ 2 := by
    intro x hx
    induction hx with
    | refl => decide
    | tail _ h2 ih =>
      rename_i a b _
      unfold Edge at h2
      have : a = 0 ∨ a = 1 ∨ a = 2 := by omega
      rcases this with rfl | rfl | rfl
      · rw [s0] at h2; simp at h2; omega
      · rw [s1] at h2; simp at h2; omega
      · rw [s2] at h2; simp at h2; omega
  exact absurd (all 3 this) (by decide)

namespace SliceKeepEx

/-- `if (c) g(var); else { h(var); ... }` with 38 blocks in the second part. -/
def long : SlFun where
  blocks := List.range 41
  succ := fun b => if b = 0 then [1, 2] else if b = 1 then [40] else if b < 40 then [b + 1] else []
  branch := fun b => decide (b < 40)
  insts := fun b => [100 + b, b]
  term := fun b => b
  ops := fun _ => []
  alloca := fun _ => false
  phi := fun _ => false
  stores := fun _ _ => []
  blockOf := fun i => i % 100

end SliceKeepEx

/-- In long functions, a block that is needed is lost even if it is not that of the return: after 32 blocks LLVM assumes that every block
is reached. -/
theorem C198_fails_long : ∃ (f : SlFun) (dep base : List Nat) (exit n entry : Nat) (st : SlSt), SlWellFormed f dep ∧
    secondPhase f dep base (some exit) n = some st ∧
    ∃ b ∈ base, b ∈ f.blocks ∧ b ≠ exit ∧ Reached f.succ entry b ∧ ¬ Reached st.succ entry b := by
  have hw : SlWellFormed SliceKeepEx.long [101, 102] :=
    ⟨by unfold GraphOn; decide +kernel, by decide +kernel, by decide +kernel⟩
  have hs : ∃ st, secondPhase SliceKeepEx.long [101, 102] [1, 2] (some 40) 3 = some st ∧ st.succ 0 = [2] := by
    obtain ⟨st, hst⟩ : ∃ st, secondPhase SliceKeepEx.long [101, 102] [1, 2] (some 40) 3 = some st :=
      Option.isSome_iff_exists.1 (by decide +kernel)
    refine ⟨st, hst, ?_⟩
    have : (secondPhase SliceKeepEx.long [101, 102] [1, 2] (some 40) 3).map (fun st => st.succ 0) = some [2] := by
      decide +kernel
    rw [hst] at this
    exact Option.some.inj this
  obtain ⟨st, hst, h0⟩ := hs
  obtain ⟨_, hi, _⟩ := phase_all _ _ _ _ _ 0 st hw hst
  refine ⟨SliceKeepEx.long, _, _, 40, _, 0, st, hw, hst, 1, by decide, by decide +kernel, by decide,
    Relation.ReflTransGen.single (by unfold Edge; decide), ?_⟩
  intro hr
  have all : ∀ x, Reached st.succ 0 x → x ≠ 1 := by
    intro x hx
    induction hx with
    | refl => decide
    | tail _ h2 _ =>
      rename_i a b _ _
      rintro rfl
      have h2 : 1 ∈ st.succ a := h2
      by_cases ha : a = 0
      · rw [ha, h0] at h2
        simp at h2
      · have h3 := hi.sub a 1 h2
        simp only [SliceKeepEx.long, if_neg ha] at h3
        split at h3
        · simp at h3
        · split at h3
          · simp at h3
            exact ha h3
          · cases h3
  exact all 1 hr rfl

/-- **C198 (partial)** In functions with fewer than 32 blocks, all such blocks but that of the return are still reached. No block is
reached that was not reached before. Missing: the block of the return in functions with loops, and longer functions. -/
theorem C198_blocks_partial (f : SlFun) (dep base : List Nat) (exit : Option Nat) (n entry : Nat) (st : SlSt)
    (hw : SlWellFormed f dep) (h : secondPhase f dep base exit n = some st) (b : Nat) :
    (f.blocks.length < 32 → b ∈ base → b ∈ f.blocks → some b ≠ exit → Reached f.succ entry b → Reached st.succ entry b) ∧
    (Reached st.succ entry b → Reached f.succ entry b) := by
  obtain ⟨inc, hi, _⟩ := phase_all f dep base exit n entry st hw h
  refine ⟨fun hl hb hf he hr => hi.reach hl b hb hf he hr, fun hr => ?_⟩
  induction hr with
  | refl => exact .refl
  | tail _ h2 ih => exact ih.tail (hi.sub _ _ h2)

/-- **C198 (partial)** The block of the return is still reached in functions without loops in which all blocks but that of the
return have successors. -/
theorem C198_return_partial (f : SlFun) (dep base : List Nat) (exit n entry : Nat) (st : SlSt) (hw : SlWellFormed f dep)
    (h : secondPhase f dep base (some exit) n = some st) (hl : NoLoop f) (he : entry ∈ f.blocks)
    (hx : ∀ b ∈ f.blocks, b ≠ exit → f.succ b ≠ []) : Reached st.succ entry exit := by
  obtain ⟨inc, hi, _⟩ := phase_all f dep base (some exit) n entry st hw h
  obtain ⟨rank, hr⟩ := hl
  have : ∀ k b, b ∈ f.blocks → rank b ≤ k → Reached st.succ b exit := by
    intro k
    induction k with
    | zero =>
      intro b hb hk
      by_cases e : b = exit
      · rw [e]; exact .refl
      · obtain ⟨s, hs⟩ := List.exists_mem_of_ne_nil _ (hx b hb e)
        have := hr b s hs
        omega
    | succ k ih =>
      intro b hb hk
      by_cases e : b = exit
      · rw [e]; exact .refl
      · obtain ⟨s, hs⟩ := List.exists_mem_of_ne_nil _ (hi.nonempty b (hx b hb e))
        have hsf := hi.sub b s hs
        have := hr b s hsf
        exact .head hs (ih s (hw.graph b hb s hsf) (by omega))
  exact this _ entry he (Nat.le_refl _)

/-- **C198 (other ends of blocks)** Branches that depend on the variable, and ends of blocks that are no branches, stay as they are. -/
theorem C198_others (f : SlFun) (dep base : List Nat) (exit : Option Nat) (n : Nat) (st : SlSt)
    (h : secondPhase f dep base exit n = some st) (b : Nat) (hb : f.branch b = false ∨ f.term b ∈ dep) :
    st.succ b = f.succ b ∧ b ∉ st.replaced := by
  unfold secondPhase at h
  obtain ⟨inc1, h1, h⟩ := Option.bind_eq_some_iff.1 h
  obtain ⟨st1, h2, h⟩ := Option.bind_eq_some_iff.1 h
  obtain ⟨inc3, h3, rfl⟩ := Option.map_eq_some_iff.1 h
  have : ∀ (l : List Nat) (st st' : SlSt), l.foldlM (branchStep f dep base exit n) st = some st' →
      st.succ b = f.succ b ∧ b ∉ st.replaced → st'.succ b = f.succ b ∧ b ∉ st'.replaced := by
    intro l
    induction l with
    | nil => intro st st' h hi; cases h; exact hi
    | cons x l ih =>
      intro st st' h hi
      rw [List.foldlM_cons] at h
      cases hx : branchStep f dep base exit n st x with
      | none => rw [hx] at h; cases h
      | some st2 =>
        rw [hx] at h
        refine ih st2 st' h ?_
        unfold branchStep at hx
        split at hx
        · rename_i hc
          have hne : b ≠ x := by
            rintro rfl
            rcases hb with hb | hb
            · rw [hb] at hc; cases hc.1
            · exact hc.2.1 hb
          have hr : b ∉ x :: st.replaced := fun hm => (List.mem_cons.1 hm).elim hne hi.2
          split at hx
          · cases hx
            exact ⟨by simp only [if_neg hne]; exact hi.1, hr⟩
          · cases hx
            exact ⟨by simp only [if_neg hne]; exact hi.1, hr⟩
          · obtain ⟨_, _, rfl⟩ := Option.map_eq_some_iff.1 hx
            exact hi
        · cases hx
          exact hi
  exact this f.blocks ⟨f.succ, inc1, []⟩ st1 h2 ⟨rfl, List.not_mem_nil⟩

/-- **C198 (both ways)** Both successors of a branch are kept only if each of them is needed: through each one an included block,
other than that of the return, is reached that is not reached through the other one. -/
theorem C198_both (succ : Nat → List Nat) (blocks incB : List Nat) (exit : Option Nat) (src t e : Nat)
    (hg : GraphOn succ blocks) (hl : blocks.length < 32) (hsrc : src ∈ blocks) (hs : succ src = [t, e]) :
    includedSuccessors succ blocks incB exit src = [t, e] ↔
      (∃ b ∈ blocks, b ∈ incB ∧ some b ≠ exit ∧ b ≠ src ∧ Through succ src t b ∧ ¬ Through succ src e b) ∧
      (∃ b ∈ blocks, b ∈ incB ∧ some b ≠ exit ∧ b ≠ src ∧ Through succ src e b ∧ ¬ Through succ src t b) := by
  have mt : ∀ b, b ∈ ((reachableThroughSucc succ blocks src t).filter fun b => decide (b ∈ incB ∧ some b ≠ exit)) ↔
      (b ∈ blocks ∧ src ≠ b ∧ Through succ src t b) ∧ b ∈ incB ∧ some b ≠ exit := by
    intro b
    rw [List.mem_filter, decide_eq_true_eq, mem_reachableThroughSucc hg hl hsrc (by rw [hs]; simp)]
  have mf : ∀ b, b ∈ ((reachableThroughSucc succ blocks src e).filter fun b => decide (b ∈ incB ∧ some b ≠ exit)) ↔
      (b ∈ blocks ∧ src ≠ b ∧ Through succ src e b) ∧ b ∈ incB ∧ some b ≠ exit := by
    intro b
    rw [List.mem_filter, decide_eq_true_eq, mem_reachableThroughSucc hg hl hsrc (by rw [hs]; simp)]
  unfold includedSuccessors
  rw [hs]
  simp only
  generalize ((reachableThroughSucc succ blocks src t).filter fun b => decide (b ∈ incB ∧ some b ≠ exit)) = rt at *
  generalize ((reachableThroughSucc succ blocks src e).filter fun b => decide (b ∈ incB ∧ some b ≠ exit)) = rf at *
  have e1 : (∃ b ∈ blocks, b ∈ incB ∧ some b ≠ exit ∧ b ≠ src ∧ Through succ src t b ∧ ¬ Through succ src e b) ↔
      ¬ ∀ b ∈ rt, b ∈ rf := by
    constructor
    · rintro ⟨b, h1, h2, h3, h4, h5, h6⟩ h
      exact h6 ((mf b).1 (h b ((mt b).2 ⟨⟨h1, fun h => h4 h.symm, h5⟩, h2, h3⟩))).1.2.2
    · intro h
      push Not at h
      obtain ⟨b, hb, hn⟩ := h
      obtain ⟨⟨h1, h2, h3⟩, h4, h5⟩ := (mt b).1 hb
      exact ⟨b, h1, h4, h5, fun h => h2 h.symm, h3, fun h6 => hn ((mf b).2 ⟨⟨h1, h2, h6⟩, h4, h5⟩)⟩
  have e2 : (∃ b ∈ blocks, b ∈ incB ∧ some b ≠ exit ∧ b ≠ src ∧ Through succ src e b ∧ ¬ Through succ src t b) ↔
      ¬ ∀ b ∈ rf, b ∈ rt := by
    constructor
    · rintro ⟨b, h1, h2, h3, h4, h5, h6⟩ h
      exact h6 ((mt b).1 (h b ((mf b).2 ⟨⟨h1, fun h => h4 h.symm, h5⟩, h2, h3⟩))).1.2.2
    · intro h
      push Not at h
      obtain ⟨b, hb, hn⟩ := h
      obtain ⟨⟨h1, h2, h3⟩, h4, h5⟩ := (mf b).1 hb
      exact ⟨b, h1, h4, h5, fun h => h2 h.symm, h3, fun h6 => hn ((mt b).2 ⟨⟨h1, h2, h6⟩, h4, h5⟩)⟩
  rw [e1, e2]
  by_cases c1 : ∀ b ∈ rf, b ∈ rt
  · by_cases c2 : ∀ b ∈ rt, b ∈ rf
    · rw [if_pos ⟨c1, c2⟩]
      refine ⟨fun h => ?_, fun h => absurd c2 h.1⟩
      exfalso
      have := congrArg List.length h
      split at this <;> (try split at this) <;> (try split at this) <;> simp at this
    · rw [if_neg fun h => c2 h.2, if_pos c1]
      exact ⟨(fun h => by simp at h), fun h => absurd c1 h.2⟩
  · rw [if_neg fun h => c1 h.1, if_neg c1]
    by_cases c2 : ∀ b ∈ rt, b ∈ rf
    · rw [if_pos c2]
      exact ⟨fun h => by simp at h, fun h => absurd c2 h.1⟩
    · rw [if_neg c2]
      exact ⟨fun _ => ⟨c2, c1⟩, fun _ => rfl⟩

/-! ### C199 -/

/-- **C199** (false) An instruction that stays in the function has no operand that is removed: instructions stay if they are
included, and terminators unless they are replaced. -/
def C199_statement : Prop :=
  ∀ (f : SlFun) (dep base : List Nat) (exit : Option Nat) (n : Nat) (st : SlSt), SlWellFormed f dep →
    secondPhase f dep base exit n = some st → ∀ i, i ∈ st.inc ∨ (∃ b ∈ f.blocks, i = f.term b ∧ b ∉ st.replaced) →
    ∀ o ∈ f.ops i, o ∈ st.inc

/-- The value of a switch is removed, although the switch stays. -/
theorem C199_fails : ¬ C199_statement := by
  intro h
  have hs : ∃ st, secondPhase SliceKeepEx.switching [2] [1] (some 2) 9 = some st ∧ st.inc = [2] ∧ st.replaced = [1] :=
    ⟨_, rfl, by decide +kernel, by decide +kernel⟩
  obtain ⟨st, hs, hi, hr⟩ := hs
  have := h _ _ _ _ _ st ⟨by unfold GraphOn; decide, by decide, by decide⟩ hs 1
    (Or.inr ⟨0, by decide, by decide, by rw [hr]; decide⟩) 0 (by decide)
  rw [hi] at this
  exact absurd this (by decide)

/-- **C199 (partial)** Included instructions and branches that stay have no operands that are removed. Missing: returns and
switches. -/
theorem C199_operands_partial (f : SlFun) (dep base : List Nat) (exit : Option Nat) (n : Nat) (st : SlSt)
    (hw : SlWellFormed f dep) (h : secondPhase f dep base exit n = some st) (i : Nat)
    (hi : i ∈ st.inc ∨ (∃ b ∈ f.blocks, i = f.term b ∧ b ∉ st.replaced ∧ f.branch b = true)) (o : Nat) (ho : o ∈ f.ops i) :
    o ∈ st.inc := by
  obtain ⟨_, _, h1, _, h2⟩ := phase_all f dep base exit n 0 st hw h
  rcases hi with hi | ⟨b, hb, rfl, hn, hbr⟩
  · exact h1 i hi o ho
  · exact h1 _ ((h2 b hb hbr).resolve_left hn) o ho

/-- **C199 (stores)** For an instruction that is kept and is not a phi, the stores are kept that were found for the local variables
among its operands. -/
theorem C199_stores (f : SlFun) (dep base : List Nat) (exit : Option Nat) (n : Nat) (st : SlSt)
    (hw : SlWellFormed f dep) (h : secondPhase f dep base exit n = some st) (i a s : Nat) (hi : i ∈ st.inc)
    (hp : f.phi i = false) (ha : a ∈ f.ops i) (hal : f.alloca a = true) (hs : s ∈ f.stores a i) : s ∈ st.inc := by
  obtain ⟨_, _, _, h1, _⟩ := phase_all f dep base exit n 0 st hw h
  refine h1 i hi hp s (List.mem_flatMap.2 ⟨a, ha, ?_⟩)
  rw [if_pos hal]
  exact List.mem_cons_of_mem _ hs

/-! ### Nothing else is kept -/

private theorem wanted_ops (f : SlFun) (dep : List Nat) (P : Nat → Prop) (hP : ∀ i, P i → ∀ o ∈ f.targets i, P o) (n i : Nat)
    (inc inc' : List Nat) (h : addAllOps f dep n i inc = some inc') (hi : P i) (ha : ∀ j ∈ inc, P j) : ∀ j ∈ inc', P j := by
  induction n generalizing i inc inc' with
  | zero => cases h
  | succ n ih =>
    have hall : ∀ (l inc : List Nat), (∀ o ∈ l, P o) → (∀ j ∈ inc, P j) → l.foldlM
        (fun inc o => if o ∈ dep ∨ o ∈ inc then some inc else addAllOps f dep n o (o :: inc)) inc = some inc' →
        ∀ j ∈ inc', P j := by
      intro l
      induction l with
      | nil => intro inc _ hj h; cases h; exact hj
      | cons o l ihl =>
        intro inc hl hj h
        rw [List.foldlM_cons] at h
        have hl' : ∀ o ∈ l, P o := fun x hx => hl x (List.mem_cons_of_mem _ hx)
        by_cases hc : o ∈ dep ∨ o ∈ inc
        · simp only [if_pos hc] at h
          exact ihl inc hl' hj h
        · simp only [if_neg hc] at h
          cases ho : addAllOps f dep n o (o :: inc) with
          | none => rw [ho] at h; cases h
          | some inc1 =>
            rw [ho] at h
            refine ihl inc1 hl' (ih o _ _ ho (hl o List.mem_cons_self) ?_) h
            intro j hm
            rcases List.mem_cons.1 hm with rfl | hm
            · exact hl _ List.mem_cons_self
            · exact hj j hm
    exact hall _ inc (hP i hi) ha h

private theorem fold_wanted {α : Type} (Q : α → Prop) (g : α → Nat → Option α) (l : List Nat)
    (h : ∀ a i b, i ∈ l → Q a → g a i = some b → Q b) (a b : α) (ha : Q a) (hf : l.foldlM g a = some b) : Q b := by
  induction l generalizing a with
  | nil => cases hf; exact ha
  | cons i l ih =>
    rw [List.foldlM_cons] at hf
    cases h1 : g a i with
    | none => rw [h1] at hf; cases hf
    | some c =>
      rw [h1] at hf
      exact ih (fun a j b hj => h a j b (List.mem_cons_of_mem _ hj)) c (h a i c List.mem_cons_self ha h1) hf

private theorem wanted_loop (f : SlFun) (dep base : List Nat) (exit : Option Nat) (n : Nat) (P : Nat → Prop)
    (hP : ∀ i, P i → ∀ o ∈ f.targets i, P o) (l : List Nat) (hn : l.Nodup) (st st' : SlSt)
    (h : l.foldlM (branchStep f dep base exit n) st = some st') (hl : ∀ b ∈ l, b ∉ st.replaced)
    (hb : ∀ b ∈ l, f.branch b = true → b ∉ st'.replaced → P (f.term b)) (ha : ∀ j ∈ st.inc, P j) :
    (∀ j ∈ st'.inc, P j) ∧ ∀ x ∈ st'.replaced, x ∈ st.replaced ∨ x ∈ l := by
  have grow : ∀ (l : List Nat) (st st' : SlSt), l.foldlM (branchStep f dep base exit n) st = some st' →
      ∀ x ∈ st'.replaced, x ∈ st.replaced ∨ x ∈ l := by
    intro l
    induction l with
    | nil => intro st st' h x hx; cases h; exact Or.inl hx
    | cons b l ih =>
      intro st st' h x hx
      rw [List.foldlM_cons] at h
      cases h1 : branchStep f dep base exit n st b with
      | none => rw [h1] at h; cases h
      | some st1 =>
        rw [h1] at h
        rcases ih st1 st' h x hx with hm | hm
        · have : x ∈ st.replaced ∨ x = b := by
            unfold branchStep at h1
            split at h1
            · split at h1
              · cases h1; exact (List.mem_cons.1 hm).symm
              · cases h1; exact (List.mem_cons.1 hm).symm
              · obtain ⟨_, _, rfl⟩ := Option.map_eq_some_iff.1 h1; exact Or.inl hm
            · cases h1; exact Or.inl hm
          rcases this with h | rfl
          · exact Or.inl h
          · exact Or.inr List.mem_cons_self
        · exact Or.inr (List.mem_cons_of_mem _ hm)
  refine ⟨?_, grow l st st' h⟩
  induction l generalizing st with
  | nil => cases h; exact ha
  | cons b l ih =>
    rw [List.foldlM_cons] at h
    obtain ⟨hbl, hn'⟩ := List.nodup_cons.1 hn
    cases h1 : branchStep f dep base exit n st b with
    | none => rw [h1] at h; cases h
    | some st1 =>
      rw [h1] at h
      have hrep : ∀ x ∈ st1.replaced, x ∈ st.replaced ∨ x ∈ [b] :=
        grow [b] st st1 (by rw [List.foldlM_cons, h1]; rfl)
      refine ih hn' st1 h ?_ (fun x hx => hb x (List.mem_cons_of_mem _ hx)) ?_
      · intro x hx hm
        rcases hrep x hm with hm | hm
        · exact hl x (List.mem_cons_of_mem _ hx) hm
        · exact hbl (List.mem_singleton.1 hm ▸ hx)
      · unfold branchStep at h1
        split at h1
        · rename_i hc
          split at h1
          · cases h1; exact ha
          · cases h1; exact ha
          · obtain ⟨inc, hinc, rfl⟩ := Option.map_eq_some_iff.1 h1
            have hbP : P (f.term b) := by
              refine hb b List.mem_cons_self hc.1 fun hm => ?_
              rcases grow l _ st' h b hm with hm | hm
              · exact hl b List.mem_cons_self hm
              · exact hbl hm
            refine wanted_ops f dep P hP n _ _ _ hinc hbP ?_
            intro j hj
            split at hj
            · exact ha j hj
            · rcases List.mem_cons.1 hj with rfl | hj
              · exact hbP
              · exact ha j hj
        · cases h1; exact ha

/-- **C199 (nothing else)** An instruction is kept only if it depends on the variable, or is a branch that stays, or is an operand,
or a store to a local variable among the operands, of such an instruction. -/
theorem C199_only (f : SlFun) (dep base : List Nat) (exit : Option Nat) (n : Nat) (st : SlSt) (hn : f.blocks.Nodup)
    (h : secondPhase f dep base exit n = some st) (i : Nat) (hi : i ∈ st.inc) : SliceWanted f dep st.replaced i := by
  unfold secondPhase at h
  obtain ⟨inc1, h1, h⟩ := Option.bind_eq_some_iff.1 h
  obtain ⟨st1, h2, h⟩ := Option.bind_eq_some_iff.1 h
  obtain ⟨inc3, h3, rfl⟩ := Option.map_eq_some_iff.1 h
  have hP : ∀ i, SliceWanted f dep st1.replaced i → ∀ o ∈ f.targets i, SliceWanted f dep st1.replaced o := by
    intro i hi o ho
    obtain ⟨x, hx, hm⟩ := List.mem_flatMap.1 ho
    rcases List.mem_cons.1 hm with rfl | hm
    · exact .op i _ hi hx
    · split at hm
      · rename_i ha
        exact .store i x o hi hx ha hm
      · cases hm
  have w1 : ∀ j ∈ inc1, SliceWanted f dep st1.replaced j := by
    refine fold_wanted (fun inc => ∀ j ∈ inc, SliceWanted f dep st1.replaced j) _ _ ?_ [] inc1 (fun _ h => nomatch h) h1
    intro a i b hi ha hab
    exact wanted_ops f dep _ hP n i a b hab (.dep i (List.mem_filter.1 hi).1) ha
  have w2 := (wanted_loop f dep base exit n _ hP f.blocks hn _ _ h2 (fun _ _ h => nomatch h)
    (fun b hb hbr hr => .branch b hb hbr hr) w1).1
  have w3 : ∀ j ∈ inc3, SliceWanted f dep st1.replaced j := by
    refine fold_wanted (fun inc => ∀ j ∈ inc, SliceWanted f dep st1.replaced j) _ _ ?_ st1.inc inc3 w2 h3
    intro a p b _ ha hab
    unfold phiStep at hab
    split at hab
    · rename_i hc
      have hp : SliceWanted f dep st1.replaced p := hc.2.elim (ha p) (.dep p)
      refine fold_wanted (fun inc => ∀ j ∈ inc, SliceWanted f dep st1.replaced j) _ _ ?_ a b ha hab
      intro a' o b' ho ha' hab'
      have hw := SliceWanted.op p o hp ho
      refine wanted_ops f dep _ hP n o _ b' hab' hw ?_
      intro j hj
      split at hj
      · exact ha' j hj
      · rcases List.mem_cons.1 hj with rfl | hj
        · exact hw
        · exact ha' j hj
    · cases hab
      exact ha
  rcases List.mem_append.1 hi with hi | hi
  · exact w3 i hi
  · exact .dep i hi

/-! ### The end of the recursion -/

/-- The number of instructions that are not included yet. -/
private def missing (u inc : List Nat) : Nat := (u.filter fun i => decide (i ∉ inc)).length

private theorem missing_mono (u inc inc' : List Nat) (h : ∀ j ∈ inc, j ∈ inc') : missing u inc' ≤ missing u inc := by
  unfold missing
  refine (List.monotone_filter_right u fun i hi => ?_).length_le
  rw [decide_eq_true_eq] at hi ⊢
  exact fun hm => hi (h i hm)

private theorem missing_cons (u inc : List Nat) (o : Nat) (ho : o ∈ u) (hn : o ∉ inc) :
    missing u (o :: inc) < missing u inc := by
  unfold missing
  induction u with
  | nil => cases ho
  | cons x u ih =>
    have hm := missing_mono u inc (o :: inc) fun j hj => List.mem_cons_of_mem _ hj
    unfold missing at hm
    by_cases hx : x = o
    · subst hx
      rw [List.filter_cons_of_neg (by simp), List.filter_cons_of_pos (by simpa using hn)]
      exact Nat.lt_succ_of_le hm
    · have hou := (List.mem_cons.1 ho).resolve_left fun h => hx h.symm
      have := ih hou
      by_cases hxi : x ∈ inc
      · rw [List.filter_cons_of_neg (by simp [hxi]), List.filter_cons_of_neg (by simp [hxi])]
        exact this
      · rw [List.filter_cons_of_pos (by simp [hxi, hx]), List.filter_cons_of_pos (by simp [hxi])]
        exact Nat.succ_lt_succ this

private theorem addAllOps_ends (f : SlFun) (dep u : List Nat) (hu : ∀ i, ∀ o ∈ f.targets i, o ∈ u) (n i : Nat) (inc : List Nat)
    (h : missing u inc < n) : ∃ inc', addAllOps f dep n i inc = some inc' := by
  induction n generalizing i inc with
  | zero => omega
  | succ n ih =>
    have hall : ∀ (l inc : List Nat), (∀ o ∈ l, o ∈ u) → missing u inc < n + 1 → ∃ inc', l.foldlM
        (fun inc o => if o ∈ dep ∨ o ∈ inc then some inc else addAllOps f dep n o (o :: inc)) inc = some inc' := by
      intro l
      induction l with
      | nil => exact fun inc _ _ => ⟨inc, rfl⟩
      | cons o l ihl =>
        intro inc hl hm
        rw [List.foldlM_cons]
        have hl' : ∀ o ∈ l, o ∈ u := fun x hx => hl x (List.mem_cons_of_mem _ hx)
        by_cases hc : o ∈ dep ∨ o ∈ inc
        · simp only [if_pos hc]
          exact ihl inc hl' hm
        · simp only [if_neg hc]
          have hlt := missing_cons u inc o (hl o List.mem_cons_self) fun h => hc (Or.inr h)
          obtain ⟨inc1, h1⟩ := ih o (o :: inc) (by omega)
          rw [h1]
          have hmm := missing_mono u (o :: inc) inc1 (addAllOps_spec f dep n o _ _ h1).1
          exact ihl inc1 hl' (by omega)
    exact hall _ inc (hu i) h

private theorem fold_ends {α : Type} (g : α → Nat → Option α) (h : ∀ a i, ∃ b, g a i = some b) (l : List Nat) (a : α) :
    ∃ b, l.foldlM g a = some b := by
  induction l generalizing a with
  | nil => exact ⟨a, rfl⟩
  | cons i l ih =>
    obtain ⟨b, hb⟩ := h a i
    obtain ⟨c, hc⟩ := ih b
    exact ⟨c, by rw [List.foldlM_cons, hb]; exact hc⟩

/-- **C199 (the recursion ends)** If the operands and stores of a function are among finitely many instructions, the recursion is
never deeper than their number. -/
theorem C199_ends (f : SlFun) (dep base u : List Nat) (exit : Option Nat) (n : Nat)
    (hops : ∀ i, ∀ o ∈ f.ops i, o ∈ u) (hst : ∀ a i, ∀ s ∈ f.stores a i, s ∈ u) (hn : u.length < n) :
    ∃ st, secondPhase f dep base exit n = some st := by
  have hu : ∀ i, ∀ o ∈ f.targets i, o ∈ u := by
    intro i o ho
    obtain ⟨x, hx, hm⟩ := List.mem_flatMap.1 ho
    rcases List.mem_cons.1 hm with rfl | hm
    · exact hops i _ hx
    · split at hm
      · exact hst x i o hm
      · cases hm
  have hall : ∀ i inc, ∃ inc', addAllOps f dep n i inc = some inc' := by
    intro i inc
    refine addAllOps_ends f dep u hu n i inc (Nat.lt_of_le_of_lt ?_ hn)
    exact List.length_filter_le _ _
  unfold secondPhase
  obtain ⟨inc1, h1⟩ := fold_ends (fun inc i => addAllOps f dep n i inc) (fun a i => hall i a) (dep.filter fun i => !f.phi i) []
  obtain ⟨st1, h2⟩ := fold_ends (branchStep f dep base exit n) (fun st b => by
    unfold branchStep
    split
    · split
      · exact ⟨_, rfl⟩
      · exact ⟨_, rfl⟩
      · obtain ⟨inc, h⟩ := hall (f.term b) (if f.term b ∈ st.inc then st.inc else f.term b :: st.inc)
        rw [h]
        exact ⟨_, rfl⟩
    · exact ⟨_, rfl⟩) f.blocks ⟨f.succ, inc1, []⟩
  obtain ⟨inc3, h3⟩ := fold_ends (phiStep f dep n) (fun inc p => by
    unfold phiStep
    split
    · exact fold_ends _ (fun inc o => hall o _) _ _
    · exact ⟨_, rfl⟩) (f.blocks.flatMap f.insts) st1.inc
  rw [h1]
  simp only [Option.bind_some]
  rw [h2]
  simp only [Option.bind_some]
  rw [h3]
  exact ⟨_, rfl⟩

/-- The function of the first witness, and one in which a branch, its condition and the store to an alloca are kept. -/
example : (secondPhase SliceKeepEx.waiting [4, 5] [3] (some 3) 9).map (fun st => (st.succ 1, st.inc)) = some ([2], [4, 5]) ∧
    (secondPhase SliceKeepEx.calling [3, 6] [1, 3] (some 2) 9).map (fun st => (st.succ 0, st.inc)) =
      some ([1, 3], [0, 1, 2, 5, 8, 3, 6]) ∧
    SlWellFormed SliceKeepEx.calling [3, 6] ∧ NoLoop SliceKeepEx.calling := by
  refine ⟨by decide +kernel, by decide +kernel, ⟨by unfold GraphOn; decide, by decide, by decide⟩, ?_⟩
  refine ⟨fun b => match b with | 0 => 2 | 1 => 1 | 3 => 1 | _ => 0, ?_⟩
  intro a b h
  match a with
  | 0 => simp [SliceKeepEx.calling] at h; rcases h with rfl | rfl <;> decide
  | 1 => simp [SliceKeepEx.calling] at h; subst h; decide
  | 2 => simp [SliceKeepEx.calling] at h
  | 3 => simp [SliceKeepEx.calling] at h; subst h; decide
  | n + 4 => simp [SliceKeepEx.calling] at h

end DK
