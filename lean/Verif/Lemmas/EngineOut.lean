import Verif.Model.EngineOut
import Verif.Lemmas.Import

/-! Lemmas about the engine's sets of calls. -/

set_option autoImplicit false

namespace DK

theorem char_toNat_inj {a b : Char} (h : a.toNat = b.toNat) : a = b := by
  apply Char.ext
  exact UInt32.toNat_inj.1 h

theorem strLt_irrefl (a : Str) : strLt a a = false := by
  induction a with
  | nil => rfl
  | cons c cs ih => simp [strLt, ih]

theorem strLt_trans {a b c : Str} (h1 : strLt a b = true) (h2 : strLt b c = true) : strLt a c = true := by
  induction a generalizing b c with
  | nil => cases b <;> cases c <;> simp [strLt] at *
  | cons x xs ih =>
    cases b with
    | nil => simp [strLt] at h1
    | cons y ys =>
      cases c with
      | nil => simp [strLt] at h2
      | cons z zs =>
        simp only [strLt] at *
        split at h1
        · split at h2
          · rw [if_pos (by omega)]
          · split at h2
            · cases h2
            · rw [if_pos (by omega)]
        · split at h1
          · cases h1
          · split at h2
            · rw [if_pos (by omega)]
            · split at h2
              · cases h2
              · rw [if_neg (by omega), if_neg (by omega)]; exact ih h1 h2

theorem strLt_total {a b : Str} (h1 : strLt a b = false) (h2 : strLt b a = false) : a = b := by
  induction a generalizing b with
  | nil => cases b <;> simp [strLt] at *
  | cons x xs ih =>
    cases b with
    | nil => simp [strLt] at h2
    | cons y ys =>
      simp only [strLt] at *
      split at h1
      · cases h1
      · rename_i hx
        split at h2
        · cases h2
        · rename_i hy
          simp only [hy, if_false] at h1 h2
          rw [ih h1 h2, char_toNat_inj (by omega : x.toNat = y.toNat)]

/-- Sorted by callee, each callee once. -/
def CallsSorted (cs : List Edge) : Prop := cs.Pairwise (fun a b => strLt a.target b.target = true)

theorem mem_insertCall {cs : List Edge} (hs : CallsSorted cs) (e x : Edge) :
    x ∈ insertCall cs e ↔ x ∈ cs ∨ (x = e ∧ ∀ c ∈ cs, c.target ≠ e.target) := by
  induction cs with
  | nil => simp [insertCall]
  | cons c cs ih =>
    unfold CallsSorted at hs
    rw [List.pairwise_cons] at hs
    unfold insertCall
    split
    · rename_i h1
      have hne : ∀ d ∈ c :: cs, d.target ≠ e.target := by
        intro d hd he
        rcases List.mem_cons.1 hd with rfl | hd
        · rw [he, strLt_irrefl] at h1; cases h1
        · have := strLt_trans h1 (hs.1 d hd)
          rw [he, strLt_irrefl] at this; cases this
      constructor
      · intro hx
        rcases List.mem_cons.1 hx with hx | hx
        · exact Or.inr ⟨hx, hne⟩
        · exact Or.inl hx
      · rintro (hx | ⟨rfl, _⟩)
        · exact List.mem_cons_of_mem _ hx
        · exact List.mem_cons_self
    · rename_i h1
      split
      · rename_i h2
        rw [List.mem_cons, ih hs.2, List.mem_cons]
        have hce : c.target ≠ e.target := by
          intro he; rw [he, strLt_irrefl] at h2; cases h2
        constructor
        · rintro (h | h | ⟨h3, h4⟩)
          · exact Or.inl (Or.inl h)
          · exact Or.inl (Or.inr h)
          · refine Or.inr ⟨h3, ?_⟩
            intro d hd
            rcases List.mem_cons.1 hd with rfl | hd
            · exact hce
            · exact h4 d hd
        · rintro ((h | h) | ⟨h3, h4⟩)
          · exact Or.inl h
          · exact Or.inr (Or.inl h)
          · exact Or.inr (Or.inr ⟨h3, fun d hd => h4 d (List.mem_cons_of_mem _ hd)⟩)
      · rename_i h2
        have hce : c.target = e.target := strLt_total (by simpa using h2) (by simpa using h1)
        constructor
        · exact Or.inl
        · rintro (h | ⟨_, h⟩)
          · exact h
          · exact absurd hce (h c List.mem_cons_self)

theorem insertCall_sorted {cs : List Edge} (hs : CallsSorted cs) (e : Edge) : CallsSorted (insertCall cs e) := by
  induction cs with
  | nil => simp [insertCall, CallsSorted]
  | cons c cs ih =>
    have hs0 := hs
    unfold CallsSorted at hs
    rw [List.pairwise_cons] at hs
    unfold insertCall
    split
    · rename_i h1
      refine List.pairwise_cons.2 ⟨?_, hs0⟩
      intro d hd
      rcases List.mem_cons.1 hd with rfl | hd
      · exact h1
      · exact strLt_trans h1 (hs.1 d hd)
    · split
      · rename_i h2
        refine List.pairwise_cons.2 ⟨?_, ih hs.2⟩
        intro d hd
        rcases (mem_insertCall hs.2 e d).1 hd with hd | ⟨rfl, _⟩
        · exact hs.1 d hd
        · exact h2
      · exact hs0

theorem weakenCalls_sorted {cs : List Edge} (hs : CallsSorted cs) (n : Str) : CallsSorted (weakenCalls cs n) := by
  unfold CallsSorted weakenCalls at *
  rw [List.pairwise_map]
  refine hs.imp ?_
  intro a b hab
  split <;> split <;> exact hab

theorem applyEvent_sorted {cs : List Edge} (hs : CallsSorted cs) (f : Str) (s : Side) (ev : CallEvent) :
    CallsSorted (applyEvent f s cs ev) := by
  unfold applyEvent
  split
  · exact insertCall_sorted hs _
  · exact weakenCalls_sorted hs _
  · exact hs

theorem callsAfter_snoc (f : Str) (s : Side) (evs : List CallEvent) (ev : CallEvent) :
    callsAfter f s (evs ++ [ev]) = applyEvent f s (callsAfter f s evs) ev := by
  simp [callsAfter]

theorem callsAfter_sorted (f : Str) (s : Side) (evs : List CallEvent) : CallsSorted (callsAfter f s evs) := by
  induction evs using List.reverseRecOn with
  | nil => simp [callsAfter, CallsSorted]
  | append_singleton evs ev ih => rw [callsAfter_snoc]; exact applyEvent_sorted ih _ _ _

/-- The recorded call of each side, by names only. -/
theorem applyEvent_nil_iff (f f' : Str) {cl cr : List Edge} (ev : CallEvent) (h : cl = [] ↔ cr = []) :
    applyEvent f .left cl ev = [] ↔ applyEvent f' .right cr ev = [] := by
  have hins : ∀ (cs : List Edge) e, insertCall cs e ≠ [] := by
    intro cs e
    cases cs with
    | nil => simp [insertCall]
    | cons c cs => unfold insertCall; split <;> (try split) <;> simp
  have hw : ∀ (cs : List Edge) n, weakenCalls cs n = [] ↔ cs = [] := by
    intro cs n; simp [weakenCalls]
  cases ev with
  | call l r ll lr => simp [applyEvent, CallEvent.called, hins]
  | inlined l r =>
    cases l <;> cases r <;> simp [applyEvent, CallEvent.called, CallEvent.weakens, hw, h]

theorem callsAfter_nil_iff (f f' : Str) (evs : List CallEvent) :
    callsAfter f .left evs = [] ↔ callsAfter f' .right evs = [] := by
  induction evs using List.reverseRecOn with
  | nil => simp [callsAfter]
  | append_singleton evs ev ih => rw [callsAfter_snoc, callsAfter_snoc]; exact applyEvent_nil_iff _ _ ev ih

theorem emit_paired (r : EngineResult) : CallsPaired r.emit := by
  unfold CallsPaired EngineResult.emit emitCalls
  simp only
  have := callsAfter_nil_iff (r.file .left) (r.file .right) r.events
  split <;> split <;> simp_all

theorem emit_callsOf (r : EngineResult) (s : Side) : r.emit.callsOf s = callsAfter (r.file s) s r.events := by
  unfold FunResult.callsOf EngineResult.emit emitCalls
  cases s <;> simp only <;> split <;> simp_all

/-- Import of any outputs with paired calls: objects and final map, whatever the keys are. -/
theorem importResults_objects : ∀ (rs : List FunResult) (v : Nat) (h : Heap) (g : Graph),
    (∀ r ∈ rs, CallsPaired r) →
    ∃ h' g', importResults v (h, g) rs = .ok (h', g') ∧
      (∀ (i : Nat) (r : FunResult), rs[i]? = some r → h' (v + i) = r.fullVertex) ∧
      (∀ w, w < v → h' w = h w) ∧
      (∀ k, g'.vertices.get? k = match Dict.get? (keyIds v rs).reverse k with
        | some w => some w
        | none => g.vertices.get? k) := by
  intro rs
  induction rs with
  | nil => intro v h g _; exact ⟨h, g, rfl, by simp, fun _ _ => rfl, fun k => by simp [keyIds]⟩
  | cons r rs ih =>
    intro v h g hp
    obtain ⟨h1, e1, e2, e3⟩ := vertexFromYaml_spec v h g r (hp r (by simp))
    obtain ⟨h2, g2, f1, f2, f3, f4⟩ := ih (v + 1) h1
      (({ g with edgeCache := g.edgeCache ++ r.refs v } : Graph).setItem h1 r.key v) (fun x hx => hp x (by simp [hx]))
    refine ⟨h2, g2, by simp only [importResults, e1]; exact f1, ?_, ?_, ?_⟩
    · intro i x hx
      cases i with
      | zero =>
        simp at hx; subst hx
        rw [f3 (v + 0) (by omega)]; exact e2
      | succ i =>
        rw [show v + (i + 1) = v + 1 + i by omega]
        exact f2 i x (by simpa using hx)
    · intro w hw
      rw [f3 w (by omega), e3 w (by omega)]
    · intro k
      rw [f4 k]
      have happ : ∀ (d : Dict Str Nat) (a : Str) (b : Nat) (k : Str), Dict.get? (d ++ [(a, b)]) k =
          match d.get? k with | some w => some w | none => if a = k then some b else none := by
        intro d a b k
        induction d with
        | nil => simp [Dict.get?]
        | cons p d ih =>
          obtain ⟨pa, pb⟩ := p
          simp only [List.cons_append, Dict.get?]
          split
          · rfl
          · exact ih
      have : (keyIds v (r :: rs)).reverse = (keyIds (v + 1) rs).reverse ++ [(r.key, v)] := by
        simp [keyIds]
      rw [this, happ]
      cases hg : Dict.get? (keyIds (v + 1) rs).reverse k with
      | some w => rfl
      | none =>
        simp only [Graph.setItem]
        rw [Dict.get?_set]
        by_cases hk : r.key = k
        · subst hk; simp
        · have : ¬ k = r.key := fun e => hk e.symm
          simp [hk, this]

end DK
