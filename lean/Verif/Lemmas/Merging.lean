import Verif.Props.Transforms
import Verif.Lemmas.Dict

/-! Lemmas about the merging of numbered functions and about renaming. -/

set_option autoImplicit false

namespace DK
open Spec

variable {V S : Type}

/-! ### Renaming -/

theorem evalP_ren {M : PMach V S} {tgt : V → Option Str} {args : List V} {env : Nat → V} {r : Str → Str}
    (ha : ∀ n, M.addr (r n) = M.addr n) (v : PValue) :
    evalP { M with target := tgt } args env (renVal r v) = evalP M args env v := by
  cases v with
  | fn n => exact ha n
  | _ => rfl

theorem evalPs_ren {M : PMach V S} {tgt : V → Option Str} {args : List V} {env : Nat → V} {r : Str → Str}
    (ha : ∀ n, M.addr (r n) = M.addr n) (l : List PValue) :
    (l.map (renVal r)).map (evalP { M with target := tgt } args env) = l.map (evalP M args env) := by
  rw [List.map_map]
  exact List.map_congr_left fun v _ => evalP_ren ha v

theorem isim_ren {M : PMach V S} {r : Str → Str} {call call' : Str → List V → S → Option (V × S)} {args : List V}
    (ha : ∀ n, M.addr (r n) = M.addr n) {i : PInst}
    (hc : ∀ k m sg as, i = .call k (.fn m) sg as → ∀ a s, call m a s = call' (r m) a s)
    (ht : ∀ v m, M.target v = some m → ∀ a s, call m a s = call' (r m) a s) :
    ISim M { M with target := fun v => (M.target v).map r } call call' args (· = ·) i (renInst r i) := by
  intro prev env env' s hR
  subst hR
  have : runInst M call args prev i env s =
      runInst { M with target := fun v => (M.target v).map r } call' args prev (renInst r i) env s := by
    cases i with
    | call k c sg as =>
      simp only [runInst, renInst]
      rw [evalPs_ren ha]
      congr 1
      cases c with
      | fn m => exact hc k m sg as rfl _ _
      | asm t c => rfl
      | ptr v =>
        simp only [renCallee, callAny, callValue]
        rw [evalP_ren ha]
        cases hv : M.target (evalP M args env v) with
        | none => rfl
        | some m => exact ht _ m hv _ _
    | op k c as => simp only [runInst, renInst]; rw [evalPs_ren ha]
    | phi k inc =>
      simp only [runInst, renInst]
      rw [List.find?_map]
      have he : ((fun x : Nat × PValue => decide (x.1 = prev)) ∘ fun x : Nat × PValue => (x.1, renVal r x.2)) =
          fun x : Nat × PValue => decide (x.1 = prev) := rfl
      rw [he]
      cases inc.find? (fun x => decide (x.1 = prev)) with
      | none => rfl
      | some x => simp only [Option.map_some]; rw [evalP_ren ha]
  rw [← this]
  exact orel_refl _

theorem termOut_ren {M : PMach V S} {r : Str → Str} {args : List V} {env : Nat → V} {tgt : V → Option Str}
    (ha : ∀ n, M.addr (r n) = M.addr n) (t : PTerm) :
    termOut { M with target := tgt } args env (renTerm r t) = termOut M args env t := by
  cases t with
  | ret v =>
    cases v with
    | none => rfl
    | some v => simp only [renTerm, termOut]; rw [evalP_ren ha]
  | br c x y => simp only [renTerm, termOut]; rw [evalP_ren ha]
  | _ => rfl

/-- The module `P'` has the functions of `P`, renamed. -/
theorem callFn_ren {M : PMach V S} {P P' : PMod} {r : Str → Str} (hP : ModOk P)
    (ha : ∀ n, M.addr (r n) = M.addr n) (ht : ∀ v m, M.target v = some m → m ∈ P.names)
    (hx : ∀ n ∈ P.names, M.ext (r n) = M.ext n)
    (hf : ∀ f ∈ P, ∃ g, P'.fn? (r f.name) = some g ∧ g.abs = f.abs ∧ g.blocks = f.blocks.map (renBlock r)) :
    ∀ fuel, ∀ n ∈ P.names, ∀ a s, callFn M P fuel n a s =
      callFn { M with target := fun v => (M.target v).map r } P' fuel (r n) a s := by
  intro fuel
  induction fuel with
  | zero => intros; rfl
  | succ fuel ih =>
    intro n hn a s
    rw [callFn_succ, callFn_succ]
    simp only [callBody]
    cases hfn : P.fn? n with
    | none => exact absurd hn (fn?_none_iff.1 hfn)
    | some f =>
      obtain ⟨hfP, rfl⟩ := fn?_mem hfn
      obtain ⟨g, hg, hab, hbl⟩ := hf f hfP
      rw [hg]
      simp only [hab, hbl]
      cases hfa : f.abs with
      | some x =>
        cases x with
        | asm t c => rfl
        | indirect =>
          simp only
          split
          · rename_i v hv
            simp only [callValue]
            cases htv : M.target v with
            | none => rfl
            | some m => exact ih m (ht v m htv) _ _
          · rfl
      | none =>
        simp only
        have hb : List.Forall₂ (BSim M { M with target := fun v => (M.target v).map r } (callFn M P fuel)
            (callFn { M with target := fun v => (M.target v).map r } P' fuel) a (· = ·) (· = ·)) f.blocks
            (f.blocks.map (renBlock r)) := by
          rw [List.forall₂_map_right_iff, List.forall₂_same]
          intro b hb
          refine ⟨?_, ?_⟩
          · simp only [renBlock]
            rw [List.forall₂_map_right_iff, List.forall₂_same]
            intro i hi
            refine isim_ren ha ?_ ?_
            · intro k m sg as he
              subst he
              exact ih m (hP.closed f hfP k m sg as (mem_insts hb hi))
            · intro v m hm
              exact ih m (ht v m hm)
          · intro env env' hR
            subst hR
            simp only [renBlock]
            rw [termOut_ren ha]
            exact trel_refl _
        cases hfb : f.blocks with
        | nil =>
          simp only [List.map_nil]
          rw [hx f.name hn]
        | cons b l =>
          rw [hfb] at hb
          exact orel_eq (runBlocks_sim hb fuel 0 0 _ _ s rfl)

/-! ### Stems -/

theorem stem_prefix (s : Str) : ∃ t, s = stem s ++ t := by
  simp only [stem]
  split
  · simp only [dropSuffix]
    split
    · exact ⟨[], by simp⟩
    · rename_i pre suf h
      simp only [splitLastDot] at h
      split at h
      · cases h
      · simp only [Option.some.injEq, Prod.mk.injEq] at h
        exact ⟨_, by rw [← h.1]; exact (List.take_append_drop _ s).symm⟩
  · exact ⟨[], by simp⟩

/-- Functions that may be merged. -/
def mergeable (n : Str) : Bool := !(isAbstraction n || startsWith n (str! "llvm."))

theorem mergeable_stem {n : Str} (h : mergeable n = true) : mergeable (stem n) = true := by
  obtain ⟨t, ht⟩ := stem_prefix n
  have key : ∀ p, startsWith (stem n) p = true → startsWith n p = true := by
    intro p hp
    simp only [startsWith, List.isPrefixOf_iff_prefix] at hp ⊢
    rw [ht]
    exact hp.trans (List.prefix_append _ _)
  simp only [mergeable, isAbstraction, Bool.not_eq_true', Bool.or_eq_false_iff] at h ⊢
  refine ⟨⟨?_, ?_⟩, ?_⟩ <;> rw [Bool.eq_false_iff] <;> intro hc <;> have := key _ hc
  · rw [h.1.1] at this; cases this
  · rw [h.1.2] at this; cases this
  · rw [h.2] at this; cases this

/-! ### Groups -/

/-- The members of the group `k`. -/
def groupOf (L : List Str) (k : Str) : List Str := L.filter fun n => stem n = k

theorem groups_get (L : List Str) (k : Str) :
    Dict.get? (L.foldl (fun (d : Dict Str (List Str)) n => d.set (stem n) ((d.get? (stem n)).getD [] ++ [n])) []) k =
      if groupOf L k = [] then none else some (groupOf L k) := by
  induction L using List.reverseRecOn with
  | nil => rfl
  | append_singleton L n ih =>
    rw [List.foldl_append, List.foldl_cons, List.foldl_nil, Dict.get?_set]
    have hg : groupOf (L ++ [n]) k = groupOf L k ++ if stem n = k then [n] else [] := by
      simp only [groupOf, List.filter_append, List.filter_cons, List.filter_nil, decide_eq_true_eq]
    by_cases hk : k = stem n
    · subst hk
      rw [hg, ih]
      simp only [if_true]
      split <;> rename_i he
      · simp [he]
      · simp
    · have hk' : ¬ stem n = k := fun h => hk h.symm
      rw [hg]
      simp only [hk, hk', if_false, List.append_nil]
      exact ih

theorem groups_nodup (L : List Str) :
    (Dict.keys (L.foldl (fun (d : Dict Str (List Str)) n => d.set (stem n) ((d.get? (stem n)).getD [] ++ [n])) [])).Nodup := by
  induction L using List.reverseRecOn with
  | nil => simp [Dict.keys]
  | append_singleton L n ih =>
    rw [List.foldl_append, List.foldl_cons, List.foldl_nil]
    exact Dict.nodup_keys_set ih _ _

theorem dict_values_get {α β : Type} [DecidableEq α] {d : Dict α β} (h : d.keys.Nodup) (g : α → β)
    (hg : ∀ k v, d.get? k = some v → v = g k) : d.values = d.keys.map g := by
  induction d with
  | nil => rfl
  | cons x d ih =>
    obtain ⟨k, v⟩ := x
    simp only [Dict.keys, List.map_cons, List.nodup_cons] at h
    simp only [Dict.values, Dict.keys, List.map_cons] at ih ⊢
    rw [hg k v (by simp [Dict.get?]), ih h.2]
    intro k' v' hk'
    apply hg
    simp only [Dict.get?]
    split
    · rename_i he
      subst he
      exfalso
      apply h.1
      clear ih hg h
      induction d with
      | nil => simp [Dict.get?] at hk'
      | cons y d ih =>
        simp only [Dict.get?] at hk'
        split at hk'
        · rename_i he; simp [he]
        · simp only [List.map_cons, List.mem_cons]; exact Or.inr (ih hk')
    · exact hk'

/-- The names that may be merged. -/
def mergeNames (P : PMod) : List Str := P.names.filter mergeable

theorem mergeGroups_values (P : PMod) :
    (mergeGroups P).values = (mergeGroups P).keys.map (groupOf (mergeNames P)) := by
  apply dict_values_get (groups_nodup _)
  intro k v h
  have h := h.symm.trans (groups_get (mergeNames P) k)
  split at h
  · cases h
  · exact Option.some.inj h

theorem mergeGroups_keys (P : PMod) (k : Str) : k ∈ (mergeGroups P).keys ↔ ∃ n ∈ mergeNames P, stem n = k := by
  have := groups_get (mergeNames P) k
  have hk : k ∈ (mergeGroups P).keys ↔ (Dict.get? (mergeGroups P) k).isSome = true := by
    generalize mergeGroups P = d
    induction d with
    | nil => simp [Dict.keys, Dict.get?]
    | cons x d ih =>
      simp only [Dict.keys, List.map_cons, List.mem_cons, Dict.get?] at ih ⊢
      by_cases hx : x.1 = k
      · simp [hx]
      · have : ¬ k = x.1 := fun h => hx h.symm
        simp only [this, false_or, hx, if_false]
        exact ih
  rw [hk]
  simp only [mergeGroups]
  rw [show (P.names.filter fun n => !(isAbstraction n || startsWith n (str! "llvm."))) = mergeNames P from rfl, this]
  split
  · rename_i h
    simp only [Option.isSome_none, Bool.false_eq_true, false_iff, not_exists, not_and]
    intro n hn he
    have : n ∈ groupOf (mergeNames P) k := List.mem_filter.2 ⟨hn, by simpa using he⟩
    rw [h] at this
    cases this
  · rename_i h
    simp only [Option.isSome_some, true_iff]
    obtain ⟨n, hn⟩ := List.exists_mem_of_ne_nil _ h
    obtain ⟨h1, h2⟩ := List.mem_filter.1 hn
    exact ⟨n, h1, by simpa using h2⟩

end DK
