import Verif.Spec.SrcTypes

/-! C188: the type of an expression in C source is that of the variable that is visible there. -/

set_option autoImplicit false

namespace DK
open Spec

private theorem key_inj {f g x y : Str} (hf : ':' ∉ f) (hg : ':' ∉ g) (h : localKey f x = localKey g y) : f = g ∧ x = y := by
  unfold localKey at h
  induction f generalizing g with
  | nil =>
    cases g with
    | nil => simpa using h
    | cons c g =>
      simp only [List.nil_append, List.cons_append, List.cons.injEq] at h
      exact absurd (h.1 ▸ List.mem_cons_self) hg
  | cons c f ih =>
    cases g with
    | nil =>
      simp only [List.nil_append, List.cons_append, List.cons.injEq] at h
      exact absurd (h.1.symm ▸ List.mem_cons_self) hf
    | cons d g =>
      simp only [List.cons_append, List.cons.injEq] at h
      rw [List.mem_cons, not_or] at hf hg
      obtain ⟨rfl, rfl⟩ := ih hf.2 hg.2 h.2
      exact ⟨by rw [h.1], rfl⟩

private theorem collectVars_spec (n : Str) (vars : List (Str × DITy)) (m : LocalMap) (k : Str) :
    (∃ v ∈ vars, k = localKey n v.1 ∧
      vars.foldl (fun m v k => if k = localKey n v.1 then some v.2 else m k) m k = some v.2) ∨
    ((∀ v ∈ vars, k ≠ localKey n v.1) ∧
      vars.foldl (fun m v k => if k = localKey n v.1 then some v.2 else m k) m k = m k) := by
  induction vars generalizing m with
  | nil => exact .inr ⟨by simp, rfl⟩
  | cons v vars ih =>
    rw [List.foldl_cons]
    rcases ih (fun k => if k = localKey n v.1 then some v.2 else m k) with ⟨w, hw, h1, h2⟩ | ⟨h1, h2⟩
    · exact .inl ⟨w, List.mem_cons_of_mem _ hw, h1, h2⟩
    · by_cases hk : k = localKey n v.1
      · exact .inl ⟨v, List.mem_cons_self, hk, by rw [h2, if_pos hk]⟩
      · refine .inr ⟨?_, by rw [h2, if_neg hk]⟩
        intro w hw
        rcases List.mem_cons.1 hw with rfl | hw
        · exact hk
        · exact h1 w hw

private theorem collect_other (fns : List DbgFun) (m : LocalMap) (k : Str)
    (h : ∀ f ∈ fns, ∀ v ∈ f.vars, k ≠ localKey f.name v.1) : fns.foldl (fun m f => collectFun f m) m k = m k := by
  induction fns generalizing m with
  | nil => rfl
  | cons f fns ih =>
    rw [List.foldl_cons, ih _ fun g hg => h g (List.mem_cons_of_mem _ hg)]
    rcases collectVars_spec f.name f.vars m k with ⟨v, hv, hk, -⟩ | ⟨-, h2⟩
    · exact absurd hk (h f List.mem_cons_self v hv)
    · exact h2

private theorem collect_fun (fns : List DbgFun) (m : LocalMap) (f : DbgFun) (hf : f ∈ fns) (hn : NamedFuns fns) (x : Str)
    (hx : ∃ t, (x, t) ∈ f.vars) : ∃ t, (x, t) ∈ f.vars ∧ fns.foldl (fun m f => collectFun f m) m (localKey f.name x) = some t := by
  induction fns generalizing m with
  | nil => cases hf
  | cons g fns ih =>
    obtain ⟨hd, hc⟩ := hn
    rw [List.map_cons, List.nodup_cons] at hd
    rw [List.foldl_cons]
    by_cases hfg : f ∈ fns
    · exact ih _ hfg ⟨hd.2, fun a ha => hc a (List.mem_cons_of_mem _ ha)⟩
    · have hfe : f = g := (List.mem_cons.1 hf).resolve_right hfg
      subst hfe
      rw [collect_other]
      · rcases collectVars_spec f.name f.vars m (localKey f.name x) with ⟨v, hv, hk, h2⟩ | ⟨h1, -⟩
        · have := (key_inj (hc f List.mem_cons_self) (hc f List.mem_cons_self) hk).2
          exact ⟨v.2, by rw [this]; exact hv, h2⟩
        · obtain ⟨t, ht⟩ := hx
          exact absurd rfl (h1 _ ht)
      · intro a ha v hv hk
        have := (key_inj (hc f List.mem_cons_self) (hc a (List.mem_cons_of_mem _ ha)) hk).1
        exact hd.1 (this ▸ List.mem_map_of_mem ha)

/-- **C188** The type that is found for an expression in a function is its type in C at that place. -/
def C188_statement : Prop :=
  ∀ (fns : List DbgFun) (globals : Str → Option DITy) (f : DbgFun) (blocks : List (List (Str × DITy))) (e : Str) (t u : DITy),
    NamedFuns fns → f ∈ fns → BlocksOf f blocks → CTypeOf globals blocks e t →
    sourceType (varsIn globals (collectLocals fns) f.name) e = some u → u = t

namespace SrcTyEx
def intT : DITy := .basic (str! "int") 4
def structT : DITy := .composite (str! "s") 24
/-- A function with a parameter `p` and a variable `p` of another type in an inner block. -/
def hides : DbgFun := ⟨str! "f", [(str! "p", .ptr structT), (str! "p", .ptr intT)]⟩
/-- A function with a parameter of a type whose name stands for a pointer. -/
def named : DbgFun := ⟨str! "g", [(str! "p", .typedef (str! "sp") (.ptr structT))]⟩
def noGlobals : Str → Option DITy := fun _ => none
end SrcTyEx

/-- **C188 fails**: `sizeof(*p)` before a block that declares another `p`. The later declaration replaces the earlier one. -/
theorem C188_fails : ¬ C188_statement := by
  intro h
  have := h [SrcTyEx.hides] SrcTyEx.noGlobals SrcTyEx.hides [[(str! "p", .ptr SrcTyEx.structT)]] (str! "*p") SrcTyEx.structT
    SrcTyEx.intT ⟨by decide, by decide⟩ List.mem_cons_self ⟨by decide, by decide⟩
    (.deref (.ident (by decide) (.here List.mem_cons_self)) (.ptr _)) rfl
  revert this
  decide

/-- **C188 fails** also if no variable hides another one: a type whose name stands for a pointer is taken for the pointer
itself, so that `sizeof(*p)` gets the type of `p` behind its name. -/
theorem C188_fails_named : ∃ (fns : List DbgFun) (globals : Str → Option DITy) (f : DbgFun)
    (blocks : List (List (Str × DITy))) (e : Str) (t u : DITy), NamedFuns fns ∧ f ∈ fns ∧ BlocksOf f blocks ∧
      NothingHidden globals f ∧ CTypeOf globals blocks e t ∧
      sourceType (varsIn globals (collectLocals fns) f.name) e = some u ∧ u ≠ t := by
  refine ⟨[SrcTyEx.named], SrcTyEx.noGlobals, SrcTyEx.named, [SrcTyEx.named.vars], str! "*p", SrcTyEx.structT,
    .ptr SrcTyEx.structT, ⟨by decide, by decide⟩, List.mem_cons_self, ⟨by decide, by decide⟩, ⟨?_, fun _ _ _ => rfl⟩,
    .deref (.ident (by decide) (.here List.mem_cons_self)) (.name (.ptr _)), rfl, by decide⟩
  intro x t u ht hu
  simp only [SrcTyEx.named, List.mem_singleton, Prod.mk.injEq] at ht hu
  rw [ht.2, hu.2]

/-- **C188 fails** also for a global variable that a parameter hides. -/
theorem C188_fails_global : ∃ (fns : List DbgFun) (globals : Str → Option DITy) (f : DbgFun)
    (blocks : List (List (Str × DITy))) (e : Str) (t u : DITy), NamedFuns fns ∧ f ∈ fns ∧ BlocksOf f blocks ∧
      (f.vars.map Prod.fst).Nodup ∧ (∀ v ∈ f.vars, noNamedPointer v.2 = true) ∧ CTypeOf globals blocks e t ∧
      sourceType (varsIn globals (collectLocals fns) f.name) e = some u ∧ u ≠ t :=
  ⟨[⟨str! "f", [(str! "x", SrcTyEx.structT)]⟩], fun _ => some SrcTyEx.intT, _, [[(str! "x", SrcTyEx.structT)]], str! "x",
    SrcTyEx.structT, SrcTyEx.intT, ⟨by decide, by decide⟩, List.mem_cons_self, ⟨by decide, by decide⟩, by decide, by decide,
    .ident (by decide) (.here List.mem_cons_self), rfl, by decide⟩

private theorem pointsTo_plain {t u : DITy} (h : PointsTo t u) (hn : noNamedPointer t = true) : t = .ptr u := by
  induction h with
  | ptr t => rfl
  | @name n b t hb ih =>
    cases b with
    | ptr c => cases hn
    | basic _ _ => cases hb
    | composite _ _ => cases hb
    | typedef m c =>
      have := ih hn
      cases this

private theorem visible_found {globals : Str → Option DITy} {fns : List DbgFun} {f : DbgFun} {x : Str}
    {blocks : List (List (Str × DITy))} {t : DITy} (hn : NamedFuns fns) (hf : f ∈ fns) (hh : NothingHidden globals f)
    (hb : ∀ b ∈ blocks, ∀ v ∈ b, v ∈ f.vars) (hv : Visible globals x blocks t) :
    varsIn globals (collectLocals fns) f.name x = some t ∧ ((x, t) ∈ f.vars ∨ globals x = some t) := by
  induction hv with
  | glob h => exact ⟨by simp only [varsIn, h], .inr h⟩
  | here h =>
    have hm := hb _ List.mem_cons_self _ h
    obtain ⟨u, hu, hc⟩ := collect_fun fns (fun _ => none) f hf hn x ⟨_, hm⟩
    refine ⟨?_, .inl hm⟩
    simp only [varsIn, hh.2 _ _ hm]
    rw [hh.1 x _ _ hm hu]
    exact hc
  | outer _ _ ih => exact ih fun b h => hb b (List.mem_cons_of_mem _ h)

/-- **C188 (partial)** If no variable of the function hides another one and no name stands for a pointer type: the type
that is found is the type of the expression in C, for every expression of an identifier with operators `*` and `&`, and
every order in which the functions are visited. Missing: see `C188_fails`, `C188_fails_named` and `C188_fails_global`. -/
theorem C188_type_partial (fns : List DbgFun) (globals : Str → Option DITy) (f : DbgFun) (blocks : List (List (Str × DITy)))
    (e : Str) (t : DITy) (hn : NamedFuns fns) (hf : f ∈ fns) (hb : BlocksOf f blocks) (hh : NothingHidden globals f)
    (hp : ∀ v ∈ f.vars, noNamedPointer v.2 = true) (hg : ∀ x u, globals x = some u → noNamedPointer u = true)
    (ht : CTypeOf globals blocks e t) : sourceType (varsIn globals (collectLocals fns) f.name) e = some t := by
  suffices h : sourceType (varsIn globals (collectLocals fns) f.name) e = some t ∧ noNamedPointer t = true from h.1
  induction ht with
  | @ident x t hx hv =>
    obtain ⟨h1, h2⟩ := visible_found hn hf hh hb.1 hv
    refine ⟨?_, ?_⟩
    · cases x with
      | nil => exact h1
      | cons c cs =>
        have hc := hx c List.mem_cons_self
        have c1 : c ≠ '*' := by rintro rfl; revert hc; decide
        have c2 : c ≠ '&' := by rintro rfl; revert hc; decide
        rw [sourceType, if_neg c1, if_neg c2, if_pos (List.all_eq_true.2 hx)]
        exact h1
    · rcases h2 with h2 | h2
      · exact hp _ h2
      · exact hg _ _ h2
  | addr _ ih =>
    refine ⟨?_, ih.2⟩
    rw [sourceType, if_neg (by decide), if_pos rfl, ih.1]
    rfl
  | deref _ hpt ih =>
    have := pointsTo_plain hpt ih.2
    subst this
    refine ⟨?_, ih.2⟩
    rw [sourceType, if_pos rfl, ih.1]

/-- The variable of an outer block and a global variable, in a module with another function with a variable `p`. -/
example : ∃ (f g : DbgFun) (globals : Str → Option DITy), NamedFuns [f, g] ∧ BlocksOf f [[(str! "i", SrcTyEx.intT)], f.vars] ∧
    NothingHidden globals f ∧ (∀ v ∈ f.vars, noNamedPointer v.2 = true) ∧ (∀ x u, globals x = some u → noNamedPointer u = true) ∧
    CTypeOf globals [[(str! "i", SrcTyEx.intT)], f.vars] (str! "*p") SrcTyEx.structT ∧ f ∈ [f, g] ∧
    CTypeOf globals [[(str! "i", SrcTyEx.intT)], f.vars] (str! "*&y") SrcTyEx.structT := by
  refine ⟨⟨str! "f", [(str! "p", .ptr SrcTyEx.structT), (str! "i", SrcTyEx.intT)]⟩, ⟨str! "g", [(str! "p", SrcTyEx.intT)]⟩,
    fun x => if x = str! "y" then some SrcTyEx.structT else none, ⟨by decide, by decide⟩, ⟨by decide, by decide⟩, ⟨?_, ?_⟩,
    by decide, ?_, .deref (.ident (by decide) (.outer (fun u => by simp) (.here List.mem_cons_self))) (.ptr _),
    List.mem_cons_self, .deref (.addr (.ident (by decide) (.outer (fun u => by simp) (.outer (fun u => by simp) (.glob rfl))))) (.ptr _)⟩
  · intro x t u ht hu
    simp only [List.mem_cons, Prod.mk.injEq, List.not_mem_nil, or_false] at ht hu
    rcases ht with ht | ht <;> rcases hu with hu | hu <;> simp_all
  · intro x t ht
    simp only [List.mem_cons, Prod.mk.injEq, List.not_mem_nil, or_false] at ht
    rcases ht with ⟨rfl, -⟩ | ⟨rfl, -⟩ <;> decide
  · intro x u h
    dsimp only at h
    split at h
    · cases h; rfl
    · cases h

end DK
