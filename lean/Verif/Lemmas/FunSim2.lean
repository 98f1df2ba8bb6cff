import Verif.Lemmas.FunSim

/-! The blocks that the comparison pairs, and lockstep execution of the two functions (for C43). -/

set_option autoImplicit false

namespace DK
open Spec

theorem pushSuccs_spec : ∀ {as bs : List Nat} {work : List (Nat × Nat)} {visited : List Nat},
    as.length = bs.length →
    (∀ w ∈ work, w ∈ (pushSuccs as bs work visited).1) ∧
    (∀ a ∈ as, a ∈ (pushSuccs as bs work visited).2) ∧
    (∀ x ∈ visited, x ∈ (pushSuccs as bs work visited).2) ∧
    (∀ x ∈ (pushSuccs as bs work visited).2, x ∈ visited ∨
      ∃ y, (x, y) ∈ (pushSuccs as bs work visited).1)
  | [], [], work, visited, _ => by
    simp only [pushSuccs]
    exact ⟨fun _ h => h, by simp, fun _ h => h, fun _ h => .inl h⟩
  | a :: as, b :: bs, work, visited, h => by
    rw [pushSuccs]
    split
    · rename_i hv
      obtain ⟨h1, h2, h3, h4⟩ := pushSuccs_spec (as := as) (bs := bs) (work := work)
        (visited := visited) (by simpa using h)
      refine ⟨h1, ?_, h3, h4⟩
      intro x hx
      rcases List.mem_cons.1 hx with rfl | hx
      · exact h3 _ hv
      · exact h2 x hx
    · obtain ⟨h1, h2, h3, h4⟩ := pushSuccs_spec (as := as) (bs := bs) (work := (a, b) :: work)
        (visited := a :: visited) (by simpa using h)
      refine ⟨fun w hw => h1 w (by simp [hw]), ?_, fun x hx => h3 x (by simp [hx]), ?_⟩
      · intro x hx
        rcases List.mem_cons.1 hx with rfl | hx
        · exact h3 _ (by simp)
        · exact h2 x hx
      · intro x hx
        rcases h4 x hx with hx | hx
        · rcases List.mem_cons.1 hx with rfl | hx
          · exact .inr ⟨b, h1 _ (by simp)⟩
          · exact .inl hx
        · exact .inr hx

theorem constOps_blocks : ∀ {ops : List (Opnd × Ty)} {cs : List Const}, constOps ops = some cs →
    blockOps ops = []
  | [], _, _ => rfl
  | (.const c, t) :: os, cs, h => by
    rw [constOps] at h
    cases ho : constOps os with
    | none => simp [ho] at h
    | some ds =>
      have := constOps_blocks ho
      unfold blockOps at *
      simpa using this
  | (.ref _, _) :: _, _, h => by simp [constOps] at h
  | (.asm _, _) :: _, _, h => by simp [constOps] at h
  | (.self, _) :: _, _, h => by simp [constOps] at h

theorem blockOps_rel {p : Nat} {st : CmpSt} : ∀ {l r : List (Opnd × Ty)}, OpsRel p st l r →
    List.Forall₂ (fun a b => Rel st (.blk a) (.blk b)) (blockOps l) (blockOps r)
  | _, _, .nil => .nil
  | a :: as, b :: bs, .cons h hs => by
    have ih := blockOps_rel hs
    obtain ⟨a, ta⟩ := a
    obtain ⟨b, tb⟩ := b
    unfold blockOps at *
    cases a with
    | const c => cases b with
      | const d => simpa using ih
      | _ => exact h.elim
    | asm c => cases b with
      | asm d => simpa using ih
      | _ => exact h.elim
    | self => cases b with
      | self => simpa using ih
      | _ => exact h.elim
    | ref k => cases b with
      | ref k' =>
        cases k with
        | val v => cases k' with
          | val w => simpa using ih
          | blk _ => exact h.elim
        | blk v => cases k' with
          | val w => exact h.elim
          | blk w => simpa using ⟨h, ih⟩
      | _ => cases k <;> exact h.elim

theorem forall₂_reverse' {α β : Type} {R : α → β → Prop} {l : List α} {r : List β}
    (h : List.Forall₂ R l r) : List.Forall₂ R l.reverse r.reverse := List.forall₂_reverse_iff.2 h

theorem succs_rel {lay : Layout} {st : CmpSt} {i j : Inst} (h : InstRel lay st i j) :
    List.Forall₂ (fun a b => Rel st (.blk a) (.blk b)) i.succs j.succs := by
  have hb : List.Forall₂ (fun a b => Rel st (.blk a) (.blk b)) (blockOps i.ops) (blockOps j.ops) := by
    rcases h.body with ⟨_, h2, _⟩ | ⟨src, src', o, o', os, os', _, _, h3, h4, h5, h6⟩
    · exact blockOps_rel h2
    · rcases h6 with ⟨k, h6, h7⟩ | ⟨_, h7⟩
      · rw [h3] at h6 ⊢
        rw [h4] at h7 ⊢
        have e1 : blockOps os = [] := by
          cases hc : constOps os with
          | none => simp [gepOffset, hc] at h6
          | some cs => exact constOps_blocks hc
        have e2 : blockOps os' = [] := by
          cases hc : constOps os' with
          | none => simp [gepOffset, hc] at h7
          | some cs => exact constOps_blocks hc
        have : OpsRel lay.ptrBits st [o] [o'] := .cons h5 .nil
        have := blockOps_rel this
        have a1 : blockOps (o :: os) = blockOps [o] ++ blockOps os := by
          unfold blockOps; rw [← List.filterMap_append]; rfl
        have a2 : blockOps (o' :: os') = blockOps [o'] ++ blockOps os' := by
          unfold blockOps; rw [← List.filterMap_append]; rfl
        rw [a1, a2, e1, e2, List.append_nil, List.append_nil]
        exact this
      · rw [h3, h4]
        exact blockOps_rel (.cons h5 h7)
  unfold Inst.succs
  rw [h.opcode]
  split
  · exact forall₂_reverse' hb
  · exact hb

/-- Two blocks that do the same. -/
def BlockRel (lay : Layout) (f g : Fn) (st : CmpSt) (d : Nat × Nat) : Prop :=
  Rel st (.blk d.1) (.blk d.2) ∧ ∃ B B', f.find d.1 = some B ∧ g.find d.2 = some B' ∧
    List.Forall₂ (InstRel lay st) B.code B'.code

theorem forall₂_snoc {α β : Type} {R : α → β → Prop} {l : List α} {r : List β} {a : α} {b : β}
    (h : List.Forall₂ R (l ++ [a]) (r ++ [b])) : List.Forall₂ R l r ∧ R a b := by
  have h' := forall₂_reverse' h
  rw [List.reverse_append, List.reverse_append] at h'
  cases h' with
  | cons h1 h2 => exact ⟨by simpa using forall₂_reverse' h2, h1⟩

theorem cmpLoop_zero {lay : Layout} {f g : Fn} (hn : FnNoExpr f) : ∀ (n : Nat)
    (work : List (Nat × Nat)) (visited : List Nat) (st s : CmpSt), Good st →
    cmpLoop lay f g n work visited st = some (0, s) →
    Good s ∧ Ext st s ∧ ∃ D : List (Nat × Nat), (∀ w ∈ work, w ∈ D) ∧
      (∀ d ∈ D, BlockRel lay f g s d) ∧
      (∀ d ∈ D, ∀ B, f.find d.1 = some B → ∀ t ∈ B.term.succs, t ∈ visited ∨ ∃ t', (t, t') ∈ D)
  | n, [], visited, st, s, gd, h => by
    have : st = s := by cases n <;> simpa [cmpLoop] using h
    subst this
    exact ⟨gd, Ext.refl _, [], by simp, by simp, by simp⟩
  | 0, w :: work, visited, st, s, _, h => by simp [cmpLoop] at h
  | n + 1, (b, b') :: work, visited, st, s, gd, h => by
    rw [cmpLoop] at h
    cases hB : f.find b with
    | none => simp [hB] at h
    | some B =>
      cases hB' : g.find b' with
      | none => simp [hB, hB'] at h
      | some B' =>
        simp only [hB, hB'] at h
        split at h
        · rename_i hz
          obtain ⟨h1, h2, he⟩ := andThen_zero hz
          rw [he] at h
          obtain ⟨g1, e1, r1⟩ := cmpKeys_zero gd h1
          have hBn : ∀ i ∈ B.code, InstNoExpr i := by
            intro i hi o ho c hc
            exact hn B (List.mem_of_find?_eq_some hB) i hi o ho c hc
          obtain ⟨g2, e2, r2⟩ := cmpCode_zero g1 hBn h2
          obtain ⟨g3, e3, D, hw, hD, hs⟩ := cmpLoop_zero hn n _ _ _ s g2 h
          have r3 : List.Forall₂ (InstRel lay s) B.code B'.code :=
            List.Forall₂.imp (fun _ _ => InstRel.mono e3) r2
          have hterm : InstRel lay s B.term B'.term := (forall₂_snoc r3).2
          have hlen : B.term.succs.length = B'.term.succs.length := (succs_rel hterm).length_eq
          obtain ⟨p1, p2, p3, p4⟩ := pushSuccs_spec (work := work) (visited := visited) hlen
          refine ⟨g3, (e1.trans e2).trans e3, (b, b') :: D, ?_, ?_, ?_⟩
          · intro w hw'
            rcases List.mem_cons.1 hw' with rfl | hw'
            · simp
            · exact List.mem_cons_of_mem _ (hw w (p1 w hw'))
          · intro d hd
            rcases List.mem_cons.1 hd with rfl | hd
            · exact ⟨Rel.mono (e2.trans e3) r1, B, B', hB, hB', r3⟩
            · exact hD d hd
          · have hv : ∀ t ∈ (pushSuccs B.term.succs B'.term.succs work visited).2,
                t ∈ visited ∨ ∃ t', (t, t') ∈ (b, b') :: D := by
              intro t ht
              rcases p4 t ht with ht | ⟨t', ht⟩
              · exact .inl ht
              · exact .inr ⟨t', List.mem_cons_of_mem _ (hw _ ht)⟩
            intro d hd C hC t ht
            rcases List.mem_cons.1 hd with rfl | hd
            · simp only at hC
              rw [hB] at hC; cases hC
              exact hv t (p2 t ht)
            · rcases hs d hd C hC t ht with h' | ⟨t', ht'⟩
              · exact hv t h'
              · exact .inr ⟨t', List.mem_cons_of_mem _ ht'⟩
        · rename_i hz
          obtain h := Option.some.inj h
          rw [h] at hz
          exact absurd rfl hz

/-- What a successful comparison establishes. -/
structure Matched (lay : Layout) (f g : Fn) (st : CmpSt) (D : List (Nat × Nat)) : Prop where
  good : Good st
  args : List.Forall₂ (fun a b => Rel st (.val a.1) (.val b.1)) f.args g.args
  entry : (f.entry.id, g.entry.id) ∈ D
  block : ∀ d ∈ D, BlockRel lay f g st d
  closed : ∀ d ∈ D, ∀ B, f.find d.1 = some B → ∀ t ∈ B.term.succs, ∃ t', (t, t') ∈ D

theorem compareFns_matched {lay : Layout} {f g : Fn} (hn : FnNoExpr f)
    (h : compareFns lay f g = some 0) : ∃ st D, Matched lay f g st D := by
  unfold compareFns at h
  simp only at h
  split at h
  · rename_i hz
    cases hl : cmpLoop lay f g (f.blocks.length + 1) [(f.entry.id, g.entry.id)] [f.entry.id]
        (cmpSignature lay f g ⟨[], []⟩).2 with
    | none => simp [hl] at h
    | some x =>
      obtain ⟨x1, s⟩ := x
      rw [hl] at h
      simp at h
      subst h
      unfold cmpSignature at hz hl
      obtain ⟨h1, h2, he⟩ := andThen_zero hz
      rw [he] at hl
      simp only [thenCmp_eq, cmpTypes_eq] at h1
      have hlen : f.args.length = g.args.length := by
        have := h1.2.2.2.2.2
        rw [Fn.ty, Fn.ty, normTy, normTy, Ty.func.injEq] at this
        have := congrArg List.length this.2.1
        simpa [normTys_length] using this
      have g0 : Good ⟨[], []⟩ := ⟨by simp, by simp, rfl⟩
      obtain ⟨g1, e1, r1⟩ := cmpArgs_zero g0 hlen h2
      obtain ⟨g2, e2, D, hw, hD, hs⟩ := cmpLoop_zero hn _ _ _ _ s g1 hl
      refine ⟨s, D, g2, List.Forall₂.imp (fun _ _ => Rel.mono e2) r1, hw _ (by simp), hD, ?_⟩
      intro d hd B hB t ht
      rcases hs d hd B hB t ht with h' | h'
      · simp at h'
        subst h'
        exact ⟨g.entry.id, hw _ (by simp)⟩
      · exact h'
  · rename_i hz
    exact absurd (Option.some.inj h) hz

/-! ### Execution -/

/-- Values of related names are equal. -/
def EnvRel {V : Type} (st : CmpSt) (env env' : Nat → Option V) : Prop :=
  ∀ v w, Rel st (.val v) (.val w) → env v = env' w

theorem EnvRel.set {V : Type} {st : CmpSt} (g : Good st) {env env' : Nat → Option V}
    (h : EnvRel st env env') {a b : Nat} (hab : Rel st (.val a) (.val b)) (x : Option V) :
    EnvRel st (setVal env a x) (setVal env' b x) := by
  intro v w hvw
  unfold setVal
  by_cases hv : v = a
  · subst hv
    have := Rel.right_unique g hvw hab
    cases this
    simp
  · have hw : w ≠ b := by
      rintro rfl
      have := Rel.left_unique g hvw hab
      cases this
      exact hv rfl
    rw [if_neg hv, if_neg hw]
    exact h v w hvw

theorem EnvRel.setResult {V : Type} {st : CmpSt} (g : Good st) {env env' : Nat → Option V}
    (h : EnvRel st env env') {a b : Nat} (hab : Rel st (.val a) (.val b)) (x : Option V) :
    EnvRel st (setResult env a x) (setResult env' b x) := by
  cases x with
  | none => exact h
  | some v => exact EnvRel.set g h hab _

section
variable {M : Machine} {lay : Layout} {st : CmpSt}

theorem evalOpnd_rel {env env' : Nat → Option M.Val} (he : EnvRel st env env') {o o' : Opnd}
    (h : OpndRel lay.ptrBits st o o') :
    evalOpnd M lay.ptrBits env o = evalOpnd M lay.ptrBits env' o' := by
  cases o with
  | const c => cases o' with
    | const d => simp only [evalOpnd]; rw [show normConst _ c = normConst _ d from h]
    | _ => exact h.elim
  | asm c => cases o' with
    | asm d => simp only [evalOpnd]; rw [show normAsm _ c = normAsm _ d from h]
    | _ => exact h.elim
  | self => cases o' with
    | self => rfl
    | _ => exact h.elim
  | ref k => cases o' with
    | ref k' =>
      cases k with
      | val v => cases k' with
        | val w => exact he v w h
        | blk _ => exact h.elim
      | blk v => cases k' with
        | val w => exact h.elim
        | blk w => rfl
    | _ => cases k <;> exact h.elim

theorem evalOps_cons {p : Nat} {env : Nat → Option M.Val} {o : Opnd} {t : Ty} {os : List (Opnd × Ty)}
    (h : ∀ b, o ≠ .ref (.blk b)) : evalOps M p env ((o, t) :: os) =
      match evalOpnd M p env o, evalOps M p env os with
      | some v, some vs => some (v :: vs)
      | _, _ => none := by
  cases o with
  | ref k => cases k with
    | val v => rfl
    | blk b => exact absurd rfl (h b)
  | _ => rfl

theorem evalOps_rel {env env' : Nat → Option M.Val} (he : EnvRel st env env') :
    ∀ {l r : List (Opnd × Ty)}, OpsRel lay.ptrBits st l r →
      evalOps M lay.ptrBits env l = evalOps M lay.ptrBits env' r
  | _, _, .nil => rfl
  | (a, ta) :: as, (b, tb) :: bs, .cons h hs => by
    have ih := evalOps_rel he hs
    by_cases ha : ∃ x, a = .ref (.blk x)
    · obtain ⟨x, rfl⟩ := ha
      cases b with
      | ref k => cases k with
        | val v => exact h.elim
        | blk y => exact ih
      | _ => exact h.elim
    · have hb : ∀ y, b ≠ .ref (.blk y) := by
        rintro y rfl
        cases a with
        | ref k => cases k with
          | val v => exact h.elim
          | blk x => exact ha ⟨x, rfl⟩
        | _ => exact h.elim
      rw [evalOps_cons (fun x hx => ha ⟨x, hx⟩), evalOps_cons hb, evalOpnd_rel he h, ih]

theorem isPhi_rel {i j : Inst} (h : InstRel lay st i j) : isPhi i = isPhi j := by
  unfold isPhi
  rcases h.body with ⟨_, _, h3⟩ | ⟨src, src', o, o', os, os', h1, h2, _⟩
  · have := h3.1
    cases hi : i.special <;> cases hj : j.special <;> simp_all [normSpecial]
  · rw [h1, h2]

theorem incoming_rel {p : Nat} {b b' : Nat} (g : Good st) (hb : Rel st (.blk b) (.blk b')) :
    ∀ {bs bs' : List Nat} {l r : List (Opnd × Ty)},
      List.Forall₂ (fun a b => Rel st (.blk a) (.blk b)) bs bs' → OpsRel p st l r →
      (incoming b bs l = none ∧ incoming b' bs' r = none) ∨
        ∃ o o', incoming b bs l = some o ∧ incoming b' bs' r = some o' ∧ OpndRel p st o o'
  | _, _, _, _, .nil, _ => .inl ⟨by simp [incoming], by simp [incoming]⟩
  | _, _, _, _, .cons _ _, .nil => .inl ⟨by simp [incoming], by simp [incoming]⟩
  | a :: as, a' :: as', o :: os, o' :: os', .cons h1 h2, .cons h3 h4 => by
    simp only [incoming]
    by_cases ha : a = b
    · subst ha
      have := Rel.right_unique g h1 hb
      cases this
      simp only [if_true]
      exact .inr ⟨_, _, rfl, rfl, h3⟩
    · have ha' : a' ≠ b' := by
        rintro rfl
        have := Rel.left_unique g h1 hb
        cases this
        exact ha rfl
      rw [if_neg ha, if_neg ha']
      exact incoming_rel g hb h2 h4

theorem phiValue_rel {env env' : Nat → Option M.Val} (g : Good st) (he : EnvRel st env env')
    {b b' : Nat} (hb : Rel st (.blk b) (.blk b')) {i j : Inst} (h : InstRel lay st i j) :
    phiValue M lay.ptrBits env b i = phiValue M lay.ptrBits env' b' j := by
  unfold phiValue
  rcases h.body with ⟨_, h2, h3⟩ | ⟨src, src', o, o', os, os', h1, h2, _⟩
  · have hn := h3.1
    cases hi : i.special <;> cases hj : j.special <;> simp_all [normSpecial]
    rename_i bs bs'
    have := h3.2 bs bs' rfl rfl
    rcases incoming_rel (p := lay.ptrBits) g hb this h2 with ⟨h4, h5⟩ | ⟨o, o', h4, h5, h6⟩
    · rw [h4, h5]; rfl
    · rw [h4, h5]; exact evalOpnd_rel he h6
  · rw [h1, h2]

theorem enterPhis_rel {old old' : Nat → Option M.Val} (g : Good st) (ho : EnvRel st old old')
    {pred pred' : Option Nat} (hp : (pred = none ∧ pred' = none) ∨
      ∃ b b', pred = some b ∧ pred' = some b' ∧ Rel st (.blk b) (.blk b')) :
    ∀ {l r : List Inst} {env env' : Nat → Option M.Val}, List.Forall₂ (InstRel lay st) l r →
      EnvRel st env env' →
      (enterPhis M lay.ptrBits old pred l env = none ∧
        enterPhis M lay.ptrBits old' pred' r env' = none) ∨
      ∃ e e', enterPhis M lay.ptrBits old pred l env = some e ∧
        enterPhis M lay.ptrBits old' pred' r env' = some e' ∧ EnvRel st e e'
  | _, _, env, env', .nil, he => .inr ⟨env, env', rfl, rfl, he⟩
  | i :: is, j :: js, env, env', .cons h hs, he => by
    have hv : pred.bind (fun b => phiValue M lay.ptrBits old b i) =
        pred'.bind (fun b => phiValue M lay.ptrBits old' b j) := by
      rcases hp with ⟨h1, h2⟩ | ⟨b, b', h1, h2, h3⟩
      · rw [h1, h2]; rfl
      · rw [h1, h2]; exact phiValue_rel g ho h3 h
    rw [enterPhis, enterPhis, hv]
    cases pred'.bind (fun b => phiValue M lay.ptrBits old' b j) with
    | none => exact .inl ⟨rfl, rfl⟩
    | some v => exact enterPhis_rel g ho hp hs (EnvRel.set g he h.id _)

theorem takeWhile_rel : ∀ {l r : List Inst}, List.Forall₂ (InstRel lay st) l r →
    List.Forall₂ (InstRel lay st) (l.takeWhile isPhi) (r.takeWhile isPhi) ∧
    List.Forall₂ (InstRel lay st) (l.dropWhile isPhi) (r.dropWhile isPhi)
  | _, _, .nil => ⟨.nil, .nil⟩
  | i :: is, j :: js, .cons h hs => by
    obtain ⟨h1, h2⟩ := takeWhile_rel hs
    rw [List.takeWhile_cons, List.takeWhile_cons, List.dropWhile_cons, List.dropWhile_cons,
      isPhi_rel h]
    cases isPhi j with
    | true => exact ⟨.cons h h1, h2⟩
    | false => exact ⟨.nil, .cons h hs⟩

/-- Activations that do the same. -/
structure FrameRel (lay : Layout) (st : CmpSt) (D : List (Nat × Nat)) {V : Type} (fr fr' : Frame V) :
    Prop where
  blk : Rel st (.blk fr.blk) (.blk fr'.blk)
  rest : List.Forall₂ (InstRel lay st) fr.rest fr'.rest
  term : InstRel lay st fr.term fr'.term
  succ : ∀ t ∈ fr.term.succs, ∃ t', (t, t') ∈ D
  env : EnvRel st fr.env fr'.env

theorem enter_rel {f g : Fn} {D : List (Nat × Nat)} (m : Matched lay f g st D)
    {env env' : Nat → Option M.Val} (he : EnvRel st env env') {pred pred' : Option Nat}
    (hp : (pred = none ∧ pred' = none) ∨
      ∃ b b', pred = some b ∧ pred' = some b' ∧ Rel st (.blk b) (.blk b'))
    {d : Nat × Nat} (hd : d ∈ D) :
    (enter M lay.ptrBits f pred d.1 env = none ∧ enter M lay.ptrBits g pred' d.2 env' = none) ∨
      ∃ fr fr', enter M lay.ptrBits f pred d.1 env = some fr ∧
        enter M lay.ptrBits g pred' d.2 env' = some fr' ∧ FrameRel lay st D fr fr' := by
  obtain ⟨hr, B, B', hB, hB', hc⟩ := m.block d hd
  obtain ⟨hi, ht⟩ := forall₂_snoc hc
  obtain ⟨h1, h2⟩ := takeWhile_rel hi
  unfold enter
  simp only [hB, hB']
  rcases enterPhis_rel (M := M) m.good he hp h1 he with ⟨h3, h4⟩ | ⟨e, e', h3, h4, h5⟩
  · rw [h3, h4]; exact .inl ⟨rfl, rfl⟩
  · rw [h3, h4]
    exact .inr ⟨_, _, rfl, rfl, ⟨hr, h2, ht, m.closed d hd B hB, h5⟩⟩

theorem bindArgs_rel {V : Type} (g : Good st) : ∀ {l r : List (Nat × Ty)} {vs : List V},
    List.Forall₂ (fun a b => Rel st (.val a.1) (.val b.1)) l r →
    (bindArgs l vs = none ∧ bindArgs r vs = none) ∨
      ∃ e e', bindArgs l vs = some e ∧ bindArgs r vs = some e' ∧ EnvRel st e e'
  | _, _, [], .nil => .inr ⟨_, _, rfl, rfl, fun _ _ _ => rfl⟩
  | _, _, _ :: _, .nil => .inl ⟨rfl, rfl⟩
  | _, _, [], .cons _ _ => .inl ⟨rfl, rfl⟩
  | a :: as, b :: bs, v :: vs, .cons h hs => by
    rw [bindArgs, bindArgs]
    rcases bindArgs_rel g (vs := vs) hs with ⟨h1, h2⟩ | ⟨e, e', h1, h2, h3⟩
    · rw [h1, h2]; exact .inl ⟨rfl, rfl⟩
    · rw [h1, h2]; exact .inr ⟨_, _, rfl, rfl, EnvRel.set g h3 h _⟩

theorem activate_rel {f g : Fn} {D : List (Nat × Nat)} (m : Matched lay f g st D)
    (args : List M.Val) :
    (activate M lay.ptrBits f args = none ∧ activate M lay.ptrBits g args = none) ∨
      ∃ fr fr', activate M lay.ptrBits f args = some fr ∧
        activate M lay.ptrBits g args = some fr' ∧ FrameRel lay st D fr fr' := by
  unfold activate
  rcases bindArgs_rel m.good (vs := args) m.args with ⟨h1, h2⟩ | ⟨e, e', h1, h2, h3⟩
  · rw [h1, h2]; exact .inl ⟨rfl, rfl⟩
  · rw [h1, h2]
    exact enter_rel m h3 (.inl ⟨rfl, rfl⟩) m.entry

theorem evalOps_consts {p : Nat} {env : Nat → Option M.Val} : ∀ {ops : List (Opnd × Ty)}
    {cs : List Const}, constOps ops = some cs →
    evalOps M p env ops = some (cs.map fun c => M.const (normConst p c))
  | [], cs, h => by simp [constOps] at h; subst h; rfl
  | (.const c, t) :: os, cs, h => by
    rw [constOps] at h
    cases ho : constOps os with
    | none => simp [ho] at h
    | some ds =>
      rw [ho] at h
      simp at h
      subst h
      rw [evalOps_cons (by intro b h; cases h), evalOps_consts ho]
      rfl
  | (.ref _, _) :: _, _, h => by simp [constOps] at h
  | (.asm _, _) :: _, _, h => by simp [constOps] at h
  | (.self, _) :: _, _, h => by simp [constOps] at h

theorem gepValue {lay : Layout} (hM : LayoutCorrect lay M) {env : Nat → Option M.Val} {src : Ty}
    {o : Opnd × Ty} {os : List (Opnd × Ty)} {k : Nat} (h : gepOffset lay src (o :: os) = some k) :
    ∃ vs, evalOps M lay.ptrBits env os = some vs ∧
      ∀ a, M.gep (normTy lay.ptrBits src) a vs = M.addBytes a k := by
  unfold gepOffset at h
  simp only [List.tail_cons] at h
  cases hc : constOps os with
  | none => simp [hc] at h
  | some cs =>
    rw [hc] at h
    refine ⟨_, evalOps_consts hc, fun a => hM src cs k a h⟩

theorem getLast?_rel {α β : Type} {R : α → β → Prop} : ∀ {l : List α} {r : List β},
    List.Forall₂ R l r → (l.getLast? = none ∧ r.getLast? = none) ∨
      ∃ a b, l.getLast? = some a ∧ r.getLast? = some b ∧ R a b
  | _, _, .nil => .inl ⟨rfl, rfl⟩
  | _, _, .cons h .nil => .inr ⟨_, _, rfl, rfl, h⟩
  | _, _, .cons _ (.cons h hs) => by
    rcases getLast?_rel (List.Forall₂.cons h hs) with ⟨h1, _⟩ | ⟨a, b, h1, h2, h3⟩
    · simp at h1
    · refine .inr ⟨a, b, ?_, ?_, h3⟩
      · rw [List.getLast?_cons_cons]; exact h1
      · rw [List.getLast?_cons_cons]; exact h2

theorem dropLast_rel {α β : Type} {R : α → β → Prop} : ∀ {l : List α} {r : List β},
    List.Forall₂ R l r → List.Forall₂ R l.dropLast r.dropLast
  | _, _, .nil => .nil
  | _, _, .cons _ .nil => .nil
  | _, _, .cons h (.cons h' hs) => by
    rw [List.dropLast_cons_cons, List.dropLast_cons_cons]
    exact .cons h (dropLast_rel (List.Forall₂.cons h' hs))

theorem callsSelf_rel {i j : Inst} (hi : info lay.ptrBits i = info lay.ptrBits j)
    (h : OpsRel lay.ptrBits st i.ops j.ops) : callsSelf i = callsSelf j := by
  have hs : normSpecial lay.ptrBits i.special = normSpecial lay.ptrBits j.special := by
    have := congrArg Info.special hi
    exact this
  unfold callsSelf
  refine congrArg₂ (· && ·) ?_ ?_
  · cases hi' : i.special <;> cases hj' : j.special <;> simp_all [normSpecial]
  · rcases getLast?_rel h with ⟨h1, h2⟩ | ⟨⟨a, ta⟩, ⟨b, tb⟩, h1, h2, h3⟩
    · rw [h1, h2]
    · rw [h1, h2]
      cases a with
      | ref k => cases b with
        | ref k' => rfl
        | _ => cases k <;> exact h3.elim
      | _ => cases b <;> first | rfl | exact h3.elim

theorem execInst_plain {M : Machine} {p : Nat} {env : Nat → Option M.Val} {mem : M.Mem} {i : Inst}
    (h1 : ∀ bs, i.special ≠ .phi bs) (h2 : ∀ t, i.special ≠ .gep t) :
    execInst M p env mem i =
      if callsSelf i then
        match evalOps M p env i.ops.dropLast with
        | some vs => .recurse vs
        | none => .fail
      else
        match (evalOps M p env i.ops).bind (fun vs => M.op (info p i) vs mem) with
        | some (v, mem', evs) => .result v mem' evs
        | none => .fail := by
  unfold execInst
  cases hs : i.special <;> first | rfl | exact absurd hs (h1 _) | exact absurd hs (h2 _)

theorem execInst_rel (hM : LayoutCorrect lay M) {env env' : Nat → Option M.Val}
    (he : EnvRel st env env') (mem : M.Mem) {i j : Inst} (h : InstRel lay st i j) :
    execInst M lay.ptrBits env mem i = execInst M lay.ptrBits env' mem j := by
  rcases h.body with ⟨h1, h2, h3⟩ | ⟨src, src', o, o', os, os', h1, h2, h3, h4, h5, h6⟩
  · have hs : normSpecial lay.ptrBits i.special = normSpecial lay.ptrBits j.special := h3.1
    by_cases hphi : ∃ bs, i.special = .phi bs
    · obtain ⟨bs, hb⟩ := hphi
      have : ∃ bs', j.special = .phi bs' := by
        cases hj : j.special <;> simp_all [normSpecial]
      obtain ⟨bs', hb'⟩ := this
      unfold execInst
      rw [hb, hb']
    · by_cases hgep : ∃ t, i.special = .gep t
      · obtain ⟨t, ht⟩ := hgep
        have : ∃ t', j.special = .gep t' ∧ normTy lay.ptrBits t = normTy lay.ptrBits t' := by
          cases hj : j.special <;> simp_all [normSpecial]
        obtain ⟨t', ht', hn⟩ := this
        unfold execInst
        rw [ht, ht']
        revert h2
        generalize i.ops = ops, j.ops = ops'
        intro h2
        cases h2 with
        | nil => rfl
        | cons ha hb =>
          simp only
          rw [evalOpnd_rel he ha, evalOps_rel he hb, hn]
      · have hphi' : ∀ bs, j.special ≠ .phi bs := by
          intro bs hb; apply hphi
          cases hi : i.special <;> simp_all [normSpecial]
        have hgep' : ∀ t, j.special ≠ .gep t := by
          intro t hb; apply hgep
          cases hi : i.special <;> simp_all [normSpecial]
        rw [execInst_plain (fun bs hb => hphi ⟨bs, hb⟩) (fun t ht => hgep ⟨t, ht⟩),
          execInst_plain hphi' hgep', callsSelf_rel h1 h2, evalOps_rel he h2,
          evalOps_rel he (dropLast_rel h2), h1]
  · unfold execInst
    rw [h1, h2, h3, h4]
    simp only
    rw [evalOpnd_rel he h5]
    rcases h6 with ⟨k, h6, h7⟩ | ⟨h6, h7⟩
    · rw [h3] at h6
      rw [h4] at h7
      obtain ⟨vs, hv, ha⟩ := gepValue (M := M) (env := env) hM h6
      obtain ⟨vs', hv', ha'⟩ := gepValue (M := M) (env := env') hM h7
      rw [hv, hv']
      cases evalOpnd M lay.ptrBits env' o'.1 with
      | none => rfl
      | some a => simp only [ha, ha']
    · rw [evalOps_rel he h7, h6]

theorem execTerm_rel {env env' : Nat → Option M.Val} (he : EnvRel st env env') (mem : M.Mem)
    {i j : Inst} (h : InstRel lay st i j) :
    execTerm M lay.ptrBits env mem i = execTerm M lay.ptrBits env' mem j := by
  unfold execTerm
  rcases h.body with ⟨h1, h2, h3⟩ | ⟨src, src', o, o', os, os', h1, h2, _⟩
  · have hs : normSpecial lay.ptrBits i.special = normSpecial lay.ptrBits j.special := h3.1
    rw [evalOps_rel he h2, h1]
    cases hi : i.special <;> cases hj : j.special <;> simp_all [normSpecial]
  · rw [h1, h2]

/-- States that do the same. -/
inductive StateRel (lay : Layout) (st : CmpSt) (D : List (Nat × Nat)) : State M → State M → Prop where
  | run {fr fr' : Frame M.Val} {cs cs' : List (Nat × Frame M.Val)} {mem : M.Mem} {tr : List M.Ev}
      (h : FrameRel lay st D fr fr')
      (hc : List.Forall₂ (fun a b => Rel st (.val a.1) (.val b.1) ∧ FrameRel lay st D a.2 b.2) cs cs') :
      StateRel lay st D (.run fr cs mem tr) (.run fr' cs' mem tr)
  | done (v : Option M.Val) (mem : M.Mem) (tr : List M.Ev) :
      StateRel lay st D (.done v mem tr) (.done v mem tr)
  | stuck (tr : List M.Ev) : StateRel lay st D (.stuck tr) (.stuck tr)

theorem forall₂_get {α β : Type} {R : α → β → Prop} : ∀ {l : List α} {r : List β},
    List.Forall₂ R l r → ∀ k : Nat, (l[k]? = none ∧ r[k]? = none) ∨
      ∃ a b, l[k]? = some a ∧ r[k]? = some b ∧ R a b
  | _, _, .nil, k => .inl ⟨by simp, by simp⟩
  | _, _, .cons h _, 0 => .inr ⟨_, _, rfl, rfl, h⟩
  | _, _, .cons _ hs, k + 1 => by simpa using forall₂_get hs k

theorem step_rel (hM : LayoutCorrect lay M) {f g : Fn} {D : List (Nat × Nat)}
    (m : Matched lay f g st D) {s s' : State M} (h : StateRel lay st D s s') :
    StateRel lay st D (step M lay.ptrBits f s) (step M lay.ptrBits g s') := by
  cases h with
  | done v mem tr => exact .done v mem tr
  | stuck tr => exact .stuck tr
  | run h hc =>
    rename_i fr fr' cs cs' mem tr
    obtain ⟨b, rest, term, env⟩ := fr
    obtain ⟨b', rest', term', env'⟩ := fr'
    obtain ⟨hblk, hrest, hterm, hsucc, henv⟩ := h
    simp only at hblk hrest hterm hsucc henv
    cases hrest with
    | cons hi hrest =>
      rename_i i j is js
      rw [step, step, execInst_rel hM henv mem hi]
      cases execInst M lay.ptrBits env' mem j with
      | fail => exact .stuck tr
      | result v mem' evs =>
        exact .run ⟨hblk, hrest, hterm, hsucc, EnvRel.setResult m.good henv hi.id v⟩ hc
      | recurse args =>
        simp only
        rcases activate_rel (M := M) m args with ⟨h1, h2⟩ | ⟨fr, fr', h1, h2, h3⟩
        · rw [h1, h2]; exact .stuck tr
        · rw [h1, h2]
          exact .run h3 (.cons ⟨hi.id, ⟨hblk, hrest, hterm, hsucc, henv⟩⟩ hc)
    | nil =>
      rw [step, step, execTerm_rel henv mem hterm]
      cases execTerm M lay.ptrBits env' mem term' with
      | none => exact .stuck tr
      | some x =>
        obtain ⟨ex, mem', evs⟩ := x
        cases ex with
        | goto k v =>
          simp only
          rcases forall₂_get (succs_rel hterm) k with ⟨h1, h2⟩ | ⟨t, t', h1, h2, h3⟩
          · rw [h1, h2]; exact .stuck _
          · rw [h1, h2]
            obtain ⟨t'', ht⟩ := hsucc t (List.mem_of_getElem? h1)
            have hr := (m.block _ ht).1
            have : t' = t'' := by
              have := Rel.right_unique m.good h3 hr
              simpa using this
            subst this
            have he := EnvRel.setResult m.good henv hterm.id v
            rcases enter_rel (M := M) m he (.inr ⟨b, b', rfl, rfl, hblk⟩) ht with
              ⟨h4, h5⟩ | ⟨fr, fr', h4, h5, h6⟩
            · simp only [Option.bind_some] at h4 h5 ⊢
              rw [h4, h5]; exact .stuck _
            · simp only [Option.bind_some] at h4 h5 ⊢
              rw [h4, h5]; exact .run h6 hc
        | ret v =>
          simp only
          cases hc with
          | nil => exact .done v mem' _
          | cons hx hc =>
            rename_i a c as cs
            obtain ⟨x, fr⟩ := a
            obtain ⟨x', fr'⟩ := c
            obtain ⟨hx, hf⟩ := hx
            exact .run ⟨hf.blk, hf.rest, hf.term, hf.succ, EnvRel.setResult m.good hf.env hx v⟩ hc

theorem run_rel (hM : LayoutCorrect lay M) {f g : Fn} {D : List (Nat × Nat)}
    (m : Matched lay f g st D) (args : List M.Val) (mem : M.Mem) : ∀ n,
    StateRel lay st D (runFn M lay.ptrBits f args mem n) (runFn M lay.ptrBits g args mem n)
  | 0 => by
    rw [runFn, runFn, start, start]
    rcases activate_rel (M := M) m args with ⟨h1, h2⟩ | ⟨fr, fr', h1, h2, h3⟩
    · rw [h1, h2]; exact .stuck []
    · rw [h1, h2]; exact .run h3 .nil
  | n + 1 => by
    rw [runFn, runFn]
    exact step_rel hM m (run_rel hM m args mem n)

theorem obs_rel {D : List (Nat × Nat)} {s s' : State M} (h : StateRel lay st D s s') :
    obs s = obs s' := by
  cases h with
  | run h hc => simp only [obs, hc.length_eq]
  | done => rfl
  | stuck => rfl

end

end DK
