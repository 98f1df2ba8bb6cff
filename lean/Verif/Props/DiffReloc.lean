import Verif.Lemmas.DiffLine
import Verif.Props.DiffCmp

/-!
Properties of relocations of code (C45).
-/

set_option autoImplicit false

namespace DK
open Spec

/-! ### Dependencies -/

theorem depend_noload (e : Nat) : ∀ (is : List DInst) (st : Option DOp), (∀ x ∈ is, x.code ≠ .load) →
    dependLoop false e none st is = false
  | [], _, _ => rfl
  | i :: is, st, h => by
    have hl : loadPtr i = none := by
      unfold loadPtr
      split
      · next hc _ => exact absurd hc (h i (by simp))
      · rfl
    unfold dependLoop
    simp only [hl, Option.isSome_none, Bool.false_and, Bool.false_eq_true, if_false]
    cases is with
    | nil => rfl
    | cons j is =>
      simp only
      split
      · rfl
      · exact depend_noload e (j :: is) _ fun x hx => h x (by simp only [List.mem_cons] at hx ⊢; exact .inr hx)

theorem depend_nostore (e : Nat) : ∀ (is : List DInst) (ld : Option DOp), (∀ x ∈ is, x.code ≠ .store) →
    dependLoop false e ld none is = false
  | [], _, _ => rfl
  | i :: is, ld, h => by
    have hl : storePtr i = none := by
      unfold storePtr
      split
      · next hc _ => exact absurd hc (h i (by simp))
      · rfl
    have hno : ∀ x : Option DOp, (x.isSome && x == none) = false := by
      intro x; cases x <;> simp
    unfold dependLoop
    simp only [hl, hno, Bool.false_eq_true, if_false]
    cases is with
    | nil => rfl
    | cons j is =>
      simp only
      split
      · rfl
      · exact depend_nostore e (j :: is) _ fun x hx => h x (by simp only [List.mem_cons] at hx ⊢; exact .inr hx)

/-- Functions of which no instruction is found to depend on a region: without loads and stores, or
without one of them if the search for dependencies that leaves the block finds nothing. -/
def NoConflict (past : Bool) (f : DFun) : Prop :=
  (∀ i ∈ f.all, i.code ≠ .load ∧ i.code ≠ .store) ∨
    (past = false ∧ ((∀ i ∈ f.all, i.code ≠ .load) ∨ ∀ i ∈ f.all, i.code ≠ .store))

theorem noDep {past : Bool} {f : DFun} (h : NoConflict past f) : NoDep past f := by
  intro b e i hb hi
  have ld : i.code ≠ .load → loadPtr i = none := by
    intro h
    unfold loadPtr
    split
    · next hc _ => exact absurd hc h
    · rfl
  have st : i.code ≠ .store → storePtr i = none := by
    intro h
    unfold storePtr
    split
    · next hc _ => exact absurd hc h
    · rfl
  unfold isDepending
  rcases h with h | ⟨rfl, h | h⟩
  · rw [ld (h i hi).1, st (h i hi).2]; rfl
  · split
    · rw [ld (h i hi)]; exact depend_noload e b _ fun x hx => h x (hb x hx)
    · rfl
  · split
    · rw [st (h i hi)]; exact depend_nostore e b _ fun x hx => h x (hb x hx)
    · rfl

/-! ### The theorem for functions with one block -/

theorem lineOf {f : DFun} (wf : DWellFormed f) (df : Dominated f) (pf : Plain f) (hs : Straight f) (hc : Calm f) :
    ∃ b body t, LineOf f b body t := by
  obtain ⟨⟨B, hB⟩, hj⟩ := hs
  have hall : f.all = B.code := by simp [DFun.all, hB]
  obtain ⟨body, t, e, ht, hbody⟩ := wf.ends B (by rw [hB]; simp)
  have hf : f.find B.id = some B := by simp [DFun.find, hB]
  have hids := List.nodup_append.mp wf.ids
  refine ⟨B.id, body, t, ⟨pf, hids.2.1, ?_, ?_, ?_⟩, ?_, ?_, ?_, ?_, hids.1, hc⟩
  · intro i hi hm
    exact hids.2.2 i.id hm i.id (List.mem_map_of_mem hi) rfl
  · intro i hi b hb
    have hsh := wf.shape i hi
    unfold ShapeOk at hsh
    split at hsh
    · next hc => exact (hj i hi).1 hc
    · next hc => exact (hj i hi).2 hc
    · obtain ⟨x, y, ho, _, _, hno⟩ := hsh
      rw [ho] at hb
      simp only [List.mem_cons, List.not_mem_nil, or_false] at hb
      rcases hb with e | e
      · exact (hno b).1 e.symm
      · exact (hno b).2 e.symm
    · obtain ⟨x, y, ho, _, _, hno⟩ := hsh
      rw [ho] at hb
      simp only [List.mem_cons, List.not_mem_nil, or_false] at hb
      rcases hb with e | e
      · exact (hno b).1 e.symm
      · exact (hno b).2 e.symm
    · exact hsh b hb
  · intro pre i suf e' a w ha
    rw [hall] at e'
    rcases df [] B.id B (.entry B [] hB) hf pre i suf e' (pf i (by rw [hall, e']; simp)).1 a w ha with h | h | ⟨_, c, hc, _⟩
    · exact .inl h
    · exact .inr h
    · cases hc
  · rw [hB, ← e]
  · rw [hall, e]
  · have := hj t (by rw [hall, e]; simp)
    unfold isTerm at ht
    split at ht
    · next h => exact h
    · next h => exact absurd h this.1
    · next h => exact absurd h this.2
    · cases ht
  · intro i hi
    exact ⟨hbody i hi, (pf i (by rw [hall, e]; simp [hi])).1⟩

theorem reloc_sound {cfg : DCfg} (h1 : cfg.reorder = false) (h2 : cfg.inverse = false) {l r : DFun} {b c : Nat}
    {lb rb : List DInst} {lt rt : DInst} (L : LineOf l b lb lt) (R : LineOf r c rb rt) (wl : DWellFormed l)
    (wr : DWellFormed r) (nl : NoDep cfg.past l) (nr : NoDep cfg.past r) (steps : Nat) (sw : List Nat)
    (h : compareD cfg steps l r [] = some (true, sw)) : SameResults l r := by
  unfold compareD at h
  rw [L.blocks, R.blocks] at h
  simp only at h
  split at h
  · simp at h
  · next hty =>
    have hty : l.args.map Prod.snd = r.args.map Prod.snd := by simpa using hty
    have G := good_start id wl wr hty
    generalize hks : ((l.args.zip r.args).map fun p : (Nat × Nat) × (Nat × Nat) => (DKey.val p.1.1, DKey.val p.2.1)) = ks at G
    have hblkL : DKey.blk b ∉ ks.map Prod.fst := by
      intro hm
      obtain ⟨k', hk⟩ := mem_fst hm
      rw [← hks] at hk
      obtain ⟨p, _, e⟩ := List.mem_map.mp hk
      simp at e
    have hblkR : DKey.blk c ∉ ks.map Prod.snd := by
      intro hm
      obtain ⟨k', hk⟩ := mem_snd hm
      rw [← hks] at hk
      obtain ⟨p, _, e⟩ := List.mem_map.mp hk
      simp at e
    have I0 : RInv l r ks (startSt l r []) := ⟨G.toSync, ⟨rfl, rfl, rfl, rfl, rfl, rfl⟩, by
      intro k k' hk
      rcases G.kinds k k' hk with ⟨x, y, rfl, rfl⟩ | ⟨B, _, rfl, rfl⟩
      · rcases G.vals x y hk with h | ⟨h, _⟩
        · exact .inr (.inl ⟨x, y, rfl, rfl, h⟩)
        · cases h
      · exact .inl ⟨_, _, rfl, rfl⟩, G.argsL, G.argsR⟩
    obtain ⟨m, hm⟩ := cmpRefs_new (l := l) (r := r) G.toSync L.plain R.plain hblkL hblkR
    let ks' := ks ++ [(DKey.blk b, DKey.blk c)]
    have I1 : RInv l r ks' (withKeys (startSt l r []) ks' m) := by
      refine ⟨⟨rfl, rfl, rfl, rfl, ?_, ?_⟩, ⟨rfl, rfl, rfl, rfl, rfl, rfl⟩, ?_, ?_, ?_⟩
      · simp only [ks', List.map_append]
        exact keys_snoc G.left hblkL
      · simp only [ks', List.map_append]
        exact keys_snoc G.right hblkR
      · intro k k' hk
        rcases List.mem_append.mp hk with hk | hk
        · rcases I0.closed k k' hk with h | h | ⟨i', hi', j', hj', e1, e2, h1, h2, h3⟩
          · exact .inl h
          · exact .inr (.inl h)
          · exact .inr (.inr ⟨i', hi', j', hj', e1, e2, h1, h2, forall2_mono (fun p hp => List.mem_append_left _ hp) h3⟩)
        · rw [List.mem_singleton] at hk
          injection hk with e1 e2
          exact .inl ⟨b, c, e1, e2⟩
      · intro a ha; simp only [ks', List.map_append]; exact List.mem_append_left _ (G.argsL a ha)
      · intro a ha; simp only [ks', List.map_append]; exact List.mem_append_left _ (G.argsR a ha)
    have hstart : ∀ {f : DFun} (F : Line f) {keys : List DKey},
        (∀ a, DKey.val a ∈ keys → a ∈ f.args.map Prod.fst) → SideP f keys f.all := by
      intro f F keys hk
      exact ⟨[], rfl, fun _ h => absurd h (by simp), fun i hi hm => F.sep i hi (hk _ hm)⟩
    have W : WhereD l r ks' l.all r.all (withKeys (startSt l r []) ks' m).reloc := by
      refine ⟨hstart L.toLine ?_, hstart R.toLine ?_⟩
      · intro a ha
        obtain ⟨k', hk⟩ := mem_fst ha
        rcases List.mem_append.mp hk with hk | hk
        · rw [← hks] at hk
          obtain ⟨p, hp, e⟩ := List.mem_map.mp hk
          simp only [Prod.mk.injEq, DKey.val.injEq] at e
          rw [← e.1]
          exact List.mem_map_of_mem (f := Prod.fst) (List.of_mem_zip hp).1
        · simp at hk
      · intro a ha
        obtain ⟨k', hk⟩ := mem_snd ha
        rcases List.mem_append.mp hk with hk | hk
        · rw [← hks] at hk
          obtain ⟨p, hp, e⟩ := List.mem_map.mp hk
          simp only [Prod.mk.injEq, DKey.val.injEq] at e
          rw [← e.2]
          exact List.mem_map_of_mem (f := Prod.fst) (List.of_mem_zip hp).2
        · simp at hk
    have hb : l.find b = some ⟨b, lb ++ [lt]⟩ := by simp [DFun.find, L.blocks]
    have hc : r.find c = some ⟨c, rb ++ [rt]⟩ := by simp [DFun.find, R.blocks]
    have hvals : cmpVals ⟨l.all, r.all⟩ 0 (.blk b) (.blk c) (startSt l r []) = (true, withKeys (startSt l r []) ks' m) :=
      (cmpVals_base I0.base 0 _ _).trans hm
    have hsucc : DBlock.succs [] ⟨b, lb ++ [lt]⟩ = [] := by
      have hno : ∀ x, DOp.blk x ∉ lt.ops := L.noblk lt (by rw [L.all]; simp)
      simp only [DBlock.succs, List.getLast?_append_of_ne_nil, List.getLast?_singleton, Option.some_or, List.getLast?_append, curOps_nil, succsOf]
      rw [List.reverse_eq_nil_iff, List.filterMap_eq_nil_iff]
      intro x hx
      cases x with
      | blk y => exact absurd hx (hno y)
      | _ => rfl
    cases hp : cmpPairs cfg l r steps (List.length [(⟨b, lb ++ [lt]⟩ : DBlock)] + 1) [(b, c)] [b] (startSt l r []) with
    | none => rw [hp] at h; cases h
    | some y =>
      obtain ⟨res, st'⟩ := y
      rw [hp] at h
      simp only [Option.map_some, Option.some.injEq, Prod.mk.injEq, Bool.and_eq_true] at h
      obtain ⟨⟨⟨rfl, hrel⟩, _⟩, _⟩ := h
      have hrel : st'.reloc = .none := by
        cases e : st'.reloc with
        | none => rfl
        | _ => rw [e] at hrel; cases hrel
      unfold cmpPairs at hp
      simp only [hb, hc, hvals] at hp
      rw [← L.all, ← R.all] at hp
      cases hbl : cmpBlocks cfg ⟨l.all, r.all⟩ steps l.all r.all (withKeys (startSt l r []) ks' m) with
      | none => rw [hbl] at hp; cases hp
      | some z =>
        obtain ⟨res, st2⟩ := z
        rw [hbl] at hp
        cases res with
        | false => simp at hp
        | true =>
          rw [L.all] at hp
          simp only [hsucc, pushPairs, cmpPairs, Option.some.injEq, Prod.mk.injEq, true_and] at hp
          subst hp
          obtain ⟨ks2, I2, d1, d2⟩ := blocks_reloc h1 h2 L.toLine R.toLine nl nr steps _ _ _ st2 ks' I1 W hbl hrel
          intro Mem M vals mem res
          constructor <;> rintro ⟨n, hn⟩ <;> refine ⟨n, ?_⟩
          · rw [← line_same M L R I2.closed vals mem d1 d2]; exact hn
          · rw [line_same M L R I2.closed vals mem d1 d2]; exact hn

/-! ### C45 -/

/-- Only relocations are allowed; `past` is what the search for dependencies answers when it leaves the
block. -/
def cfgReloc (past : Bool) : DCfg := ⟨false, false, true, past⟩

/-- **C45** (fails): functions with the same control flow, without phis, casts and negations, that are
found equal with relocations return the same, with the same effects. -/
def C45_statement : Prop :=
  ∀ (past : Bool) (l r : DFun) (φ : Nat → Nat) (steps : Nat) (sw : List Nat), DWellFormed l → DWellFormed r →
    Dominated l → Dominated r → Plain l → Plain r → SameFlow l r φ →
    compareD (cfgReloc past) steps l r [] = some (true, sw) → SameResults l r

/-- `f(); g(); return;` -/
def calls (f g : Nat) : DFun := ⟨[], [⟨0, [⟨1, .call f, 0, [], []⟩, ⟨2, .call g, 0, [], []⟩, ⟨101, .ret, 0, [], []⟩]⟩]⟩

/-- Calls of two functions in the opposite order are found equal. -/
theorem C45_fails : ¬ C45_statement := by
  intro h
  have := h false (calls 1 2) (calls 2 1) id 50 [] (wfB_ok (by decide +kernel)) (wfB_ok (by decide +kernel))
    (domB_ok (fun _ => []) (by decide +kernel)) (domB_ok (fun _ => []) (by decide +kernel))
    (plainB_ok (by decide +kernel)) (plainB_ok (by decide +kernel)) (flowB_ok (by decide +kernel)) (by decide +kernel)
  exact not_same testMach (n := 5) (vals := []) (mem := []) (a := ([], [(2, []), (1, [])]))
    (b := ([], [(1, []), (2, [])])) (by decide +kernel) (by decide +kernel) (by decide) this

/-- `f(*p); a = *p; g(); return a;` -/
def lostL : DFun := ⟨[(0, 64)],
  [⟨0, [⟨1, .load, 32, [.ref 0 64], []⟩, ⟨2, .call 1, 0, [r32 1], []⟩, ⟨3, .load, 32, [.ref 0 64], []⟩,
        ⟨4, .call 2, 0, [], []⟩, ⟨101, .ret, 0, [r32 3], []⟩]⟩]⟩
/-- `*p = 5; a = *p; g(); f(*p); return a;` -/
def lostR : DFun := ⟨[(0, 64)],
  [⟨0, [⟨9, .store, 0, [c32 5, .ref 0 64], []⟩, ⟨3, .load, 32, [.ref 0 64], []⟩, ⟨4, .call 2, 0, [], []⟩,
        ⟨1, .load, 32, [.ref 0 64], []⟩, ⟨2, .call 1, 0, [r32 1], []⟩, ⟨101, .ret, 0, [r32 3], []⟩]⟩]⟩

/-- A store that only one of the functions has is overlooked: after a dependency was found, the
comparison goes on behind it. -/
theorem C45_fails_store (past : Bool) : compareD (cfgReloc past) 50 lostL lostR [] = some (true, []) ∧
    ¬ SameResults lostL lostR := by
  refine ⟨by cases past <;> decide +kernel, ?_⟩
  exact not_same testMach (n := 5) (vals := [0]) (mem := []) (a := ([some 0], [(2, []), (1, [some 0])]))
    (b := ([some 5], [(1, [some 5]), (2, []), (0, [some 5, some 0])])) (by decide +kernel) (by decide +kernel) (by decide)

/-- **C45** (partial): it holds for functions with one block where at most one instruction has effects and
no instruction after it reads memory, and that do not have both loads and stores. Missing:
the order of effects, and several blocks. -/
theorem C45_calm_partial (cfg : DCfg) (h1 : cfg.reorder = false) (h2 : cfg.inverse = false) (l r : DFun) (steps : Nat)
    (sw : List Nat) (wl : DWellFormed l) (wr : DWellFormed r) (dl : Dominated l) (dr : Dominated r) (pl : Plain l)
    (pr : Plain r) (sl : Straight l) (sr : Straight r) (cl : Calm l) (cr : Calm r) (nl : NoConflict cfg.past l)
    (nr : NoConflict cfg.past r) (h : compareD cfg steps l r [] = some (true, sw)) : SameResults l r := by
  obtain ⟨_, _, _, L⟩ := lineOf wl dl pl sl cl
  obtain ⟨_, _, _, R⟩ := lineOf wr dr pr sr cr
  exact reloc_sound h1 h2 L R wl wr (noDep nl) (noDep nr) steps sw h

/-- `a = x + y; b = x * y; c = *p; f(a, b); return c;` -/
def moveL : DFun := ⟨[(0, 32), (1, 32), (2, 64)],
  [⟨0, [⟨10, .bin .add, 32, [r32 0, r32 1], []⟩, ⟨11, .bin .mul, 32, [r32 0, r32 1], []⟩,
        ⟨12, .load, 32, [.ref 2 64], []⟩, ⟨13, .call 7, 0, [r32 10, r32 11], []⟩, ⟨101, .ret, 0, [r32 12], []⟩]⟩]⟩
/-- `c = *p; a = x + y; b = x * y; f(a, b); return c;` -/
def moveR : DFun := ⟨[(0, 32), (1, 32), (2, 64)],
  [⟨0, [⟨12, .load, 32, [.ref 2 64], []⟩, ⟨10, .bin .add, 32, [r32 0, r32 1], []⟩, ⟨11, .bin .mul, 32, [r32 0, r32 1], []⟩,
        ⟨13, .call 7, 0, [r32 10, r32 11], []⟩, ⟨101, .ret, 0, [r32 12], []⟩]⟩]⟩

def calmB : List DInst → Bool
  | [] => true
  | i :: is => (!writesMem i || is.all fun j => !usesMem j) && calmB is

theorem calmB_ok : ∀ {code : List DInst}, calmB code = true → ∀ pre i suf, code = pre ++ i :: suf → usesMem i = true →
    ∀ j ∈ pre, writesMem j = false
  | [], _, pre, i, suf, e, _, _, _ => by simp at e
  | k :: code, h, [], i, suf, e, hu, j, hj => by cases hj
  | k :: code, h, p :: pre, i, suf, e, hu, j, hj => by
    simp only [List.cons_append, List.cons.injEq] at e
    obtain ⟨rfl, e⟩ := e
    simp only [calmB, Bool.and_eq_true, Bool.or_eq_true, Bool.not_eq_true', List.all_eq_true] at h
    rcases List.mem_cons.mp hj with rfl | hj
    · rcases h.1 with h | h
      · exact h
      · have := h i (by rw [e]; simp)
        rw [hu] at this
        cases this
    · exact calmB_ok h.2 pre i suf e hu j hj

/-- The theorem applies to functions with a load and a call, where the load was moved before two
operations. -/
example : SameResults moveL moveR :=
  C45_calm_partial (cfgReloc false) rfl rfl moveL moveR 50 [] (wfB_ok (by decide +kernel)) (wfB_ok (by decide +kernel))
    (domB_ok (fun _ => []) (by decide +kernel)) (domB_ok (fun _ => []) (by decide +kernel))
    (plainB_ok (by decide +kernel)) (plainB_ok (by decide +kernel)) ⟨⟨_, rfl⟩, by decide +kernel⟩ ⟨⟨_, rfl⟩, by decide +kernel⟩
    (calmB_ok (by decide +kernel)) (calmB_ok (by decide +kernel)) (.inr ⟨rfl, .inr (by decide +kernel)⟩)
    (.inr ⟨rfl, .inr (by decide +kernel)⟩) (by decide +kernel)

/-- Without relocations they are different. -/
example : compareD cfgNone 50 moveL moveR [] = some (false, []) := by decide +kernel

end DK
