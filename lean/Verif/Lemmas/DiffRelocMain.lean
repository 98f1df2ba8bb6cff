import Verif.Lemmas.DiffReloc

/-!
Lemmas: in functions with one block, relocations leave no instruction unmatched.
-/

set_option autoImplicit false

namespace DK
open Spec

/-! ### Places in a block -/

/-- What is needed about a function with one block. -/
structure Line (f : DFun) : Prop where
  plain : Plain f
  nodup : (idsOf f.all).Nodup
  sep : ∀ i ∈ f.all, i.id ∉ f.args.map Prod.fst
  noblk : ∀ i ∈ f.all, ∀ b, DOp.blk b ∉ i.ops
  dom : ∀ pre i suf, f.all = pre ++ i :: suf → ∀ a w, DOp.ref a w ∈ i.ops →
    a ∈ f.args.map Prod.fst ∨ a ∈ idsOf pre

def DoneK (keys : List DKey) (code : List DInst) : Prop := ∀ i ∈ code, DKey.val i.id ∈ keys
def OpenK (keys : List DKey) (code : List DInst) : Prop := ∀ i ∈ code, DKey.val i.id ∉ keys

/-- Everything before the place was matched. -/
def SideP (f : DFun) (keys : List DKey) (rest : List DInst) : Prop :=
  ∃ p, f.all = p ++ rest ∧ DoneK keys p ∧ OpenK keys rest

/-- A region before the place was not matched. -/
def SideA (f : DFun) (keys : List DKey) (rest b : List DInst) (e : Nat) : Prop :=
  ∃ p reg t q, f.all = p ++ (reg ++ t :: (q ++ rest)) ∧ b = reg ++ t :: (q ++ rest) ∧ t.id = e ∧ DoneK keys p ∧
    DoneK keys q ∧ OpenK keys (reg ++ [t]) ∧ OpenK keys rest

/-- The place is in the region. -/
def SideB (f : DFun) (keys : List DKey) (rest : List DInst) (e : Nat) (res : List DInst) : Prop :=
  ∃ p reg t q, f.all = p ++ (reg ++ t :: (q ++ res)) ∧ rest = reg ++ t :: (q ++ res) ∧ t.id = e ∧ DoneK keys p ∧
    DoneK keys q ∧ OpenK keys (reg ++ [t]) ∧ OpenK keys res

theorem done_snoc {keys : List DKey} {code : List DInst} (h : DoneK keys code) (i : DInst) :
    DoneK (keys ++ [DKey.val i.id]) code := fun j hj => List.mem_append_left _ (h j hj)

theorem done_one {keys : List DKey} {code : List DInst} (h : DoneK keys code) (i : DInst) :
    DoneK (keys ++ [DKey.val i.id]) (code ++ [i]) := by
  intro j hj
  rcases List.mem_append.mp hj with hj | hj
  · exact List.mem_append_left _ (h j hj)
  · rw [List.mem_singleton.mp hj]; simp

theorem open_snoc {keys : List DKey} {code : List DInst} (h : OpenK keys code) {i : DInst}
    (hi : ∀ j ∈ code, j.id ≠ i.id) : OpenK (keys ++ [DKey.val i.id]) code := by
  intro j hj hm
  rcases List.mem_append.mp hm with hm | hm
  · exact h j hj hm
  · rw [List.mem_singleton] at hm
    injection hm with hm
    exact hi j hj hm

theorem ids_split {f : DFun} (F : Line f) {pre suf : List DInst} {i : DInst} (h : f.all = pre ++ i :: suf) :
    (∀ j ∈ pre, j.id ≠ i.id) ∧ ∀ j ∈ suf, j.id ≠ i.id := by
  have := F.nodup
  rw [h, idsOf, List.map_append, List.map_cons, List.nodup_append] at this
  refine ⟨fun j hj e => this.2.2 j.id (List.mem_map_of_mem hj) i.id (by simp) e, fun j hj e => ?_⟩
  have h2 := (List.nodup_cons.mp this.2.1).1
  exact h2 (e ▸ List.mem_map_of_mem hj)

theorem sideP_next {f : DFun} (F : Line f) {keys : List DKey} {i : DInst} {rest : List DInst}
    (h : SideP f keys (i :: rest)) : SideP f (keys ++ [DKey.val i.id]) rest := by
  obtain ⟨p, e, hp, ho⟩ := h
  refine ⟨p ++ [i], by simp [e], done_one hp i, open_snoc (fun j hj => ho j (by simp [hj])) (ids_split F e).2⟩

theorem sideA_next {f : DFun} (F : Line f) {keys : List DKey} {i : DInst} {rest b : List DInst} {e : Nat}
    (h : SideA f keys (i :: rest) b e) : SideA f (keys ++ [DKey.val i.id]) rest b e := by
  obtain ⟨p, reg, t, q, h1, h2, h3, hp, hq, hr, ho⟩ := h
  have hs := ids_split F (pre := p ++ (reg ++ t :: q)) (i := i) (suf := rest) (by simp [h1])
  exact ⟨p, reg, t, q ++ [i], by simp [h1], by simp [h2], h3, done_snoc hp i, done_one hq i,
    open_snoc hr (fun j hj => hs.1 j (by simp at hj; rcases hj with hj | hj <;> simp [hj])),
    open_snoc (fun j hj => ho j (by simp [hj])) hs.2⟩

theorem sideB_next {f : DFun} (F : Line f) {keys : List DKey} {i : DInst} {rest res : List DInst} {e : Nat}
    (h : SideB f keys (i :: rest) e res) :
    if i.id = e then SideP f (keys ++ [DKey.val i.id]) res else SideB f (keys ++ [DKey.val i.id]) rest e res := by
  obtain ⟨p, reg, t, q, h1, h2, h3, hp, hq, hr, ho⟩ := h
  cases reg with
  | nil =>
    simp only [List.nil_append, List.cons.injEq] at h2
    obtain ⟨rfl, h2⟩ := h2
    rw [if_pos h3]
    have hs := ids_split F (pre := p) (i := i) (suf := q ++ res) (by simp [h1])
    refine ⟨p ++ i :: q, by simp [h1], ?_, open_snoc ho fun j hj => hs.2 j (by simp [hj])⟩
    intro j hj
    rcases List.mem_append.mp hj with hj | hj
    · exact done_snoc hp i j hj
    · rcases List.mem_cons.mp hj with hj | hj
      · rw [hj]; simp
      · exact done_snoc hq i j hj
  | cons k reg =>
    simp only [List.cons_append, List.cons.injEq] at h2
    obtain ⟨rfl, h2⟩ := h2
    have hs := ids_split F (pre := p) (i := i) (suf := reg ++ t :: (q ++ res)) (by simp [h1])
    rw [if_neg (fun e => hs.2 t (by simp) (h3.trans e.symm))]
    refine ⟨p ++ [i], reg, t, q, by simp [h1], h2, h3, done_one hp i, done_snoc hq i, ?_, ?_⟩
    · exact open_snoc (fun j hj => hr j (by simp at hj; rcases hj with hj | hj <;> simp [hj]))
        (fun j hj => hs.2 j (by simp at hj; rcases hj with hj | hj <;> simp [hj]))
    · exact open_snoc ho (fun j hj => hs.2 j (by simp [hj]))

theorem sideA_back {f : DFun} {keys : List DKey} {rest b : List DInst} {e : Nat} (h : SideA f keys rest b e) :
    SideB f keys b e rest := h

/-- A search that skipped a region. -/
theorem sideP_found {f : DFun} (F : Line f) {keys : List DKey} {reg : List DInst} {t j : DInst} {rest : List DInst}
    (h : SideP f keys (reg ++ t :: j :: rest)) :
    SideA f (keys ++ [DKey.val j.id]) rest (reg ++ t :: j :: rest) t.id := by
  obtain ⟨p, e, hp, ho⟩ := h
  have hs := ids_split F (pre := p ++ (reg ++ [t])) (i := j) (suf := rest) (by simp [e])
  refine ⟨p, reg, t, [j], by simp [e], by simp, rfl, done_snoc hp j, ?_, ?_, ?_⟩
  · intro k hk
    rw [List.mem_singleton.mp hk]; simp
  · exact open_snoc (fun k hk => ho k (by simp at hk; rcases hk with hk | hk <;> simp [hk]))
      (fun k hk => hs.1 k (by simp at hk; rcases hk with hk | hk <;> simp [hk]))
  · exact open_snoc (fun k hk => ho k (by simp [hk])) hs.2

/-- Operands at a place are known if everything before it was matched. -/
theorem known_ops {f : DFun} (F : Line f) {keys : List DKey} (ha : ∀ a ∈ f.args.map Prod.fst, DKey.val a ∈ keys)
    {p : List DInst} {i : DInst} {rest : List DInst} (e : f.all = p ++ i :: rest) (hp : DoneK keys p) :
    ∀ x ∈ i.ops, Known keys x := by
  intro x hx a w hxa
  rw [hxa] at hx
  rcases F.dom p i rest e a w hx with h | h
  · exact ha a h
  · obtain ⟨j, hj, rfl⟩ := List.mem_map.mp h
    exact hp j hj

/-! ### The invariant -/

/-- Matched instructions do the same with matched operands. -/
def ClosedK (l r : DFun) (ks : List (DKey × DKey)) : Prop :=
  ∀ k k', (k, k') ∈ ks → (∃ x y, k = .blk x ∧ k' = .blk y) ∨
    (∃ a b, k = .val a ∧ k' = .val b ∧
      ∃ n : Nat, (l.args.map Prod.fst)[n]? = some a ∧ (r.args.map Prod.fst)[n]? = some b) ∨
    ∃ i ∈ l.all, ∃ j ∈ r.all, k = .val i.id ∧ k' = .val j.id ∧ i.code = j.code ∧ i.ty = j.ty ∧
      List.Forall₂ (OpEq ks) i.ops j.ops

theorem forall2_mono {ks ks' : List (DKey × DKey)} (h : ∀ p ∈ ks, p ∈ ks') {xs ys : List DOp}
    (hf : List.Forall₂ (OpEq ks) xs ys) : List.Forall₂ (OpEq ks') xs ys := by
  induction hf with
  | nil => exact .nil
  | cons e _ ih => exact .cons (e.mono h) ih

theorem closed_snoc {l r : DFun} {ks : List (DKey × DKey)} (h : ClosedK l r ks) {i j : DInst} (hi : i ∈ l.all)
    (hj : j ∈ r.all) (hc : i.code = j.code) (ht : i.ty = j.ty)
    (hf : List.Forall₂ (OpEq (ks ++ [(DKey.val i.id, DKey.val j.id)])) i.ops j.ops) :
    ClosedK l r (ks ++ [(DKey.val i.id, DKey.val j.id)]) := by
  intro k k' hk
  rcases List.mem_append.mp hk with hk | hk
  · rcases h k k' hk with h | h | ⟨i', hi', j', hj', e1, e2, h1, h2, h3⟩
    · exact .inl h
    · exact .inr (.inl h)
    · exact .inr (.inr ⟨i', hi', j', hj', e1, e2, h1, h2, forall2_mono (fun p hp => List.mem_append_left _ hp) h3⟩)
  · rw [List.mem_singleton] at hk
    injection hk with e1 e2
    exact .inr (.inr ⟨i, hi, j, hj, e1, e2, hc, ht, hf⟩)

structure RInv (l r : DFun) (ks : List (DKey × DKey)) (st : DSt) : Prop where
  sync : Sync ks st
  base : BaseSt st
  closed : ClosedK l r ks
  argsL : ∀ a ∈ l.args.map Prod.fst, DKey.val a ∈ ks.map Prod.fst
  argsR : ∀ a ∈ r.args.map Prod.fst, DKey.val a ∈ ks.map Prod.snd

def WhereD (l r : DFun) (ks : List (DKey × DKey)) (ls rs : List DInst) : Reloc → Prop
  | .none => SideP l (ks.map Prod.fst) ls ∧ SideP r (ks.map Prod.snd) rs
  | .stored .first b e => SideA l (ks.map Prod.fst) ls b e ∧ SideP r (ks.map Prod.snd) rs
  | .stored .second b e => SideP l (ks.map Prod.fst) ls ∧ SideA r (ks.map Prod.snd) rs b e
  | .matching .first e res => SideB l (ks.map Prod.fst) ls e res ∧ SideP r (ks.map Prod.snd) rs
  | .matching .second e res => SideP l (ks.map Prod.fst) ls ∧ SideB r (ks.map Prod.snd) rs e res

/-- No instruction is found to depend on a region. -/
def NoDep (past : Bool) (f : DFun) : Prop :=
  ∀ b e i, (∀ x ∈ b, x ∈ f.all) → i ∈ f.all → isDepending past b e i = false

/-- After a successful comparison of new instructions. -/
theorem rinv_eq {cfg : DCfg} (hcfg : cfg.inverse = false) {l r : DFun} (L : Line l) (R : Line r)
    {ks : List (DKey × DKey)} {st : DSt} (I : RInv l r ks st) {i j : DInst} (hi : i ∈ l.all) (hj : j ∈ r.all)
    (ni : DKey.val i.id ∉ ks.map Prod.fst) (nj : DKey.val j.id ∉ ks.map Prod.snd) {CL CR : Prop} (hc : CL ∨ CR)
    (hL : CL → ∀ x ∈ i.ops, Known (ks.map Prod.fst) x) (hR : CR → ∀ y ∈ j.ops, Known (ks.map Prod.snd) y)
    (h : (cmpInsts cfg ⟨l.all, r.all⟩ i j st).1 = true) :
    RInv l r (ks ++ [(DKey.val i.id, DKey.val j.id)]) (cmpInsts cfg ⟨l.all, r.all⟩ i j st).2 := by
  have hk := insts_known hcfg L.plain R.plain I.sync I.base hi hj (L.noblk i hi) (R.noblk j hj) ni nj hc hL hR
  obtain ⟨hs, h1, h2, h3⟩ := hk.2.1 h
  exact ⟨hs, hk.1.base I.base, closed_snoc I.closed hi hj h1 h2 h3,
    fun a ha => by simp only [List.map_append]; exact List.mem_append_left _ (I.argsL a ha),
    fun a ha => by simp only [List.map_append]; exact List.mem_append_left _ (I.argsR a ha)⟩

theorem rinv_undo {l r : DFun} {ks : List (DKey × DKey)} {st st' : DSt} (I : RInv l r ks st) {i j : Nat}
    (hu : Upd st st') (E : Extra (ks ++ [(DKey.val i, DKey.val j)]) [] [] st') : RInv l r ks (undoLast i j st') :=
  ⟨undo_sync E (hu.base I.base), ((hu.trans (Upd.undo i j st')).base I.base), I.closed, I.argsL, I.argsR⟩

theorem rinv_reloc {l r : DFun} {ks : List (DKey × DKey)} {st : DSt} (I : RInv l r ks st) (rel : Reloc) :
    RInv l r ks { st with reloc := rel } :=
  ⟨⟨I.sync.snL, I.sync.snR, I.sync.repL, I.sync.repR, I.sync.left, I.sync.right⟩,
   ⟨I.base.ignL, I.base.ignR, I.base.repL, I.base.repR, I.base.inv, I.base.swapped⟩, I.closed, I.argsL, I.argsR⟩

theorem erase_none {keys : List DKey} {k : DKey} (h : k ∉ keys) : snErase k (numbered keys) = numbered keys := by
  unfold snErase
  rw [List.filter_eq_self]
  intro p hp
  have : p.1 ∈ keys := by
    have := List.mem_map_of_mem (f := Prod.fst) hp
    rwa [numbered, List.zipIdx_map_fst] at this
  exact decide_eq_true fun e => h (e ▸ this)

theorem rinv_again {l r : DFun} {ks : List (DKey × DKey)} {st : DSt} (I : RInv l r ks st) {i j : Nat}
    (ni : DKey.val i ∉ ks.map Prod.fst) (nj : DKey.val j ∉ ks.map Prod.snd) : RInv l r ks (undoLast i j st) := by
  refine ⟨⟨?_, ?_, I.sync.repL, I.sync.repR, I.sync.left, I.sync.right⟩, (Upd.undo i j st).base I.base, I.closed,
    I.argsL, I.argsR⟩
  · show snErase _ st.snL = _
    rw [I.sync.snL, erase_none ni]
  · show snErase _ st.snR = _
    rw [I.sync.snR, erase_none nj]

theorem base_reloc {st : DSt} (B : BaseSt st) (rel : Reloc) : BaseSt { st with reloc := rel } :=
  ⟨B.ignL, B.ignR, B.repL, B.repR, B.inv, B.swapped⟩

/-! ### Searches -/

theorem searchR_ok {cfg : DCfg} (hcfg : cfg.inverse = false) {l r : DFun} (L : Line l) (R : Line r)
    (hd : NoDep cfg.past r) {ks : List (DKey × DKey)} {st : DSt} (I : RInv l r ks st) {i : DInst} (hi : i ∈ l.all)
    (ni : DKey.val i.id ∉ ks.map Prod.fst) (hL : ∀ x ∈ i.ops, Known (ks.map Prod.fst) x) (b : List DInst)
    (hb : ∀ x ∈ b, x ∈ r.all) : ∀ (rs : List DInst) (prev : Nat) (out : List DInst × DSt × Bool),
      (∀ x ∈ rs, x ∈ r.all) → OpenK (ks.map Prod.snd) rs →
      searchR cfg ⟨l.all, r.all⟩ b i prev rs st = some out →
      ∃ mid j tail s, rs = mid ++ j :: tail ∧
        out = (j :: tail, { s with reloc := .stored .second b ((prev :: idsOf mid).getLast (by simp)) }, true) ∧
        RInv l r (ks ++ [(DKey.val i.id, DKey.val j.id)]) s
  | [], _, _, _, _, h => by simp [searchR] at h
  | j :: rs, prev, out, hm, ho, h => by
    have hj := hm j (by simp)
    have nj := ho j (by simp)
    have hk := insts_known hcfg L.plain R.plain I.sync I.base hi hj (L.noblk i hi) (R.noblk j hj) ni nj
      (CL := True) (CR := False) (.inl trivial) (fun _ => hL) (fun h => h.elim)
    unfold searchR at h
    cases hx : (cmpInsts cfg ⟨l.all, r.all⟩ i j st).1 with
    | true =>
      simp only [hx, if_true, hd b prev j hb hj, Bool.false_eq_true, if_false, Option.some.injEq] at h
      exact ⟨[], j, rs, _, rfl, h.symm, rinv_eq hcfg L R I hi hj ni nj (CL := True) (CR := False) (.inl trivial)
        (fun _ => hL) (fun h => h.elim) hx⟩
    | false =>
      simp only [hx, Bool.false_eq_true, if_false] at h
      rw [hk.1.restore] at h
      obtain ⟨mid, j', tail, s, e1, e2, e3⟩ := searchR_ok hcfg L R hd I hi ni hL b hb rs j.id out
        (fun x hx => hm x (by simp [hx])) (fun x hx => ho x (by simp [hx])) h
      refine ⟨j :: mid, j', tail, s, by simp [e1], ?_, e3⟩
      rw [e2]
      simp [idsOf]

theorem searchL_ok {cfg : DCfg} (hcfg : cfg.inverse = false) {l r : DFun} (L : Line l) (R : Line r)
    (hd : NoDep cfg.past l) {ks : List (DKey × DKey)} {st : DSt} (I : RInv l r ks st) {j : DInst} (hj : j ∈ r.all)
    (nj : DKey.val j.id ∉ ks.map Prod.snd) (hR : ∀ x ∈ j.ops, Known (ks.map Prod.snd) x) (b : List DInst)
    (hb : ∀ x ∈ b, x ∈ l.all) : ∀ (ls : List DInst) (prev : Nat) (out : List DInst × DSt × Bool),
      (∀ x ∈ ls, x ∈ l.all) → OpenK (ks.map Prod.fst) ls →
      searchL cfg ⟨l.all, r.all⟩ b j prev ls st = some out →
      ∃ mid i tail s, ls = mid ++ i :: tail ∧
        out = (i :: tail, { s with reloc := .stored .first b ((prev :: idsOf mid).getLast (by simp)) }, true) ∧
        RInv l r (ks ++ [(DKey.val i.id, DKey.val j.id)]) s
  | [], _, _, _, _, h => by simp [searchL] at h
  | i :: ls, prev, out, hm, ho, h => by
    have hi := hm i (by simp)
    have ni := ho i (by simp)
    have hk := insts_known hcfg L.plain R.plain I.sync I.base hi hj (L.noblk i hi) (R.noblk j hj) ni nj
      (CL := False) (CR := True) (.inr trivial) (fun h => h.elim) (fun _ => hR)
    unfold searchL at h
    cases hx : (cmpInsts cfg ⟨l.all, r.all⟩ i j st).1 with
    | true =>
      simp only [hx, if_true, hd b prev i hb hi, Bool.false_eq_true, if_false, Option.some.injEq] at h
      exact ⟨[], i, ls, _, rfl, h.symm, rinv_eq hcfg L R I hi hj ni nj (CL := False) (CR := True) (.inr trivial)
        (fun h => h.elim) (fun _ => hR) hx⟩
    | false =>
      simp only [hx, Bool.false_eq_true, if_false] at h
      rw [hk.1.restore] at h
      obtain ⟨mid, j', tail, s, e1, e2, e3⟩ := searchL_ok hcfg L R hd I hj nj hR b hb ls i.id out
        (fun x hx => hm x (by simp [hx])) (fun x hx => ho x (by simp [hx])) h
      refine ⟨i :: mid, j', tail, s, by simp [e1], ?_, e3⟩
      rw [e2]
      simp [idsOf]

theorem last_split (t : DInst) (mid : List DInst) : ∃ reg u, t :: mid = reg ++ [u] ∧
    (t.id :: idsOf mid).getLast (by simp) = u.id := by
  have h : t :: mid ≠ [] := by simp
  refine ⟨(t :: mid).dropLast, (t :: mid).getLast h, (List.dropLast_append_getLast h).symm, ?_⟩
  have : (t.id :: idsOf mid) = (t :: mid).map DInst.id := by simp [idsOf]
  simp only [this, List.getLast_map]

/-- What a search finds. -/
theorem found_ok {cfg : DCfg} (hcfg : cfg.inverse = false) {l r : DFun} (L : Line l) (R : Line r)
    (hdl : NoDep cfg.past l) (hdr : NoDep cfg.past r) {ks : List (DKey × DKey)} {st : DSt} {i j : DInst}
    {ls rs : List DInst} (I : RInv l r ks (undoLast i.id j.id st)) (hL : SideP l (ks.map Prod.fst) (i :: ls))
    (hR : SideP r (ks.map Prod.snd) (j :: rs)) {out : List DInst × List DInst × DSt}
    (h : findReloc cfg ⟨l.all, r.all⟩ i ls j rs st = some out) :
    ∃ ks', RInv l r ks' out.2.2 ∧ WhereD l r ks' out.1.tail out.2.1.tail out.2.2.reloc := by
  obtain ⟨p, e1, hp, ho⟩ := hL
  obtain ⟨q, e2, hq, ho'⟩ := hR
  have hL : SideP l (ks.map Prod.fst) (i :: ls) := ⟨p, e1, hp, ho⟩
  have hR : SideP r (ks.map Prod.snd) (j :: rs) := ⟨q, e2, hq, ho'⟩
  have ni := ho i (by simp)
  have nj := ho' j (by simp)
  have hi : i ∈ l.all := by rw [e1]; simp
  have hj : j ∈ r.all := by rw [e2]; simp
  have kL := known_ops L I.argsL e1 hp
  have kR := known_ops R I.argsR e2 hq
  have mL : ∀ x ∈ i :: ls, x ∈ l.all := fun x hx => by rw [e1]; exact List.mem_append_right _ hx
  have mR : ∀ x ∈ j :: rs, x ∈ r.all := fun x hx => by rw [e2]; exact List.mem_append_right _ hx
  have fromL : ∀ s, RInv l r ks s →
      (match searchL cfg ⟨l.all, r.all⟩ (i :: ls) j i.id ls s with
      | some (iL, st, true) => some (iL, j :: rs, st)
      | _ => none) = some out →
      ∃ ks', RInv l r ks' out.2.2 ∧ WhereD l r ks' out.1.tail out.2.1.tail out.2.2.reloc := by
    intro s I h
    cases hs : searchL cfg ⟨l.all, r.all⟩ (i :: ls) j i.id ls s with
    | none => rw [hs] at h; cases h
    | some o =>
      obtain ⟨mid, i', tail, s', f1, f2, f3⟩ := searchL_ok hcfg L R hdl I hj nj kR (i :: ls) mL ls i.id o
        (fun x hx => mL x (by simp [hx])) (fun x hx => ho x (by simp [hx])) hs
      rw [hs, f2] at h
      simp only [Option.some.injEq] at h
      rw [← h]
      refine ⟨_, rinv_reloc f3 _, ?_⟩
      obtain ⟨reg, u, g1, g2⟩ := last_split i mid
      have hall : i :: ls = reg ++ u :: i' :: tail := by
        have : i :: ls = (i :: mid) ++ i' :: tail := by simp [f1]
        rw [this, g1]; simp
      show SideA l _ tail (i :: ls) _ ∧ SideP r _ rs
      rw [g2]
      simp only [List.map_append, List.map_cons, List.map_nil]
      rw [hall] at hL ⊢
      exact ⟨sideP_found L hL, sideP_next R hR⟩
  unfold findReloc at h
  simp only at h
  cases hs : searchR cfg ⟨l.all, r.all⟩ (j :: rs) i j.id rs (undoLast i.id j.id st) with
  | some o =>
    obtain ⟨mid, j', tail, s', f1, f2, f3⟩ := searchR_ok hcfg L R hdr I hi ni kL (j :: rs) mR rs j.id o
      (fun x hx => mR x (by simp [hx])) (fun x hx => ho' x (by simp [hx])) hs
    rw [hs, f2] at h
    simp only [Option.some.injEq] at h
    rw [← h]
    refine ⟨_, rinv_reloc f3 _, ?_⟩
    obtain ⟨reg, u, g1, g2⟩ := last_split j mid
    have hall : j :: rs = reg ++ u :: j' :: tail := by
      have : j :: rs = (j :: mid) ++ j' :: tail := by simp [f1]
      rw [this, g1]; simp
    show SideP l _ ls ∧ SideA r _ tail (j :: rs) _
    rw [g2]
    simp only [List.map_append, List.map_cons, List.map_nil]
    rw [hall] at hR ⊢
    exact ⟨sideP_next L hL, sideP_found R hR⟩
  | none =>
    rw [hs] at h
    exact fromL _ (rinv_again I ni nj) h

/-! ### The loop -/

theorem sideB_head {f : DFun} {keys : List DKey} {i : DInst} {rest res : List DInst} {e : Nat}
    (h : SideB f keys (i :: rest) e res) :
    ∃ p, f.all = p ++ i :: rest ∧ DoneK keys p ∧ DKey.val i.id ∉ keys := by
  obtain ⟨p, reg, t, q, h1, h2, h3, hp, hq, hr, ho⟩ := h
  refine ⟨p, by rw [h1, h2], hp, ?_⟩
  cases reg with
  | nil =>
    simp only [List.nil_append, List.cons.injEq] at h2
    rw [h2.1]; exact hr t (by simp)
  | cons k reg =>
    simp only [List.cons_append, List.cons.injEq] at h2
    rw [h2.1]; exact hr k (by simp)

theorem sideA_head {f : DFun} {keys : List DKey} {i : DInst} {rest b : List DInst} {e : Nat}
    (h : SideA f keys (i :: rest) b e) :
    (∃ p, f.all = p ++ i :: rest) ∧ DKey.val i.id ∉ keys ∧ (∀ x ∈ b, x ∈ f.all) ∧ ∃ k b', b = k :: b' := by
  obtain ⟨p, reg, t, q, h1, h2, h3, hp, hq, hr, ho⟩ := h
  refine ⟨⟨p ++ (reg ++ t :: q), by simp [h1]⟩, ho i (by simp), fun x hx => ?_, ?_⟩
  · rw [h1, ← h2]; exact List.mem_append_right _ hx
  · cases reg with
    | nil => exact ⟨_, _, h2⟩
    | cons k reg => exact ⟨_, _, h2⟩

theorem where_heads {l r : DFun} (L : Line l) (R : Line r) {ks : List (DKey × DKey)} {st : DSt} (I : RInv l r ks st)
    {i j : DInst} {ls rs : List DInst} {rel : Reloc} (h : WhereD l r ks (i :: ls) (j :: rs) rel) :
    i ∈ l.all ∧ j ∈ r.all ∧ DKey.val i.id ∉ ks.map Prod.fst ∧ DKey.val j.id ∉ ks.map Prod.snd ∧
    ((∀ b e, rel ≠ .stored .first b e) → ∀ x ∈ i.ops, Known (ks.map Prod.fst) x) ∧
    ((∀ b e, rel ≠ .stored .second b e) → ∀ x ∈ j.ops, Known (ks.map Prod.snd) x) := by
  have pl : SideP l (ks.map Prod.fst) (i :: ls) →
      i ∈ l.all ∧ DKey.val i.id ∉ ks.map Prod.fst ∧ ∀ x ∈ i.ops, Known (ks.map Prod.fst) x := by
    rintro ⟨p, e, hp, ho⟩
    exact ⟨by rw [e]; simp, ho i (by simp), known_ops L I.argsL e hp⟩
  have pr : SideP r (ks.map Prod.snd) (j :: rs) →
      j ∈ r.all ∧ DKey.val j.id ∉ ks.map Prod.snd ∧ ∀ x ∈ j.ops, Known (ks.map Prod.snd) x := by
    rintro ⟨p, e, hp, ho⟩
    exact ⟨by rw [e]; simp, ho j (by simp), known_ops R I.argsR e hp⟩
  cases rel with
  | none =>
    obtain ⟨h1, h2⟩ := h
    exact ⟨(pl h1).1, (pr h2).1, (pl h1).2.1, (pr h2).2.1, fun _ => (pl h1).2.2, fun _ => (pr h2).2.2⟩
  | stored p b e =>
    cases p with
    | first =>
      obtain ⟨h1, h2⟩ := h
      obtain ⟨⟨p, hp⟩, hn, _⟩ := sideA_head h1
      exact ⟨by rw [hp]; simp, (pr h2).1, hn, (pr h2).2.1, fun h => absurd rfl (h b e), fun _ => (pr h2).2.2⟩
    | second =>
      obtain ⟨h1, h2⟩ := h
      obtain ⟨⟨p, hp⟩, hn, _⟩ := sideA_head h2
      exact ⟨(pl h1).1, by rw [hp]; simp, (pl h1).2.1, hn, fun _ => (pl h1).2.2, fun h => absurd rfl (h b e)⟩
  | matching p e res =>
    cases p with
    | first =>
      obtain ⟨h1, h2⟩ := h
      obtain ⟨p, hp, hd, hn⟩ := sideB_head h1
      exact ⟨by rw [hp]; simp, (pr h2).1, hn, (pr h2).2.1, fun _ => known_ops L I.argsL hp hd, fun _ => (pr h2).2.2⟩
    | second =>
      obtain ⟨h1, h2⟩ := h
      obtain ⟨p, hp, hd, hn⟩ := sideB_head h2
      exact ⟨(pl h1).1, by rw [hp]; simp, (pl h1).2.1, hn, fun _ => (pl h1).2.2, fun _ => known_ops R I.argsR hp hd⟩

theorem skipCast_none {f : DFun} (p : Plain f) {i : DInst} (hi : i ∈ f.all) (all : List DInst) (n : Nat) :
    maySkipCast all n i = none := by
  unfold maySkipCast
  split
  · next k o hc _ => exact absurd hc ((p i hi).2.1 k)
  · rfl

theorem afterDiff_plain {cfg : DCfg} (h1 : cfg.reorder = false) (h2 : cfg.inverse = false) {l r : DFun} (pl : Plain l)
    (pr : Plain r) {i j : DInst} (hi : i ∈ l.all) (hj : j ∈ r.all) (ls rs : List DInst) (st : DSt) :
    afterDiff cfg ⟨l.all, r.all⟩ i ls j rs st = match st.reloc with
    | .stored .first begin_ end_ =>
      some (begin_, j :: rs, { undoLast i.id j.id st with reloc := .matching .first end_ (i :: ls) })
    | .stored .second begin_ end_ =>
      some (i :: ls, begin_, { undoLast i.id j.id st with reloc := .matching .second end_ (j :: rs) })
    | .matching _ _ _ => none
    | .none =>
      if cfg.reloc then
        (findReloc cfg ⟨l.all, r.all⟩ i ls j rs st).map fun x => (x.1.tail, x.2.1.tail, x.2.2)
      else none := by
  have e1 : maySkipL cfg ⟨l.all, r.all⟩ i st = (false, st) := by
    simp [maySkipL, h1, skipCast_none pl hi]
  have e2 : maySkipR cfg ⟨l.all, r.all⟩ j st = (false, st) := by
    simp [maySkipR, h1, skipCast_none pr hj]
  simp only [afterDiff, e1, e2, h1, h2, Bool.or_self, Bool.false_and, Bool.false_eq_true, if_false]
  cases st.reloc with
  | none => rfl
  | stored p _ _ => cases p <;> rfl
  | matching _ _ _ => rfl

/-- A comparison that goes back after an unmatched value was seen does not succeed. -/
theorem blocks_extra {cfg : DCfg} (h1 : cfg.reorder = false) (h2 : cfg.inverse = false) {l r : DFun} (pl : Plain l)
    (pr : Plain r) {ks : List (DKey × DKey)} {st st1 st' : DSt} {i j : DInst} {i' j' : Nat} {jL jR : List DKey}
    (E : Extra (ks ++ [(DKey.val i', DKey.val j')]) jL jR st) (hne : jL ≠ [] ∨ jR ≠ []) (B : BaseSt st1)
    (hL : st1.snL = (undoLast i' j' st).snL) (hR : st1.snR = (undoLast i' j' st).snR)
    (hi : i ∈ l.all) (hj : j ∈ r.all) (ni : DKey.val i.id ∉ ks.map Prod.fst) (nj : DKey.val j.id ∉ ks.map Prod.snd)
    {p : Prog} {e : Nat} {res : List DInst} (hrel : st1.reloc = .matching p e res) (n : Nat) (ls rs : List DInst) :
    cmpBlocks cfg ⟨l.all, r.all⟩ n (i :: ls) (j :: rs) st1 ≠ some (true, st') := by
  intro h
  cases n with
  | zero => simp [cmpBlocks] at h
  | succ n =>
    have hx := insts_extra h2 (r := r) pl E hne B hL hR hi ni nj
    unfold cmpBlocks at h
    simp only [hx.1, Bool.false_eq_true, if_false, afterDiff_plain h1 h2 pl pr hi hj, hx.2, hrel] at h
    cases h

/-- In functions with one block, everything is matched in the end. -/
theorem blocks_reloc {cfg : DCfg} (h1 : cfg.reorder = false) (h2 : cfg.inverse = false) {l r : DFun} (L : Line l)
    (R : Line r) (hdl : NoDep cfg.past l) (hdr : NoDep cfg.past r) :
    ∀ (n : Nat) (ls rs : List DInst) (st st' : DSt) (ks : List (DKey × DKey)), RInv l r ks st →
      WhereD l r ks ls rs st.reloc → cmpBlocks cfg ⟨l.all, r.all⟩ n ls rs st = some (true, st') → st'.reloc = .none →
      ∃ ks', RInv l r ks' st' ∧ DoneK (ks'.map Prod.fst) l.all ∧ DoneK (ks'.map Prod.snd) r.all
  | n, [], [], st, st', ks, I, W, h, hrel => by
    have : st = st' := by cases n <;> simpa [cmpBlocks] using h
    subst this
    rw [hrel] at W
    obtain ⟨⟨p, e1, d1, _⟩, ⟨q, e2, d2, _⟩⟩ := W
    exact ⟨ks, I, by rw [e1]; simpa using d1, by rw [e2]; simpa using d2⟩
  | n, [], _ :: _, _, _, _, _, _, h, _ => by cases n <;> simp [cmpBlocks] at h
  | n, _ :: _, [], _, _, _, _, _, h, _ => by cases n <;> simp [cmpBlocks] at h
  | 0, _ :: _, _ :: _, _, _, _, _, _, h, _ => by simp [cmpBlocks] at h
  | n + 1, i :: ls, j :: rs, st, st', ks, I, W, h, hrel => by
    obtain ⟨hi, hj, ni, nj, kL, kR⟩ := where_heads L R I W
    have hc : (∀ b e, st.reloc ≠ .stored .first b e) ∨ (∀ b e, st.reloc ≠ .stored .second b e) := by
      cases st.reloc with
      | none => exact .inl fun _ _ h => by cases h
      | matching _ _ _ => exact .inl fun _ _ h => by cases h
      | stored p _ _ =>
        cases p with
        | first => exact .inr fun _ _ h => by cases h
        | second => exact .inl fun _ _ h => by cases h
    have hk := insts_known h2 L.plain R.plain I.sync I.base hi hj (L.noblk i hi) (R.noblk j hj) ni nj hc kL kR
    have hrel2 := hk.1.reloc
    unfold cmpBlocks at h
    cases hx : (cmpInsts cfg ⟨l.all, r.all⟩ i j st).1 with
    | true =>
      have I' := rinv_eq h2 L R I hi hj ni nj hc kL kR hx
      simp only [hx, if_true] at h
      generalize (cmpInsts cfg ⟨l.all, r.all⟩ i j st).2 = s at h hrel2 I'
      have f1 : (ks ++ [(DKey.val i.id, DKey.val j.id)]).map Prod.fst = ks.map Prod.fst ++ [DKey.val i.id] := by simp
      have f2 : (ks ++ [(DKey.val i.id, DKey.val j.id)]).map Prod.snd = ks.map Prod.snd ++ [DKey.val j.id] := by simp
      cases e : st.reloc with
      | none =>
        rw [e] at W hrel2
        simp only [afterEq, hrel2] at h
        refine blocks_reloc h1 h2 L R hdl hdr n ls rs s st' _ I' ?_ h hrel
        rw [hrel2]
        exact ⟨f1 ▸ sideP_next L W.1, f2 ▸ sideP_next R W.2⟩
      | stored p b e' =>
        rw [e] at W hrel2
        cases p with
        | first =>
          have hd := hdl b e' i (sideA_head W.1).2.2.1 hi
          simp only [afterEq, hrel2, hd, Bool.false_eq_true, if_false] at h
          refine blocks_reloc h1 h2 L R hdl hdr n ls rs s st' _ I' ?_ h hrel
          rw [hrel2]
          exact ⟨f1 ▸ sideA_next L W.1, f2 ▸ sideP_next R W.2⟩
        | second =>
          have hd := hdr b e' j (sideA_head W.2).2.2.1 hj
          simp only [afterEq, hrel2, hd, Bool.false_eq_true, if_false] at h
          refine blocks_reloc h1 h2 L R hdl hdr n ls rs s st' _ I' ?_ h hrel
          rw [hrel2]
          exact ⟨f1 ▸ sideP_next L W.1, f2 ▸ sideA_next R W.2⟩
      | matching p e' res =>
        rw [e] at W hrel2
        cases p with
        | first =>
          simp only [afterEq, hrel2] at h
          have hb := sideB_next L W.1
          by_cases he : i.id = e'
          · rw [if_pos he] at h hb
            exact blocks_reloc h1 h2 L R hdl hdr n res rs _ st' _ (rinv_reloc I' .none)
              ⟨f1 ▸ hb, f2 ▸ sideP_next R W.2⟩ h hrel
          · rw [if_neg he] at h hb
            refine blocks_reloc h1 h2 L R hdl hdr n ls rs s st' _ I' ?_ h hrel
            rw [hrel2]
            exact ⟨f1 ▸ hb, f2 ▸ sideP_next R W.2⟩
        | second =>
          simp only [afterEq, hrel2] at h
          have hb := sideB_next R W.2
          by_cases he : j.id = e'
          · rw [if_pos he] at h hb
            exact blocks_reloc h1 h2 L R hdl hdr n ls res _ st' _ (rinv_reloc I' .none)
              ⟨f1 ▸ sideP_next L W.1, f2 ▸ hb⟩ h hrel
          · rw [if_neg he] at h hb
            refine blocks_reloc h1 h2 L R hdl hdr n ls rs s st' _ I' ?_ h hrel
            rw [hrel2]
            exact ⟨f1 ▸ sideP_next L W.1, f2 ▸ hb⟩
    | false =>
      obtain ⟨jL, jR, E, hjL, hjR⟩ := hk.2.2 hx
      have hu := hk.1
      simp only [hx, Bool.false_eq_true, if_false, afterDiff_plain h1 h2 L.plain R.plain hi hj] at h
      generalize (cmpInsts cfg ⟨l.all, r.all⟩ i j st).2 = s at h hrel2 E hu
      cases e : st.reloc with
      | none =>
        rw [e] at W hrel2
        have e1 : jL = [] := hjL fun _ _ h => by rw [e] at h; cases h
        have e2 : jR = [] := hjR fun _ _ h => by rw [e] at h; cases h
        subst e1 e2
        rw [hrel2] at h
        simp only at h
        cases hre : cfg.reloc with
        | false => simp [hre] at h
        | true =>
          simp only [hre, if_true] at h
          cases hf : findReloc cfg ⟨l.all, r.all⟩ i ls j rs s with
          | none => rw [hf] at h; simp at h
          | some out =>
            rw [hf] at h
            simp only [Option.map_some] at h
            obtain ⟨ks', I', W'⟩ := found_ok h2 L R hdl hdr (rinv_undo I hu E) W.1 W.2 hf
            exact blocks_reloc h1 h2 L R hdl hdr n _ _ _ st' ks' I' W' h hrel
      | matching p e' res =>
        rw [e] at hrel2
        rw [hrel2] at h
        simp at h
      | stored p b e' =>
        rw [e] at W hrel2
        rw [hrel2] at h
        cases p with
        | first =>
          simp only at h
          by_cases hne : jL ≠ [] ∨ jR ≠ []
          · obtain ⟨k, b', rfl⟩ := (sideA_head W.1).2.2.2
            obtain ⟨p, hp, hd, hn⟩ := sideB_head (sideA_back W.1)
            have Bs := base_reloc ((hu.trans (Upd.undo i.id j.id s)).base I.base) (.matching .first e' (i :: ls))
            exact absurd h (blocks_extra h1 h2 L.plain R.plain E hne Bs rfl rfl (by rw [hp]; simp) hj hn nj rfl n b' rs)
          · simp only [ne_eq, not_or, not_not] at hne
            obtain ⟨rfl, rfl⟩ := hne
            exact blocks_reloc h1 h2 L R hdl hdr n b (j :: rs) _ st' ks
              (rinv_reloc (rinv_undo I hu E) (.matching .first e' (i :: ls))) ⟨sideA_back W.1, W.2⟩ h hrel
        | second =>
          simp only at h
          by_cases hne : jL ≠ [] ∨ jR ≠ []
          · obtain ⟨k, b', rfl⟩ := (sideA_head W.2).2.2.2
            obtain ⟨p, hp, hd, hn⟩ := sideB_head (sideA_back W.2)
            have Bs := base_reloc ((hu.trans (Upd.undo i.id j.id s)).base I.base) (.matching .second e' (j :: rs))
            exact absurd h (blocks_extra h1 h2 L.plain R.plain E hne Bs rfl rfl hi (by rw [hp]; simp) ni hn rfl n ls b')
          · simp only [ne_eq, not_or, not_not] at hne
            obtain ⟨rfl, rfl⟩ := hne
            exact blocks_reloc h1 h2 L R hdl hdr n (i :: ls) b _ st' ks
              (rinv_reloc (rinv_undo I hu E) (.matching .second e' (j :: rs))) ⟨W.1, sideA_back W.2⟩ h hrel

end DK
