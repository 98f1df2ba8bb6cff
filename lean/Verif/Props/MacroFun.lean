import Verif.Spec.MacroFun
import Verif.Props.MacroUse
import Verif.Model.Transforms

/-!
C178 and C179: what is reported for calls.
-/

set_option autoImplicit false

namespace DK

open Spec

/-! ### C178 -/

private abbrev NamedIn (funs : List PFun) (n : Str) : Prop := ∃ f ∈ funs, f.name = n

private abbrev TableOk (st : AbsSt) : Prop :=
  (∀ h n, st.map.get? h = some n → NamedIn st.funs n) ∧ ∀ f ∈ st.funs, f.blocks = []

private abbrev TableGrows (st st' : AbsSt) : Prop := ∀ f ∈ st.funs, f ∈ st'.funs

/-- Calls in the new instructions: calls of generated functions, or calls that were there. -/
private abbrev KnownCall (st : AbsSt) (old : List PInst) (i : PInst) : Prop :=
  ∀ k c s as, i = .call k c s as → ∃ n, c = .fn n ∧ (NamedIn st.funs n ∨ .call k (.fn n) s as ∈ old)

private theorem known_mono {st st' : AbsSt} {old old' : List PInst} {i : PInst} (g : TableGrows st st') (ho : ∀ x ∈ old, x ∈ old')
    (h : KnownCall st old i) : KnownCall st' old' i := by
  intro k c s as e
  obtain ⟨n, e, h⟩ := h k c s as e
  refine ⟨n, e, ?_⟩
  rcases h with ⟨f, hf, e⟩ | h
  · exact .inl ⟨f, g f hf, e⟩
  · exact .inr (ho _ h)

private theorem funFor_known {st : AbsSt} (h : TableOk st) (s : PSig) (c : PCallee) :
    TableOk (absFunFor st s c).2 ∧ TableGrows st (absFunFor st s c).2 ∧ NamedIn (absFunFor st s c).2.funs (absFunFor st s c).1 := by
  unfold absFunFor
  cases hg : st.map.get? (absHash s c) with
  | some n => exact ⟨h, fun _ h => h, h.1 _ _ hg⟩
  | none =>
    dsimp only
    refine ⟨⟨fun x n hx => ?_, fun f hf => ?_⟩, fun f hf => List.mem_append_left _ hf, _,
      List.mem_append_right _ (List.mem_singleton.2 rfl), rfl⟩
    · rw [Dict.get?_set] at hx
      split at hx
      · cases hx
        exact ⟨_, List.mem_append_right _ (List.mem_singleton.2 rfl), rfl⟩
      · obtain ⟨f, hf, e⟩ := h.1 x n hx
        exact ⟨f, List.mem_append_left _ hf, e⟩
    · rcases List.mem_append.1 hf with hf | hf
      · exact h.2 f hf
      · rw [List.mem_singleton.1 hf]

private theorem inst_known {st : AbsSt} (h : TableOk st) (i : PInst) :
    TableOk (absInst st i).2 ∧ TableGrows st (absInst st i).2 ∧ KnownCall (absInst st i).2 [i] (absInst st i).1 := by
  cases i with
  | call k c s as =>
    cases c with
    | fn n =>
      refine ⟨h, fun _ h => h, fun k c s as e => ?_⟩
      cases e
      exact ⟨n, rfl, .inr (List.mem_singleton.2 rfl)⟩
    | ptr v =>
      obtain ⟨h1, h2, h3⟩ := funFor_known h s (.ptr v)
      refine ⟨h1, h2, fun k c s as e => ?_⟩
      cases e
      exact ⟨_, rfl, .inl h3⟩
    | asm t c =>
      obtain ⟨h1, h2, h3⟩ := funFor_known h s (.asm t c)
      refine ⟨h1, h2, fun k c s as e => ?_⟩
      cases e
      exact ⟨_, rfl, .inl h3⟩
  | op k c as => exact ⟨h, fun _ h => h, fun _ _ _ _ e => nomatch e⟩
  | phi k inc => exact ⟨h, fun _ h => h, fun _ _ _ _ e => nomatch e⟩

private theorem absInsts_known : ∀ (l : List PInst) {st : AbsSt}, TableOk st →
    TableOk (absInsts st l).2 ∧ TableGrows st (absInsts st l).2 ∧ ∀ i ∈ (absInsts st l).1, KnownCall (absInsts st l).2 l i
  | [], st, h => ⟨h, fun _ h => h, fun _ h => nomatch h⟩
  | i :: l, st, h => by
    obtain ⟨h1, h2, h3⟩ := inst_known h i
    obtain ⟨h4, h5, h6⟩ := absInsts_known l h1
    refine ⟨h4, fun f hf => h5 f (h2 f hf), fun j hj => ?_⟩
    rcases List.mem_cons.1 (show j ∈ (absInst st i).1 :: (absInsts (absInst st i).2 l).1 from hj) with rfl | hj
    · exact known_mono h5 (fun x hx => by rw [List.mem_singleton.1 hx]; simp) h3
    · exact known_mono (fun _ h => h) (fun x hx => by simp [hx]) (h6 j hj)

private theorem blocks_known : ∀ (l : List PBlock) {st : AbsSt}, TableOk st →
    TableOk (absBlocks st l).2 ∧ TableGrows st (absBlocks st l).2 ∧
      ∀ b ∈ (absBlocks st l).1, ∀ i ∈ b.insts, KnownCall (absBlocks st l).2 (l.flatMap PBlock.insts) i
  | [], st, h => ⟨h, fun _ h => h, fun _ h => nomatch h⟩
  | b :: l, st, h => by
    obtain ⟨h1, h2, h3⟩ := absInsts_known b.insts h
    obtain ⟨h4, h5, h6⟩ := blocks_known l h1
    refine ⟨h4, fun f hf => h5 f (h2 f hf), fun b' hb i hi => ?_⟩
    rcases List.mem_cons.1 (show b' ∈ ({ b with insts := (absInsts st b.insts).1 } : PBlock) :: (absBlocks (absInsts st b.insts).2 l).1 from hb)
      with rfl | hb
    · exact known_mono h5 (fun x hx => by simp [hx]) (h3 i hi)
    · refine known_mono (fun _ h => h) (fun x hx => ?_) (h6 b' hb i hi)
      rw [List.flatMap_cons, List.mem_append]
      exact .inr hx

private theorem funs_known (called : Str → Bool) : ∀ (l : List PFun) {st : AbsSt}, TableOk st →
    TableOk (absFuns called st l).2 ∧ TableGrows st (absFuns called st l).2 ∧
      (∀ f ∈ (absFuns called st l).1, called f.name = true → ∀ b ∈ f.blocks, ∀ i ∈ b.insts,
        KnownCall (absFuns called st l).2 (l.flatMap fun f => f.blocks.flatMap PBlock.insts) i) ∧
      (absFuns called st l).1.map PFun.name = l.map PFun.name
  | [], st, h => ⟨h, fun _ h => h, (fun _ h => nomatch h), rfl⟩
  | f :: l, st, h => by
    rw [absFuns]
    split
    · obtain ⟨h1, h2, h3⟩ := blocks_known f.blocks h
      obtain ⟨h4, h5, h6, h7⟩ := funs_known called l h1
      refine ⟨h4, fun f hf => h5 f (h2 f hf), fun g hg hc b hb i hi => ?_, congrArg (f.name :: ·) h7⟩
      rcases List.mem_cons.1 hg with rfl | hg
      · refine known_mono h5 (fun x hx => ?_) (h3 b hb i hi)
        rw [List.flatMap_cons, List.mem_append]
        exact .inl hx
      · refine known_mono (fun _ h => h) (fun x hx => ?_) (h6 g hg hc b hb i hi)
        rw [List.flatMap_cons, List.mem_append]
        exact .inr hx
    · rename_i nc
      obtain ⟨h4, h5, h6, h7⟩ := funs_known called l h
      refine ⟨h4, h5, fun g hg hc b hb i hi => ?_, congrArg (f.name :: ·) h7⟩
      rcases List.mem_cons.1 hg with rfl | hg
      · exact absurd hc nc
      · refine known_mono (fun _ h => h) (fun x hx => ?_) (h6 g hg hc b hb i hi)
        rw [List.flatMap_cons, List.mem_append]
        exact .inr hx

/-- **C178**: when functions are compared, the called function is known for every call: in the functions that may be
called, only calls of functions of the module are left, if direct calls were calls of functions of the module. -/
theorem C178_known (called : Str → Bool) (P : PMod)
    (hP : ∀ f ∈ P, ∀ b ∈ f.blocks, ∀ k n s as, PInst.call k (.fn n) s as ∈ b.insts → n ∈ P.names)
    (f : PFun) (hf : f ∈ generateAbstractions called P) (hc : called f.name = true) (b : PBlock) (hb : b ∈ f.blocks)
    (k : Nat) (c : PCallee) (s : PSig) (as : List PValue) (hi : PInst.call k c s as ∈ b.insts) :
    ∃ n, c = .fn n ∧ n ∈ (generateAbstractions called P).names := by
  obtain ⟨h1, _, h3, h4⟩ := funs_known called P (st := {}) ⟨(fun _ _ h => nomatch h), fun _ h => nomatch h⟩
  rcases List.mem_append.1 hf with hf | hf
  · obtain ⟨n, e, h⟩ := h3 f hf hc b hb _ hi k c s as rfl
    refine ⟨n, e, ?_⟩
    unfold generateAbstractions PMod.names
    rw [List.map_append, List.mem_append]
    rcases h with ⟨g, hg, e⟩ | h
    · exact .inr (List.mem_map.2 ⟨g, hg, e⟩)
    · obtain ⟨g, hg, h⟩ := List.mem_flatMap.1 h
      obtain ⟨b', hb', h⟩ := List.mem_flatMap.1 h
      left
      rw [h4]
      exact hP g hg b' hb' k n s as h
  · rw [h1.2 f hf] at hb
    cases hb

/-- `f(p) { p(1); asm("nop"); g(); }`, `g() { f(g) }` -/
def callsMod : PMod :=
  [{ name := str! "f", sig := ⟨str! "void", [str! "ptr"], false⟩
     blocks := [⟨[.call 0 (.ptr (.arg 0)) ⟨str! "void", [str! "i32"], false⟩ [.const 1],
       .call 1 (.asm (str! "nop") []) ⟨str! "void", [], false⟩ [],
       .call 2 (.fn (str! "g")) ⟨str! "void", [], false⟩ []], .ret none⟩] },
   { name := str! "g", sig := ⟨str! "void", [], false⟩
     blocks := [⟨[.call 0 (.fn (str! "f")) ⟨str! "void", [str! "ptr"], false⟩ [.const 0]], .ret none⟩] }]

example : (∀ f ∈ callsMod, ∀ b ∈ f.blocks, ∀ k n s as, PInst.call k (.fn n) s as ∈ b.insts → n ∈ callsMod.names) ∧
    ((generateAbstractions (fun _ => true) callsMod).map fun f => (f.name, f.blocks.flatMap fun b => b.insts.filterMap fun i =>
      match i with | .call _ c _ _ => some c | _ => none)) =
      [(str! "f", [.fn (str! "simpll__indirect.0"), .fn (str! "simpll__inlineasm.1"), .fn (str! "g")]),
       (str! "g", [.fn (str! "f")]), (str! "simpll__indirect.0", []), (str! "simpll__inlineasm.1", [])] := by
  refine ⟨?_, by decide +kernel⟩
  intro f hf b hb k n s as hi
  simp only [callsMod, List.mem_cons, List.not_mem_nil, or_false] at hf
  rcases hf with rfl | rfl <;> simp at hb <;> subst hb <;> simp at hi
  · rw [hi.2.1]; decide
  · rw [hi.2.1]; decide

/-! ### C179 -/

/-- **C179** (full statement, see `C179_fails`): after any queries, it is reported that a function is a macro in the
other program if and only if this is so on the two lines. -/
def C179_statement : Prop :=
  ∀ (locs : Nat → MLoc), NamedDefs locs → ∀ c, QueryHistory locs c → ∀ l r callL callR ds x c',
    callDiff locs c l r callL callR = some (ds, x, c') →
      (∀ d left, x = some (d, left) → RightFunMacro callL callR (locs l) (locs r) d left) ∧
      (SameLine (locs l) (locs r) → (∃ n, CalledAndMacro callL (locs l) (locs r) n) ∨ (∃ n, CalledAndMacro callR (locs r) (locs l) n) →
        x ≠ none)

/-- A line `xx = yy;` after `foo(1);`, where `foo` is a macro in the second program only. -/
def fooLocs (l : Nat) : MLoc :=
  { file := str! "x.c", line := 7,
    defs := if l = 0 then [] else [(str! "foo", ⟨str! "foo", str! "bar(x)", str! "a.h", 1⟩)],
    text := str! "xx = yy;", before := str! "foo(1);" }

theorem fooLocs_named : NamedDefs fooLocs := by
  intro l
  refine wellNamed_of ?_
  intro p hp
  unfold fooLocs at hp
  dsimp only at hp
  split at hp
  · cases hp
  · rw [List.mem_singleton] at hp
    subst hp
    rfl

section
variable {locs : Nat → MLoc}

/-- The uses of both lines that are looked at are the recorded ones. -/
theorem callDiff_uses {c c' : UseCache} {l r : Nat} {callL callR : Option Str} {ds : List MDiff} {x : Option (MDiff × Bool)}
    (hwn : NamedDefs locs) (hc : CacheInv locs c) (h : callDiff locs c l r callL callR = some (ds, x, c')) :
    ∃ uL uR, Cached locs l uL ∧ Cached locs r uR ∧
      ((callL = none ∧ callR = none ∧ x = none) ∨ x = macroFunAt (locs l) (locs r) uL uR (callL.getD []) (callR.getD [])) := by
  unfold callDiff at h
  cases hf : findMacroDiffs locs c l r with
  | none => rw [hf] at h; cases h
  | some q =>
    obtain ⟨ds', c1⟩ := q
    rw [hf] at h
    obtain ⟨hi, uL, uR, gL, gR, _⟩ := find_inv hwn hc hf
    refine ⟨uL, uR, hi l uL gL, hi r uR gR, ?_⟩
    dsimp only at h
    split at h
    · right
      have e1 : getUses locs false c1 l = some (uL, c1) := by unfold getUses; rw [gL]
      have e2 : getUses locs false c1 r = some (uR, c1) := by unfold getUses; rw [gR]
      unfold macroFunDiff at h
      rw [e1] at h
      dsimp only at h
      rw [e2] at h
      dsimp only at h
      rw [gL] at h
      cases h
      rfl
    · rename_i hn
      cases h
      left
      rw [Bool.or_eq_true, not_or] at hn
      exact ⟨by simpa using hn.1, by simpa using hn.2, rfl⟩

private theorem cached_sound {l : Nat} {u : Dict Str MUse} (h : Cached locs l u)
    (hn : ∀ t, t = (locs l).text ∨ t = (locs l).before → AllTexts PlainNumbers (locs l).defs t)
    {n : Str} (hu : (u.get? n).isSome) : ∃ t, (t = (locs l).text ∨ t = (locs l).before) ∧ Expands (locs l).defs t n := by
  obtain ⟨ls, _, h2, h3⟩ := h
  obtain ⟨m, hm⟩ := Option.isSome_iff_exists.1 hu
  obtain ⟨i, hi⟩ := get_index hm
  obtain ⟨t, ht, he⟩ := inv_sound h3.origin (fun t ht => hn t (h2 t ht)) i n m hi
  exact ⟨t, h2 t ht, he⟩

private theorem cached_complete {l : Nat} {u : Dict Str MUse} (h : Cached locs l u)
    (he : AllTexts NoLetterAtEnd (locs l).defs (locs l).text) {n : Str} (hn : Expands (locs l).defs (locs l).text n) :
    (u.get? n).isSome := by
  obtain ⟨ls, h1, _, h3⟩ := h
  exact inv_complete h3 h1 he hn

theorem expands_ne_nil {defs : Dict Str MDef} {t n : Str} (h : Expands defs t n) : n ≠ [] := by
  cases h with
  | here _ h =>
    obtain ⟨⟨_, _, _, h, _⟩, _⟩ := h
    exact h
  | inside _ _ _ h =>
    obtain ⟨⟨_, _, _, h, _⟩, _⟩ := h
    exact h

private theorem getD_some {o : Option Str} (h : o.getD [] ≠ []) : o = some (o.getD []) := by
  cases o with
  | none => exact absurd rfl h
  | some n => rfl

/-- What is shown of C179, first part: what is reported is right, if the macros to which the line before expands are
also macros to which the line itself expands, and there are no texts as in C107. Missing: other lines before. -/
theorem C179_right_partial (hwn : NamedDefs locs) {c c' : UseCache} (hh : QueryHistory locs c) {l r : Nat}
    {callL callR : Option Str} {ds : List MDiff} {d : MDiff} {left : Bool}
    (h : callDiff locs c l r callL callR = some (ds, some (d, left), c'))
    (hn : ∀ k, k = l ∨ k = r → ∀ t, t = (locs k).text ∨ t = (locs k).before → AllTexts PlainNumbers (locs k).defs t)
    (he : ∀ k, k = l ∨ k = r → AllTexts NoLetterAtEnd (locs k).defs (locs k).text)
    (hb : ∀ k, k = l ∨ k = r → ∀ n, Expands (locs k).defs (locs k).before n → Expands (locs k).defs (locs k).text n) :
    RightFunMacro callL callR (locs l) (locs r) d left := by
  obtain ⟨uL, uR, cL, cR, hx⟩ := callDiff_uses hwn (history_inv hwn hh) h
  have sound : ∀ k, (k = l ∨ k = r) → ∀ u, Cached locs k u → ∀ n, (u.get? n).isSome → Expands (locs k).defs (locs k).text n := by
    intro k hk u hu n hs
    obtain ⟨t, ht, e⟩ := cached_sound hu (hn k hk) hs
    rcases ht with rfl | rfl
    · exact e
    · exact hb k hk n e
  have none_of : ∀ k, (k = l ∨ k = r) → ∀ u, Cached locs k u → ∀ n, (u.get? n).isNone → ¬ Expands (locs k).defs (locs k).text n := by
    intro k hk u hu n hs e
    have := cached_complete hu (he k hk) e
    rw [Option.isNone_iff_eq_none] at hs
    rw [hs] at this
    cases this
  rcases hx with ⟨_, _, hx⟩ | hx
  · cases hx
  · unfold macroFunAt at hx
    split at hx
    · rename_i hs
      refine ⟨⟨hs.1, hs.2.2⟩, ?_⟩
      split at hx
      · rename_i hm
        cases hx
        have e := sound r (.inr rfl) uR cR _ hm.2
        exact .inl ⟨rfl, ⟨getD_some (expands_ne_nil e), none_of l (.inl rfl) uL cL _ hm.1, e⟩, rfl, rfl⟩
      · split at hx
        · rename_i hm
          cases hx
          have e := sound l (.inl rfl) uL cL _ hm.1
          exact .inr ⟨rfl, ⟨getD_some (expands_ne_nil e), none_of r (.inr rfl) uR cR _ hm.2, e⟩, rfl, rfl⟩
        · cases hx
    · cases hx

/-- What is shown of C179, second part: functions that are macros are reported under the same conditions. -/
theorem C179_reported_partial (hwn : NamedDefs locs) {c c' : UseCache} (hh : QueryHistory locs c) {l r : Nat}
    {callL callR : Option Str} {ds : List MDiff} {x : Option (MDiff × Bool)}
    (h : callDiff locs c l r callL callR = some (ds, x, c'))
    (hn : ∀ k, k = l ∨ k = r → ∀ t, t = (locs k).text ∨ t = (locs k).before → AllTexts PlainNumbers (locs k).defs t)
    (he : ∀ k, k = l ∨ k = r → AllTexts NoLetterAtEnd (locs k).defs (locs k).text)
    (hb : ∀ k, k = l ∨ k = r → ∀ n, Expands (locs k).defs (locs k).before n → Expands (locs k).defs (locs k).text n)
    (hs : SameLine (locs l) (locs r))
    (hm : (∃ n, CalledAndMacro callL (locs l) (locs r) n) ∨ (∃ n, CalledAndMacro callR (locs r) (locs l) n)) :
    ∃ d left, x = some (d, left) := by
  obtain ⟨uL, uR, cL, cR, hx⟩ := callDiff_uses hwn (history_inv hwn hh) h
  have none_of : ∀ k, (k = l ∨ k = r) → ∀ u, Cached locs k u → ∀ n, ¬ Expands (locs k).defs (locs k).text n → (u.get? n).isNone := by
    intro k hk u hu n e
    rw [Option.isNone_iff_eq_none]
    cases hg : u.get? n with
    | none => rfl
    | some m =>
      obtain ⟨t, ht, e'⟩ := cached_sound hu (hn k hk) (n := n) (by rw [hg]; rfl)
      rcases ht with rfl | rfl
      · exact absurd e' e
      · exact absurd (hb k hk n e') e
  rcases hx with ⟨h1, h2, _⟩ | hx
  · rcases hm with ⟨n, e, _⟩ | ⟨n, e, _⟩
    · rw [h1] at e; cases e
    · rw [h2] at e; cases e
  · unfold macroFunAt at hx
    rw [if_pos ⟨hs.1, hs.2 ▸ hs.1, hs.2⟩] at hx
    split at hx
    · exact ⟨_, _, hx⟩
    · rename_i h1
      split at hx
      · exact ⟨_, _, hx⟩
      · rename_i h2
        exfalso
        rcases hm with ⟨n, e, e1, e2⟩ | ⟨n, e, e1, e2⟩
        · subst e
          exact h1 ⟨none_of l (.inl rfl) uL cL n e1, cached_complete cR (he r (.inr rfl)) e2⟩
        · subst e
          exact h2 ⟨cached_complete cL (he l (.inl rfl)) e2, none_of r (.inr rfl) uR cR n e1⟩

end

/-- A line `foo(xx);` at the start of a function, where `foo` is a macro in the second program only. -/
def fooCall (l : Nat) : MLoc :=
  { file := str! "x.c", line := 7,
    defs := if l = 0 then [] else [(str! "foo", ⟨str! "foo", str! "bar(x)", str! "a.h", 1⟩)],
    text := str! "foo(xx);", before := [] }

theorem noDigits_plain {t : Str} (h : ∀ c ∈ t, c.isDigit = false) : PlainNumbers t := by
  rintro w ⟨pre, post, e, _⟩ ⟨c, hc, hd⟩
  have : c ∈ t := by
    rw [e]
    simp [List.mem_of_mem_head? hc]
  rw [h c this] at hd
  cases hd

theorem lastOther_end {t : Str} {b : Char} (h : t.getLast? = some b) (hb : ¬ WordChar b) : NoLetterAtEnd t := by
  intro pre c e hc
  subst e
  rw [List.getLast?_concat] at h
  cases h
  exact absurd hc hb

example : NamedDefs fooCall ∧ (∀ k t, t = (fooCall k).text ∨ t = (fooCall k).before → AllTexts PlainNumbers (fooCall k).defs t) ∧
    (∀ k, AllTexts NoLetterAtEnd (fooCall k).defs (fooCall k).text) ∧
    (∀ k n, Expands (fooCall k).defs (fooCall k).before n → Expands (fooCall k).defs (fooCall k).text n) ∧
    SameLine (fooCall 0) (fooCall 1) ∧ CalledAndMacro (some (str! "foo")) (fooCall 0) (fooCall 1) (str! "foo") ∧
    (callDiff fooCall [] 0 1 (some (str! "foo")) none).map (fun q => q.2.1) =
      some (some (⟨str! "foo", str! "[macro function difference]", str! "[macro function difference]",
        [(str! "foo", str! "x.c", 7)], [(str! "foo (macro)", str! "x.c", 7)]⟩, true)) := by
  have one : ∀ k n d, (fooCall k).defs.get? n = some d → n = str! "foo" ∧ d = ⟨str! "foo", str! "bar(x)", str! "a.h", 1⟩ := by
    intro k n d h
    have := Dict.get?_mem h
    unfold fooCall at this
    dsimp only at this
    split at this
    · cases this
    · rw [List.mem_singleton] at this
      cases this
      exact ⟨rfl, rfl⟩
  refine ⟨fun k n d h => ?_, fun k t ht => ⟨?_, fun n d h => ?_⟩, fun k => ⟨?_, fun n d h => ?_⟩, fun k n h => ?_, ⟨by decide, rfl⟩,
    ⟨rfl, fun h => ?_, ?_⟩, by decide +kernel⟩
  · obtain ⟨rfl, rfl⟩ := one k n d h
    rfl
  · rcases ht with rfl | rfl
    · exact noDigits_plain (show ∀ c ∈ str! "foo(xx);", c.isDigit = false by decide)
    · exact noDigits_plain (fun _ h => nomatch h)
  · obtain ⟨rfl, rfl⟩ := one k n d h
    exact noDigits_plain (by decide)
  · exact lastOther_end (b := ';') rfl (by unfold WordChar; decide)
  · obtain ⟨rfl, rfl⟩ := one k n d h
    exact lastOther_end (b := ')') rfl (by unfold WordChar; decide)
  · exfalso
    have none : ∀ n, ¬ NameIn n [] := by
      rintro n ⟨⟨pre, post, e, hne, _⟩, _⟩
      simp at e
      exact hne e.2.1
    induction h with
    | here _ h => exact none _ h
    | inside _ _ _ _ ih => exact ih
  · cases h with
    | here h _ => cases h
    | inside _ _ h _ => cases h
  · exact .here (d := ⟨str! "foo", str! "bar(x)", str! "a.h", 1⟩) rfl
      ⟨⟨[], str! "(xx);", rfl, by simp, by unfold WordChar; decide, by simp, by unfold WordChar; simp⟩, by simp⟩

/-- C179 is false: a macro on the line before is taken for one of the line. -/
theorem C179_fails : ¬ C179_statement := by
  intro h
  have e : (callDiff fooLocs [] 0 1 (some (str! "foo")) none).map (fun q => q.2.1.map fun z => z.1.name) =
      some (some (str! "foo")) := by decide +kernel
  cases hq : callDiff fooLocs [] 0 1 (some (str! "foo")) none with
  | none => rw [hq] at e; cases e
  | some q =>
    obtain ⟨ds, x, c'⟩ := q
    rw [hq] at e
    cases x with
    | none => cases e
    | some z =>
      obtain ⟨d, left⟩ := z
      have hd : d.name = str! "foo" := by
        simp only [Option.map_some, Option.some.injEq] at e
        exact e
      obtain ⟨_, hr⟩ := (h fooLocs fooLocs_named [] .start 0 1 _ _ _ _ _ hq).1 d left rfl
      have hno : ¬ Expands (fooLocs 1).defs (fooLocs 1).text (str! "foo") := by
        have key : ∀ t : Str, 'f' ∉ t → ¬ NameIn (str! "foo") t := by
          rintro t ht ⟨⟨pre, post, e, _⟩, _⟩
          refine ht ?_
          rw [e]
          simp
        intro hx
        cases hx with
        | here _ h => exact key _ (by decide) h
        | inside _ h1 _ h2 =>
          have := Dict.get?_mem h1
          rw [show (fooLocs 1).defs = [(str! "foo", ⟨str! "foo", str! "bar(x)", str! "a.h", 1⟩)] from rfl, List.mem_singleton] at this
          cases this
          exact key _ (by decide) h2
      rcases hr with ⟨_, ⟨_, _, hx⟩, _⟩ | ⟨_, ⟨hx, _⟩, _⟩
      · rw [hd] at hx
        exact hno hx
      · cases hx

end DK
