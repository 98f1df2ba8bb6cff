import Verif.Spec.Logger

/-! Property C153: the log of comparisons. -/

set_option autoImplicit false

namespace DK
open Spec

/-- **C153** as stated: the log of any comparisons shows exactly the expected ones, and the logger is as before. -/
def C153_statement : Prop :=
  ∀ (extra : Bool) (c : CmpRun) (old : List (Nat × Str)),
    runLog extra c { printed := old } = { printed := old ++ expectedLog extra [] c }

/-- A call with a differing argument; another argument is a global variable whose initializer refers to the variable. -/
private def selfReferring : CmpRun :=
  .cmp (str! "instruction") (.cmp (str! "value") (.cmp (str! "global value") (.skip (str! "global value") .done) false false .done) false false
    (.cmp (str! "value") .done true false .done)) true true .done

/-- **C153 (violated)** Once a comparison meets a global variable whose initializer refers to the variable itself, the
difference found afterwards is not shown. -/
theorem C153_fails : ¬ C153_statement := by
  intro h
  exact absurd (h false selfReferring []) (by decide)

/-- Nothing is printed while there are comparisons that have not ended. -/
theorem C153_silent {extra : Bool} (c : CmpRun) (s : LogSt) (hs : 1 ≤ s.level) :
    (runLog extra c s).printed = s.printed ∧ s.level ≤ (runLog extra c s).level := by
  induction c generalizing s with
  | done => exact ⟨rfl, Nat.le_refl _⟩
  | cmp m inside keep e next ih1 ih2 =>
    unfold runLog
    obtain ⟨h1, h2⟩ := ih1 (prepLog s m) (by simp only [prepLog]; omega)
    have hl : s.level + 1 ≤ (runLog extra inside (prepLog s m)).level := h2
    have hk : ∀ (t : LogSt) (k f : Bool), s.level + 1 ≤ t.level → (logKeep t k f).printed = t.printed ∧ s.level ≤ (logKeep t k f).level := by
      intro t k f ht
      unfold logKeep
      dsimp only
      rw [if_neg (by omega)]
      split
      · exact ⟨rfl, by dsimp only; omega⟩
      · exact ⟨rfl, by dsimp only; omega⟩
    obtain ⟨h3, h4⟩ := hk _ keep (e && extra) hl
    obtain ⟨h5, h6⟩ := ih2 (logKeep (runLog extra inside (prepLog s m)) keep (e && extra)) (by omega)
    exact ⟨by rw [h5, h3, h1]; rfl, by omega⟩
  | skip m next ih =>
    unfold runLog
    obtain ⟨h1, h2⟩ := ih (prepLog s m) (by simp only [prepLog]; omega)
    exact ⟨h1, Nat.le_trans (Nat.le_succ _) h2⟩

/-- **C153 (violated)** After one such comparison nothing is ever logged again, whatever is compared. -/
theorem C153_fails_forever (extra : Bool) (m : Str) (c : CmpRun) (old : List (Nat × Str)) :
    (runLog extra (.skip m c) { printed := old }).printed = old := by
  unfold runLog
  exact (C153_silent c _ (by simp only [prepLog]; omega)).1

/-- What a run leaves in the buffer at a level. -/
private def leftIn (extra : Bool) : Nat → CmpRun → List LogMsg
  | _, .done => []
  | d, .cmp m inside keep e next =>
    (if e && extra then ⟨true, d, some m⟩ :: (leftIn extra (d + 1) inside).map (eraseMsg keep)
      else if keep then ⟨false, d, some m⟩ :: leftIn extra (d + 1) inside else []) ++ leftIn extra d next
  | d, .skip _ next => leftIn extra d next

private theorem eraseMsg_level (k : Bool) (x : LogMsg) : (eraseMsg k x).level = x.level := by
  unfold eraseMsg; split <;> rfl

private theorem leftIn_level {extra : Bool} (c : CmpRun) : ∀ d, ∀ x ∈ leftIn extra d c, d ≤ x.level := by
  induction c with
  | done => intro d x hx; cases hx
  | cmp m inside keep e next ih1 ih2 =>
    intro d x hx
    unfold leftIn at hx
    rw [List.mem_append] at hx
    rcases hx with hx | hx
    · split at hx
      · rcases List.mem_cons.1 hx with rfl | hx
        · exact Nat.le_refl _
        · obtain ⟨y, hy, rfl⟩ := List.mem_map.1 hx
          rw [eraseMsg_level]
          have := ih1 _ _ hy
          omega
      · split at hx
        · rcases List.mem_cons.1 hx with rfl | hx
          · exact Nat.le_refl _
          · have := ih1 _ _ hx
            omega
        · cases hx
    · exact ih2 _ _ hx
  | skip m next ih => intro d x hx; exact ih d x hx

private theorem forceLoop_spec {d : Nat} {keep : Bool} {x : LogMsg} {rest : List LogMsg} (hx : x.level = d) :
    ∀ l : List LogMsg, (∀ y ∈ l, d + 1 ≤ y.level) →
      forceLoop d keep (l ++ x :: rest) = l.map (eraseMsg keep) ++ { x with forceKept := true } :: rest := by
  intro l
  induction l with
  | nil => intro _; simp [forceLoop, hx]
  | cons y l ih =>
    intro h
    have h1 := h y (by simp)
    rw [List.cons_append, forceLoop, if_neg (by omega), ih (fun z hz => h z (by simp [hz]))]
    rfl

private theorem popDeeper_spec {d : Nat} {x : LogMsg} {rest : List LogMsg} (hx : x.level = d) :
    ∀ l : List LogMsg, (∀ y ∈ l, d + 1 ≤ y.level) → popDeeper d (l ++ x :: rest) = x :: rest := by
  intro l
  induction l with
  | nil => intro _; simp [popDeeper, hx]
  | cons y l ih =>
    intro h
    have h1 := h y (by simp)
    rw [List.cons_append, popDeeper, if_pos (by omega), ih (fun z hz => h z (by simp [hz]))]

/-- The end of a comparison. -/
private theorem logKeep_spec {d : Nat} {B inner : List LogMsg} {m : Str} {out : List (Nat × Str)} {keep force : Bool}
    (hi : ∀ y ∈ inner, d + 1 ≤ y.level) :
    logKeep ⟨d + 1, B ++ ⟨false, d, some m⟩ :: inner, out⟩ keep force =
      if d = 0 then
        { level := 0, buffer := [], printed := if keep || force then
            out ++ dumpLog (B ++ (if force then ⟨true, d, some m⟩ :: inner.map (eraseMsg keep) else ⟨false, d, some m⟩ :: inner)) else out }
      else ⟨d, B ++ (if force then ⟨true, d, some m⟩ :: inner.map (eraseMsg keep) else if keep then ⟨false, d, some m⟩ :: inner else []), out⟩ := by
  have hr : ∀ y ∈ inner.reverse, d + 1 ≤ y.level := fun y hy => hi y (List.mem_reverse.1 hy)
  have hf : (forceLoop d keep (B ++ ⟨false, d, some m⟩ :: inner).reverse).reverse =
      B ++ ⟨true, d, some m⟩ :: inner.map (eraseMsg keep) := by
    rw [List.reverse_append, List.reverse_cons, List.append_assoc, List.singleton_append,
      forceLoop_spec (x := ⟨false, d, some m⟩) rfl _ hr, List.map_reverse, List.reverse_append, List.reverse_cons]
    simp
  unfold logKeep
  dsimp only
  rw [Nat.add_sub_cancel]
  by_cases h0 : d = 0
  · rw [if_pos h0, if_pos h0]
    cases force
    · rfl
    · simp only [if_true]
      rw [hf]
  · rw [if_neg h0, if_neg h0]
    cases force
    · cases keep
      · simp only [Bool.or_false, Bool.false_eq_true, if_false]
        rw [List.reverse_append, List.reverse_cons, List.append_assoc, List.singleton_append, popDeeper_spec (x := ⟨false, d, some m⟩) rfl _ hr]
        simp
      · simp
    · simp only [Bool.or_true, if_true]
      rw [hf]

private theorem runLog_deep {extra : Bool} (c : CmpRun) (hc : NoSkips c) :
    ∀ (d : Nat) (B : List LogMsg) (out : List (Nat × Str)), d ≠ 0 →
      runLog extra c ⟨d, B, out⟩ = ⟨d, B ++ leftIn extra d c, out⟩ := by
  induction c with
  | done => intro d B out _; simp [runLog, leftIn]
  | skip m next => exact absurd hc (by simp [NoSkips])
  | cmp m inside keep e next ih1 ih2 =>
    intro d B out hd
    obtain ⟨c1, c2⟩ := hc
    unfold runLog
    have hp : prepLog ⟨d, B, out⟩ m = ⟨d + 1, B ++ [⟨false, d, some m⟩], out⟩ := rfl
    rw [hp, ih1 c1 _ _ _ (Nat.succ_ne_zero d), List.append_assoc, List.singleton_append,
      logKeep_spec (fun y hy => leftIn_level inside (d + 1) y hy), if_neg hd, ih2 c2 _ _ _ hd]
    congr 1
    rw [List.append_assoc]
    rfl

/-- Which of the messages in the buffer are shown, given the comparisons around. -/
private def passMsg (around : List (Bool × Bool)) (x : LogMsg) : Bool :=
  around.all (fun a => a.1 || (a.2 && x.forceKept))

private theorem dump_append (a b : List LogMsg) : dumpLog (a ++ b) = dumpLog a ++ dumpLog b := by
  unfold dumpLog; rw [List.filterMap_append]

private theorem dump_filter_erase {keep : Bool} {around : List (Bool × Bool)} (l : List LogMsg) :
    dumpLog ((l.map (eraseMsg keep)).filter (passMsg around)) = dumpLog (l.filter (passMsg ((keep, true) :: around))) := by
  induction l with
  | nil => rfl
  | cons x l ih =>
    have hcons : ∀ (y : LogMsg) (t : List LogMsg) (p : LogMsg → Bool),
        dumpLog ((y :: t).filter p) = (if p y then dumpLog [y] else []) ++ dumpLog (t.filter p) := by
      intro y t p
      rw [List.filter_cons]
      cases p y
      · simp
      · simp only [if_true]
        rw [← dump_append]; rfl
    rw [List.map_cons, hcons, hcons, ih]
    congr 1
    have h1 : passMsg ((keep, true) :: around) x = ((keep || x.forceKept) && passMsg around x) := by
      simp [passMsg, List.all_cons]
    rw [h1]
    unfold eraseMsg
    cases keep
    · cases hx : x.forceKept
      · simp [dumpLog]
      · simp
    · simp

/-- The shown messages are the expected ones. -/
private theorem dump_leftIn {extra : Bool} (c : CmpRun) (hc : NoSkips c) :
    ∀ around : List (Bool × Bool), dumpLog ((leftIn extra around.length c).filter (passMsg around)) = expectedLog extra around c := by
  induction c with
  | done => intro _; rfl
  | skip m next => exact absurd hc (by simp [NoSkips])
  | cmp m inside keep e next ih1 ih2 =>
    intro around
    obtain ⟨c1, c2⟩ := hc
    unfold leftIn expectedLog
    rw [List.filter_append, dump_append, ih2 c2 around]
    congr 1
    have hin := ih1 c1 ((keep, e && extra) :: around)
    rw [List.length_cons] at hin
    rw [← hin]
    have hcons : ∀ (y : LogMsg) (t : List LogMsg), dumpLog ((y :: t).filter (passMsg around)) =
        (if passMsg around y then dumpLog [y] else []) ++ dumpLog (t.filter (passMsg around)) := by
      intro y t
      rw [List.filter_cons]
      cases passMsg around y
      · simp
      · simp only [if_true]
        rw [← dump_append]; rfl
    have hpass : ∀ (b : Bool) (y : LogMsg), y.forceKept = b → (passMsg around y = true ↔ ∀ a ∈ around, a.1 = true ∨ (a.2 = true ∧ b = true)) := by
      rintro b y rfl
      unfold passMsg
      rw [List.all_eq_true]
      simp only [Bool.or_eq_true, Bool.and_eq_true]
    cases hf : (e && extra)
    · simp only [Bool.false_eq_true, if_false]
      cases keep
      · have hz : ((leftIn extra (around.length + 1) inside).filter (passMsg ((false, false) :: around))) = [] := by
          rw [List.filter_eq_nil_iff]; intro y _; simp [passMsg]
        rw [hz]
        simp [ShownCmp, dumpLog]
      · simp only [if_true]
        rw [hcons]
        have hz : passMsg ((true, false) :: around) = passMsg around := by
          funext y; simp [passMsg]
        rw [hz]
        congr 1
        by_cases hp : passMsg around ⟨false, around.length, some m⟩ = true
        · rw [if_pos hp, if_pos ⟨.inl rfl, (hpass false _ rfl).1 hp⟩]; rfl
        · rw [if_neg hp, if_neg (fun hh => hp ((hpass false _ rfl).2 hh.2))]
    · simp only [if_true]
      rw [hcons, dump_filter_erase]
      congr 1
      by_cases hp : passMsg around ⟨true, around.length, some m⟩ = true
      · rw [if_pos hp, if_pos ⟨.inr rfl, (hpass true _ rfl).1 hp⟩]; rfl
      · rw [if_neg hp, if_neg (fun hh => hp ((hpass true _ rfl).2 hh.2))]

/-- **C153 (partial)** Without comparisons of global variables that refer to themselves, the log shows exactly the expected
comparisons. Missing: see `C153_fails_forever`. -/
theorem C153_log_partial (extra : Bool) (c : CmpRun) (hc : NoSkips c) (old : List (Nat × Str)) :
    runLog extra c { printed := old } = { printed := old ++ expectedLog extra [] c } := by
  induction c generalizing old with
  | done => simp [runLog, expectedLog]
  | skip m next => exact absurd hc (by simp [NoSkips])
  | cmp m inside keep e next ih1 ih2 =>
    obtain ⟨c1, c2⟩ := hc
    have hone := dump_leftIn (extra := extra) (.cmp m inside keep e .done) ⟨c1, trivial⟩ []
    have hall : ∀ l : List LogMsg, l.filter (passMsg []) = l := by
      intro l; rw [List.filter_eq_self]; intro y _; rfl
    rw [hall] at hone
    unfold leftIn expectedLog at hone
    simp only [leftIn, expectedLog, List.append_nil, List.length_nil] at hone
    unfold runLog
    have hp : prepLog { printed := old } m = ⟨0 + 1, [⟨false, 0, some m⟩], old⟩ := rfl
    rw [hp, runLog_deep inside c1 _ _ _ (by omega), ← List.nil_append ([(⟨false, 0, some m⟩ : LogMsg)] ++ _), List.singleton_append,
      logKeep_spec (fun y hy => leftIn_level inside (0 + 1) y hy), if_pos rfl]
    unfold expectedLog
    have hstep : ({ level := 0, buffer := [], printed := if keep || (e && extra) then old ++ dumpLog ([] ++ (if e && extra then ⟨true, 0, some m⟩ :: (leftIn extra (0 + 1) inside).map (eraseMsg keep) else ⟨false, 0, some m⟩ :: leftIn extra (0 + 1) inside)) else old } : LogSt) =
        { printed := old ++ ((if ShownCmp [] keep (e && extra) then [(([] : List (Bool × Bool)).length, m)] else []) ++ expectedLog extra [(keep, e && extra)] inside) } := by
      congr 1
      rw [List.length_nil, ← hone]
      cases (e && extra)
      · cases keep
        · simp [dumpLog]
        · simp
      · simp
    rw [hstep, ih2 c2, List.append_assoc]

/-- A differing argument, and an important comparison without a difference that is shown with the higher level only. -/
example : NoSkips (.cmp (str! "instruction") (.cmp (str! "value") .done false false (.cmp (str! "value") .done true false
      (.cmp (str! "GEP") .done false true .done))) true true .done) ∧
    expectedLog false [] (.cmp (str! "instruction") (.cmp (str! "value") .done false false (.cmp (str! "value") .done true false
      (.cmp (str! "GEP") .done false true .done))) true true .done) = [(0, str! "instruction"), (1, str! "value")] ∧
    expectedLog true [] (.cmp (str! "instruction") (.cmp (str! "value") .done false false (.cmp (str! "value") .done true false
      (.cmp (str! "GEP") .done false true .done))) true true .done) = [(0, str! "instruction"), (1, str! "value"), (1, str! "GEP")] := by
  refine ⟨by simp [NoSkips], by decide, by decide⟩

end DK
