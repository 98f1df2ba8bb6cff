import Verif.Model.Macros
import Verif.Lemmas.Dict

/-!
C102 and C103: constants that are values of macros and enumerators.
-/

set_option autoImplicit false

namespace DK

namespace Spec

/-- A number as it is written in C. -/
def cNumber (v : Int) : Str := if v < 0 then '-' :: Nat.toDigits 10 v.natAbs else Nat.toDigits 10 v.natAbs

/-- The value of a definition. -/
def HasValue : DDef → IConst → Prop
  | .macro _ v, .int _ w => v = cNumber w
  | .enumr _ b v, .int b' w => b = b' ∧ v = w
  | _, .other _ => False

mutual

/-- All macros of a tree of macros, also those defined in files. -/
def MNode.all : MNode → List DDef
  | .define _ n v => [.macro n v]
  | .undef _ _ => []
  | .file _ ms => allNodes ms

/-- All macros of a list of such trees. -/
def allNodes : List MNode → List DDef
  | [] => []
  | m :: ms => MNode.all m ++ allNodes ms

end

/-- All macros and enumerators of a program. -/
def allDefs (us : List CUnit) : List DDef :=
  us.flatMap fun u => allNodes u.macros ++ u.enums.map (fun e => .enumr e.1 e.2.1 e.2.2)

/-- A constant of a program, with the name of the macro or enumerator it was written as, if any. -/
structure Use where
  val : IConst
  origin : Option Str

/-- The origin of a constant is a definition with this value. -/
def FromSource (us : List CUnit) (u : Use) : Prop :=
  ∀ n, u.origin = some n → ∃ d ∈ allDefs us, d.name = n ∧ HasValue d u.val

end Spec
open Spec

/-- C102: different constants are only found equal if they were written as the same macro or enumerator. -/
def C102_statement : Prop :=
  ∀ (first second : List CUnit) (consts : List IConst) (l r : Use), FromSource first l → FromSource second r →
    cmpIConst (macroMap first second consts) l.val r.val = true →
    l.val = r.val ∨ ∃ n, l.origin = some n ∧ r.origin = some n

/-- C102 fails: `5` is found equal to `7` in any function, if some macro was changed from 5 to 7. -/
theorem C102_fails : ¬ C102_statement := by
  intro h
  have := h [⟨[.define 1 (str! "X") (str! "5")], []⟩] [⟨[.define 1 (str! "X") (str! "7")], []⟩] [.int 32 5]
    ⟨.int 32 5, none⟩ ⟨.int 32 7, none⟩ (by intro n h; cases h) (by intro n h; cases h) (by decide +kernel)
  simp at this

theorem addUsage_mem {m : Dict Str (List IConst)} {n k : Str} {c x : IConst} :
    x ∈ ((addUsage m n c).get? k).getD [] ↔ x ∈ (m.get? k).getD [] ∨ (k = n ∧ x = c) := by
  unfold addUsage
  rw [Dict.get?_set]
  by_cases h : k = n
  · subst h
    simp only [if_true, Option.getD_some, true_and]
    split
    · constructor
      · intro h; exact Or.inl h
      · rintro (h | h)
        · exact h
        · subst h; assumption
    · simp
  · simp [h]

/-- The constants recorded for a name. -/
theorem collect_mem {defs : List DDef} {m : Dict Str (List IConst)} {c x : IConst} {k : Str} :
    x ∈ ((collectMacros defs m c).get? k).getD [] ↔
      x ∈ (m.get? k).getD [] ∨ (c.text ≠ [] ∧ x = c ∧ ∃ d ∈ defs, d.name = k ∧ d.text = c.text) := by
  unfold collectMacros
  split
  · simp [*]
  · rename_i hne
    simp only [ne_eq, hne, not_false_eq_true, true_and]
    induction defs generalizing m with
    | nil => simp
    | cons d ds ih =>
      rw [List.foldl_cons, ih]
      by_cases hd : d.text = c.text
      · rw [if_pos hd, addUsage_mem]
        constructor
        · rintro ((h | ⟨h1, h2⟩) | ⟨h1, d', h2, h3⟩)
          · exact Or.inl h
          · exact Or.inr ⟨h2, d, List.mem_cons_self, h1.symm, hd⟩
          · exact Or.inr ⟨h1, d', List.mem_cons_of_mem _ h2, h3⟩
        · rintro (h | ⟨h1, d', h2, h3, h4⟩)
          · exact Or.inl (Or.inl h)
          · rcases List.mem_cons.1 h2 with rfl | h2
            · exact Or.inl (Or.inr ⟨h3.symm, h1⟩)
            · exact Or.inr ⟨h1, d', h2, h3, h4⟩
      · rw [if_neg hd]
        constructor
        · rintro (h | ⟨h1, d', h2, h3⟩)
          · exact Or.inl h
          · exact Or.inr ⟨h1, d', List.mem_cons_of_mem _ h2, h3⟩
        · rintro (h | ⟨h1, d', h2, h3, h4⟩)
          · exact Or.inl h
          · rcases List.mem_cons.1 h2 with rfl | h2
            · exact absurd h4 hd
            · exact Or.inr ⟨h1, d', h2, h3, h4⟩

theorem usage_mem {defs : List DDef} {consts : List IConst} {m : Dict Str (List IConst)} {x : IConst} {k : Str} :
    x ∈ ((consts.foldl (collectMacros defs) m).get? k).getD [] ↔
      x ∈ (m.get? k).getD [] ∨ (x ∈ consts ∧ x.text ≠ [] ∧ ∃ d ∈ defs, d.name = k ∧ d.text = x.text) := by
  induction consts generalizing m with
  | nil => simp
  | cons c cs ih =>
    rw [List.foldl_cons, ih, collect_mem]
    constructor
    · rintro ((h | ⟨h1, h2, h3⟩) | ⟨h1, h2⟩)
      · exact Or.inl h
      · subst h2; exact Or.inr ⟨List.mem_cons_self, h1, h3⟩
      · exact Or.inr ⟨List.mem_cons_of_mem _ h1, h2⟩
    · rintro (h | ⟨h1, h2, h3⟩)
      · exact Or.inl (Or.inl h)
      · rcases List.mem_cons.1 h1 with rfl | h1
        · exact Or.inl (Or.inr ⟨h2, rfl, h3⟩)
        · exact Or.inr ⟨h1, h2, h3⟩

theorem emplace_get {m : Dict IConst Str} {c x : IConst} {v w : Str} :
    (emplaceText m c v).get? x = some w ↔ m.get? x = some w ∨ (m.get? x = none ∧ x = c ∧ w = v) := by
  unfold emplaceText
  by_cases h : (m.get? c).isSome
  · rw [if_pos h]
    constructor
    · exact Or.inl
    · rintro (h1 | ⟨h1, h2, h3⟩)
      · exact h1
      · subst h2; rw [h1] at h; cases h
  · rw [if_neg h, Dict.get?_set]
    by_cases hx : x = c
    · subst hx
      have hn : m.get? x = none := by simpa using h
      simp [hn, eq_comm]
    · simp [hx]

theorem emplace_fold {cs : List IConst} {m : Dict IConst Str} {x : IConst} {v w : Str} :
    (cs.foldl (fun m c => emplaceText m c v) m).get? x = some w ↔
      m.get? x = some w ∨ (m.get? x = none ∧ x ∈ cs ∧ w = v) := by
  induction cs generalizing m with
  | nil => simp
  | cons c cs ih =>
    rw [List.foldl_cons, ih, emplace_get]
    have hnone : (emplaceText m c v).get? x = none ↔ m.get? x = none ∧ x ≠ c := by
      cases h : (emplaceText m c v).get? x with
      | some w =>
        rw [emplace_get] at h
        simp only [reduceCtorEq, false_iff, not_and, not_not]
        intro hn
        rcases h with h | h
        · rw [hn] at h; cases h
        · exact h.2.1
      | none =>
        simp only [true_iff]
        have h1 : ∀ w, ¬ ((emplaceText m c v).get? x = some w) := by rw [h]; simp
        constructor
        · cases hm : m.get? x with
          | none => rfl
          | some w => exact absurd (emplace_get.2 (Or.inl hm)) (h1 w)
        · rintro rfl
          cases hm : m.get? x with
          | none => exact absurd (emplace_get.2 (Or.inr ⟨hm, rfl, rfl⟩)) (h1 v)
          | some w => exact absurd (emplace_get.2 (Or.inl hm)) (h1 w)
    rw [hnone]
    constructor
    · rintro ((h | ⟨h1, h2, h3⟩) | ⟨⟨h1, h2⟩, h3, h4⟩)
      · exact Or.inl h
      · exact Or.inr ⟨h1, by simp [h2], h3⟩
      · exact Or.inr ⟨h1, List.mem_cons_of_mem _ h3, h4⟩
    · rintro (h | ⟨h1, h2, h3⟩)
      · exact Or.inl (Or.inl h)
      · by_cases hx : x = c
        · exact Or.inl (Or.inr ⟨h1, hx, h3⟩)
        · exact Or.inr ⟨⟨h1, hx⟩, (List.mem_cons.1 h2).resolve_left hx, h3⟩

/-- Every entry of the map comes from a definition of the second program whose name has the constant recorded. -/
theorem align_sound {usage : Dict Str (List IConst)} {ds : List DDef} {m : Dict IConst Str} {x : IConst} {w : Str}
    (h : (ds.foldl (addAlignment usage) m).get? x = some w) :
    m.get? x = some w ∨ ∃ d ∈ ds, w = d.text ∧ x ∈ (usage.get? d.name).getD [] := by
  induction ds generalizing m with
  | nil => exact Or.inl h
  | cons d ds ih =>
    rw [List.foldl_cons] at h
    rcases ih h with h | ⟨d', h1, h2⟩
    · unfold addAlignment at h
      split at h
      · rename_i c cs hu
        split at h
        · rcases emplace_fold.1 h with h | ⟨h1, h2, h3⟩
          · exact Or.inl h
          · exact Or.inr ⟨d, List.mem_cons_self, h3, by rw [hu]; exact h2⟩
        · exact Or.inl h
      · exact Or.inl h
    · exact Or.inr ⟨d', List.mem_cons_of_mem _ h1, h2⟩

/-- What is shown of C102: if two constants are found equal, then they are the same, or some macro or enumerator has the
value of the first one in the first program and is written like the second one in the second program (where a
constant that is no number is written like an empty macro). Missing: that the constants were written as this macro. -/
theorem C102_partial (first second : List CUnit) (consts : List IConst) (l r : IConst)
    (h : cmpIConst (macroMap first second consts) l r = true) :
    l = r ∨ ∃ d ∈ first.flatMap CUnit.defs, ∃ d' ∈ second.flatMap CUnit.defs,
      d.name = d'.name ∧ d.text = l.text ∧ d'.text = r.text ∧ l.text ≠ [] := by
  unfold cmpIConst at h
  rw [Bool.or_eq_true, decide_eq_true_eq, decide_eq_true_eq] at h
  rcases h with h | h
  · exact Or.inl h
  · right
    rcases align_sound h with h | ⟨d', h1, h2, h3⟩
    · cases h
    · rcases usage_mem.1 h3 with h | ⟨h4, h5, d, h6, h7, h8⟩
      · simp at h
      · exact ⟨d, h6, d', h1, h7, h8, h2.symm, h5⟩

/-- The second half of C102 fails too: a number is found equal to any constant that is no number, if a macro with the
value of the number became empty or was undefined. -/
theorem C102_fails_empty : ¬ ∀ (first second : List CUnit) (consts : List IConst) (l r : IConst),
    cmpIConst (macroMap first second consts) l r = true → l = r ∨ ∃ b v, r = .int b v := by
  intro h
  have := h [⟨[.define 1 (str! "X") (str! "5")], []⟩] [⟨[.undef 1 (str! "X")], []⟩] [.int 32 5]
    (.int 32 5) (.other 0) (by decide +kernel)
  simp at this

/-- C103: the value of a macro or enumerator that is defined once in each program may change: its uses are found
equal. -/
def C103_statement : Prop :=
  ∀ (first second : List CUnit) (consts : List IConst) (b : Nat) (v w : Int) (d d' : DDef),
    (allDefs first).filter (fun x => decide (x.name = d.name)) = [d] →
    (allDefs second).filter (fun x => decide (x.name = d.name)) = [d'] →
    HasValue d (.int b v) → HasValue d' (.int b w) → IConst.int b v ∈ consts →
    cmpIConst (macroMap first second consts) (.int b v) (.int b w) = true

/-- C103 fails: macros that are defined in a file are not seen. -/
theorem C103_fails : ¬ C103_statement := by
  intro h
  have := h [⟨[.file (str! "a.h") [.define 1 (str! "X") (str! "5")]], []⟩]
    [⟨[.file (str! "a.h") [.define 1 (str! "X") (str! "7")]], []⟩] [.int 32 5] 32 5 7
    (.macro (str! "X") (str! "5")) (.macro (str! "X") (str! "7")) rfl rfl (by unfold HasValue; decide +kernel) (by unfold HasValue; decide +kernel) (by simp)
  exact absurd this (by decide +kernel)

/-- C103 fails: only one of two macros with the same value may change. -/
theorem C103_fails_two : ¬ C103_statement := by
  intro h
  have := h [⟨[.define 1 (str! "X") (str! "5"), .define 1 (str! "Y") (str! "5")], []⟩]
    [⟨[.define 1 (str! "X") (str! "7"), .define 1 (str! "Y") (str! "8")], []⟩] [.int 32 5] 32 5 8
    (.macro (str! "Y") (str! "5")) (.macro (str! "Y") (str! "8")) rfl rfl (by unfold HasValue; decide +kernel) (by unfold HasValue; decide +kernel) (by simp)
  exact absurd this (by decide +kernel)

/-- C103 fails: a negative enumerator is not recognised. -/
theorem C103_fails_negative : ¬ C103_statement := by
  intro h
  have := h [⟨[], [(str! "E", 32, -1)]⟩] [⟨[], [(str! "E", 32, -2)]⟩] [.int 32 (-1)] 32 (-1) (-2)
    (.enumr (str! "E") 32 (-1)) (.enumr (str! "E") 32 (-2)) rfl rfl (by simp [HasValue]) (by simp [HasValue]) (by simp)
  exact absurd this (by decide +kernel)

/-- Entries are kept. -/
theorem align_keep {usage : Dict Str (List IConst)} {ds : List DDef} {m : Dict IConst Str} {x : IConst} {w : Str}
    (h : m.get? x = some w) : (ds.foldl (addAlignment usage) m).get? x = some w := by
  induction ds generalizing m with
  | nil => exact h
  | cons d ds ih =>
    rw [List.foldl_cons]
    apply ih
    unfold addAlignment
    split
    · split
      · exact emplace_fold.2 (Or.inl h)
      · exact h
    · exact h

/-- A definition of the second program whose name has a constant recorded yields an entry for the constant. -/
theorem align_complete {usage : Dict Str (List IConst)} {ds : List DDef} {m : Dict IConst Str} {x : IConst} {d : DDef}
    (hd : d ∈ ds) (hx : x ∈ (usage.get? d.name).getD [])
    (hu : ∀ c ∈ (usage.get? d.name).getD [], c.text ≠ d.text) :
    ∃ w, (ds.foldl (addAlignment usage) m).get? x = some w := by
  induction ds generalizing m with
  | nil => simp at hd
  | cons e ds ih =>
    rw [List.foldl_cons]
    rcases List.mem_cons.1 hd with rfl | hd
    · have : ∃ w, (addAlignment usage m d).get? x = some w := by
        unfold addAlignment
        cases hget : usage.get? d.name with
        | none => rw [hget] at hx; simp at hx
        | some l =>
          rw [hget] at hx hu
          cases l with
          | nil => simp at hx
          | cons c cs =>
            have hc := hu c (by simp)
            simp only [ne_eq, hc, not_false_eq_true, if_true]
            cases hm : m.get? x with
            | some w => exact ⟨w, emplace_fold.2 (Or.inl hm)⟩
            | none => exact ⟨d.text, emplace_fold.2 (Or.inr ⟨hm, hx, rfl⟩)⟩
      obtain ⟨w, hw⟩ := this
      exact ⟨w, align_keep hw⟩
    · exact ih hd

/-- A changed text is mapped. -/
theorem align_texts (first second : List CUnit) (consts : List IConst) (b : Nat) (v w : Int) (d d' : DDef)
    (hd : d ∈ first.flatMap CUnit.defs) (hd' : d' ∈ second.flatMap CUnit.defs) (hn : d'.name = d.name)
    (hv : d.text = intStr v) (hw : d'.text = intStr w) (hv0 : intStr v ≠ []) (hne : intStr v ≠ intStr w)
    (honce : ∀ e ∈ first.flatMap CUnit.defs, e.name = d.name → e.text = d.text)
    (hclash : ∀ e ∈ first.flatMap CUnit.defs, e.text = intStr v → ∀ e' ∈ second.flatMap CUnit.defs,
      e'.name = e.name → e'.text = intStr w)
    (hc : IConst.int b v ∈ consts) :
    cmpIConst (macroMap first second consts) (.int b v) (.int b w) = true := by
  unfold cmpIConst
  rw [Bool.or_eq_true, decide_eq_true_eq, decide_eq_true_eq]
  right
  have hx : IConst.int b v ∈
      ((consts.foldl (collectMacros (first.flatMap CUnit.defs)) []).get? d'.name).getD [] :=
    usage_mem.2 (Or.inr ⟨hc, hv0, d, hd, hn.symm, hv⟩)
  obtain ⟨t, ht⟩ := align_complete (m := []) hd' hx (by
    intro c hc'
    rcases usage_mem.1 hc' with h | ⟨_, _, e, he, hen, het⟩
    · simp at h
    · rw [← het, honce e he (hen.trans hn), hv, hw]; exact hne)
  show (macroMap first second consts).get? _ = some (intStr w)
  have ht' : (macroMap first second consts).get? (.int b v) = some t := ht
  rw [ht']
  rcases align_sound ht with h | ⟨e', he', hte, hue⟩
  · cases h
  · rcases usage_mem.1 hue with h | ⟨_, _, e, he, hen, het⟩
    · simp at h
    · rw [hte, hclash e he het e' he' hen.symm]

theorem intStr_cNumber (v : Int) : intStr v = cNumber v := by
  cases v with
  | ofNat n => rfl
  | negSucc n =>
    rw [cNumber, if_pos (Int.negSucc_lt_zero n)]
    rfl

theorem intStr_ne_nil (v : Int) : intStr v ≠ [] := by
  cases v with
  | ofNat n => exact Nat.toDigits_ne_nil
  | negSucc n => simp [intStr]

theorem toDigits_inj {m n : Nat} (h : Nat.toDigits 10 m = Nat.toDigits 10 n) : m = n := by
  have := congrArg (fun s => Nat.ofDigitChars 10 s 0) h
  simpa [Nat.ofDigitChars_ten_toDigits] using this

theorem toDigits_ne_minus (m : Nat) (s : Str) : Nat.toDigits 10 m ≠ '-' :: s := by
  intro h
  have := Nat.isDigit_of_mem_toDigits (b := 10) (n := m) (c := '-') (by decide) (by decide) (by rw [h]; simp)
  exact absurd this (by decide)

/-- Different numbers are written differently. -/
theorem intStr_inj {v w : Int} (h : intStr v = intStr w) : v = w := by
  cases v with
  | ofNat m =>
    cases w with
    | ofNat n => rw [toDigits_inj h]
    | negSucc n => exact absurd h (toDigits_ne_minus m _)
  | negSucc m =>
    cases w with
    | ofNat n => exact absurd h.symm (toDigits_ne_minus n _)
    | negSucc n =>
      have := toDigits_inj (List.cons.inj h).2
      simp at this
      rw [this]

namespace Spec

/-- A macro, or an enumerator that is not negative and fits its type. -/
def PlainDef : DDef → Prop
  | .macro _ _ => True
  | .enumr _ b v => 0 ≤ v ∧ v < (2 ^ b : Nat)

end Spec

theorem plain_text {d : DDef} {b : Nat} {v : Int} (hp : PlainDef d) (h : HasValue d (.int b v)) : d.text = intStr v := by
  cases d with
  | «macro» n t => exact (show t = _ from h).trans (intStr_cNumber v).symm
  | enumr n b' w =>
    obtain ⟨rfl, rfl⟩ := h
    obtain ⟨h1, h2⟩ := hp
    obtain ⟨k, rfl⟩ := Int.eq_ofNat_of_zero_le h1
    show Nat.toDigits 10 ((k : Int) % (2 ^ b' : Nat)).toNat = _
    rw [Int.emod_eq_of_lt h1 h2]
    rfl

/-- What is shown of C103: the value of a macro or enumerator may change if its definition is seen (it is not inside a
file), no enumerator is negative, the name has one value in the first program, and every other name with the same old
value that is defined in the second program has the same new value there. Missing: macros defined in files, negative
enumerators and several definitions with the same old value. -/
theorem C103_partial (first second : List CUnit) (consts : List IConst) (b : Nat) (v w : Int) (d d' : DDef)
    (hd : d ∈ first.flatMap CUnit.defs) (hd' : d' ∈ second.flatMap CUnit.defs) (hn : d'.name = d.name)
    (hv : HasValue d (.int b v)) (hw : HasValue d' (.int b w)) (hpd : PlainDef d) (hpd' : PlainDef d')
    (honce : ∀ e ∈ first.flatMap CUnit.defs, e.name = d.name → e.text = d.text)
    (hclash : ∀ e ∈ first.flatMap CUnit.defs, e.text = cNumber v → ∀ e' ∈ second.flatMap CUnit.defs,
      e'.name = e.name → e'.text = cNumber w)
    (hc : IConst.int b v ∈ consts) :
    cmpIConst (macroMap first second consts) (.int b v) (.int b w) = true := by
  rw [← intStr_cNumber, ← intStr_cNumber] at hclash
  by_cases hvw : v = w
  · subst hvw; simp [cmpIConst]
  · exact align_texts first second consts b v w d d' hd hd' hn (plain_text hpd hv) (plain_text hpd' hw)
      (intStr_ne_nil v) (fun h => hvw (intStr_inj h)) honce hclash hc

example : cmpIConst (macroMap [⟨[.define 1 (str! "X") (str! "5"), .define 1 (str! "Y") (str! "6")], [(str! "E", 32, 9)]⟩]
    [⟨[.define 1 (str! "X") (str! "7"), .define 1 (str! "Y") (str! "6")], [(str! "E", 32, 10)]⟩]
    [.int 32 5, .int 32 6, .int 32 9]) (.int 32 9) (.int 32 10) = true :=
  C103_partial _ _ _ 32 9 10 (.enumr (str! "E") 32 9) (.enumr (str! "E") 32 10) (by simp [CUnit.defs])
    (by simp [CUnit.defs]) rfl (by simp [HasValue]) (by simp [HasValue]) (by simp [PlainDef]) (by simp [PlainDef])
    (by simp only [List.flatMap_cons, List.flatMap_nil, CUnit.defs, List.filterMap_cons, topMacro, List.filterMap_nil, List.map_cons,
          List.map_nil, List.append_nil, List.cons_append, List.nil_append, List.forall_mem_cons]
        refine ⟨?_, ?_, ?_, ?_⟩ <;> first | decide +kernel | simp)
    (by simp only [List.flatMap_cons, List.flatMap_nil, CUnit.defs, List.filterMap_cons, topMacro, List.filterMap_nil, List.map_cons,
          List.map_nil, List.append_nil, List.cons_append, List.nil_append, List.forall_mem_cons]
        refine ⟨?_, ?_, ?_, ?_⟩ <;> first | decide +kernel | simp)
    (by simp)

end DK
