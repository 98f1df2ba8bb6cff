import Verif.Model.Text
import Verif.Spec.YamlOut

/-! Specification vocabulary for text processing (C36, C38, C50, C51, C60, C80). -/

set_option autoImplicit false

namespace DK.Spec

/-- `t` is `s` with the occurrences of `p`, searched from left to right, replaced by `q`: `x` is the text before the first
occurrence. -/
inductive Replaced (p q : Str) : Str → Str → Prop
  | stop (s : Str) : ¬ Occurs p s → Replaced p q s s
  | step (x s t : Str) : ¬ Occurs p (x ++ p.dropLast) → Replaced p q s t → Replaced p q (x ++ p ++ s) (x ++ q ++ t)

/-- A name with a suffix that can be dropped: a number after a dot, or `.void`. -/
def Suffixed (name base : Str) : Prop :=
  ∃ suf, name = base ++ '.' :: suf ∧
    (((∀ c ∈ suf, c.isDigit = true) ∧ ∃ c ∈ base, c.isDigit = false ∧ c ≠ '.') ∨ suf = str! "void")

/-- The name without the suffix, if it has one. -/
def Stem (name base : Str) : Prop := Suffixed name base ∨ ((∀ b, ¬ Suffixed name b) ∧ base = name)

/-- Names of a program (left) and of a pattern (right) correspond: equal up to suffixes, or the pattern's name is the name
with the general prefix or with the general prefix and the prefix of its side (which is always understood as a prefix). -/
def NamesAgree (side : Str) (l r : Str) : Prop :=
  ∃ a b, Stem l a ∧ Stem r b ∧ (b = a ∨ (b = (str! "diffkemp.") ++ a ∧ ¬ ∃ x, a = side ++ x) ∨ b = (str! "diffkemp.") ++ side ++ a)

/-- Texts with balanced brackets. -/
inductive Balanced : Str → Prop
  | nil : Balanced []
  | char (c : Char) (s : Str) : c ≠ '(' → c ≠ ')' → Balanced s → Balanced (c :: s)
  | paren (w s : Str) : Balanced w → Balanced s → Balanced ('(' :: (w ++ ')' :: s))

/-- Arguments: balanced texts without commas outside brackets. -/
inductive Argument : Str → Prop
  | nil : Argument []
  | char (c : Char) (s : Str) : c ≠ '(' → c ≠ ')' → c ≠ ',' → Argument s → Argument (c :: s)
  | paren (w s : Str) : Balanced w → Argument s → Argument ('(' :: (w ++ ')' :: s))

/-- `t` is `s` without the spaces around it. -/
def Stripped (s t : Str) : Prop :=
  ∃ a b, s = List.replicate a ' ' ++ t ++ List.replicate b ' ' ∧ t.head? ≠ some ' ' ∧ t.getLast? ≠ some ' '

/-- The component of a sysctl pattern matches the name: `*`, a list `{a|b}` of names, or the name. -/
def SysctlMatch (name pattern : Str) : Prop :=
  pattern = str! "*" ∨ (∃ names : List Str, (∀ n ∈ names, '|' ∉ n) ∧ pattern = '{' :: joinChar '|' names ++ ['}'] ∧ name ∈ names) ∨
    name = pattern

end DK.Spec
