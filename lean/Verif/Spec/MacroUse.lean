import Verif.Model.MacroUse

/-!
What it means that a macro is used on a line.
-/

set_option autoImplicit false

namespace DK.Spec

/-- Characters of identifiers in C. -/
def WordChar (c : Char) : Prop := c.isAlpha = true ∨ c.isDigit = true ∨ c = '_'

/-- A word of a text: a run of such characters that cannot be extended. -/
def WordIn (w text : Str) : Prop :=
  ∃ pre post, text = pre ++ w ++ post ∧ w ≠ [] ∧ (∀ c ∈ w, WordChar c) ∧
    (∀ c, pre.getLast? = some c → ¬ WordChar c) ∧ (∀ c, post.head? = some c → ¬ WordChar c)

/-- An identifier of a text: a word that does not start with a digit. -/
def NameIn (n text : Str) : Prop := WordIn n text ∧ ∀ c, n.head? = some c → c.isDigit = false

/-- Macros to which the text expands: those that occur in it or in the body of another one. -/
inductive Expands (defs : Dict Str MDef) (text : Str) : Str → Prop
  | here {n : Str} {d : MDef} : defs.get? n = some d → NameIn n text → Expands defs text n
  | inside {n m : Str} {d e : MDef} : Expands defs text m → defs.get? m = some e → defs.get? n = some d →
      NameIn n e.body → Expands defs text n

/-- Definitions are stored with their name. -/
def WellNamed (defs : Dict Str MDef) : Prop := ∀ n d, defs.get? n = some d → d.name = n

/-- No number is directly followed by letters. -/
def PlainNumbers (text : Str) : Prop :=
  ∀ w, WordIn w text → (∃ c, w.head? = some c ∧ c.isDigit = true) → ∀ c ∈ w, c.isDigit = true

/-- The text does not end with a word of one character. -/
def NoLetterAtEnd (text : Str) : Prop :=
  ∀ pre c, text = pre ++ [c] → WordChar c → ∃ b, pre.getLast? = some b ∧ WordChar b

/-- A property of the line and of all bodies. -/
def AllTexts (P : Str → Prop) (defs : Dict Str MDef) (text : Str) : Prop :=
  P text ∧ ∀ n d, defs.get? n = some d → P d.body

/-- The stack of macros from the line to a macro: each one occurs in the body of the one before. The places are those
where the macros are used: the line, or the definition of the macro before. -/
inductive MacroStack (defs : Dict Str MDef) (file : Str) (line : Nat) (text : Str) :
    List (Str × Str × Nat) → MDef → Prop
  | here {d : MDef} : defs.get? d.name = some d → NameIn d.name text →
      MacroStack defs file line text [(d.name ++ str! " (macro)", file, line)] d
  | inside {d e : MDef} {s : List (Str × Str × Nat)} : MacroStack defs file line text s e → defs.get? d.name = some d →
      NameIn d.name e.body →
      MacroStack defs file line text (s ++ [(d.name ++ str! " (macro)", e.file, e.line)]) d

/-- Caches after any sequence of queries. -/
inductive QueryHistory (locs : Nat → MLoc) : UseCache → Prop
  | start : QueryHistory locs []
  | query {c c' : UseCache} {l r : Nat} {ds : List MDiff} : QueryHistory locs c →
      findMacroDiffs locs c l r = some (ds, c') → QueryHistory locs c'

/-- The definitions are stored with their name. -/
def NamedDefs (locs : Nat → MLoc) : Prop := ∀ l, WellNamed (locs l).defs

/-- A macro differs between two lines: both lines expand to it and its bodies differ. -/
def MacroDiffers (l r : MLoc) (dL dR : MDef) : Prop :=
  dL.name = dR.name ∧ l.defs.get? dL.name = some dL ∧ r.defs.get? dR.name = some dR ∧
    Expands l.defs l.text dL.name ∧ Expands r.defs r.text dR.name ∧ dL.body ≠ dR.body

/-- The same for the lines together with the lines before them. -/
def MacroDiffersNear (l r : MLoc) (dL dR : MDef) : Prop :=
  dL.name = dR.name ∧ l.defs.get? dL.name = some dL ∧ r.defs.get? dR.name = some dR ∧
    (∃ t, (t = l.text ∨ t = l.before) ∧ Expands l.defs t dL.name) ∧
    (∃ t, (t = r.text ∨ t = r.before) ∧ Expands r.defs t dR.name) ∧ dL.body ≠ dR.body

/-- A reported difference: a macro with different bodies, to which the lines (or the lines before them) expand as the
stacks say. -/
def ReportedRight (l r : MLoc) (x : MDiff) : Prop :=
  ∃ dL dR, dL.name = x.name ∧ dR.name = x.name ∧ dL.body = x.bodyL ∧ dR.body = x.bodyR ∧ dL.body ≠ dR.body ∧
    (∃ t, (t = l.text ∨ t = l.before) ∧ MacroStack l.defs l.file l.line t x.stackL dL) ∧
    (∃ t, (t = r.text ∨ t = r.before) ∧ MacroStack r.defs r.file r.line t x.stackR dR)

mutual
/-- What happens to macros in the order of the source: a name is defined, or its definition ends. -/
def MNode.events (file : Str) : MNode → List (Str × Option MDef)
  | .define line n v => [((mkDef file line n v).name, some (mkDef file line n v))]
  | .undef _ n => [(n.takeWhile (· ≠ '('), none)]
  | .file f es => allEvents f es
def allEvents (file : Str) : List MNode → List (Str × Option MDef)
  | [] => []
  | n :: ns => MNode.events file n ++ allEvents file ns
end

/-- The events that concern a name. -/
def eventsOf (nodes : List MNode) (n : Str) : List (Str × Option MDef) :=
  (allEvents [] nodes).filter fun e => decide (e.1 = n)

/-- The definition of a macro at the end of a compile unit: the last one, if it is not undefined. -/
def finalDef (nodes : List MNode) (n : Str) : Option MDef := (eventsOf nodes n).getLast?.bind (·.2)

/-- The name is not defined outside of files (on the command line or by the compiler). -/
def InFilesOnly (nodes : List MNode) (n : Str) : Prop :=
  ∀ x ∈ nodes, (∃ f es, x = .file f es) ∨ ∀ e ∈ MNode.events [] x, e.1 ≠ n

end DK.Spec
