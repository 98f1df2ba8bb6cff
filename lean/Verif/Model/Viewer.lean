import Verif.Model.YamlOut

/-!
Model of the viewer's data and navigation: view/src/Result.js, components/ResultNavigation.jsx,
components/ResultViewer.jsx, components/Callstack.jsx and components/FunctionListing.jsx. JavaScript `Map`s
are insertion-ordered dictionaries. Not modelled: rendering, HTML, loading of files, `DiffViewWrapper` (it uses
react-diff-view).
-/

set_option autoImplicit false

namespace DK

/-! ### Result.js -/

/-- The part `results` of the YAML file: compared functions with their differences. -/
abbrev ViewFile := List (Str × List YamlDiff)

/-- `Array.prototype.sort` with a comparison of names: it is stable. `le a b` means that
`compareFunctionNames(a, b)` is not positive, Result.js 5-7 (lower case, then order of the locale). -/
def jsSort {α : Type} (le : Str → Str → Bool) (name : α → Str) (l : List α) : List α :=
  l.insertionSort (fun a b => le (name a) (name b) = true)

/-- The two private maps of `Result`. -/
structure ViewResult where
  comp : Dict Str (Dict Str YamlDiff)
  diffs : Dict Str (List Str)

/-- The body of the inner loop, Result.js 74-81. -/
def addDiff (compared : Str) (x : Dict Str YamlDiff × Dict Str (List Str)) (d : YamlDiff) :
    Dict Str YamlDiff × Dict Str (List Str) :=
  (x.1.set d.function d,
   match x.2.get? d.function with
   | some l => x.2.set d.function (l ++ [compared])
   | none => x.2.set d.function [compared])

/-- The body of the outer loop, Result.js 70-83. -/
def addCompared (v : ViewResult) (r : Str × List YamlDiff) : ViewResult :=
  let x := r.2.foldl (addDiff r.1) ([], v.diffs)
  { comp := v.comp.set r.1 x.1, diffs := x.2 }

/-- The constructor and `#createAllCompAndDiffFuns`, Result.js 42-87. -/
def viewResult (le : Str → Str → Bool) (f : ViewFile) : ViewResult :=
  let results := (jsSort le Prod.fst f).map fun r => (r.1, jsSort le YamlDiff.function r.2)
  let v := results.foldl addCompared ⟨[], []⟩
  { v with diffs := jsSort le Prod.fst v.diffs }

namespace ViewResult

/-- `getCompFuns()`, Result.js 99. -/
def compFuns (v : ViewResult) : List Str := v.comp.keys

/-- `getCompFuns(diffFunName)`, 96-98; `none` is `undefined`. -/
def compFunsFor (v : ViewResult) (d : Str) : Option (List Str) := v.diffs.get? d

/-- `getDiffFuns()`, 112. -/
def diffFuns (v : ViewResult) : List Str := v.diffs.keys

/-- `getDiffFuns(compFunName)`, 109-111; `none` is a `TypeError`. -/
def diffFunsFor (v : ViewResult) (c : Str) : Option (List Str) := (v.comp.get? c).map Dict.keys

/-- `getDiff`, 119-121; `none` is `undefined` or a `TypeError`. -/
def getDiff (v : ViewResult) (c d : Str) : Option YamlDiff := (v.comp.get? c).bind fun m => m.get? d

end ViewResult

/-- `names[0] === name`, Result.js 128 and 147. -/
def isFirstName (l : List Str) (x : Str) : Bool := l.head? == some x

/-- `names[names.length - 1] === name`, 137 and 157. -/
def isLastName (l : List Str) (x : Str) : Bool := l.getLast? == some x

/-- `index + 1` for `index = names.indexOf(name)` (`-1` if it is missing), 167 and 182. -/
def indexPlus (l : List Str) (x : Str) : Nat := if l.contains x then l.idxOf x + 1 else 0

/-- The next name, `getNextCompName` 165-172 and `getNextDiffFunNameForComp` 180-187; `none` is `null`. -/
def nextListed (l : List Str) (x : Str) : Option Str := l[indexPlus l x]?

/-- The previous name, `getPrevCompName` 193-200 and `getPrevDiffFunNameForComp` 207-214. -/
def prevListed (l : List Str) (x : Str) : Option Str :=
  if indexPlus l x ≥ 2 then l[indexPlus l x - 2]? else none

/-! ### ResultViewer.jsx and ResultNavigation.jsx -/

/-- The state of `ResultViewer`: `comparedFunction` and `diffFunction`; `none` is `null` or `undefined`. -/
structure NavState where
  comp : Option Str
  diff : Option Str
  deriving DecidableEq, Repr

/-- JavaScript truth of a name: not missing and not empty. -/
def truthy (x : Option Str) : Bool := match x with | some s => !s.isEmpty | none => false

/-- What the user can click on. -/
inductive NavEvent where
  | select (name : Str)
  | nextComp | prevComp | nextDiff | prevDiff
  | results | compare | differing
  deriving DecidableEq, Repr

/-- The page that is shown, ResultViewer.jsx 42-85; `broken`: rendering raises an error because a list or a
difference is missing. -/
inductive Page where
  | difference (c d : Str) (x : YamlDiff)
  | diffList (c : Str) (l : List Str)
  | compList (d : Str) (l : List Str)
  | start (l : List Str)
  | broken
  deriving DecidableEq

/-- ResultViewer.jsx 42-85. -/
def pageOf (v : ViewResult) (s : NavState) : Page :=
  match truthy s.comp, s.comp, truthy s.diff, s.diff with
  | true, some c, true, some d =>
    match v.getDiff c d with
    | some x => .difference c d x
    | none => .broken
  | true, some c, _, _ =>
    match v.diffFunsFor c with
    | some l => .diffList c l
    | none => .broken
  | _, _, true, some d =>
    match v.compFunsFor d with
    | some l => .compList d l
    | none => .broken
  | _, _, _, _ => .start v.compFuns

/-- The handlers of ResultNavigation.jsx 28-70 and the selection in the lists. `none`: the click is not
possible (no button, or the button is disabled, 113-140). -/
def navStep (v : ViewResult) (s : NavState) : NavEvent → Option NavState
  | .select x =>
    match pageOf v s with
    | .diffList _ l => if l.contains x then some { s with diff := some x } else none
    | .compList _ l => if l.contains x then some { s with comp := some x } else none
    | .start l => if l.contains x then some { s with comp := some x } else none
    | _ => none
  | .nextComp =>
    match s.comp with
    | some c =>
      if truthy s.comp = true ∧ isLastName v.compFuns c = false then
        let n := nextListed v.compFuns c
        some { comp := n
               diff := if truthy s.diff then (n.bind v.diffFunsFor).bind List.head? else s.diff }
      else none
    | none => none
  | .prevComp =>
    match s.comp with
    | some c =>
      if truthy s.comp = true ∧ isFirstName v.compFuns c = false then
        let n := prevListed v.compFuns c
        some { comp := n
               diff := if truthy s.diff then (n.bind v.diffFunsFor).bind List.head? else s.diff }
      else none
    | none => none
  | .nextDiff =>
    match s.comp, s.diff with
    | some c, some d =>
      if truthy s.comp = true ∧ truthy s.diff = true then
        match v.diffFunsFor c with
        | some l => if isLastName l d then none else some { s with diff := nextListed l d }
        | none => none
      else none
    | _, _ => none
  | .prevDiff =>
    match s.comp, s.diff with
    | some c, some d =>
      if truthy s.comp = true ∧ truthy s.diff = true then
        match v.diffFunsFor c with
        | some l => if isFirstName l d then none else some { s with diff := prevListed l d }
        | none => none
      else none
    | _, _ => none
  | .results => some ⟨none, none⟩
  | .compare => if truthy s.comp || truthy s.diff then some { s with diff := none } else none
  | .differing => if truthy s.diff then some { s with comp := none } else none

/-! ### Callstack.jsx -/

/-- An item of the displayed call stack: a pair of calls that belong together, or groups of calls. -/
inductive StackItem where
  | pair (old new : Str)
  | group (old new : List Str)
  deriving DecidableEq, Repr

/-- `findCorespondingPair`, Callstack.jsx 44-63, relative to the current positions. `ren` is `getNewName`. -/
def findPair (ren : Str → Str) (old new : List Str) : Option (Nat × Nat) :=
  match (List.range old.length).find? (fun i => match old[i]? with | some o => new.contains (ren o) | none => false) with
  | some i =>
    match old[i]? with
    | some o => some (i, new.idxOf (ren o))
    | none => none
  | none => if old ≠ [] ∧ new ≠ [] then some (old.length - 1, new.length - 1) else none

/-- The loop of `Callstack`, 77-125, on what is left of the two call stacks; the outer `none` is the `TypeError`
in 81 when nothing is left of the new one; `fuel` bounds the number of rounds (`C92_ends`). -/
def showStack (ren : Str → Str) : Nat → List Str → List Str → Option (List StackItem)
  | 0, _, _ => none
  | _ + 1, [], _ => some []
  | _ + 1, _ :: _, [] => none
  | fuel + 1, o :: os, n :: ns =>
    if n = ren o ∨ (os = [] ∧ ns = []) then
      (showStack ren fuel os ns).map (.pair o n :: ·)
    else
      match findPair ren (o :: os) (n :: ns) with
      | some (i, j) =>
        (showStack ren fuel ((o :: os).drop i) ((n :: ns).drop j)).map
          (.group ((o :: os).take i) ((n :: ns).take j) :: ·)
      | none => some []

/-- `Callstack` for two call stacks. -/
def callStackView (ren : Str → Str) (old new : List Str) : Option (List StackItem) :=
  showStack ren (old.length + new.length + 1) old new

/-! ### FunctionListing.jsx -/

/-- A row of the listing: a label with a letter, or a button with a function. -/
inductive ListRow where
  | label (c : Option Char)
  | button (f : Str)
  deriving DecidableEq, Repr

/-- The loop that creates rows, FunctionListing.jsx 24-46. `up` is `toUpperCase` of the first character. -/
def listRows (up : Char → Char) : Option (Option Char) → List Str → List ListRow
  | _, [] => []
  | last, f :: fs =>
    let c := f.head?.map up
    if last = some c then .button f :: listRows up last fs
    else .label c :: .button f :: listRows up (some c) fs

/-- `Math.max(20, Math.ceil(rows.length / 4))`, 48. -/
def columnSize (n : Nat) : Nat := max 20 ((n + 3) / 4)

/-- `rows.slice(a, b)`. -/
def slice {α : Type} (l : List α) (a b : Nat) : List α := (l.take b).drop a

/-- The four columns, 54-78. -/
def listColumns {α : Type} (rows : List α) : List (List α) :=
  let s := columnSize rows.length
  [slice rows (0 * s) (1 * s), slice rows (1 * s) (2 * s), slice rows (2 * s) (3 * s),
   slice rows (3 * s) rows.length]

/-! ### Difference.jsx -/

/-- `findIndex((call) => call.name === name) + 1`, Difference.jsx 55-60, for a call stack of names and lines. -/
def afterCall (l : List (Str × Int)) (name : Str) : Nat :=
  match l.findIdx? (fun x => x.1 = name) with
  | some i => i + 1
  | none => 0

/-- `getCallingLine`, Difference.jsx 50-73: the lines that are highlighted for the selected function. -/
def callingLine (compare shown : Str) (old new : List (Str × Int)) : Option (Int × Int) :=
  let i := if shown = compare then 0 else afterCall old shown
  let j := if shown = compare then 0 else afterCall new shown
  match old[i]?, new[j]? with
  | some o, some n => some (o.2, n.2)
  | _, _ => none

end DK
