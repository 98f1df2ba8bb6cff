import Verif.Model.FunctionsDiff

/-! Model of the use of a semantic diff tool (diffkemp/semdiff/function_diff.py 119-157, llvm_module.py 56-64 and 202-212). -/

set_option autoImplicit false

namespace DK

/-- What `functions_diff` passes to `functions_semdiff` for one side: the empty text if the graph of an earlier comparison is
used (function_diff.py 204-205), otherwise a module (simpll.py 179-180) that is not parsed yet, given by the functions of its
file (`none`: the engine did not write the file, since that is only done on request, ModuleAnalysis.cpp 258-262), or a module
whose attribute was deleted by `clean_module` (llvm_module.py 61-64). -/
inductive ToolInput where
  | text
  | module (functions : Option (List Str))
  | cleaned
  deriving DecidableEq, Repr

/-- `get_functions_called_by`, llvm_module.py 202-212, with `parse_module` (56-59) and the constructor of `SimpLLModule`
(library.py 34-37): `AttributeError` for a text and for a deleted attribute, `ValueError` if there is no file, `None` for names
that are no functions. `called` gives the names of called functions. -/
def functionsCalledBy (called : Str → List Str) : ToolInput → Str → Except PyErr (Option (List Str))
  | .text, _ => .error .attributeError
  | .cleaned, _ => .error .attributeError
  | .module none, _ => .error .valueError
  | .module (some fs), n => .ok (if n ∈ fs then some (called n) else none)

/-- The pairs of called functions with the same name, function_diff.py 149-150; iterating over `None` raises `TypeError`. The
second list is only looked at if the first one is not empty. -/
def coupledNames : Option (List Str) → Option (List Str) → Except PyErr (List Str)
  | none, _ => .error .typeError
  | some [], _ => .ok []
  | some (_ :: _), none => .error .typeError
  | some (a :: l), some r => .ok ((a :: l).filter (fun f => r.contains f))

/-- `functions_semdiff`, function_diff.py 119-157, with the tool `llreve` (the only one config.py 157-163 accepts). `solver` is
the verdict of the tool for two names and the coupled functions. Simplified: what happens to the modules afterwards is not
kept, every object meets them as they were in the beginning. -/
def functionsSemdiff (calledL calledR : Str → List Str) (solver : Str → Str → List Str → Kind) (l r : ToolInput) (o : Obj) :
    Except PyErr Kind :=
  match functionsCalledBy calledL l o.first.name with
  | .error e => .error e
  | .ok a =>
    match functionsCalledBy calledR r o.second.name with
    | .error e => .error e
    | .ok b =>
      match coupledNames a b with
      | .error e => .error e
      | .ok c => .ok (solver o.first.name o.second.name c)

end DK
