import Verif.Model.Text

/-! Commands for the optimiser of LLVM (diffkemp/utils.py 27-43) and the passes for kernel modules
(diffkemp/llvm_ir/kernel_llvm_source_builder.py 412-436). -/

set_option autoImplicit false

namespace DK

/-- `",".join(f"{p[1]}({p[0]})" for p in passes)`, utils.py 35-36: a pass is a name and a unit. -/
def pipelineText : List (Str × Str) → Str
  | [] => []
  | [p] => p.2 ++ '(' :: p.1 ++ [')']
  | p :: ps => p.2 ++ '(' :: p.1 ++ str! ")," ++ pipelineText ps

/-- `get_opt_command`, utils.py 27-43, without the name of the program. -/
def optCommand (version : Nat) (passes : List (Str × Str)) (file : Str) (overwrite : Bool) : List Str :=
  [file] ++
  (if version ≥ 16 then [str! "-passes=" ++ pipelineText passes] else passes.map fun p => '-' :: p.1) ++
  if overwrite then [str! "-S", str! "-o", file] else []

/-- The passes of `_opt_llvm`, kernel_llvm_source_builder.py 421-429. -/
def kernelPasses : List (Str × Str) :=
  [(str! "lowerswitch", str! "function"), (str! "mem2reg", str! "function"), (str! "loop-simplify", str! "function"),
   (str! "simplifycfg", str! "function"), (str! "gvn", str! "function"), (str! "dce", str! "function"),
   (str! "constmerge", str! "module"), (str! "mergereturn", str! "function"), (str! "simplifycfg", str! "function")]

end DK
