import Verif.Model.Config

/-! Specification vocabulary for the configuration (C28, C29, C78). -/

set_option autoImplicit false

namespace DK.Spec

/-- The twelve patterns. -/
def allPatterns : List Str :=
  [str! "struct-alignment", str! "function-splits", str! "unused-return-types", str! "kernel-prints", str! "dead-code",
   str! "numerical-macros", str! "relocations", str! "type-casts", str! "control-flow-only", str! "inverse-conditions",
   str! "reordered-bin-ops", str! "group-vars"]

/-- The pattern is requested: not disabled, and enabled or neither of the "all" options decides and it is a default one. -/
def Requested (enable disable : List Str) (p : Str) : Prop :=
  p ∉ disable ∧ (p ∈ enable ∨ (str! "all" ∉ disable ∧
    (str! "all" ∈ enable ∨ p ∉ [str! "type-casts", str! "control-flow-only"])))

/-- The pattern is to be active: requested or implied. -/
def Active (enable disable : List Str) (p : Str) : Prop :=
  Requested enable disable p ∨ (p = str! "type-casts" ∧ Requested enable disable (str! "control-flow-only"))

/-- The field of the engine's configuration for a pattern. -/
def fieldOf (p : EnginePatterns) (name : Str) : Option Bool :=
  Dict.get? [(str! "struct-alignment", p.structAlignment), (str! "function-splits", p.functionSplits),
    (str! "unused-return-types", p.unusedReturnTypes), (str! "kernel-prints", p.kernelPrints),
    (str! "dead-code", p.deadCode), (str! "numerical-macros", p.numericalMacros), (str! "relocations", p.relocations),
    (str! "type-casts", p.typeCasts), (str! "control-flow-only", p.controlFlowOnly),
    (str! "inverse-conditions", p.inverseConditions), (str! "reordered-bin-ops", p.reorderedBinOps),
    (str! "group-vars", p.groupVars)] name

/-- The file a listed pattern denotes: relative paths are relative to the directory, if one is given. -/
def located : Option Str → Str → Str
  | none, p => p
  | some d, p =>
    if d = [] ∨ p.head? = some '/' then p
    else if d.getLast? = some '/' then d ++ p
    else d ++ '/' :: p

/-- A pattern file that can be used: readable, an LLVM file, accepted by the verifier. -/
def GoodPattern (env : PatEnv) (f : Str) : Prop :=
  env.readable f = true ∧ getExtension f = str! "ll" ∧ env.verifies f = true

end DK.Spec
