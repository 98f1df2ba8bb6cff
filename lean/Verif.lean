import Verif.Props.Search
import Verif.Props.Absorb
import Verif.Props.Normalize
import Verif.Props.Mark
import Verif.Props.EngineOut
import Verif.Props.FunPairs
import Verif.Props.Cache
import Verif.Props.Result
import Verif.Props.Linking
import Verif.Props.Snapshot
import Verif.Props.Output
import Verif.Props.Tool
import Verif.Props.YamlOut
import Verif.Props.Config
import Verif.Props.SyntaxDiff
import Verif.Props.Text
import Verif.Props.Wrapper
import Verif.Props.Building
import Verif.Props.FunCmp
import Verif.Props.ModCmp
import Verif.Props.Passes
import Verif.Props.VarSlicer
import Verif.Props.DiffCmp
import Verif.Props.DiffRepeat
import Verif.Props.DiffReloc
import Verif.Props.Loads
import Verif.Props.Viewer
import Verif.Props.Transforms
import Verif.Props.Merging
import Verif.Props.Abstractions
import Verif.Props.Globals
import Verif.Props.Macros
import Verif.Props.Calls
import Verif.Props.MacroUse
import Verif.Props.CustomPatterns
import Verif.Props.CustomEquality
import Verif.Props.CustomLoading
import Verif.Props.CustomOccurrence
import Verif.Props.CustomCoverage
import Verif.Props.NamedTypes
import Verif.Props.Fields
import Verif.Props.FieldAccess
import Verif.Props.Sysctl
import Verif.Props.KernelBuild
import Verif.Props.ModuleCache
import Verif.Props.StructInfo
import Verif.Props.KernelGlobals
import Verif.Props.ModuleFiles
import Verif.Props.CProject
import Verif.Props.ObjectStat
import Verif.Props.Logger
import Verif.Props.Identifier
import Verif.Props.DiffPhi
import Verif.Props.ViewPrep
import Verif.Props.KernelSearch
import Verif.Props.ErrorList
import Verif.Props.SnapBuild
import Verif.Props.Program
import Verif.Props.ProgInline
import Verif.Props.Patterns
import Verif.Props.SeparateCalls
import Verif.Props.SourceLines
import Verif.Props.AsmArgs
import Verif.Props.MacroFun
import Verif.Props.OwnText
import Verif.Props.FullDiff
import Verif.Props.SemTool
import Verif.Props.DiffView
import Verif.Props.AsmDiff
import Verif.Props.ViewSession
import Verif.Props.CustomUnsound
import Verif.Props.CmpOps
import Verif.Props.SrcTypes
import Verif.Props.EngineCall
import Verif.Props.OptCommand
import Verif.Props.StructSizes
import Verif.Props.CallAttrs
import Verif.Props.ConstVal
import Verif.Props.FunListing
import Verif.Props.Highlight
import Verif.Props.LibMemory
import Verif.Props.SliceKeep
import Verif.Props.SliceEnd
import Verif.Props.SliceStores
import Verif.Props.SliceTime
