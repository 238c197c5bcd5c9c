import Verif.Props.Token
import Verif.Props.Classify
import Verif.Props.Literal
import Verif.Props.Utf8
import Verif.Props.Containers
import Verif.Props.Paths
import Verif.Props.Cli
import Verif.Props.Runtime
import Verif.Props.Errors
import Verif.Props.Parser
import Verif.Props.Types
import Verif.Model.Semantic
import Verif.Proofs.SemExpr
import Verif.Proofs.SemStmt
import Verif.Proofs.SemSound
import Verif.Proofs.SemDet
import Verif.Proofs.SemComplete
import Verif.Spec.Program
import Verif.Spec.Accepted
import Verif.Spec.ScopeRun
import Verif.Proofs.SemReach
import Verif.Proofs.SemProps
import Verif.Proofs.SemEnv
import Verif.Proofs.SemAccepted
import Verif.Proofs.ScopeRun
import Verif.Proofs.ParseCounted
import Verif.Proofs.ManyArgs
import Verif.Props.Scope
import Verif.Props.Semantic
import Verif.Proofs.Names
import Verif.Props.Typing
import Verif.Props.Names
import Verif.Props.Exact
import Verif.Proofs.Unused
import Verif.Proofs.UnusedTree
import Verif.Proofs.UnusedWarn
import Verif.Props.Unused
import Verif.Spec.Uses
import Verif.Spec.Checked
import Verif.Proofs.Checked
import Verif.Proofs.Steady
import Verif.Proofs.CheckedTree
import Verif.Model.CodegenC
import Verif.Spec.CSyntax
import Verif.Spec.CReads
import Verif.Proofs.CGrammar
import Verif.Proofs.CText
import Verif.Props.CText
import Verif.Model.CodegenLLVM
import Verif.Spec.Flow
import Verif.Proofs.LCode
import Verif.Proofs.LFrame
import Verif.Proofs.LStmt
import Verif.Proofs.LRun
import Verif.Proofs.LGrow
import Verif.Proofs.LLaid
import Verif.Spec.Declared
import Verif.Proofs.Defs
import Verif.Proofs.Scoped
import Verif.Proofs.LProgram
import Verif.Proofs.LTidy
import Verif.Proofs.Ends
import Verif.Props.CodegenLLVM
import Verif.Spec.Run
import Verif.Spec.Machine
import Verif.Proofs.SrcKeep
import Verif.Proofs.SrcMono
import Verif.Proofs.LArith
import Verif.Proofs.LSim
import Verif.Proofs.LSimRun
import Verif.Proofs.LSimExpr
import Verif.Proofs.LSimStmt
import Verif.Proofs.LSimMain
import Verif.Proofs.LGlobs
import Verif.Proofs.LSimProg
import Verif.Proofs.LDet
import Verif.Proofs.LInterp
import Verif.Props.Run
import Verif.Spec.CValue
import Verif.Proofs.CString
import Verif.Proofs.CValue
import Verif.Proofs.LValue
import Verif.Props.Values
import Verif.Props.Declared
import Verif.Spec.Generates
import Verif.Proofs.ParseKnown
import Verif.Proofs.Shaped
import Verif.Proofs.LTotal
import Verif.Proofs.LTotalStmt
import Verif.Proofs.LTotalConv
import Verif.Props.Generates
import Verif.Model.Driver
import Verif.Spec.Driver
import Verif.Spec.Shell
import Verif.Proofs.Driver
import Verif.Proofs.Shell
import Verif.Proofs.Delivers
import Verif.Props.Driver
import Verif.Spec.Silent
import Verif.Proofs.ParsePlaced
import Verif.Proofs.Told
import Verif.Props.Told
import Verif.Spec.Exit
import Verif.Proofs.Start
import Verif.Props.EndToEnd
import Verif.Spec.CProgram
import Verif.Proofs.CProgGrammar
import Verif.Spec.CWritable
import Verif.Proofs.CTotal
import Verif.Props.CProgram
import Verif.Spec.CProgReads
import Verif.Proofs.CProgText
import Verif.Proofs.CFlags
import Verif.Props.CFile
import Verif.Spec.CRun
import Verif.Spec.CFits
import Verif.Proofs.CRunMono
import Verif.Proofs.CSim
import Verif.Proofs.CSimExpr
import Verif.Proofs.CSimStmt
import Verif.Proofs.CSimExec
import Verif.Proofs.CSimRun
import Verif.Proofs.CSimCall
import Verif.Proofs.CSimGood
import Verif.Proofs.CSimStatic
import Verif.Proofs.CSimLink
import Verif.Proofs.CSimMain
import Verif.Props.CRun
import Verif.Proofs.SrcArith
import Verif.Props.Agree
import Verif.Spec.CLines
import Verif.Proofs.CDebug
import Verif.Proofs.CDebugRun
import Verif.Props.CDebug
import Verif.Spec.Heap
import Verif.Model.SemHeap
import Verif.Proofs.SemMild
import Verif.Proofs.SemHeapBase
import Verif.Proofs.SemHeapStep
import Verif.Proofs.SemHeapScope
import Verif.Proofs.SemHeapBlock
import Verif.Proofs.SemHeapStmt
import Verif.Proofs.SemHeapFree
import Verif.Proofs.SemHeapParam
import Verif.Props.Memory
import Verif.Spec.Defined
import Verif.Proofs.SemDefTokens
import Verif.Proofs.SemDefFuncs
import Verif.Proofs.SemDefExpr
import Verif.Proofs.SemDefined
import Verif.Proofs.SemDefSafe
import Verif.Proofs.SemDefNames
import Verif.Props.Defined
import Verif.Spec.Source
import Verif.Proofs.SourceLine
import Verif.Proofs.SourceParse
import Verif.Props.Source
import Verif.Model.ParseHeap
import Verif.Spec.ParseMemory
import Verif.Proofs.ParseHeapBase
import Verif.Proofs.ParseHeapExpr
import Verif.Proofs.ParseHeapStmt
import Verif.Proofs.ParseHeapNode
import Verif.Proofs.ParseHeapBrace
import Verif.Proofs.ParseHeapTree
import Verif.Proofs.ParseHeapSource
import Verif.Props.ParseMemory
import Verif.Spec.Direct
import Verif.Proofs.Elab
import Verif.Proofs.DirectRel
import Verif.Proofs.DirectState
import Verif.Proofs.DirectSim
import Verif.Proofs.DirectRun
import Verif.Proofs.ElabExpr
import Verif.Proofs.ElabCheck
import Verif.Props.Direct
import Verif.Props.DebugLLVM
import Verif.Model.CHeap
import Verif.Proofs.CHeap
import Verif.Props.CHeap
import Verif.Model.TokHeap
import Verif.Proofs.TokHeap
import Verif.Props.TokHeap
import Verif.Spec.Verified
import Verif.Proofs.LVCode
import Verif.Proofs.LVStmt
import Verif.Proofs.LVGood
import Verif.Proofs.LVerify
import Verif.Proofs.LVGen
import Verif.Proofs.LVFunc
import Verif.Props.Verified
import Verif.Model.DebugInfo
import Verif.Spec.DebugInfo
import Verif.Proofs.DebugInfo
import Verif.Proofs.DebugStmt
import Verif.Proofs.DebugTree
import Verif.Proofs.Described
import Verif.Props.DebugInfo
import Verif.Spec.Settings
import Verif.Proofs.Options
import Verif.Proofs.Settings
import Verif.Props.Settings
import Verif.Spec.Relabel
import Verif.Proofs.Relabel
import Verif.Props.Relabel
import Verif.Spec.Reformat
import Verif.Proofs.Reformat
import Verif.Proofs.ReformGen
import Verif.Proofs.ReformRun
import Verif.Proofs.ReformText
import Verif.Props.Reformat
import Verif.Model.DebugTypes
import Verif.Spec.DebugTypes
import Verif.Props.DebugTypes
import Verif.Model.ContHeap
import Verif.Spec.ContHeap
import Verif.Proofs.ContHeap
import Verif.Props.ContHeap
import Verif.Model.DrvHeap
import Verif.Spec.DrvHeap
import Verif.Proofs.DrvHeap
import Verif.Props.DrvHeap
import Verif.Model.MsgHeap
import Verif.Spec.MsgHeap
import Verif.Proofs.MsgHeap
import Verif.Props.MsgHeap
import Verif.Model.StrHeap
import Verif.Spec.StrHeap
import Verif.Proofs.StrHeap
import Verif.Props.StrHeap
import Verif.Spec.OwnNames
import Verif.Proofs.OwnNames
import Verif.Props.OwnNames
