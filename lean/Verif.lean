import Verif.Props.Vector
import Verif.Props.Map
import Verif.Props.Types
import Verif.Props.SymTab
import Verif.Props.Specifiers
import Verif.Props.Regalloc
import Verif.Props.Liveseq
import Verif.Props.Lexer
import Verif.Props.X64
import Verif.Props.X64Call
import Verif.Props.Parser
import Verif.Props.ParserTime
import Verif.Props.Resolver
import Verif.Props.Init
import Verif.Props.ResolverFaults
import Verif.Props.Immcgen
import Verif.Spec.ImmcSem
import Verif.Spec.CSem
import Verif.Spec.Fragment
import Verif.Spec.GenSem
import Verif.Lemma.SimMach
import Verif.Lemma.SimVal
import Verif.Lemma.CSem
import Verif.Lemma.SimExec
import Verif.Lemma.SimExpr
import Verif.Lemma.SimExprs
import Verif.Lemma.SimProps
import Verif.Lemma.ResInv
import Verif.Props.GenExpr
import Verif.Props.GenConv
import Verif.Props.Compound
import Verif.Model.Print
import Verif.Model.Main
import Verif.Props.Main
import Verif.Props.Print
import Verif.Spec.Layout
import Verif.Lemma.Layout
import Verif.Props.StaticData
import Verif.Lemma.SimInit
import Verif.Props.LocalInit
import Verif.Spec.CStmt
import Verif.Spec.StmtGen
import Verif.Lemma.StmtStatic
import Verif.Lemma.StmtBase
import Verif.Lemma.SimStmt
import Verif.Lemma.StmtFunc
import Verif.Props.GenStmt
import Verif.Spec.Paths
import Verif.Lemma.LiveTyp
import Verif.Lemma.LiveExpr
import Verif.Lemma.LiveExprs
import Verif.Lemma.LiveStmt
import Verif.Lemma.Once
import Verif.Props.GenLive
import Verif.Props.Translate
import Verif.Props.RegallocViolations
import Verif.Lemma.X64Sim
import Verif.Lemma.X64Check
import Verif.Props.X64Run
import Verif.Lemma.Program
import Verif.Spec.Static
import Verif.Lemma.StaticTy
import Verif.Lemma.StaticDtor
import Verif.Lemma.StaticExpr
import Verif.Lemma.StaticTree
import Verif.Lemma.StaticMono
import Verif.Props.Static
import Verif.Spec.StaticUnit
import Verif.Lemma.StaticSim
import Verif.Lemma.StaticSpec
import Verif.Lemma.StaticInit
import Verif.Lemma.StaticDecl
import Verif.Lemma.StaticStmt
import Verif.Lemma.StaticUnitMono
import Verif.Props.StaticUnit
import Verif.Props.Program
import Verif.Props.Asm
import Verif.Spec.Plain
import Verif.Lemma.Plain
import Verif.Lemma.PlainExpr
import Verif.Lemma.PlainFlat
import Verif.Lemma.PlainCall
import Verif.Lemma.PlainStmt
import Verif.Lemma.PlainFunc
import Verif.Lemma.PlainSuits
import Verif.Lemma.ChunkLives
import Verif.Lemma.TidyFunc
import Verif.Lemma.PlainFlags
import Verif.Lemma.PlainMono
import Verif.Props.Plain
import Verif.Spec.FlowSets
import Verif.Lemma.FlowRun
import Verif.Lemma.FlowSet
import Verif.Lemma.FlowHome
import Verif.Lemma.FlowEnds
import Verif.Lemma.FlowExact
import Verif.Lemma.FlowStart
import Verif.Lemma.FlowTable
import Verif.Lemma.FlowCheck
import Verif.Props.Flow
import Verif.Spec.Tidy
import Verif.Lemma.TidyCode
import Verif.Lemma.TidyExprs
import Verif.Lemma.TidyStmts
import Verif.Lemma.TidyFlow
import Verif.Lemma.TidyUnit
import Verif.Props.Tidy
import Verif.Spec.Usable
import Verif.Lemma.Fit
import Verif.Lemma.FitInst
import Verif.Lemma.FitUnit
import Verif.Props.Usable
import Verif.Spec.Room
import Verif.Lemma.Room
import Verif.Spec.Whole
import Verif.Props.Whole
