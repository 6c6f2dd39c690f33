import Verif.Base
import Verif.Float
import Verif.F64
import Verif.Value
import Verif.Ops
import Verif.Logic
import Verif.Props.Arith
import Verif.Props.Compare
import Verif.Props.Logic
import Verif.Registry
import Verif.Props.Collections
import Verif.Scope
import Verif.ScopeLemmas
import Verif.Props.ScopeVars
import Verif.Props.ScopeAgg
import Verif.Props.ScopeClose
import Verif.Text
import Verif.Props.TextLit
import Verif.Props.TextMisc
import Verif.Plugins
import Verif.ODLemmas
import Verif.Props.Plugins
import Verif.Conc
import Verif.Props.Conc
import Verif.Props.ConcGroup
import Verif.Props.ConcMore
import Verif.Props.Foreach
import Verif.Aggregates
import Verif.Props.Aggregates
import Verif.Args
import Verif.Props.Args
import Verif.Normalize
import Verif.Props.Normalize
import Verif.Funcs
import Verif.Syntax
import Verif.Eval
import Verif.EvalLemmas
import Verif.EvalFrame
import Verif.EvalNames
import Verif.EvalSelect
import Verif.EvalExpr
import Verif.Builtins
import Verif.EvalDemo
import Verif.Props.Funcs
import Verif.Props.EvalFrom
import Verif.Props.EvalWhere
import Verif.EvalLazy
import Verif.Props.EvalLet
import Verif.Props.EvalIf
import Verif.Props.EvalGroup
import Verif.EvalTerm
import Verif.EvalTermStd
import Verif.Props.EvalRepeat
import Verif.Props.EvalRec
import Verif.Format
import Verif.Props.Format
import Verif.Outline
import Verif.Props.Outline
import Verif.Parse
import Verif.Number
import Verif.Lower
import Verif.Library
import Verif.Golden
import Verif.GoldenFormat
import Verif.LexLemmas
import Verif.RoundTrip
import Verif.RoundLex
import Verif.RoundText
import Verif.RoundTok
import Verif.RoundParse
import Verif.RoundGram
import Verif.RoundStmt
import Verif.RoundEnd
import Verif.RoundFinal
import Verif.RoundGood
import Verif.RoundRead
import Verif.RoundParsed
import Verif.RoundNorm
import Verif.RoundWhole
import Verif.UpLow
import Verif.Checkpoint
import Verif.F64Text
import Verif.RoundNum
import Verif.RoundDec
import Verif.Props.RoundTrip
import Verif.Props.Checkpoint
import Verif.EvalWithin
import Verif.EvalReach
import Verif.EvalOnce
import Verif.EvalWithinStd
import Verif.Props.EvalOnce
import Verif.Props.EvalOps
import Verif.Props.EvalOrder
import Verif.Props.EvalIsolate
import Verif.Props.EvalOnceDemo
import Verif.EvalSim
import Verif.EvalSimPrim
import Verif.EvalSimBody
import Verif.EvalUses
import Verif.EvalSimOps
import Verif.EvalSimLib
import Verif.EvalSimStd
import Verif.EvalReprint
import Verif.ParseFuel
import Verif.StmtJoin
import Verif.StmtStay
import Verif.LexJoin
import Verif.StmtLast
import Verif.StmtMulti
import Verif.Props.Statements
import Verif.Props.EvalSame
import Verif.EvalNumbered
import Verif.Props.EvalReprint
import Verif.LayoutText
import Verif.LayoutWalk
import Verif.LayoutAll
import Verif.Props.Layout
import Verif.EvalLib
import Verif.Props.Split
import Verif.Props.EvalFns
import Verif.Props.EvalLibrary
import Verif.Props.EvalHistogram
import Verif.Dispatch
import Verif.Props.Dispatch
import Verif.Props.ScopeLife
import Verif.Introspect
import Verif.Props.Introspect
import Verif.Sources
import Verif.Props.Sources
import Verif.Props.EvalFns2
import Verif.Props.EvalAdd
import Verif.Pipe
import Verif.Props.Pipe
import Verif.LexGap
import Verif.Props.Spacing
import Verif.Props.Precedence
import Verif.Explain
import Verif.Props.Explain
import Verif.Props.Stats
import Verif.Props.LazyArgs
import Verif.EvalWithinLib
import Verif.Props.EvalPackage
import Verif.ScopeConc
import Verif.Props.ScopeConc
import Verif.Props.ScopeConcEnd
import Verif.AggConc
import Verif.Props.AggConc
import Verif.Structs
import Verif.Props.Structs
import Verif.Props.EvalStructs
import Verif.Letters
import Verif.LexCase
import Verif.EvalLetters
import Verif.Props.LetterCase
import Verif.Props.CallArgs
import Verif.LazyConc
import Verif.Props.LazyConc
import Verif.F64Near
import Verif.Props.Literal
import Verif.F64Exact
import Verif.Props.MixedNum
import Verif.KeyText
import Verif.Props.GroupKeys
import Verif.CallSite
import Verif.Props.CallSite
import Verif.LazyWord
import Verif.Props.LazyWord
import Verif.RowScopes
import Verif.Props.RowScopes
import Verif.Props.ArgOrder
import Verif.Locks
import Verif.Props.Locks
import Verif.ArgDecl
import Verif.Props.ArgDecl
import Verif.NodeCache
import Verif.Props.NodeCache
import Verif.VarSlices
import Verif.Props.VarSlices
import Verif.CloseTime
import Verif.Props.CloseTime
import Verif.ChildList
import Verif.Props.ChildList
import Verif.ThrottleScopes
import Verif.Props.ThrottleScopes
import Verif.OutputJson
import Verif.Props.OutputJson
import Verif.Statistics
import Verif.Props.Statistics
