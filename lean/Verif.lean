import Verif.Model.Bytes
import Verif.Model.Float
import Verif.Model.Regex
import Verif.Model.Ast
import Verif.Model.Print
import Verif.Model.Syntax
import Verif.Model.GrammarGo
import Verif.Model.Grammar
import Verif.Model.Actions
import Verif.Model.Peg
import Verif.Model.Parse
import Verif.Model.AstUtil
import Verif.Model.App
import Verif.Model.Errors
import Verif.Spec.Token
import Verif.Spec.Traverse
import Verif.Proofs.Bytes
import Verif.Proofs.AstUtil
import Verif.Proofs.Traverse
import Verif.Props.Quote
import Verif.Props.Traverse
import Verif.Model.Options
import Verif.Spec.NilFree
import Verif.Props.Ast
import Verif.Props.Options
import Verif.Props.Report
import Verif.Proofs.Engine
import Verif.Proofs.Sim
import Verif.Proofs.Fail
import Verif.Proofs.Term
import Verif.Spec.Utf8
import Verif.Proofs.Utf8
import Verif.Spec.MapAst
import Verif.Proofs.MapAst
import Verif.Proofs.Parse
import Verif.Props.Engine
import Verif.Spec.Positions
import Verif.Proofs.ValInv
import Verif.Proofs.Positions
import Verif.Props.Positions
import Verif.Spec.App
import Verif.Proofs.Clean
import Verif.Proofs.Lint
import Verif.Proofs.App
import Verif.Props.App
import Verif.Proofs.Run
import Verif.Proofs.RunParse
import Verif.Spec.Cst
import Verif.Proofs.RunIff
import Verif.Proofs.RunLex
import Verif.Proofs.RunGap
import Verif.Proofs.RunTok
import Verif.Proofs.Sound
import Verif.Proofs.SoundCond
import Verif.Proofs.SoundBlock
import Verif.Spec.Collect
import Verif.Proofs.Collect
import Verif.Proofs.CondPos
import Verif.Props.Language
import Verif.Spec.Clear
import Verif.Spec.Strip
import Verif.Proofs.Complete
import Verif.Proofs.CompleteCond
import Verif.Proofs.CompleteBlock
import Verif.Proofs.Strip
import Verif.Proofs.AMapComp
import Verif.Props.Layout
import Verif.Spec.Pieces
import Verif.Proofs.Prefix
import Verif.Proofs.Float
import Verif.Spec.Number
import Verif.Proofs.FloatFmt
import Verif.Props.Number
import Verif.Spec.Printable
import Verif.Proofs.Pieces
import Verif.Proofs.PrintTr
import Verif.Proofs.PrintTrBlock
import Verif.Proofs.PrintCst
import Verif.Proofs.PrintCstBlock
import Verif.Spec.Literals
import Verif.Proofs.StrMap
import Verif.Proofs.PrintFile
import Verif.Proofs.Settle
import Verif.Proofs.SettleOk
import Verif.Proofs.Shape
import Verif.Proofs.OkMap
import Verif.Proofs.Literals
import Verif.Proofs.SettlePlain
import Verif.Proofs.Utf8Split
import Verif.Proofs.Texts
import Verif.Proofs.TextsPrint
import Verif.Props.Format
import Verif.Proofs.FixIDs
import Verif.Props.Fix
import Verif.Model.Heap
import Verif.Spec.Heap
import Verif.Proofs.Heap
import Verif.Props.Heap
import Verif.Proofs.RunPos
import Verif.Proofs.RunPosIff
import Verif.Spec.Positioned
import Verif.Proofs.SoundPosTok
import Verif.Proofs.SoundPos
import Verif.Proofs.SoundPosCond
import Verif.Proofs.SoundPosBlock
import Verif.Props.Located
import Verif.Spec.Errors
import Verif.Proofs.ErrInv
import Verif.Props.Errors
import Verif.Proofs.Cost
import Verif.Proofs.CostCap
import Verif.Proofs.CostWp
import Verif.Proofs.CostLex
import Verif.Proofs.CostTok
import Verif.Proofs.CostVal
import Verif.Proofs.CostCond
import Verif.Proofs.CostExpr
import Verif.Proofs.CostBlock
import Verif.Proofs.CostTotal
import Verif.Proofs.CostFile
import Verif.Props.Cost
import Verif.Spec.Messages
import Verif.Proofs.Typing
import Verif.Proofs.TypeCheck
import Verif.Proofs.TypeSound
import Verif.Proofs.ErrText
import Verif.Props.Messages
import Verif.Proofs.CompletePosTok
import Verif.Proofs.CompletePos
import Verif.Proofs.CompletePosCond
import Verif.Proofs.CompletePosBlock
import Verif.Proofs.RunPosDet
import Verif.Props.Exact
import Verif.Proofs.SoundBase
import Verif.Proofs.NumCond
import Verif.Proofs.NumTri
import Verif.Proofs.ClearIff
import Verif.Spec.Risks
import Verif.Spec.Rounding
import Verif.Proofs.PrintExc
import Verif.Proofs.FloatRound
import Verif.Proofs.Rounding
import Verif.Proofs.Risks
import Verif.Proofs.RisksText
import Verif.Props.Rounding
import Verif.Model.Concurrent
import Verif.Proofs.Concurrent
import Verif.Proofs.Pool
import Verif.Props.Concurrent
import Verif.Spec.Treetop
import Verif.Spec.TreetopFile
import Verif.Proofs.Peg
import Verif.Proofs.PegErase
import Verif.Proofs.Treetop
import Verif.Proofs.TreetopSame
import Verif.Props.Treetop
import Verif.Model.Entry
import Verif.Spec.Entry
import Verif.Spec.EntryVal
import Verif.Spec.Fatal
import Verif.Proofs.CostLim
import Verif.Proofs.Entry
import Verif.Proofs.EntryVal
import Verif.Props.Entry
import Verif.Model.Memo
import Verif.Proofs.Memo
import Verif.Proofs.MemoCost
import Verif.Props.Memo
import Verif.Spec.Session
import Verif.Props.Session
import Verif.Model.StatePool
import Verif.Proofs.StatePool
import Verif.Props.StatePool
import Verif.Spec.Attempts
import Verif.Proofs.Attempts
import Verif.Props.Attempts
import Verif.Props.Main
import Verif.Model.Depth
import Verif.Spec.Depth
import Verif.Proofs.Depth
import Verif.Proofs.DepthLim
import Verif.Proofs.DepthLow
import Verif.Props.Depth
import Verif.Model.ChoiceSpots
import Verif.Model.Stats
import Verif.Spec.Picks
import Verif.Proofs.Stats
import Verif.Props.Stats
import Verif.Model.Debug
import Verif.Spec.Trace
import Verif.Proofs.Debug
import Verif.Proofs.Trace
import Verif.Proofs.DebugSame
import Verif.Props.Debug
import Verif.Model.Construct
import Verif.Spec.Built
import Verif.Proofs.Built
import Verif.Props.Construct
import Verif.Props.Edited
import Verif.Props.Concat
import Verif.Props.Crlf
import Verif.Spec.Cut
import Verif.Proofs.PosMap
import Verif.Proofs.Cut
import Verif.Props.Cut
import Verif.Proofs.Ahead
import Verif.Props.Ahead
import Verif.Props.Start
import Verif.Props.Together
import Verif.Tests.Go
import Verif.Proofs.NodePos
import Verif.Props.NodeText
import Verif.Props.NodeBlock
import Verif.Spec.Entries
import Verif.Proofs.EntryPos
