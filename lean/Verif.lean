import Verif.Model.Cmd
import Verif.Spec.Eval
import Verif.Spec.WF
import Verif.Spec.Slice
import Verif.Spec.Desc
import Verif.Spec.Text
import Verif.Proof.Order
import Verif.Proof.Code
import Verif.Proof.Sim
import Verif.Proof.SimPath
import Verif.Proof.Correct
import Verif.Proof.Lex
import Verif.Proof.ParseTotal
import Verif.Proof.ParseWF
import Verif.Proof.Size
import Verif.Proof.Slice
import Verif.Proof.Safe
import Verif.Proof.Api
import Verif.Props.Ex
import Verif.Props.Core
import Verif.Tests.Support
import Verif.Tests.T1
import Verif.Tests.Suite
import Verif.Tests.Parker
import Verif.Tests.Eq
import Verif.Spec.Select
import Verif.Proof.Select
import Verif.Props.Steps
import Verif.Spec.Compose
import Verif.Proof.Compose
import Verif.Proof.Perm
import Verif.Props.Whole
import Verif.Spec.Ops
import Verif.Spec.Js
import Verif.Proof.Ops
import Verif.Proof.F64
import Verif.Proof.Eq
import Verif.Proof.JsEq
import Verif.Proof.KRfl
import Verif.Props.Observe
import Verif.Props.Values
import Verif.Proof.Runes
import Verif.Props.Functions
import Verif.Spec.Errors
import Verif.Proof.Errors
import Verif.Props.Errors
import Verif.Props.Index
import Verif.Props.Cmd
import Verif.Spec.Consts
import Verif.Proof.Consts
import Verif.Props.Consts
import Verif.Spec.Grammar
import Verif.Proof.Grammar
import Verif.Proof.ParseSound
import Verif.Proof.ParseComplete
import Verif.Proof.Fuel
import Verif.Proof.PathSound
import Verif.Proof.PathComplete
import Verif.Spec.Lexical
import Verif.Proof.Lexical
import Verif.Proof.Tokens
import Verif.Proof.Written
import Verif.Proof.Join
import Verif.Spec.Literals
import Verif.Proof.Literals
import Verif.Props.Literals
import Verif.Spec.Layout
import Verif.Proof.Layout
import Verif.Spec.Documented
import Verif.Proof.Documented
import Verif.Spec.Print
import Verif.Proof.Print
import Verif.Props.Grammar
import Verif.Model.Conc
import Verif.Spec.Conc
import Verif.Proof.Conc.Mem
import Verif.Proof.Conc.Slice
import Verif.Proof.Conc.Select
import Verif.Proof.Conc.State
import Verif.Proof.Conc.Exec
import Verif.Proof.Conc.Producer
import Verif.Proof.Conc.Control
import Verif.Proof.Conc.System
import Verif.Proof.Conc.Loops
import Verif.Proof.Conc.Progress
import Verif.Proof.Conc.History
import Verif.Props.Conc
import Verif.Proof.Big
import Verif.Props.Big
import Verif.Spec.Float
import Verif.Proof.Round
import Verif.Proof.Quotient
import Verif.Props.Float
import Verif.Spec.Real
import Verif.Spec.Shortest
import Verif.Spec.JsText
import Verif.Proof.Number
import Verif.Proof.Decimal
import Verif.Proof.Format
import Verif.Proof.JsText
import Verif.Proof.RealLit
import Verif.Props.Real
import Verif.Props.Operands
import Verif.Props.Text
import Verif.Model.Text
import Verif.Model.Sprint
import Verif.Model.RunText
import Verif.Spec.GoLiteral
import Verif.Proof.Quote
import Verif.Proof.ProgText
import Verif.Props.Messages
import Verif.Spec.JsObject
import Verif.Proof.JsObject
import Verif.Props.JsObject
import Verif.Spec.Locate
import Verif.Proof.Locate
import Verif.Props.Locate
import Verif.Spec.Notation
import Verif.Proof.Notation
import Verif.Props.Laws
import Verif.Spec.Leaves
import Verif.Proof.Leaves
import Verif.Props.Leaves
import Verif.Spec.Keys
import Verif.Proof.Keys
import Verif.Props.Keys
import Verif.Spec.RunText
import Verif.Proof.RunText
import Verif.Props.RunText
import Verif.Proof.SliceLaws
import Verif.Props.Slices
import Verif.Model.CmdText
import Verif.Spec.CmdText
import Verif.Props.CmdText
import Verif.Proof.Script
import Verif.Props.Script
import Verif.Spec.Ways
import Verif.Proof.Ways
import Verif.Props.Ways
import Verif.Proof.Local
import Verif.Proof.LocalParse
import Verif.Props.Local
import Verif.Proof.Cost
import Verif.Spec.Work
import Verif.Proof.Work
import Verif.Props.Work
import Verif.Spec.Numbers
import Verif.Proof.Numbers
import Verif.Props.Numbers
import Verif.Model.Tree
import Verif.Spec.Tree
import Verif.Proof.Tree
import Verif.Props.Tree
import Verif.Spec.Current
import Verif.Proof.Current
import Verif.Props.Current
import Verif.Spec.Descent
import Verif.Proof.Descent
import Verif.Props.Descent
import Verif.Spec.Total
import Verif.Proof.Total
import Verif.Props.Total
import Verif.Props.Arith
import Verif.Spec.Shape
import Verif.Proof.Shape
import Verif.Props.Shape
import Verif.Spec.Grow
import Verif.Proof.Grow
import Verif.Props.Grow
import Verif.Spec.JsOrder
import Verif.Proof.JsOrder
import Verif.Props.JsOrder
import Verif.Spec.JsArith
import Verif.Props.JsArith
import Verif.Spec.DocOrder
import Verif.Proof.DocOrder
import Verif.Props.DocOrder
import Verif.Spec.Swap
import Verif.Proof.Swap
import Verif.Props.Swap
import Verif.Spec.Apart
import Verif.Proof.Apart
import Verif.Props.Apart
import Verif.Proof.JoinPath
import Verif.Props.JoinPath
import Verif.Spec.Slim
import Verif.Proof.Slim
import Verif.Props.Slim
import Verif.Spec.Rename
import Verif.Proof.Rename
import Verif.Props.Rename
import Verif.Spec.Program
import Verif.Proof.PathSize
import Verif.Proof.Program
import Verif.Props.Program
import Verif.Spec.Presence
import Verif.Proof.Presence
import Verif.Props.Presence
import Verif.Spec.JsonNumber
import Verif.Proof.JsonNumber
import Verif.Props.JsonNumber
import Verif.Spec.JsonEq
import Verif.Proof.JsonEq
import Verif.Props.JsonEq
import Verif.Spec.Blame
import Verif.Proof.Blame
import Verif.Proof.BlameLex
import Verif.Proof.BlameSpot
import Verif.Proof.BlameParse
import Verif.Props.Blame
import Verif.Spec.Stack
import Verif.Proof.Stack
import Verif.Props.Stack
import Verif.Proof.Cut
import Verif.Props.Cut
import Verif.Spec.Goroutines
import Verif.Proof.Goroutines
import Verif.Props.Goroutines
import Verif.Spec.IntFloat
import Verif.Proof.IntFloat
import Verif.Props.IntFloat
import Verif.Spec.Rfc
import Verif.Proof.Rfc
import Verif.Proof.RfcSteps
import Verif.Proof.RfcUnique
import Verif.Props.Rfc
import Verif.Spec.RfcFilter
import Verif.Proof.RfcFilterText
import Verif.Proof.RfcFilter
import Verif.Props.RfcFilter
import Verif.Spec.RfcText
import Verif.Proof.RfcText
import Verif.Props.RfcText
import Verif.Spec.Shuffle
import Verif.Proof.Shuffle
import Verif.Props.Shuffle
import Verif.Spec.ParseDepth
import Verif.Model.ParseDepth
import Verif.Proof.ParseDepth
import Verif.Props.ParseDepth
import Verif.Spec.CodeDepth
import Verif.Model.CodeDepth
import Verif.Proof.CodeDepth
import Verif.Props.CodeDepth
import Verif.Model.ParseTime
import Verif.Proof.ParseTime
import Verif.Model.CodeTime
import Verif.Proof.CodeTime
import Verif.Props.ParseTime
import Verif.Spec.RunDepth
import Verif.Model.RunDepth
import Verif.Proof.RunDepth
import Verif.Proof.RunHeight
import Verif.Proof.RunExact
import Verif.Proof.WalkExact
import Verif.Props.RunDepth
import Verif.Model.EqTime
import Verif.Proof.EqTime
import Verif.Props.EqTime
