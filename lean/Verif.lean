import Verif.Model.Api
import Verif.Model.Ast
import Verif.Model.Basic
import Verif.Model.Cmd
import Verif.Model.Concurrent
import Verif.Model.DocText
import Verif.Model.Env
import Verif.Model.Exprs
import Verif.Model.FieldStats
import Verif.Model.Float64
import Verif.Model.Fmt
import Verif.Model.FormatFloat
import Verif.Model.GrammarData
import Verif.Model.Graph
import Verif.Model.GraphLabel
import Verif.Model.Json
import Verif.Model.JsonOut
import Verif.Model.MatchCost
import Verif.Model.Matcher
import Verif.Model.Messages
import Verif.Model.MsgText
import Verif.Model.Net
import Verif.Model.Options
import Verif.Model.Page
import Verif.Model.Peg
import Verif.Model.Reader
import Verif.Model.Recover
import Verif.Model.Regex
import Verif.Model.SampleBytes
import Verif.Model.Sampler
import Verif.Model.SamplerCost
import Verif.Model.SamplerRecover
import Verif.Model.Server
import Verif.Model.Stack
import Verif.Model.Time
import Verif.Model.Validators
import Verif.Model.Values
import Verif.Model.Visitors
import Verif.Model.Wasm
import Verif.Proofs.Align
import Verif.Proofs.AskClause
import Verif.Proofs.AskTrace
import Verif.Proofs.AskValue
import Verif.Proofs.Balance
import Verif.Proofs.Blame
import Verif.Proofs.Clean
import Verif.Proofs.Compile
import Verif.Proofs.Complaint
import Verif.Proofs.Complete
import Verif.Proofs.Conflicts
import Verif.Proofs.Cost
import Verif.Proofs.CostBound
import Verif.Proofs.CostDepth
import Verif.Proofs.CostFlat
import Verif.Proofs.Deepest
import Verif.Proofs.DepthAll
import Verif.Proofs.Digits
import Verif.Proofs.DocText
import Verif.Proofs.ErrHole
import Verif.Proofs.ErrTrace
import Verif.Proofs.ErrorClause
import Verif.Proofs.ErrorValue
import Verif.Proofs.Expected
import Verif.Proofs.Expressible
import Verif.Proofs.Fatal
import Verif.Proofs.FatalList
import Verif.Proofs.Flaw
import Verif.Proofs.FlawStart
import Verif.Proofs.Float
import Verif.Proofs.FormatFloat
import Verif.Proofs.FormatText
import Verif.Proofs.Furthest
import Verif.Proofs.Glob
import Verif.Proofs.Html
import Verif.Proofs.HtmlExact
import Verif.Proofs.JsonFlat
import Verif.Proofs.JsonOut
import Verif.Proofs.JsonSound
import Verif.Proofs.JsonText
import Verif.Proofs.Language
import Verif.Proofs.Layout
import Verif.Proofs.Lex
import Verif.Proofs.LexBare
import Verif.Proofs.LexString
import Verif.Proofs.LexValue
import Verif.Proofs.Limit
import Verif.Proofs.Literals
import Verif.Proofs.Match
import Verif.Proofs.MatchCost
import Verif.Proofs.MatchReads
import Verif.Proofs.Memo
import Verif.Proofs.MemoClause
import Verif.Proofs.MemoCmp
import Verif.Proofs.MemoEnd
import Verif.Proofs.MemoLex
import Verif.Proofs.MemoLimit
import Verif.Proofs.MemoNodes
import Verif.Proofs.MemoSim
import Verif.Proofs.MemoStep
import Verif.Proofs.MemoText
import Verif.Proofs.MemoWhole
import Verif.Proofs.Mild
import Verif.Proofs.Nesting
import Verif.Proofs.Net
import Verif.Proofs.NetWords
import Verif.Proofs.Number
import Verif.Proofs.OpensRead
import Verif.Proofs.Parser
import Verif.Proofs.Peg
import Verif.Proofs.PegInv
import Verif.Proofs.Phrases
import Verif.Proofs.PrintedNode
import Verif.Proofs.PrintedVal
import Verif.Proofs.Reading
import Verif.Proofs.Reopen
import Verif.Proofs.Reread
import Verif.Proofs.RereadExact
import Verif.Proofs.Respelled
import Verif.Proofs.Rounding
import Verif.Proofs.Sampler
import Verif.Proofs.SamplerCost
import Verif.Proofs.SamplerReads
import Verif.Proofs.SamplerRecover
import Verif.Proofs.Satisfiable
import Verif.Proofs.ShapeRead
import Verif.Proofs.Shapes
import Verif.Proofs.Short
import Verif.Proofs.Source
import Verif.Proofs.Stack
import Verif.Proofs.StackChain
import Verif.Proofs.StackCost
import Verif.Proofs.StackTree
import Verif.Proofs.StackTurns
import Verif.Proofs.Stats
import Verif.Proofs.Syntax
import Verif.Proofs.Time
import Verif.Proofs.Torn
import Verif.Proofs.Trees
import Verif.Proofs.Utf8
import Verif.Proofs.Validate
import Verif.Proofs.Values
import Verif.Proofs.Visitors
import Verif.Proofs.Walked
import Verif.Proofs.WantClause
import Verif.Proofs.WantNumber
import Verif.Proofs.WantTrace
import Verif.Proofs.WantValue
import Verif.Proofs.Wasm
import Verif.Proofs.Wildcards
import Verif.Proofs.Wrong
import Verif.Proofs.WrongClause
import Verif.Proofs.WrongStart
import Verif.Proofs.WrongValue
import Verif.Props.Advice
import Verif.Props.Alternation
import Verif.Props.Beginnings
import Verif.Props.Browser
import Verif.Props.Cmd
import Verif.Props.CommandText
import Verif.Props.Complaints
import Verif.Props.Conflicts
import Verif.Props.Depth
import Verif.Props.DocText
import Verif.Props.Drawing
import Verif.Props.EndToEnd
import Verif.Props.ErrorPlaces
import Verif.Props.ErrorText
import Verif.Props.Exact
import Verif.Props.Expectations
import Verif.Props.ExpectationsMet
import Verif.Props.FieldReport
import Verif.Props.Fields
import Verif.Props.Format
import Verif.Props.Frame
import Verif.Props.Grammar
import Verif.Props.Graph
import Verif.Props.GraphLabel
import Verif.Props.Growth
import Verif.Props.Hints
import Verif.Props.JsonText
import Verif.Props.Limit
import Verif.Props.Literals
import Verif.Props.MatchCost
import Verif.Props.Matching
import Verif.Props.MemoSame
import Verif.Props.Memoize
import Verif.Props.MsgText
import Verif.Props.Names
import Verif.Props.Nesting
import Verif.Props.NodeStats
import Verif.Props.NormalForm
import Verif.Props.NumberText
import Verif.Props.Numbers
import Verif.Props.Page
import Verif.Props.PageHints
import Verif.Props.Panics
import Verif.Props.Patterns
import Verif.Props.Printed
import Verif.Props.PrintedAlike
import Verif.Props.Reader
import Verif.Props.Reading
import Verif.Props.Readme
import Verif.Props.Recover
import Verif.Props.Renaming
import Verif.Props.SampleText
import Verif.Props.Sampled
import Verif.Props.Sampler
import Verif.Props.SamplerCost
import Verif.Props.SamplerExact
import Verif.Props.SamplerForms
import Verif.Props.SamplerRecover
import Verif.Props.Sampling
import Verif.Props.Satisfiable
import Verif.Props.SelfMatch
import Verif.Props.Server
import Verif.Props.Sharp
import Verif.Props.Snapshot
import Verif.Props.Spelling
import Verif.Props.Stack
import Verif.Props.Stats
import Verif.Props.Strings
import Verif.Props.Texts
import Verif.Props.Times
import Verif.Props.Title
import Verif.Props.Tree
import Verif.Props.Truthy
import Verif.Props.Validation
import Verif.Props.Wildcards
import Verif.Props.Wrong
import Verif.Spec.Advice
import Verif.Spec.Beginning
import Verif.Spec.Blame
import Verif.Spec.Calendar
import Verif.Spec.Calls
import Verif.Spec.Complaint
import Verif.Spec.Conflicts
import Verif.Spec.Counted
import Verif.Spec.Depth
import Verif.Spec.DocText
import Verif.Spec.ErrorText
import Verif.Spec.EscString
import Verif.Spec.Expectation
import Verif.Spec.Expressible
import Verif.Spec.Fatal
import Verif.Spec.FieldReport
import Verif.Spec.Float
import Verif.Spec.FormatFloat
import Verif.Spec.Glob
import Verif.Spec.Grammar
import Verif.Spec.Growth
import Verif.Spec.Hints
import Verif.Spec.Html
import Verif.Spec.HtmlText
import Verif.Spec.JsonRead
import Verif.Spec.JsonText
import Verif.Spec.Layout
import Verif.Spec.MatchReads
import Verif.Spec.Nesting
import Verif.Spec.Net
import Verif.Spec.NormalForm
import Verif.Spec.Number
import Verif.Spec.PageHints
import Verif.Spec.Printed
import Verif.Spec.Query
import Verif.Spec.Reading
import Verif.Spec.Reads
import Verif.Spec.Reread
import Verif.Spec.Resolve
import Verif.Spec.Respelled
import Verif.Spec.Sample
import Verif.Spec.SampleReads
import Verif.Spec.SampleText
import Verif.Spec.Satisfiable
import Verif.Spec.Seen
import Verif.Spec.Size
import Verif.Spec.Stack
import Verif.Spec.Text
import Verif.Spec.Truthy
import Verif.Spec.Utf16
import Verif.Spec.Walk
import Verif.Spec.Walked
import Verif.Spec.Wildcards
import Verif.Spec.Wrong
import Verif.Tests.Matcher
import Verif.Tests.Parser
import Verif.Tests.Readme
import Verif.Tests.Sampler
