import Verif.Model.Basic
import Verif.Model.Token
import Verif.Model.Lexer
import Verif.Model.Value
import Verif.Model.Syntax
import Verif.Model.Parser
import Verif.Model.ParserIndex
import Verif.Model.Http
import Verif.Model.Native
import Verif.Model.Context
import Verif.Model.Evaluator
import Verif.Model.Writer
import Verif.Model.Stat
import Verif.Model.Stream
import Verif.Model.Command
import Verif.Model.TestRun
import Verif.Spec.Basic
import Verif.Spec.Lexer
import Verif.Spec.Syntax
import Verif.Proofs.Lexer
import Verif.Proofs.Parser
import Verif.Proofs.ParserFuel
import Verif.Proofs.ParserHalt
import Verif.Proofs.ParserIndex
import Verif.Proofs.ParserTop
import Verif.Proofs.Decimal
import Verif.Proofs.Maps
import Verif.Props.Lexing
import Verif.Props.Parsing
import Verif.Props.ParsingIndex
import Verif.Spec.Values
import Verif.Spec.Eval
import Verif.Spec.Http
import Verif.Proofs.Ints
import Verif.Proofs.Eval
import Verif.Proofs.EvalCalls
import Verif.Proofs.Response
import Verif.Props.Arithmetic
import Verif.Props.Evaluating
import Verif.Spec.Template
import Verif.Proofs.Template
import Verif.Props.Asserting
import Verif.Props.Values
import Verif.Props.Templates
import Verif.Spec.Avro
import Verif.Spec.Record
import Verif.Spec.Stats
import Verif.Proofs.Varint
import Verif.Proofs.Avro
import Verif.Props.Recording
import Verif.Props.Statistics
import Verif.Spec.Text
import Verif.Spec.Url
import Verif.Spec.Message
import Verif.Proofs.Text
import Verif.Proofs.Message
import Verif.Props.Urls
import Verif.Props.Requests
import Verif.Spec.Response
import Verif.Proofs.Incoming
import Verif.Props.Responses
import Verif.Props.Connecting
import Verif.Spec.Run
import Verif.Proofs.Run
import Verif.Props.Running
import Verif.Spec.Command
import Verif.Props.Commands
import Verif.Spec.Grammar
import Verif.Spec.Printing
import Verif.Spec.Json
import Verif.Proofs.ParserComplete
import Verif.Proofs.Printing
import Verif.Props.Printing
import Verif.Props.Json
import Verif.Spec.Injection
import Verif.Props.Injection
import Verif.Spec.Framing
import Verif.Props.Framing
import Verif.Checks.Tests
import Verif.Proofs.IntText
import Verif.Spec.Semantics
import Verif.Spec.Crash
import Verif.Proofs.Equality
import Verif.Proofs.Operators
import Verif.Proofs.ProperValues
import Verif.Proofs.Semantics
import Verif.Props.Semantics
import Verif.Props.Crash
import Verif.Props.Equality
import Verif.Spec.Program
import Verif.Props.Programs
import Verif.Model.Io
import Verif.Spec.Io
import Verif.Proofs.Io
import Verif.Props.Io
import Verif.Model.Main
import Verif.Spec.Main
import Verif.Props.Main
import Verif.Model.Bytes
import Verif.Props.Bytes
import Verif.Spec.Uri
import Verif.Spec.Multipart
import Verif.Props.Uris
import Verif.Props.Multipart
import Verif.Proofs.AvroSize
import Verif.Model.Stack
import Verif.Spec.Stack
import Verif.Proofs.Stack
import Verif.Proofs.StackRoom
import Verif.Proofs.StackExact
import Verif.Proofs.StackEval
import Verif.Props.Stack
import Verif.Spec.Files
import Verif.Props.Files
import Verif.Model.Launch
import Verif.Spec.Launch
import Verif.Props.Launching
import Verif.Props.JsonExact
import Verif.Spec.Flow
import Verif.Props.Flow
import Verif.Spec.Report
import Verif.Props.Reports
import Verif.Spec.Chars
import Verif.Props.Chars
import Verif.Spec.Accepts
import Verif.Proofs.Accepts
import Verif.Proofs.AcceptsConverse
import Verif.Props.Accepts
import Verif.Model.Exit
import Verif.Spec.Exit
import Verif.Props.Exit
import Verif.Spec.Agree
import Verif.Props.Agree
import Verif.Spec.Joining
import Verif.Proofs.Joining
import Verif.Props.Joining
import Verif.Spec.Journey
import Verif.Props.Journey
import Verif.Spec.Faults
import Verif.Proofs.Faults
import Verif.Proofs.FaultSites
import Verif.Props.Faults
import Verif.Spec.Written
import Verif.Proofs.Written
import Verif.Props.Written
import Verif.Props.JsonAll
import Verif.Proofs.PrintedTokens
import Verif.Proofs.PrintedWeight
import Verif.Proofs.PrintsBackOnly
import Verif.Proofs.PrintsBackAgain
import Verif.Props.PrintsBack
import Verif.Spec.Builds
import Verif.Spec.Timing
import Verif.Proofs.TwoRuns
import Verif.Proofs.TwoRunsEval
import Verif.Props.Builds
import Verif.Props.Timing
import Verif.Spec.Observe
import Verif.Props.Observe
import Verif.Model.Pipe
import Verif.Spec.Pipe
import Verif.Proofs.Pipe
import Verif.Props.Pipe
import Verif.Spec.Rearrange
import Verif.Props.Rearrange
import Verif.Model.Silent
import Verif.Spec.Silent
import Verif.Proofs.Silent
import Verif.Props.Silent
import Verif.Props.Waiting
import Verif.Props.RequestLine
import Verif.Spec.Parens
import Verif.Proofs.Parens
import Verif.Props.Parens
import Verif.Model.Float64
import Verif.Spec.Float64
import Verif.Proofs.Float64
import Verif.Proofs.FloatRound
import Verif.Proofs.FloatText
import Verif.Proofs.FloatParse
import Verif.Proofs.FloatShow
import Verif.Proofs.FloatOps
import Verif.Props.Float64
import Verif.Props.FloatOrder
import Verif.Props.FloatText
import Verif.Spec.DebugTree
import Verif.Props.DebugTree
import Verif.Props.Messages
import Verif.Spec.JsonFloat
import Verif.Props.JsonFloat
import Verif.Spec.Names
import Verif.Proofs.Names
import Verif.Props.Names
import Verif.Spec.Peer
import Verif.Props.Peer
import Verif.Spec.Policy
import Verif.Props.Policy
import Verif.Model.Stdin
import Verif.Spec.Stdin
import Verif.Props.Stdin
import Verif.Spec.NotJson
import Verif.Props.NotJson
import Verif.Model.Steps
import Verif.Spec.Steps
import Verif.Proofs.Steps
import Verif.Props.Steps
import Verif.Spec.Growth
import Verif.Proofs.Growth
import Verif.Proofs.GrowthEval
import Verif.Props.Growth
import Verif.Model.EvalSteps
import Verif.Spec.EvalSteps
import Verif.Proofs.EvalSteps
import Verif.Props.EvalSteps
import Verif.Spec.Bodies
import Verif.Props.Bodies
import Verif.Spec.Layout
import Verif.Props.Layout
import Verif.Spec.Unused
import Verif.Props.Unused
import Verif.Spec.Memory
import Verif.Props.Memory
import Verif.Spec.Chain
import Verif.Props.Chain
import Verif.Spec.Swap
import Verif.Props.Swap
import Verif.Spec.Extract
import Verif.Props.Extract
import Verif.Spec.HeaderCase
import Verif.Props.HeaderCase
import Verif.Spec.Shown
import Verif.Props.Shown
import Verif.Spec.MediaType
import Verif.Props.MediaType
import Verif.Spec.Rewriting
import Verif.Proofs.Rewriting
import Verif.Props.Rewriting
import Verif.Spec.Laid
import Verif.Proofs.Laid
import Verif.Props.Laid
import Verif.Proofs.Changed
import Verif.Spec.LineEnds
import Verif.Proofs.LineEnds
import Verif.Props.LineEnds
import Verif.Props.Uncounted
import Verif.Spec.Judging
import Verif.Proofs.Judging
import Verif.Props.Judging
import Verif.Spec.Operands
import Verif.Proofs.Operands
import Verif.Props.Operands
import Verif.Spec.HeaderOrder
import Verif.Proofs.HeaderOrder
import Verif.Proofs.HeaderOrderEval
import Verif.Props.HeaderOrder
import Verif.Spec.Spread
import Verif.Props.Spread
import Verif.Spec.Chronology
import Verif.Props.Chronology
import Verif.Proofs.DebugBack
import Verif.Spec.Answers
import Verif.Proofs.Answers
import Verif.Props.Answers
import Verif.Model.AnyOrder
import Verif.Props.AnyOrder
import Verif.Props.EveryOrder
import Verif.Props.Removing
import Verif.Spec.Finding
import Verif.Props.Finding
import Verif.Props.FindingRun
import Verif.Spec.Typing
import Verif.Props.Typing
import Verif.Spec.Replay
import Verif.Props.Replay
import Verif.Spec.Firm
import Verif.Props.Firm
import Verif.Props.ReplayRun
import Verif.Spec.Secrets
import Verif.Proofs.Secrets
import Verif.Props.Secrets
import Verif.Props.KeptRun
import Verif.Spec.Causal
import Verif.Props.Causal
import Verif.Props.TypingAny
import Verif.Spec.AnyFill
import Verif.Props.FindingAny
import Verif.Spec.WriteOut
import Verif.Props.WriteOut
import Verif.Model.AnyThreads
import Verif.Spec.AnyThreads
import Verif.Props.AnyThreads
import Verif.Spec.SameTest
import Verif.Props.SameTest
