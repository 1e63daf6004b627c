import Verif.Model.Bytes
import Verif.Model.Token
import Verif.Model.Lexer
import Verif.Model.AST
import Verif.Model.Parser
import Verif.Model.Graph
import Verif.Model.Hash
import Verif.Model.TypeChecker
import Verif.Model.TDG
import Verif.Model.DomainAnalyzer
import Verif.Model.ProblemAnalyzer
import Verif.Model.Json
import Verif.Model.Api
import Verif.Model.Display
import Verif.Model.Lsp
import Verif.Model.Cli
import Verif.Spec.Lexical
import Verif.Proofs.Lexer
import Verif.Proofs.LexerSpec
import Verif.Proofs.Reads
import Verif.Spec.Grammar
import Verif.Proofs.Stream
import Verif.Proofs.Sound
import Verif.Proofs.Complete
import Verif.Proofs.Fuel
import Verif.Proofs.Clean
import Verif.Proofs.Run
import Verif.Spec.Files
import Verif.Proofs.Positions
import Verif.Proofs.Local
import Verif.Proofs.Instance
import Verif.Proofs.Ends
import Verif.Spec.WellFormed
import Verif.Proofs.Graph
import Verif.Proofs.Typing
import Verif.Proofs.Args
import Verif.Proofs.Scan
import Verif.Proofs.Domain
import Verif.Proofs.Reports
import Verif.Proofs.Problem
import Verif.Proofs.Located
import Verif.Proofs.Outcome
import Verif.Proofs.Budget
import Verif.Proofs.Json
import Verif.Proofs.Tdg
import Verif.Proofs.Nullable
import Verif.Spec.Decomposition
import Verif.Proofs.Accept
import Verif.Proofs.Verify
import Verif.Proofs.Mentions
import Verif.Spec.Scoping
import Verif.Proofs.Order
import Verif.Proofs.Recursion
import Verif.Spec.Recursion
import Verif.Proofs.Cycles
import Verif.Proofs.Classes
import Verif.Proofs.Metadata
import Verif.Proofs.Kind
import Verif.Props.Syntax
import Verif.Props.Lexical
import Verif.Props.Semantic
import Verif.Props.Decomposition
import Verif.Props.Recursion
import Verif.Spec.Output
import Verif.Props.Output
import Verif.Props.Server
import Verif.Proofs.DecEq
import Verif.Spec.Planning
import Verif.Props.Planning
import Verif.Spec.Networks
import Verif.Props.Networks
import Verif.Props.Termination
import Verif.Props.Meaning
import Verif.Model.JsonText
import Verif.Spec.Json
import Verif.Proofs.JsonText
import Verif.Props.Commands
import Verif.Model.LspAsync
import Verif.Spec.Concurrency
import Verif.Props.Concurrency
import Verif.Spec.Renaming
import Verif.Proofs.Renaming
import Verif.Proofs.RenameText
import Verif.Proofs.WrittenCheck
import Verif.Props.Invariance
import Verif.Spec.Growth
import Verif.Proofs.Growth
import Verif.Props.Changes
import Verif.Spec.Viable
import Verif.Proofs.ErrorAt
import Verif.Proofs.ErrorParts
import Verif.Proofs.ErrorNets
import Verif.Proofs.ErrorFiles
import Verif.Proofs.ErrorText
import Verif.Props.Errors
import Verif.Proofs.Crash
import Verif.Props.Outcomes
import Verif.Model.Cursor
import Verif.Proofs.Cursor
import Verif.Props.Cursor
import Verif.Proofs.Strike
import Verif.Spec.Reached
import Verif.Proofs.Reached
import Verif.Props.Crashes
import Verif.Spec.Utf8
import Verif.Proofs.Utf8
import Verif.Props.Scripts
import Verif.Model.LspFiles
import Verif.Spec.Urls
import Verif.Proofs.Urls
import Verif.Props.Requests
import Verif.Props.ServerFiles
import Verif.Spec.RenamedMeta
import Verif.Proofs.RenameGraph
import Verif.Props.RenamedMeta
import Verif.Spec.Effort
import Verif.Proofs.Effort
import Verif.Proofs.EffortText
import Verif.Props.Effort
import Verif.Model.Stack
import Verif.Spec.Depth
import Verif.Proofs.Stack
import Verif.Proofs.StackHeight
import Verif.Proofs.StackFuel
import Verif.Proofs.StackText
import Verif.Proofs.StackFiles
import Verif.Props.Stack
import Verif.Spec.Clash
import Verif.Proofs.Clash
import Verif.Props.Clash
import Verif.Props.Faults
import Verif.Props.Declarations
import Verif.Props.Types
import Verif.Props.Reorder
import Verif.Props.Printing
import Verif.Props.Pruning
import Verif.Props.Skeleton
import Verif.Props.Rewriting
import Verif.Props.Sequence
import Verif.Props.Moving
import Verif.Props.Parts
import Verif.Props.Trailing
import Verif.Props.Effects
import Verif.Props.MetadataEnds
import Verif.Model.MessageText
import Verif.Spec.Messages
import Verif.Proofs.Messages
import Verif.Proofs.MessageNames
import Verif.Props.Messages
import Verif.Spec.Comments
import Verif.Props.Comments
import Verif.Spec.Interface
import Verif.Props.Interface
import Verif.Props.InterfaceSeen
import Verif.Spec.Relaid
import Verif.Proofs.Relaid
import Verif.Proofs.RelaidText
import Verif.Proofs.RelaidLex
import Verif.Props.Relaid
import Verif.Spec.Regrouped
import Verif.Proofs.Regrouped
import Verif.Props.Regrouped
import Verif.Spec.Unsupported
import Verif.Proofs.Unsupported
import Verif.Props.Unsupported
import Verif.Spec.Expected
import Verif.Props.Expected
import Verif.Props.ExitCode
import Verif.Spec.Excerpt
import Verif.Proofs.Excerpt
import Verif.Props.Excerpt
import Verif.Props.JsonAnswers
import Verif.Spec.LocalNames
import Verif.Proofs.LocalNames
import Verif.Props.LocalNames
import Verif.Spec.Repair
import Verif.Proofs.Repair
import Verif.Props.Repair
import Verif.Proofs.CutOff
import Verif.Props.CutOff
import Verif.Spec.Untyping
import Verif.Proofs.Untyping
import Verif.Props.Untyping
import Verif.Spec.Instantiation
import Verif.Proofs.Instantiation
import Verif.Props.Instantiation
import Verif.Spec.Splitting
import Verif.Proofs.Splitting
import Verif.Props.Splitting
import Verif.Model.FormulaShow
import Verif.Proofs.FormulaShow
import Verif.Proofs.EffectFiles
import Verif.Props.EffectText
import Verif.Model.Streams
import Verif.Spec.Streams
import Verif.Proofs.Streams
import Verif.Props.Streams
import Verif.Spec.Labels
import Verif.Proofs.Labels
import Verif.Props.Labels
import Verif.Spec.Weeding
import Verif.Proofs.Weeding
import Verif.Props.Weeding
import Verif.Spec.Slices
import Verif.Proofs.Slices
import Verif.Props.Slices
import Verif.Conformance
