import Verif.Model.Parser
import Verif.Proof.Transitions
import Verif.Props.Grammar
import Verif.Props.FirstFollow
import Verif.Props.Table
import Verif.Props.TableExact
import Verif.Proof.ParserMono
import Verif.Proof.ParseTree
import Verif.Proof.ParserHoare
import Verif.Proof.Built
import Verif.Proof.ParserSim
import Verif.Proof.ParserTerm
import Verif.Props.Termination
import Verif.Props.Choice
import Verif.Props.LL1
import Verif.Proof.SimUse
import Verif.Proof.LastResort
import Verif.Props.Solver
import Verif.Props.Results
import Verif.Proof.Recovery
import Verif.Proof.RecoveryOff
import Verif.Proof.RecoveryEnd
import Verif.Props.Recovery
import Verif.Props.LL1Grammar
import Verif.Props.TableAny
import Verif.Props.Order
import Verif.Props.Language
import Verif.Props.FixAt
import Verif.Props.Backtrack
import Verif.Props.Reduced
import Verif.Props.Local
import Verif.Props.Rename
import Verif.Props.Dup
import Verif.Props.Reach
import Verif.Props.Depth
import Verif.Props.Calls
import Verif.Props.Quiet
import Verif.Props.ErrorsOnly
import Verif.Props.CallOrder
import Verif.Props.FixKept
import Verif.Props.Unasked
import Verif.Props.Iter
import Verif.Props.RecoveryCost
import Verif.Props.Ahead
import Verif.Props.Extend
import Verif.Props.Expected
import Verif.Props.TreeSize
import Verif.Props.Supplied
import Verif.Props.Unambiguous
import Verif.Props.Predictive
import Verif.Props.Guard
import Verif.Props.EndOfInput
import Verif.Props.Initial
import Verif.Props.SetRules
import Verif.Props.ReportAt
import Verif.Proof.Passes
import Verif.Proof.NotAsked
import Verif.Props.NotAsked
import Verif.Spec.ReportSize
import Verif.Proof.ReportSize
import Verif.Props.ReportSize
import Verif.Proof.LastAnswer
import Verif.Spec.ReportChain
import Verif.Proof.ReportChain
import Verif.Props.ReportChain
import Verif.Spec.Replay
import Verif.Proof.Replay
import Verif.Props.Replay
import Verif.Props.DeclinedCalls
import Verif.Spec.Vanishing
import Verif.Proof.ForwardTerm
import Verif.Props.Forward
import Verif.Spec.Repaired
import Verif.Proof.Cut
import Verif.Proof.Repaired
import Verif.Props.Repaired
import Verif.Spec.Nested
import Verif.Proof.Nested
import Verif.Proof.NestedDepth
import Verif.Props.Nested
import Verif.Spec.Occurs
import Verif.Proof.Occurs
import Verif.Proof.Pump
import Verif.Props.LeftRec
import Verif.Model.Abort
import Verif.Proof.Saturate
import Verif.Props.Overflow
import Verif.Props.Wrap
import Verif.Props.SetLimit
import Verif.Props.Augment
import Verif.Props.Session
import Verif.Props.Combine
import Verif.Props.Stream
import Verif.Proof.SingleFlag
import Verif.Props.Unite
import Verif.Props.PanicMode
import Verif.Props.ErrorAt
import Verif.Props.AnyOrder
import Verif.Props.LeftCorner
import Verif.Props.PassesNeeded
import Verif.Props.Rewrite
import Verif.Props.Compose
import Verif.Props.Plug
import Verif.Props.Lists
import Verif.Props.Tie
import Verif.Props.Insert
import Verif.Props.Regular
import Verif.Props.StackMachine
import Verif.Props.Forked
import Verif.Props.RecursesAtEnd
import Verif.Props.Edit
import Verif.Props.Reuse
import Verif.Props.Coarser
import Verif.Props.Operators
import Verif.Props.DanglingElse
import Verif.Props.FirstChoice
import Verif.Props.DeadChoice
import Verif.Tests.Repo
import Verif.Proof.Budget
import Verif.Props.Budget
