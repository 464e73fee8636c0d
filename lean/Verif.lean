import Verif.Model.IndexMap
import Verif.Model.Types
import Verif.Model.FileCoverage
import Verif.Model.Percent
import Verif.Model.Summary
import Verif.Lemmas.IndexMap
import Verif.Lemmas.Key
import Verif.Spec.Report
import Verif.Lemmas.Merge
import Verif.Lemmas.MergeFile
import Verif.Lemmas.MergeMap
import Verif.Lemmas.MergeTruth
import Verif.Props.Merge
import Verif.Spec.Lines
import Verif.Lemmas.Lines
import Verif.Props.Lines
import Verif.Lemmas.Percent
import Verif.Props.Percent
import Verif.Props.CoverageMap
import Verif.Model.SourceCoverage
import Verif.Spec.Registry
import Verif.Lemmas.Registry
import Verif.Props.Registry
import Verif.Model.Hint
import Verif.Spec.Hint
import Verif.Lemmas.Hint
import Verif.Props.Hint
import Verif.Model.Ast
import Verif.Model.Counter
import Verif.Model.Visitor
import Verif.Model.Program
import Verif.Spec.Build
import Verif.Spec.Instrumented
import Verif.Lemmas.Steps
import Verif.Lemmas.Does
import Verif.Lemmas.Sound
import Verif.Lemmas.SoundProgram
import Verif.Spec.Provenance
import Verif.Lemmas.StepsInv
import Verif.Lemmas.StepsFrom
import Verif.Spec.Counted
import Verif.Lemmas.StepsCount
import Verif.Lemmas.Clean
import Verif.Lemmas.Frozen
import Verif.Lemmas.Outcome
import Verif.Props.Instrument
import Verif.Spec.Bodied
import Verif.Spec.Hintable
import Verif.Lemmas.Fuel
import Verif.Lemmas.Run
import Verif.Lemmas.Halts
import Verif.Lemmas.Ignored
import Verif.Props.Total
import Verif.Props.Ignore
import Verif.Spec.Arms
import Verif.Lemmas.Arms
import Verif.Props.Arms
import Verif.Spec.Sem
import Verif.Spec.Each
import Verif.Spec.Naming
import Verif.Lemmas.Sem
import Verif.Lemmas.Each
import Verif.Lemmas.Faithful
import Verif.Lemmas.SemClean
import Verif.Lemmas.Emitted
import Verif.Props.Behaviour
import Verif.Spec.Reached
import Verif.Lemmas.Gets
import Verif.Lemmas.Covers
import Verif.Lemmas.Kept
import Verif.Lemmas.CoversNode
import Verif.Lemmas.CoversKinds
import Verif.Lemmas.CoversBranch
import Verif.Lemmas.CoversVisit
import Verif.Lemmas.CoversProgram
import Verif.Props.Complete
import Verif.Spec.Duty
import Verif.Lemmas.Costs
import Verif.Lemmas.Meters
import Verif.Props.Once
import Verif.Model.Js
import Verif.Model.Template
import Verif.Spec.Data
import Verif.Spec.Runtime
import Verif.Lemmas.Js
import Verif.Lemmas.Template
import Verif.Lemmas.Runtime
import Verif.Lemmas.Load
import Verif.Lemmas.Focus
import Verif.Lemmas.Hit
import Verif.Lemmas.Books
import Verif.Spec.Literal
import Verif.Lemmas.Loads
import Verif.Lemmas.Accounts
import Verif.Lemmas.Literal
import Verif.Lemmas.StepsNames
import Verif.Props.Runtime
import Verif.Props.Template
import Verif.Spec.Truth
import Verif.Lemmas.Truth
import Verif.Props.Truth
import Verif.Model.Json
import Verif.Model.Serde
import Verif.Model.SipHash
import Verif.Model.Emit
import Verif.Spec.Serde
import Verif.Lemmas.Json
import Verif.Lemmas.Serde
import Verif.Props.Serde
import Verif.Model.Plugin
import Verif.Spec.Plugin
import Verif.Props.Plugin
import Verif.Spec.Counts
import Verif.Lemmas.Follow
import Verif.Lemmas.FollowRun
import Verif.Lemmas.FollowSite
import Verif.Lemmas.FollowSteps
import Verif.Lemmas.FollowTree
import Verif.Lemmas.FollowProgram
import Verif.Props.Counts
import Verif.Props.Life
import Verif.Spec.Stringify
import Verif.Lemmas.Stringify
import Verif.Lemmas.Leaves
import Verif.Props.Stringify
import Verif.Lemmas.FollowTruth
import Verif.Spec.EndToEnd
import Verif.Lemmas.EndToEnd
import Verif.Props.EndToEnd
import Verif.Spec.Json
import Verif.Spec.Options
import Verif.Props.Options
import Verif.Spec.Comment
import Verif.Lemmas.Comment
import Verif.Props.Comment
import Verif.Spec.Akin
import Verif.Lemmas.Lockstep
import Verif.Lemmas.LockstepVisit
import Verif.Lemmas.LockstepStep
import Verif.Lemmas.LockstepProgram
import Verif.Lemmas.Akin
import Verif.Props.Logic
import Verif.Props.Layout
import Verif.Spec.Runs
import Verif.Lemmas.Recount
import Verif.Lemmas.Runs
import Verif.Props.Runs
import Verif.Props.Positions
import Verif.Spec.Truths
import Verif.Lemmas.Truths
import Verif.Props.Truths
import Verif.Spec.Syntax
import Verif.Props.Syntax
import Verif.Props.Distinct
import Verif.Lemmas.Spans
import Verif.Model.Reader
import Verif.Spec.Reader
import Verif.Lemmas.Reader
import Verif.Props.Reader
import Verif.Lemmas.Release
import Verif.Props.Release
import Verif.Spec.Size
import Verif.Lemmas.Size
import Verif.Props.Size
import Verif.Props.Bits
import Verif.Model.Custom
import Verif.Props.Custom
import Verif.Spec.Grammar
import Verif.Spec.Layout
import Verif.Lemmas.Grammar
import Verif.Lemmas.Layout
import Verif.Props.Texts
import Verif.Spec.SipHash
import Verif.Lemmas.SipHash
import Verif.Props.Digest
import Verif.Model.Debug
import Verif.Spec.Debug
import Verif.Lemmas.Debug
import Verif.Props.Debug
import Verif.Model.Namespace
import Verif.Lemmas.Flat
import Verif.Lemmas.NsVisit
import Verif.Lemmas.NsLast
import Verif.Props.Namespace
import Verif.Spec.Extends
import Verif.Lemmas.Over
import Verif.Lemmas.Append
import Verif.Props.Append
import Verif.Lemmas.Dangling
import Verif.Props.Dangling
import Verif.Model.Coverage
import Verif.Props.Quotient
import Verif.Spec.Lost
import Verif.Lemmas.Lost
import Verif.Props.Lost
import Verif.Props.Directives
import Verif.Spec.Slide
import Verif.Lemmas.Slide
import Verif.Lemmas.SlideVisit
import Verif.Lemmas.Even
import Verif.Lemmas.SlideProgram
import Verif.Props.Prepend
import Verif.Lemmas.MergeLast
import Verif.Props.MergeExact
import Verif.Model.Interop
import Verif.Spec.Interop
import Verif.Lemmas.Interop
import Verif.Props.Interop
import Verif.Lemmas.LogicalNames
import Verif.Spec.Veil
import Verif.Lemmas.Veil
import Verif.Lemmas.VeilVisit
import Verif.Lemmas.VeilProgram
import Verif.Props.Veil
import Verif.Props.Spared
import Verif.Lemmas.Dense
import Verif.Lemmas.DenseVisit
import Verif.Lemmas.DenseProgram
import Verif.Spec.Dense
import Verif.Props.Dense
import Verif.Spec.Order
import Verif.Lemmas.Order
import Verif.Lemmas.OrderProgram
import Verif.Props.Order
import Verif.Spec.Joint
import Verif.Lemmas.Joint
import Verif.Lemmas.Trim
import Verif.Lemmas.Perform
import Verif.Props.Joint
import Verif.Spec.Sequence
import Verif.Lemmas.Sequence
import Verif.Props.Sequence
import Verif.Spec.Inside
import Verif.Lemmas.Inside
import Verif.Props.Inside
import Verif.Spec.Operand
import Verif.Lemmas.Operand
import Verif.Props.Operand
import Verif.Spec.ArmsOf
import Verif.Lemmas.ArmsOf
import Verif.Props.ArmsOf
import Verif.Spec.Outline
import Verif.Lemmas.Outline
import Verif.Lemmas.OutlineVisit
import Verif.Lemmas.OutlineNode
import Verif.Lemmas.OutlineProgram
import Verif.Props.Outline
import Verif.Props.Listed
import Verif.Spec.Stricter
import Verif.Lemmas.Stricter
import Verif.Props.Stricter
import Verif.Props.Reorder
import Verif.Props.Braces
import Verif.Spec.Thin
import Verif.Lemmas.Thin
import Verif.Props.Thin
import Verif.Spec.Wrapper
import Verif.Lemmas.Wrapper
import Verif.Props.Wrapper
import Verif.Props.Goal
import Verif.Spec.Alike
import Verif.Lemmas.Alike
import Verif.Lemmas.EmptyArm
import Verif.Props.EmptyArm
import Verif.Spec.Exchange
import Verif.Lemmas.Exchange
import Verif.Props.Exchange
import Verif.Lemmas.Variant
import Verif.Props.Variant
import Verif.Spec.Core
import Verif.Lemmas.Core
import Verif.Props.Core
import Verif.Spec.Unsure
import Verif.Lemmas.Unsure
import Verif.Props.Unsure
import Verif.Spec.Rephrase
import Verif.Props.Rephrase
