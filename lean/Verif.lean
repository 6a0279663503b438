import Verif.Model.Verify
import Verif.Model.F64
import Verif.Model.Replay
import Verif.Props.Predicates
import Verif.Props.Construction
import Verif.Props.Strategies
import Verif.Props.Mixing
import Verif.Props.Outputs
import Verif.Props.Expressions
import Verif.Props.Frame
import Verif.Props.History
import Verif.Props.MapOrder
import Verif.Props.Exact
import Verif.Props.Unit
import Verif.Props.Mining
import Verif.Props.Ensemble
import Verif.Props.Regression
import Verif.Props.Values
import Verif.Props.Verify
import Verif.Props.Arrays
import Verif.Props.Concurrency
import Verif.Model.Xml
import Verif.Spec.Xml
import Verif.Proofs.Xml
import Verif.Props.Xml
import Verif.Props.XmlNode
import Verif.Proofs.XmlTrip
import Verif.Props.XmlDocument
import Verif.Spec.Document
import Verif.Proofs.Document
import Verif.Props.Panics
import Verif.Props.ModelFrame
import Verif.Proofs.Shared
import Verif.Props.Shared
import Verif.Props.Layout
import Verif.Props.Live
import Verif.Props.XmlMore
import Verif.Props.Monotone
import Verif.Proofs.F64Mono
import Verif.Props.Independent
import Verif.Spec.Counts
import Verif.Proofs.Counts
import Verif.Proofs.SameFor
import Verif.Props.Counts
import Verif.Props.Transforms
import Verif.Props.Rewrite
import Verif.Props.Main
import Verif.Model.SharedRow
import Verif.Spec.SharedRow
import Verif.Proofs.SharedRow
import Verif.Props.SharedRow
import Verif.Spec.Forms
import Verif.Proofs.Forms
import Verif.Props.Forms
import Verif.Spec.Rounding
import Verif.Proofs.F64Error
import Verif.Props.Rounding
import Verif.Spec.Rename
import Verif.Proofs.Rename
import Verif.Props.Rename
import Verif.Spec.Text
import Verif.Proofs.Nearest
import Verif.Proofs.Text
import Verif.Props.Text
import Verif.Props.Validate
import Verif.Spec.Compose
import Verif.Proofs.Compose
import Verif.Proofs.ComposeMore
import Verif.Proofs.ComposeSum
import Verif.Props.Compose
import Verif.Spec.Format
import Verif.Proofs.Format
import Verif.Proofs.FormatText
import Verif.Props.Format
import Verif.Model.Build
import Verif.Spec.Build
import Verif.Proofs.Build
import Verif.Props.Build
import Verif.Spec.Thresholds
import Verif.Proofs.Thresholds
import Verif.Props.Thresholds
import Verif.Spec.Reached
import Verif.Proofs.Reached
import Verif.Props.Reached
import Verif.Spec.Numbers
import Verif.Proofs.Numbers
import Verif.Proofs.NumbersModel
import Verif.Props.Numbers
import Verif.Model.Fused
import Verif.Proofs.Fused
import Verif.Props.Fused
import Verif.Spec.Memory
import Verif.Proofs.Memory
import Verif.Props.Memory
import Verif.Proofs.F64Up
import Verif.Props.Range
import Verif.Spec.Sums
import Verif.Proofs.F64Mix
import Verif.Props.Sums
import Verif.Model.Returns
import Verif.Spec.Returns
import Verif.Props.Returns
import Verif.Model.Interface
import Verif.Props.Interface
import Verif.Spec.Ascending
import Verif.Props.Ascending
import Verif.Model.SharedDoc
import Verif.Proofs.SharedDoc
import Verif.Proofs.SharedBuild
import Verif.Proofs.SharedWorld
import Verif.Props.SharedDoc
import Verif.Spec.Cost
import Verif.Proofs.Cost
import Verif.Props.Cost
import Verif.Spec.Labels
import Verif.Proofs.Labels
import Verif.Proofs.LabelsModel
import Verif.Props.Labels
import Verif.Model.Heap
import Verif.Spec.Heap
import Verif.Proofs.Heap
import Verif.Props.Heap
import Verif.Spec.Safe
import Verif.Proofs.Safe
import Verif.Props.Safe
import Verif.Spec.Filled
import Verif.Proofs.Filled
import Verif.Props.Filled
import Verif.Spec.Rules
import Verif.Proofs.Rules
import Verif.Props.Rules
import Verif.Spec.Inline
import Verif.Proofs.Inline
import Verif.Proofs.Reworked
import Verif.Props.Inline
import Verif.Spec.Fold
import Verif.Props.Fold
import Verif.Spec.TestSet
import Verif.Proofs.TestSet
import Verif.Props.TestSet
import Verif.Spec.Specialise
import Verif.Proofs.Specialise
import Verif.Props.Specialise
import Verif.Spec.Merge
import Verif.Props.Merge
import Verif.Spec.Bounds
import Verif.Proofs.Bounds
import Verif.Props.Bounds
import Verif.Model.XmlText
import Verif.Spec.XmlText
import Verif.Proofs.XmlText
import Verif.Proofs.XmlWrite
import Verif.Props.XmlText
import Verif.Spec.GoMath
import Verif.Proofs.F64Nan
import Verif.Props.NotNumber
import Verif.Model.Walk
import Verif.Spec.Walk
import Verif.Proofs.Walk
import Verif.Props.Walk
import Verif.Model.Structs
import Verif.Spec.Structs
import Verif.Proofs.Structs
import Verif.Proofs.StructsModel
import Verif.Props.Structs
import Verif.Model.Perf
import Verif.Spec.Perf
import Verif.Props.Perf
import Verif.Spec.Blame
import Verif.Proofs.Blame
import Verif.Props.Blame
import Verif.Spec.Canon
import Verif.Proofs.Canon
import Verif.Proofs.CanonDecode
import Verif.Proofs.CanonText
import Verif.Props.Canon
import Verif.Model.Bytes
import Verif.Spec.Bytes
import Verif.Proofs.Bytes
import Verif.Props.Bytes
import Verif.Spec.Redeclare
import Verif.Proofs.Redeclare
import Verif.Props.Redeclare
import Verif.Spec.Reorder
import Verif.Proofs.Reorder
import Verif.Props.Reorder
import Verif.Spec.Said
import Verif.Proofs.Said
import Verif.Proofs.SaidModels
import Verif.Props.Said
import Verif.Spec.Rearrange
import Verif.Proofs.Rearrange
import Verif.Props.Rearrange
import Verif.Spec.Why
import Verif.Proofs.Why
import Verif.Proofs.WhyParts
import Verif.Proofs.WhyModels
import Verif.Props.Why
import Verif.Spec.Prune
import Verif.Proofs.Prune
import Verif.Props.Prune
import Verif.Spec.Slim
import Verif.Proofs.Slim
import Verif.Props.Slim
import Verif.Spec.Checks
import Verif.Props.Checks
