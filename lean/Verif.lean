import Verif.Model.Py
import Verif.Model.Rewrite
import Verif.Spec.Doc
import Verif.Proofs.Dict
import Verif.Proofs.Rewrite
import Verif.Model.Ty
import Verif.Model.Serde
import Verif.Model.Schema
import Verif.Model.Load
import Verif.Spec.Typing
import Verif.Proofs.Serde
import Verif.Proofs.FromDict
import Verif.Spec.Example
import Verif.Props.Rewrite
import Verif.Props.RoundTrip
import Verif.Props.FromDict
import Verif.Props.Leaf
import Verif.Props.Typed
import Verif.Props.Elide
import Verif.Spec.Fields
import Verif.Proofs.Overrides
import Verif.Proofs.Frame
import Verif.Props.Overrides
import Verif.Props.OverrideLoad
import Verif.Model.Checkpoint
import Verif.Proofs.Checkpoint
import Verif.Props.Checkpoint
import Verif.Model.Schedule
import Verif.Proofs.Split
import Verif.Proofs.Sched
import Verif.Props.ScheduleParse
import Verif.Props.Schedule
import Verif.Model.ScheduleFloat
import Verif.Props.ScheduleFloat
import Verif.Model.ScheduleIEEE
import Verif.Props.ScheduleIEEE
import Verif.Spec.Restore
import Verif.Model.Apply
import Verif.Model.Lazy
import Verif.Model.Manager
import Verif.Proofs.Apply
import Verif.Proofs.Lazy
import Verif.Proofs.Restore
import Verif.Proofs.RestoreLoad
import Verif.Proofs.Manager
import Verif.Props.Lazy
import Verif.Proofs.Settled
import Verif.Props.Manager
import Verif.Props.Restore
import Verif.Props.StepKey
import Verif.Props.Checkpointed
import Verif.Model.Subtype
import Verif.Model.Names
import Verif.Model.SchemaRewrite
import Verif.Model.Checker
import Verif.Spec.Names
import Verif.Proofs.Names
import Verif.Proofs.Renames
import Verif.Props.Names
import Verif.Props.Severity
import Verif.Props.Renames
import Verif.Spec.Diff
import Verif.Proofs.Diff
import Verif.Proofs.DiffMain
import Verif.Model.SchemaFile
import Verif.Props.SchemaFile
import Verif.Props.Diff
import Verif.Proofs.PyEq
import Verif.Spec.Subtype
import Verif.Proofs.Subtype
import Verif.Props.Subtype
import Verif.Spec.Compat
import Verif.Proofs.Compat
import Verif.Proofs.CompatMain
import Verif.Props.Compat
import Verif.Model.Msgpack
import Verif.Spec.Msgpack
import Verif.Proofs.Msgpack
import Verif.Props.Msgpack
import Verif.Model.Help
import Verif.Spec.Help
import Verif.Proofs.Help
import Verif.Props.Help
import Verif.Model.Command
import Verif.Props.Command
import Verif.Model.UpgradeConfig
import Verif.Props.UpgradeConfig
import Verif.Spec.Valid
import Verif.Spec.ValidLoad
import Verif.Proofs.Valid
import Verif.Proofs.ValidLoad
import Verif.Props.Valid
import Verif.Spec.SchedDoc
import Verif.Proofs.SchedDoc
import Verif.Proofs.SchedLoad
import Verif.Props.Registered
import Verif.Spec.Advice
import Verif.Proofs.Surgery
import Verif.Proofs.Advice
import Verif.Proofs.AdviceReport
import Verif.Props.Advice
import Verif.Proofs.Firm
import Verif.Spec.ConfigDict
import Verif.Props.ConfigDict
import Verif.Props.InitPath
import Verif.Props.Stable
import Verif.Proofs.Events
import Verif.Props.Pickle
import Verif.Props.PickleRun
import Verif.Props.UpgradeConfigs
import Verif.Proofs.ElideSched
import Verif.Props.UpgradeElide
import Verif.Proofs.ConfigHist
import Verif.Proofs.SchedAt0
import Verif.Props.ConfigHist
import Verif.Props.DefaultAdvice
import Verif.Proofs.Place
import Verif.Props.Place
import Verif.Props.RenameAdvice
import Verif.Model.Report
import Verif.Props.Report
import Verif.Props.PrintSchema
import Verif.Props.OverrideWays
import Verif.Props.BlobNames
import Verif.Model.ManagerExc
import Verif.Model.Context
import Verif.Props.Context
import Verif.Proofs.ManagerExc
import Verif.Props.ManagerExc
import Verif.Model.Life
import Verif.Proofs.Fits
import Verif.Proofs.Again
import Verif.Props.Again
import Verif.Props.ConfigFits
import Verif.Props.AgainEx
import Verif.Props.Life
import Verif.Spec.StateClass
import Verif.Proofs.StateFits
import Verif.Props.LifeClass
import Verif.Model.Redirect
import Verif.Props.Redirect
import Verif.Model.Shared
import Verif.Props.Shared
import Verif.Props.ExtraFields
import Verif.Props.Exact
import Verif.Model.Assign
import Verif.Props.Assign
import Verif.Model.Ranks
import Verif.Props.Ranks
import Verif.Props.Sections
import Verif.Props.Edit
import Verif.Props.Order
import Verif.Props.OverrideVersions
import Verif.Spec.Report
import Verif.Props.ReportText
import Verif.Props.AddAdvice
import Verif.Model.HelpText
import Verif.Spec.HelpText
import Verif.Props.HelpText
import Verif.Model.TypeText
import Verif.Spec.TypeText
import Verif.Props.TypeText
import Verif.Model.Blame
import Verif.Spec.Blame
import Verif.Proofs.Blame
import Verif.Props.Blame
import Verif.Props.BlameMain
import Verif.Model.Heap
import Verif.Proofs.Heap
import Verif.Props.Heap
import Verif.Proofs.Resume
import Verif.Proofs.LoadEnv
import Verif.Props.Resume
import Verif.Proofs.DumpDoc
import Verif.Model.UserConfig
import Verif.Proofs.UserConfig
import Verif.Props.AssignFits
import Verif.Props.UserConfig
import Verif.Props.ConfigHistU
import Verif.Spec.LazyDeps
import Verif.Proofs.LazyDeps
import Verif.Props.LazyDeps
import Verif.Spec.SchemaEdited
import Verif.Props.SchemaEdited
import Verif.Props.ValidEnum
import Verif.Model.LazyConfig
import Verif.Proofs.LazyConfig
import Verif.Props.LazyConfig
import Verif.Model.LazyConfigUser
import Verif.Props.LazyConfigUser
import Verif.Proofs.RestoreNow
import Verif.Props.InitPathNow
import Verif.Props.NoFile
import Verif.Props.ManagerOverride
import Verif.Props.SectionsDeep
import Verif.Model.BlobClass
import Verif.Props.BlobClass
import Verif.Props.NoFileOverride
import Verif.Props.DefaultOmitted
import Verif.Props.DefaultOmittedDeep
import Verif.Props.DefaultTwice
import Verif.Props.OverrideRules
import Verif.Props.UnionPrim
import Verif.Props.CheckpointExc
import Verif.Props.HelpOptional
import Verif.Props.LargeKey
import Verif.Props.SelfDefaults
import Verif.Props.SubtypeOption
import Verif.Props.SubtypeUnion
import Verif.Props.FileDefaults
import Verif.Props.SubtypeStruct
import Verif.Props.PrintNone
import Verif.Props.RenameBlocked
import Verif.Props.LargeKeyCrash
import Verif.Props.RejectAdvice
import Verif.Props.MsgpackForms
import Verif.Props.MsgpackMarked
import Verif.Props.EnumSaved
import Verif.Props.OverrideEnum
