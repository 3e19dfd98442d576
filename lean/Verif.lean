import Verif.Props.State
import Verif.Props.Containers
import Verif.Props.ModuleGraph
import Verif.Props.ModuleUpdate
import Verif.Props.ModulePop
import Verif.Props.ModuleCalls
import Verif.Props.ModuleDef
import Verif.Props.Pure
import Verif.Props.Context
import Verif.Props.SplitKeys
import Verif.Props.Ids
import Verif.Props.Tracers
import Verif.Props.PytreeFlatten
import Verif.Props.PytreeAssign
import Verif.Props.PytreeReplace
import Verif.Props.PytreeStateDict
import Verif.Props.SpmdRules
import Verif.Props.SpmdAxes
import Verif.Props.SpmdSharding
import Verif.Props.Jit
import Verif.Props.Grad
import Verif.Props.Remat
import Verif.Props.Nested
import Verif.Props.NestedScan
import Verif.Props.NestedLoop
import Verif.Props.Scan
import Verif.Props.ScanNamed
import Verif.Props.ScanNew
import Verif.Props.ScanInit
import Verif.Props.ScanInitMethod
import Verif.Props.Normalization
import Verif.Props.Dropout
import Verif.Props.Conv
import Verif.Props.Dtypes
import Verif.Props.Helpers
import Verif.Props.TrainState
import Verif.Props.Dataclass
import Verif.Props.Repr
import Verif.Props.ScanLayers
import Verif.Props.ScanArgs
import Verif.Props.Layers
import Verif.Props.CrossDevice
import Verif.Props.ReprText
import Verif.Props.Tree
import Verif.Props.TrainStep
import Verif.Props.Functional
import Verif.Props.TrainLoop
import Verif.Props.Copy
import Verif.Model.Load
import Verif.Props.Load
import Verif.Model.TransformsCtx
import Verif.Props.TransformsCtx
import Verif.Props.ModuleHash
import Verif.Props.Lifted
import Verif.Model.PureCalls
import Verif.Spec.PureLoop
import Verif.Props.PureLoop
import Verif.Props.Names
import Verif.Props.PytreeDel
import Verif.Props.PureTree
import Verif.Model.HandScan
import Verif.Spec.HandScan
import Verif.Proofs.HandScan
import Verif.Props.HandScan
import Verif.Spec.Surgery
import Verif.Proofs.Surgery
import Verif.Props.Surgery
import Verif.Props.ModelDict
import Verif.Model.Queries
import Verif.Props.Queries
import Verif.Spec.Collect
import Verif.Props.Collect
import Verif.Spec.Random
import Verif.Props.DropoutMean
import Verif.Model.ModuleKeys
import Verif.Spec.ModuleKeys
import Verif.Props.ModuleKeys
import Verif.Model.ReprThreads
import Verif.Spec.ReprThreads
import Verif.Proofs.ReprThreads
import Verif.Props.ReprThreads
import Verif.Model.RngThreads
import Verif.Spec.RngThreads
import Verif.Props.RngThreads
import Verif.Model.Interrupt
import Verif.Spec.Interrupt
import Verif.Props.Interrupt
import Verif.Props.InterruptPop
import Verif.Model.ModuleThreads
import Verif.Spec.ModuleThreads
import Verif.Props.ModuleThreads
import Verif.Spec.PerExample
import Verif.Props.PerExample
import Verif.Props.Invariance
import Verif.Props.Sequence
import Verif.Props.Identity
import Verif.Spec.PytreeState
import Verif.Props.PytreeRestore
import Verif.Model.SpmdTree
import Verif.Spec.SpmdTree
import Verif.Proofs.SpmdTree
import Verif.Props.SpmdTree
import Verif.Model.Tracing
import Verif.Spec.Tracing
import Verif.Proofs.Tracing
import Verif.Props.Tracing
import Verif.Spec.Contained
import Verif.Props.Contained
import Verif.Model.ComplexNorm
import Verif.Spec.ComplexNorm
import Verif.Proofs.ComplexNorm
import Verif.Props.ComplexNorm
import Verif.Spec.FilterErrors
import Verif.Props.FilterErrors
import Verif.Model.NodeTypes
import Verif.Spec.NodeTypes
import Verif.Proofs.NodeTypes
import Verif.Props.NodeTypes
import Verif.Model.MergeInterrupt
import Verif.Spec.MergeInterrupt
import Verif.Props.MergeInterrupt
import Verif.Model.Donate
import Verif.Spec.Donate
import Verif.Proofs.Donate
import Verif.Props.Donate
import Verif.Model.Cost
import Verif.Spec.Cost
import Verif.Proofs.Cost
import Verif.Props.Cost
import Verif.Model.ReprTree
import Verif.Spec.ReprTree
import Verif.Proofs.ReprTree
import Verif.Props.ReprTree
import Verif.Model.RegisterThreads
import Verif.Spec.RegisterThreads
import Verif.Proofs.RegisterLater
import Verif.Props.RegisterThreads
import Verif.Model.SequenceDicts
import Verif.Spec.SequenceDicts
import Verif.Props.SequenceDicts
import Verif.Props.ModuleEq
import Verif.Props.Lookup
import Verif.Model.Flags
import Verif.Props.Flags
import Verif.Model.CostUpdate
import Verif.Props.CostMerge
import Verif.Model.Initializers
import Verif.Props.NewLayers
import Verif.Model.InitInterrupt
import Verif.Spec.InitInterrupt
import Verif.Props.InitInterrupt
import Verif.Model.JitInterrupt
import Verif.Spec.JitInterrupt
import Verif.Props.JitInterrupt
import Verif.Model.RngInterrupt
import Verif.Spec.RngInterrupt
import Verif.Props.RngInterrupt
import Verif.Model.TraceInterrupt
import Verif.Spec.TraceInterrupt
import Verif.Props.TraceInterrupt
