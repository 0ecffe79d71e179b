import Verif.Props.Bits
import Verif.Model.IndexIter
import Verif.Lemmas.IndexIter
import Verif.Props.IndexIter
import Verif.Spec.Heap
import Verif.Lemmas.SliceStore
import Verif.Props.SliceStore
import Verif.Lemmas.BitSlice
import Verif.Model.Simd
import Verif.Lemmas.Simd
import Verif.Lemmas.Kernels
import Verif.Lemmas.Compress
import Verif.Lemmas.KernelVals
import Verif.Props.Slices
import Verif.Props.Safety
import Verif.Model.Num
import Verif.Model.Binner
import Verif.Model.Discretise
import Verif.Lemmas.Float32
import Verif.Lemmas.Fixed
import Verif.Lemmas.Separated
import Verif.Lemmas.Num
import Verif.Lemmas.Discretise
import Verif.Lemmas.Binner
import Verif.Spec.Rank
import Verif.Props.Discretise
import Verif.Props.Binner
import Verif.Model.Config
import Verif.Model.Data
import Verif.Spec.Columns
import Verif.Lemmas.Data
import Verif.Props.Data
import Verif.Model.Tree
import Verif.Spec.Trees
import Verif.Lemmas.Tree
import Verif.Props.Tree
import Verif.Spec.Settings
import Verif.Lemmas.Config
import Verif.Props.Config
import Verif.Model.Objective
import Verif.Model.Metric
import Verif.Spec.Losses
import Verif.Lemmas.Objective
import Verif.Props.Objective
import Verif.Props.Loss
import Verif.Props.Metric
import Verif.Model.Dataset
import Verif.Spec.Dataset
import Verif.Lemmas.Masks
import Verif.Lemmas.Sampling
import Verif.Lemmas.Dataset
import Verif.Lemmas.DatasetInv
import Verif.Lemmas.MaskRead
import Verif.Lemmas.Hicard
import Verif.Props.Sampling
import Verif.Props.Masks
import Verif.Spec.Learner
import Verif.Model.Learner
import Verif.Spec.Training
import Verif.Spec.TrueGain
import Verif.Lemmas.NodeRep
import Verif.Lemmas.NodeSplit
import Verif.Lemmas.Hist
import Verif.Lemmas.RootRep
import Verif.Lemmas.LearnerSim
import Verif.Lemmas.LearnerTrain
import Verif.Lemmas.Grow
import Verif.Lemmas.LearnerInv
import Verif.Lemmas.LearnerResult
import Verif.Lemmas.LearnerStack
import Verif.Lemmas.Consistent
import Verif.Lemmas.Threshold
import Verif.Lemmas.Reached
import Verif.Props.Training
import Verif.Lemmas.Best
import Verif.Lemmas.SumError
import Verif.Props.Split
import Verif.Props.SplitExact
import Verif.Model.Parallel
import Verif.Lemmas.Parallel
import Verif.Props.Parallel
import Verif.Model.Boost
import Verif.Spec.Boost
import Verif.Lemmas.Boost
import Verif.Lemmas.BoostLoss
import Verif.Lemmas.Round32
import Verif.Lemmas.Reuse
import Verif.Props.Boost
import Verif.Lemmas.LearnerSafe
import Verif.Lemmas.Safe
import Verif.Lemmas.WellTree
import Verif.Model.CApi
import Verif.Spec.CApi
import Verif.Lemmas.CApi
import Verif.Props.CApi
import Verif.Model.LearnerStore
import Verif.Lemmas.SameData
import Verif.Lemmas.Holds
import Verif.Lemmas.LearnerStore
import Verif.Spec.LearnerStore
import Verif.Props.LearnerStore
import Verif.Model.Cli
import Verif.Spec.Cli
import Verif.Lemmas.Cli
import Verif.Props.Cli
import Verif.Model.Python
import Verif.Spec.Python
import Verif.Lemmas.Python
import Verif.Props.Python
import Verif.Props.Leaf
import Verif.Lemmas.Sum32
import Verif.Lemmas.Quantile32
import Verif.Props.Single
import Verif.Props.BoostSingle
import Verif.Props.MedianSingle
import Verif.Props.GradSingle
import Verif.Spec.Names
import Verif.Props.Names
import Verif.Lemmas.GainError
import Verif.Lemmas.GainFaithful
import Verif.Spec.Ieee
import Verif.Lemmas.Ieee
import Verif.Props.Ieee
import Verif.Props.Draws
import Verif.Props.LeafSingle
import Verif.Props.Near
import Verif.Spec.Progress
import Verif.Lemmas.Reach
import Verif.Lemmas.ProgressData
import Verif.Lemmas.ProgressTree
import Verif.Lemmas.ProgressObj
import Verif.Lemmas.ProgressRun
import Verif.Props.Progress
import Verif.Props.ProgressLoad
import Verif.Props.MetricSingle
import Verif.Lemmas.SumRel32
import Verif.Props.SquaredSingle
import Verif.Model.ParamTable
import Verif.Spec.ParamTable
import Verif.Props.ParamTable
import Verif.Props.ProgressStore
import Verif.Model.Text
import Verif.Spec.Text
import Verif.Props.Text
import Verif.Props.CsvText
import Verif.Model.Program
import Verif.Spec.Program
import Verif.Props.Program
import Verif.Spec.Uniform
import Verif.Props.Uniform
import Verif.Props.PythonProgress
import Verif.Props.RowOrder
import Verif.Spec.Targets
import Verif.Lemmas.Targets
import Verif.Lemmas.Shift
import Verif.Lemmas.Scale
import Verif.Lemmas.ScaleGain
import Verif.Lemmas.ScaleData
import Verif.Lemmas.ScaleRun
import Verif.Props.Targets
import Verif.Spec.SettingsUsed
import Verif.Lemmas.Settings
import Verif.Lemmas.Prune
import Verif.Lemmas.PruneValues
import Verif.Props.Settings
import Verif.Spec.Units
import Verif.Lemmas.Units
import Verif.Lemmas.Units32
import Verif.Props.Units
import Verif.Spec.Constant
import Verif.Lemmas.Constant
import Verif.Props.Constant
import Verif.Props.Prune
import Verif.Spec.LeafRows
import Verif.Props.LeafRows
