import Verif.Lemmas.Basic
import Verif.Lemmas.Distribution
import Verif.Lemmas.Float53
import Verif.Lemmas.Float64
import Verif.Lemmas.FloatLog
import Verif.Lemmas.Rename
import Verif.Lemmas.RenameModels
import Verif.Lemmas.RenameNets
import Verif.Lemmas.RenameTransfer
import Verif.Lemmas.RenameTrees
import Verif.Lemmas.SvmFloat
import Verif.Model.Attribute
import Verif.Model.DataSet
import Verif.Model.Dbl
import Verif.Model.DblB64
import Verif.Model.DblD53
import Verif.Model.DblReal
import Verif.Model.DblXR
import Verif.Model.DecisionTree
import Verif.Model.Deps
import Verif.Model.Dispatch
import Verif.Model.Experiment
import Verif.Model.Failing
import Verif.Model.FeatureSelection
import Verif.Model.Filter
import Verif.Model.Instance
import Verif.Model.InstanceList
import Verif.Model.Kernel
import Verif.Model.Knn
import Verif.Model.Learners
import Verif.Model.Matrix
import Verif.Model.Memory
import Verif.Model.NetState
import Verif.Model.NeuralNetwork
import Verif.Model.Parameter
import Verif.Model.Parametric
import Verif.Model.Partition
import Verif.Model.Performance
import Verif.Model.Persist
import Verif.Model.Printed
import Verif.Model.Selection
import Verif.Model.Shared
import Verif.Model.SoftTree
import Verif.Model.Solver
import Verif.Model.StatTest
import Verif.Model.Stream
import Verif.Model.Svm
import Verif.Model.TreeMemory
import Verif.Props.Agree
import Verif.Props.Answers
import Verif.Props.AutoOrder
import Verif.Props.Axes
import Verif.Props.Backprop
import Verif.Props.BaggedColumns
import Verif.Props.Beyond
import Verif.Props.BinaryIgnored
import Verif.Props.BinaryTrees
import Verif.Props.Blind
import Verif.Props.Bounds
import Verif.Props.Box
import Verif.Props.ClassNames
import Verif.Props.Columns
import Verif.Props.ConstColumn
import Verif.Props.ConstColumnDist
import Verif.Props.CountFloat
import Verif.Props.CrossValidation
import Verif.Props.CutFiles
import Verif.Props.DataFile
import Verif.Props.DataSet
import Verif.Props.DataStream
import Verif.Props.DeepOrder
import Verif.Props.DerivedColumn
import Verif.Props.DiscreteRefused
import Verif.Props.Discriminant
import Verif.Props.Dispatch
import Verif.Props.DistFloat
import Verif.Props.Distance
import Verif.Props.DistanceOrder
import Verif.Props.Duplicates
import Verif.Props.Epochs
import Verif.Props.EqualSpread
import Verif.Props.ExpPerf
import Verif.Props.Expand
import Verif.Props.ExpandTree
import Verif.Props.Experiment
import Verif.Props.Failing
import Verif.Props.FeatureSelection
import Verif.Props.Filter
import Verif.Props.FilterTwice
import Verif.Props.ForestLost
import Verif.Props.ForestOrder
import Verif.Props.ForestSubset
import Verif.Props.Gaussian
import Verif.Props.Generator
import Verif.Props.Gradient
import Verif.Props.HiddenOrder
import Verif.Props.Inner
import Verif.Props.Inputs
import Verif.Props.Instance
import Verif.Props.InstanceList
import Verif.Props.KMeansFile
import Verif.Props.Kernel
import Verif.Props.Knn
import Verif.Props.LayerDraws
import Verif.Props.Limits
import Verif.Props.ListFile
import Verif.Props.ListHistory
import Verif.Props.LowerErrors
import Verif.Props.Measures
import Verif.Props.Memory
import Verif.Props.MemoryRel
import Verif.Props.ModelFiles
import Verif.Props.MostProbable
import Verif.Props.NaiveBayes
import Verif.Props.NearestStays
import Verif.Props.NetState
import Verif.Props.NetStep
import Verif.Props.NetTrain
import Verif.Props.NeuralNetwork
import Verif.Props.NewClass
import Verif.Props.NewClassCounts
import Verif.Props.Normalize
import Verif.Props.OnScale
import Verif.Props.OneHotStats
import Verif.Props.OnlyNear
import Verif.Props.Order
import Verif.Props.Parameters
import Verif.Props.Partition
import Verif.Props.Pca
import Verif.Props.PerfFloat
import Verif.Props.Performance
import Verif.Props.Persist
import Verif.Props.PersistLost
import Verif.Props.PersistTrained
import Verif.Props.Preprocess
import Verif.Props.Printed
import Verif.Props.PruneLocal
import Verif.Props.PrunedColumns
import Verif.Props.PrunedRun
import Verif.Props.Ragged
import Verif.Props.RangeFloat
import Verif.Props.Refine
import Verif.Props.Regions
import Verif.Props.RegionsComposite
import Verif.Props.RegionsSvm
import Verif.Props.Reload
import Verif.Props.Retrain
import Verif.Props.RuledOut
import Verif.Props.Selection
import Verif.Props.SeparateFilters
import Verif.Props.SharedList
import Verif.Props.Shrinking
import Verif.Props.SimpleModels
import Verif.Props.SingleClass
import Verif.Props.SoftGradient
import Verif.Props.SoftStart
import Verif.Props.SoftTrain
import Verif.Props.SoftTree
import Verif.Props.SoftmaxFloat
import Verif.Props.Solver
import Verif.Props.SolverAlike
import Verif.Props.SolverEnd
import Verif.Props.SolverInv
import Verif.Props.SolverMin
import Verif.Props.SolverMove
import Verif.Props.SolverRun
import Verif.Props.SolverStop
import Verif.Props.Sorting
import Verif.Props.SplitFloat
import Verif.Props.SplitWitness
import Verif.Props.SpreadFloat
import Verif.Props.StatTest
import Verif.Props.Stats
import Verif.Props.Stream
import Verif.Props.StumpColumns
import Verif.Props.Summary
import Verif.Props.Svm
import Verif.Props.SvmAlike
import Verif.Props.SvmBlocks
import Verif.Props.SvmCases
import Verif.Props.SvmColumns
import Verif.Props.SvmFloat
import Verif.Props.SvmMargin
import Verif.Props.SvmPredict
import Verif.Props.SvmStop
import Verif.Props.SvmTrain
import Verif.Props.TestOrder
import Verif.Props.TestSymmetry
import Verif.Props.TrainFloat
import Verif.Props.Tree
import Verif.Props.TreeAlike
import Verif.Props.TreeColumns
import Verif.Props.TreeFile
import Verif.Props.TreeFit
import Verif.Props.TreeFloat
import Verif.Props.TreeGrow
import Verif.Props.TreeMemory
import Verif.Props.TreeOrder
import Verif.Props.TreeProb
import Verif.Props.TreeProps
import Verif.Props.TreePrune
import Verif.Props.TreeUnits
import Verif.Props.Units
import Verif.Props.UnitsGauss
import Verif.Props.WorkingSet
import Verif.Spec.Answers
import Verif.Spec.Axes
import Verif.Spec.Basic
import Verif.Spec.Between
import Verif.Spec.Beyond
import Verif.Spec.Blind
import Verif.Spec.Box
import Verif.Spec.ClassNames
import Verif.Spec.Columns
import Verif.Spec.ConstColumn
import Verif.Spec.CrossValidation
import Verif.Spec.DataSet
import Verif.Spec.DeepOrder
import Verif.Spec.DerivedColumn
import Verif.Spec.Dispatch
import Verif.Spec.Encode
import Verif.Spec.Entropy
import Verif.Spec.Epochs
import Verif.Spec.Expand
import Verif.Spec.Experiment
import Verif.Spec.FeatureSelection
import Verif.Spec.Filter
import Verif.Spec.HiddenOrder
import Verif.Spec.Inner
import Verif.Spec.Limits
import Verif.Spec.Memory
import Verif.Spec.ModelFiles
import Verif.Spec.MostProbable
import Verif.Spec.NetState
import Verif.Spec.NeuralNetwork
import Verif.Spec.OnScale
import Verif.Spec.Performance
import Verif.Spec.Preprocess
import Verif.Spec.Pruning
import Verif.Spec.Reload
import Verif.Spec.Repeat
import Verif.Spec.SameInputs
import Verif.Spec.Selection
import Verif.Spec.SoftTree
import Verif.Spec.Sorting
import Verif.Spec.Split
import Verif.Spec.StatTest
import Verif.Spec.Stats
import Verif.Spec.Stream
import Verif.Spec.Summary
import Verif.Spec.Svm
import Verif.Spec.SvmAlike
import Verif.Spec.Towards
import Verif.Spec.Tree
import Verif.Spec.TreeFile
import Verif.Spec.TreeMemory
import Verif.Spec.Units
