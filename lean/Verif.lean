import Verif.Model.Py
import Verif.Model.Avl
import Verif.Model.Mergesort
import Verif.Model.Internals
import Verif.Model.Distances
import Verif.Model.Dcor
import Verif.Spec.Dcov
import Verif.Spec.Calls
import Verif.Proofs.Loops
import Verif.Proofs.AvlDyad
import Verif.Proofs.AvlTerms
import Verif.Proofs.Merge
import Verif.Proofs.MergePass
import Verif.Proofs.MergeTerms
import Verif.Proofs.FromTerms
import Verif.Proofs.TermsOk
import Verif.Proofs.Api
import Verif.Proofs.Centering
import Verif.Props.Witness
import Verif.Props.Algorithms
import Verif.Proofs.Projection
import Verif.Proofs.SpecAlg
import Verif.Props.Centering
import Verif.Proofs.Failures
import Verif.Props.Invariance
import Verif.Props.Errors
import Verif.Props.SmallSamples
import Verif.Props.Distances
import Verif.Proofs.NegType
import Verif.Proofs.Nonneg
import Verif.Props.Nonneg
import Verif.Model.Partial
import Verif.Spec.Partial
import Verif.Proofs.Partial
import Verif.Props.Partial
import Verif.Model.Energy
import Verif.Model.Hypothesis
import Verif.Model.Homogeneity
import Verif.Model.Independence
import Verif.Spec.Energy
import Verif.Spec.EnergyCalls
import Verif.Proofs.Distances
import Verif.Proofs.Energy
import Verif.Proofs.EnergySpec
import Verif.Proofs.Warnings
import Verif.Proofs.Hypothesis
import Verif.Props.Energy
import Verif.Spec.Hypothesis
import Verif.Spec.Tests
import Verif.Spec.Homogeneity
import Verif.Proofs.Independence
import Verif.Proofs.Homogeneity
import Verif.Spec.TestCalls
import Verif.Proofs.TestCalls
import Verif.Proofs.TTest
import Verif.Props.Resampling
import Verif.Props.Independence
import Verif.Props.Homogeneity
import Verif.Spec.Uniform
import Verif.Proofs.Exchange
import Verif.Props.Validity
import Verif.Model.Rowwise
import Verif.Spec.Rowwise
import Verif.Proofs.Rowwise
import Verif.Proofs.RowwiseModes
import Verif.Proofs.RowwiseLarge
import Verif.Props.Rowwise
import Verif.Model.AfInv
import Verif.Spec.AfInv
import Verif.Proofs.AfInv
import Verif.Props.AfInv
import Verif.Model.Heap
import Verif.Spec.Heap
import Verif.Proofs.Heap
import Verif.Props.Heap
import Verif.Model.Effects
import Verif.Proofs.Effects
import Verif.Props.Effects
import Verif.Model.IntWrap
import Verif.Proofs.IntWrap
import Verif.Props.Integers
import Verif.Spec.ClosedForms
import Verif.Proofs.ClosedForms
import Verif.Proofs.Average
import Verif.Proofs.Unbiased
import Verif.Props.ClosedForms
import Verif.Props.Averages
import Verif.Model.Rounding
import Verif.Proofs.Parametric
import Verif.Proofs.Exact
import Verif.Proofs.Safety
import Verif.Proofs.IntExact
import Verif.Proofs.IntExactMerge
import Verif.Proofs.Round64
import Verif.Proofs.Binary64
import Verif.Props.Rounding
import Verif.Proofs.ErrorBound
import Verif.Proofs.ErrorSigned
import Verif.Proofs.ErrorAvl
import Verif.Proofs.ErrorMerge
import Verif.Proofs.Float
import Verif.Proofs.ParametricMerge
import Verif.Proofs.Scale
import Verif.Proofs.Sqrt64
import Verif.Proofs.FloatWitness
import Verif.Props.ErrorBound
import Verif.Props.Float
import Verif.Props.Columns
import Verif.Proofs.TestInvariance
import Verif.Props.TestInvariance
import Verif.Proofs.Empirical
import Verif.Proofs.Stability
import Verif.Props.Stability
import Verif.Model.RoundingEnergy
import Verif.Proofs.RoundingEnergy
import Verif.Props.FloatEnergy
import Verif.Spec.UserAverage
import Verif.Proofs.UserAverage
import Verif.Props.UserAverage
import Verif.Model.Cost
import Verif.Proofs.Cost
import Verif.Proofs.CostApi
import Verif.Props.Cost
import Verif.Proofs.FloatCorr
import Verif.Proofs.FloatPair
import Verif.Props.FloatCorr
import Verif.Model.Float64
import Verif.Proofs.NonFinite
import Verif.Proofs.Range64
import Verif.Props.NonFinite
import Verif.Props.Overflow
import Verif.Proofs.Transfer
import Verif.Proofs.TransferFast
import Verif.Proofs.Bounded64
import Verif.Proofs.BoundedStats
import Verif.Props.Transfer
import Verif.Model.RoundingTests
import Verif.Proofs.FloatTests
import Verif.Proofs.ScaleTests
import Verif.Proofs.FloatPartial
import Verif.Props.FloatTests
import Verif.Props.FloatTestsScale
import Verif.Props.FloatPartial
import Verif.Model.NumpySum
import Verif.Proofs.NumpySum
import Verif.Proofs.ErrorReal
import Verif.Proofs.FloatPvalue
import Verif.Proofs.FloatPartialCorr
import Verif.Props.FloatTestsAccuracy
import Verif.Props.FloatPartialRange
import Verif.Model.RoundingRoots
import Verif.Props.FloatRoots
import Verif.Spec.EnergyTest
import Verif.Proofs.FloatEnergyTest
import Verif.Props.FloatEnergyAccuracy
import Verif.Proofs.FloatPartialCov
import Verif.Props.FloatPartialAccuracy
import Verif.Model.RoundingTTest
import Verif.Proofs.Monotone64
import Verif.Proofs.FloatTTest
import Verif.Proofs.FloatTTestError
import Verif.Props.FloatTTest
import Verif.Proofs.Power
import Verif.Props.Power
import Verif.Spec.Population
import Verif.Proofs.Consistency
import Verif.Proofs.ConsistencyDcov
import Verif.Proofs.ConsistencyTests
import Verif.Props.Consistency
import Verif.Proofs.Charac
import Verif.Proofs.Gauss
import Verif.Proofs.CharacZero
import Verif.Props.Characterization
import Verif.Proofs.Expectation
import Verif.Props.Unbiasedness
import Verif.Proofs.RandomLevel
import Verif.Props.RandomLevel
import Verif.Proofs.PermVariance
import Verif.Props.PermVariance
import Verif.Spec.PartialPopulation
import Verif.Proofs.ConsistencyPartial
import Verif.Props.ConsistencyPartial
import Verif.Props.ConditionalIndependence
import Verif.Spec.Student
import Verif.Proofs.Student
import Verif.Props.TTest
import Verif.Proofs.CoinLimit
import Verif.Proofs.StudentTail
import Verif.Props.TTestLimit
import Verif.Proofs.StudentLaw
import Verif.Proofs.VectorClt
import Verif.Proofs.UProjection
import Verif.Proofs.HighDimension
import Verif.Props.HighDimension
import Verif.Model.RoundingRowwise
import Verif.Proofs.FloatRowwise
import Verif.Props.FloatRowwise
import Verif.Props.FloatSymmetry
import Verif.Spec.AfInvPopulation
import Verif.Proofs.ConsistencyAfInv
import Verif.Proofs.Whitening
import Verif.Props.ConsistencyAfInv
import Verif.Proofs.McDiarmid
import Verif.Proofs.Deviation
import Verif.Proofs.BoundedDiffs
import Verif.Props.Concentration
import Verif.Model.NarrowInt
import Verif.Proofs.NarrowInt
import Verif.Props.NarrowInts
import Verif.Model.Float32
import Verif.Proofs.Round32
import Verif.Proofs.IntSingle
import Verif.Proofs.ErrorSingle
import Verif.Props.Float32
import Verif.Props.Float32Exact
import Verif.Props.UnsignedInts
import Verif.Props.FloatMergesort
import Verif.Spec.Dispersion
import Verif.Proofs.Dispersion
import Verif.Props.Dispersion
import Verif.Spec.Cdf
import Verif.Proofs.Cdf
import Verif.Props.Cdf
import Verif.Props.SamplePower
import Verif.Proofs.Extremes
import Verif.Props.Extremes
import Verif.Proofs.Outlier
import Verif.Props.Outlier
import Verif.Model.UnsignedMerge
import Verif.Props.UnsignedMerge
import Verif.Model.Float32Merge
import Verif.Proofs.IntSingleMerge
import Verif.Props.Float32Merge
import Verif.Proofs.EnergyOutlier
import Verif.Props.EnergyOutlier
import Verif.Props.PartialSmall
import Verif.Proofs.Sums
import Verif.Props.Sums
import Verif.Props.PartialPermutations
import Verif.Props.SmallExponent
import Verif.Proofs.UnsignedMerge
import Verif.Props.Within
import Verif.Props.Subsample
import Verif.Props.PartialInvariance
import Verif.Props.GroupLabels
import Verif.Props.SimilarityMatrix
import Verif.Model.UnsignedMatrix
import Verif.Proofs.UnsignedMatrix
import Verif.Props.UnsignedMatrix
import Verif.Model.Float16
import Verif.Proofs.Round16
import Verif.Proofs.Float16
import Verif.Proofs.Float16Int
import Verif.Props.Float16
import Verif.Model.Float16Merge
import Verif.Proofs.Float16Merge
import Verif.Proofs.Float16MergeInt
import Verif.Props.Float16Merge
import Verif.Model.Float16Rowwise
import Verif.Proofs.Round16Range
import Verif.Props.Float16Rowwise
import Verif.Proofs.Float16RowCorrelation
import Verif.Props.Float16RowCorrelation
import Verif.Model.Float32Rowwise
import Verif.Proofs.Float32RowCorrelation
import Verif.Props.Float32RowCorrelation
