import Verif.Lemmas.AllDirections
import Verif.Lemmas.Arr
import Verif.Lemmas.ArrOps
import Verif.Lemmas.Average
import Verif.Lemmas.Bessel
import Verif.Lemmas.Bisection
import Verif.Lemmas.Broadcast
import Verif.Lemmas.Broadcast2
import Verif.Lemmas.Calc
import Verif.Lemmas.CentralLimit
import Verif.Lemmas.Checked
import Verif.Lemmas.Classes
import Verif.Lemmas.ClosedForm
import Verif.Lemmas.ClosedForm2
import Verif.Lemmas.ClosedForm3
import Verif.Lemmas.Collect
import Verif.Lemmas.Combine
import Verif.Lemmas.ComplexMoments
import Verif.Lemmas.ConvexMeans
import Verif.Lemmas.CramerRao
import Verif.Lemmas.Decode
import Verif.Lemmas.Deviation
import Verif.Lemmas.Diagonal
import Verif.Lemmas.Digamma
import Verif.Lemmas.Dot
import Verif.Lemmas.EntropyGradient
import Verif.Lemmas.ExpFam
import Verif.Lemmas.ExpFam2
import Verif.Lemmas.ExpToNat
import Verif.Lemmas.Families
import Verif.Lemmas.Families.CmvCircular
import Verif.Lemmas.Families.ComplexNormal
import Verif.Lemmas.Families.Discrete
import Verif.Lemmas.Families.Multinomial
import Verif.Lemmas.Families.MvFull
import Verif.Lemmas.Families.MvNormal
import Verif.Lemmas.Families.Normal
import Verif.Lemmas.Families.Positive
import Verif.Lemmas.Families.Simplex
import Verif.Lemmas.Families.VmfMean
import Verif.Lemmas.Families.VonMises
import Verif.Lemmas.Fisher
import Verif.Lemmas.FisherForm
import Verif.Lemmas.FisherForm2
import Verif.Lemmas.FisherForm3
import Verif.Lemmas.Flat
import Verif.Lemmas.Flat2
import Verif.Lemmas.Flat3
import Verif.Lemmas.Flat4
import Verif.Lemmas.FlatExp
import Verif.Lemmas.FlatKind
import Verif.Lemmas.GammaStart
import Verif.Lemmas.Generate
import Verif.Lemmas.Generate2
import Verif.Lemmas.Graded
import Verif.Lemmas.GradientLn
import Verif.Lemmas.Gradients
import Verif.Lemmas.Independence
import Verif.Lemmas.Index
import Verif.Lemmas.Inside
import Verif.Lemmas.Inverse
import Verif.Lemmas.Kind
import Verif.Lemmas.Kind2
import Verif.Lemmas.Lawful
import Verif.Lemmas.Laws
import Verif.Lemmas.Matrix
import Verif.Lemmas.MaximumLikelihood
import Verif.Lemmas.Mean
import Verif.Lemmas.MeanSpace
import Verif.Lemmas.Mismatch
import Verif.Lemmas.NormalMoments
import Verif.Lemmas.Objects
import Verif.Lemmas.Optimization
import Verif.Lemmas.Pair
import Verif.Lemmas.Product
import Verif.Lemmas.Projection
import Verif.Lemmas.Raw
import Verif.Lemmas.ReachConverse
import Verif.Lemmas.ReachMatrix
import Verif.Lemmas.ReachRing
import Verif.Lemmas.ReachSupport
import Verif.Lemmas.ReachTree
import Verif.Lemmas.Refines
import Verif.Lemmas.Ring
import Verif.Lemmas.RingArr
import Verif.Lemmas.RootFinding
import Verif.Lemmas.SampleEstimate
import Verif.Lemmas.Sampling
import Verif.Lemmas.Searches
import Verif.Lemmas.Setting
import Verif.Lemmas.Shaped
import Verif.Lemmas.ShapedArrays
import Verif.Lemmas.Simple
import Verif.Lemmas.Simplex
import Verif.Lemmas.Slots
import Verif.Lemmas.Special
import Verif.Lemmas.Sphere
import Verif.Lemmas.Spread
import Verif.Lemmas.SpreadKind
import Verif.Lemmas.Stat
import Verif.Lemmas.Stationary
import Verif.Lemmas.Steep
import Verif.Lemmas.SteepSimplex
import Verif.Lemmas.Strict
import Verif.Lemmas.Subscript
import Verif.Lemmas.Support
import Verif.Lemmas.SupportRT
import Verif.Lemmas.Tangent
import Verif.Lemmas.TestEstimation
import Verif.Lemmas.TestSampling
import Verif.Lemmas.Total
import Verif.Lemmas.Trace
import Verif.Lemmas.Tree
import Verif.Lemmas.Tree2
import Verif.Lemmas.Tree3
import Verif.Lemmas.TreeRel
import Verif.Lemmas.Trigamma
import Verif.Lemmas.Valid
import Verif.Lemmas.Valid2
import Verif.Lemmas.Valid3
import Verif.Lemmas.ValidLeaf
import Verif.Lemmas.ValidRandom
import Verif.Lemmas.Vjp
import Verif.Lemmas.VjpJoint
import Verif.Lemmas.VjpMatrix
import Verif.Lemmas.VmfStart
import Verif.Model.Arr
import Verif.Model.Calc
import Verif.Model.Checked.Basic
import Verif.Model.Checked.Families
import Verif.Model.Classes
import Verif.Model.Dist
import Verif.Model.Err
import Verif.Model.Estimator
import Verif.Model.Examples.CrossEntropy
import Verif.Model.Examples.MaximumLikelihood
import Verif.Model.Examples.Optimization
import Verif.Model.ExpFam
import Verif.Model.Families.ComplexNormal
import Verif.Model.Families.Conjugate
import Verif.Model.Families.Discrete
import Verif.Model.Families.MvNormal
import Verif.Model.Families.Normal
import Verif.Model.Families.Positive
import Verif.Model.Families.Samplers
import Verif.Model.Families.Search
import Verif.Model.Families.Simplex
import Verif.Model.Families.VonMises
import Verif.Model.Fisher
import Verif.Model.FlatDict
import Verif.Model.Generate
import Verif.Model.Joint
import Verif.Model.Mapping
import Verif.Model.Methods.Basic
import Verif.Model.Methods.Complex
import Verif.Model.Methods.ExpToNat
import Verif.Model.Methods.Normal
import Verif.Model.Methods.Positive
import Verif.Model.Methods.Prior
import Verif.Model.Methods.RootFinder
import Verif.Model.Methods.Scalar
import Verif.Model.Methods.Simplex
import Verif.Model.Methods.Table
import Verif.Model.Methods.Tree
import Verif.Model.Primitives
import Verif.Model.Ring
import Verif.Model.Sampling.Random
import Verif.Model.Sampling.Samplers
import Verif.Model.Scipy.Arrays
import Verif.Model.Scipy.Dirichlet
import Verif.Model.Scipy.DirichletArrays
import Verif.Model.Scipy.Joint
import Verif.Model.Scipy.Normal
import Verif.Model.Scipy.Shaped
import Verif.Model.Search
import Verif.Model.Special
import Verif.Model.Structure
import Verif.Model.Subscript
import Verif.Model.Support
import Verif.Model.Tests.Bodies
import Verif.Model.Tests.Bodies10
import Verif.Model.Tests.Bodies2
import Verif.Model.Tests.Bodies3
import Verif.Model.Tests.Bodies4
import Verif.Model.Tests.Bodies5
import Verif.Model.Tests.Bodies6
import Verif.Model.Tests.Bodies7
import Verif.Model.Tests.Bodies8
import Verif.Model.Tests.Bodies9
import Verif.Model.Tests.Fixtures
import Verif.Model.Tests.Infos
import Verif.Model.Tests.Parameters
import Verif.Model.Tests.ScipyStats
import Verif.Model.Tools
import Verif.Model.Vjp
import Verif.Props.Analysis
import Verif.Props.Arity
import Verif.Props.Arity2
import Verif.Props.ArraySampling
import Verif.Props.Average
import Verif.Props.Batch.Complex
import Verif.Props.Batch.Exp
import Verif.Props.Batch.Kinds
import Verif.Props.Batch.Normal
import Verif.Props.Batch.Positive
import Verif.Props.Batch.Prior
import Verif.Props.Batch.PriorNumber
import Verif.Props.Batch.Scalar
import Verif.Props.Batch.Search
import Verif.Props.Batch.Simplex
import Verif.Props.Batches
import Verif.Props.Bisection
import Verif.Props.Broadcast
import Verif.Props.CarrierShape
import Verif.Props.CentralLimit
import Verif.Props.ClosedForm
import Verif.Props.Combine
import Verif.Props.CombineDomain
import Verif.Props.Completeness
import Verif.Props.Consistent
import Verif.Props.CramerRao
import Verif.Props.CrossEntropyExample
import Verif.Props.Deviation
import Verif.Props.Domain
import Verif.Props.Dot
import Verif.Props.Elementwise
import Verif.Props.EntropyGradient
import Verif.Props.EntryLaws
import Verif.Props.Estimation
import Verif.Props.EverySampler
import Verif.Props.Exact
import Verif.Props.ExpEntropyGradient
import Verif.Props.Families.Agree
import Verif.Props.Families.Carrier
import Verif.Props.Families.ComplexCarrier
import Verif.Props.Families.ComplexNormal
import Verif.Props.Families.ComplexSamplers
import Verif.Props.Families.ComplexUnitSamplers
import Verif.Props.Families.Cones
import Verif.Props.Families.Conjugate
import Verif.Props.Families.Discrete
import Verif.Props.Families.DiscreteSamplers
import Verif.Props.Families.Inverse
import Verif.Props.Families.Logarithmic
import Verif.Props.Families.Multivariate
import Verif.Props.Families.MvCarrier
import Verif.Props.Families.Normal
import Verif.Props.Families.Positive
import Verif.Props.Families.Probability
import Verif.Props.Families.Samplers
import Verif.Props.Families.Search
import Verif.Props.Families.Simplex
import Verif.Props.Families.Stability
import Verif.Props.Families.Transformed
import Verif.Props.Families.Variance
import Verif.Props.Families.VonMises
import Verif.Props.Finite
import Verif.Props.FiniteSearch
import Verif.Props.Fisher
import Verif.Props.FisherCircular
import Verif.Props.FisherDiagonal
import Verif.Props.FisherForm
import Verif.Props.FisherJoint
import Verif.Props.FisherTests
import Verif.Props.FisherTrace
import Verif.Props.Fixed
import Verif.Props.FlatDict
import Verif.Props.Flatten
import Verif.Props.Generate
import Verif.Props.Gradients
import Verif.Props.IdealExists
import Verif.Props.JointShapes
import Verif.Props.Joints
import Verif.Props.Library
import Verif.Props.Mappings
import Verif.Props.MaximumLikelihood
import Verif.Props.MinimalSufficient
import Verif.Props.Mismatch
import Verif.Props.Narrow
import Verif.Props.NarrowUse
import Verif.Props.Objects
import Verif.Props.Observations
import Verif.Props.Optimization
import Verif.Props.Oracle.Basic
import Verif.Props.Oracle.Complex
import Verif.Props.Oracle.Fixtures
import Verif.Props.Oracle.Joint
import Verif.Props.Oracle.Library
import Verif.Props.Oracle.Mv
import Verif.Props.Oracle.Scalar
import Verif.Props.Oracle.Simplex
import Verif.Props.Oracle.VonMises
import Verif.Props.Pool
import Verif.Props.PoolAll
import Verif.Props.PoolLine
import Verif.Props.PoolSphere
import Verif.Props.Projection
import Verif.Props.RandomReach
import Verif.Props.Reach
import Verif.Props.Rings
import Verif.Props.RoundTrip
import Verif.Props.SampleEstimate
import Verif.Props.SampleGradient
import Verif.Props.SampleLaws
import Verif.Props.Samples
import Verif.Props.Samples2
import Verif.Props.Sampling
import Verif.Props.Scipy.Arrays
import Verif.Props.Scipy.Dirichlet
import Verif.Props.Scipy.Joint
import Verif.Props.Scipy.MvArrays
import Verif.Props.Scipy.MvNormal
import Verif.Props.Scipy.Normal
import Verif.Props.Scipy.Shaped
import Verif.Props.Search
import Verif.Props.Statistics
import Verif.Props.Structures
import Verif.Props.Subscript
import Verif.Props.Subscript2
import Verif.Props.Supports
import Verif.Props.TestBlind
import Verif.Props.TestComplex
import Verif.Props.TestConversion
import Verif.Props.TestConvex
import Verif.Props.TestDetect
import Verif.Props.TestEstimation
import Verif.Props.TestFlatten
import Verif.Props.TestGradient
import Verif.Props.TestKl
import Verif.Props.TestMatch
import Verif.Props.TestPrior
import Verif.Props.TestSampling
import Verif.Props.TestShaped
import Verif.Props.TestShapes
import Verif.Props.TestTangent
import Verif.Props.Textbook
import Verif.Props.TextbookNormal
import Verif.Props.TextbookOther
import Verif.Props.Trees
import Verif.Props.Valid
import Verif.Props.ValidRandom
import Verif.Props.Vjp
import Verif.Props.VjpJoint
import Verif.Props.VjpMore
import Verif.Props.WrongSamplers
import Verif.Spec.Batch
import Verif.Spec.BatchEntry
import Verif.Spec.Between
import Verif.Spec.Box
import Verif.Spec.Broadcast
import Verif.Spec.BroadcastKind
import Verif.Spec.Clamped
import Verif.Spec.ClosedForm
import Verif.Spec.Combine
import Verif.Spec.Conjugate
import Verif.Spec.Consistent
import Verif.Spec.ConvexMeans
import Verif.Spec.Cooperative
import Verif.Spec.CramerRao
import Verif.Spec.Domain
import Verif.Spec.Dot
import Verif.Spec.EntropyGradient
import Verif.Spec.Estimate
import Verif.Spec.ExpEntropy
import Verif.Spec.ExpFam
import Verif.Spec.Finite
import Verif.Spec.Fisher
import Verif.Spec.FisherForm
import Verif.Spec.Fits
import Verif.Spec.Fixed
import Verif.Spec.Flat
import Verif.Spec.FlatSetting
import Verif.Spec.Generate
import Verif.Spec.Ideal
import Verif.Spec.Index
import Verif.Spec.Kind
import Verif.Spec.Kinds
import Verif.Spec.Laws
import Verif.Spec.Leaves
import Verif.Spec.Measures
import Verif.Spec.Moments
import Verif.Spec.Objects
import Verif.Spec.Oracle
import Verif.Spec.Prior
import Verif.Spec.PriorMode
import Verif.Spec.Projection
import Verif.Spec.RandomReach
import Verif.Spec.Reach
import Verif.Spec.Refines
import Verif.Spec.RootFinding
import Verif.Spec.SampleEstimate
import Verif.Spec.Sampling
import Verif.Spec.Sequence
import Verif.Spec.Setting
import Verif.Spec.Stat
import Verif.Spec.Subscript
import Verif.Spec.TestComplex
import Verif.Spec.TestEstimation
import Verif.Spec.Textbook
import Verif.Spec.Tree
import Verif.Spec.Valid
import Verif.Spec.Vjp
