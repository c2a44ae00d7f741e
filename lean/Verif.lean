import Verif.Num.Double
import Verif.Num.Dual
import Verif.Num.FloatBits
import Verif.Num.FloatOps
import Verif.Num.Ieee
import Verif.Num.PolyCheck
import Verif.Num.XReal
import Verif.Model.Bayesian
import Verif.Model.Cache
import Verif.Model.Combinators
import Verif.Model.Convert
import Verif.Model.Core
import Verif.Model.CoreExtra
import Verif.Model.Derived
import Verif.Model.DistContinuous
import Verif.Model.DistDiscrete
import Verif.Model.DistExpr
import Verif.Model.Egglog
import Verif.Model.ExpFam
import Verif.Model.Jit
import Verif.Model.JitCall
import Verif.Model.Macro
import Verif.Model.MultiNormal
import Verif.Model.Printing
import Verif.Model.Symbolic
import Verif.Model.Tagless
import Verif.Model.ViaF64
import Verif.Model.ViaF64Beta
import Verif.Spec.Algebra
import Verif.Spec.Autodiff
import Verif.Spec.Bayes
import Verif.Spec.Cache
import Verif.Spec.Compound
import Verif.Spec.Concave
import Verif.Spec.Conjugate
import Verif.Spec.Consistency
import Verif.Spec.Core
import Verif.Spec.Cumulants
import Verif.Spec.Dist
import Verif.Spec.Distance
import Verif.Spec.Double
import Verif.Spec.DoubleBayes
import Verif.Spec.DoubleExact
import Verif.Spec.DoubleExpr
import Verif.Spec.DoubleGamma
import Verif.Spec.DoubleMixture
import Verif.Spec.DoubleMoments
import Verif.Spec.DoubleMonotone
import Verif.Spec.DoubleNatural
import Verif.Spec.DoubleOrder
import Verif.Spec.DoubleRunning
import Verif.Spec.DoubleTotal
import Verif.Spec.Egglog
import Verif.Spec.Entropy
import Verif.Spec.ExpFam
import Verif.Spec.IeeeBits
import Verif.Spec.IeeeDouble
import Verif.Spec.Iid
import Verif.Spec.Jit
import Verif.Spec.JitRunning
import Verif.Spec.JitStats
import Verif.Spec.Joint
import Verif.Spec.Latex
import Verif.Spec.Likelihood
import Verif.Spec.LogConcave
import Verif.Spec.Markers
import Verif.Spec.Mass
import Verif.Spec.Moments
import Verif.Spec.MultiNormal
import Verif.Spec.Notation
import Verif.Spec.Ordering
import Verif.Spec.Params
import Verif.Spec.Printing
import Verif.Spec.Pushforward
import Verif.Spec.Python
import Verif.Spec.RadonNikodym
import Verif.Spec.Selection
import Verif.Spec.Sufficient
import Verif.Spec.Symbolic
import Verif.Spec.Tagless
import Verif.Spec.Testing
import Verif.Spec.Whitespace
import Verif.Spec.WithBase
import Verif.Lemmas.App
import Verif.Lemmas.AppSum
import Verif.Lemmas.Appr
import Verif.Lemmas.Coeff
import Verif.Lemmas.Dist
import Verif.Lemmas.DoubleDist
import Verif.Lemmas.Dual
import Verif.Lemmas.Egglog
import Verif.Lemmas.EgglogEngine
import Verif.Lemmas.EgglogExists
import Verif.Lemmas.EgglogText
import Verif.Lemmas.EgglogWitness
import Verif.Lemmas.FltOrder
import Verif.Lemmas.FltRange
import Verif.Lemmas.FltSum
import Verif.Lemmas.IeeeBits
import Verif.Lemmas.IeeeDouble
import Verif.Lemmas.JitAccuracy
import Verif.Lemmas.JitDouble
import Verif.Lemmas.JitGen
import Verif.Lemmas.Latex
import Verif.Lemmas.LatexRead
import Verif.Lemmas.LibmExists
import Verif.Lemmas.LogTable
import Verif.Lemmas.Near
import Verif.Lemmas.NearOps
import Verif.Lemmas.Num
import Verif.Lemmas.Printing
import Verif.Lemmas.Python
import Verif.Lemmas.Rel
import Verif.Lemmas.Rounding
import Verif.Lemmas.Scheffe
import Verif.Lemmas.Simplify
import Verif.Lemmas.Stirling
import Verif.Lemmas.StirlingReal
import Verif.Lemmas.StudentT
import Verif.Lemmas.Symbolic
import Verif.Lemmas.SymbolicVars
import Verif.Lemmas.XSum
import Verif.Props.Algebra
import Verif.Props.Autodiff
import Verif.Props.AutodiffExpFam
import Verif.Props.AutodiffMore
import Verif.Props.Bayes
import Verif.Props.Bayesian
import Verif.Props.Builders
import Verif.Props.Cache
import Verif.Props.CacheLocks
import Verif.Props.Closures
import Verif.Props.Compound
import Verif.Props.Concave
import Verif.Props.ConcaveDiscrete
import Verif.Props.ConcaveDist
import Verif.Props.Conjugate
import Verif.Props.Consistency
import Verif.Props.Constructors
import Verif.Props.Continuous
import Verif.Props.Convert
import Verif.Props.CoreDensity
import Verif.Props.CoreExtra
import Verif.Props.Cumulants
import Verif.Props.CumulantsDiscrete
import Verif.Props.CustomJit
import Verif.Props.Derived
import Verif.Props.Discrete
import Verif.Props.DistExpr
import Verif.Props.Double
import Verif.Props.DoubleBayes
import Verif.Props.DoubleCauchy
import Verif.Props.DoubleCombinators
import Verif.Props.DoubleDecide
import Verif.Props.DoubleDiscrete
import Verif.Props.DoubleExact
import Verif.Props.DoubleExpFam
import Verif.Props.DoubleExpFam2
import Verif.Props.DoubleExpFam3
import Verif.Props.DoubleExpFam4
import Verif.Props.DoubleExpFam5
import Verif.Props.DoubleExpFam6
import Verif.Props.DoubleExpr
import Verif.Props.DoubleGamma
import Verif.Props.DoubleHierarchical
import Verif.Props.DoubleLikelihood
import Verif.Props.DoubleLogSumExp
import Verif.Props.DoubleMixture
import Verif.Props.DoubleMoments
import Verif.Props.DoubleMomentsCategorical
import Verif.Props.DoubleMonotone
import Verif.Props.DoubleNatural
import Verif.Props.DoubleNatural2
import Verif.Props.DoubleOrder
import Verif.Props.DoubleRelative
import Verif.Props.DoubleRoundTrip
import Verif.Props.DoubleRoundTrip2
import Verif.Props.DoubleRoutes
import Verif.Props.DoubleRoutes2
import Verif.Props.DoubleRunning
import Verif.Props.DoubleSingle
import Verif.Props.DoubleSingle2
import Verif.Props.DoubleSingle3
import Verif.Props.DoubleSpecial
import Verif.Props.DoubleSufficiency
import Verif.Props.DoubleSum
import Verif.Props.DoubleTagless
import Verif.Props.DoubleTotal
import Verif.Props.DoubleTotalMixture
import Verif.Props.Egglog
import Verif.Props.EgglogRead
import Verif.Props.Entropy
import Verif.Props.ExpFamAgree
import Verif.Props.Identifiable
import Verif.Props.Iid
import Verif.Props.Jit
import Verif.Props.JitAccuracy
import Verif.Props.JitCall
import Verif.Props.JitDouble
import Verif.Props.JitRunning
import Verif.Props.JitRunningTagless
import Verif.Props.JitStats
import Verif.Props.Latex
import Verif.Props.Laws
import Verif.Props.Likelihood
import Verif.Props.Limits
import Verif.Props.LogConcave
import Verif.Props.LogConcaveMore
import Verif.Props.LogPartition
import Verif.Props.Macro
import Verif.Props.Markers
import Verif.Props.MathJit
import Verif.Props.Mixture
import Verif.Props.Moments
import Verif.Props.MultiNormal
import Verif.Props.MultiNormalLaw
import Verif.Props.Ordering
import Verif.Props.Printing
import Verif.Props.Product
import Verif.Props.Pushforward
import Verif.Props.Python
import Verif.Props.RadonNikodym
import Verif.Props.RadonNikodymDist
import Verif.Props.Relations
import Verif.Props.RoundTrip
import Verif.Props.Selection
import Verif.Props.Simplify
import Verif.Props.SimplifyValue
import Verif.Props.Single
import Verif.Props.SingleBeta
import Verif.Props.Stability
import Verif.Props.Substitution
import Verif.Props.Sufficient
import Verif.Props.Sums
import Verif.Props.SumsDiscrete
import Verif.Props.SymbolicEval
import Verif.Props.SymbolicVariants
import Verif.Props.Tagless
import Verif.Props.TaglessPatterns
import Verif.Props.Tails
import Verif.Props.Testing
import Verif.Props.Transforms
import Verif.Props.Wrappers
import Verif.Props.WrappersJit
