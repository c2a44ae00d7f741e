import Verif.Model.Core
import Verif.Model.Derived

/-!
# Model of `measures-exponential-family`: traits, IID, generated closures

`NaturalParam`/`SufficientStat` (`[F; N]` or `Vec<F>`) are lists.
-/

namespace Verif
open FloatOps

/-- `exponential_family/traits.rs:85-101`: the provided body of `exp_fam_log_density`. -/
def expFamLogDensityDefault {F : Type} [FloatOps F] (np : List F × F) (stat : List F) (logBase : F) :
    F :=
  let expFamPart := dot np.1 stat -. np.2
  expFamPart +. logBase

/-- `exponential_family/traits.rs:31-102`: `ExponentialFamily<X, F>`.  `from_natural` may panic.
`expFamLogDensity` is the overridable method with the provided body as default. -/
class ExponentialFamily (D : Type) (X F : outParam Type) [FloatOps F] where
  Base : Type
  baseHas : HasLogDensity Base X F
  fromNatural : List F → Except Panic D
  naturalAndLogPartition : D → List F × F
  sufficientStatistic : D → X → List F
  baseMeasure : D → Base
  expFamLogDensity : D → X → F := fun d x =>
    expFamLogDensityDefault (naturalAndLogPartition d) (sufficientStatistic d x)
      (baseHas.logDensityWrtRoot (baseMeasure d) x)

namespace ExponentialFamily
variable {D X F : Type} [FloatOps F] [ExponentialFamily D X F]

/-- `traits.rs:46-48` -/
def toNatural (d : D) : List F := (naturalAndLogPartition d).1
/-- `traits.rs:52-54` -/
def logPartition (d : D) : F := (naturalAndLogPartition d).2
/-- log-density of the base measure with respect to its root -/
def baseLogDensity (d : D) (x : X) : F := (baseHas (D := D)).logDensityWrtRoot (baseMeasure d) x
end ExponentialFamily

open ExponentialFamily

/-- The const generic `N` of `[F; N]`, for families whose sufficient statistic is an array (the only
ones implementing `SumSufficientStats`, `traits.rs:128`). -/
class ArrayStat (D : Type) where
  dim : ℕ

/-- `exponential_family/traits.rs:128-142` (`sum_sufficient_stats`). -/
def sumSufficientStats {F : Type} [FloatOps F] (n : ℕ) (stats : List (List F)) : List F :=
  stats.foldl (fun sum stat => List.zipWith FloatOps.add sum stat) (List.replicate n zero)

/-- `exponential_family/traits.rs:150-158` -/
def computeExpFamLogDensity {D X F : Type} [FloatOps F] [ExponentialFamily D X F] (d : D) (x : X) : F :=
  expFamLogDensity d x

/-- `exponential_family/traits.rs:167-199` (`compute_iid_exp_fam_log_density`). -/
def computeIidExpFamLogDensity {D X F : Type} [FloatOps F] [ExponentialFamily D X F] [ArrayStat D]
    (d : D) (samples : List X) : F :=
  if samples.isEmpty then zero
  else
    let np := naturalAndLogPartition d
    let sumStats := sumSufficientStats (ArrayStat.dim D) (samples.map (sufficientStatistic d))
    let n : F := FloatOps.ofNat samples.length
    let expFamPart := dot np.1 sumStats -. n *. np.2
    let basePart := sum (samples.map (fun x => baseLogDensity d x))
    expFamPart +. basePart

/-! ### IID -/

/-- `exponential_family/iid.rs:25-45` -/
structure IID (D : Type) where
  distribution : D

/-- `exponential_family/iid.rs:47-99`: `IIDRootMeasure` maps the five root measure types to their
IID roots.  Only the two primitive roots occur as `RootMeasure` of a distribution. -/
class IIDRoot (R : Type) where
  Root : Type
  iidRootMeasure : Root
/-- `iid.rs:56-63` -/
instance {T} : IIDRoot (LebesgueMeasure T) := ⟨LebesgueMeasure (List T), {}⟩
/-- `iid.rs:66-72` -/
instance {T} : IIDRoot (CountingMeasure T) := ⟨CountingMeasure (List T), {}⟩

/-- `exponential_family/iid.rs:102-117` (marker 40-45: primitive False, exponential family True) -/
instance {D X : Type} [i : Measure D X] [r : IIDRoot i.Root] : Measure (IID D) (List X) where
  isPrimitive := false
  isExponentialFamily := true
  Root := r.Root
  inSupport m xs := xs.all (fun x => Measure.inSupport m.distribution x)
  rootMeasure _ := r.iidRootMeasure

namespace IID
/-- `exponential_family/iid.rs:128-139` -/
def iidLogDensity {D X F : Type} [FloatOps F] [ExponentialFamily D X F] [ArrayStat D]
    (m : IID D) (xs : List X) : F := computeIidExpFamLogDensity m.distribution xs

/-- `exponential_family/iid.rs:145-154` -/
def iidLogDensityFallback {D X F : Type} [FloatOps F] [HasLogDensity D X F]
    (m : IID D) (xs : List X) : F := sum (xs.map (fun x => logDensityWrtRoot m.distribution x))

/-- `exponential_family/iid.rs:163-165` (`IIDExtension::iid`) -/
def ofDist {D : Type} (d : D) : IID D := ⟨d⟩
end IID

/-- `exponential_family/iid.rs:181-191` -/
structure IIDBaseMeasure (M : Type) where
  baseMeasure : M

/-- `exponential_family/iid.rs:193-213` -/
instance {M X : Type} [i : Measure M X] [r : IIDRoot i.Root] : Measure (IIDBaseMeasure M) (List X) where
  isPrimitive := false
  isExponentialFamily := false
  Root := r.Root
  inSupport m xs := xs.all (fun x => Measure.inSupport m.baseMeasure x)
  rootMeasure _ := r.iidRootMeasure

/-- `exponential_family/iid.rs:215-227` -/
instance iidBaseHas {M X F : Type} [FloatOps F] [HasLogDensity M X F] :
    HasLogDensity (IIDBaseMeasure M) (List X) F where
  logDensityWrtRoot m xs := sum (xs.map (fun x => logDensityWrtRoot m.baseMeasure x))

/-- `exponential_family/iid.rs:234-296` -/
instance {D X F : Type} [FloatOps F] [e : ExponentialFamily D X F] [ArrayStat D] :
    ExponentialFamily (IID D) (List X) F where
  Base := IIDBaseMeasure e.Base
  baseHas := @iidBaseHas e.Base X F _ e.baseHas
  fromNatural η := do
    let d ← e.fromNatural η
    pure ⟨d⟩
  naturalAndLogPartition m :=
    let np := naturalAndLogPartition m.distribution
    (np.1, ofRat 1 *. np.2)
  sufficientStatistic m xs :=
    sumSufficientStats (ArrayStat.dim D) (xs.map (sufficientStatistic m.distribution))
  baseMeasure m := ⟨baseMeasure m.distribution⟩
  expFamLogDensity m xs := computeIidExpFamLogDensity m.distribution xs

/-- The statistic of `IID<D>` is an array of the same length (`iid.rs:248`). -/
instance {D : Type} [ArrayStat D] : ArrayStat (IID D) := ⟨ArrayStat.dim D⟩

/-- `exponential_family/iid.rs:299-311` -/
instance {D X F : Type} [FloatOps F] [ExponentialFamily D X F] [ArrayStat D] :
    HasLogDensity (IID D) (List X) F where
  logDensityWrtRoot m xs := m.iidLogDensity xs

/-! ### `ExpFam` wrapper -/

/-- `exponential_family/implementations.rs:24-40` -/
structure ExpFam (M : Type) where
  measure : M

/-- `exponential_family/implementations.rs:43-67` -/
instance {M X : Type} [i : Measure M X] : Measure (ExpFam M) X where
  isPrimitive := false
  isExponentialFamily := true
  Root := i.Root
  inSupport m x := Measure.inSupport m.measure x
  rootMeasure m := Measure.rootMeasure m.measure

/-! ### Array helpers -/

/-- `exponential_family/array_utils.rs:7-16` (`T::default()` is zero for floats) -/
def addArrays {F : Type} [FloatOps F] (a b : List F) : List F := List.zipWith FloatOps.add a b
/-- `exponential_family/array_utils.rs:20-25` -/
def defaultArray {F : Type} [FloatOps F] (n : ℕ) : List F := List.replicate n zero
/-- `exponential_family/array_utils.rs:28-34` -/
def sumArrays {F : Type} [FloatOps F] (n : ℕ) (xs : List (List F)) : List F :=
  xs.foldl addArrays (defaultArray n)

/-! ### Generated closures -/

/-- `exponential_family/jit.rs:103-120` (`generate_zero_overhead_exp_fam`): natural parameter,
log-partition and base measure are computed once, outside the closure. -/
def generateZeroOverheadExpFam {D X F : Type} [FloatOps F] [ExponentialFamily D X F] (d : D) : X → F :=
  let np := naturalAndLogPartition d
  let base := baseMeasure d
  fun x =>
    let etaDotT := dot np.1 (sufficientStatistic d x)
    let logH := (ExponentialFamily.baseHas (D := D)).logDensityWrtRoot base x
    etaDotT -. np.2 +. logH

/-- `exponential_family/jit.rs:123-153` (`generate_zero_overhead_exp_fam_wrt`) -/
def generateZeroOverheadExpFamWrt {D B X F : Type} [FloatOps F] [ExponentialFamily D X F]
    [HasLogDensity B X F] (d : D) (b : B) : X → F :=
  fun x => expFamLogDensity d x -. logDensityWrtRoot b x

/-- `exponential_family/jit.rs:226-252` (`StaticInlineJITCompiler::compile_normal`); statistics and
the source text are dropped. -/
def compileNormal {F : Type} [FloatOps F] (mu sigma : F) : F → F :=
  let sigmaSq := sigma *. sigma
  let twoSigmaSq := ofRat 2 *. sigmaSq
  let logNorm := ofRat (-1/2) *. ln (ofRat 2 *. pi *. sigmaSq)
  fun x =>
    let diff := x -. mu
    logNorm -. (diff *. diff) /. twoSigmaSq

/-- `exponential_family/jit.rs:256-282` (`compile_exponential`) -/
def compileExponential {F : Type} [FloatOps F] (lambda : F) : F → F :=
  let logLambda := ln lambda
  fun x => if ge x zero then logLambda -. lambda *. x else negInf

end Verif
