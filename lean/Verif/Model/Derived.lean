import Verif.Model.Core

/-!
# Model of `measures-combinators/src/measures/derived`

`u64` is modelled by `ℕ` (no overflow; the modelled functions only compare and convert it).
-/

namespace Verif
open FloatOps

variable {F : Type}

/-! ### Factorial measure -/

/-- `derived/factorial.rs:70-92` (`LOG_FACTORIAL_TABLE`), decimal literals as rationals.  For `F = f32`
the code rounds each literal to `f64` first. -/
def logFactorialTable [FloatOps F] : List F :=
  [ ofRat 0,
    ofRat 0,
    ln2,
    ofRat 1.791759469228055,
    ofRat 3.1780538303479458,
    ofRat 4.787491742782046,
    ofRat 6.579251212010101,
    ofRat 8.525161361065415,
    ofRat 10.60460290274525,
    ofRat 12.80182748008147,
    ofRat 15.104412573075518,
    ofRat 17.502307845873887,
    ofRat 19.98721449566189,
    ofRat 22.552163853123425,
    ofRat 25.191221182738683,
    ofRat 27.899271383840894,
    ofRat 30.671860106080675,
    ofRat 33.50507345013689,
    ofRat 36.39544520803305,
    ofRat 39.339884187199495,
    ofRat 42.335616460753485 ]

/-- `derived/factorial.rs:121-146` (`stirling_log_factorial_precise`).  The divided literals such
as `1.0 / 12.0` are exact rationals here. -/
def stirlingLogFactorialPrecise [FloatOps F] (k : ℕ) : F :=
  if k ≤ 1 then zero
  else
    let kf : F := FloatOps.ofNat k
    let twoPi : F := ofRat 2 *. pi
    let base := kf *. ln kf -. kf +. ofRat (1/2) *. ln (twoPi *. kf)
    let kInv := ofRat 1 /. kf
    let kInv2 := kInv *. kInv
    let kInv3 := kInv2 *. kInv
    let kInv5 := kInv3 *. kInv2
    let kInv7 := kInv5 *. kInv2
    let correction := kInv *. ofRat (1/12) -. kInv3 *. ofRat (1/360) +. kInv5 *. ofRat (1/1260)
      -. kInv7 *. ofRat (1/1680)
    base +. correction

/-- `derived/factorial.rs:103-111` (`log_factorial`).  `getD` is only reached in bounds. -/
def logFactorial [FloatOps F] (k : ℕ) : F :=
  if k ≤ 20 then (logFactorialTable (F := F)).getD k zero
  else stirlingLogFactorialPrecise k

/-- `derived/factorial.rs:11-33` -/
structure FactorialMeasure (F : Type) where
deriving Repr

/-- `derived/factorial.rs:35-50` -/
instance : Measure (FactorialMeasure F) ℕ where
  isPrimitive := false
  isExponentialFamily := false
  Root := CountingMeasure ℕ
  inSupport _ _ := true
  rootMeasure _ := {}

/-- `derived/factorial.rs:150-170` -/
instance [FloatOps F] : HasLogDensity (FactorialMeasure F) ℕ F where
  logDensityWrtRoot _ k := neg (logFactorial k)

/-! ### Coefficient measures -/

/-- `derived/binomial_coefficient.rs:61-80`.  Conversions to `f64` succeed for every `u64`, so the
fallback branch is unreachable and not modelled.  The code computes in `f64` and converts the result
to `F`; the model computes in `F`, which is the same for exact arithmetic and for `F = f64`. -/
def logBinomialCoefficient [FloatOps F] (n k : ℕ) : F :=
  if k > n then negInf
  else
    let nf : F := FloatOps.ofNat n
    let kf : F := FloatOps.ofNat k
    lnGamma (nf +. one) -. lnGamma (kf +. one) -. lnGamma (nf -. kf +. one)

/-- `derived/binomial_coefficient.rs:14-34` -/
structure BinomialCoefficientMeasure (F : Type) where
  n : ℕ
deriving Repr

/-- `derived/binomial_coefficient.rs:36-51` -/
instance : Measure (BinomialCoefficientMeasure F) ℕ where
  isPrimitive := false
  isExponentialFamily := false
  Root := CountingMeasure ℕ
  inSupport m x := decide (x ≤ m.n)
  rootMeasure _ := {}

/-- `derived/binomial_coefficient.rs:84-114` -/
instance [FloatOps F] : HasLogDensity (BinomialCoefficientMeasure F) ℕ F where
  logDensityWrtRoot m k := if k > m.n then negInf else logBinomialCoefficient m.n k

/-- `derived/negative_binomial_coefficient.rs:60-75`; computed in `F` instead of `f64` as above. -/
def logNegativeBinomialCoefficient [FloatOps F] (r x : ℕ) : F :=
  let rf : F := FloatOps.ofNat r
  let xf : F := FloatOps.ofNat x
  lnGamma (xf +. rf) -. lnGamma (xf +. one) -. lnGamma rf

/-- `derived/negative_binomial_coefficient.rs:14-34` -/
structure NegativeBinomialCoefficientMeasure (F : Type) where
  r : ℕ
deriving Repr

/-- `derived/negative_binomial_coefficient.rs:36-52` -/
instance : Measure (NegativeBinomialCoefficientMeasure F) ℕ where
  isPrimitive := false
  isExponentialFamily := false
  Root := CountingMeasure ℕ
  inSupport _ _ := true
  rootMeasure _ := {}

/-- `derived/negative_binomial_coefficient.rs:79-99` -/
instance [FloatOps F] : HasLogDensity (NegativeBinomialCoefficientMeasure F) ℕ F where
  logDensityWrtRoot m k := logNegativeBinomialCoefficient m.r k

/-! ### Dirac, weighted and integral measures -/

/-- `derived/dirac.rs:4-14` -/
structure Dirac (T : Type) where
  point : T

/-- `derived/dirac.rs:16-31`; `PartialEq` is the Boolean equality of the point type.
There is no `HasLogDensity` implementation in the code. -/
instance {T : Type} [BEq T] : Measure (Dirac T) T where
  isPrimitive := false
  isExponentialFamily := false
  Root := CountingMeasure T
  inSupport d x := x == d.point
  rootMeasure _ := {}

/-- `derived/weighted.rs:10-39` -/
structure WeightedMeasure (M F : Type) where
  baseMeasure : M
  logWeight : F

/-- `derived/weighted.rs:41-66` -/
instance {M T : Type} [i : Measure M T] : Measure (WeightedMeasure M F) T where
  isPrimitive := false
  isExponentialFamily := false
  Root := i.Root
  inSupport m x := Measure.inSupport m.baseMeasure x
  rootMeasure m := Measure.rootMeasure m.baseMeasure

/-- `derived/weighted.rs:69-79` -/
instance {M T : Type} [FloatOps F] [HasLogDensity M T F] : HasLogDensity (WeightedMeasure M F) T F where
  logDensityWrtRoot m x := m.logWeight +. logDensityWrtRoot m.baseMeasure x

/-- `derived/integral.rs:13-46` -/
structure IntegralMeasure (M T F : Type) where
  baseMeasure : M
  logDensityFn : T → F

/-- `derived/integral.rs:48-73` -/
instance {M T : Type} [i : Measure M T] : Measure (IntegralMeasure M T F) T where
  isPrimitive := false
  isExponentialFamily := false
  Root := i.Root
  inSupport m x := Measure.inSupport m.baseMeasure x
  rootMeasure m := Measure.rootMeasure m.baseMeasure

/-- `derived/integral.rs:76-87` -/
instance {M T : Type} [FloatOps F] [HasLogDensity M T F] :
    HasLogDensity (IntegralMeasure M T F) T F where
  logDensityWrtRoot m x := m.logDensityFn x +. logDensityWrtRoot m.baseMeasure x

end Verif
