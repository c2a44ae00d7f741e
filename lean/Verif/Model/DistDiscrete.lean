import Verif.Model.DistContinuous

/-!
# Model of `measures-distributions/src/distributions/discrete`

`u8` is `UInt8`; `u64` and `usize` are `ℕ` (the code only compares them and converts them to
floats); `T::from(n).unwrap()` is `ofNat n`.
-/

namespace Verif
open FloatOps

variable {F : Type}

/-! ### Bernoulli -/

/-- `discrete/bernoulli.rs:35-37` -/
structure Bernoulli (F : Type) where
  prob : F

namespace Bernoulli
variable [FloatOps F]
/-- `bernoulli.rs:39-45` -/
def default : Bernoulli F := ⟨ofRat (1/2)⟩
/-- `bernoulli.rs:54-60` -/
def new (prob : F) : Except Panic (Bernoulli F) :=
  if ge prob zero && (prob ≤. one) then .ok ⟨prob⟩ else .error ⟨"Probability must be in [0, 1]"⟩
/-- `bernoulli.rs:63-65` -/
def mean (d : Bernoulli F) : F := d.prob
/-- `bernoulli.rs:68-70` -/
def variance (d : Bernoulli F) : F := d.prob *. (one -. d.prob)
/-- `bernoulli.rs:73-75` -/
def logOdds (d : Bernoulli F) : F := ln (d.prob /. (one -. d.prob))
end Bernoulli

/-- `bernoulli.rs:47-50, 78-88` -/
instance : Measure (Bernoulli F) UInt8 where
  isPrimitive := false
  isExponentialFamily := true
  Root := CountingMeasure UInt8
  inSupport _ x := x == 0 || x == 1
  rootMeasure _ := {}

/-- `bernoulli.rs:91-123` -/
instance [FloatOps F] : ExponentialFamily (Bernoulli F) UInt8 F where
  Base := CountingMeasure UInt8
  baseHas := inferInstance
  fromNatural η := match η with
    | [eta] =>
      let expEta := exp eta
      Bernoulli.new (expEta /. (one +. expEta))
    | _ => .error ⟨"unreachable: the parameter is an array of length 1"⟩
  naturalAndLogPartition d := ([d.logOdds], ln (one +. exp d.logOdds))
  sufficientStatistic _ x := [FloatOps.ofNat x.toNat]
  baseMeasure _ := {}
instance : ArrayStat (Bernoulli F) := ⟨1⟩

/-- `bernoulli.rs:153-161` -/
instance [FloatOps F] : HasLogDensity (Bernoulli F) UInt8 F where
  logDensityWrtRoot d x :=
    if x = 0 then ln (one -. d.prob) else if x = 1 then ln d.prob else negInf

/-! ### Binomial -/

/-- `discrete/binomial.rs:37-40` -/
structure Binomial (F : Type) where
  n : ℕ
  prob : F

namespace Binomial
variable [FloatOps F]
/-- `binomial.rs:49-55` -/
def new (n : ℕ) (prob : F) : Except Panic (Binomial F) :=
  if ge prob zero && (prob ≤. one) then .ok ⟨n, prob⟩ else .error ⟨"Probability must be in [0, 1]"⟩
/-- `binomial.rs:58-60` -/
def mean (d : Binomial F) : F := FloatOps.ofNat d.n *. d.prob
/-- `binomial.rs:63-66` -/
def variance (d : Binomial F) : F := FloatOps.ofNat d.n *. d.prob *. (one -. d.prob)
/-- `binomial.rs:69-71` -/
def logOdds (d : Binomial F) : F := ln (d.prob /. (one -. d.prob))
end Binomial

/-- `binomial.rs:42-45, 74-84` -/
instance : Measure (Binomial F) ℕ where
  isPrimitive := false
  isExponentialFamily := true
  Root := CountingMeasure ℕ
  inSupport d x := decide (x ≤ d.n)
  rootMeasure _ := {}

/-- `binomial.rs:87-118` -/
instance [FloatOps F] : ExponentialFamily (Binomial F) ℕ F where
  Base := BinomialCoefficientMeasure F
  baseHas := inferInstance
  fromNatural _ :=
    .error ⟨"Cannot construct Binomial from natural parameter without knowing n"⟩
  naturalAndLogPartition d :=
    ([d.logOdds], FloatOps.ofNat d.n *. ln (one +. exp d.logOdds))
  sufficientStatistic _ x := [FloatOps.ofNat x]
  baseMeasure d := ⟨d.n⟩
instance : ArrayStat (Binomial F) := ⟨1⟩

/-- `binomial.rs:146-160` -/
instance [FloatOps F] : HasLogDensity (Binomial F) ℕ F where
  logDensityWrtRoot d x :=
    if x ≤ d.n then
      let k : F := FloatOps.ofNat x
      let n : F := FloatOps.ofNat d.n
      k *. ln d.prob +. (n -. k) *. ln (one -. d.prob)
    else negInf

/-! ### Categorical -/

/-- `discrete/categorical.rs:35-37` -/
structure Categorical (F : Type) where
  probs : List F

namespace Categorical
variable [FloatOps F]
/-- `categorical.rs:47-61` -/
def new (probs : List F) : Except Panic (Categorical F) :=
  if probs.isEmpty then .error ⟨"Must have at least one category"⟩
  else if !probs.all (fun p => ge p zero) then .error ⟨"All probabilities must be non-negative"⟩
  else if abs (sum probs -. one) <. ofRat (1/10^10) then .ok ⟨probs⟩
  else .error ⟨"Probabilities must sum to 1"⟩
/-- `categorical.rs:65-69` -/
def uniform (k : ℕ) : Except Panic (Categorical F) :=
  if k > 0 then new (List.replicate k (one /. FloatOps.ofNat k))
  else .error ⟨"Must have at least one category"⟩
/-- `categorical.rs:73-75` -/
def numCategories (d : Categorical F) : ℕ := d.probs.length
/-- `categorical.rs:79-85` -/
def mean (d : Categorical F) : F :=
  sum (d.probs.mapIdx (fun i p => FloatOps.ofNat i *. p))
/-- `categorical.rs:89-99` -/
def variance (d : Categorical F) : F :=
  let m := d.mean
  sum (d.probs.mapIdx (fun i p =>
    let diff := FloatOps.ofNat i -. m
    p *. diff *. diff))
/-- `categorical.rs:102-108`; the constructor guarantees a last element. -/
def logOdds (d : Categorical F) : List F :=
  let lastProb := d.probs.getLastD zero
  d.probs.dropLast.map (fun p => ln (p /. lastProb))
end Categorical

/-- `categorical.rs:39-42, 111-121` -/
instance : Measure (Categorical F) ℕ where
  isPrimitive := false
  isExponentialFamily := true
  Root := CountingMeasure ℕ
  inSupport d x := decide (x < d.probs.length)
  rootMeasure _ := {}

/-- `categorical.rs:132-152` (`from_natural`) -/
def Categorical.fromNaturalImpl [FloatOps F] (param : List F) : Except Panic (Categorical F) :=
  let expEtas := param.map exp
  let normalizer := one +. sum expEtas
  Categorical.new (expEtas.map (fun e => e /. normalizer) ++ [one /. normalizer])

/-- `categorical.rs:154-167`: `vec![0; k-1]` with entry `x` set to one when `x < k-1` -/
def Categorical.stat [FloatOps F] (d : Categorical F) (x : ℕ) : List F :=
  let k := d.probs.length
  let stats : List F := List.replicate (k - 1) zero
  if x < k - 1 then stats.set x one else stats

/-- `categorical.rs:173-183` -/
def Categorical.natural [FloatOps F] (d : Categorical F) : List F × F :=
  let η := d.logOdds
  (η, ln (one +. sum (η.map exp)))

/-- `categorical.rs:124-209`, including the override of `exp_fam_log_density` (186-208). -/
instance [FloatOps F] : ExponentialFamily (Categorical F) ℕ F where
  Base := CountingMeasure ℕ
  baseHas := inferInstance
  fromNatural := Categorical.fromNaturalImpl
  naturalAndLogPartition d := d.natural
  sufficientStatistic d x := d.stat x
  baseMeasure _ := {}
  expFamLogDensity d x :=
    if !(Measure.inSupport d x) then negInf
    else
      let np := d.natural
      let expFamPart := dot np.1 (d.stat x) -. np.2
      let chainRulePart : F := logDensityWrtRoot ({} : CountingMeasure ℕ) x
      expFamPart +. chainRulePart

/-- `categorical.rs:238-246` -/
instance [FloatOps F] : HasLogDensity (Categorical F) ℕ F where
  logDensityWrtRoot d x :=
    match d.probs[x]? with
    | some p => ln p
    | none => negInf

/-! ### Geometric -/

/-- `discrete/geometric.rs:36-38` -/
structure Geometric (F : Type) where
  prob : F

namespace Geometric
variable [FloatOps F]
/-- `geometric.rs:40-46` -/
def default : Geometric F := ⟨ofRat (1/2)⟩
/-- `geometric.rs:55-61` -/
def new (prob : F) : Except Panic (Geometric F) :=
  if gt prob zero && (prob ≤. one) then .ok ⟨prob⟩ else .error ⟨"Probability must be in (0, 1]"⟩
/-- `geometric.rs:64-66` -/
def mean (d : Geometric F) : F := recip d.prob
/-- `geometric.rs:69-72` -/
def variance (d : Geometric F) : F := (one -. d.prob) /. (d.prob *. d.prob)
/-- `geometric.rs:75-77` -/
def failureProb (d : Geometric F) : F := one -. d.prob
end Geometric

/-- `geometric.rs:48-51, 80-90` -/
instance : Measure (Geometric F) ℕ where
  isPrimitive := false
  isExponentialFamily := true
  Root := CountingMeasure ℕ
  inSupport _ x := decide (1 ≤ x)
  rootMeasure _ := {}

/-- `geometric.rs:93-125` -/
instance [FloatOps F] : ExponentialFamily (Geometric F) ℕ F where
  Base := CountingMeasure ℕ
  baseHas := inferInstance
  fromNatural η := match η with
    | [eta] => Geometric.new (one -. exp eta)
    | _ => .error ⟨"unreachable: the parameter is an array of length 1"⟩
  naturalAndLogPartition d := ([ln d.failureProb], neg (ln d.prob))
  sufficientStatistic _ x := [FloatOps.ofNat x]
  baseMeasure _ := {}
instance : ArrayStat (Geometric F) := ⟨1⟩

/-- `geometric.rs:153-164` -/
instance [FloatOps F] : HasLogDensity (Geometric F) ℕ F where
  logDensityWrtRoot d x :=
    if 1 ≤ x then
      let k : F := FloatOps.ofNat x
      (k -. one) *. ln (one -. d.prob) +. ln d.prob
    else negInf

/-! ### Negative binomial -/

/-- `discrete/negative_binomial.rs:39-42` -/
structure NegativeBinomial (F : Type) where
  r : ℕ
  prob : F

namespace NegativeBinomial
variable [FloatOps F]
/-- `negative_binomial.rs:51-58` -/
def new (r : ℕ) (prob : F) : Except Panic (NegativeBinomial F) :=
  if r > 0 then
    if gt prob zero && (prob <. one) then .ok ⟨r, prob⟩
    else .error ⟨"Probability must be in (0, 1)"⟩
  else .error ⟨"Number of failures must be positive"⟩
/-- `negative_binomial.rs:61-64` -/
def mean (d : NegativeBinomial F) : F := FloatOps.ofNat d.r *. d.prob /. (one -. d.prob)
/-- `negative_binomial.rs:67-71` -/
def variance (d : NegativeBinomial F) : F :=
  let q := one -. d.prob
  FloatOps.ofNat d.r *. d.prob /. (q *. q)
/-- `negative_binomial.rs:74-76` -/
def logOdds (d : NegativeBinomial F) : F := ln (d.prob /. (one -. d.prob))
end NegativeBinomial

/-- `negative_binomial.rs:44-47, 84-94` -/
instance : Measure (NegativeBinomial F) ℕ where
  isPrimitive := false
  isExponentialFamily := true
  Root := CountingMeasure ℕ
  inSupport _ _ := true
  rootMeasure _ := {}

/-- `negative_binomial.rs:97-131` -/
instance [FloatOps F] : ExponentialFamily (NegativeBinomial F) ℕ F where
  Base := NegativeBinomialCoefficientMeasure F
  baseHas := inferInstance
  fromNatural _ :=
    .error ⟨"Cannot construct NegativeBinomial from natural parameter without knowing r"⟩
  naturalAndLogPartition d :=
    let eta := d.logOdds
    let expEta := exp eta
    let sigmoidEta := expEta /. (one +. expEta)
    ([eta], neg (FloatOps.ofNat d.r) *. ln (one -. sigmoidEta))
  sufficientStatistic _ x := [FloatOps.ofNat x]
  baseMeasure d := ⟨d.r⟩
instance : ArrayStat (NegativeBinomial F) := ⟨1⟩

/-- `negative_binomial.rs:160-170` -/
instance [FloatOps F] : HasLogDensity (NegativeBinomial F) ℕ F where
  logDensityWrtRoot d x :=
    let k : F := FloatOps.ofNat x
    let r : F := FloatOps.ofNat d.r
    r *. ln d.prob +. k *. ln (one -. d.prob)

/-! ### Poisson -/

/-- `discrete/poisson.rs:23-25` -/
structure Poisson (F : Type) where
  rate : F

namespace Poisson
variable [FloatOps F]
/-- `poisson.rs:27-31` -/
def default : Poisson F := ⟨one⟩
/-- `poisson.rs:40-43` -/
def new (rate : F) : Except Panic (Poisson F) :=
  if gt rate zero then .ok ⟨rate⟩ else .error ⟨"Rate parameter must be positive"⟩
end Poisson

/-- `poisson.rs:33-36, 46-56` -/
instance : Measure (Poisson F) ℕ where
  isPrimitive := false
  isExponentialFamily := true
  Root := CountingMeasure ℕ
  inSupport _ _ := true
  rootMeasure _ := {}

/-- `poisson.rs:59-86` -/
instance [FloatOps F] : ExponentialFamily (Poisson F) ℕ F where
  Base := FactorialMeasure F
  baseHas := inferInstance
  fromNatural η := match η with
    | [eta] => Poisson.new (exp eta)
    | _ => .error ⟨"unreachable: the parameter is an array of length 1"⟩
  naturalAndLogPartition d := ([ln d.rate], d.rate)
  sufficientStatistic _ x := [FloatOps.ofNat x]
  baseMeasure _ := {}
instance : ArrayStat (Poisson F) := ⟨1⟩

/-- `poisson.rs:89-98`: the range `1..=x` is `List.range' 1 x`. -/
instance [FloatOps F] : HasLogDensity (Poisson F) ℕ F where
  logDensityWrtRoot d x :=
    let kf : F := FloatOps.ofNat x
    let logFact : F := (List.range' 1 x).foldl (fun acc i => acc +. ln (FloatOps.ofNat i)) zero
    kf *. ln d.rate -. d.rate -. logFact

end Verif
