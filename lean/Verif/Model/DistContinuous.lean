import Verif.Model.ExpFam

/-!
# Model of `measures-distributions/src/distributions/continuous`

`T: Float` is `F`; `float_constant::<T>(c)` and `T::from(c).unwrap()` are `ofRat c`; the conversions
`to_f64().unwrap()` / `T::from(f64)` around `ln_gamma` are the identity (see DESIGN, "numbers").
-/

namespace Verif
open FloatOps

variable {F : Type}

/-- `num_traits::Float::recip` -/
def recip [FloatOps F] (x : F) : F := one /. x

/-! ### Normal -/

/-- `continuous/normal.rs:42-47` -/
structure Normal (F : Type) where
  mean : F
  stdDev : F

namespace Normal
variable [FloatOps F]
/-- `normal.rs:52-59` (`Default`) -/
def default : Normal F := ⟨zero, one⟩
/-- `normal.rs:68-71` -/
def new (mean stdDev : F) : Except Panic (Normal F) :=
  if gt stdDev zero then .ok ⟨mean, stdDev⟩ else .error ⟨"Standard deviation must be positive"⟩
/-- `normal.rs:74-76` -/
def variance (d : Normal F) : F := d.stdDev *. d.stdDev
/-- `normal.rs:79-81` -/
def params (d : Normal F) : F × F := (d.mean, d.stdDev)
/-- `normal.rs:111-133` -/
def decomposition (_ : Normal F) : Decomposition F (F × F) F :=
  let twoPi : F := ofRat 2 *. pi
  Decomposition.new
    |>.addConstant (neg (ofRat (1/2)) *. ln twoPi)
    |>.addParamTerm (fun p => neg (ln p.2))
    |>.addMixedTerm (fun x p =>
        let z := (x -. p.1) /. p.2
        neg (ofRat (1/2)) *. z *. z)
/-- `normal.rs:86-92` -/
def logDensityIid (d : Normal F) (samples : List F) : F :=
  d.decomposition.evaluateIid samples d.params
end Normal

/-- `normal.rs:61-64, 95-105` -/
instance : Measure (Normal F) F where
  isPrimitive := false
  isExponentialFamily := true
  Root := LebesgueMeasure F
  inSupport _ _ := true
  rootMeasure _ := {}

/-- `normal.rs:136-175` -/
instance [FloatOps F] : ExponentialFamily (Normal F) F F where
  Base := LebesgueMeasure F
  baseHas := inferInstance
  fromNatural η := match η with
    | [eta1, eta2] =>
      let sigma2 := neg (recip (ofRat 2 *. eta2))
      let mu := eta1 *. sigma2
      Normal.new mu (sqrt sigma2)
    | _ => .error ⟨"unreachable: the parameter is an array of length 2"⟩
  naturalAndLogPartition d :=
    let sigma2 := d.variance
    let mu2 := d.mean *. d.mean
    let inv := recip sigma2
    ([d.mean *. inv, ofRat (-1/2) *. inv],
      ln (ofRat 2 *. pi *. sigma2) *. ofRat (1/2) +. ofRat (1/2) *. mu2 *. inv)
  sufficientStatistic _ x := [x, x *. x]
  baseMeasure _ := {}
instance : ArrayStat (Normal F) := ⟨2⟩

/-- `normal.rs:178-187` -/
instance [FloatOps F] : HasLogDensity (Normal F) F F where
  logDensityWrtRoot d x :=
    let twoPi : F := ofRat 2 *. pi
    let z := (x -. d.mean) /. d.stdDev
    neg (ofRat (1/2)) *. ln twoPi -. ln d.stdDev -. ofRat (1/2) *. z *. z

/-! ### Standard normal -/

/-- `continuous/stdnormal.rs:23-46` -/
structure StdNormal (F : Type) where
deriving Repr

/-- `stdnormal.rs:33-36, 48-58` -/
instance : Measure (StdNormal F) F where
  isPrimitive := false
  isExponentialFamily := true
  Root := LebesgueMeasure F
  inSupport _ _ := true
  rootMeasure _ := {}

/-- `stdnormal.rs:61-93`.  There is no `HasLogDensity` implementation. -/
instance [FloatOps F] : ExponentialFamily (StdNormal F) F F where
  Base := LebesgueMeasure F
  baseHas := inferInstance
  fromNatural _ := .ok {}
  naturalAndLogPartition _ :=
    ([zero, ofRat (-1/2)], ln (ofRat 2 *. pi) *. ofRat (1/2))
  sufficientStatistic _ x := [x, x *. x]
  baseMeasure _ := {}
instance : ArrayStat (StdNormal F) := ⟨2⟩

/-! ### Exponential -/

/-- `continuous/exponential.rs:31-34` -/
structure Exponential (F : Type) where
  rate : F

namespace Exponential
variable [FloatOps F]
/-- `exponential.rs:36-40` -/
def default : Exponential F := ⟨one⟩
/-- `exponential.rs:49-52` -/
def new (rate : F) : Except Panic (Exponential F) :=
  if gt rate zero then .ok ⟨rate⟩ else .error ⟨"Rate parameter must be positive"⟩
/-- `exponential.rs:55-57` -/
def mean (d : Exponential F) : F := recip d.rate
/-- `exponential.rs:60-63` -/
def variance (d : Exponential F) : F :=
  let inv := recip d.rate
  inv *. inv
end Exponential

/-- `exponential.rs:42-45, 66-76` -/
instance [FloatOps F] : Measure (Exponential F) F where
  isPrimitive := false
  isExponentialFamily := true
  Root := LebesgueMeasure F
  inSupport _ x := ge x zero
  rootMeasure _ := {}

/-- `exponential.rs:79-106` -/
instance [FloatOps F] : ExponentialFamily (Exponential F) F F where
  Base := LebesgueMeasure F
  baseHas := inferInstance
  fromNatural η := match η with
    | [eta] => Exponential.new (neg eta)
    | _ => .error ⟨"unreachable: the parameter is an array of length 1"⟩
  naturalAndLogPartition d := ([neg d.rate], ln d.rate)
  sufficientStatistic _ x := [x]
  baseMeasure _ := {}
instance : ArrayStat (Exponential F) := ⟨1⟩

/-- `exponential.rs:109-120` -/
instance [FloatOps F] : HasLogDensity (Exponential F) F F where
  logDensityWrtRoot d x := if ge x zero then ln d.rate -. d.rate *. x else negInf

/-! ### Gamma -/

/-- `continuous/gamma.rs:35-38` -/
structure Gamma (F : Type) where
  shape : F
  rate : F

namespace Gamma
variable [FloatOps F]
/-- `gamma.rs:40-47` -/
def default : Gamma F := ⟨one, one⟩
/-- `gamma.rs:56-60` -/
def new (shape rate : F) : Except Panic (Gamma F) :=
  if gt shape zero then
    if gt rate zero then .ok ⟨shape, rate⟩ else .error ⟨"Rate parameter must be positive"⟩
  else .error ⟨"Shape parameter must be positive"⟩
/-- `gamma.rs:63-65` -/
def fromShapeScale (shape scale : F) : Except Panic (Gamma F) := new shape (recip scale)
/-- `gamma.rs:68-70` -/
def scale (d : Gamma F) : F := recip d.rate
/-- `gamma.rs:73-75` -/
def mean (d : Gamma F) : F := d.shape /. d.rate
/-- `gamma.rs:78-80` -/
def variance (d : Gamma F) : F := d.shape /. (d.rate *. d.rate)
end Gamma

/-- `gamma.rs:49-52, 83-93` -/
instance [FloatOps F] : Measure (Gamma F) F where
  isPrimitive := false
  isExponentialFamily := true
  Root := LebesgueMeasure F
  inSupport _ x := gt x zero
  rootMeasure _ := {}

/-- `gamma.rs:96-127`; `gamma_ln` (132-142) is `lnGamma`. -/
instance [FloatOps F] : ExponentialFamily (Gamma F) F F where
  Base := LebesgueMeasure F
  baseHas := inferInstance
  fromNatural η := match η with
    | [eta1, eta2] => Gamma.new (eta1 +. one) (neg eta2)
    | _ => .error ⟨"unreachable: the parameter is an array of length 2"⟩
  naturalAndLogPartition d :=
    ([d.shape -. one, neg d.rate], lnGamma d.shape -. d.shape *. ln d.rate)
  sufficientStatistic _ x := [ln x, x]
  baseMeasure _ := {}
instance : ArrayStat (Gamma F) := ⟨2⟩

/-- `gamma.rs:169-183` -/
instance [FloatOps F] : HasLogDensity (Gamma F) F F where
  logDensityWrtRoot d x :=
    if gt x zero then
      d.shape *. ln d.rate -. lnGamma d.shape +. (d.shape -. one) *. ln x -. d.rate *. x
    else negInf

/-! ### Beta -/

/-- `continuous/beta.rs:35-38` -/
structure Beta (F : Type) where
  alpha : F
  beta : F

namespace Beta
variable [FloatOps F]
/-- `beta.rs:40-47` -/
def default : Beta F := ⟨one, one⟩
/-- `beta.rs:56-60` -/
def new (alpha beta : F) : Except Panic (Beta F) :=
  if gt alpha zero then
    if gt beta zero then .ok ⟨alpha, beta⟩ else .error ⟨"Beta parameter must be positive"⟩
  else .error ⟨"Alpha parameter must be positive"⟩
/-- `beta.rs:63-65` -/
def mean (d : Beta F) : F := d.alpha /. (d.alpha +. d.beta)
/-- `beta.rs:68-73` -/
def variance (d : Beta F) : F :=
  let s := d.alpha +. d.beta
  let numerator := d.alpha *. d.beta
  let denominator := s *. s *. (s +. one)
  numerator /. denominator
end Beta

/-- `beta.rs:49-52, 76-86` -/
instance [FloatOps F] : Measure (Beta F) F where
  isPrimitive := false
  isExponentialFamily := true
  Root := LebesgueMeasure F
  inSupport _ x := gt x zero && (x <. one)
  rootMeasure _ := {}

/-- `beta.rs:89-128`.  The log-partition is computed in `f64` and converted to `F`; the model computes it
in `F`, which is the same for exact arithmetic and for `F = f64`. -/
instance [FloatOps F] : ExponentialFamily (Beta F) F F where
  Base := LebesgueMeasure F
  baseHas := inferInstance
  fromNatural η := match η with
    | [eta1, eta2] => Beta.new (eta1 +. one) (eta2 +. one)
    | _ => .error ⟨"unreachable: the parameter is an array of length 2"⟩
  naturalAndLogPartition d :=
    ([d.alpha -. one, d.beta -. one],
      lnGamma d.alpha +. lnGamma d.beta -. lnGamma (d.alpha +. d.beta))
  sufficientStatistic _ x := [ln x, ln (one -. x)]
  baseMeasure _ := {}
instance : ArrayStat (Beta F) := ⟨2⟩

/-- `beta.rs:131-147`; `beta_ln` (150-158) is `lnGamma`. -/
instance [FloatOps F] : HasLogDensity (Beta F) F F where
  logDensityWrtRoot d x :=
    if gt x zero && (x <. one) then
      lnGamma (d.alpha +. d.beta) -. lnGamma d.alpha -. lnGamma d.beta
        +. (d.alpha -. one) *. ln x
        +. (d.beta -. one) *. ln (one -. x)
    else negInf

/-! ### Chi-squared -/

/-- `continuous/chi_squared.rs:37-39` -/
structure ChiSquared (F : Type) where
  degreesOfFreedom : F

namespace ChiSquared
variable [FloatOps F]
/-- `chi_squared.rs:41-47` -/
def default : ChiSquared F := ⟨one⟩
/-- `chi_squared.rs:56-62` -/
def new (k : F) : Except Panic (ChiSquared F) :=
  if gt k zero then .ok ⟨k⟩ else .error ⟨"Degrees of freedom must be positive"⟩
/-- `chi_squared.rs:65-67` -/
def shape (d : ChiSquared F) : F := d.degreesOfFreedom /. ofRat 2
/-- `chi_squared.rs:70-72` -/
def rate (_ : ChiSquared F) : F := ofRat (1/2)
/-- `chi_squared.rs:75-77` -/
def mean (d : ChiSquared F) : F := d.degreesOfFreedom
/-- `chi_squared.rs:80-82` -/
def variance (d : ChiSquared F) : F := ofRat 2 *. d.degreesOfFreedom
end ChiSquared

/-- `chi_squared.rs:49-52, 85-95` -/
instance [FloatOps F] : Measure (ChiSquared F) F where
  isPrimitive := false
  isExponentialFamily := true
  Root := LebesgueMeasure F
  inSupport _ x := gt x zero
  rootMeasure _ := {}

/-- `chi_squared.rs:98-133`; `gamma_ln` (136-144) is `lnGamma`. -/
instance [FloatOps F] : ExponentialFamily (ChiSquared F) F F where
  Base := LebesgueMeasure F
  baseHas := inferInstance
  fromNatural η := match η with
    | [eta1, _] => ChiSquared.new (ofRat 2 *. (eta1 +. one))
    | _ => .error ⟨"unreachable: the parameter is an array of length 2"⟩
  naturalAndLogPartition d :=
    ([d.shape -. one, neg d.rate], lnGamma d.shape +. d.shape *. ln (ofRat 2))
  sufficientStatistic _ x := [ln x, x]
  baseMeasure _ := {}
instance : ArrayStat (ChiSquared F) := ⟨2⟩

/-- `chi_squared.rs:173-190`; `chi_squared_ln_gamma` (193-201) is `lnGamma`. -/
instance [FloatOps F] : HasLogDensity (ChiSquared F) F F where
  logDensityWrtRoot d x :=
    if gt x zero then
      let k := d.degreesOfFreedom
      let halfK := k /. (one +. one)
      let two : F := one +. one
      neg halfK *. ln two -. lnGamma halfK +. (halfK -. one) *. ln x -. x /. two
    else negInf

/-! ### Cauchy -/

/-- `continuous/cauchy.rs:39-42` -/
structure Cauchy (F : Type) where
  location : F
  scale : F

namespace Cauchy
variable [FloatOps F]
/-- `cauchy.rs:56-59` -/
def new (location scale : F) : Except Panic (Cauchy F) :=
  if gt scale zero then .ok ⟨location, scale⟩ else .error ⟨"Scale parameter must be positive"⟩
/-- `cauchy.rs:63-68`, and `Default` 167-171 -/
def standard : Except Panic (Cauchy F) := new (ofRat 0) (ofRat 1)
/-- `cauchy.rs:81-83` -/
def params (d : Cauchy F) : F × F := (d.location, d.scale)
/-- `cauchy.rs:88-96` -/
def logPdf (d : Cauchy F) (x : F) : F :=
  let z := (x -. d.location) /. d.scale
  neg (ln pi) -. ln d.scale -. ln (one +. z *. z)
/-- `cauchy.rs:141-165` -/
def decomposition (_ : Cauchy F) : Decomposition F (F × F) F :=
  Decomposition.new
    |>.addConstant (neg (ln pi))
    |>.addParamTerm (fun p => neg (ln p.2))
    |>.addMixedTerm (fun x p =>
        let z := (x -. p.1) /. p.2
        neg (ln (one +. z *. z)))
/-- `cauchy.rs:101-107` -/
def logDensityIid (d : Cauchy F) (samples : List F) : F :=
  d.decomposition.evaluateIid samples d.params
end Cauchy

/-- `cauchy.rs:110-125` -/
instance : Measure (Cauchy F) F where
  isPrimitive := false
  isExponentialFamily := false
  Root := LebesgueMeasure F
  inSupport _ _ := true
  rootMeasure _ := {}

/-- `cauchy.rs:130-136` -/
instance [FloatOps F] : HasLogDensity (Cauchy F) F F where
  logDensityWrtRoot d x :=
    let z := (x -. d.location) /. d.scale
    neg (ln (one +. z *. z)) -. ln d.scale -. ln pi

/-! ### Student's t -/

/-- `continuous/student_t.rs:39-41` -/
structure StudentT (F : Type) where
  nu : F

/-- `f64::midpoint(a, b)`. Used only with `b = 1` and `a > 0` (student_t.rs), where `a + 1` does not
overflow and halving it is exact, so the two agree. -/
def midpoint [FloatOps F] (a b : F) : F := (a +. b) /. ofRat 2

namespace StudentT
variable [FloatOps F]
/-- `student_t.rs:54-57` -/
def new (nu : F) : Except Panic (StudentT F) :=
  if gt nu zero then .ok ⟨nu⟩ else .error ⟨"Degrees of freedom must be positive"⟩
/-- `student_t.rs:163-167` (`Default`) -/
def default : Except Panic (StudentT F) := new (ofRat 1)
/-- `student_t.rs:65-67` -/
def params (d : StudentT F) : F := d.nu
/-- `student_t.rs:70-89` -/
def logPdf (d : StudentT F) (x : F) : F :=
  let nu := d.nu
  let logNormalization := lnGamma (midpoint nu one) -. lnGamma (nu /. ofRat 2)
    -. ofRat (1/2) *. ln (nu *. pi)
  let logKernel := neg (midpoint nu one) *. ln (one +. x *. x /. nu)
  logNormalization +. logKernel
/-- `student_t.rs:130-161` -/
def decomposition (_ : StudentT F) : Decomposition F F F :=
  Decomposition.new
    |>.addParamTerm (fun nu => lnGamma (midpoint nu one) -. lnGamma (nu /. ofRat 2)
        -. ofRat (1/2) *. ln (nu *. pi))
    |>.addMixedTerm (fun x nu => neg (midpoint nu one) *. ln (one +. x *. x /. nu))
/-- `student_t.rs:94-100` -/
def logDensityIid (d : StudentT F) (samples : List F) : F :=
  d.decomposition.evaluateIid samples d.params
end StudentT

/-- `student_t.rs:103-118` -/
instance : Measure (StudentT F) F where
  isPrimitive := false
  isExponentialFamily := false
  Root := LebesgueMeasure F
  inSupport _ _ := true
  rootMeasure _ := {}

/-- `student_t.rs:121-125` -/
instance [FloatOps F] : HasLogDensity (StudentT F) F F where
  logDensityWrtRoot d x := d.logPdf x

end Verif
