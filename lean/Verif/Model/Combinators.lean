import Verif.Model.Core

/-!
# Model of `measures-combinators/src/measures/combinators`
-/

namespace Verif
open FloatOps

variable {F : Type}

/-! ### Product -/

/-- `combinators/product.rs:18-28`; `product` 70-76 and the macro 83-93 only build this, nesting to
the right. -/
structure ProductMeasure (M1 M2 : Type) where
  measure1 : M1
  measure2 : M2

/-- `combinators/product.rs:30-51` -/
instance {M1 M2 X1 X2 : Type} [i1 : Measure M1 X1] [i2 : Measure M2 X2] :
    Measure (ProductMeasure M1 M2) (X1 × X2) where
  isPrimitive := false
  isExponentialFamily := false
  Root := ProductMeasure i1.Root i2.Root
  inSupport m x := Measure.inSupport m.measure1 x.1 && Measure.inSupport m.measure2 x.2
  rootMeasure m := ⟨Measure.rootMeasure m.measure1, Measure.rootMeasure m.measure2⟩

/-- `combinators/product.rs:53-65` -/
instance {M1 M2 X1 X2 : Type} [FloatOps F] [HasLogDensity M1 X1 F] [HasLogDensity M2 X2 F] :
    HasLogDensity (ProductMeasure M1 M2) (X1 × X2) F where
  logDensityWrtRoot m x := logDensityWrtRoot m.measure1 x.1 +. logDensityWrtRoot m.measure2 x.2

/-! ### Mixture -/

/-- `combinators/superposition.rs:18-27` -/
structure MixtureMeasure (M F : Type) where
  components : List M
  weights : List F

/-- `combinators/superposition.rs:138-142`: the running maximum inside `log_sum_exp` -/
def runningMax [FloatOps F] (vals : List F) : F :=
  vals.foldl (fun acc x => if gt x acc then x else acc) negInf

/-- `combinators/superposition.rs:132-155` (`log_sum_exp`) -/
def logSumExp [FloatOps F] (vals : List F) : F :=
  if vals.isEmpty then negInf
  else
    let maxVal := runningMax vals
    if isInf maxVal && (maxVal <. zero) then negInf
    else
      let sumExp := (vals.map (fun x => exp (x -. maxVal))).foldl FloatOps.add zero
      maxVal +. ln sumExp

namespace MixtureMeasure
variable {M : Type} [FloatOps F]

/-- `combinators/superposition.rs:39-56` -/
def new (components : List M) (weights : List F) : Except Panic (MixtureMeasure M F) :=
  if components.length ≠ weights.length then
    .error ⟨"Components and weights must have same length"⟩
  else if abs (sum weights -. one) <. ofRat (1/10^10) then .ok ⟨components, weights⟩
  else .error ⟨"Weights must sum to 1"⟩

/-- `combinators/superposition.rs:60-65` -/
def uniform (components : List M) : Except Panic (MixtureMeasure M F) :=
  let n := components.length
  let weight : F := one /. FloatOps.ofNat n
  new components (List.replicate n weight)

/-- `combinators/superposition.rs:69-71` -/
def numComponents (m : MixtureMeasure M F) : ℕ := m.components.length

/-- `combinators/superposition.rs:160-169` (`MixtureExt::mixture`) -/
def mixture (a b : M) (w1 w2 : F) : Except Panic (MixtureMeasure M F) :=
  let total := w1 +. w2
  new [a, b] [w1 /. total, w2 /. total]

/-- `combinators/superposition.rs:172-174` -/
def uniformMixture (a b : M) : Except Panic (MixtureMeasure M F) := uniform [a, b]

/-- `combinators/superposition.rs:87-93` -/
def inSupport {T : Type} [Measure M T] (m : MixtureMeasure M F) (x : T) : Bool :=
  (m.components.zip m.weights).any (fun p => gt p.2 zero && Measure.inSupport p.1 x)

/-- `combinators/superposition.rs:95-98`: indexing an empty vector panics. -/
def rootMeasure {T : Type} [i : Measure M T] (m : MixtureMeasure M F) : Except Panic i.Root :=
  match m.components with
  | [] => .error ⟨"index out of bounds"⟩
  | c :: _ => .ok (Measure.rootMeasure c)

/-- `combinators/superposition.rs:107-128` -/
def logDensity {T : Type} [HasLogDensity M T F] (m : MixtureMeasure M F) (x : T) : F :=
  if m.components.isEmpty then negInf
  else logSumExp ((m.components.zip m.weights).map
    (fun p => ln p.2 +. logDensityWrtRoot p.1 x))
end MixtureMeasure

/-- `combinators/superposition.rs:101-129` as a trait implementation -/
instance {M T : Type} [FloatOps F] [HasLogDensity M T F] : HasLogDensity (MixtureMeasure M F) T F where
  logDensityWrtRoot m x := m.logDensity x

/-! ### Pushforward -/

/-- `combinators/pushforward.rs:19-46` -/
structure PushforwardMeasure (M F : Type) where
  baseMeasure : M
  forward : F → F
  inverse : F → F
  logAbsDetJacobian : F → F

/-- `combinators/pushforward.rs:48-73` -/
instance {M : Type} [Measure M F] : Measure (PushforwardMeasure M F) F where
  isPrimitive := false
  isExponentialFamily := false
  Root := LebesgueMeasure F
  inSupport m y := Measure.inSupport m.baseMeasure (m.inverse y)
  rootMeasure _ := {}

/-- `combinators/pushforward.rs:75-91` -/
instance {M : Type} [FloatOps F] [HasLogDensity M F F] : HasLogDensity (PushforwardMeasure M F) F F where
  logDensityWrtRoot m y :=
    let x := m.inverse y
    logDensityWrtRoot m.baseMeasure x +. m.logAbsDetJacobian y

/-- The triples returned by `transforms::*` -/
structure Transform (F : Type) where
  forward : F → F
  inverse : F → F
  logAbsDetJacobian : F → F

namespace Transform
variable [FloatOps F]
/-- `combinators/pushforward.rs:119-129` -/
def logT : Transform F := ⟨fun x => ln x, fun y => exp y, fun y => y⟩
/-- `combinators/pushforward.rs:132-142` -/
def expT : Transform F := ⟨fun x => exp x, fun y => ln y, fun y => neg (ln y)⟩
/-- `combinators/pushforward.rs:145-158` -/
def linearT (a b : F) : Transform F :=
  ⟨fun x => a *. x +. b, fun y => (y -. b) /. a, fun _ => neg (ln (abs a))⟩
/-- `combinators/pushforward.rs:161-179` -/
def logitT : Transform F :=
  ⟨fun x => ln (x /. (one -. x)),
   fun y =>
    let e := exp y
    e /. (one +. e),
   fun y =>
    let e := exp (neg y)
    neg y -. ln (one +. e) -. ln (one +. e)⟩
end Transform

/-- `combinators/pushforward.rs:96-109` (`PushforwardExt::pushforward`) -/
def pushforward {M : Type} (m : M) (t : Transform F) : PushforwardMeasure M F :=
  ⟨m, t.forward, t.inverse, t.logAbsDetJacobian⟩

/-! ### Differentiable transforms (`autodiff` feature) -/

/-- `combinators/transform.rs:30-41`; the conversion through `f32` is dropped.  `input_dim` and
`output_dim` (80-86) are projections. -/
structure LinearTransform (F : Type) where
  matrix : List F
  offset : List F
  inputDim : ℕ
  outputDim : ℕ
  logAbsDet : F

namespace LinearTransform
variable [FloatOps F]
/-- `combinators/transform.rs:47-58` -/
def new (matrix offset : List F) (inputDim outputDim : ℕ) : Except Panic (LinearTransform F) :=
  if matrix.length ≠ inputDim * outputDim then .error ⟨"assertion failed: matrix length"⟩
  else if offset.length ≠ outputDim then .error ⟨"assertion failed: offset length"⟩
  else .ok ⟨matrix, offset, inputDim, outputDim, one⟩

/-- `combinators/transform.rs:63-78`; indexing is in bounds for values built by `new`. -/
def transform (t : LinearTransform F) (input : List F) : Except Panic (List F) :=
  if input.length ≠ t.inputDim then .error ⟨"assertion failed: input length"⟩
  else .ok ((List.range t.outputDim).map (fun i =>
    (List.range t.inputDim).foldl
      (fun sum j => sum +. t.matrix.getD (i * t.inputDim + j) zero *. input.getD j zero)
      (t.offset.getD i zero)))

/-- `combinators/transform.rs:88-91` -/
def logAbsDetJacobian (t : LinearTransform F) (_ : F) : F := ln (abs t.logAbsDet)
end LinearTransform

/-- `combinators/transform.rs:96-117`; `input_dim` and `output_dim` (129-135) both return `dim`. -/
structure ComponentwiseTransform (F : Type) where
  transformFn : F → F
  dim : ℕ

namespace ComponentwiseTransform
variable [FloatOps F]
/-- `combinators/transform.rs:124-127` -/
def transform (t : ComponentwiseTransform F) (input : List F) : Except Panic (List F) :=
  if input.length ≠ t.dim then .error ⟨"assertion failed: input length"⟩
  else .ok (input.map t.transformFn)
/-- `combinators/transform.rs:137-141` -/
def logAbsDetJacobian (_ : ComponentwiseTransform F) (_ : F) : F := ofRat 0
end ComponentwiseTransform

end Verif
