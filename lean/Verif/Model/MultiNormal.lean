import Verif.Model.ExpFam

/-!
# Model of `measures-distributions/src/distributions/multivariate/multinormal.rs`

The module is present in the source tree but commented out of the build
(`multivariate/mod.rs:6`); it is written against an earlier form of the `ExponentialFamily` trait
(`to_natural` and `log_partition` separately, and a type variable `T` standing for `DVector<F>`).
It is modelled as it reads.  Vectors and matrices of nalgebra are tables with run-time sizes; the
operations check the sizes and panic as nalgebra does.  `try_inverse` and `determinant` are external:
they are the parameter `LinAlg`.  Sums are taken in one fixed order.
-/

namespace Verif
open FloatOps

/-- nalgebra's `DVector<F>` -/
structure DVector (F : Type) where
  len : ℕ
  entry : Fin len → F

/-- nalgebra's `DMatrix<F>` -/
structure DMatrix (F : Type) where
  nrows : ℕ
  ncols : ℕ
  entry : Fin nrows → Fin ncols → F

/-- nalgebra's `try_inverse` and `determinant` on square matrices -/
structure LinAlg (F : Type) where
  tryInverse : (n : ℕ) → (Fin n → Fin n → F) → Option (Fin n → Fin n → F)
  determinant : (n : ℕ) → (Fin n → Fin n → F) → F

variable {F : Type} [FloatOps F]

/-- nalgebra `a.dot(&b)` (panics on different lengths); `multinormal.rs:159, 204` -/
def DVector.dot (a b : DVector F) : Except Panic F :=
  if h : a.len = b.len then
    .ok (sum ((List.finRange a.len).map fun i => a.entry i *. b.entry (Fin.cast h i)))
  else .error ⟨"Dot product dimensions mismatch"⟩

/-- nalgebra `&m * &v` (panics on different sizes); `multinormal.rs:139, 146, 159` -/
def DMatrix.mulVec (m : DMatrix F) (v : DVector F) : Except Panic (DVector F) :=
  if h : m.ncols = v.len then
    .ok ⟨m.nrows, fun i =>
      sum ((List.finRange m.ncols).map fun j => m.entry i j *. v.entry (Fin.cast h j))⟩
  else .error ⟨"Gemv: dimensions mismatch"⟩

/-- nalgebra `m.map(f)`; `multinormal.rs:131, 150` -/
def DMatrix.map (f : F → F) (m : DMatrix F) : DMatrix F := ⟨m.nrows, m.ncols, fun i j => f (m.entry i j)⟩

/-- nalgebra `x * x.transpose()`; `multinormal.rs:180` -/
def DVector.outer (x : DVector F) : DMatrix F := ⟨x.len, x.len, fun i j => x.entry i *. x.entry j⟩

/-- nalgebra `a.component_mul(b).sum()` (panics on different sizes); column-major order;
`multinormal.rs:208` -/
def DMatrix.frobenius (a b : DMatrix F) : Except Panic F :=
  if h : a.nrows = b.nrows ∧ a.ncols = b.ncols then
    .ok (sum ((List.finRange a.ncols).flatMap fun j =>
      (List.finRange a.nrows).map fun i => a.entry i j *. b.entry (Fin.cast h.1 i) (Fin.cast h.2 j)))
  else .error ⟨"Componentwise mul/div: mismatched matrix dimensions."⟩

/-- nalgebra `m.try_inverse()` (panics if `m` is not square); `multinormal.rs:62, 134` -/
def DMatrix.tryInverse (la : LinAlg F) (m : DMatrix F) : Except Panic (Option (DMatrix F)) :=
  if h : m.nrows = m.ncols then
    .ok ((la.tryInverse m.nrows fun i j => m.entry i (Fin.cast h j)).map fun e => ⟨m.nrows, m.nrows, e⟩)
  else .error ⟨"Unable to invert a non-square matrix."⟩

/-- nalgebra `m.determinant()` (panics if `m` is not square); `multinormal.rs:67` -/
def DMatrix.determinant (la : LinAlg F) (m : DMatrix F) : Except Panic F :=
  if h : m.nrows = m.ncols then .ok (la.determinant m.nrows fun i j => m.entry i (Fin.cast h j))
  else .error ⟨"Unable to compute the determinant of a non-square matrix."⟩

/-- `multinormal.rs:18-33` -/
structure MultivariateNormal (F : Type) where
  mean : DVector F
  covariance : DMatrix F
  precision : DMatrix F
  detCovariance : F
  dim : ℕ

namespace MultivariateNormal

/-- `multinormal.rs:48-77` -/
def new (la : LinAlg F) (mean : DVector F) (covariance : DMatrix F) :
    Except Panic (MultivariateNormal F) := do
  if covariance.nrows ≠ covariance.ncols then
    throw ⟨"Covariance must be square"⟩
  if mean.len ≠ covariance.nrows then
    throw ⟨"Mean and covariance dimensions must match"⟩
  match ← covariance.tryInverse la with
  | none => throw ⟨"Covariance matrix is not invertible"⟩
  | some precision =>
    let det ← covariance.determinant la
    return { mean, covariance, precision, detCovariance := det, dim := mean.len }

/-- `multinormal.rs:85-89` -/
def standard (la : LinAlg F) (dim : ℕ) : Except Panic (MultivariateNormal F) :=
  new la ⟨dim, fun _ => zero⟩ ⟨dim, dim, fun i j => if i = j then one else zero⟩

/-- `multinormal.rs:107-109` -/
def inSupport (_ : MultivariateNormal F) (_ : DVector F) : Bool := true

/-- `multinormal.rs:125-142` -/
def fromNatural (la : LinAlg F) (eta1 : DVector F) (eta2 : DMatrix F) :
    Except Panic (MultivariateNormal F) := do
  let precisionMatrix := eta2.map fun x => ofRat (-2) *. x
  match ← precisionMatrix.tryInverse la with
  | none => throw ⟨"Precision matrix is not invertible"⟩
  | some covarianceMatrix =>
    let meanVector ← covarianceMatrix.mulVec eta1
    new la meanVector covarianceMatrix

/-- `multinormal.rs:144-153` -/
def toNatural (d : MultivariateNormal F) : Except Panic (DVector F × DMatrix F) := do
  let eta1 ← d.precision.mulVec d.mean
  let eta2 := d.precision.map fun x => ofRat (-1/2) *. x
  return (eta1, eta2)

/-- `multinormal.rs:155-171` -/
def logPartition (d : MultivariateNormal F) : Except Panic F := do
  let half : F := ofRat (1/2)
  let quadForm ← d.mean.dot (← d.precision.mulVec d.mean)
  let term1 := half *. quadForm
  let twoPi : F := ofRat 2 *. pi
  let n : F := FloatOps.ofNat d.dim
  let logDetCov := ln d.detCovariance
  let term2 := half *. (n *. ln twoPi +. logDetCov)
  return term1 +. term2

/-- `multinormal.rs:173-183` -/
def sufficientStatistic (_ : MultivariateNormal F) (x : DVector F) : DVector F × DMatrix F :=
  (x, x.outer)

/-- `multinormal.rs:192-213`: `DotProduct` of natural parameters and sufficient statistics -/
def dotProduct (eta t : DVector F × DMatrix F) : Except Panic F := do
  let term1 ← eta.1.dot t.1
  let term2 ← eta.2.frobenius t.2
  return term1 +. term2

/-- The provided body of `exp_fam_log_density` (`exponential_family/traits.rs:85-101`) at this family;
the base measure is Lebesgue (`multinormal.rs:185-187`), of log-density zero. -/
def expFamLogDensity (d : MultivariateNormal F) (x : DVector F) : Except Panic F := do
  let eta ← d.toNatural
  let a ← d.logPartition
  let expFamPart := (← dotProduct eta (d.sufficientStatistic x)) -. a
  return expFamPart +. zero

end MultivariateNormal
end Verif
