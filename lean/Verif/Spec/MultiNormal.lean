import Verif.Model.MultiNormal
import Verif.Num.XReal
import Mathlib.LinearAlgebra.Matrix.NonsingularInverse
import Mathlib.LinearAlgebra.Matrix.PosDef

/-!
# Specification: the multivariate Gaussian density
-/

namespace Verif

/-- a vector of real numbers as the code receives it -/
def realVec {n : ℕ} (v : Fin n → ℝ) : DVector XReal := ⟨n, fun i => .fin (v i)⟩

/-- a matrix of real numbers as the code receives it -/
def realMat {m n : ℕ} (a : Matrix (Fin m) (Fin n) ℝ) : DMatrix XReal := ⟨m, n, fun i j => .fin (a i j)⟩

/-- Exact linear algebra: `try_inverse` returns the inverse exactly when there is one, `determinant`
the determinant. -/
structure LinAlg.Exact (la : LinAlg XReal) : Prop where
  inv : ∀ {n : ℕ} (a : Matrix (Fin n) (Fin n) ℝ), a.det ≠ 0 →
    la.tryInverse n (fun i j => .fin (a i j)) = some fun i j => .fin (a⁻¹ i j)
  singular : ∀ {n : ℕ} (a : Matrix (Fin n) (Fin n) ℝ), a.det = 0 →
    la.tryInverse n (fun i j => .fin (a i j)) = none
  det : ∀ {n : ℕ} (a : Matrix (Fin n) (Fin n) ℝ),
    la.determinant n (fun i j => .fin (a i j)) = .fin a.det

/-- The textbook density of the normal distribution on `ℝⁿ` with mean `μ` and covariance `S`. -/
noncomputable def mvnPdf {n : ℕ} (μ : Fin n → ℝ) (S : Matrix (Fin n) (Fin n) ℝ) (x : Fin n → ℝ) : ℝ :=
  Real.exp (-(1/2) * ((x - μ) ⬝ᵥ S⁻¹.mulVec (x - μ))) / √((2 * Real.pi) ^ n * S.det)

/-- the density a computed log-density stands for; zero for a panic -/
noncomputable def okDensity : Except Panic XReal → ℝ
  | .ok v => XReal.density v
  | .error _ => 0

end Verif
