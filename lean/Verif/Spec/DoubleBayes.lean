import Verif.Spec.Double
import Mathlib.Probability.Distributions.Gaussian.Real

/-!
# Vocabulary for statements about Bayesian model expressions in floating point
-/

namespace Verif

/-- `powf(q, 2)` of a number of the format: at most twice the error of correct rounding, below the
normal range at most the least positive number; it overflows to `+∞` only from half the greatest power
of two on. -/
def Libm.SquareAccurate (f : Format) (L : Libm) : Prop :=
  ∀ q : ℚ, f.Representable q →
    (∃ r : ℚ, L.powf (.fin q) (.fin 2) = .fin r ∧ f.Representable r ∧
      |(r : ℝ) - (q : ℝ) ^ 2| ≤ 2 * f.u * (q : ℝ) ^ 2 + 2 ^ f.emin) ∨
    (L.powf (.fin q) (.fin 2) = .inf false ∧ (2 : ℝ) ^ (f.emax - 1) ≤ (q : ℝ) ^ 2)

/-- One component of a mixture of Normals; the three numbers are given as doubles. -/
structure NormalPart where
  weight : ℚ
  mean : ℚ
  scale : ℚ

/-- weight times Gaussian density -/
noncomputable def NormalPart.density (c : NormalPart) (x : ℝ) : ℝ :=
  c.weight * ProbabilityTheory.gaussianPDFReal c.mean ((c.scale : ℝ) ^ 2).toNNReal x

/-- the sizes of the terms of the logarithm of `density` -/
noncomputable def NormalPart.size (c : NormalPart) (x : ℝ) : ℝ :=
  1 + |Real.log c.weight| + |Real.log c.scale| + ((x - c.mean) / c.scale) ^ 2 / 2

/-- The squares of the scale and of the distance from `x` are in the range of the format. -/
def NormalPart.InRange (f : Format) (c : NormalPart) (x : ℝ) : Prop :=
  2 ^ f.emin / f.u ≤ (c.scale : ℝ) ^ 2 ∧ (c.scale : ℝ) ^ 2 < 2 ^ (f.emax - 1) ∧
    (x - c.mean) ^ 2 ≤ 2 ^ (f.emax - 2)

/-- Positive weight and scale, all numbers of the format. -/
def NormalPart.Valid (f : Format) (c : NormalPart) : Prop :=
  0 < c.weight ∧ 0 < c.scale ∧ f.Representable c.weight ∧ f.Representable c.mean ∧ f.Representable c.scale

end Verif
