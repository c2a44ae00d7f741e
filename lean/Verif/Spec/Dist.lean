import Mathlib.Probability.Distributions.Gaussian.Real
import Mathlib.Probability.Distributions.Gamma
import Mathlib.Probability.Distributions.Beta
import Mathlib.Probability.Distributions.Cauchy
import Mathlib.Probability.Distributions.Exponential
import Mathlib.Probability.Distributions.Poisson.Basic
import Mathlib.Probability.Distributions.Geometric
import Verif.Num.XReal

/-!
# Textbook densities

Mathlib's densities are used where they exist; the rest is written out here.
-/

namespace Verif.Spec
open Real

/-- Density of Student's t distribution with `ν` degrees of freedom. -/
noncomputable def studentTPDFReal (ν x : ℝ) : ℝ :=
  Real.Gamma ((ν + 1) / 2) / (√(ν * π) * Real.Gamma (ν / 2)) * (1 + x ^ 2 / ν) ^ (-((ν + 1) / 2))

/-- Total Lebesgue mass of the density given by a log-density on the reals. -/
noncomputable def massReal (ld : XReal → XReal) : ENNReal :=
  ∫⁻ x : ℝ, ENNReal.ofReal (XReal.density (ld (.fin x)))

/-- The log-density never takes the values NaN and `+∞` at real points. -/
def ProperReal (ld : XReal → XReal) : Prop :=
  ∀ x : ℝ, (ld (.fin x)).IsFin ∨ ld (.fin x) = .ninf

end Verif.Spec
