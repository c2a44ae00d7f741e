import Verif.Spec.Double
import Mathlib.Analysis.SpecialFunctions.Gamma.Basic

/-!
# What is assumed of the library's log-gamma function
-/

namespace Verif

/-- `ln_gamma` of the `special` crate on a positive number of the format: within eight units of
roundoff of `ln Γ`, relative to `1 + |ln Γ|` (near its zeros at `1` and `2` only the absolute error is
bounded); it is `+∞` only if `ln Γ` reaches half the greatest power of two. -/
def Libm.GammaAccurate (f : Format) (L : Libm) : Prop :=
  ∀ q : ℚ, 0 < q → f.Representable q →
    (∃ r : ℚ, L.lnGamma (.fin q) = .fin r ∧ f.Representable r ∧
      |(r : ℝ) - Real.log (Real.Gamma q)| ≤ 8 * f.u * (1 + |Real.log (Real.Gamma q)|)) ∨
    (L.lnGamma (.fin q) = .inf false ∧ (2 : ℝ) ^ (f.emax - 1) ≤ Real.log (Real.Gamma q))

end Verif
