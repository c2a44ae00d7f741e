import Verif.Spec.Double
import Mathlib.Analysis.SpecialFunctions.Exp
import Mathlib.Analysis.Real.Sqrt

/-!
# Vocabulary for statements about natural parameters in floating point
-/

namespace Verif

/-- The logistic function, the success probability whose log-odds are `η`. -/
noncomputable def sigmoid (η : ℝ) : ℝ := Real.exp η / (1 + Real.exp η)

/-- The probabilities of the categories whose log-odds against the last category are `ηs`; the
probability of the last category comes last. -/
noncomputable def softmax (ηs : List ℝ) : List ℝ :=
  (ηs ++ [0]).map fun η => Real.exp η / (1 + (ηs.map Real.exp).sum)

/-- `sqrt` is computed on numbers of the format with at most twice the error of correct rounding
(IEEE 754 requires correct rounding). -/
def Libm.SqrtAccurate (f : Format) (L : Libm) : Prop :=
  ∀ q : ℚ, 0 ≤ q → f.Representable q →
    ∃ r : ℚ, L.sqrt q = .fin r ∧ f.Representable r ∧ |(r : ℝ) - √(q : ℝ)| ≤ 2 * f.u * √(q : ℝ)

end Verif
