import Verif.Num.Double
import Mathlib.Analysis.SpecialFunctions.Exp

/-!
# Vocabulary for statements about sums of exponentials in floating point
-/

namespace Verif

/-- The exponential of a logarithm that may be `-∞`. -/
noncomputable def expOf : FVal → ℝ
  | .fin q => Real.exp q
  | _ => 0

/-- The number a finite floating-point value stands for. -/
noncomputable def realOf : FVal → ℝ
  | .fin q => q
  | _ => 0

/-- A logarithm of a density: a number of the format or `-∞`. -/
def LogValue (f : Format) (x : FVal) : Prop := x = .inf true ∨ ∃ q : ℚ, x = .fin q ∧ f.Representable q

end Verif
