import Verif.Num.Double

/-! # Vocabulary: values that can stand for the logarithm of a bounded density -/

namespace Verif.Spec

/-- `-∞` or a finite number not above `B`; in particular neither NaN nor `+∞`. -/
def AtMost (B : ℚ) (v : FVal) : Prop := v = .inf true ∨ ∃ q : ℚ, v = .fin q ∧ q ≤ B

end Verif.Spec
