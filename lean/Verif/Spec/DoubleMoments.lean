import Verif.Spec.Double

/-! What "accurate" means for a reported positive quantity. -/

namespace Verif.Spec

/-- The computed value is a finite number of the format whose error relative to the true value `t` is
at most `k` units of roundoff. -/
def Accurate (f : Format) (k : ℝ) (v : FVal) (t : ℝ) : Prop :=
  ∃ r : ℚ, v = .fin r ∧ f.Representable r ∧ |(r : ℝ) - t| ≤ k * f.u * |t|

/-- A parameter that is a number of the format between `2^-K` and `2^K`. -/
def Moderate (f : Format) (K : ℕ) (a : ℚ) : Prop :=
  f.Representable a ∧ 1 / 2 ^ K ≤ a ∧ a ≤ 2 ^ K

end Verif.Spec
