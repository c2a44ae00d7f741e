import Verif.Num.Double
import Mathlib.Analysis.SpecialFunctions.Log.Basic
import Mathlib.Analysis.SpecialFunctions.Exp

/-!
# Vocabulary for statements about floating-point results

What is assumed of the mathematical library, and the unit roundoff.
-/

namespace Verif

/-- Unit roundoff `2^-prec`: the greatest relative error of one rounding to nearest. -/
noncomputable def Format.u (f : Format) : ℝ := 1 / 2 ^ f.prec

/-- The library computes `ln` and `exp` on numbers of the format with at most twice the error of
correct rounding (glibc, musl and the Apple and Microsoft libraries all document less than one unit
in the last place for these functions); `exp` may lose accuracy below the normal range by at most the
least positive number, and overflows to `+∞` only from half the greatest power of two on. -/
structure Libm.Accurate (f : Format) (L : Libm) : Prop where
  ln : ∀ q : ℚ, 0 < q → f.Representable q →
    ∃ r : ℚ, L.ln q = .fin r ∧ f.Representable r ∧
      |(r : ℝ) - Real.log q| ≤ 2 * f.u * |Real.log q|
  exp : ∀ q : ℚ, f.Representable q →
    (∃ r : ℚ, L.exp q = .fin r ∧ f.Representable r ∧
      |(r : ℝ) - Real.exp q| ≤ 2 * f.u * Real.exp q + 2 ^ f.emin) ∨
    (L.exp q = .inf false ∧ (2 : ℝ) ^ (f.emax - 1) ≤ Real.exp q)

end Verif
