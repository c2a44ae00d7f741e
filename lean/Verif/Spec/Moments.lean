import Verif.Num.XReal
import Mathlib.MeasureTheory.Integral.Bochner.Basic
import Mathlib.MeasureTheory.Measure.Lebesgue.Basic

/-! # Moments of a density given by a log-density -/

namespace Verif.Spec
open MeasureTheory

/-- `m` and `v` are the mean and variance of the density `e^ld` on the reals (both integrals
converge absolutely). -/
structure MomentsReal (ld : XReal → XReal) (m v : ℝ) : Prop where
  mean_integrable : Integrable (fun x : ℝ => x * XReal.density (ld (.fin x)))
  mean_eq : ∫ x : ℝ, x * XReal.density (ld (.fin x)) = m
  var_integrable : Integrable (fun x : ℝ => (x - m) ^ 2 * XReal.density (ld (.fin x)))
  var_eq : ∫ x : ℝ, (x - m) ^ 2 * XReal.density (ld (.fin x)) = v

/-- `m` and `v` are the mean and variance of the mass function `e^ld` on the naturals. -/
structure MomentsNat (ld : ℕ → XReal) (m v : ℝ) : Prop where
  mean : HasSum (fun k : ℕ => (k : ℝ) * XReal.density (ld k)) m
  var : HasSum (fun k : ℕ => ((k : ℝ) - m) ^ 2 * XReal.density (ld k)) v

end Verif.Spec
