import Verif.Spec.Dist
import Mathlib.Analysis.SpecialFunctions.Gaussian.GaussianIntegral
import Mathlib.MeasureTheory.Measure.Prod
import Mathlib.MeasureTheory.Constructions.BorelSpace.Basic

/-! Normalisation of Student's t density, as a Gamma mixture of Gaussians. -/

namespace Verif.Spec
open Real MeasureTheory Set

theorem lintegral_gamma_kernel {a r : ℝ} (ha : 0 < a) (hr : 0 < r) :
    ∫⁻ s in Ioi (0:ℝ), ENNReal.ofReal (s ^ (a - 1) * exp (-(r * s)))
      = ENNReal.ofReal ((1 / r) ^ a * Gamma a) := by
  rw [← ofReal_integral_eq_lintegral_ofReal]
  · rw [integral_rpow_mul_exp_neg_mul_Ioi ha hr]
  · by_contra hni
    have h0 := integral_undef hni
    have h1 := integral_rpow_mul_exp_neg_mul_Ioi ha hr
    rw [h0] at h1
    have : 0 < (1 / r) ^ a * Gamma a := by
      have := Gamma_pos_of_pos ha
      positivity
    linarith
  · filter_upwards [self_mem_ae_restrict measurableSet_Ioi] with s hs
    have : (0:ℝ) < s := hs
    positivity

theorem lintegral_gauss_kernel {b : ℝ} (hb : 0 < b) :
    ∫⁻ x : ℝ, ENNReal.ofReal (exp (-b * x ^ 2)) = ENNReal.ofReal (√(π / b)) := by
  rw [← integral_gaussian b, ofReal_integral_eq_lintegral_ofReal (integrable_exp_neg_mul_sq hb)]
  exact Filter.Eventually.of_forall (fun x => (exp_pos _).le)

theorem lintegral_studentTPDFReal {ν : ℝ} (hν : 0 < ν) :
    ∫⁻ x : ℝ, ENNReal.ofReal (studentTPDFReal ν x) = 1 := by
  set a := (ν + 1) / 2 with ha
  have ha0 : 0 < a := by positivity
  have hG := Gamma_pos_of_pos ha0
  have hG2 := Gamma_pos_of_pos (show 0 < ν / 2 by positivity)
  have hsq : 0 < √(ν * π) := by positivity
  -- the unnormalised kernel
  have kernel : ∫⁻ x : ℝ, ENNReal.ofReal (Gamma a * (1 + x ^ 2 / ν) ^ (-a))
      = ENNReal.ofReal (√(ν * π) * Gamma (ν / 2)) := by
    have step1 : ∀ x : ℝ, ENNReal.ofReal (Gamma a * (1 + x ^ 2 / ν) ^ (-a))
        = ∫⁻ s in Ioi (0:ℝ), ENNReal.ofReal (s ^ (a - 1) * exp (-((1 + x ^ 2 / ν) * s))) := by
      intro x
      have hr : 0 < 1 + x ^ 2 / ν := by positivity
      rw [lintegral_gamma_kernel ha0 hr, one_div, inv_rpow hr.le, ← rpow_neg hr.le, mul_comm]
    simp_rw [step1]
    rw [lintegral_lintegral_swap]
    · have step2 : ∀ s ∈ Ioi (0:ℝ),
          ∫⁻ x : ℝ, ENNReal.ofReal (s ^ (a - 1) * exp (-((1 + x ^ 2 / ν) * s)))
            = ENNReal.ofReal √(ν * π) * ENNReal.ofReal (s ^ (ν / 2 - 1) * exp (-(1 * s))) := by
        intro s hs
        have hs0 : (0:ℝ) < s := hs
        have e : ∀ x : ℝ, ENNReal.ofReal (s ^ (a - 1) * exp (-((1 + x ^ 2 / ν) * s)))
            = ENNReal.ofReal (s ^ (a - 1) * exp (-s)) * ENNReal.ofReal (exp (-(s/ν) * x ^ 2)) := by
          intro x
          rw [← ENNReal.ofReal_mul (by positivity), mul_assoc, ← exp_add]
          congr 3
          field_simp
          ring
        simp_rw [e]
        rw [lintegral_const_mul' _ _ ENNReal.ofReal_ne_top, lintegral_gauss_kernel (by positivity),
          ← ENNReal.ofReal_mul (by positivity), ← ENNReal.ofReal_mul (by positivity)]
        congr 1
        have e2 : π / (s / ν) = (ν * π) * s⁻¹ := by field_simp
        rw [e2, sqrt_mul (by positivity), sqrt_eq_rpow s⁻¹, inv_rpow hs0.le, ← rpow_neg hs0.le]
        have e3 : s ^ (ν / 2 - 1) = s ^ (a - 1) * s ^ (-(1 / 2 : ℝ)) := by
          rw [← rpow_add hs0]; congr 1; rw [ha]; ring
        rw [e3, one_mul]; ring
      rw [setLIntegral_congr_fun measurableSet_Ioi step2,
        lintegral_const_mul' _ _ ENNReal.ofReal_ne_top,
        lintegral_gamma_kernel (by positivity) one_pos, ← ENNReal.ofReal_mul hsq.le]
      simp
    · apply Measurable.aemeasurable
      fun_prop
  have e : ∀ x : ℝ, ENNReal.ofReal (studentTPDFReal ν x)
      = ENNReal.ofReal ((√(ν * π) * Gamma (ν / 2))⁻¹) * ENNReal.ofReal (Gamma a * (1 + x ^ 2 / ν) ^ (-a)) := by
    intro x
    rw [← ENNReal.ofReal_mul (by positivity)]
    congr 1
    rw [studentTPDFReal, div_eq_mul_inv]; ring
  simp_rw [e]
  rw [lintegral_const_mul' _ _ ENNReal.ofReal_ne_top, kernel, ← ENNReal.ofReal_mul (by positivity),
    inv_mul_cancel₀ (by positivity), ENNReal.ofReal_one]

end Verif.Spec
