import Mathlib.Analysis.SpecialFunctions.Stirling
import Mathlib.Analysis.SpecialFunctions.Gamma.BohrMollerup
import Mathlib.Analysis.SpecialFunctions.Complex.LogBounds
import Mathlib.Tactic.Linarith
import Mathlib.Tactic.FieldSimp
import Mathlib.Tactic.Positivity

/-! Stirling's formula for the gamma function on the positive reals, with error `1/(12a)`. -/

namespace Verif
open Real Filter Topology

namespace StirlingReal

/-- leading terms of the Stirling series -/
noncomputable def S (a : ℝ) : ℝ := (a - 1/2) * log a - a + 1/2 * log (2 * π)

noncomputable def f (a : ℝ) : ℝ := log (Gamma a) - S a

theorem log_gamma_succ {a : ℝ} (ha : 0 < a) : log (Gamma (a + 1)) = log (Gamma a) + log a := by
  rw [Gamma_add_one ha.ne', log_mul ha.ne' (Gamma_pos_of_pos ha).ne', add_comm]

theorem f_step {a : ℝ} (ha : 0 < a) : f a - f (a + 1) = (a + 1/2) * log (1 + a⁻¹) - 1 := by
  have h : log (1 + a⁻¹) = log (a + 1) - log a := by
    rw [← log_div (by positivity) ha.ne']; congr 1; field_simp
  rw [f, f, log_gamma_succ ha, S, S, h]
  ring

theorem f_step_bounds {a : ℝ} (ha : 0 < a) :
    0 < f a - f (a + 1) ∧ f a - f (a + 1) ≤ 1/(12*a) - 1/(12*(a+1)) := by
  rw [f_step ha]
  set r : ℝ := (1 / (2 * a + 1)) ^ 2 with hr
  have hr0 : 0 < r := by positivity
  have hr1 : r < 1 := by
    rw [hr, one_div, inv_pow]
    exact inv_lt_one_of_one_lt₀ (one_lt_pow₀ (by linarith) two_ne_zero)
  have hs : HasSum (fun k : ℕ => 1 / (2 * (k:ℝ) + 1) * r ^ k) ((a + 1/2) * log (1 + a⁻¹)) := by
    have := (hasSum_log_one_add_inv ha).mul_left (a + 1/2)
    refine HasSum.congr_fun (f := fun i : ℕ => (a + 1 / 2) * (2 * (1 / (2 * (i:ℝ) + 1)) * (1 / (2 * a + 1)) ^ (2 * i + 1))) this ?_
    intro k
    rw [hr, ← pow_mul, pow_succ (1 / (2 * a + 1)) (2 * k)]
    field_simp
  have h1 := (hasSum_nat_add_iff' 1).mpr hs
  simp only [Finset.range_one, Finset.sum_singleton, Nat.cast_zero, mul_zero, zero_add, div_one,
    pow_zero, mul_one] at h1
  constructor
  · have := sum_le_hasSum (Finset.range 1) (fun k _ => by positivity) h1
    simp only [Finset.range_one, Finset.sum_singleton] at this
    refine lt_of_lt_of_le ?_ this
    positivity
  · have hg : HasSum (fun k : ℕ => r/3 * r^k) (r/3 * (1 - r)⁻¹) :=
      (hasSum_geometric_of_lt_one hr0.le hr1).mul_left _
    have hle := hasSum_le (fun k => ?_) h1 hg
    · refine hle.trans (le_of_eq ?_)
      have e : r * (2 * a + 1) ^ 2 = 1 := by rw [hr]; field_simp
      have h1r : 1 - r = r * (4 * a * (a + 1)) := by nlinarith
      rw [h1r]
      field_simp
      ring
    · have e : (1:ℝ) / (2 * (((k+1:ℕ):ℝ)) + 1) ≤ 1/3 := by
        have : (0:ℝ) ≤ k := Nat.cast_nonneg k
        apply one_div_le_one_div_of_le (by norm_num)
        push_cast; linarith
      calc (1:ℝ) / (2 * (((k+1:ℕ):ℝ)) + 1) * r ^ (k + 1) ≤ 1/3 * r^(k+1) :=
            mul_le_mul_of_nonneg_right e (by positivity)
        _ = r/3 * r^k := by ring

theorem f_tendsto {a : ℝ} (ha : 0 < a) : Tendsto (fun n : ℕ => f (a + n)) atTop (𝓝 0) := by
  rw [← tendsto_add_atTop_iff_nat 1]
  have h1 : Tendsto (fun n : ℕ => log (Gamma a) - BohrMollerup.logGammaSeq a n) atTop (𝓝 0) := by
    simpa using (BohrMollerup.tendsto_log_gamma ha).const_sub (log (Gamma a))
  have h2 : Tendsto (fun k => log (Stirling.stirlingSeq k)) atTop (𝓝 (log √π)) :=
    (continuousAt_log (by positivity)).tendsto.comp Stirling.tendsto_stirlingSeq_sqrt_pi
  have h3 : Tendsto (fun n : ℕ => (n : ℝ) * log (1 + (a + 1) / n)) atTop (𝓝 (a + 1)) :=
    (tendsto_mul_log_one_add_div_atTop (a + 1)).comp tendsto_natCast_atTop_atTop
  have h4 : Tendsto (fun n : ℕ => log (1 + (a + 1) / n)) atTop (𝓝 0) := by
    have h0 : Tendsto (fun k : ℕ => ((k:ℝ))⁻¹) atTop (𝓝 0) := tendsto_inv_atTop_nhds_zero_nat
    have := h3.mul h0
    rw [mul_zero] at this
    refine this.congr' ?_
    filter_upwards [eventually_gt_atTop 0] with n hn
    have : (n : ℝ) ≠ 0 := by exact_mod_cast hn.ne'
    field_simp
  have h5 := (((h1.add (h2.sub_const (1/2 * log π))).sub h3).sub (h4.const_mul (a + 1/2))).add_const
    (a + 1)
  rw [log_sqrt pi_pos.le] at h5
  have e0 : 0 + (log π / 2 - 1/2 * log π) - (a + 1) - (a + 1/2) * 0 + (a + 1) = 0 := by ring
  rw [e0] at h5
  refine h5.congr' ?_
  filter_upwards [eventually_gt_atTop 0] with n hn
  have hn0 : (0 : ℝ) < n := by exact_mod_cast hn
  have hlog : log (1 + (a + 1) / n) = log (a + n + 1) - log n := by
    rw [← log_div (by positivity) hn0.ne']; congr 1; field_simp; ring
  have hsum : log (Gamma (a + (n + 1 : ℕ))) =
      log (Gamma a) + ∑ m ∈ Finset.range (n + 1), log (a + m) :=
    BohrMollerup.f_add_nat_eq (f := fun y => log (Gamma y)) (fun hy => log_gamma_succ hy) ha (n + 1)
  have hst := Stirling.log_stirlingSeq_formula n
  rw [log_div hn0.ne' (exp_ne_zero 1), log_exp, log_mul two_ne_zero hn0.ne'] at hst
  rw [f, hsum, S, BohrMollerup.logGammaSeq, hlog, hst, log_mul two_ne_zero pi_ne_zero]
  push_cast
  rw [← add_assoc a (n : ℝ) 1]
  ring

/-- `(a - 1/2) ln a - a + ln(2π)/2 < ln Γ(a) ≤ … + 1/(12a)` for every positive real `a`. -/
theorem log_gamma_bounds {a : ℝ} (ha : 0 < a) :
    S a < log (Gamma a) ∧ log (Gamma a) ≤ S a + 1/(12*a) := by
  have hanti : ∀ n : ℕ, f (a + (n + 1 : ℕ)) ≤ f (a + n) := by
    intro n
    have := (f_step_bounds (a := a + n) (by positivity)).1
    push_cast
    rw [← add_assoc]; linarith
  have hmono : ∀ n : ℕ, f (a + n) - 1/(12*(a+n)) ≤ f (a + (n+1:ℕ)) - 1/(12*(a+(n+1:ℕ))) := by
    intro n
    have := (f_step_bounds (a := a + n) (by positivity)).2
    push_cast
    rw [← add_assoc]; linarith
  have h1 : 0 ≤ f (a + 1) := by
    have := (antitone_nat_of_succ_le hanti).le_of_tendsto (f_tendsto ha) 1
    simpa using this
  have h2 : f a - 1/(12*a) ≤ 0 := by
    have ht : Tendsto (fun n : ℕ => f (a + n) - 1/(12*(a+n))) atTop (𝓝 0) := by
      have hz : Tendsto (fun n : ℕ => 1/(12*(a+(n:ℝ)))) atTop (𝓝 0) := by
        refine tendsto_const_nhds.div_atTop ?_
        exact (tendsto_atTop_add_const_left _ a tendsto_natCast_atTop_atTop).const_mul_atTop
          (by norm_num)
      simpa using (f_tendsto ha).sub hz
    have := (monotone_nat_of_le_succ hmono).ge_of_tendsto ht 0
    simpa using this
  have h3 := (f_step_bounds ha).1
  unfold f at *
  constructor <;> linarith

end StirlingReal
end Verif
