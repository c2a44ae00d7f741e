import Verif.Props.Tagless
import Verif.Props.Continuous
import Verif.Props.Discrete
import Verif.Lemmas.StirlingReal

/-!
# C67: final-tagless distribution patterns
-/

namespace Verif
open XReal Spec Tagless ProbabilityTheory

/-- The normal patterns are the log-densities of the normal distribution and agree with the library's
`Normal`, for every point, mean and positive scale. -/
theorem C67_normal_pattern (x μ σ : ℝ) (hσ : 0 < σ) :
    density (Tagless.normalLogDensity directEval (fin x) (fin μ) (fin σ)) =
      gaussianPDFReal μ (σ ^ 2).toNNReal x ∧
    Tagless.normalLogDensity directEval (fin x) (fin μ) (fin σ) =
      logDensityWrtRoot (⟨fin μ, fin σ⟩ : Normal XReal) (fin x) ∧
    DistributionEval.normalLogDensity (fin x) (fin μ) (fin σ) =
      logDensityWrtRoot (⟨fin μ, fin σ⟩ : Normal XReal) (fin x) := by
  have h1 : Tagless.normalLogDensity directEval (fin x) (fin μ) (fin σ) =
      logDensityWrtRoot (⟨fin μ, fin σ⟩ : Normal XReal) (fin x) := by
    rw [Normal.ld hσ]
    simp only [Tagless.normalLogDensity, directEval, f_sub, f_div _ _ hσ.ne', f_mul, f_ofRat, f_pi,
      f_neg, f_ln _ hσ]
    rw [f_ln _ (by push_cast; exact two_pi_pos')]
    simp only [f_mul, f_neg, f_sub]
    congr 1; push_cast; ring
  refine ⟨?_, h1, ?_⟩
  · rw [h1]
    exact (C09_normal_density (σ := σ) (by simp [Normal.new, hσ])).1 x
  · rw [Normal.ld hσ]
    simp only [DistributionEval.normalLogDensity, f_sub, f_div _ _ hσ.ne', f_mul, f_ofRat, f_pi,
      f_ln _ hσ]
    rw [f_ln _ (by push_cast; exact two_pi_pos')]
    simp only [f_mul, f_sub]
    congr 1; push_cast; ring

theorem C67_standard_normal_pattern (x : ℝ) :
    density (Tagless.standardNormalLogDensity directEval (fin x)) = gaussianPDFReal 0 1 x := by
  have h1 : Tagless.standardNormalLogDensity directEval (fin x) =
      logDensityWrtRoot (⟨fin 0, fin 1⟩ : Normal XReal) (fin x) := by
    rw [Normal.ld one_pos]
    simp only [Tagless.standardNormalLogDensity, directEval, f_mul, f_ofRat, f_pi]
    rw [f_ln _ (by push_cast; exact two_pi_pos')]
    simp only [f_mul, f_neg, f_sub, Real.log_one]
    congr 1; push_cast; ring
  rw [h1, (C09_normal_density (σ := 1) (μ := 0) (by simp [Normal.new])).1 x]
  simp

example : density (Tagless.normalLogDensity directEval (fin 3) (fin 1) (fin 2)) =
    gaussianPDFReal 1 ((2 : ℝ) ^ 2).toNNReal 3 := (C67_normal_pattern 3 1 2 two_pos).1

/-- The Cauchy pattern is the Cauchy log-density everywhere. -/
theorem C67_cauchy_pattern (x l s : ℝ) (hs : 0 < s) :
    density (Tagless.cauchyLogDensity directEval (fin x) (fin l) (fin s)) =
      cauchyPDFReal l s.toNNReal x := by
  have hp : 0 < 1 + (x - l)/s * ((x - l)/s) := by
    have := mul_self_nonneg ((x - l)/s)
    linarith
  rw [← Cauchy.density_eq hs, Cauchy.ld hs]
  simp [Tagless.cauchyLogDensity, directEval, f_div _ _ hs.ne', f_ln _ hs, f_ln _ Real.pi_pos,
    f_ln _ hp]
  ring

/-- The exponential pattern is the log-density on the support … -/
theorem C67_exponential_pattern_partial (x r : ℝ) (hr : 0 < r) (hx : 0 ≤ x) :
    density (Tagless.exponentialLogDensity directEval (fin x) (fin r)) = exponentialPDFReal r x := by
  rw [← (C10_exponential_density (r := r) (by simp [Exponential.new, hr]; rfl)).2.2.1 x,
    Exponential.ld_of_nonneg hr hx]
  simp [Tagless.exponentialLogDensity, directEval, f_ln _ hr]

/-- … and a positive, growing number off it, where the density is zero. -/
theorem C67_exponential_pattern_violated (x r : ℝ) (hr : 0 < r) (hx : x < 0) :
    r < density (Tagless.exponentialLogDensity directEval (fin x) (fin r)) ∧
      exponentialPDFReal r x = 0 := by
  refine ⟨?_, by simp [exponentialPDFReal, gammaPDFReal, not_le.mpr hx]⟩
  simp only [Tagless.exponentialLogDensity, directEval, f_ln _ hr, f_mul, f_sub, density_fin]
  rw [Real.exp_sub, Real.exp_log hr]
  have h : Real.exp (r * x) < 1 := by
    rw [← Real.exp_zero]; exact Real.exp_lt_exp.2 (mul_neg_of_pos_of_neg hr hx)
  rw [lt_div_iff₀ (Real.exp_pos _)]
  nlinarith

/-- `DistributionEval`'s version checks the support. -/
theorem C67_exponential_eval (x r : ℝ) (hr : 0 < r) :
    density (DistributionEval.exponentialLogDensity (fin x) (fin r)) = exponentialPDFReal r x := by
  rw [← (C10_exponential_density (r := r) (by simp [Exponential.new, hr]; rfl)).2.2.1 x]
  rfl

/-- The Poisson pattern subtracts `ln k` instead of `ln k!`: it gives `λᵏ e^{-λ} / k` for `k ≥ 1` … -/
theorem C67_poisson_pattern_value (k : ℕ) (hk : 0 < k) (r : ℝ) (hr : 0 < r) :
    density (Tagless.poissonLogDensity directEval (fin k) (fin r)) =
      r ^ k * Real.exp (-r) / k := by
  have hk' : (0 : ℝ) < k := by exact_mod_cast hk
  simp only [Tagless.poissonLogDensity, directEval, f_ln _ hr, f_ln _ hk', f_mul, f_sub, density_fin]
  rw [Real.exp_sub, Real.exp_log hk', sub_eq_add_neg, Real.exp_add, mul_comm (k : ℝ),
    Real.exp_mul, Real.exp_log hr, Real.rpow_natCast]

/-- … which is the Poisson mass only at `k = 1` and `k = 2` … -/
theorem C67_poisson_pattern_violated (k : ℕ) (hk : 0 < k) (r : ℝ) (hr : 0 < r) :
    density (Tagless.poissonLogDensity directEval (fin k) (fin r)) =
      r ^ k * Real.exp (-r) / k.factorial ↔ k = 1 ∨ k = 2 := by
  rw [C67_poisson_pattern_value k hk r hr]
  have hk' : (0 : ℝ) < k := by exact_mod_cast hk
  have hf : (0 : ℝ) < k.factorial := by exact_mod_cast k.factorial_pos
  have hp : (0 : ℝ) < r ^ k * Real.exp (-r) := by positivity
  rw [div_eq_div_iff hk'.ne' hf.ne', mul_right_inj' hp.ne']
  constructor
  · intro h
    have h : k.factorial = k := by exact_mod_cast h
    by_contra hc
    push Not at hc
    have h3 : 3 ≤ k := by omega
    obtain ⟨m, rfl⟩ : ∃ m, k = m + 3 := ⟨k - 3, by omega⟩
    have h1 : (m + 3) * ((m + 2) * (m + 1).factorial) = m + 3 := by
      rw [← Nat.factorial_succ, ← Nat.factorial_succ]; exact h
    have h2 : (m + 2) * (m + 1).factorial = 1 := by
      have : (m + 3) * ((m + 2) * (m + 1).factorial) = (m + 3) * 1 := by omega
      exact Nat.eq_of_mul_eq_mul_left (by omega) this
    have h4 : m + 2 = 1 := Nat.eq_one_of_mul_eq_one_right h2
    omega
  · rintro (rfl | rfl) <;> simp

/-- … and at `k = 0` its value is `+∞`. -/
theorem C67_poisson_pattern_zero_violated (r : ℝ) (hr : 0 < r) :
    Tagless.poissonLogDensity directEval (fin 0) (fin r) = pinf := by
  simp only [Tagless.poissonLogDensity, directEval, f_ln _ hr, f_mul, f_sub, f_ln_zero]
  rfl

/-! ### patterns using the gamma function -/

/-- With the only implementation of `gamma_function` in the library, the gamma, beta and Student-t
patterns panic for every interpreter and every argument. -/
theorem C67_gamma_patterns_violated {F R : Type} [FloatOps F] (E : MathExpr F R) (x a b : R) :
    (∃ e, Tagless.gammaLogDensity E gammaFunction x a b = .error e) ∧
    (∃ e, Tagless.betaLogDensity E gammaFunction x a b = .error e) ∧
    (∃ e, Tagless.studentTLogDensity E gammaFunction x a = .error e) :=
  ⟨⟨_, rfl⟩, ⟨_, rfl⟩, ⟨_, rfl⟩⟩

/-- An interpreter whose `gamma_function` is right on the positive reals. -/
def GammaCorrect (gam : XReal → Except Panic XReal) : Prop :=
  ∀ a : ℝ, 0 < a → gam (fin a) = .ok (fin (Real.Gamma a))

theorem gammaCorrect_exists : ∃ gam, GammaCorrect gam :=
  ⟨fun x => .ok (fin (Real.Gamma x.toReal)), fun _ _ => rfl⟩

/-- Given a correct `gamma_function`, the gamma pattern is the log-density on the support. -/
theorem C67_gamma_pattern_partial {gam} (hg : GammaCorrect gam) (x a b : ℝ) (ha : 0 < a)
    (hb : 0 < b) (hx : 0 < x) :
    ∃ v, Tagless.gammaLogDensity directEval gam (fin x) (fin a) (fin b) = .ok v ∧
      density v = gammaPDFReal a b x := by
  refine ⟨_, by simp only [Tagless.gammaLogDensity, hg a ha]; rfl, ?_⟩
  rw [← Gamma.density_eq ha hb hx.ne', Gamma.ld_of_pos ha hb hx]
  simp only [directEval, f_ln _ hb, f_ln _ hx, f_ln _ (Real.Gamma_pos_of_pos ha), f_mul, f_neg,
    f_add, f_sub, f_one]
  congr 2; ring

/-- Given a correct `gamma_function`, the Student-t pattern is the log-density. -/
theorem C67_student_t_pattern_partial {gam} (hg : GammaCorrect gam) (x ν : ℝ) (hν : 0 < ν) :
    ∃ v, Tagless.studentTLogDensity directEval gam (fin x) (fin ν) = .ok v ∧
      density v = studentTPDFReal ν x := by
  have hp : 0 < 1 + x * x / ν := by
    have := div_nonneg (mul_self_nonneg x) hν.le
    linarith
  have h2 : 0 < ν * Real.pi := by positivity
  have e1 : directEval.div (directEval.add (fin ν) (directEval.constant FloatOps.one))
      (directEval.constant (FloatOps.ofRat 2)) = fin ((ν + 1) / 2) := by
    simp [directEval, f_div _ _ (two_ne_zero (α := ℝ))]
  have e2 : directEval.div (fin ν) (directEval.constant (FloatOps.ofRat 2)) = fin (ν / 2) := by
    simp [directEval, f_div _ _ (two_ne_zero (α := ℝ))]
  have p1 : 0 < (ν + 1) / 2 := by positivity
  have p2 : 0 < ν / 2 := by positivity
  refine ⟨_, by
    simp only [Tagless.studentTLogDensity, e1, e2, hg _ p1, hg _ p2]; rfl, ?_⟩
  rw [← StudentT.density_eq hν, StudentT.ld hν]
  simp only [directEval, f_mul, f_div _ _ hν.ne', f_add, f_one, f_pi, f_ofRat, f_ln _ hp, f_ln _ h2,
    f_ln _ (Real.Gamma_pos_of_pos p1), f_ln _ (Real.Gamma_pos_of_pos p2), f_sub]
  congr 2; push_cast; ring

/-- Given a correct `gamma_function`, the beta pattern adds the log of the beta function instead of
subtracting it: on the support its value is `B(a,b)²` times the density … -/
theorem C67_beta_pattern_value {gam} (hg : GammaCorrect gam) (x a b : ℝ) (ha : 0 < a)
    (hb : 0 < b) (h0 : 0 < x) (h1 : x < 1) :
    ∃ v, Tagless.betaLogDensity directEval gam (fin x) (fin a) (fin b) = .ok v ∧
      density v = beta a b ^ 2 * betaPDFReal a b x := by
  have hab := add_pos ha hb
  have h1' : 0 < 1 - x := by linarith
  have e1 : directEval.add (fin a) (fin b) = fin (a + b) := rfl
  refine ⟨_, by
    simp only [Tagless.betaLogDensity, logBeta, logGammaFunction, e1, hg a ha, hg b hb,
      hg _ hab]; rfl, ?_⟩
  have gA := Real.Gamma_pos_of_pos ha
  have gB := Real.Gamma_pos_of_pos hb
  have gAB := Real.Gamma_pos_of_pos hab
  simp only [directEval, f_ln _ h0, f_one, f_sub, f_ln _ h1', f_ln _ gA, f_ln _ gB, f_ln _ gAB,
    f_mul, f_add, density_fin, betaPDFReal, h0, h1, and_self, if_true, Real.exp_add, Real.exp_sub,
    Real.exp_log gA, Real.exp_log gB, Real.exp_log gAB, beta]
  rw [Real.rpow_def_of_pos h0, Real.rpow_def_of_pos h1', mul_comm (a - 1), mul_comm (b - 1)]
  field_simp

/-- … which is wrong for instance for `Beta(2, 2)` at every point of the support. -/
theorem C67_beta_pattern_violated {gam} (hg : GammaCorrect gam) (x : ℝ) (h0 : 0 < x) (h1 : x < 1) :
    ∃ v, Tagless.betaLogDensity directEval gam (fin x) (fin 2) (fin 2) = .ok v ∧
      density v ≠ betaPDFReal 2 2 x := by
  obtain ⟨v, hv, hd⟩ := C67_beta_pattern_value hg x 2 2 two_pos two_pos h0 h1
  refine ⟨v, hv, ?_⟩
  have hB : beta 2 2 = 1 / 6 := by
    have g2 : Real.Gamma 2 = 1 := by
      simpa [one_add_one_eq_two] using Real.Gamma_nat_eq_factorial 1
    have g4 : Real.Gamma 4 = 6 := by
      have := Real.Gamma_nat_eq_factorial 3
      rw [show ((3 : ℕ) : ℝ) + 1 = 4 by norm_num] at this
      rw [this]; norm_num [Nat.factorial]
    rw [beta, show (2 : ℝ) + 2 = 4 by norm_num, g2, g4]; norm_num
  have hp : 0 < betaPDFReal 2 2 x := by
    rw [betaPDFReal, if_pos ⟨h0, h1⟩, hB]
    have : 0 < 1 - x := by linarith
    positivity
  rw [hd, hB]
  intro h
  nlinarith

/-! ### `DistributionEval::gamma_log_density` -/

/-- Up to shape 12 `DistributionEval`'s Gamma log-density is the library's, everywhere. -/
theorem C67_gamma_eval_partial (x a b : ℝ) (h12 : a ≤ 12) :
    DistributionEval.gammaLogDensity (fin x) (fin a) (fin b) =
      logDensityWrtRoot (⟨fin a, fin b⟩ : Gamma XReal) (fin x) := by
  have : FloatOps.gt (fin a) (FloatOps.ofRat 12 : XReal) = false := by
    simp [FloatOps.gt, h12]
  have hg : DistributionEval.logGamma (fin a) = FloatOps.lnGamma (fin a) := by
    unfold DistributionEval.logGamma
    rw [if_neg (by rw [this]; simp)]
  simp only [DistributionEval.gammaLogDensity, hg]
  rfl

/-- Above shape 12 it uses Stirling's formula without the correction term: on the support its value
is too large, by more than 0 and at most `1/(12·shape)`, for every shape, rate and point. -/
theorem C67_gamma_eval_violated (x a b : ℝ) (h12 : 12 < a) (hb : 0 < b) (hx : 0 < x) :
    ∃ v w : ℝ, DistributionEval.gammaLogDensity (fin x) (fin a) (fin b) = fin v ∧
      logDensityWrtRoot (⟨fin a, fin b⟩ : Gamma XReal) (fin x) = fin w ∧
      w < v ∧ v ≤ w + 1 / (12 * a) := by
  have ha : 0 < a := by linarith
  obtain ⟨h1, h2⟩ := StirlingReal.log_gamma_bounds ha
  refine ⟨a * Real.log b - StirlingReal.S a + (a - 1) * Real.log x - b * x, _, ?_,
    Gamma.ld_of_pos ha hb hx, by linarith, by linarith⟩
  have hg : DistributionEval.logGamma (fin a) = fin (StirlingReal.S a) := by
    unfold DistributionEval.logGamma
    rw [if_pos (by simp [FloatOps.gt, h12])]
    simp only [f_ofRat, f_sub, f_ln _ ha, f_pi, f_mul]
    rw [f_ln _ (by push_cast; exact two_pi_pos')]
    simp only [f_mul, f_sub, f_add, StirlingReal.S]
    congr 1; push_cast; ring
  unfold DistributionEval.gammaLogDensity
  rw [if_pos (by simp [FloatOps.gt, hx]), hg]
  simp [f_ln _ hb, f_ln _ hx]

example : ∃ v w : ℝ, DistributionEval.gammaLogDensity (fin 20) (fin 13) (fin 1) = fin v ∧
    logDensityWrtRoot (⟨fin 13, fin 1⟩ : Gamma XReal) (fin 20) = fin w ∧
    w < v ∧ v ≤ w + 1 / (12 * 13) :=
  C67_gamma_eval_violated 20 13 1 (by norm_num) one_pos (by norm_num)

end Verif
