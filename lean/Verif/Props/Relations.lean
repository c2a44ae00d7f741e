import Verif.Props.Pushforward
import Verif.Props.Discrete
import Mathlib.Analysis.SpecialFunctions.Gamma.Basic

/-!
# C113: distributions related in theory return the same log-densities
-/

namespace Verif
open FloatOps XReal Spec

/-! ### special cases -/

/-- **C113** (special cases, continuous): `Gamma(1, r)` and `Exponential(r)`, `ChiSquared(2)` and
`Exponential(1/2)` agree at every point other than zero; `Beta(1, 1)` is the uniform distribution. -/
theorem C113_special_continuous :
    (∀ (r x : ℝ) (g : Gamma XReal) (e : Exponential XReal), Gamma.new (fin 1) (fin r) = .ok g →
      Exponential.new (fin r) = .ok e → x ≠ 0 →
      (logDensityWrtRoot g (fin x) : XReal) = logDensityWrtRoot e (fin x)) ∧
    (∀ (x : ℝ) (c : ChiSquared XReal) (e : Exponential XReal), ChiSquared.new (fin 2) = .ok c →
      Exponential.new (fin (1/2)) = .ok e → x ≠ 0 →
      (logDensityWrtRoot c (fin x) : XReal) = logDensityWrtRoot e (fin x)) ∧
    (∀ (x : ℝ) (b : Beta XReal), Beta.new (fin 1) (fin 1) = .ok b →
      (logDensityWrtRoot b (fin x) : XReal) = if 0 < x ∧ x < 1 then fin 0 else ninf) := by
  refine ⟨?_, ?_, ?_⟩
  · intro r x g e hg he hx
    obtain ⟨-, hr, rfl⟩ := Gamma.new_ok hg
    obtain ⟨-, rfl⟩ := Exponential.new_ok he
    rcases lt_or_gt_of_ne hx with h | h
    · rw [Gamma.ld_of_nonpos h.le, Exponential.ld_of_neg h]
    · rw [Gamma.ld_of_pos one_pos hr h, Exponential.ld_of_nonneg hr h.le]
      simp
  · intro x c e hc he hx
    obtain ⟨-, rfl⟩ := ChiSquared.new_ok hc
    obtain ⟨hr, rfl⟩ := Exponential.new_ok he
    rcases lt_or_gt_of_ne hx with h | h
    · rw [ChiSquared.ld_of_nonpos h.le, Exponential.ld_of_neg h]
    · rw [ChiSquared.ld_of_pos two_pos h, Exponential.ld_of_nonneg hr h.le]
      congr 1
      rw [one_div, Real.log_inv]
      simp
      ring
  · intro x b hb
    obtain ⟨ha, hb', rfl⟩ := Beta.new_ok hb
    split_ifs with h
    · rw [Beta.ld_of_mem ha hb' h.1 h.2, show (1 : ℝ) + 1 = 2 by norm_num, Real.Gamma_two]
      simp
    · exact Beta.ld_of_not_mem h

/-- At zero the two pairs differ: the Exponential has its greatest density there, the Gamma and
chi-squared distributions report density zero. -/
theorem C113_zero_violated (r : ℝ) (g : Gamma XReal) (e : Exponential XReal)
    (hg : Gamma.new (fin 1) (fin r) = .ok g) (he : Exponential.new (fin r) = .ok e) :
    (logDensityWrtRoot g (fin 0) : XReal) = ninf ∧
    (logDensityWrtRoot e (fin 0) : XReal) = fin (Real.log r) := by
  obtain ⟨-, hr, rfl⟩ := Gamma.new_ok hg
  obtain ⟨-, rfl⟩ := Exponential.new_ok he
  rw [Gamma.ld_of_nonpos le_rfl, Exponential.ld_of_nonneg hr le_rfl]
  simp

/-- **C113** (special cases, discrete): `Binomial(1, p)` and `Categorical([1-p, p])` are `Bernoulli(p)`;
`NegativeBinomial(1, p)` counts the failures of `Geometric(p)`. -/
theorem C113_special_discrete (p : ℝ) (k : ℕ) :
    (∀ (b : Binomial XReal) (c : Bernoulli XReal) (x : UInt8), Binomial.new 1 (fin p) = .ok b →
      Bernoulli.new (fin p) = .ok c → p ≠ 0 → p ≠ 1 →
      (logDensityWrtRoot b x.toNat : XReal) = logDensityWrtRoot c x) ∧
    (∀ (b : Categorical XReal) (c : Bernoulli XReal) (x : UInt8),
      Categorical.new [fin (1 - p), fin p] = .ok b → Bernoulli.new (fin p) = .ok c →
      (logDensityWrtRoot b x.toNat : XReal) = logDensityWrtRoot c x) ∧
    (∀ (b : NegativeBinomial XReal) (g : Geometric XReal), NegativeBinomial.new 1 (fin p) = .ok b →
      Geometric.new (fin p) = .ok g →
      (logDensityWrtRoot b k : XReal) = logDensityWrtRoot g (k + 1)) := by
  refine ⟨?_, ?_, ?_⟩
  · intro b c x hb hc h0 h1
    obtain ⟨hp, rfl⟩ := Binomial.new_ok hb
    obtain ⟨-, rfl⟩ := Bernoulli.new_ok hc
    have hp0 : 0 < p := lt_of_le_of_ne hp.1 (Ne.symm h0)
    have hp1 : p < 1 := lt_of_le_of_ne hp.2 h1
    by_cases hx : x.toNat ≤ 1
    · rw [Binomial.ld_of_le hp0 hp1 hx]
      interval_cases h : x.toNat
      · obtain rfl : x = 0 := UInt8.toNat_inj.mp h
        simp [logDensityWrtRoot, f_ln (1 - p) (by linarith)]
      · obtain rfl : x = 1 := UInt8.toNat_inj.mp h
        simp [logDensityWrtRoot, f_ln _ hp0]
    · have hx0 : x ≠ 0 := by rintro rfl; exact hx (by decide)
      have hx1 : x ≠ 1 := by rintro rfl; exact hx (by decide)
      simp [logDensityWrtRoot, hx, hx0, hx1]
  · intro b c x hb hc
    have hb' : Categorical.new ([1 - p, p].map fin) = .ok b := hb
    obtain ⟨-, -, -, rfl⟩ := Categorical.new_ok hb'
    obtain ⟨hp, rfl⟩ := Bernoulli.new_ok hc
    by_cases hx0 : x = 0
    · subst hx0; simp [logDensityWrtRoot]
    by_cases hx1 : x = 1
    · subst hx1; simp [logDensityWrtRoot]
    · have : ¬ x.toNat < 2 := by
        intro h
        interval_cases h' : x.toNat
        · exact hx0 (UInt8.toNat_inj.mp h')
        · exact hx1 (UInt8.toNat_inj.mp h')
      have h2 : 2 ≤ x.toNat := by omega
      have h3 : [fin (1 - p), fin p][x.toNat]? = none := List.getElem?_eq_none h2
      simp [logDensityWrtRoot, hx0, hx1, h3]
  · intro b g hb hg
    obtain ⟨-, ⟨h0, h1⟩, rfl⟩ := NegativeBinomial.new_ok hb
    obtain ⟨-, rfl⟩ := Geometric.new_ok hg
    rw [NegativeBinomial.ld h0 h1, Geometric.ld_of_pos h0 h1 (by omega)]
    congr 1
    push_cast
    ring

/-! ### change of location and scale -/

theorem linear_inv {a b y : ℝ} (ha : a ≠ 0) :
    (Transform.linearT (fin a) (fin b)).inverse (fin y) = fin ((y - b) / a) := by
  show ((fin y -. fin b) /. fin a) = _
  rw [f_sub, f_div _ _ ha]

theorem linear_jac {a b y : ℝ} (ha : a ≠ 0) :
    (Transform.linearT (fin a) (fin b)).logAbsDetJacobian (fin y) = fin (-Real.log |a|) := by
  show FloatOps.neg (FloatOps.ln (FloatOps.abs (fin a))) = _
  rw [f_abs, f_ln _ (abs_pos.mpr ha), f_neg]

theorem linear_ld {M : Type} [HasLogDensity M XReal XReal] (m : M) {a b y : ℝ} (ha : a ≠ 0) :
    (logDensityWrtRoot (pushforward m (Transform.linearT (fin a) (fin b))) (fin y) : XReal)
      = (logDensityWrtRoot m (fin ((y - b) / a)) +. fin (-Real.log |a|)) := by
  show (logDensityWrtRoot m ((Transform.linearT (fin a) (fin b)).inverse (fin y)) +.
    (Transform.linearT (fin a) (fin b)).logAbsDetJacobian (fin y)) = _
  rw [linear_inv ha, linear_jac ha]

/-- **C113** (location and scale): pushing a Normal or Cauchy through `x ↦ a x + b` gives the Normal or
Cauchy with the moved location and stretched scale; pushing an Exponential or Gamma through `x ↦ a x`,
`a > 0`, divides the rate. -/
theorem C113_location_scale (a b y : ℝ) (ha : a ≠ 0) :
    (∀ (μ σ : ℝ) (d e : Normal XReal), Normal.new (fin μ) (fin σ) = .ok d →
      Normal.new (fin (a * μ + b)) (fin (|a| * σ)) = .ok e →
      (logDensityWrtRoot (pushforward d (Transform.linearT (fin a) (fin b))) (fin y) : XReal)
        = logDensityWrtRoot e (fin y)) ∧
    (∀ (l s : ℝ) (d e : Cauchy XReal), Cauchy.new (fin l) (fin s) = .ok d →
      Cauchy.new (fin (a * l + b)) (fin (|a| * s)) = .ok e →
      (logDensityWrtRoot (pushforward d (Transform.linearT (fin a) (fin b))) (fin y) : XReal)
        = logDensityWrtRoot e (fin y)) ∧
    (∀ (r : ℝ) (d e : Exponential XReal), 0 < a → Exponential.new (fin r) = .ok d →
      Exponential.new (fin (r / a)) = .ok e →
      (logDensityWrtRoot (pushforward d (Transform.linearT (fin a) (fin 0))) (fin y) : XReal)
        = logDensityWrtRoot e (fin y)) ∧
    (∀ (k r : ℝ) (d e : Gamma XReal), 0 < a → Gamma.new (fin k) (fin r) = .ok d →
      Gamma.new (fin k) (fin (r / a)) = .ok e →
      (logDensityWrtRoot (pushforward d (Transform.linearT (fin a) (fin 0))) (fin y) : XReal)
        = logDensityWrtRoot e (fin y)) := by
  have hpos := abs_pos.mpr ha
  have habs : |a| * |a| = a * a := abs_mul_abs_self a
  refine ⟨?_, ?_, ?_, ?_⟩
  · intro μ σ d e hd he
    obtain ⟨hσ, rfl⟩ := Normal.new_ok hd
    obtain ⟨hσ', rfl⟩ := Normal.new_ok he
    rw [linear_ld _ ha, Normal.ld hσ, Normal.ld hσ', f_add, Real.log_mul hpos.ne' hσ.ne']
    congr 1
    have : ((y - b) / a - μ) / σ * (((y - b) / a - μ) / σ)
        = (y - (a * μ + b)) / (|a| * σ) * ((y - (a * μ + b)) / (|a| * σ)) := by
      rw [div_mul_div_comm, div_mul_div_comm, show |a| * σ * (|a| * σ) = (|a| * |a|) * (σ * σ) by ring, habs]
      field_simp
      ring
    rw [mul_assoc, mul_assoc, this]
    ring
  · intro l s d e hd he
    obtain ⟨hσ, rfl⟩ := Cauchy.new_ok hd
    obtain ⟨hσ', rfl⟩ := Cauchy.new_ok he
    rw [linear_ld _ ha, Cauchy.ld hσ, Cauchy.ld hσ', f_add, Real.log_mul hpos.ne' hσ.ne']
    congr 1
    have : ((y - b) / a - l) / s * (((y - b) / a - l) / s)
        = (y - (a * l + b)) / (|a| * s) * ((y - (a * l + b)) / (|a| * s)) := by
      rw [div_mul_div_comm, div_mul_div_comm, show |a| * s * (|a| * s) = (|a| * |a|) * (s * s) by ring, habs]
      field_simp
      ring
    rw [this]
    ring
  · intro r d e h0 hd he
    obtain ⟨hr, rfl⟩ := Exponential.new_ok hd
    obtain ⟨hr', rfl⟩ := Exponential.new_ok he
    rw [linear_ld _ ha, sub_zero, abs_of_pos h0]
    rcases lt_or_ge y 0 with h | h
    · rw [Exponential.ld_of_neg (div_neg_of_neg_of_pos h h0), Exponential.ld_of_neg h]; rfl
    · rw [Exponential.ld_of_nonneg hr (div_nonneg h h0.le), Exponential.ld_of_nonneg hr' h, f_add,
        Real.log_div hr.ne' ha]
      congr 1
      field_simp
      ring
  · intro k r d e h0 hd he
    obtain ⟨hk, hr, rfl⟩ := Gamma.new_ok hd
    obtain ⟨-, hr', rfl⟩ := Gamma.new_ok he
    rw [linear_ld _ ha, sub_zero, abs_of_pos h0]
    rcases le_or_gt y 0 with h | h
    · rw [Gamma.ld_of_nonpos (div_nonpos_of_nonpos_of_nonneg h h0.le), Gamma.ld_of_nonpos h]; rfl
    · rw [Gamma.ld_of_pos hk hr (div_pos h h0), Gamma.ld_of_pos hk hr' h, f_add,
        Real.log_div hr.ne' ha, Real.log_div h.ne' ha]
      congr 1
      field_simp
      ring

/-- **C113** (nonlinear transforms): the exponential of a Normal has the log-normal log-density, and the
log-odds of a uniform variable the logistic one. -/
theorem C113_transformed :
    (∀ (μ σ y : ℝ) (d : Normal XReal), Normal.new (fin μ) (fin σ) = .ok d → 0 < y →
      density (logDensityWrtRoot (pushforward d (Transform.expT : Transform XReal)) (fin y))
        = 1 / (y * σ * √(2 * Real.pi)) * Real.exp (-(Real.log y - μ) ^ 2 / (2 * σ ^ 2))) ∧
    (∀ (y : ℝ) (b : Beta XReal), Beta.new (fin 1) (fin 1) = .ok b →
      density (logDensityWrtRoot (pushforward b (Transform.logitT : Transform XReal)) (fin y))
        = Real.exp (-y) / (1 + Real.exp (-y)) ^ 2) := by
  constructor
  · intro μ σ y d hd hy
    obtain ⟨hσ, rfl⟩ := Normal.new_ok hd
    show density (logDensityWrtRoot (⟨fin μ, fin σ⟩ : Normal XReal) (FloatOps.ln (fin y)) +.
      FloatOps.neg (FloatOps.ln (fin y))) = _
    have h2 := Real.two_pi_pos
    rw [f_ln _ hy, Normal.ld hσ, f_neg, f_add, density_fin]
    rw [show -(1/2) * Real.log (2 * Real.pi) - Real.log σ - 1/2 * ((Real.log y - μ)/σ) * ((Real.log y - μ)/σ)
        + -Real.log y = -(1/2) * Real.log (2 * Real.pi) + (-Real.log σ) + (-Real.log y)
        + -(Real.log y - μ) ^ 2 / (2 * σ ^ 2) by field_simp; ring]
    rw [Real.exp_add, Real.exp_add, Real.exp_add, exp_half_log h2, Real.exp_neg, Real.exp_neg,
      Real.exp_log hσ, Real.exp_log hy]
    have : 0 < √(2 * Real.pi) := Real.sqrt_pos.mpr h2
    field_simp
  · intro y b hb
    have hy := Real.exp_pos y
    have hny := Real.exp_pos (-y)
    have h1 : 0 < 1 + Real.exp y := by linarith
    have h2 : 0 < 1 + Real.exp (-y) := by linarith
    show density (logDensityWrtRoot b ((Transform.logitT : Transform XReal).inverse (fin y)) +.
      (Transform.logitT : Transform XReal).logAbsDetJacobian (fin y)) = _
    have e1 : (Transform.logitT : Transform XReal).inverse (fin y)
        = fin (Real.exp y / (1 + Real.exp y)) := by
      show (FloatOps.exp (fin y) /. (one +. FloatOps.exp (fin y))) = _
      rw [f_exp, f_one, f_add, f_div _ _ h1.ne']
    have e2 : (Transform.logitT : Transform XReal).logAbsDetJacobian (fin y)
        = fin (-y - Real.log (1 + Real.exp (-y)) - Real.log (1 + Real.exp (-y))) := by
      show (FloatOps.neg (fin y) -. FloatOps.ln (one +. FloatOps.exp (FloatOps.neg (fin y))) -.
        FloatOps.ln (one +. FloatOps.exp (FloatOps.neg (fin y)))) = _
      rw [f_neg, f_exp, f_one, f_add, f_ln _ h2, f_sub, f_sub]
    rw [e1, e2, C113_special_continuous.2.2 _ b hb, if_pos ⟨by positivity, by rw [div_lt_one h1]; linarith⟩,
      f_add, density_fin, zero_add, Real.exp_sub, Real.exp_sub, Real.exp_log h2]
    field_simp

/-! ### symmetries and recurrences -/

/-- **C113** (symmetry): the densities on the whole line are symmetric about their centre; exchanging
the shapes of a Beta reflects it. -/
theorem C113_symmetry (t : ℝ) :
    (∀ (μ σ : ℝ) (d : Normal XReal), Normal.new (fin μ) (fin σ) = .ok d →
      (logDensityWrtRoot d (fin (μ + t)) : XReal) = logDensityWrtRoot d (fin (μ - t))) ∧
    (∀ (l s : ℝ) (d : Cauchy XReal), Cauchy.new (fin l) (fin s) = .ok d →
      (logDensityWrtRoot d (fin (l + t)) : XReal) = logDensityWrtRoot d (fin (l - t))) ∧
    (∀ (ν : ℝ) (d : StudentT XReal), StudentT.new (fin ν) = .ok d →
      (logDensityWrtRoot d (fin t) : XReal) = logDensityWrtRoot d (fin (-t))) ∧
    (∀ (a b : ℝ) (d e : Beta XReal), Beta.new (fin a) (fin b) = .ok d → Beta.new (fin b) (fin a) = .ok e →
      (logDensityWrtRoot d (fin t) : XReal) = logDensityWrtRoot e (fin (1 - t))) := by
  refine ⟨?_, ?_, ?_, ?_⟩
  · intro μ σ d h
    obtain ⟨hσ, rfl⟩ := Normal.new_ok h
    rw [Normal.ld hσ, Normal.ld hσ]; congr 1; ring
  · intro l s d h
    obtain ⟨hs, rfl⟩ := Cauchy.new_ok h
    rw [Cauchy.ld hs, Cauchy.ld hs]
    rw [show (l + t - l) / s * ((l + t - l) / s) = (l - t - l) / s * ((l - t - l) / s) by ring]
  · intro ν d h
    obtain ⟨hν, rfl⟩ := StudentT.new_ok h
    rw [StudentT.ld hν, StudentT.ld hν, neg_mul_neg]
  · intro a b d e hd he
    obtain ⟨ha, hb, rfl⟩ := Beta.new_ok hd
    obtain ⟨-, -, rfl⟩ := Beta.new_ok he
    by_cases h : 0 < t ∧ t < 1
    · rw [Beta.ld_of_mem ha hb h.1 h.2, Beta.ld_of_mem hb ha (by linarith) (by linarith), sub_sub_cancel,
        add_comm b a]
      congr 1; ring
    · rw [Beta.ld_of_not_mem h, Beta.ld_of_not_mem (by rintro ⟨h1, h2⟩; exact h ⟨by linarith, by linarith⟩)]

/-- **C113** (memorylessness): waiting longer shifts the log-density of the Exponential and Geometric
by an amount that depends only on the additional time. -/
theorem C113_memoryless :
    (∀ (r x t : ℝ) (d : Exponential XReal), Exponential.new (fin r) = .ok d → 0 ≤ x → 0 ≤ t →
      (logDensityWrtRoot d (fin (x + t)) : XReal) = (logDensityWrtRoot d (fin x) +. fin (-(r * t)))) ∧
    (∀ (p : ℝ) (k j : ℕ) (d : Geometric XReal), Geometric.new (fin p) = .ok d → p ≠ 1 → 1 ≤ k →
      (logDensityWrtRoot d (k + j) : XReal) = (logDensityWrtRoot d k +. fin (j * Real.log (1 - p)))) := by
  constructor
  · intro r x t d h hx ht
    obtain ⟨hr, rfl⟩ := Exponential.new_ok h
    rw [Exponential.ld_of_nonneg hr (by linarith), Exponential.ld_of_nonneg hr hx, f_add]
    congr 1; ring
  · intro p k j d h h1 hk
    obtain ⟨hp, rfl⟩ := Geometric.new_ok h
    have hp1 : p < 1 := lt_of_le_of_ne hp.2 h1
    rw [Geometric.ld_of_pos hp.1 hp1 (by omega), Geometric.ld_of_pos hp.1 hp1 hk, f_add]
    congr 1; push_cast; ring

/-- **C113** (recurrences): consecutive outcomes of the Poisson distribution have masses in the ratio
`λ : (k+1)`; exchanging success and failure reflects the Binomial. -/
theorem C113_recurrence :
    (∀ (r : ℝ) (k : ℕ) (d : Poisson XReal), Poisson.new (fin r) = .ok d →
      (logDensityWrtRoot d (k + 1) : XReal) = (logDensityWrtRoot d k +. fin (Real.log (r / (k + 1))))) ∧
    (∀ (p : ℝ) (n k : ℕ) (d e : Binomial XReal), Binomial.new n (fin p) = .ok d →
      Binomial.new n (fin (1 - p)) = .ok e → p ≠ 0 → p ≠ 1 → k ≤ n →
      (logDensityWrtRoot d k : XReal) = logDensityWrtRoot e (n - k)) := by
  constructor
  · intro r k d h
    obtain ⟨hr, rfl⟩ := Poisson.new_ok h
    have hk : ((k : ℝ) + 1) ≠ 0 := by positivity
    have hf : ((Nat.factorial k : ℕ) : ℝ) ≠ 0 := by positivity
    rw [Poisson.ld hr, Poisson.ld hr, f_add, Nat.factorial_succ, Nat.cast_mul,
      Real.log_mul (by positivity) hf, Real.log_div hr.ne' hk]
    congr 1; push_cast; ring
  · intro p n k d e hd he h0 h1 hk
    obtain ⟨hp, rfl⟩ := Binomial.new_ok hd
    obtain ⟨-, rfl⟩ := Binomial.new_ok he
    have hp0 : 0 < p := lt_of_le_of_ne hp.1 (Ne.symm h0)
    have hp1 : p < 1 := lt_of_le_of_ne hp.2 h1
    rw [Binomial.ld_of_le hp0 hp1 hk, Binomial.ld_of_le (by linarith) (by linarith) (Nat.sub_le n k),
      Nat.cast_sub hk, sub_sub_cancel, sub_sub_cancel]
    congr 1; ring

/-- the hypotheses are met -/
example : (∃ d : Normal XReal, Normal.new (fin 3) (fin 2) = .ok d) ∧
    (∃ d : Normal XReal, Normal.new (fin (-2 * 3 + 1)) (fin (|(-2 : ℝ)| * 2)) = .ok d) ∧
    (∃ d : Gamma XReal, Gamma.new (fin 1) (fin 2) = .ok d) ∧
    (∃ d : Geometric XReal, Geometric.new (fin (1/3)) = .ok d) ∧
    (∃ d : Categorical XReal, Categorical.new [fin (1 - 1/3), fin (1/3)] = .ok d) := by
  refine ⟨⟨⟨fin 3, fin 2⟩, ?_⟩, ⟨⟨fin (-2 * 3 + 1), fin (|(-2 : ℝ)| * 2)⟩, ?_⟩, ⟨⟨fin 1, fin 2⟩, ?_⟩,
    ⟨⟨fin (1/3)⟩, ?_⟩, ⟨⟨[fin (1 - 1/3), fin (1/3)]⟩, ?_⟩⟩
  · simp [Normal.new]
  · simp [Normal.new]
  · simp [Gamma.new]
  · simp [Geometric.new]; norm_num
  · simp [Categorical.new, FloatOps.sum]; norm_num

end Verif
