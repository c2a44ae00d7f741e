import Verif.Props.ExpFamAgree
import Verif.Spec.Moments
import Mathlib.RingTheory.Polynomial.Bernstein

/-!
# C27: reported moments
-/

namespace Verif
open FloatOps XReal ProbabilityTheory Spec MeasureTheory

/-! ### from raw moments to central moments -/

theorem momentsReal_of_raw {ld : XReal → XReal} {p : ℝ → ℝ} (hp : ∀ᵐ x : ℝ, density (ld (fin x)) = p x)
    {m s : ℝ} (i0 : Integrable p) (h0 : ∫ x, p x = 1) (i1 : Integrable (fun x => x * p x))
    (h1 : ∫ x, x * p x = m) (i2 : Integrable (fun x => x * (x * p x))) (h2 : ∫ x, x * (x * p x) = s) :
    MomentsReal ld m (s - m ^ 2) := by
  have e1 : (fun x : ℝ => x * density (ld (fin x))) =ᵐ[volume] fun x => x * p x := by
    filter_upwards [hp] with x hx
    rw [hx]
  have e2 : (fun x : ℝ => (x - m) ^ 2 * density (ld (fin x))) =ᵐ[volume]
      fun x => x * (x * p x) - (2 * m) * (x * p x) + m ^ 2 * p x := by
    filter_upwards [hp] with x hx
    rw [hx]; ring
  have j : Integrable (fun x => x * (x * p x) - (2 * m) * (x * p x)) := i2.sub (i1.const_mul _)
  have j' : Integrable (fun x => m ^ 2 * p x) := i0.const_mul _
  refine ⟨i1.congr e1.symm, by rw [integral_congr_ae e1, h1], (j.add j').congr e2.symm, ?_⟩
  rw [integral_congr_ae e2, integral_add j j', integral_sub i2 (i1.const_mul _), integral_const_mul,
    integral_const_mul, h0, h1, h2]
  ring

theorem momentsNat_of_raw {ld : ℕ → XReal} {m s : ℝ}
    (h0 : HasSum (fun k : ℕ => density (ld k)) 1)
    (h1 : HasSum (fun k : ℕ => (k : ℝ) * density (ld k)) m)
    (h2 : HasSum (fun k : ℕ => (k : ℝ) ^ 2 * density (ld k)) s) :
    MomentsNat ld m (s - m ^ 2) := by
  refine ⟨h1, ?_⟩
  have := (h2.sub (h1.mul_left (2 * m))).add (h0.mul_left (m ^ 2))
  rw [show s - 2 * m * m + m ^ 2 * 1 = s - m ^ 2 by ring] at this
  refine this.congr_fun ?_
  intro k
  ring

/-! ### continuous densities -/

theorem integral_of_lintegral {p : ℝ → ℝ} (hm : Measurable p) (hp : ∀ x, 0 ≤ p x)
    (h : ∫⁻ x, ENNReal.ofReal (p x) = 1) : Integrable p ∧ ∫ x, p x = 1 := by
  constructor
  · refine ⟨hm.aestronglyMeasurable, ?_⟩
    rw [hasFiniteIntegral_iff_ofReal (Filter.Eventually.of_forall hp), h]
    simp
  · rw [integral_eq_lintegral_of_nonneg_ae (Filter.Eventually.of_forall hp) hm.aestronglyMeasurable, h]
    simp

theorem gamma_int {a b : ℝ} (ha : 0 < a) (hb : 0 < b) :
    Integrable (gammaPDFReal a b) ∧ ∫ x, gammaPDFReal a b x = 1 :=
  integral_of_lintegral (measurable_gammaPDFReal a b) (gammaPDFReal_nonneg ha hb)
    (lintegral_gammaPDF_eq_one ha hb)

theorem gamma_shift {a b : ℝ} (ha : 0 < a) (hb : 0 < b) (x : ℝ) :
    x * gammaPDFReal a b x = a / b * gammaPDFReal (a + 1) b x := by
  unfold gammaPDFReal
  split_ifs with hx
  · have hG := Real.Gamma_pos_of_pos ha
    rw [Real.Gamma_add_one ha.ne', Real.rpow_add_one hb.ne']
    have e : x ^ (a + 1 - 1) = x * x ^ (a - 1) := by
      rcases hx.lt_or_eq with h | h
      · rw [add_sub_cancel_right, ← Real.rpow_one_add' hx (by linarith)]
        congr 1; ring
      · rw [← h, add_sub_cancel_right, Real.zero_rpow ha.ne', zero_mul]
    rw [e]
    field_simp
  · simp

theorem beta_int {a b : ℝ} (ha : 0 < a) (hb : 0 < b) :
    Integrable (betaPDFReal a b) ∧ ∫ x, betaPDFReal a b x = 1 := by
  refine integral_of_lintegral (measurable_betaPDFReal a b) (fun x => ?_) (lintegral_betaPDF_eq_one ha hb)
  by_cases h : 0 < x ∧ x < 1
  · exact (betaPDFReal_pos h.1 h.2 ha hb).le
  · simp [betaPDFReal, h]

theorem beta_shift {a b : ℝ} (ha : 0 < a) (hb : 0 < b) (x : ℝ) :
    x * betaPDFReal a b x = a / (a + b) * betaPDFReal (a + 1) b x := by
  unfold betaPDFReal
  split_ifs with hx
  · have h1 := Real.Gamma_pos_of_pos ha
    have h2 := Real.Gamma_pos_of_pos hb
    have h3 := Real.Gamma_pos_of_pos (add_pos ha hb)
    have hab : a + b ≠ 0 := (add_pos ha hb).ne'
    unfold ProbabilityTheory.beta
    rw [Real.Gamma_add_one ha.ne', show a + 1 + b = a + b + 1 by ring, Real.Gamma_add_one hab]
    have e : x ^ (a + 1 - 1) = x * x ^ (a - 1) := by
      rw [add_sub_cancel_right, ← Real.rpow_one_add' hx.1.le (by linarith)]
      congr 1; ring
    rw [e]
    field_simp
  · simp

/-- **C27**, continuous: for every accepted parameter the methods `mean`/`variance` of Normal,
Exponential, Gamma, Beta and ChiSquared return finite numbers that are the mean and variance of the
density given by the log-density. -/
theorem C27_continuous_moments :
    (∀ (μ σ : ℝ) (d : Normal XReal), Normal.new (fin μ) (fin σ) = .ok d →
      ∃ m v : ℝ, d.mean = fin m ∧ d.variance = fin v ∧
        MomentsReal (fun x => logDensityWrtRoot d x) m v) ∧
    (∀ (r : ℝ) (d : Exponential XReal), Exponential.new (fin r) = .ok d →
      ∃ m v : ℝ, d.mean = fin m ∧ d.variance = fin v ∧
        MomentsReal (fun x => logDensityWrtRoot d x) m v) ∧
    (∀ (a b : ℝ) (d : Gamma XReal), Gamma.new (fin a) (fin b) = .ok d →
      ∃ m v : ℝ, d.mean = fin m ∧ d.variance = fin v ∧
        MomentsReal (fun x => logDensityWrtRoot d x) m v) ∧
    (∀ (a b : ℝ) (d : Beta XReal), Beta.new (fin a) (fin b) = .ok d →
      ∃ m v : ℝ, d.mean = fin m ∧ d.variance = fin v ∧
        MomentsReal (fun x => logDensityWrtRoot d x) m v) ∧
    (∀ (k : ℝ) (d : ChiSquared XReal), ChiSquared.new (fin k) = .ok d →
      ∃ m v : ℝ, d.mean = fin m ∧ d.variance = fin v ∧
        MomentsReal (fun x => logDensityWrtRoot d x) m v) := by
  have hGamma : ∀ (a b : ℝ), 0 < a → 0 < b → ∀ ld : XReal → XReal,
      (∀ᵐ x : ℝ, density (ld (fin x)) = gammaPDFReal a b x) →
      MomentsReal ld (a / b) (a / (b * b)) := by
    intro a b ha hb ld h
    have ha1 : 0 < a + 1 := by linarith
    have ha2 : 0 < a + 1 + 1 := by linarith
    have s1 : (fun x => x * gammaPDFReal a b x) = fun x => a / b * gammaPDFReal (a + 1) b x :=
      funext (gamma_shift ha hb)
    have s2 : (fun x => x * (x * gammaPDFReal a b x))
        = fun x => a / b * ((a + 1) / b * gammaPDFReal (a + 1 + 1) b x) := by
      funext x
      rw [gamma_shift ha hb, mul_left_comm, gamma_shift ha1 hb]
    have := momentsReal_of_raw (m := a / b) (s := a / b * ((a + 1) / b)) h (gamma_int ha hb).1
      (gamma_int ha hb).2 (by rw [s1]; exact (gamma_int ha1 hb).1.const_mul _)
      (by rw [s1, integral_const_mul, (gamma_int ha1 hb).2, mul_one])
      (by rw [s2]; exact ((gamma_int ha2 hb).1.const_mul _).const_mul _)
      (by rw [s2, integral_const_mul, integral_const_mul, (gamma_int ha2 hb).2, mul_one])
    convert this using 1
    field_simp
    ring
  refine ⟨?_, ?_, ?_, ?_, ?_⟩
  · intro μ σ d h
    have hd := (C09_normal_density h).1
    obtain ⟨hσ, rfl⟩ := Normal.new_ok h
    refine ⟨μ, σ * σ, rfl, by simp [Normal.variance], ?_⟩
    have hv : (σ ^ 2).toNNReal ≠ 0 := by
      rw [ne_eq, Real.toNNReal_eq_zero, not_le]; positivity
    have hvc : ((σ ^ 2).toNNReal : ℝ) = σ * σ := by
      rw [Real.coe_toNNReal _ (sq_nonneg σ), pow_two]
    have hint : ∀ f : ℝ → ℝ, Integrable f (gaussianReal μ (σ ^ 2).toNNReal) →
        Integrable (fun x => f x * gaussianPDFReal μ (σ ^ 2).toNNReal x) := by
      intro f hf
      rw [gaussianReal_of_var_ne_zero _ hv, integrable_withDensity_iff (measurable_gaussianPDF _ _)
        (by simp [gaussianPDF])] at hf
      refine hf.congr (Filter.Eventually.of_forall fun x => ?_)
      simp [gaussianPDF, gaussianPDFReal_nonneg]
    have heq : ∀ f : ℝ → ℝ, ∫ x, f x * gaussianPDFReal μ (σ ^ 2).toNNReal x
        = ∫ x, f x ∂(gaussianReal μ (σ ^ 2).toNNReal) := by
      intro f
      rw [integral_gaussianReal_eq_integral_smul hv]
      congr 1; funext x; rw [smul_eq_mul, mul_comm]
    have m1 : MemLp id 1 (gaussianReal μ (σ ^ 2).toNNReal) := memLp_id_gaussianReal 1
    have m2 : MemLp id 2 (gaussianReal μ (σ ^ 2).toNNReal) := memLp_id_gaussianReal 2
    refine ⟨?_, ?_, ?_, ?_⟩
    · simp only [hd]; exact hint id (memLp_one_iff_integrable.mp m1)
    · simp only [hd]
      rw [heq (fun x => x), integral_id_gaussianReal]
    · simp only [hd]
      apply hint (fun x => (x - μ) ^ 2)
      exact (m2.sub (memLp_const μ)).integrable_sq
    · simp only [hd]
      rw [heq (fun x => (x - μ) ^ 2), ← hvc, ← variance_fun_id_gaussianReal (μ := μ),
        variance_eq_integral measurable_id'.aemeasurable]
      simp
  · intro r d h
    have hd := (C10_exponential_density h).2.2.1
    obtain ⟨hr, rfl⟩ := Exponential.new_ok h
    refine ⟨1 / r, 1 / (r * r), ?_, ?_, ?_⟩
    · simp [Exponential.mean, recip, f_div _ _ hr.ne']
    · simp [Exponential.variance, recip, f_div _ _ hr.ne']
    · exact hGamma 1 r one_pos hr _ (Filter.Eventually.of_forall hd)
  · intro a b d h
    have hd := (C11_gamma_density h).1
    obtain ⟨ha, hb, rfl⟩ := Gamma.new_ok h
    refine ⟨a / b, a / (b * b), f_div _ _ hb.ne', f_div _ _ (mul_pos hb hb).ne', ?_⟩
    apply hGamma a b ha hb
    have : ∀ᵐ x : ℝ, x ≠ 0 := by simp [MeasureTheory.ae_iff]
    filter_upwards [this] with x hx
    exact hd x hx
  · intro a b d h
    have hd := (C12_beta_density h).1
    obtain ⟨ha, hb, rfl⟩ := Beta.new_ok h
    have hab : 0 < a + b := add_pos ha hb
    have hden : (a + b) * (a + b) * (a + b + 1) ≠ 0 := by positivity
    refine ⟨a / (a + b), a * b / ((a + b) * (a + b) * (a + b + 1)), ?_, ?_, ?_⟩
    · simp [Beta.mean, f_div _ _ hab.ne']
    · simp [Beta.variance, f_div _ _ hden]
    · have ha1 : 0 < a + 1 := by linarith
      have ha2 : 0 < a + 1 + 1 := by linarith
      have s1 : (fun x => x * betaPDFReal a b x) = fun x => a / (a + b) * betaPDFReal (a + 1) b x :=
        funext (beta_shift ha hb)
      have s2 : (fun x => x * (x * betaPDFReal a b x))
          = fun x => a / (a + b) * ((a + 1) / (a + 1 + b) * betaPDFReal (a + 1 + 1) b x) := by
        funext x
        rw [beta_shift ha hb, mul_left_comm, beta_shift ha1 hb]
      have := momentsReal_of_raw (ld := fun x => logDensityWrtRoot (⟨fin a, fin b⟩ : Beta XReal) x)
        (m := a / (a + b)) (s := a / (a + b) * ((a + 1) / (a + 1 + b)))
        (Filter.Eventually.of_forall hd) (beta_int ha hb).1
        (beta_int ha hb).2 (by rw [s1]; exact (beta_int ha1 hb).1.const_mul _)
        (by rw [s1, integral_const_mul, (beta_int ha1 hb).2, mul_one])
        (by rw [s2]; exact ((beta_int ha2 hb).1.const_mul _).const_mul _)
        (by rw [s2, integral_const_mul, integral_const_mul, (beta_int ha2 hb).2, mul_one])
      convert this using 1
      have h1 : a + 1 + b ≠ 0 := by positivity
      have h2 : a + b + 1 ≠ 0 := by positivity
      field_simp
      ring
  · intro k d h
    obtain ⟨hk, rfl⟩ := ChiSquared.new_ok h
    have hg : Gamma.new (fin (k/2)) (fin (1/2)) = .ok ⟨fin (k/2), fin (1/2)⟩ := by
      simp [Gamma.new, hk]
    have hd := (C13_chi_squared_is_gamma h hg).2.1
    have hd2 := (C11_gamma_density hg).1
    refine ⟨k, 2 * k, rfl, by simp [ChiSquared.variance], ?_⟩
    have := hGamma (k/2) (1/2) (by positivity) (by norm_num)
      (fun x => logDensityWrtRoot (⟨fin k⟩ : ChiSquared XReal) x) (by
        have : ∀ᵐ x : ℝ, x ≠ 0 := by simp [MeasureTheory.ae_iff]
        filter_upwards [this] with x hx
        rw [hd, hd2 x hx])
    convert this using 1 <;> ring

example : Beta.new (fin 2) (fin 3) = .ok ⟨fin 2, fin 3⟩ := by simp [Beta.new]

/-- **C27**, discrete where it holds.  Bernoulli for every accepted `p`; Geometric for `p < 1`;
Categorical for every accepted vector of any length; Binomial for `0 < p < 1` with the mass function of
its exponential-family form (the plain log-density lacks the coefficient, C20).  Missing from the full
claim: NegativeBinomial, see `C27_violated`. -/
theorem C27_discrete_moments_partial :
    (∀ (p : ℝ) (d : Bernoulli XReal), Bernoulli.new (fin p) = .ok d →
      ∃ m v : ℝ, d.mean = fin m ∧ d.variance = fin v ∧
        ∑ k ∈ Finset.range 256, (k:ℝ) * density (logDensityWrtRoot d (UInt8.ofNat k)) = m ∧
        ∑ k ∈ Finset.range 256, ((k:ℝ) - m) ^ 2 * density (logDensityWrtRoot d (UInt8.ofNat k)) = v) ∧
    (∀ (p : ℝ) (d : Geometric XReal), Geometric.new (fin p) = .ok d → p ≠ 1 →
      ∃ m v : ℝ, d.mean = fin m ∧ d.variance = fin v ∧
        MomentsNat (fun k => logDensityWrtRoot d k) m v) ∧
    (∀ (ps : List ℝ) (d : Categorical XReal), Categorical.new (ps.map fin) = .ok d →
      ∃ m v : ℝ, d.mean = fin m ∧ d.variance = fin v ∧
        MomentsNat (fun k => logDensityWrtRoot d k) m v) ∧
    (∀ (n : ℕ) (p : ℝ) (d : Binomial XReal), Binomial.new n (fin p) = .ok d → p ≠ 0 → p ≠ 1 →
      ∃ m v : ℝ, d.mean = fin m ∧ d.variance = fin v ∧
        ∑ k ∈ Finset.range (n + 1), (k:ℝ) * density (ExponentialFamily.expFamLogDensity d k) = m ∧
        ∑ k ∈ Finset.range (n + 1), ((k:ℝ) - m) ^ 2 * density (ExponentialFamily.expFamLogDensity d k) = v) := by
  refine ⟨?_, ?_, ?_, ?_⟩
  · intro p d h
    have hd := (C16_bernoulli_pmf h).1
    obtain ⟨⟨h0, h1⟩, rfl⟩ := Bernoulli.new_ok h
    refine ⟨p, p * (1 - p), rfl, by simp [Bernoulli.variance], ?_, ?_⟩
    all_goals
      simp only [hd]
      rw [Finset.sum_eq_add_of_mem 0 1 (by simp) (by simp) (by simp)]
      · simp
        try ring
      · intro k hk hne
        have hk' : k < 256 := by simpa using hk
        have e0 : UInt8.ofNat k ≠ 0 := by
          intro h
          have h := congrArg UInt8.toNat h
          simp [Nat.mod_eq_of_lt hk'] at h
          exact hne.1 h
        have e1 : UInt8.ofNat k ≠ 1 := by
          intro h
          have h := congrArg UInt8.toNat h
          simp [Nat.mod_eq_of_lt hk'] at h
          exact hne.2 h
        simp [e0, e1]
  · intro p d h hp
    obtain ⟨hpmf, hz, hsum⟩ := C17_geometric_pmf_partial h hp
    obtain ⟨⟨h0, h1⟩, rfl⟩ := Geometric.new_ok h
    have h1 : p < 1 := lt_of_le_of_ne h1 hp
    have hn : ‖1 - p‖ < 1 := by rw [Real.norm_eq_abs, abs_of_pos (by linarith)]; linarith
    have s1 := (hasSum_choose_mul_geometric_of_norm_lt_one 1 hn).mul_right p
    have s2 := (hasSum_choose_mul_geometric_of_norm_lt_one 2 hn).mul_right p
    rw [sub_sub_cancel] at s1 s2
    have t1 : HasSum (fun k : ℕ => (k:ℝ) * density (logDensityWrtRoot (⟨fin p⟩ : Geometric XReal) k)) (1 / p) := by
      rw [← hasSum_nat_add_iff' 1]
      simp only [Finset.range_one, Finset.sum_singleton, Nat.cast_zero, zero_mul, sub_zero]
      have e : 1 / p ^ (1 + 1) * p = 1 / p := by field_simp
      rw [e] at s1
      refine s1.congr_fun fun k => ?_
      rw [hpmf (k + 1) (by omega), Nat.add_sub_cancel, Nat.choose_one_right]
      ring
    have t2 : HasSum (fun k : ℕ => (k:ℝ) ^ 2 * density (logDensityWrtRoot (⟨fin p⟩ : Geometric XReal) k))
        (2 / p ^ 2 - 1 / p) := by
      rw [← hasSum_nat_add_iff' 1]
      simp only [Finset.range_one, Finset.sum_singleton, Nat.cast_zero, ne_eq, OfNat.ofNat_ne_zero,
        not_false_eq_true, zero_pow, zero_mul, sub_zero]
      have e : 2 * (1 / p ^ (2 + 1) * p) - 1 / p ^ (1 + 1) * p = 2 / p ^ 2 - 1 / p := by
        field_simp
        ring
      have s3 := (s2.mul_left 2).sub s1
      rw [e] at s3
      refine s3.congr_fun fun k => ?_
      rw [hpmf (k + 1) (by omega), Nat.add_sub_cancel, Nat.choose_one_right]
      have : (((k + 2).choose 2 : ℕ) : ℝ) = (k + 2) * (k + 1) / 2 := by
        rw [Nat.cast_choose_two]; push_cast; ring
      rw [this]
      push_cast
      ring
    refine ⟨1 / p, (1 - p) / (p * p), ?_, ?_, ?_⟩
    · simp [Geometric.mean, recip, f_div _ _ h0.ne']
    · simp [Geometric.variance, f_div _ _ (mul_pos h0 h0).ne']
    · have := momentsNat_of_raw hsum t1 t2
      convert this using 1
      field_simp
      ring
  · intro ps d h
    obtain ⟨hpmf, hz, -⟩ := C19_categorical_pmf h
    obtain ⟨hne, hpos, hsum, rfl⟩ := Categorical.new_ok h
    have hfin : ∀ f : ℕ → ℝ, HasSum
        (fun k : ℕ => f k * density (logDensityWrtRoot (⟨ps.map fin⟩ : Categorical XReal) k))
        ((ps.mapIdx (fun i p => f i * p)).sum) := by
      intro f
      have e : (ps.mapIdx (fun i p => f i * p)).sum = ∑ k ∈ Finset.range ps.length,
          f k * density (logDensityWrtRoot (⟨ps.map fin⟩ : Categorical XReal) k) := by
        rw [Finset.sum_range, ← List.sum_ofFn]
        congr 1
        apply List.ext_getElem (by simp)
        intro i h1 h2
        rw [List.getElem_ofFn, List.getElem_mapIdx, hpmf i (by simpa using h1)]
      rw [e]
      apply hasSum_sum_of_ne_finset_zero
      intro k hk
      rw [hz k (by simpa using hk), density_ninf, mul_zero]
    have hmap : ∀ g : ℕ → XReal → XReal, ∀ f : ℕ → ℝ → ℝ, (∀ i p, g i (fin p) = fin (f i p)) →
        FloatOps.sum ((ps.map fin).mapIdx g) = fin (ps.mapIdx f).sum := by
      intro g f hgf
      rw [← f_sum]
      congr 1
      apply List.ext_getElem (by simp)
      intro i h1 h2
      simp [hgf]
    have hmean : (⟨ps.map fin⟩ : Categorical XReal).mean = fin (ps.mapIdx (fun i p => (i:ℝ) * p)).sum := by
      apply hmap
      intro i p; simp
    refine ⟨_, (ps.mapIdx (fun i p => ((i:ℝ) - (ps.mapIdx (fun i p => (i:ℝ) * p)).sum) ^ 2 * p)).sum,
      hmean, ?_, hfin _, hfin _⟩
    unfold Categorical.variance
    rw [hmean]
    apply hmap
    intro i p
    simp only [f_ofNat, f_sub, f_mul]
    congr 1
    ring
  · intro n p d h hp0 hp1
    obtain ⟨⟨h0, h1⟩, rfl⟩ := Binomial.new_ok h
    have h0 : 0 < p := lt_of_le_of_ne h0 (Ne.symm hp0)
    have h1 : p < 1 := lt_of_le_of_ne h1 hp1
    have hq : 0 < 1 - p := by linarith
    have hd : ∀ k ∈ Finset.range (n + 1),
        density (ExponentialFamily.expFamLogDensity (⟨n, fin p⟩ : Binomial XReal) k)
          = (bernsteinPolynomial ℝ n k).eval p := by
      intro k hk
      have hk : k ≤ n := by simpa [Nat.lt_succ_iff] using hk
      have hc : (0 : ℝ) < n.choose k := by exact_mod_cast Nat.choose_pos hk
      rw [Binomial.ef h0 h1 hk, density_fin, Real.exp_add, Real.exp_add, Real.exp_log hc,
        exp_nat_mul_log h0, ← Nat.cast_sub hk, exp_nat_mul_log hq]
      simp [bernsteinPolynomial]
    refine ⟨n * p, n * p * (1 - p), by simp [Binomial.mean], by simp [Binomial.variance], ?_, ?_⟩
    · rw [Finset.sum_congr rfl (fun k hk => by rw [hd k hk])]
      have := congrArg (Polynomial.eval p) (bernsteinPolynomial.sum_smul ℝ n)
      simpa [Polynomial.eval_finsetSum] using this
    · rw [Finset.sum_congr rfl (fun k hk => by rw [hd k hk])]
      have := congrArg (Polynomial.eval p) (bernsteinPolynomial.variance ℝ n)
      simp only [Polynomial.eval_finsetSum, Polynomial.eval_mul, Polynomial.eval_pow, Polynomial.eval_sub,
        Polynomial.eval_natCast, Polynomial.eval_X, Polynomial.eval_one, nsmul_eq_mul] at this
      rw [← this]
      refine Finset.sum_congr rfl fun k _ => ?_
      ring

example : Binomial.new 4 (fin (1/2)) = .ok ⟨4, fin (1/2)⟩ := by
  have h : ((2 : ℝ)⁻¹) ≤ 1 := by norm_num
  simp [Binomial.new, h]

/-- **C27** violated: for every accepted `p` the NegativeBinomial with `r = 1`, whose log-density is
normalised, has mean `(1-p)/p`, while `mean()` returns `p/(1-p)`; they differ unless `p = 1/2`. -/
theorem C27_violated (p : ℝ) (d : NegativeBinomial XReal) (h : NegativeBinomial.new 1 (fin p) = .ok d) :
    HasSum (fun k : ℕ => (k:ℝ) * density (logDensityWrtRoot d k)) ((1 - p) / p) ∧
    d.mean = fin (p / (1 - p)) ∧ (p ≠ 1/2 → (1 - p) / p ≠ p / (1 - p)) := by
  obtain ⟨-, ⟨h0, h1⟩, rfl⟩ := NegativeBinomial.new_ok h
  have hq : 0 < 1 - p := by linarith
  refine ⟨?_, by simp [NegativeBinomial.mean, f_div _ _ hq.ne'], ?_⟩
  · have hn : ‖1 - p‖ < 1 := by rw [Real.norm_eq_abs, abs_of_pos hq]; linarith
    have s := (hasSum_coe_mul_geometric_of_norm_lt_one hn).mul_right p
    have e : (1 - p) / (1 - (1 - p)) ^ 2 * p = (1 - p) / p := by
      rw [sub_sub_cancel]; field_simp
    rw [e] at s
    refine s.congr_fun fun k => ?_
    rw [NegativeBinomial.ld h0 h1, density_fin, Real.exp_add, exp_nat_mul_log h0, exp_nat_mul_log hq]
    ring
  · intro hp he
    rw [div_eq_div_iff h0.ne' hq.ne'] at he
    apply hp
    linarith

end Verif
