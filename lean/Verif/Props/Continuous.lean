import Verif.Spec.Dist
import Verif.Lemmas.Dist
import Verif.Lemmas.StudentT

/-!
# C08–C15: continuous distributions
-/

namespace Verif
open FloatOps XReal ProbabilityTheory Spec

/-! ### accepted parameters -/

theorem Normal.new_ok {μ σ : ℝ} {d : Normal XReal} (h : Normal.new (fin μ) (fin σ) = .ok d) :
    0 < σ ∧ d = ⟨fin μ, fin σ⟩ := by
  unfold Normal.new at h
  split_ifs at h with h1
  · exact ⟨by simpa using h1, by cases h; rfl⟩

theorem Exponential.new_ok {r : ℝ} {d : Exponential XReal} (h : Exponential.new (fin r) = .ok d) :
    0 < r ∧ d = ⟨fin r⟩ := by
  unfold Exponential.new at h
  split_ifs at h with h1
  · exact ⟨by simpa using h1, by cases h; rfl⟩

theorem Gamma.new_ok {a b : ℝ} {d : Gamma XReal} (h : Gamma.new (fin a) (fin b) = .ok d) :
    0 < a ∧ 0 < b ∧ d = ⟨fin a, fin b⟩ := by
  unfold Gamma.new at h
  split_ifs at h with h1 h2
  · exact ⟨by simpa using h1, by simpa using h2, by cases h; rfl⟩

theorem Beta.new_ok {a b : ℝ} {d : Beta XReal} (h : Beta.new (fin a) (fin b) = .ok d) :
    0 < a ∧ 0 < b ∧ d = ⟨fin a, fin b⟩ := by
  unfold Beta.new at h
  split_ifs at h with h1 h2
  · exact ⟨by simpa using h1, by simpa using h2, by cases h; rfl⟩

theorem ChiSquared.new_ok {k : ℝ} {d : ChiSquared XReal} (h : ChiSquared.new (fin k) = .ok d) :
    0 < k ∧ d = ⟨fin k⟩ := by
  unfold ChiSquared.new at h
  split_ifs at h with h1
  · exact ⟨by simpa using h1, by cases h; rfl⟩

theorem Cauchy.new_ok {l s : ℝ} {d : Cauchy XReal} (h : Cauchy.new (fin l) (fin s) = .ok d) :
    0 < s ∧ d = ⟨fin l, fin s⟩ := by
  unfold Cauchy.new at h
  split_ifs at h with h1
  · exact ⟨by simpa using h1, by cases h; rfl⟩

theorem StudentT.new_ok {ν : ℝ} {d : StudentT XReal} (h : StudentT.new (fin ν) = .ok d) :
    0 < ν ∧ d = ⟨fin ν⟩ := by
  unfold StudentT.new at h
  split_ifs at h with h1
  · exact ⟨by simpa using h1, by cases h; rfl⟩

/-! ### C08 -/

/-- **C08**, Normal: the decomposition is the log-density, and the optimised IID log-density is the
sum of the log-densities over data of any length. -/
theorem C08_normal {μ σ : ℝ} {d : Normal XReal} (h : Normal.new (fin μ) (fin σ) = .ok d)
    (x : ℝ) (xs : List ℝ) :
    d.decomposition.evaluate (fin x) d.params = logDensityWrtRoot d (fin x) ∧
    d.logDensityIid (xs.map fin)
      = FloatOps.sum (xs.map (fun x => (logDensityWrtRoot d (fin x) : XReal))) := by
  obtain ⟨hσ, rfl⟩ := Normal.new_ok h
  constructor
  · rw [Normal.ld hσ]
    simp [Normal.decomposition, Decomposition.evaluate, Decomposition.new, Decomposition.addConstant,
      Decomposition.addParamTerm, Decomposition.addMixedTerm, FloatOps.sum, Normal.params,
      f_div _ _ hσ.ne', f_ln _ hσ, f_ln _ two_pi_pos']
    ring
  · have e : (fun x : ℝ => (logDensityWrtRoot (⟨fin μ, fin σ⟩ : Normal XReal) (fin x) : XReal))
        = fin ∘ (fun x => -(1/2) * Real.log (2 * Real.pi) - Real.log σ - 1/2 * ((x - μ)/σ) * ((x - μ)/σ)) := by
      funext x; exact Normal.ld hσ
    rw [e, ← List.map_map, f_sum]
    have e2 : List.map (fun x => FloatOps.sum [neg (FloatOps.ofRat (1/2)) *. ((x -. fin μ) /. fin σ)
          *. ((x -. fin μ) /. fin σ)]) (xs.map fin)
        = (xs.map (fun x => -(1/2) * ((x - μ)/σ) * ((x - μ)/σ))).map fin := by
      simp [f_div _ _ hσ.ne', FloatOps.sum]
    have e3 : List.map (fun _ : XReal => FloatOps.sum ([] : List XReal)) (xs.map fin)
        = (xs.map (fun _ => (0 : ℝ))).map fin := by
      rw [List.map_map, List.map_map]; rfl
    simp only [Normal.logDensityIid, Normal.decomposition, Decomposition.evaluateIid, Decomposition.new,
      Decomposition.addConstant, Decomposition.addParamTerm, Decomposition.addMixedTerm, Normal.params,
      List.nil_append, List.map_cons, List.map_nil, e2, e3, f_sum]
    simp only [FloatOps.sum, List.foldl, f_zero, f_ofRat, f_pi, f_neg, f_mul, f_ofNat, f_ln _ hσ, f_add,
      List.length_map]
    push_cast
    rw [f_ln _ two_pi_pos']
    simp only [f_mul, f_add]
    congr 1
    simp only [sub_eq_add_neg, sum_map_add_real, sum_map_const_real]
    simp [neg_mul]
    ring

/-- **C08**, Cauchy. -/
theorem C08_cauchy {l s : ℝ} {d : Cauchy XReal} (h : Cauchy.new (fin l) (fin s) = .ok d)
    (x : ℝ) (xs : List ℝ) :
    d.decomposition.evaluate (fin x) d.params = logDensityWrtRoot d (fin x) ∧
    d.logPdf (fin x) = logDensityWrtRoot d (fin x) ∧
    d.logDensityIid (xs.map fin)
      = FloatOps.sum (xs.map (fun x => (logDensityWrtRoot d (fin x) : XReal))) := by
  obtain ⟨hs, rfl⟩ := Cauchy.new_ok h
  have hp : ∀ x, 0 < 1 + (x - l)/s * ((x - l)/s) := fun x => by
    have := mul_self_nonneg ((x - l)/s)
    linarith
  refine ⟨?_, ?_, ?_⟩
  · rw [Cauchy.ld hs]
    simp [Cauchy.decomposition, Decomposition.evaluate, Decomposition.new, Decomposition.addConstant,
      Decomposition.addParamTerm, Decomposition.addMixedTerm, FloatOps.sum, Cauchy.params,
      f_div _ _ hs.ne', f_ln _ hs, f_ln _ Real.pi_pos, f_ln _ (hp x)]
    ring
  · rw [Cauchy.ld hs]
    simp [Cauchy.logPdf, f_div _ _ hs.ne', f_ln _ hs, f_ln _ Real.pi_pos, f_ln _ (hp x)]
    ring
  · have e : (fun x : ℝ => (logDensityWrtRoot (⟨fin l, fin s⟩ : Cauchy XReal) (fin x) : XReal))
        = fin ∘ (fun x => -Real.log (1 + (x - l)/s * ((x - l)/s)) - Real.log s - Real.log Real.pi) := by
      funext x; exact Cauchy.ld hs
    rw [e, ← List.map_map, f_sum]
    have e2 : List.map (fun x => FloatOps.sum [neg (FloatOps.ln (FloatOps.one +. ((x -. fin l) /. fin s)
          *. ((x -. fin l) /. fin s)))]) (xs.map fin)
        = (xs.map (fun x => -Real.log (1 + (x - l)/s * ((x - l)/s)))).map fin := by
      simp [f_div _ _ hs.ne', FloatOps.sum, fun x => f_ln _ (hp x)]
    have e3 : List.map (fun _ : XReal => FloatOps.sum ([] : List XReal)) (xs.map fin)
        = (xs.map (fun _ => (0 : ℝ))).map fin := by
      rw [List.map_map, List.map_map]; rfl
    simp only [Cauchy.logDensityIid, Cauchy.decomposition, Decomposition.evaluateIid, Decomposition.new,
      Decomposition.addConstant, Decomposition.addParamTerm, Decomposition.addMixedTerm, Cauchy.params,
      List.nil_append, List.map_cons, List.map_nil, e2, e3, f_sum]
    simp only [FloatOps.sum, List.foldl, f_zero, f_pi, f_neg, f_mul, f_ofNat, f_ln _ hs,
      f_ln _ Real.pi_pos, f_add, List.length_map]
    congr 1
    simp only [sub_eq_add_neg, sum_map_add_real, sum_map_const_real]
    ring

/-- **C08**, Student-t. -/
theorem C08_student_t {ν : ℝ} {d : StudentT XReal} (h : StudentT.new (fin ν) = .ok d)
    (x : ℝ) (xs : List ℝ) :
    d.decomposition.evaluate (fin x) d.params = logDensityWrtRoot d (fin x) ∧
    d.logDensityIid (xs.map fin)
      = FloatOps.sum (xs.map (fun x => (logDensityWrtRoot d (fin x) : XReal))) := by
  obtain ⟨hν, rfl⟩ := StudentT.new_ok h
  have hp : ∀ x, 0 < 1 + x * x / ν := fun x => by
    have := div_nonneg (mul_self_nonneg x) hν.le
    linarith
  have hn : (FloatOps.lnGamma (midpoint (fin ν) FloatOps.one) -. FloatOps.lnGamma (fin ν /. FloatOps.ofRat 2)
        -. FloatOps.ofRat (1/2) *. FloatOps.ln (fin ν *. FloatOps.pi))
      = fin (Real.log (Real.Gamma ((ν + 1)/2)) - Real.log (Real.Gamma (ν/2))
        - 1/2 * Real.log (ν * Real.pi)) := by
    have h2 : 0 < ν * Real.pi := by positivity
    simp [midpoint_fin, f_div _ _ (two_ne_zero (α := ℝ)), f_ln _ h2,
      f_lnGamma ((ν+1)/2) (by positivity), f_lnGamma (ν/2) (by positivity)]
  constructor
  · rw [StudentT.ld hν]
    simp only [StudentT.decomposition, Decomposition.evaluate, Decomposition.new,
      Decomposition.addParamTerm, Decomposition.addMixedTerm, StudentT.params, List.nil_append,
      List.map_cons, List.map_nil, hn]
    simp [FloatOps.sum, midpoint_fin, f_div _ _ hν.ne', f_ln _ (hp x)]
  · have e : (fun x : ℝ => (logDensityWrtRoot (⟨fin ν⟩ : StudentT XReal) (fin x) : XReal))
        = fin ∘ (fun x => Real.log (Real.Gamma ((ν + 1)/2)) - Real.log (Real.Gamma (ν/2))
        - 1/2 * Real.log (ν * Real.pi) + -((ν + 1)/2) * Real.log (1 + x * x / ν)) := by
      funext x; exact StudentT.ld hν
    rw [e, ← List.map_map, f_sum]
    have e2 : List.map (fun x => FloatOps.sum [neg (midpoint (fin ν) FloatOps.one) *.
          FloatOps.ln (FloatOps.one +. x *. x /. fin ν)]) (xs.map fin)
        = (xs.map (fun x => -((ν + 1)/2) * Real.log (1 + x * x / ν))).map fin := by
      simp [f_div _ _ hν.ne', FloatOps.sum, midpoint_fin, fun x => f_ln _ (hp x)]
    have e3 : List.map (fun _ : XReal => FloatOps.sum ([] : List XReal)) (xs.map fin)
        = (xs.map (fun _ => (0 : ℝ))).map fin := by
      rw [List.map_map, List.map_map]; rfl
    simp only [StudentT.logDensityIid, StudentT.decomposition, Decomposition.evaluateIid, Decomposition.new,
      Decomposition.addParamTerm, Decomposition.addMixedTerm, StudentT.params,
      List.nil_append, List.map_cons, List.map_nil, e2, e3, f_sum, hn]
    simp only [FloatOps.sum, List.foldl, f_zero, f_mul, f_ofNat, f_add, List.length_map]
    congr 1
    simp only [sum_map_add_real, sum_map_const_real]
    ring

example : Normal.new (fin 1) (fin 2) = .ok ⟨fin 1, fin 2⟩ := by simp [Normal.new]
example : Cauchy.new (fin 1) (fin 2) = .ok ⟨fin 1, fin 2⟩ := by simp [Cauchy.new]
example : StudentT.new (fin 3) = .ok ⟨fin 3⟩ := by simp [StudentT.new]

/-! ### C09 Normal -/

theorem exp_half_log {y : ℝ} (hy : 0 < y) : Real.exp (-(1/2) * Real.log y) = (√y)⁻¹ := by
  rw [Real.sqrt_eq_rpow, ← Real.rpow_neg hy.le, Real.rpow_def_of_pos hy]
  ring_nf

/-- **C09**: for every accepted mean and standard deviation, the exponential of the log-density is
the `N(μ, σ²)` density at every real point, and it integrates to one. -/
theorem C09_normal_density {μ σ : ℝ} {d : Normal XReal} (h : Normal.new (fin μ) (fin σ) = .ok d) :
    (∀ x : ℝ, density (logDensityWrtRoot d (fin x))
      = gaussianPDFReal μ (σ ^ 2).toNNReal x) ∧
    ProperReal (fun x => logDensityWrtRoot d x) ∧
    massReal (fun x => logDensityWrtRoot d x) = 1 := by
  obtain ⟨hσ, rfl⟩ := Normal.new_ok h
  have key : ∀ x : ℝ, density (logDensityWrtRoot (⟨fin μ, fin σ⟩ : Normal XReal) (fin x))
      = gaussianPDFReal μ (σ ^ 2).toNNReal x := by
    intro x
    rw [Normal.ld hσ, density_fin, gaussianPDFReal]
    have h2 : (0 : ℝ) < 2 * Real.pi := two_pi_pos'
    rw [Real.coe_toNNReal _ (sq_nonneg σ)]
    rw [Real.sqrt_mul h2.le, Real.sqrt_sq hσ.le, sub_eq_add_neg, sub_eq_add_neg, Real.exp_add,
      Real.exp_add, exp_half_log h2, Real.exp_neg, Real.exp_log hσ, mul_inv]
    congr 2
    field_simp
  refine ⟨key, fun x => Or.inl ⟨_, Normal.ld hσ⟩, ?_⟩
  simp only [massReal, key]
  apply lintegral_gaussianPDFReal_eq_one
  simpa using hσ.ne'

/-! ### C10 Exponential -/

/-- **C10**: density, support and normalisation of the exponential distribution. -/
theorem C10_exponential_density {r : ℝ} {d : Exponential XReal} (h : Exponential.new (fin r) = .ok d) :
    (∀ x : ℝ, 0 ≤ x → logDensityWrtRoot d (fin x) = fin (Real.log r - r * x)) ∧
    (∀ x : ℝ, x < 0 → logDensityWrtRoot d (fin x) = ninf) ∧
    (∀ x : ℝ, density (logDensityWrtRoot d (fin x)) = exponentialPDFReal r x) ∧
    massReal (fun x => logDensityWrtRoot d x) = 1 := by
  obtain ⟨hr, rfl⟩ := Exponential.new_ok h
  have key : ∀ x : ℝ, density (logDensityWrtRoot (⟨fin r⟩ : Exponential XReal) (fin x))
      = exponentialPDFReal r x := by
    intro x
    rcases le_or_gt 0 x with hx | hx
    · rw [Exponential.ld_of_nonneg hr hx]
      simp [exponentialPDFReal, gammaPDFReal, hx, sub_eq_add_neg, Real.exp_add, Real.exp_log hr]
    · rw [Exponential.ld_of_neg hx]
      simp [exponentialPDFReal, gammaPDFReal, not_le.mpr hx]
  refine ⟨fun x hx => Exponential.ld_of_nonneg hr hx, fun x hx => Exponential.ld_of_neg hx, key, ?_⟩
  simp only [massReal, key]
  exact lintegral_exponentialPDF_eq_one hr

example : Exponential.new (fin 2) = .ok ⟨fin 2⟩ := by simp [Exponential.new]
example : Gamma.new (fin 2) (fin 3) = .ok ⟨fin 2, fin 3⟩ := by simp [Gamma.new]
example : Beta.new (fin 2) (fin 3) = .ok ⟨fin 2, fin 3⟩ := by simp [Beta.new]

/-! ### C11 Gamma -/

theorem Gamma.density_eq {a b : ℝ} (ha : 0 < a) (hb : 0 < b) {x : ℝ} (hx : x ≠ 0) :
    density (logDensityWrtRoot (⟨fin a, fin b⟩ : Gamma XReal) (fin x)) = gammaPDFReal a b x := by
  rcases lt_or_gt_of_ne hx with h | h
  · rw [Gamma.ld_of_nonpos h.le]; simp [gammaPDFReal, not_le.mpr h]
  · rw [Gamma.ld_of_pos ha hb h]
    have hG := Real.Gamma_pos_of_pos ha
    simp only [density_fin, gammaPDFReal, h.le, if_true, sub_eq_add_neg, Real.exp_add, Real.exp_neg]
    rw [Real.exp_log hG, Real.rpow_def_of_pos hb, Real.rpow_def_of_pos h]
    rw [mul_comm a, mul_comm (a + -1), div_eq_mul_inv]

/-- **C11**: for accepted shape and rate the exponential of the log-density is the Gamma density at
every `x ≠ 0`, it vanishes for `x ≤ 0`, and integrates to one. -/
theorem C11_gamma_density {a b : ℝ} {d : Gamma XReal} (h : Gamma.new (fin a) (fin b) = .ok d) :
    (∀ x : ℝ, x ≠ 0 → density (logDensityWrtRoot d (fin x)) = gammaPDFReal a b x) ∧
    (∀ x : ℝ, x ≤ 0 → logDensityWrtRoot d (fin x) = ninf) ∧
    (∀ x : ℝ, 0 < x → (logDensityWrtRoot d (fin x) : XReal).IsFin) ∧
    massReal (fun x => logDensityWrtRoot d x) = 1 := by
  obtain ⟨ha, hb, rfl⟩ := Gamma.new_ok h
  refine ⟨fun x hx => Gamma.density_eq ha hb hx, fun x hx => Gamma.ld_of_nonpos hx,
    fun x hx => ⟨_, Gamma.ld_of_pos ha hb hx⟩, ?_⟩
  rw [← lintegral_gammaPDF_eq_one ha hb, massReal]
  apply MeasureTheory.lintegral_congr_ae
  have : ∀ᵐ x : ℝ, x ≠ 0 := by simp [MeasureTheory.ae_iff]
  filter_upwards [this] with x hx
  rw [Gamma.density_eq ha hb hx, gammaPDF]

/-! ### C12 Beta -/

/-- **C12**: density, support and normalisation of the Beta distribution. -/
theorem C12_beta_density {a b : ℝ} {d : Beta XReal} (h : Beta.new (fin a) (fin b) = .ok d) :
    (∀ x : ℝ, density (logDensityWrtRoot d (fin x)) = betaPDFReal a b x) ∧
    (∀ x : ℝ, ¬ (0 < x ∧ x < 1) → logDensityWrtRoot d (fin x) = ninf) ∧
    (∀ x : ℝ, 0 < x → x < 1 → (logDensityWrtRoot d (fin x) : XReal).IsFin) ∧
    massReal (fun x => logDensityWrtRoot d x) = 1 := by
  obtain ⟨ha, hb, rfl⟩ := Beta.new_ok h
  have key : ∀ x : ℝ, density (logDensityWrtRoot (⟨fin a, fin b⟩ : Beta XReal) (fin x))
      = betaPDFReal a b x := by
    intro x
    by_cases hx : 0 < x ∧ x < 1
    · obtain ⟨h0, h1⟩ := hx
      rw [Beta.ld_of_mem ha hb h0 h1]
      have h1' : 0 < 1 - x := by linarith
      simp only [density_fin, betaPDFReal, h0, h1, and_self, if_true, Real.exp_add, Real.exp_sub,
        Real.exp_log (Real.Gamma_pos_of_pos ha), Real.exp_log (Real.Gamma_pos_of_pos hb),
        Real.exp_log (Real.Gamma_pos_of_pos (add_pos ha hb)), beta]
      rw [Real.rpow_def_of_pos h0, Real.rpow_def_of_pos h1', mul_comm (a - 1), mul_comm (b - 1),
        one_div, inv_div, div_div]
    · rw [Beta.ld_of_not_mem hx]
      simp [betaPDFReal, hx]
  refine ⟨key, fun x hx => Beta.ld_of_not_mem hx, fun x h0 h1 => ⟨_, Beta.ld_of_mem ha hb h0 h1⟩, ?_⟩
  simp only [massReal, key]
  exact lintegral_betaPDF_eq_one ha hb

/-! ### C13 Chi-squared -/

/-- **C13**: `ChiSquared::new(k)` has, at every point (including NaN and the infinities), the support of
`Gamma::new(k/2, 1/2)` and at every real point its log-density; it integrates to one. -/
theorem C13_chi_squared_is_gamma {k : ℝ} {d : ChiSquared XReal} {g : Gamma XReal}
    (h : ChiSquared.new (fin k) = .ok d) (hg : Gamma.new (fin (k/2)) (fin (1/2)) = .ok g) :
    (∀ x : XReal, Measure.inSupport d x = Measure.inSupport g x) ∧
    (∀ x : ℝ, (logDensityWrtRoot d (fin x) : XReal) = logDensityWrtRoot g (fin x)) ∧
    massReal (fun x => logDensityWrtRoot d x) = 1 := by
  obtain ⟨hk, rfl⟩ := ChiSquared.new_ok h
  have hm := C11_gamma_density hg
  obtain ⟨ha, hb, rfl⟩ := Gamma.new_ok hg
  have key : ∀ x : ℝ, (logDensityWrtRoot (⟨fin k⟩ : ChiSquared XReal) (fin x) : XReal)
      = logDensityWrtRoot (⟨fin (k/2), fin (1/2)⟩ : Gamma XReal) (fin x) := by
    intro x
    rcases le_or_gt x 0 with hx | hx
    · rw [ChiSquared.ld_of_nonpos hx, Gamma.ld_of_nonpos hx]
    · rw [ChiSquared.ld_of_pos hk hx, Gamma.ld_of_pos ha hb hx]
      congr 1
      rw [show (1/2 : ℝ) = 2⁻¹ by norm_num, Real.log_inv]
      ring
  refine ⟨fun x => rfl, key, ?_⟩
  rw [← hm.2.2.2, massReal, massReal]
  simp only [key]

example : ChiSquared.new (fin 3) = .ok ⟨fin 3⟩ ∧
    Gamma.new (fin (3/2)) (fin (1/2)) = .ok ⟨fin (3/2), fin (1/2)⟩ := by
  constructor
  · simp [ChiSquared.new]
  · simp [Gamma.new]

/-! ### C14 Cauchy -/

theorem Cauchy.density_eq {l s : ℝ} (hs : 0 < s) (x : ℝ) :
    density (logDensityWrtRoot (⟨fin l, fin s⟩ : Cauchy XReal) (fin x))
      = cauchyPDFReal l s.toNNReal x := by
  have hp : 0 < 1 + (x - l)/s * ((x - l)/s) := by
    have := mul_self_nonneg ((x - l)/s)
    linarith
  rw [Cauchy.ld hs, density_fin, cauchyPDFReal_def', sub_eq_add_neg, sub_eq_add_neg, Real.exp_add,
    Real.exp_add, Real.exp_neg, Real.exp_neg, Real.exp_neg, Real.exp_log hp, Real.exp_log hs,
    Real.exp_log Real.pi_pos]
  rw [NNReal.coe_inv, Real.coe_toNNReal _ hs.le, pow_two]; ring

/-- **C14**: density and normalisation of the Cauchy distribution. -/
theorem C14_cauchy_density {l s : ℝ} {d : Cauchy XReal} (h : Cauchy.new (fin l) (fin s) = .ok d) :
    (∀ x : ℝ, density (logDensityWrtRoot d (fin x)) = cauchyPDFReal l s.toNNReal x) ∧
    ProperReal (fun x => logDensityWrtRoot d x) ∧
    massReal (fun x => logDensityWrtRoot d x) = 1 := by
  obtain ⟨hs, rfl⟩ := Cauchy.new_ok h
  refine ⟨fun x => Cauchy.density_eq hs x, fun x => Or.inl ⟨_, Cauchy.ld hs⟩, ?_⟩
  simp only [massReal, Cauchy.density_eq hs]
  apply lintegral_cauchyPDF_eq_one
  simpa using hs

/-! ### C15 Student-t -/

theorem StudentT.density_eq {ν : ℝ} (hν : 0 < ν) (x : ℝ) :
    density (logDensityWrtRoot (⟨fin ν⟩ : StudentT XReal) (fin x)) = studentTPDFReal ν x := by
  have hp : 0 < 1 + x * x / ν := by
    have := div_nonneg (mul_self_nonneg x) hν.le
    linarith
  have h2 : 0 < ν * Real.pi := by positivity
  have g1 := Real.Gamma_pos_of_pos (show 0 < (ν + 1)/2 by positivity)
  have g2 := Real.Gamma_pos_of_pos (show 0 < ν/2 by positivity)
  rw [StudentT.ld hν, density_fin, studentTPDFReal, Real.exp_add, sub_eq_add_neg, Real.exp_add,
    Real.exp_sub, Real.exp_log g1, Real.exp_log g2, ← neg_mul, exp_half_log h2, pow_two,
    Real.rpow_def_of_pos hp, mul_comm (-((ν + 1)/2))]
  congr 1
  field_simp

/-- **C15**: the log-density is the logarithm of the t density for every accepted `ν`; for `ν = 1` it
is the standard Cauchy log-density; it integrates to one. -/
theorem C15_student_t_density {ν : ℝ} {d : StudentT XReal} (h : StudentT.new (fin ν) = .ok d) :
    (∀ x : ℝ, density (logDensityWrtRoot d (fin x)) = studentTPDFReal ν x) ∧
    ProperReal (fun x => logDensityWrtRoot d x) ∧
    (ν = 1 → ∀ c : Cauchy XReal, Cauchy.standard = .ok c → ∀ x : ℝ,
      (logDensityWrtRoot d (fin x) : XReal) = logDensityWrtRoot c (fin x)) ∧
    massReal (fun x => logDensityWrtRoot d x) = 1 := by
  obtain ⟨hν, rfl⟩ := StudentT.new_ok h
  refine ⟨StudentT.density_eq hν, fun x => Or.inl ⟨_, StudentT.ld hν⟩, ?_, ?_⟩
  · rintro rfl c hc x
    have hc' : Cauchy.new (fin 0) (fin 1) = .ok c := by
      simpa [Cauchy.standard] using hc
    obtain ⟨_, rfl⟩ := Cauchy.new_ok hc'
    rw [StudentT.ld one_pos, Cauchy.ld one_pos]
    congr 1
    norm_num
    rw [Real.Gamma_one_half_eq, Real.log_sqrt Real.pi_pos.le]
    simp
    ring
  · simp only [massReal, StudentT.density_eq hν]
    exact lintegral_studentTPDFReal hν

example : Cauchy.standard = .ok (⟨fin 0, fin 1⟩ : Cauchy XReal) := by
  simp [Cauchy.standard, Cauchy.new]

end Verif
