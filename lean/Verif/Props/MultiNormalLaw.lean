import Verif.Props.MultiNormal
import Verif.Lemmas.Dist
import Mathlib.Probability.Distributions.Gaussian.Multivariate
import Mathlib.MeasureTheory.Measure.Lebesgue.VolumeOfBalls
import Mathlib.MeasureTheory.Integral.Pi

/-!
# C104: the density of the multivariate normal distribution is that of the Gaussian law
-/

namespace Verif
open MeasureTheory ProbabilityTheory Matrix

variable {n : ℕ}

/-- the product density of independent standard normal variables -/
theorem pi_gaussian_density (n : ℕ) :
    MeasureTheory.Measure.pi (fun _ : Fin n => gaussianReal 0 1) =
      (volume : MeasureTheory.Measure (Fin n → ℝ)).withDensity fun x => ENNReal.ofReal (∏ i, gaussianPDFReal 0 1 (x i)) := by
  symm
  refine (MeasureTheory.Measure.pi_eq fun s hs => ?_).symm
  rw [withDensity_apply _ (MeasurableSet.univ_pi hs), ← lintegral_indicator (MeasurableSet.univ_pi hs)]
  have hind : (Set.univ.pi s).indicator (fun x : Fin n → ℝ => ENNReal.ofReal (∏ i, gaussianPDFReal 0 1 (x i))) =
      fun x => ENNReal.ofReal (∏ i, (s i).indicator (gaussianPDFReal 0 1) (x i)) := by
    funext x
    by_cases hx : x ∈ Set.univ.pi s
    · rw [Set.indicator_of_mem hx]
      congr 1
      refine Finset.prod_congr rfl fun i _ => ?_
      rw [Set.indicator_of_mem (hx i (Set.mem_univ i))]
    · rw [Set.indicator_of_notMem hx]
      simp only [Set.mem_pi, not_forall] at hx
      obtain ⟨i, -, hi⟩ := hx
      rw [Finset.prod_eq_zero (Finset.mem_univ i) (Set.indicator_of_notMem hi _), ENNReal.ofReal_zero]
  rw [hind]
  have hint : ∀ i, Integrable ((s i).indicator (gaussianPDFReal 0 1)) := fun i =>
    (integrable_gaussianPDFReal 0 1).indicator (hs i)
  have hnn : ∀ i (t : ℝ), 0 ≤ (s i).indicator (gaussianPDFReal 0 1) t := fun i t =>
    Set.indicator_nonneg (fun t _ => gaussianPDFReal_nonneg 0 1 t) t
  have hI : Integrable (fun x : Fin n → ℝ => ∏ i, (s i).indicator (gaussianPDFReal 0 1) (x i)) volume := by
    rw [volume_pi]
    exact Integrable.fintype_prod hint
  rw [← ofReal_integral_eq_lintegral_ofReal hI
    (Filter.Eventually.of_forall fun x => Finset.prod_nonneg fun i _ => hnn i (x i)),
    integral_fintype_prod_volume_eq_prod,
    ENNReal.ofReal_prod_of_nonneg fun i _ => integral_nonneg (hnn i)]
  refine Finset.prod_congr rfl fun i _ => ?_
  rw [gaussianReal_apply_eq_integral 0 one_ne_zero, integral_indicator (hs i)]

/-- the density of an affine image -/
theorem affine_density (μ : Fin n → ℝ) {A : Matrix (Fin n) (Fin n) ℝ} (hA : A.det ≠ 0)
    {g : (Fin n → ℝ) → ENNReal} (hg : Measurable g) :
    ((volume : MeasureTheory.Measure (Fin n → ℝ)).withDensity g).map (fun x => μ + A.mulVec x) =
      volume.withDensity fun y => ENNReal.ofReal |A.det⁻¹| * g (A⁻¹.mulVec (y - μ)) := by
  have hu : IsUnit A.det := isUnit_iff_ne_zero.mpr hA
  have hmul : ∀ B : Matrix (Fin n) (Fin n) ℝ, Measurable fun x : Fin n → ℝ => B.mulVec x := fun B =>
    (Continuous.matrix_mulVec continuous_const continuous_id).measurable
  have hφ : Measurable fun x : Fin n → ℝ => μ + A.mulVec x := (hmul A).const_add μ
  have hψ : Measurable fun y : Fin n → ℝ => A⁻¹.mulVec (y - μ) := (hmul A⁻¹).comp (measurable_id.sub_const μ)
  have hinv : ∀ x, A⁻¹.mulVec (μ + A.mulVec x - μ) = x := fun x => by
    rw [add_sub_cancel_left, mulVec_mulVec, nonsing_inv_mul A hu, one_mulVec]
  have hvol : (volume : MeasureTheory.Measure (Fin n → ℝ)).map (fun x => μ + A.mulVec x) =
      ENNReal.ofReal |A.det⁻¹| • volume := by
    have h1 : (fun x : Fin n → ℝ => μ + A.mulVec x) = (fun x => μ + x) ∘ (Matrix.toLin' A) := by
      funext x; simp
    rw [h1, ← MeasureTheory.Measure.map_map (measurable_const_add μ) (by
      have h2 : ⇑(Matrix.toLin' A) = fun x => A.mulVec x := by funext x; simp
      rw [h2]; exact hmul A),
      Real.map_matrix_volume_pi_eq_smul_volume_pi hA, MeasureTheory.Measure.map_smul, map_add_left_eq_self]
  ext s hs
  rw [MeasureTheory.Measure.map_apply hφ hs, withDensity_apply _ (hφ hs), withDensity_apply _ hs,
    ← lintegral_indicator (hφ hs), ← lintegral_indicator hs]
  have h1 : ((fun x => μ + A.mulVec x) ⁻¹' s).indicator g =
      fun x => s.indicator (fun y => g (A⁻¹.mulVec (y - μ))) (μ + A.mulVec x) := by
    funext x
    by_cases hx : μ + A.mulVec x ∈ s
    · rw [Set.indicator_of_mem (by exact hx), Set.indicator_of_mem hx, hinv]
    · rw [Set.indicator_of_notMem (by exact hx), Set.indicator_of_notMem hx]
  have hm : Measurable (s.indicator fun y => g (A⁻¹.mulVec (y - μ))) := (hg.comp hψ).indicator hs
  rw [h1, ← lintegral_map hm hφ, hvol, lintegral_smul_measure, smul_eq_mul, ← lintegral_const_mul _ hm]
  congr 1
  funext y
  by_cases hy : y ∈ s
  · simp only [Set.indicator_of_mem hy]
  · simp only [Set.indicator_of_notMem hy, mul_zero]

open scoped MatrixOrder in
/-- The textbook density is the density of Mathlib's Gaussian measure. -/
theorem mvnPdf_law (μ : Fin n → ℝ) {S : Matrix (Fin n) (Fin n) ℝ} (hS : S.PosDef) :
    (volume : MeasureTheory.Measure (Fin n → ℝ)).withDensity (fun x => ENNReal.ofReal (mvnPdf μ S x)) =
      (multivariateGaussian (WithLp.toLp 2 μ) S).map WithLp.ofLp := by
  set A := CFC.sqrt S with hAdef
  have hAA : A * A = S := CFC.sqrt_mul_sqrt_self S (ha := hS.posSemidef.nonneg)
  have hApos : A.PosSemidef := (CFC.sqrt_nonneg S).posSemidef
  have hdet : A.det * A.det = S.det := by rw [← det_mul, hAA]
  have hA0 : A.det ≠ 0 := by
    intro h
    have := hS.det_pos
    rw [← hdet, h, zero_mul] at this
    exact lt_irrefl _ this
  have hAd : 0 < A.det := lt_of_le_of_ne hApos.det_nonneg hA0.symm
  have hu : IsUnit A.det := isUnit_iff_ne_zero.mpr hA0
  have hAt : A⁻¹.transpose = A⁻¹ := by
    have := hApos.isHermitian.inv
    rw [IsHermitian, conjTranspose_eq_transpose_of_trivial] at this
    exact this
  have hSinv : S⁻¹ = A⁻¹ * A⁻¹ := by rw [← hAA, Matrix.mul_inv_rev]
  -- the law as an affine image of independent standard normal variables
  have hlaw : (multivariateGaussian (WithLp.toLp 2 μ) S).map WithLp.ofLp =
      (MeasureTheory.Measure.pi (fun _ : Fin n => gaussianReal 0 1)).map (fun x => μ + A.mulVec x) := by
    rw [multivariateGaussian, ← map_pi_eq_stdGaussian, MeasureTheory.Measure.map_map (by fun_prop) (by fun_prop),
      MeasureTheory.Measure.map_map (by fun_prop) (by fun_prop)]
    congr 1
  rw [hlaw, pi_gaussian_density, affine_density μ hA0 (by
    refine ENNReal.measurable_ofReal.comp ?_
    exact Finset.measurable_prod _ fun i _ => (measurable_gaussianPDFReal 0 1).comp (measurable_pi_apply i))]
  congr 1
  funext y
  rw [← ENNReal.ofReal_mul (abs_nonneg _)]
  congr 1
  set z := A⁻¹.mulVec (y - μ) with hz
  have hquad : (y - μ) ⬝ᵥ S⁻¹.mulVec (y - μ) = ∑ i, z i ^ 2 := by
    rw [hSinv, ← mulVec_mulVec, dotProduct_mulVec, ← mulVec_transpose, hAt, ← hz]
    simp only [dotProduct, _root_.sq]
  have hprod : ∏ i, gaussianPDFReal 0 1 (z i) = (√(2 * Real.pi))⁻¹ ^ n * Real.exp (-(1/2) * ∑ i, z i ^ 2) := by
    simp only [gaussianPDFReal, NNReal.coe_one, mul_one, sub_zero]
    rw [Finset.prod_mul_distrib, Finset.prod_const, Finset.card_univ, Fintype.card_fin, ← Real.exp_sum,
      Finset.mul_sum]
    congr 2
    exact Finset.sum_congr rfl fun i _ => by ring
  rw [hprod, mvnPdf, hquad, abs_of_pos (inv_pos.mpr hAd), ← hdet,
    Real.sqrt_mul (by positivity), Real.sqrt_mul_self hAd.le]
  have hpi : √((2 * Real.pi) ^ n) = √(2 * Real.pi) ^ n := by
    rw [Real.sqrt_eq_iff_mul_self_eq (by positivity) (by positivity), ← mul_pow,
      Real.mul_self_sqrt (by positivity)]
  rw [hpi, inv_pow]
  field_simp

/-- **C104**: for a positive definite covariance matrix the computed density is the density of the
Gaussian law with this mean and covariance. -/
theorem C104_law {la : LinAlg XReal} (hla : la.Exact) (μ : Fin n → ℝ)
    {S : Matrix (Fin n) (Fin n) ℝ} (hS : S.PosDef) :
    ∃ d, MultivariateNormal.new la (realVec μ) (realMat S) = .ok d ∧
      (volume : MeasureTheory.Measure (Fin n → ℝ)).withDensity
        (fun x => ENNReal.ofReal (okDensity (d.expFamLogDensity (realVec x)))) =
      (multivariateGaussian (WithLp.toLp 2 μ) S).map WithLp.ofLp := by
  obtain ⟨d, hd, hx⟩ := C104_log_density hla μ hS
  refine ⟨d, hd, ?_⟩
  rw [← mvnPdf_law μ hS]
  congr 1
  funext x
  rw [hx]
  show ENNReal.ofReal (Real.exp (Real.log (mvnPdf μ S x))) = _
  rw [Real.exp_log (mvnPdf_pos hS.det_pos μ x)]

/-- **C104**: the density integrates to one. -/
theorem C104_total_mass {la : LinAlg XReal} (hla : la.Exact) (μ : Fin n → ℝ)
    {S : Matrix (Fin n) (Fin n) ℝ} (hS : S.PosDef) :
    ∃ d, MultivariateNormal.new la (realVec μ) (realMat S) = .ok d ∧
      ∫⁻ x : Fin n → ℝ, ENNReal.ofReal (okDensity (d.expFamLogDensity (realVec x))) = 1 := by
  obtain ⟨d, hd, h⟩ := C104_law hla μ hS
  refine ⟨d, hd, ?_⟩
  have h1 := congrArg (fun m : MeasureTheory.Measure (Fin n → ℝ) => m Set.univ) h
  simp only at h1
  rw [withDensity_apply _ MeasurableSet.univ, Measure.restrict_univ,
    MeasureTheory.Measure.map_apply (by fun_prop) MeasurableSet.univ, Set.preimage_univ, measure_univ] at h1
  exact h1

/-- an integral against the textbook density is an expectation under the Gaussian law -/
theorem integral_mvnPdf (μ : Fin n → ℝ) {S : Matrix (Fin n) (Fin n) ℝ} (hS : S.PosDef)
    {g : (Fin n → ℝ) → ℝ} (hg : Measurable g) :
    ∫ x, mvnPdf μ S x * g x = ∫ x, g (WithLp.ofLp x) ∂(multivariateGaussian (WithLp.toLp 2 μ) S) := by
  have hpdf : Measurable (mvnPdf μ S) := by
    refine (Continuous.measurable ?_)
    unfold mvnPdf
    have h1 : Continuous fun x : Fin n → ℝ => x - μ := continuous_id.sub continuous_const
    have h2 : Continuous fun x : Fin n → ℝ => S⁻¹.mulVec (x - μ) := Continuous.matrix_mulVec continuous_const h1
    exact ((Real.continuous_exp.comp (continuous_const.mul (h1.dotProduct h2))).div_const _)
  rw [← integral_map (φ := WithLp.ofLp) (f := g) (by fun_prop) hg.aestronglyMeasurable, ← mvnPdf_law μ hS,
    integral_withDensity_eq_integral_toReal_smul (by fun_prop) (by simp)]
  refine integral_congr_ae (Filter.Eventually.of_forall fun x => ?_)
  simp only [smul_eq_mul]
  rw [ENNReal.toReal_ofReal (mvnPdf_pos hS.det_pos μ x).le]

/-- **C104**: the fields called mean and covariance are the mean and the covariance of the density. -/
theorem C104_moments {la : LinAlg XReal} (hla : la.Exact) (μ : Fin n → ℝ)
    {S : Matrix (Fin n) (Fin n) ℝ} (hS : S.PosDef) :
    ∃ d, MultivariateNormal.new la (realVec μ) (realMat S) = .ok d ∧
      d.mean = realVec μ ∧ d.covariance = realMat S ∧
      (∀ i, ∫ x : Fin n → ℝ, okDensity (d.expFamLogDensity (realVec x)) * x i = μ i) ∧
      ∀ i j, ∫ x : Fin n → ℝ, okDensity (d.expFamLogDensity (realVec x)) * ((x i - μ i) * (x j - μ j)) = S i j := by
  obtain ⟨d, hd, hx⟩ := C104_log_density hla μ hS
  have hden : ∀ x : Fin n → ℝ, okDensity (d.expFamLogDensity (realVec x)) = mvnPdf μ S x := fun x => by
    rw [hx]
    show Real.exp (Real.log (mvnPdf μ S x)) = _
    rw [Real.exp_log (mvnPdf_pos hS.det_pos μ x)]
  have hmean : ∀ i, ∫ x : EuclideanSpace ℝ (Fin n), x i ∂(multivariateGaussian (WithLp.toLp 2 μ) S) = μ i := by
    intro i
    have h1 := (EuclideanSpace.proj i : EuclideanSpace ℝ (Fin n) →L[ℝ] ℝ).integral_comp_comm
      (IsGaussian.integrable_id (μ := multivariateGaussian (WithLp.toLp 2 μ) S))
    simp only [id] at h1
    rw [integral_id_multivariateGaussian] at h1
    exact h1
  have hd' := hd
  rw [MultivariateNormal.new_real hla μ S hS.det_pos.ne'] at hd'
  refine ⟨d, hd, by cases hd'; rfl, by cases hd'; rfl, fun i => ?_, fun i j => ?_⟩
  · simp only [hden]
    rw [integral_mvnPdf μ hS (g := fun x => x i) (measurable_pi_apply i)]
    exact hmean i
  · simp only [hden]
    rw [integral_mvnPdf μ hS (g := fun x => (x i - μ i) * (x j - μ j)) (by fun_prop)]
    have h2 := covariance_eval_multivariateGaussian (μ := WithLp.toLp 2 μ) hS.posSemidef i j
    rw [covariance, hmean, hmean] at h2
    exact h2

/-- **C104**: with a diagonal covariance matrix the log-density is the sum of the log-densities of the
one-dimensional normal distributions of the library. -/
theorem C104_independent {la : LinAlg XReal} (hla : la.Exact) (μ σ : Fin n → ℝ) (hσ : ∀ i, 0 < σ i) :
    ∃ d, MultivariateNormal.new la (realVec μ) (realMat (Matrix.diagonal fun i => σ i ^ 2)) = .ok d ∧
      ∀ x : Fin n → ℝ, d.expFamLogDensity (realVec x) =
        .ok (FloatOps.sum ((List.finRange n).map fun i =>
          logDensityWrtRoot (⟨.fin (μ i), .fin (σ i)⟩ : Normal XReal) (.fin (x i)))) := by
  have hS : (Matrix.diagonal fun i => σ i ^ 2).PosDef := by
    rw [posDef_diagonal_iff]
    exact fun i => pow_pos (hσ i) 2
  obtain ⟨d, hd, hx⟩ := C104_log_density hla μ hS
  refine ⟨d, hd, fun x => ?_⟩
  rw [hx, log_mvnPdf hS.det_pos]
  have h1 : (fun i => logDensityWrtRoot (⟨.fin (μ i), .fin (σ i)⟩ : Normal XReal) (.fin (x i))) = fun i =>
      XReal.fin (-(1/2) * Real.log (2 * Real.pi) - Real.log (σ i) -
        1/2 * ((x i - μ i)/σ i) * ((x i - μ i)/σ i)) := by
    funext i; exact Normal.ld (hσ i)
  rw [h1, sum_finRange]
  congr 2
  have hinv : (Matrix.diagonal fun i => σ i ^ 2)⁻¹ = Matrix.diagonal fun i => (σ i ^ 2)⁻¹ := by
    refine Matrix.inv_eq_right_inv ?_
    rw [Matrix.diagonal_mul_diagonal, ← Matrix.diagonal_one]
    congr 1
    funext i
    exact mul_inv_cancel₀ (pow_pos (hσ i) 2).ne'
  rw [hinv, det_diagonal, Real.log_prod (fun i _ => (pow_pos (hσ i) 2).ne')]
  simp only [dotProduct, mulVec_diagonal, Pi.sub_apply, Real.log_pow, Finset.sum_sub_distrib,
    Finset.sum_const, Finset.card_univ, Fintype.card_fin, nsmul_eq_mul]
  have h2 : ∑ i, (x i - μ i) * ((σ i ^ 2)⁻¹ * (x i - μ i)) = 2 * ∑ i, 1/2 * ((x i - μ i)/σ i) * ((x i - μ i)/σ i) := by
    rw [Finset.mul_sum]
    refine Finset.sum_congr rfl fun i _ => ?_
    have := (hσ i).ne'
    field_simp
  have h3 : ∑ i, ((2 : ℕ) : ℝ) * Real.log (σ i) = 2 * ∑ i, Real.log (σ i) := by
    rw [Finset.mul_sum]; norm_num
  rw [h2, h3]
  ring

/-! ### matrices that are not covariance matrices -/

/-- **C104 violated**: the constructor does not check that the matrix is positive definite. `-I` in the
plane is accepted, and its "density" is unbounded. -/
theorem C104_not_positive_violated {la : LinAlg XReal} (hla : la.Exact) :
    ∃ d, MultivariateNormal.new la (realVec (0 : Fin 2 → ℝ)) (realMat (-1 : Matrix (Fin 2) (Fin 2) ℝ)) = .ok d ∧
      ∀ B : ℝ, ∃ x : Fin 2 → ℝ, B < okDensity (d.expFamLogDensity (realVec x)) := by
  have hdet : (-1 : Matrix (Fin 2) (Fin 2) ℝ).det = 1 := by simp [det_neg]
  refine ⟨_, MultivariateNormal.new_real hla 0 (-1) (by rw [hdet]; exact one_ne_zero), fun B => ?_⟩
  have hinv : (-1 : Matrix (Fin 2) (Fin 2) ℝ)⁻¹ = -1 := by
    refine Matrix.inv_eq_right_inv ?_
    simp
  set c := 1/2 * (((2 : ℕ) : ℝ) * Real.log (2 * Real.pi)) with hc
  refine ⟨![|B| + |c| + 2, 0], ?_⟩
  rw [expFam_real _ _ _ (by rw [hdet]; exact one_pos), hinv, hdet]
  show B < Real.exp _
  have h1 := abs_nonneg c
  have h2 := le_abs_self c
  have h3 := le_abs_self B
  have h4 := abs_nonneg B
  refine lt_of_lt_of_le ?_ (Real.add_one_le_exp _)
  simp only [mulVec_zero, zero_dotProduct, dotProduct_zero, neg_mulVec, one_mulVec, dotProduct_neg,
    mul_zero, zero_add, Real.log_one, add_zero, ← hc]
  simp only [dotProduct, Fin.sum_univ_two, cons_val_zero, cons_val_one, mul_zero, add_zero]
  nlinarith

/-- **C104 violated**: a negative variance is accepted and every log-density is NaN. -/
theorem C104_nan_violated {la : LinAlg XReal} (hla : la.Exact) :
    ∃ d, MultivariateNormal.new la (realVec (0 : Fin 1 → ℝ)) (realMat (-1 : Matrix (Fin 1) (Fin 1) ℝ)) = .ok d ∧
      ∀ x : Fin 1 → ℝ, d.expFamLogDensity (realVec x) = .ok .nan := by
  have hdet : (-1 : Matrix (Fin 1) (Fin 1) ℝ).det = -1 := by simp
  refine ⟨_, MultivariateNormal.new_real hla 0 (-1) (by rw [hdet]; norm_num), fun x => ?_⟩
  have hpart : (MultivariateNormal.built (0 : Fin 1 → ℝ) (-1)).logPartition = .ok .nan := by
    unfold MultivariateNormal.logPartition
    simp only [MultivariateNormal.built, mulVec_real, bind, Except.bind, dot_real, pure, Except.pure, hdet]
    rw [XReal.f_ln_neg _ (by norm_num : (-1 : ℝ) < 0)]
    simp
  have hnat : (MultivariateNormal.built (0 : Fin 1 → ℝ) (-1)).toNatural =
      .ok (realVec ((-1 : Matrix (Fin 1) (Fin 1) ℝ)⁻¹.mulVec 0),
        realMat (((-1/2 : ℚ) : ℝ) • (-1 : Matrix (Fin 1) (Fin 1) ℝ)⁻¹)) := by
    unfold MultivariateNormal.toNatural
    simp only [MultivariateNormal.built, mulVec_real, map_real]
    rfl
  unfold MultivariateNormal.expFamLogDensity
  simp only [hnat, hpart, bind, Except.bind, MultivariateNormal.dotProduct,
    MultivariateNormal.sufficientStatistic, outer_real, dot_real, frobenius_real, pure, Except.pure]
  simp

/-- **C104 violated**: a matrix that is not symmetric is accepted and the "density" does not integrate
to one: with the rows `(1, 1)` and `(0, 1)` the integral is `2/√3`. -/
theorem C104_not_symmetric_violated {la : LinAlg XReal} (hla : la.Exact) :
    ∃ d, MultivariateNormal.new la (realVec (0 : Fin 2 → ℝ)) (realMat !![1, 1; 0, 1]) = .ok d ∧
      ∫⁻ x : Fin 2 → ℝ, ENNReal.ofReal (okDensity (d.expFamLogDensity (realVec x))) =
        ENNReal.ofReal (2 / √3) ∧ ENNReal.ofReal (2 / √3) ≠ 1 := by
  have hdet : (!![1, 1; 0, 1] : Matrix (Fin 2) (Fin 2) ℝ).det = 1 := by simp [det_fin_two]
  have hinv : (!![1, 1; 0, 1] : Matrix (Fin 2) (Fin 2) ℝ)⁻¹ = !![1, -1; 0, 1] := by
    refine Matrix.inv_eq_right_inv ?_
    ext i j; fin_cases i <;> fin_cases j <;> simp
  have hT : (!![4/3, 2/3; 2/3, 4/3] : Matrix (Fin 2) (Fin 2) ℝ).PosDef := by
    refine Matrix.PosDef.of_dotProduct_mulVec_pos ?_ fun x hx => ?_
    · ext i j; fin_cases i <;> fin_cases j <;> simp
    · simp only [star_trivial, dotProduct, mulVec, Fin.sum_univ_two, of_apply, cons_val', cons_val_zero,
        cons_val_one, cons_val_fin_one]
      have : x 0 ≠ 0 ∨ x 1 ≠ 0 := by
        by_contra hc
        push Not at hc
        exact hx (by funext i; fin_cases i <;> simp [hc.1, hc.2])
      rcases this with h | h
      · have := sq_pos_of_ne_zero h
        nlinarith [sq_nonneg (x 0 + x 1), sq_nonneg (x 1)]
      · have := sq_pos_of_ne_zero h
        nlinarith [sq_nonneg (x 0 + x 1), sq_nonneg (x 0)]
  have hTdet : (!![4/3, 2/3; 2/3, 4/3] : Matrix (Fin 2) (Fin 2) ℝ).det = 4/3 := by
    rw [det_fin_two]; simp; norm_num
  have hTinv : (!![4/3, 2/3; 2/3, 4/3] : Matrix (Fin 2) (Fin 2) ℝ)⁻¹ = !![1, -1/2; -1/2, 1] := by
    refine Matrix.inv_eq_right_inv ?_
    ext i j; fin_cases i <;> fin_cases j <;> simp [Matrix.mul_apply, Fin.sum_univ_two] <;> norm_num
  refine ⟨_, MultivariateNormal.new_real hla 0 _ (by rw [hdet]; exact one_ne_zero), ?_, ?_⟩
  · have hs3 : (0 : ℝ) < √3 := by positivity
    have hden : ∀ x : Fin 2 → ℝ, okDensity ((MultivariateNormal.built 0 !![1, 1; 0, 1]).expFamLogDensity (realVec x)) =
        2 / √3 * mvnPdf 0 !![4/3, 2/3; 2/3, 4/3] x := by
      intro x
      rw [expFam_real _ _ _ (by rw [hdet]; exact one_pos), hinv, hdet]
      show Real.exp _ = _
      have h43 : 2 / √3 = Real.exp (1/2 * Real.log (4/3)) := by
        rw [show 1/2 * Real.log (4/3) = Real.log √(4/3) by rw [Real.log_sqrt (by norm_num)]; ring,
          Real.exp_log (by positivity), Real.sqrt_div (by norm_num),
          show (4 : ℝ) = 2 ^ 2 by norm_num, Real.sqrt_sq (by norm_num)]
      rw [← Real.exp_log (mvnPdf_pos hT.det_pos 0 x), log_mvnPdf hT.det_pos, hTinv, hTdet, h43, ← Real.exp_add]
      congr 1
      simp only [sub_zero, dotProduct, mulVec, Fin.sum_univ_two, Pi.zero_apply,
        of_apply, cons_val', cons_val_zero, cons_val_one, cons_val_fin_one, Real.log_one]
      ring
    simp only [hden]
    simp only [ENNReal.ofReal_mul (show (0 : ℝ) ≤ 2 / √3 by positivity)]
    have hmeas : Measurable fun x : Fin 2 → ℝ => ENNReal.ofReal (mvnPdf 0 !![4/3, 2/3; 2/3, 4/3] x) := by
      refine ENNReal.measurable_ofReal.comp (Continuous.measurable ?_)
      unfold mvnPdf
      have h1 : Continuous fun x : Fin 2 → ℝ => x - 0 := continuous_id.sub continuous_const
      have h2 : Continuous fun x : Fin 2 → ℝ => (!![4/3, 2/3; 2/3, 4/3] : Matrix (Fin 2) (Fin 2) ℝ)⁻¹.mulVec (x - 0) :=
        Continuous.matrix_mulVec continuous_const h1
      exact ((Real.continuous_exp.comp (continuous_const.mul (h1.dotProduct h2))).div_const _)
    rw [lintegral_const_mul _ hmeas]
    have h1 := congrArg (fun m : MeasureTheory.Measure (Fin 2 → ℝ) => m Set.univ) (mvnPdf_law 0 hT)
    simp only at h1
    rw [withDensity_apply _ MeasurableSet.univ, Measure.restrict_univ,
      MeasureTheory.Measure.map_apply (by fun_prop) MeasurableSet.univ, Set.preimage_univ, measure_univ] at h1
    rw [h1, mul_one]
  · intro h
    have hs3 : (0 : ℝ) < √3 := by positivity
    have h2 : 2 / √3 = 1 := by
      have := congrArg ENNReal.toReal h
      rwa [ENNReal.toReal_ofReal (by positivity), ENNReal.toReal_one] at this
    rw [div_eq_one_iff_eq hs3.ne'] at h2
    have := Real.sq_sqrt (show (0 : ℝ) ≤ 3 by norm_num)
    rw [← h2] at this
    norm_num at this

/-! ### the hypotheses can be met -/

open Classical in
/-- exact linear algebra exists -/
theorem exists_linAlg : ∃ la : LinAlg XReal, la.Exact := by
  let inv : (n : ℕ) → (Fin n → Fin n → XReal) → Option (Fin n → Fin n → XReal) := fun n m =>
    let a : Matrix (Fin n) (Fin n) ℝ := fun i j => (m i j).toReal
    if a.det = 0 then none else some fun i j => .fin (a⁻¹ i j)
  let det : (n : ℕ) → (Fin n → Fin n → XReal) → XReal := fun n m =>
    let a : Matrix (Fin n) (Fin n) ℝ := fun i j => (m i j).toReal
    .fin a.det
  refine ⟨⟨inv, det⟩, ?_, ?_, ?_⟩
  · intro n a h
    exact if_neg h
  · intro n a h
    exact if_pos h
  · intro n a
    rfl

example : (!![2, 1; 1, 2] : Matrix (Fin 2) (Fin 2) ℝ).PosDef := by
  refine Matrix.PosDef.of_dotProduct_mulVec_pos ?_ fun x hx => ?_
  · ext i j; fin_cases i <;> fin_cases j <;> simp
  · simp only [star_trivial, dotProduct, mulVec, Fin.sum_univ_two, of_apply, cons_val', cons_val_zero,
      cons_val_one, cons_val_fin_one]
    have : x 0 ≠ 0 ∨ x 1 ≠ 0 := by
      by_contra hc
      push Not at hc
      exact hx (by funext i; fin_cases i <;> simp [hc.1, hc.2])
    rcases this with h | h
    · have := sq_pos_of_ne_zero h
      nlinarith [sq_nonneg (x 0 + x 1), sq_nonneg (x 1)]
    · have := sq_pos_of_ne_zero h
      nlinarith [sq_nonneg (x 0 + x 1), sq_nonneg (x 0)]

end Verif
