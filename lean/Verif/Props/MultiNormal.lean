import Verif.Spec.MultiNormal
import Verif.Lemmas.XSum
import Mathlib.Analysis.SpecialFunctions.Sqrt
import Mathlib.LinearAlgebra.Matrix.Trace
import Mathlib.Analysis.Matrix.PosDef
import Mathlib.Algebra.Order.Star.Real

/-!
# C104: the multivariate normal distribution
-/

namespace Verif
open FloatOps XReal Matrix

variable {n : ℕ}

/-- sums over index ranges are finite sums -/
theorem sum_finRange (g : Fin n → ℝ) :
    FloatOps.sum ((List.finRange n).map fun i => XReal.fin (g i)) = .fin (∑ i, g i) := by
  have := f_sum ((List.finRange n).map g)
  rw [List.map_map] at this
  rw [show (fun i => XReal.fin (g i)) = XReal.fin ∘ g from rfl, this]
  rw [← List.ofFn_eq_map, List.sum_ofFn]

theorem sum_grid {m : ℕ} (g : Fin m → Fin n → ℝ) :
    FloatOps.sum ((List.finRange n).flatMap fun j => (List.finRange m).map fun i => XReal.fin (g i j)) =
      .fin (∑ i, ∑ j, g i j) := by
  have h : ((List.finRange n).flatMap fun j => (List.finRange m).map fun i => XReal.fin (g i j)) =
      ((List.finRange n).flatMap fun j => (List.finRange m).map fun i => g i j).map XReal.fin := by
    rw [List.map_flatMap]; simp [List.map_map, Function.comp_def]
  rw [h, f_sum]
  congr 1
  rw [Finset.sum_comm, List.flatMap_def, List.sum_flatten, List.map_map, ← List.ofFn_eq_map, List.sum_ofFn]
  refine Finset.sum_congr rfl fun j _ => ?_
  simp only [Function.comp_def]
  rw [← List.ofFn_eq_map, List.sum_ofFn]

theorem dot_real (a b : Fin n → ℝ) : (realVec a).dot (realVec b) = .ok (.fin (a ⬝ᵥ b)) := by
  have h : (realVec a).dot (realVec b) =
      .ok (FloatOps.sum ((List.finRange n).map fun i => XReal.fin (a i * b i))) := by
    unfold DVector.dot
    exact dif_pos rfl
  rw [h, sum_finRange]; rfl

theorem mulVec_real {m : ℕ} (a : Matrix (Fin m) (Fin n) ℝ) (v : Fin n → ℝ) :
    (realMat a).mulVec (realVec v) = .ok (realVec (a.mulVec v)) := by
  have h : (realMat a).mulVec (realVec v) =
      .ok ⟨m, fun i => FloatOps.sum ((List.finRange n).map fun j => XReal.fin (a i j * v j))⟩ := by
    unfold DMatrix.mulVec
    exact dif_pos rfl
  rw [h]
  simp only [sum_finRange]
  rfl

theorem frobenius_real {m : ℕ} (a b : Matrix (Fin m) (Fin n) ℝ) :
    (realMat a).frobenius (realMat b) = .ok (.fin (∑ i, ∑ j, a i j * b i j)) := by
  have h : (realMat a).frobenius (realMat b) =
      .ok (FloatOps.sum ((List.finRange n).flatMap fun j =>
        (List.finRange m).map fun i => XReal.fin (a i j * b i j))) := by
    unfold DMatrix.frobenius
    exact dif_pos ⟨rfl, rfl⟩
  rw [h, sum_grid]

theorem outer_real (v : Fin n → ℝ) : (realVec v).outer = realMat (vecMulVec v v) := rfl

theorem map_real {m : ℕ} (c : ℚ) (a : Matrix (Fin m) (Fin n) ℝ) :
    (realMat a).map (fun x => ofRat c *. x) = realMat ((c : ℝ) • a) := rfl

theorem tryInverse_real {la : LinAlg XReal} (hla : la.Exact) (a : Matrix (Fin n) (Fin n) ℝ)
    (h : a.det ≠ 0) : (realMat a).tryInverse la = .ok (some (realMat a⁻¹)) := by
  have h1 : (realMat a).tryInverse la =
      .ok ((la.tryInverse n fun i j => .fin (a i j)).map fun e => ⟨n, n, e⟩) := by
    unfold DMatrix.tryInverse
    exact dif_pos rfl
  rw [h1, hla.inv a h]; rfl

theorem tryInverse_singular {la : LinAlg XReal} (hla : la.Exact) (a : Matrix (Fin n) (Fin n) ℝ)
    (h : a.det = 0) : (realMat a).tryInverse la = .ok none := by
  have h1 : (realMat a).tryInverse la =
      .ok ((la.tryInverse n fun i j => .fin (a i j)).map fun e => ⟨n, n, e⟩) := by
    unfold DMatrix.tryInverse
    exact dif_pos rfl
  rw [h1, hla.singular a h]; rfl

theorem determinant_real {la : LinAlg XReal} (hla : la.Exact) (a : Matrix (Fin n) (Fin n) ℝ) :
    (realMat a).determinant la = .ok (.fin a.det) := by
  have h1 : (realMat a).determinant la = .ok (la.determinant n fun i j => .fin (a i j)) := by
    unfold DMatrix.determinant
    exact dif_pos rfl
  rw [h1, hla.det]

namespace MultivariateNormal

/-- the object the constructor builds -/
noncomputable def built (μ : Fin n → ℝ) (S : Matrix (Fin n) (Fin n) ℝ) : MultivariateNormal XReal :=
  ⟨realVec μ, realMat S, realMat S⁻¹, .fin S.det, n⟩

theorem new_real {la : LinAlg XReal} (hla : la.Exact) (μ : Fin n → ℝ) (S : Matrix (Fin n) (Fin n) ℝ)
    (h : S.det ≠ 0) : new la (realVec μ) (realMat S) = .ok (built μ S) := by
  unfold new
  rw [if_neg (by simp [realMat]), if_neg (by simp [realMat, realVec])]
  simp only [tryInverse_real hla S h, determinant_real hla S]
  rfl

end MultivariateNormal

open MultivariateNormal (built new_real)

/-- **C104**: the constructor accepts a mean and a covariance matrix exactly when the matrix is square,
of the size of the mean, and invertible. -/
theorem C104_new {la : LinAlg XReal} (hla : la.Exact) {k m : ℕ} (μ : Fin k → ℝ)
    (S : Matrix (Fin m) (Fin n) ℝ) :
    (∃ d, MultivariateNormal.new la (realVec μ) (realMat S) = .ok d) ↔
      ∃ (h : n = m), k = m ∧ (S.submatrix id (Fin.cast h.symm)).det ≠ 0 := by
  constructor
  · rintro ⟨d, hd⟩
    unfold MultivariateNormal.new at hd
    by_cases h1 : m = n
    · subst h1
      by_cases h2 : k = m
      · subst h2
        refine ⟨rfl, rfl, fun h0 => ?_⟩
        have h0' : S.det = 0 := h0
        rw [if_neg (by simp [realMat]), if_neg (by simp [realMat, realVec])] at hd
        simp only [tryInverse_singular hla S h0'] at hd
        cases hd
      · rw [if_neg (by simp [realMat]), if_pos (by simpa [realMat, realVec] using h2)] at hd
        cases hd
    · rw [if_pos (by simpa [realMat] using h1)] at hd
      cases hd
  · rintro ⟨rfl, rfl, h⟩
    exact ⟨_, new_real hla μ S h⟩

/-- the quadratic form as the sufficient statistics give it -/
theorem frob_quad (P : Matrix (Fin n) (Fin n) ℝ) (x : Fin n → ℝ) :
    ∑ i, ∑ j, (-1/2 : ℝ) * P i j * (x i * x j) = -(1/2) * (x ⬝ᵥ P.mulVec x) := by
  simp only [dotProduct, mulVec, Finset.mul_sum]
  refine Finset.sum_congr rfl fun i _ => Finset.sum_congr rfl fun j _ => by ring

/-- the log-density the code computes, for any invertible covariance matrix of positive determinant -/
theorem expFam_real (μ x : Fin n → ℝ) (S : Matrix (Fin n) (Fin n) ℝ) (h : 0 < S.det) :
    (built μ S).expFamLogDensity (realVec x) = .ok (.fin (
      S⁻¹.mulVec μ ⬝ᵥ x + -(1/2) * (x ⬝ᵥ S⁻¹.mulVec x) -
        (1/2 * (μ ⬝ᵥ S⁻¹.mulVec μ) + 1/2 * (n * Real.log (2 * Real.pi) + Real.log S.det)))) := by
  have hnat : (built μ S).toNatural = .ok (realVec (S⁻¹.mulVec μ), realMat (((-1/2 : ℚ) : ℝ) • S⁻¹)) := by
    unfold MultivariateNormal.toNatural
    simp only [built, mulVec_real, map_real]
    rfl
  have hpart : (built μ S).logPartition = .ok (.fin (1/2 * (μ ⬝ᵥ S⁻¹.mulVec μ) +
      1/2 * (n * Real.log (2 * Real.pi) + Real.log S.det))) := by
    unfold MultivariateNormal.logPartition
    simp only [built, mulVec_real, bind, Except.bind, dot_real, pure, Except.pure, f_ofRat, f_pi, f_mul,
      f_ofNat]
    have h2 : (0 : ℝ) < ((2 : ℚ) : ℝ) * Real.pi := by push_cast; positivity
    rw [f_ln _ h, f_ln _ h2]
    simp only [f_mul, f_add]
    push_cast
    rfl
  have hdot : MultivariateNormal.dotProduct (realVec (S⁻¹.mulVec μ), realMat (((-1/2 : ℚ) : ℝ) • S⁻¹))
      ((built μ S).sufficientStatistic (realVec x)) =
      .ok (.fin (S⁻¹.mulVec μ ⬝ᵥ x + -(1/2) * (x ⬝ᵥ S⁻¹.mulVec x))) := by
    unfold MultivariateNormal.dotProduct MultivariateNormal.sufficientStatistic
    simp only [outer_real, dot_real, frobenius_real, bind, Except.bind, pure, Except.pure, f_add]
    rw [← frob_quad]
    simp only [Matrix.smul_apply, smul_eq_mul, vecMulVec_apply]
    push_cast
    rfl
  unfold MultivariateNormal.expFamLogDensity
  simp only [hnat, hpart, hdot, bind, Except.bind, pure, Except.pure, f_sub, f_zero, f_add, add_zero]

/-- completing the square -/
theorem quad_expand (P : Matrix (Fin n) (Fin n) ℝ) (hP : P.transpose = P) (x μ : Fin n → ℝ) :
    (x - μ) ⬝ᵥ P.mulVec (x - μ) = x ⬝ᵥ P.mulVec x - 2 * (P.mulVec μ ⬝ᵥ x) + μ ⬝ᵥ P.mulVec μ := by
  have h1 : μ ⬝ᵥ P.mulVec x = P.mulVec μ ⬝ᵥ x := by
    rw [dotProduct_mulVec, ← mulVec_transpose, hP]
  have h2 : x ⬝ᵥ P.mulVec μ = P.mulVec μ ⬝ᵥ x := dotProduct_comm _ _
  rw [mulVec_sub, sub_dotProduct, dotProduct_sub, dotProduct_sub, h1, h2]
  ring

theorem posDef_inv_symm {S : Matrix (Fin n) (Fin n) ℝ} (hS : S.PosDef) : S⁻¹.transpose = S⁻¹ := by
  have := hS.isHermitian.inv
  rw [IsHermitian, conjTranspose_eq_transpose_of_trivial] at this
  exact this

theorem mvnPdf_pos {S : Matrix (Fin n) (Fin n) ℝ} (h : 0 < S.det) (μ x : Fin n → ℝ) : 0 < mvnPdf μ S x := by
  unfold mvnPdf; positivity

theorem log_mvnPdf {S : Matrix (Fin n) (Fin n) ℝ} (h : 0 < S.det) (μ x : Fin n → ℝ) :
    Real.log (mvnPdf μ S x) = -(1/2) * ((x - μ) ⬝ᵥ S⁻¹.mulVec (x - μ)) -
      1/2 * (n * Real.log (2 * Real.pi) + Real.log S.det) := by
  have h1 : 0 < (2 * Real.pi) ^ n * S.det := by positivity
  unfold mvnPdf
  rw [Real.log_div (Real.exp_pos _).ne' (Real.sqrt_pos.mpr h1).ne', Real.log_exp, Real.log_sqrt h1.le,
    Real.log_mul (by positivity) h.ne', Real.log_pow]
  ring

/-- **C104**: for a positive definite covariance matrix the constructor succeeds and the log-density
through the exponential family is the logarithm of the textbook density. -/
theorem C104_log_density {la : LinAlg XReal} (hla : la.Exact) (μ : Fin n → ℝ)
    {S : Matrix (Fin n) (Fin n) ℝ} (hS : S.PosDef) :
    ∃ d, MultivariateNormal.new la (realVec μ) (realMat S) = .ok d ∧
      ∀ x : Fin n → ℝ, d.expFamLogDensity (realVec x) = .ok (.fin (Real.log (mvnPdf μ S x))) := by
  refine ⟨_, new_real hla μ S hS.det_pos.ne', fun x => ?_⟩
  rw [expFam_real μ x S hS.det_pos, log_mvnPdf hS.det_pos, quad_expand _ (posDef_inv_symm hS)]
  congr 2
  ring

/-- **C104**: a point of another dimension panics. -/
theorem C104_dimension {la : LinAlg XReal} (hla : la.Exact) (μ : Fin n → ℝ)
    {S : Matrix (Fin n) (Fin n) ℝ} (hS : S.PosDef) {k : ℕ} (hk : k ≠ n) (x : Fin k → ℝ) :
    ∃ d, MultivariateNormal.new la (realVec μ) (realMat S) = .ok d ∧
      ∃ e, d.expFamLogDensity (realVec x) = .error e := by
  refine ⟨_, new_real hla μ S hS.det_pos.ne', ?_⟩
  have hnat : (built μ S).toNatural = .ok (realVec (S⁻¹.mulVec μ), realMat (((-1/2 : ℚ) : ℝ) • S⁻¹)) := by
    unfold MultivariateNormal.toNatural
    simp only [built, mulVec_real, map_real]
    rfl
  have hdot : ∃ e, MultivariateNormal.dotProduct (realVec (S⁻¹.mulVec μ), realMat (((-1/2 : ℚ) : ℝ) • S⁻¹))
      ((built μ S).sufficientStatistic (realVec x)) = .error e := by
    refine ⟨⟨"Dot product dimensions mismatch"⟩, ?_⟩
    unfold MultivariateNormal.dotProduct MultivariateNormal.sufficientStatistic DVector.dot
    rw [dif_neg (show ¬ (realVec (S⁻¹.mulVec μ)).len = (realVec x).len from fun h => hk h.symm)]
    rfl
  obtain ⟨e, he⟩ := hdot
  unfold MultivariateNormal.expFamLogDensity
  simp only [hnat, he, bind, Except.bind]
  cases (built μ S).logPartition with
  | ok a => exact ⟨_, rfl⟩
  | error e => exact ⟨_, rfl⟩

/-- **C104**: every point of the right dimension is in the support and has a finite log-density.
Missing: points of another dimension, see `C104_support_violated`. -/
theorem C104_support_partial {la : LinAlg XReal} (hla : la.Exact) (μ : Fin n → ℝ)
    {S : Matrix (Fin n) (Fin n) ℝ} (hS : S.PosDef) (x : Fin n → ℝ) :
    ∃ d, MultivariateNormal.new la (realVec μ) (realMat S) = .ok d ∧
      d.inSupport (realVec x) = true ∧ ∃ r : ℝ, d.expFamLogDensity (realVec x) = .ok (.fin r) := by
  obtain ⟨d, hd, h⟩ := C104_log_density hla μ hS
  exact ⟨d, hd, rfl, _, h x⟩

/-- **C104 violated**: a point of another dimension is reported to be in the support, although its
log-density panics. -/
theorem C104_support_violated {la : LinAlg XReal} (hla : la.Exact) (μ : Fin n → ℝ)
    {S : Matrix (Fin n) (Fin n) ℝ} (hS : S.PosDef) {k : ℕ} (hk : k ≠ n) (x : Fin k → ℝ) :
    ∃ d, MultivariateNormal.new la (realVec μ) (realMat S) = .ok d ∧
      d.inSupport (realVec x) = true ∧ ∃ e, d.expFamLogDensity (realVec x) = .error e := by
  obtain ⟨d, hd, h⟩ := C104_dimension hla μ hS hk x
  exact ⟨d, hd, rfl, h⟩

/-- **C104**: every constructed distribution (whether or not its matrix is positive definite) is
recovered, with all its cached fields, from its natural parameters. -/
theorem C104_round_trip {la : LinAlg XReal} (hla : la.Exact) (μ : Fin n → ℝ)
    (S : Matrix (Fin n) (Fin n) ℝ) {d : MultivariateNormal XReal}
    (hd : MultivariateNormal.new la (realVec μ) (realMat S) = .ok d) :
    ∃ η₁ η₂, d.toNatural = .ok (η₁, η₂) ∧ MultivariateNormal.fromNatural la η₁ η₂ = .ok d := by
  have hdet : S.det ≠ 0 := by
    obtain ⟨h, -, h2⟩ := (C104_new hla μ S).mp ⟨d, hd⟩
    exact h2
  rw [new_real hla μ S hdet] at hd
  cases hd
  have hnat : (built μ S).toNatural = .ok (realVec (S⁻¹.mulVec μ), realMat (((-1/2 : ℚ) : ℝ) • S⁻¹)) := by
    unfold MultivariateNormal.toNatural
    simp only [built, mulVec_real, map_real]
    rfl
  refine ⟨_, _, hnat, ?_⟩
  unfold MultivariateNormal.fromNatural
  have e1 : ((-2 : ℚ) : ℝ) • (((-1/2 : ℚ) : ℝ) • S⁻¹) = S⁻¹ := by
    rw [smul_smul]; norm_num
  have hdi : (S⁻¹).det ≠ 0 := by
    rw [det_nonsing_inv]
    exact (isUnit_iff_ne_zero.mpr hdet).ringInverse.ne_zero
  have hu : IsUnit S.det := isUnit_iff_ne_zero.mpr hdet
  have e2 : S⁻¹⁻¹ = S := nonsing_inv_nonsing_inv S hu
  have e3 : S.mulVec (S⁻¹.mulVec μ) = μ := by
    rw [mulVec_mulVec, mul_nonsing_inv S hu, one_mulVec]
  simp only [map_real, e1, tryInverse_real hla _ hdi, e2, mulVec_real, bind, Except.bind, e3]
  exact new_real hla μ S hdet

/-- **C104**: `standard` builds the distribution of independent standard normal components. -/
theorem C104_standard {la : LinAlg XReal} (hla : la.Exact) (n : ℕ) :
    ∃ d, MultivariateNormal.standard la n = .ok d ∧
      ∀ x : Fin n → ℝ, d.expFamLogDensity (realVec x) =
        .ok (.fin (∑ i, (-(1/2) * x i ^ 2 - 1/2 * Real.log (2 * Real.pi)))) := by
  have hS : (1 : Matrix (Fin n) (Fin n) ℝ).PosDef := PosDef.one
  obtain ⟨d, hd, hx⟩ := C104_log_density hla (0 : Fin n → ℝ) hS
  refine ⟨d, ?_, fun x => ?_⟩
  · rw [← hd]
    unfold MultivariateNormal.standard
    congr 1
    unfold realMat
    congr 1
    funext i j
    by_cases h : i = j
    · subst h; simp
    · simp [h]
  · rw [hx, log_mvnPdf hS.det_pos]
    congr 2
    simp only [sub_zero, inv_one, one_mulVec, det_one, Real.log_one, add_zero, dotProduct,
      Finset.sum_sub_distrib, Finset.sum_const, Finset.card_univ, Fintype.card_fin, nsmul_eq_mul,
      Finset.mul_sum]
    congr 1
    · exact Finset.sum_congr rfl fun i _ => by ring
    · ring

end Verif
