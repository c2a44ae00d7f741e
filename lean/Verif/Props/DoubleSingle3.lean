import Verif.Props.DoubleSingle2
import Verif.Props.DoubleRoutes2
import Verif.Props.DoubleExpFam5

/-!
# C150: the two log-densities of one observation agree in floating point

`exp_fam_log_density` goes through natural parameters and log-partition, `log_density` through the formula of the
distribution. They round differently. Here: by how much they can differ.
-/

namespace Verif
open Format FloatOps ProbabilityTheory ExponentialFamily

variable {f : Format} {L : Libm}

/-- the sum over one observation is the value of the observation -/
theorem fallback_single {D X : Type} [HasLogDensity D X (Flt f L)] {d : D} {x : X}
    (h : f.Valid (logDensityWrtRoot d x : Flt f L)) :
    (IID.ofDist d).iidLogDensityFallback [x] = (logDensityWrtRoot d x : Flt f L) := add_zero_valid h

theorem valid_ite {c : Prop} [Decidable c] {a b : FVal} (ha : f.Valid a) (hb : f.Valid b) : f.Valid (if c then a else b) := by
  split_ifs <;> assumption

theorem valid_inf {b : Bool} : f.Valid (.inf b) := trivial

/-- **C150** (Gamma). -/
theorem C150_gamma (hf : f.Std) (hL : L.Accurate f) (hG : L.GammaAccurate f) (hC : L.Closed f) {a b x : ℚ}
    (ha : f.Representable a) (hb : f.Representable b) {d : Gamma (Flt f L)}
    (h : Gamma.new (Flt.fin a) (Flt.fin b) = .ok d) (hx : f.Representable x) (h0 : 0 < x)
    (hB : gammaSize a b [x] ≤ 2 ^ 80) (hS : (x : ℝ) ≤ 2 ^ 80) :
    ∃ r s : ℚ, expFamLogDensity d (Flt.fin x) = Flt.fin (f := f) (L := L) r ∧
      logDensityWrtRoot d (Flt.fin x) = Flt.fin (f := f) (L := L) s ∧ |(r : ℝ) - s| ≤ 140 * f.u * gammaSize a b [x] := by
  have key := C148_gamma hf hL hG ha hb h [x] (by simp) (by simpa using ⟨hx, h0⟩) (one_obs hf) (by simpa using hB)
    (by simpa using hS)
  obtain ⟨-, -, rfl⟩ := Gamma.new_flt h
  rw [← (C146_continuous hf hC (x := Flt.fin x) hx).2.2.2.1,
    ← fallback_single (valid_ite (valid_sub hf _ _) valid_inf)]
  simpa using key

/-- **C150** (Beta). -/
theorem C150_beta (hf : f.Std) (hL : L.Accurate f) (hG : L.GammaAccurate f) (hC : L.Closed f) {a b x : ℚ}
    (ha : f.Representable a) (hb : f.Representable b) {d : Beta (Flt f L)}
    (h : Beta.new (Flt.fin a) (Flt.fin b) = .ok d) (hx : f.Representable x) (h0 : 0 < x) (h1 : x < 1)
    (hB : betaSize a b [x] ≤ 2 ^ 80) :
    ∃ r s : ℚ, expFamLogDensity d (Flt.fin x) = Flt.fin (f := f) (L := L) r ∧
      logDensityWrtRoot d (Flt.fin x) = Flt.fin (f := f) (L := L) s ∧ |(r : ℝ) - s| ≤ 213 * f.u * betaSize a b [x] := by
  have key := C148_beta hf hL hG ha hb h [x] (by simp) (by simpa using ⟨hx, h0, h1⟩) (one_obs hf) (by simpa using hB)
  obtain ⟨-, -, rfl⟩ := Beta.new_flt h
  rw [← (C146_continuous hf hC (x := Flt.fin x) hx).2.2.2.2.1,
    ← fallback_single (valid_ite (valid_add hf _ _) valid_inf)]
  simpa using key

/-- **C150** (chi-squared). -/
theorem C150_chi_squared (hf : f.Std) (hL : L.Accurate f) (hG : L.GammaAccurate f) (hC : L.Closed f) {k x : ℚ}
    (hk : f.Representable k) (hk1 : 1 / 2 ^ 50 ≤ k) {d : ChiSquared (Flt f L)}
    (h : ChiSquared.new (Flt.fin k) = .ok d) (hx : f.Representable x) (h0 : 0 < x)
    (hB : chiSize ((k : ℝ) / 2) [x] ≤ 2 ^ 80) :
    ∃ r s : ℚ, expFamLogDensity d (Flt.fin x) = Flt.fin (f := f) (L := L) r ∧
      logDensityWrtRoot d (Flt.fin x) = Flt.fin (f := f) (L := L) s ∧
      |(r : ℝ) - s| ≤ 299 * f.u * chiSize ((k : ℝ) / 2) [x] := by
  have key := C148_chi_squared hf hL hG hk hk1 h [x] (by simp) (by simpa using ⟨hx, h0⟩) (one_obs hf) (by simpa using hB)
  obtain ⟨-, rfl⟩ := ChiSquared.new_flt h
  rw [← (C146_continuous hf hC (b := Flt.fin x) (x := Flt.fin x) hx).2.2.2.2.2,
    ← fallback_single (valid_ite (valid_sub hf _ _) valid_inf)]
  simpa using key

/-- **C150** (Poisson, double precision). -/
theorem C150_poisson (hL : L.Accurate f64) (hC : L.Closed f64) {l : ℚ} (hl : f64.Representable l) (hlB : l ≤ 2 ^ 80)
    {d : Poisson (Flt f64 L)} (h : Poisson.new (Flt.fin l) = .ok d) {k : ℕ} (hk : k ≤ 2 ^ 40)
    (hB : poissonSize l [k] ≤ 2 ^ 80) (hB' : 1 + k * |Real.log l| + l + (k + 1) * Real.log (k.factorial : ℝ) ≤ 2 ^ 90) :
    ∃ r s : ℚ, expFamLogDensity d k = Flt.fin (f := f64) (L := L) r ∧
      logDensityWrtRoot d k = Flt.fin (f := f64) (L := L) s ∧
      |(r : ℝ) - s| ≤ 116 * f64.u * poissonSize l [k] +
        14 * f64.u * (1 + k * |Real.log l| + l + (k + 1) * Real.log (k.factorial : ℝ)) := by
  have hf : f64.Std := .inl rfl
  have key := C148_poisson hL hl hlB h [k] (by simp) (by simpa using hk) (one_obs hf) (by simpa using hB)
    (by simpa using hB')
  obtain ⟨-, rfl⟩ := Poisson.new_flt h
  rw [← (C146_discrete hf hC (p := Flt.fin l) hl 0 0 k).2.2.2.2, ← fallback_single (valid_sub hf _ _)]
  simpa using key

/-- **C150** (Bernoulli). -/
theorem C150_bernoulli (hf : f.Std) (hL : L.Accurate f) (hC : L.Closed f) {p : ℚ} (hp : f.Representable p)
    (hp0 : 1 / 2 ^ 60 ≤ p) (hp1 : p ≠ 1) {d : Bernoulli (Flt f L)} (h : Bernoulli.new (Flt.fin p) = .ok d)
    {y : UInt8} (hy : y = 0 ∨ y = 1) (hB : bernoulliSize p ((y.toNat : ℕ) : ℝ) ≤ 2 ^ 80)
    (hB' : 1 + |Real.log (bernoulliMass p y)| ≤ 2 ^ 90) :
    ∃ r s : ℚ, expFamLogDensity d y = Flt.fin (f := f) (L := L) r ∧
      logDensityWrtRoot d y = Flt.fin (f := f) (L := L) s ∧
      |(r : ℝ) - s| ≤ 36 * f.u * bernoulliSize p ((y.toNat : ℕ) : ℝ) + 9 * f.u * (1 + |Real.log (bernoulliMass p y)|) := by
  have key := C148_bernoulli hf hL hp hp0 hp1 h [y] (by simp) (by simpa using hy) (one_obs hf) (by simpa using hB)
    (by simpa using hB')
  obtain ⟨-, -, rfl⟩ := Bernoulli.new_flt h
  rw [← (C146_discrete hf hC (p := Flt.fin p) hp y 0 0).1,
    ← fallback_single (valid_ite (valid_ln hC _) (valid_ite (valid_ln hC _) valid_inf))]
  simpa using key

/-- **C150** (normal). -/
theorem C150_normal (hf : f.Std) (hL : L.Accurate f) (hC : L.Closed f) {μ σ x : ℚ}
    (hμ : f.Representable μ) (hσ : f.Representable σ) {d : Normal (Flt f L)}
    (h : Normal.new (Flt.fin μ) (Flt.fin σ) = .ok d) (hσ1 : 1 / 2 ^ 10 ≤ σ) (hσ2 : σ ≤ 2 ^ 10)
    (hx : f.Representable x) (hB : normalSize μ σ [x] ≤ 2 ^ 40) :
    ∃ r s : ℚ, expFamLogDensity d (Flt.fin x) = Flt.fin (f := f) (L := L) r ∧
      logDensityWrtRoot d (Flt.fin x) = Flt.fin (f := f) (L := L) s ∧ |(r : ℝ) - s| ≤ 440 * f.u * normalSize μ σ [x] := by
  have key := C144_normal_joint_partial (L := L) hf hL hμ hσ h hσ1 hσ2 [x] (by simp) (by simpa using hx) (one_obs hf)
    (by simpa using hB)
  have key2 := C88_normal hf hL hμ hσ hx h
  obtain ⟨hσ0, rfl⟩ := Normal.new_flt h
  have hσR : (0 : ℝ) < σ := by exact_mod_cast hσ0
  rw [← (C146_continuous hf hC (x := Flt.fin x) hx).1]
  simp only [List.map_cons, List.map_nil, List.sum_cons, List.sum_nil, add_zero, List.length_cons, List.length_nil,
    zero_add, Nat.cast_one, mul_one] at key
  obtain ⟨r, r1, -, r2⟩ := key
  have hu := u_pos f
  have l0 := abs_nonneg (Real.log (σ : ℝ))
  have hsq : (((x : ℝ) - μ) / σ) ^ 2 / 2 ≤ ((x : ℝ) / σ) ^ 2 + ((μ : ℝ) / σ) ^ 2 := by
    rw [sub_div]
    nlinarith [sq_nonneg ((x : ℝ) / σ + (μ : ℝ) / σ)]
  have hle : 1 + |Real.log σ| + (((x : ℝ) - μ) / σ) ^ 2 / 2 ≤ normalSize μ σ [x] := by
    simp only [normalSize, List.map_cons, List.map_nil, List.sum_cons, List.sum_nil, add_zero]
    linarith
  have hz : (((x : ℝ) - μ) / σ) ^ 2 ≤ 2 ^ 41 := by
    have : (2 : ℝ) ^ 41 = 2 * 2 ^ 40 := by norm_num
    linarith
  have hbig : (2 : ℝ) ^ (100 : ℤ) ≤ 2 ^ (f.emax - 4) :=
    zpow_le_zpow_right₀ (by norm_num) (by rcases hf with rfl | rfl <;> decide)
  have hbig' : (2 : ℝ) ^ (f.emax - 4) ≤ 2 ^ (f.emax - 1) := zpow_le_zpow_right₀ (by norm_num) (by omega)
  have h100 : (2 : ℝ) ^ (100 : ℤ) = 2 ^ 100 := by norm_num
  rcases key2 with ⟨s, s1, -, s2⟩ | ⟨-, hbad | hbad⟩
  · refine ⟨r, s, r1, s1, ?_⟩
    have h1 := mul_le_mul_of_nonneg_left hle (by positivity : 0 ≤ 64 * f.u)
    have h2 := abs_sub_le (r : ℝ) (Real.log (gaussianPDFReal μ ((σ : ℝ) ^ 2).toNNReal x)) s
    rw [abs_sub_comm (Real.log _) (s : ℝ)] at h2
    linarith
  · exfalso
    have s2 : (σ : ℝ) ≤ 2 ^ 10 := by
      have := (Rat.cast_le (K := ℝ)).mpr hσ2; push_cast at this; exact this
    have h2 : ((x : ℝ) - μ) ^ 2 = (((x : ℝ) - μ) / σ) ^ 2 * σ ^ 2 := by field_simp
    have h3 : ((x : ℝ) - μ) ^ 2 ≤ 2 ^ 41 * (2 ^ 10) ^ 2 := by rw [h2]; gcongr
    have h4 : |(x : ℝ) - μ| ≤ 2 ^ 40 := abs_le_of_sq_le_sq (h3.trans (by norm_num)) (by norm_num)
    have h5 : (2 : ℝ) ^ 40 < 2 ^ 100 := by norm_num
    linarith
  · exfalso
    have h5 : (2 : ℝ) ^ 41 < 2 ^ 100 := by norm_num
    linarith

/-- **C150** fails for exponential, geometric and negative binomial distributions, whose two paths compute different
numbers (C24, C144): for the exponential distribution with rate two the two computed values differ by more
than one at every observation up to `2^10`. -/
theorem C150_violated (hf : f.Std) (hL : L.Accurate f) (hC : L.Closed f) {d : Exponential (Flt f L)}
    (h : Exponential.new (Flt.fin 2) = .ok d) {x : ℚ} (hx : f.Representable x) (h0 : 0 ≤ x) (h1 : x ≤ 2 ^ 10) :
    ∃ r s : ℚ, expFamLogDensity d (Flt.fin x) = Flt.fin (f := f) (L := L) r ∧
      logDensityWrtRoot d (Flt.fin x) = Flt.fin (f := f) (L := L) s ∧ (r : ℝ) < s - 1 := by
  have h1R : (x : ℝ) ≤ 2 ^ 10 := by
    have := (Rat.cast_le (K := ℝ)).mpr h1; push_cast at this; exact this
  have l1 := Real.log_two_lt_d9
  have l2 := Real.log_two_gt_d9
  have hlog : |Real.log 2| ≤ 1 := by rw [abs_of_pos (by linarith)]; linarith
  have hsz : (2 : ℝ) * x + |Real.log 2| + 2 ≤ 2 ^ 12 := by norm_num at h1R ⊢; linarith
  have key := C144_exponential_violated (L := L) hf hL hf.rep_two h [x] (by simp) (by simpa using ⟨hx, h0⟩) (one_obs hf)
    (by simpa using hsz.trans (by norm_num)) (by simpa using h1R.trans (by norm_num))
  have key2 := C88_exponential hf hL hf.rep_two hx h
  obtain ⟨-, rfl⟩ := Exponential.new_flt h
  rw [← (C146_continuous hf hC (b := Flt.fin x) (x := Flt.fin x) hx).2.2.1]
  simp only [List.map_cons, List.map_nil, List.sum_cons, List.sum_nil, add_zero, List.length_cons, List.length_nil,
    zero_add, Nat.cast_one, mul_one, Rat.cast_ofNat] at key
  obtain ⟨r, r1, -, r2⟩ := key
  have hu := u_pos f
  have hul := hf.u_le
  have h3 := r2.trans (mul_le_mul_of_nonneg_left hsz (by positivity))
  have h4 := (abs_le.mp h3).2
  rcases key2 with ⟨hneg, -⟩ | ⟨-, s, s1, -, s2⟩ | ⟨-, -, hbig⟩
  · exact absurd hneg (not_lt.mpr h0)
  · refine ⟨r, s, r1, s1, ?_⟩
    simp only [Rat.cast_ofNat] at s2
    have h5 : 16 * f.u * (f.u + |Real.log 2| + 2 * x) ≤ 16 * f.u * 2 ^ 12 := by
      gcongr
      norm_num at hul
      linarith
    have h6 := (abs_le.mp (s2.trans h5)).1
    norm_num at hul h4 h6
    linarith
  · exfalso
    have h5 : (2 : ℝ) ^ (100 : ℤ) ≤ 2 ^ (f.emax - 3) :=
      zpow_le_zpow_right₀ (by norm_num) (by rcases hf with rfl | rfl <;> decide)
    have h6 : (2 : ℝ) ^ (100 : ℤ) = 2 ^ 100 := by norm_num
    have h7 : (2 : ℝ) ^ 12 < 2 ^ 100 := by norm_num
    simp only [Rat.cast_ofNat] at hbig
    linarith [abs_nonneg (Real.log 2)]

/-! ### The hypotheses can be met -/

example (hf : f.Std) : ∃ L : Libm, L.Accurate f ∧ L.GammaAccurate f ∧ L.Closed f ∧
    (∃ d : Gamma (Flt f L), Gamma.new (Flt.fin 2) (Flt.fin 1) = .ok d ∧
      ∃ r s : ℚ, expFamLogDensity d (Flt.fin 2) = Flt.fin (f := f) (L := L) r ∧
        logDensityWrtRoot d (Flt.fin 2) = Flt.fin (f := f) (L := L) s ∧ |(r : ℝ) - s| ≤ 140 * f.u * 9) ∧
    (∃ d : Normal (Flt f L), Normal.new (Flt.fin 2) (Flt.fin 1) = .ok d ∧
      ∃ r s : ℚ, expFamLogDensity d (Flt.fin 2) = Flt.fin (f := f) (L := L) r ∧
        logDensityWrtRoot d (Flt.fin 2) = Flt.fin (f := f) (L := L) s ∧ |(r : ℝ) - s| ≤ 440 * f.u * 20) ∧
    (∃ d : ChiSquared (Flt f L), ChiSquared.new (Flt.fin 2) = .ok d ∧
      ∃ r s : ℚ, expFamLogDensity d (Flt.fin 2) = Flt.fin (f := f) (L := L) r ∧
        logDensityWrtRoot d (Flt.fin 2) = Flt.fin (f := f) (L := L) s) ∧
    (∃ d : Exponential (Flt f L), Exponential.new (Flt.fin 2) = .ok d ∧
      ∃ r s : ℚ, expFamLogDensity d (Flt.fin 2) = Flt.fin (f := f) (L := L) r ∧
        logDensityWrtRoot d (Flt.fin 2) = Flt.fin (f := f) (L := L) s ∧ (r : ℝ) < s - 1) := by
  obtain ⟨L, hL, hG, hC⟩ := exists_libm_closed_gamma hf
  have hu := u_pos f
  have hlog : |Real.log 2| ≤ 1 := by
    rw [abs_of_pos (Real.log_pos (by norm_num))]; have := Real.log_two_lt_d9; linarith
  refine ⟨L, hL, hG, hC, ⟨⟨Flt.fin 2, Flt.fin 1⟩, rfl, ?_⟩, ⟨⟨Flt.fin 2, Flt.fin 1⟩, rfl, ?_⟩, ⟨⟨Flt.fin 2⟩, rfl, ?_⟩,
    ⟨⟨Flt.fin 2⟩, rfl, ?_⟩⟩
  · have hs : gammaSize ((2 : ℚ) : ℝ) ((1 : ℚ) : ℝ) [2] ≤ 9 := by simp [gammaSize]; linarith
    obtain ⟨r, s, h1, h2, h3⟩ := C150_gamma (L := L) hf hL hG hC hf.rep_two hf.rep_one (d := ⟨Flt.fin 2, Flt.fin 1⟩) rfl
      hf.rep_two (by norm_num) (hs.trans (by norm_num)) (by norm_num)
    exact ⟨r, s, h1, h2, h3.trans (mul_le_mul_of_nonneg_left hs (by positivity))⟩
  · have hs : normalSize ((2 : ℚ) : ℝ) ((1 : ℚ) : ℝ) [2] ≤ 20 := by norm_num [normalSize]
    obtain ⟨r, s, h1, h2, h3⟩ := C150_normal (L := L) hf hL hC hf.rep_two hf.rep_one (d := ⟨Flt.fin 2, Flt.fin 1⟩) rfl
      (by norm_num) (by norm_num) hf.rep_two (hs.trans (by norm_num))
    exact ⟨r, s, h1, h2, h3.trans (mul_le_mul_of_nonneg_left hs (by positivity))⟩
  · obtain ⟨r, s, h1, h2, -⟩ := C150_chi_squared (L := L) hf hL hG hC hf.rep_two (by norm_num) (d := ⟨Flt.fin 2⟩) rfl
      hf.rep_two (by norm_num) (by simp [chiSize]; linarith)
    exact ⟨r, s, h1, h2⟩
  · exact C150_violated (L := L) hf hL hC (d := ⟨Flt.fin 2⟩) rfl hf.rep_two (by norm_num) (by norm_num)

example (hf : f.Std) : ∃ L : Libm, L.Accurate f ∧ L.GammaAccurate f ∧ L.Closed f ∧
    (∃ d : Beta (Flt f L), Beta.new (Flt.fin 1) (Flt.fin 1) = .ok d ∧
      ∃ r s : ℚ, expFamLogDensity d (Flt.fin (1/2)) = Flt.fin (f := f) (L := L) r ∧
        logDensityWrtRoot d (Flt.fin (1/2)) = Flt.fin (f := f) (L := L) s) ∧
    (∃ d : Bernoulli (Flt f L), Bernoulli.new (Flt.fin (1/2)) = .ok d ∧
      ∃ r s : ℚ, expFamLogDensity d (1 : UInt8) = Flt.fin (f := f) (L := L) r ∧
        logDensityWrtRoot d (1 : UInt8) = Flt.fin (f := f) (L := L) s) := by
  obtain ⟨L, hL, hG, hC⟩ := exists_libm_closed_gamma hf
  have hlog : |Real.log 2| ≤ 1 := by
    rw [abs_of_pos (Real.log_pos (by norm_num))]; have := Real.log_two_lt_d9; linarith
  have e1 : (1 : ℝ) - 2⁻¹ = 2⁻¹ := by norm_num
  have e2 : (1 : ℝ) + 1 = 2 := by norm_num
  have hd : Bernoulli.new (Flt.fin (f := f) (L := L) (1/2)) = .ok ⟨Flt.fin (1/2)⟩ := by
    unfold Bernoulli.new
    exact if_pos (by show (decide ((0 : ℚ) ≤ 1/2) && decide ((1/2 : ℚ) ≤ 1)) = true; norm_num)
  refine ⟨L, hL, hG, hC, ⟨⟨Flt.fin 1, Flt.fin 1⟩, rfl, ?_⟩, ⟨_, hd, ?_⟩⟩
  · obtain ⟨r, s, h1, h2, -⟩ := C150_beta (L := L) hf hL hG hC hf.rep_one hf.rep_one
      (d := ⟨Flt.fin 1, Flt.fin 1⟩) rfl hf.rep_half (by norm_num) (by norm_num)
      (by simp [betaSize, e1, e2]; linarith)
    exact ⟨r, s, h1, h2⟩
  · obtain ⟨r, s, h1, h2, -⟩ := C150_bernoulli (L := L) hf hL hC hf.rep_half (by norm_num) (by norm_num) hd
      (y := 1) (.inr rfl) (by simp [bernoulliSize, e1]; linarith) (by simp [bernoulliMass]; linarith)
    exact ⟨r, s, h1, h2⟩

example : ∃ L : Libm, L.Accurate f64 ∧ L.Closed f64 ∧ ∃ d : Poisson (Flt f64 L), Poisson.new (Flt.fin 1) = .ok d ∧
    ∃ r s : ℚ, expFamLogDensity d 1 = Flt.fin (f := f64) (L := L) r ∧
      logDensityWrtRoot d 1 = Flt.fin (f := f64) (L := L) s := by
  have hf : f64.Std := .inl rfl
  obtain ⟨L, hL, hC⟩ := exists_libm_closed hf
  refine ⟨L, hL, hC, ⟨Flt.fin 1⟩, rfl, ?_⟩
  obtain ⟨r, s, h1, h2, -⟩ := C150_poisson (L := L) hL hC hf.rep_one (by norm_num) (d := ⟨Flt.fin 1⟩) rfl (k := 1)
    (by norm_num) (by simp [poissonSize]; norm_num) (by norm_num)
  exact ⟨r, s, h1, h2⟩

end Verif
