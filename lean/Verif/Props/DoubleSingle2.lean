import Verif.Props.DoubleSingle
import Verif.Props.DoubleExpFam4

/-!
# C144 for one observation: the exponential-family log-density

The value of one observation is the joint value of a sample of one (C146), whose accuracy is C144.
-/

namespace Verif
open Format FloatOps ProbabilityTheory ExponentialFamily

variable {f : Format} {L : Libm}

theorem one_obs (hf : f.Std) : ((1 : ℕ) : ℝ) * f.u ≤ 1/1000 := by
  have := hf.u_le; norm_num at this ⊢; linarith

/-- **C144** (standard normal): one observation. -/
theorem C144_std_normal_single_partial (hf : f.Std) (hL : L.Accurate f) (hC : L.Closed f) {x : ℚ}
    (hx : f.Representable x) (hB : 1 + (x : ℝ) ^ 2 ≤ 2 ^ 80) :
    ∃ r : ℚ, expFamLogDensity ({} : StdNormal (Flt f L)) (Flt.fin x) = Flt.fin (f := f) (L := L) r ∧
      f.Representable r ∧ |(r : ℝ) - Real.log (gaussianPDFReal 0 1 x)| ≤ 145 * f.u * (1 + (x : ℝ) ^ 2) := by
  rw [← (C146_continuous hf hC (a := Flt.fin x) (b := Flt.fin x) (x := Flt.fin x) hx).2.1]
  simpa using C144_std_normal_joint_partial (L := L) hf hL [x] (by simp) (by simpa using hx) (one_obs hf)
    (by simpa using hB)

/-- **C144** (Beta): one observation. -/
theorem C144_beta_single_partial (hf : f.Std) (hL : L.Accurate f) (hG : L.GammaAccurate f) (hC : L.Closed f)
    {a b x : ℚ} (ha : f.Representable a) (hb : f.Representable b) {d : Beta (Flt f L)}
    (h : Beta.new (Flt.fin a) (Flt.fin b) = .ok d) (hx : f.Representable x) (h0 : 0 < x) (h1 : x < 1)
    (hB : betaSize a b [x] ≤ 2 ^ 80) :
    ∃ r : ℚ, expFamLogDensity d (Flt.fin x) = Flt.fin (f := f) (L := L) r ∧ f.Representable r ∧
      |(r : ℝ) - Real.log (betaPDFReal a b x)| ≤ 114 * f.u * betaSize a b [x] := by
  have key := C144_beta_joint_partial hf hL hG ha hb h [x] (by simp) (by simpa using ⟨hx, h0, h1⟩) (one_obs hf)
    (by simpa using hB)
  obtain ⟨-, -, rfl⟩ := Beta.new_flt h
  rw [← (C146_continuous hf hC (x := Flt.fin x) hx).2.2.2.2.1]
  simpa using key

/-- **C144** (chi-squared): one observation. -/
theorem C144_chi_squared_single_partial (hf : f.Std) (hL : L.Accurate f) (hG : L.GammaAccurate f) (hC : L.Closed f)
    {k x : ℚ} (hk : f.Representable k) (hk1 : 1 / 2 ^ 50 ≤ k) {d : ChiSquared (Flt f L)}
    (h : ChiSquared.new (Flt.fin k) = .ok d) (hx : f.Representable x) (h0 : 0 < x)
    (hB : chiSize ((k : ℝ) / 2) [x] ≤ 2 ^ 80) :
    ∃ r : ℚ, expFamLogDensity d (Flt.fin x) = Flt.fin (f := f) (L := L) r ∧ f.Representable r ∧
      |(r : ℝ) - Real.log (gammaPDFReal ((k : ℝ) / 2) (1 / 2) x)| ≤ 145 * f.u * chiSize ((k : ℝ) / 2) [x] := by
  have key := C144_chi_squared_joint_partial hf hL hG hk hk1 h [x] (by simp) (by simpa using ⟨hx, h0⟩) (one_obs hf)
    (by simpa using hB)
  obtain ⟨-, rfl⟩ := ChiSquared.new_flt h
  rw [← (C146_continuous hf hC (b := Flt.fin x) (x := Flt.fin x) hx).2.2.2.2.2]
  simpa using key

/-- **C144** (Poisson): one observation. -/
theorem C144_poisson_single_partial (hL : L.Accurate f64) (hC : L.Closed f64) {l : ℚ} (hl : f64.Representable l)
    {d : Poisson (Flt f64 L)} (h : Poisson.new (Flt.fin l) = .ok d) {k : ℕ} (hk : k ≤ 2 ^ 53)
    (hB : poissonSize l [k] ≤ 2 ^ 80) :
    ∃ r : ℚ, expFamLogDensity d k = Flt.fin (f := f64) (L := L) r ∧ f64.Representable r ∧
      |(r : ℝ) - Real.log ((l : ℝ) ^ k * Real.exp (-l) / k.factorial)| ≤ 116 * f64.u * poissonSize l [k] := by
  have hf : f64.Std := .inl rfl
  have key := C144_poisson_joint_partial hL hl h [k] (by simp) (by simpa using hk) (one_obs hf) (by simpa using hB)
  obtain ⟨-, rfl⟩ := Poisson.new_flt h
  rw [← (C146_discrete hf hC (p := Flt.fin l) hl 0 0 k).2.2.2.2]
  simpa using key

/-- **C144** (Bernoulli): one observation. -/
theorem C144_bernoulli_single_partial (hf : f.Std) (hL : L.Accurate f) (hC : L.Closed f) {p : ℚ}
    (hp : f.Representable p) (hp0 : 1 / 2 ^ 60 ≤ p) (hp1 : p ≠ 1) {d : Bernoulli (Flt f L)}
    (h : Bernoulli.new (Flt.fin p) = .ok d) {y : UInt8} (hy : y = 0 ∨ y = 1)
    (hB : bernoulliSize p ((y.toNat : ℕ) : ℝ) ≤ 2 ^ 80) :
    ∃ r : ℚ, expFamLogDensity d y = Flt.fin (f := f) (L := L) r ∧ f.Representable r ∧
      |(r : ℝ) - Real.log (bernoulliMass p y)| ≤ 36 * f.u * bernoulliSize p ((y.toNat : ℕ) : ℝ) := by
  have key := C144_bernoulli_joint_partial hf hL hp hp0 hp1 h [y] (by simp) (by simpa using hy) (one_obs hf)
    (by simpa using hB)
  obtain ⟨-, -, rfl⟩ := Bernoulli.new_flt h
  rw [← (C146_discrete hf hC (p := Flt.fin p) hp y 0 0).1]
  simpa using key

/-- **C144** (binomial): one observation. -/
theorem C144_binomial_single_partial (hf : f.Std) (hL : L.Accurate f) (hG : L.GammaAccurate f) (hC : L.Closed f) {p : ℚ}
    (hp : f.Representable p) (hp0 : 1 / 2 ^ 60 ≤ p) (hp1 : p ≠ 1) {N : ℕ} (hN : N < 2 ^ f.prec) {d : Binomial (Flt f L)}
    (h : Binomial.new N (Flt.fin p) = .ok d) {k : ℕ} (hk : k ≤ N) (hB : binomialSize p N 1 (k : ℝ) ≤ 2 ^ 80) :
    ∃ r : ℚ, expFamLogDensity d k = Flt.fin (f := f) (L := L) r ∧ f.Representable r ∧
      |(r : ℝ) - Real.log (N.choose k * (p : ℝ) ^ k * (1 - (p : ℝ)) ^ (N - k))| ≤
        40 * f.u * binomialSize p N 1 (k : ℝ) := by
  have key := C144_binomial_joint_partial hf hL hG hp hp0 hp1 hN h [k] (by simp) (by simpa using hk) (one_obs hf)
    (by simpa using hB)
  obtain ⟨-, -, rfl⟩ := Binomial.new_flt h
  rw [← (C146_discrete hf hC (p := Flt.fin p) hp 0 N k).2.1]
  simpa using key

/-- a library that meets all three assumptions -/
theorem exists_libm_closed_gamma (hf : f.Std) : ∃ L : Libm, L.Accurate f ∧ L.GammaAccurate f ∧ L.Closed f := by
  classical
  obtain ⟨L, hL, hG⟩ := exists_libm_gamma hf
  refine ⟨{ L with
    ln := fun q => if f.Valid (L.ln q) then L.ln q else .nan
    exp := fun q => if f.Valid (L.exp q) then L.exp q else .nan
    lnGamma := fun v => if f.Valid (L.lnGamma v) then L.lnGamma v else .nan }, ⟨?_, ?_⟩, ?_, ⟨?_, ?_, ?_⟩⟩
  · intro q h0 hq
    obtain ⟨r, h1, h2, h3⟩ := hL.ln q h0 hq
    refine ⟨r, ?_, h2, h3⟩
    show (if f.Valid (L.ln q) then L.ln q else .nan) = _
    rw [if_pos (by rw [h1]; exact h2), h1]
  · intro q hq
    rcases hL.exp q hq with ⟨r, h1, h2, h3⟩ | ⟨h1, h2⟩
    · refine .inl ⟨r, ?_, h2, h3⟩
      show (if f.Valid (L.exp q) then L.exp q else .nan) = _
      rw [if_pos (by rw [h1]; exact h2), h1]
    · refine .inr ⟨?_, h2⟩
      show (if f.Valid (L.exp q) then L.exp q else .nan) = _
      rw [if_pos (by rw [h1]; trivial), h1]
  · intro q h0 hq
    rcases hG q h0 hq with ⟨r, h1, h2, h3⟩ | ⟨h1, h2⟩
    · refine .inl ⟨r, ?_, h2, h3⟩
      show (if f.Valid (L.lnGamma (.fin q)) then L.lnGamma (.fin q) else .nan) = _
      rw [if_pos (by rw [h1]; exact h2), h1]
    · refine .inr ⟨?_, h2⟩
      show (if f.Valid (L.lnGamma (.fin q)) then L.lnGamma (.fin q) else .nan) = _
      rw [if_pos (by rw [h1]; trivial), h1]
  all_goals
    intro q
    dsimp only
    split_ifs with h
    · exact h
    · trivial

example (hf : f.Std) : ∃ L : Libm, L.Accurate f ∧ L.Closed f ∧
    ∃ r : ℚ, expFamLogDensity ({} : StdNormal (Flt f L)) (Flt.fin 2) = Flt.fin (f := f) (L := L) r ∧
      |(r : ℝ) - Real.log (gaussianPDFReal 0 1 2)| ≤ 725 * f.u := by
  obtain ⟨L, hL, hC⟩ := exists_libm_closed hf
  obtain ⟨r, h1, -, h2⟩ := C144_std_normal_single_partial hf hL hC hf.rep_two (by norm_num)
  refine ⟨L, hL, hC, r, h1, ?_⟩
  norm_num at h2
  linarith

example (hf : f.Std) : ∃ L : Libm, L.Accurate f ∧ L.GammaAccurate f ∧ L.Closed f ∧ ∃ d : ChiSquared (Flt f L),
    ChiSquared.new (Flt.fin 2) = .ok d ∧
    ∃ r : ℚ, expFamLogDensity d (Flt.fin 2) = Flt.fin (f := f) (L := L) r := by
  obtain ⟨L, hL, hG, hC⟩ := exists_libm_closed_gamma hf
  refine ⟨L, hL, hG, hC, ⟨Flt.fin 2⟩, rfl, ?_⟩
  have hlog : |Real.log 2| ≤ 1 := by
    rw [abs_of_pos (Real.log_pos (by norm_num))]; have := Real.log_two_lt_d9; linarith
  obtain ⟨r, h1, -⟩ := C144_chi_squared_single_partial (L := L) hf hL hG hC hf.rep_two (by norm_num)
    (d := ⟨Flt.fin 2⟩) rfl hf.rep_two (by norm_num) (by simp [chiSize]; linarith)
  exact ⟨r, h1⟩

example (hf : f.Std) : ∃ L : Libm, L.Accurate f ∧ L.GammaAccurate f ∧ L.Closed f ∧ ∃ d : Beta (Flt f L),
    Beta.new (Flt.fin 1) (Flt.fin 1) = .ok d ∧
    ∃ r : ℚ, expFamLogDensity d (Flt.fin (1/2)) = Flt.fin (f := f) (L := L) r := by
  obtain ⟨L, hL, hG, hC⟩ := exists_libm_closed_gamma hf
  refine ⟨L, hL, hG, hC, ⟨Flt.fin 1, Flt.fin 1⟩, rfl, ?_⟩
  have hlog : |Real.log 2| ≤ 1 := by
    rw [abs_of_pos (Real.log_pos (by norm_num))]; have := Real.log_two_lt_d9; linarith
  have e1 : (1 : ℝ) - 2⁻¹ = 2⁻¹ := by norm_num
  have e2 : (1 : ℝ) + 1 = 2 := by norm_num
  obtain ⟨r, h1, -⟩ := C144_beta_single_partial (L := L) hf hL hG hC hf.rep_one hf.rep_one
    (d := ⟨Flt.fin 1, Flt.fin 1⟩) rfl hf.rep_half (by norm_num) (by norm_num)
    (by simp [betaSize, e1, e2]; linarith)
  exact ⟨r, h1⟩

example (hf : f.Std) : ∃ L : Libm, L.Accurate f ∧ L.GammaAccurate f ∧ L.Closed f ∧
    (∃ d : Bernoulli (Flt f L), Bernoulli.new (Flt.fin (1/2)) = .ok d ∧
      ∃ r : ℚ, expFamLogDensity d (1 : UInt8) = Flt.fin (f := f) (L := L) r) ∧
    (∃ d : Binomial (Flt f L), Binomial.new 1 (Flt.fin (1/2)) = .ok d ∧
      ∃ r : ℚ, expFamLogDensity d 1 = Flt.fin (f := f) (L := L) r) := by
  obtain ⟨L, hL, hG, hC⟩ := exists_libm_closed_gamma hf
  have hlog : |Real.log 2| ≤ 1 := by
    rw [abs_of_pos (Real.log_pos (by norm_num))]; have := Real.log_two_lt_d9; linarith
  have e1 : (1 : ℝ) - 2⁻¹ = 2⁻¹ := by norm_num
  refine ⟨L, hL, hG, hC, ⟨⟨Flt.fin (1/2)⟩, ?_, ?_⟩, ⟨⟨1, Flt.fin (1/2)⟩, ?_, ?_⟩⟩
  · unfold Bernoulli.new
    exact if_pos (by show (decide ((0 : ℚ) ≤ 1/2) && decide ((1/2 : ℚ) ≤ 1)) = true; norm_num)
  · obtain ⟨r, h1, -⟩ := C144_bernoulli_single_partial (L := L) hf hL hC hf.rep_half (by norm_num) (by norm_num)
      (d := ⟨Flt.fin (1/2)⟩) (if_pos (by show (decide ((0 : ℚ) ≤ 1/2) && decide ((1/2 : ℚ) ≤ 1)) = true; norm_num))
      (y := 1) (.inr rfl) (by simp [bernoulliSize, e1]; linarith)
    exact ⟨r, h1⟩
  · unfold Binomial.new
    exact if_pos (by show (decide ((0 : ℚ) ≤ 1/2) && decide ((1/2 : ℚ) ≤ 1)) = true; norm_num)
  · obtain ⟨r, h1, -⟩ := C144_binomial_single_partial (L := L) hf hL hG hC hf.rep_half (by norm_num) (by norm_num)
      (N := 1) (Nat.one_lt_two_pow (by rcases hf with rfl | rfl <;> decide)) (d := ⟨1, Flt.fin (1/2)⟩)
      (if_pos (by show (decide ((0 : ℚ) ≤ 1/2) && decide ((1/2 : ℚ) ≤ 1)) = true; norm_num)) (k := 1) le_rfl
      (by simp [binomialSize, e1]; linarith)
    exact ⟨r, h1⟩

example : ∃ L : Libm, L.Accurate f64 ∧ L.Closed f64 ∧ ∃ d : Poisson (Flt f64 L), Poisson.new (Flt.fin 1) = .ok d ∧
    ∃ r : ℚ, expFamLogDensity d 1 = Flt.fin (f := f64) (L := L) r := by
  have hf : f64.Std := .inl rfl
  obtain ⟨L, hL, hC⟩ := exists_libm_closed hf
  refine ⟨L, hL, hC, ⟨Flt.fin 1⟩, rfl, ?_⟩
  obtain ⟨r, h1, -⟩ := C144_poisson_single_partial (L := L) hL hC hf.rep_one (d := ⟨Flt.fin 1⟩) rfl (k := 1)
    (by norm_num) (by simp [poissonSize]; norm_num)
  exact ⟨r, h1⟩

end Verif
