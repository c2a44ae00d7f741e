import Verif.Props.SumsDiscrete
import Verif.Props.RadonNikodymDist
import Verif.Props.Mixture
import Verif.Props.Pushforward
import Verif.Spec.LogConcave
import Mathlib.Analysis.Convex.SpecificFunctions.Basic
import Mathlib.Analysis.Convex.SpecificFunctions.Deriv

/-!
# C133: which densities are log-concave
-/

namespace Verif
open FloatOps XReal Spec

theorem exp_rpow_mul (u v t : ℝ) : Real.exp u ^ (1 - t) * Real.exp v ^ t = Real.exp ((1 - t) * u + t * v) := by
  rw [← Real.exp_mul, ← Real.exp_mul, ← Real.exp_add]
  congr 1; ring

/-- Log-concavity from the logarithms on a convex support. -/
theorem logConcave_iff {M : Type} [HasLogDensity M XReal XReal] {m : M} {S : ℝ → Prop} {u : ℝ → ℝ}
    (hu : ∀ x, S x → (logDensityWrtRoot m (fin x) : XReal) = fin (u x))
    (hn : ∀ x, ¬ S x → (logDensityWrtRoot m (fin x) : XReal) = ninf)
    (hS : ∀ x y t, S x → S y → 0 ≤ t → t ≤ 1 → S ((1 - t) * x + t * y)) :
    LogConcave m ↔ ∀ x y t, S x → S y → 0 ≤ t → t ≤ 1 →
      (1 - t) * u x + t * u y ≤ u ((1 - t) * x + t * y) := by
  constructor
  · intro h x y t hx hy h0 h1
    have := h x y t h0 h1
    rw [hu x hx, hu y hy, hu _ (hS x y t hx hy h0 h1), density_fin, density_fin, density_fin, exp_rpow_mul] at this
    exact Real.exp_le_exp.1 this
  · intro h x y t h0 h1
    have hnn : 0 ≤ density (logDensityWrtRoot m (fin ((1 - t) * x + t * y)) : XReal) := by
      by_cases hs : S ((1 - t) * x + t * y)
      · rw [hu _ hs, density_fin]; exact (Real.exp_pos _).le
      · rw [hn _ hs]; simp
    rcases eq_or_lt_of_le h0 with rfl | h0'
    · simp
    rcases eq_or_lt_of_le h1 with rfl | h1'
    · simp
    by_cases hx : S x
    · by_cases hy : S y
      · rw [hu x hx, hu y hy, hu _ (hS x y t hx hy h0 h1), density_fin, density_fin, density_fin, exp_rpow_mul]
        exact Real.exp_le_exp.2 (h x y t hx hy h0 h1)
      · rw [hn y hy, density_ninf, Real.zero_rpow h0'.ne', mul_zero]; exact hnn
    · rw [hn x hx, density_ninf, Real.zero_rpow (by linarith), zero_mul]; exact hnn

theorem log_mid {x y t : ℝ} (hx : 0 < x) (hy : 0 < y) (h0 : 0 ≤ t) (h1 : t ≤ 1) :
    (1 - t) * Real.log x + t * Real.log y ≤ Real.log ((1 - t) * x + t * y) := by
  have := strictConcaveOn_log_Ioi.concaveOn.2 (Set.mem_Ioi.2 hx) (Set.mem_Ioi.2 hy) (sub_nonneg.2 h1) h0 (by ring)
  simpa [smul_eq_mul] using this

theorem mix_pos {x y t : ℝ} (hx : 0 < x) (hy : 0 < y) (h0 : 0 ≤ t) (h1 : t ≤ 1) : 0 < (1 - t) * x + t * y := by
  rcases eq_or_lt_of_le h0 with rfl | h0
  · simpa using hx
  · have := mul_nonneg (sub_nonneg.2 h1) hx.le
    have := mul_pos h0 hy
    linarith

theorem two_log_two : Real.log 3 < 2 * Real.log 2 := by
  have : Real.log 3 < Real.log (2 * 2) := Real.log_lt_log (by norm_num) (by norm_num)
  rw [Real.log_mul (by norm_num) (by norm_num)] at this
  linarith

/-- **C133**, continuous families: always for normal and exponential; for gamma exactly from shape one on, for
chi-squared exactly from two degrees of freedom on, for beta exactly if both parameters are at least one; never for
Cauchy and Student's t. -/
theorem C133_continuous :
    (∀ (μ σ : ℝ) (d : Normal XReal), Normal.new (fin μ) (fin σ) = .ok d → LogConcave d) ∧
    (∀ (r : ℝ) (d : Exponential XReal), Exponential.new (fin r) = .ok d → LogConcave d) ∧
    (∀ (a b : ℝ) (d : Gamma XReal), Gamma.new (fin a) (fin b) = .ok d → (LogConcave d ↔ 1 ≤ a)) ∧
    (∀ (k : ℝ) (d : ChiSquared XReal), ChiSquared.new (fin k) = .ok d → (LogConcave d ↔ 2 ≤ k)) ∧
    (∀ (a b : ℝ) (d : Beta XReal), Beta.new (fin a) (fin b) = .ok d → (LogConcave d ↔ 1 ≤ a ∧ 1 ≤ b)) ∧
    (∀ (l s : ℝ) (d : Cauchy XReal), Cauchy.new (fin l) (fin s) = .ok d → ¬ LogConcave d) ∧
    (∀ (ν : ℝ) (d : StudentT XReal), StudentT.new (fin ν) = .ok d → ¬ LogConcave d) := by
  refine ⟨?_, ?_, ?_, ?_, ?_, ?_, ?_⟩
  · intro μ σ d h
    obtain ⟨hs, rfl⟩ := Normal.new_ok h
    refine (logConcave_iff (S := fun _ => True) (fun x _ => Normal.ld hs) (fun x hx => absurd trivial hx)
      fun _ _ _ _ _ _ _ => trivial).2 fun x y t _ _ h0 h1 => ?_
    have e : ((1 - t) * x + t * y - μ) / σ = (1 - t) * ((x - μ) / σ) + t * ((y - μ) / σ) := by field_simp; ring
    rw [e]
    generalize (x - μ) / σ = a
    generalize (y - μ) / σ = b
    nlinarith [mul_nonneg (mul_nonneg h0 (sub_nonneg.2 h1)) (mul_self_nonneg (a - b))]
  · intro r d h
    obtain ⟨hr, rfl⟩ := Exponential.new_ok h
    refine (logConcave_iff (S := fun x => 0 ≤ x) (fun x hx => Exponential.ld_of_nonneg hr hx)
      (fun x hx => Exponential.ld_of_neg (not_le.1 hx)) ?_).2 fun x y t _ _ h0 h1 => ?_
    · intro x y t hx hy h0 h1
      have := mul_nonneg (sub_nonneg.2 h1) hx
      have := mul_nonneg h0 hy
      linarith
    · linarith
  · intro a b d h
    obtain ⟨ha, hb, rfl⟩ := Gamma.new_ok h
    refine (logConcave_iff (S := fun x => 0 < x) (fun x hx => Gamma.ld_of_pos ha hb hx)
      (fun x hx => Gamma.ld_of_nonpos (not_lt.1 hx)) fun x y t => mix_pos).trans ⟨fun h => ?_, fun h => ?_⟩
    · have := h 1 3 (1/2) (by norm_num) (by norm_num) (by norm_num) (by norm_num)
      norm_num at this
      by_contra hlt
      have := mul_pos (sub_pos.2 (not_le.1 hlt)) (sub_pos.2 two_log_two)
      linarith
    · intro x y t hx hy h0 h1
      have := mul_le_mul_of_nonneg_left (log_mid hx hy h0 h1) (sub_nonneg.2 h)
      linarith
  · intro k d h
    obtain ⟨hk, rfl⟩ := ChiSquared.new_ok h
    refine (logConcave_iff (S := fun x => 0 < x) (fun x hx => ChiSquared.ld_of_pos hk hx)
      (fun x hx => ChiSquared.ld_of_nonpos (not_lt.1 hx)) fun x y t => mix_pos).trans ⟨fun h => ?_, fun h => ?_⟩
    · have := h 1 3 (1/2) (by norm_num) (by norm_num) (by norm_num) (by norm_num)
      norm_num at this
      by_contra hlt
      have := mul_pos (sub_pos.2 (not_le.1 hlt)) (sub_pos.2 two_log_two)
      linarith
    · intro x y t hx hy h0 h1
      have := mul_le_mul_of_nonneg_left (log_mid hx hy h0 h1) (by linarith : 0 ≤ k / 2 - 1)
      linarith
  · intro a b d h
    obtain ⟨ha, hb, rfl⟩ := Beta.new_ok h
    refine (logConcave_iff (S := fun x => 0 < x ∧ x < 1) (fun x hx => Beta.ld_of_mem ha hb hx.1 hx.2)
      (fun x hx => Beta.ld_of_not_mem hx) ?_).trans ⟨fun h => ?_, fun h => ?_⟩
    · rintro x y t ⟨hx0, hx1⟩ ⟨hy0, hy1⟩ h0 h1
      refine ⟨mix_pos hx0 hy0 h0 h1, ?_⟩
      have := mix_pos (sub_pos.2 hx1) (sub_pos.2 hy1) h0 h1
      linarith
    · have hlim : ∀ c : ℝ, Filter.Tendsto (fun e : ℝ => c * ((Real.log (1 - e) + Real.log (1 - 3 * e)) / 2 - Real.log (1 - 2 * e)))
          (nhdsWithin 0 (Set.Ioi 0)) (nhds 0) := by
        intro c
        have : ContinuousAt (fun e : ℝ => c * ((Real.log (1 - e) + Real.log (1 - 3 * e)) / 2 - Real.log (1 - 2 * e))) 0 := by
          refine ContinuousAt.mul continuousAt_const (ContinuousAt.sub (ContinuousAt.div_const (ContinuousAt.add ?_ ?_) _) ?_)
          · exact ContinuousAt.log (by fun_prop) (by norm_num)
          · exact ContinuousAt.log (by fun_prop) (by norm_num)
          · exact ContinuousAt.log (by fun_prop) (by norm_num)
        have := this.tendsto.mono_left (nhdsWithin_le_nhds (s := Set.Ioi 0))
        simpa using this
      have key : ∀ a b : ℝ, (∀ e : ℝ, 0 < e → e < 1/4 →
          (a - 1) * (Real.log 3 / 2 - Real.log 2) + (b - 1) * ((Real.log (1 - e) + Real.log (1 - 3 * e)) / 2
            - Real.log (1 - 2 * e)) ≤ 0) → 1 ≤ a := by
        intro a b h
        have hl := (hlim (b - 1)).const_add ((a - 1) * (Real.log 3 / 2 - Real.log 2))
        have hle := le_of_tendsto hl (b := 0) (by
          filter_upwards [Ioo_mem_nhdsGT (show (0:ℝ) < 1/4 by norm_num)] with e he
          exact h e he.1 he.2)
        by_contra hlt
        have := mul_pos (sub_pos.2 (not_le.1 hlt)) (sub_pos.2 two_log_two)
        linarith
      constructor
      · refine key a b fun e h0 h1 => ?_
        have := h e (3 * e) (1/2) ⟨h0, by linarith⟩ ⟨by linarith, by linarith⟩ (by norm_num) (by norm_num)
        have e1 : (1 - 1/2) * e + 1/2 * (3 * e) = 2 * e := by ring
        rw [e1, Real.log_mul (by norm_num) h0.ne', Real.log_mul (by norm_num) h0.ne'] at this
        linarith
      · refine key b a fun e h0 h1 => ?_
        have := h (1 - e) (1 - 3 * e) (1/2) ⟨by linarith, by linarith⟩ ⟨by linarith, by linarith⟩ (by norm_num) (by norm_num)
        have e1 : (1 - 1/2) * (1 - e) + 1/2 * (1 - 3 * e) = 1 - 2 * e := by ring
        rw [e1, sub_sub_cancel, sub_sub_cancel, sub_sub_cancel, Real.log_mul (by norm_num) h0.ne',
          Real.log_mul (by norm_num) h0.ne'] at this
        linarith
    · rintro x y t ⟨hx0, hx1⟩ ⟨hy0, hy1⟩ h0 h1
      have k1 := mul_le_mul_of_nonneg_left (log_mid hx0 hy0 h0 h1) (sub_nonneg.2 h.1)
      have k2 := mul_le_mul_of_nonneg_left (log_mid (sub_pos.2 hx1) (sub_pos.2 hy1) h0 h1) (sub_nonneg.2 h.2)
      have e : (1 - t) * (1 - x) + t * (1 - y) = 1 - ((1 - t) * x + t * y) := by ring
      rw [e] at k2
      linarith
  · intro l s d h hc
    obtain ⟨hs, rfl⟩ := Cauchy.new_ok h
    have := (logConcave_iff (S := fun _ => True) (fun x _ => Cauchy.ld hs) (fun x hx => absurd trivial hx)
      fun _ _ _ _ _ _ _ => trivial).1 hc (l + 2 * s) (l + 4 * s) (1/2) trivial trivial (by norm_num) (by norm_num)
    have e1 : (l + 2 * s - l) / s = 2 := by field_simp; ring
    have e2 : (l + 4 * s - l) / s = 4 := by field_simp; ring
    have e3 : ((1 - 1/2) * (l + 2 * s) + 1/2 * (l + 4 * s) - l) / s = 3 := by field_simp; ring
    rw [e1, e2, e3] at this
    norm_num at this
    have h1 : Real.log (5 * 17) < Real.log (10 * 10) := Real.log_lt_log (by norm_num) (by norm_num)
    rw [Real.log_mul (by norm_num) (by norm_num), Real.log_mul (by norm_num) (by norm_num)] at h1
    linarith
  · intro ν d h hc
    obtain ⟨hν, rfl⟩ := StudentT.new_ok h
    have hq : Real.sqrt ν * Real.sqrt ν = ν := Real.mul_self_sqrt hν.le
    have := (logConcave_iff (S := fun _ => True) (fun x _ => StudentT.ld hν) (fun x hx => absurd trivial hx)
      fun _ _ _ _ _ _ _ => trivial).1 hc (2 * Real.sqrt ν) (4 * Real.sqrt ν) (1/2) trivial trivial (by norm_num)
        (by norm_num)
    have e1 : 1 + 2 * Real.sqrt ν * (2 * Real.sqrt ν) / ν = 5 := by
      have : 2 * Real.sqrt ν * (2 * Real.sqrt ν) = 4 * ν := by linear_combination 4 * hq
      rw [this]; field_simp; norm_num
    have e2 : 1 + 4 * Real.sqrt ν * (4 * Real.sqrt ν) / ν = 17 := by
      have : 4 * Real.sqrt ν * (4 * Real.sqrt ν) = 16 * ν := by linear_combination 16 * hq
      rw [this]; field_simp; norm_num
    have e3 : 1 + ((1 - 1/2) * (2 * Real.sqrt ν) + 1/2 * (4 * Real.sqrt ν))
        * ((1 - 1/2) * (2 * Real.sqrt ν) + 1/2 * (4 * Real.sqrt ν)) / ν = 10 := by
      have : ((1 - 1/2) * (2 * Real.sqrt ν) + 1/2 * (4 * Real.sqrt ν))
        * ((1 - 1/2) * (2 * Real.sqrt ν) + 1/2 * (4 * Real.sqrt ν)) = 9 * ν := by linear_combination 9 * hq
      rw [this]; field_simp; norm_num
    rw [e1, e2, e3] at this
    have h1 : Real.log (5 * 17) < Real.log (10 * 10) := Real.log_lt_log (by norm_num) (by norm_num)
    rw [Real.log_mul (by norm_num) (by norm_num), Real.log_mul (by norm_num) (by norm_num)] at h1
    have := mul_pos (by linarith : 0 < (ν + 1) / 2) (sub_pos.2 h1)
    linarith

end Verif
