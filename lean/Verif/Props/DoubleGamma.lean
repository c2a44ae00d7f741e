import Verif.Props.Double
import Verif.Lemmas.App
import Verif.Spec.Dist
import Mathlib.Probability.Distributions.Beta

/-!
# C100: the Gamma, chi-squared, Beta and Student-t log-densities in floating point
-/

namespace Verif
open Format FloatOps ProbabilityTheory

variable {f : Format} {L : Libm}

/-! ### Gamma -/

theorem Gamma.new_flt {a b : ℚ} {d : Gamma (Flt f L)}
    (h : Gamma.new (Flt.fin a) (Flt.fin b) = .ok d) :
    0 < a ∧ 0 < b ∧ d = ⟨Flt.fin a, Flt.fin b⟩ := by
  unfold Gamma.new at h
  split_ifs at h with h1 h2
  · have h1' : decide ((0 : ℚ) < a) = true := h1
    have h2' : decide ((0 : ℚ) < b) = true := h2
    exact ⟨by simpa using h1', by simpa using h2', by cases h; rfl⟩

theorem gamma_flt (a b x : ℚ) :
    (logDensityWrtRoot (⟨Flt.fin a, Flt.fin b⟩ : Gamma (Flt f L)) (Flt.fin x : Flt f L) : Flt f L) =
      if 0 < x then
        Flt.sub f (Flt.add f (Flt.sub f (Flt.mul f (.fin a) (Flt.ln L (.fin b))) (L.lnGamma (.fin a)))
          (Flt.mul f (Flt.sub f (.fin a) (.fin 1)) (Flt.ln L (.fin x)))) (Flt.mul f (.fin b) (.fin x))
      else Flt.negInf (f := f) (L := L) := by
  show (if decide ((0 : ℚ) < x) = true then _ else _) = _
  simp only [decide_eq_true_eq]
  rfl

theorem log_gamma_pdf {a b x : ℝ} (ha : 0 < a) (hb : 0 < b) (hx : 0 < x) :
    Real.log (gammaPDFReal a b x) =
      a * Real.log b - Real.log (Real.Gamma a) + (a - 1) * Real.log x - b * x := by
  have hg := Real.Gamma_pos_of_pos ha
  rw [gammaPDFReal, if_pos hx.le, Real.log_mul (by positivity) (by positivity),
    Real.log_mul (by positivity) (by positivity), Real.log_div (by positivity) hg.ne',
    Real.log_rpow hb, Real.log_rpow hx, Real.log_exp]
  ring

theorem App.result {k : ℝ} {v : Flt f L} {x X : ℝ} (h : App f k v x X) :
    ∃ r : ℚ, v = Flt.fin (f := f) (L := L) r ∧ f.Representable r ∧ |(r : ℝ) - x| ≤ k * f.u * X := by
  obtain ⟨r, hr, hn⟩ := h
  exact ⟨r, hr, hn.rep, hn.err⟩

/-- **C100** (Gamma): for shape, rate and point in the format, the log-density is a finite number
within `56` units of roundoff of the logarithm of the Gamma density, relative to the sizes of its
terms, provided these sizes add up to at most `2^80`.  Outside the support it is exactly `-∞`. -/
theorem C100_gamma_partial (hf : f.Std) (hL : L.Accurate f) (hG : L.GammaAccurate f) {a b x : ℚ}
    (ha : f.Representable a) (hb : f.Representable b) (hx : f.Representable x) {d : Gamma (Flt f L)}
    (h : Gamma.new (Flt.fin a) (Flt.fin b) = .ok d)
    (hB : 1 + (a : ℝ) * |Real.log b| + |Real.log (Real.Gamma a)| + ((a : ℝ) + 1) * |Real.log x| + b * x
      ≤ 2 ^ 80) :
    (0 < x → ∃ r : ℚ, logDensityWrtRoot d (Flt.fin x : Flt f L) = Flt.fin (f := f) (L := L) r ∧
      f.Representable r ∧
      |(r : ℝ) - Real.log (gammaPDFReal a b x)| ≤
        56 * f.u * (1 + (a : ℝ) * |Real.log b| + |Real.log (Real.Gamma a)| +
          ((a : ℝ) + 1) * |Real.log x| + b * x)) ∧
    (x ≤ 0 → logDensityWrtRoot d (Flt.fin x : Flt f L) = Flt.negInf (f := f) (L := L)) := by
  obtain ⟨ha0, hb0, rfl⟩ := Gamma.new_flt h
  rw [gamma_flt]
  refine ⟨fun hx0 => ?_, fun hx0 => if_neg (not_lt.mpr hx0)⟩
  rw [if_pos hx0]
  have haR : (0 : ℝ) < a := by exact_mod_cast ha0
  have hbR : (0 : ℝ) < b := by exact_mod_cast hb0
  have hxR : (0 : ℝ) < x := by exact_mod_cast hx0
  rw [log_gamma_pdf haR hbR hxR]
  have hu := u_pos f
  have n1 : 0 ≤ (a : ℝ) * |Real.log b| := by positivity
  have n2 := abs_nonneg (Real.log (Real.Gamma a))
  have n3 : 0 ≤ ((a : ℝ) + 1) * |Real.log x| := by positivity
  have n4 : 0 ≤ (b : ℝ) * x := by positivity
  have p90 : (2 : ℝ) ^ 90 = 1024 * 2 ^ 80 := by norm_num
  have p80 : (1 : ℝ) ≤ 2 ^ 80 := by norm_num
  have hone : App f 0 (.fin 1) 1 1 := ⟨1, rfl, Near.one hf⟩
  -- the shape may be as large as its log-gamma allows: it is bounded by its share of the terms
  have haB : (a : ℝ) + 1 ≤ 2 ^ 90 := by
    have hS := (StirlingReal.log_gamma_bounds haR).1
    unfold StirlingReal.S at hS
    have hle := le_abs_self (Real.log (Real.Gamma a))
    obtain ⟨b0, -⟩ := log_two_pi_bounds
    by_contra hc
    have hc' : (2 : ℝ) ^ 89 < a := by
      have : (2 : ℝ) ^ 90 = 2 * 2 ^ 89 := by norm_num
      have : (1 : ℝ) ≤ 2 ^ 89 := by norm_num
      linarith
    have hl : 2 ≤ Real.log a := by
      have h1 := Real.log_le_log (by norm_num) hc'.le
      rw [Real.log_pow] at h1
      have := Real.log_two_gt_d9
      norm_num at h1
      linarith
    have h89 : (2 : ℝ) ^ 89 = 512 * 2 ^ 80 := by norm_num
    have : ((a : ℝ) - 1/2) * 2 ≤ ((a : ℝ) - 1/2) * Real.log a :=
      mul_le_mul_of_nonneg_left hl (by linarith)
    linarith
  have t1 := App.mul hf (App.pos ha0 ha) (App.ln_exact hf hL hb0 hb) (m := 6) le_rfl (by norm_num)
    (by norm_num) (by norm_num) (by linarith)
  have t2 := App.sub hf t1 (App.lnGamma_exact hf hG ha0 ha (by linarith)) (m := 10) (by norm_num)
    (by norm_num) (by norm_num) (by linarith)
  have t3 := App.sub hf (App.pos ha0 ha) hone (m := 2) (by norm_num) (by norm_num) (by norm_num) haB
  have t4 := App.mul hf t3 (App.ln_exact hf hL hx0 hx) (m := 8) (by norm_num) (by norm_num)
    (by norm_num) (by norm_num) (by linarith)
  have t5 := App.add hf t2 t4 (m := 12) (by norm_num) (by norm_num) (by norm_num) (by linarith)
  have t6 := App.mul hf (App.pos hb0 hb) (App.pos hx0 hx) (m := 4) le_rfl le_rfl (by norm_num)
    (by norm_num) (by linarith)
  have t7 := App.sub hf t5 t6 (m := 14) (by norm_num) (by norm_num) (by norm_num) (by linarith)
  exact App.result (App.rescale t7 (c := 4) (by norm_num) (by linarith)
    (by
      have := t7.mag
      have m1 := App.mag (App.ln_exact hf hL hx0 hx)
      have q1 := abs_mul (a : ℝ) (Real.log b)
      have q2 := abs_mul ((a : ℝ) - 1) (Real.log x)
      rw [abs_of_pos haR] at q1
      have q3 : |(a : ℝ) - 1| ≤ a + 1 := by rw [abs_le]; constructor <;> linarith
      have q4 := mul_le_mul_of_nonneg_right q3 (abs_nonneg (Real.log x))
      have r1 := abs_sub ((a : ℝ) * Real.log b - Real.log (Real.Gamma a) + (a - 1) * Real.log x) (b * x)
      have r2 := abs_add_le ((a : ℝ) * Real.log b - Real.log (Real.Gamma a)) ((a - 1) * Real.log x)
      have r3 := abs_sub ((a : ℝ) * Real.log b) (Real.log (Real.Gamma a))
      rw [abs_of_nonneg n4] at r1
      linarith) (by norm_num) (by norm_num))

/-! ### Chi-squared -/

theorem ChiSquared.new_flt {k : ℚ} {d : ChiSquared (Flt f L)}
    (h : ChiSquared.new (Flt.fin k) = .ok d) : 0 < k ∧ d = ⟨Flt.fin k⟩ := by
  unfold ChiSquared.new at h
  split_ifs at h with h1
  · refine ⟨?_, by cases h; rfl⟩
    have : decide ((0 : ℚ) < k) = true := h1
    simpa using this

theorem chi_flt (k x : ℚ) :
    (logDensityWrtRoot (⟨Flt.fin k⟩ : ChiSquared (Flt f L)) (Flt.fin x : Flt f L) : Flt f L) =
      if 0 < x then
        Flt.sub f (Flt.add f (Flt.sub f
          (Flt.mul f (Flt.neg (Flt.div f (.fin k) (Flt.add f (.fin 1) (.fin 1))))
            (Flt.ln L (Flt.add f (.fin 1) (.fin 1))))
          (L.lnGamma (Flt.div f (.fin k) (Flt.add f (.fin 1) (.fin 1)))))
          (Flt.mul f (Flt.sub f (Flt.div f (.fin k) (Flt.add f (.fin 1) (.fin 1))) (.fin 1))
            (Flt.ln L (.fin x))))
          (Flt.div f (.fin x) (Flt.add f (.fin 1) (.fin 1)))
      else Flt.negInf (f := f) (L := L) := by
  show (if decide ((0 : ℚ) < x) = true then _ else _) = _
  simp only [decide_eq_true_eq]
  rfl

theorem one_add_one (hf : f.Std) : Flt.add f (.fin 1) (.fin 1) = .fin 2 := by
  show f.round (1 + 1) = _
  rw [show (1 : ℚ) + 1 = 2 by norm_num]
  exact round_two hf

/-- half of a number of the format -/
theorem App.half (hf : f.Std) {q : ℚ} (h0 : 0 < q) (h : f.Representable q) (hB : (q : ℝ) ≤ 2 ^ 90) :
    App f 3 (Flt.div f (.fin q) (.fin 2)) ((q : ℝ) / 2) ((q : ℝ) / 2 + 1) := by
  have hq : (0 : ℝ) < q := by exact_mod_cast h0
  have hd : Flt.div f (.fin q) (.fin 2) = f.round (q / 2) := by simp [Flt.div]
  obtain ⟨r, hr⟩ := round_small hf (q := q / 2) (rat_le (by
    push_cast
    rw [abs_of_pos (by positivity)]
    have : (2 : ℝ) ^ (100 : ℤ) = 1024 * 2 ^ 90 := by norm_num
    rw [this]; linarith))
  obtain ⟨h1, h2⟩ := near_round hf hr
  push_cast at h2
  rw [abs_of_pos (show (0 : ℝ) < q / 2 by positivity)] at h2
  have hu := u_pos f
  have hη2 : (2 : ℝ) ^ f.emin ≤ f.u := by
    refine hf.eta_le.trans ?_
    have : f.u ^ 4 ≤ f.u ^ 1 :=
      pow_le_pow_of_le_one hu.le (hf.u_le.trans (by norm_num)) (by norm_num)
    simpa using this
  refine ⟨r, by rw [hd, hr], h1, by rw [abs_of_pos (by positivity)]; linarith, h2.trans ?_⟩
  have : 0 < f.u * q := by positivity
  linarith

/-- numbers whose log-gamma is moderate are moderate -/
theorem gamma_arg_le {s : ℝ} (hs : 0 < s) (h : |Real.log (Real.Gamma s)| ≤ 2 ^ 80) : s ≤ 2 ^ 81 := by
  have hS := (StirlingReal.log_gamma_bounds hs).1
  unfold StirlingReal.S at hS
  have hle := le_abs_self (Real.log (Real.Gamma s))
  obtain ⟨b0, -⟩ := log_two_pi_bounds
  by_contra hc
  rw [not_le] at hc
  have hl : 2 ≤ Real.log s := by
    have h1 := Real.log_le_log (by norm_num) hc.le
    rw [Real.log_pow] at h1
    have := Real.log_two_gt_d9
    norm_num at h1
    linarith
  have h81 : (2 : ℝ) ^ 81 = 2 * 2 ^ 80 := by norm_num
  have h80 : (1 : ℝ) < 2 ^ 80 := by norm_num
  have : (s - 1/2) * 2 ≤ (s - 1/2) * Real.log s :=
    mul_le_mul_of_nonneg_left hl (by linarith)
  linarith

/-- **C100** (chi-squared): for degrees of freedom from `2^-50` on, the log-density is a finite number
within `150` units of roundoff of the logarithm of the density, relative to the sizes of its terms,
provided these add up to at most `2^80`.  Outside the support it is exactly `-∞`. -/
theorem C100_chi_squared_partial (hf : f.Std) (hL : L.Accurate f) (hG : L.GammaAccurate f) {k x : ℚ}
    (hk : f.Representable k) (hx : f.Representable x) (hk1 : 1 / 2 ^ 50 ≤ k) {d : ChiSquared (Flt f L)}
    (h : ChiSquared.new (Flt.fin k) = .ok d)
    (hB : 1 + (k : ℝ) / 2 * (1 + |Real.log ((k : ℝ) / 2)|) + |Real.log (Real.Gamma ((k : ℝ) / 2))|
      + ((k : ℝ) / 2 + 1) * |Real.log x| + x / 2 ≤ 2 ^ 80) :
    (0 < x → ∃ r : ℚ, logDensityWrtRoot d (Flt.fin x : Flt f L) = Flt.fin (f := f) (L := L) r ∧
      f.Representable r ∧
      |(r : ℝ) - Real.log (gammaPDFReal ((k : ℝ) / 2) (1 / 2) x)| ≤
        150 * f.u * (1 + (k : ℝ) / 2 * (1 + |Real.log ((k : ℝ) / 2)|) +
          |Real.log (Real.Gamma ((k : ℝ) / 2))| + ((k : ℝ) / 2 + 1) * |Real.log x| + x / 2)) ∧
    (x ≤ 0 → logDensityWrtRoot d (Flt.fin x : Flt f L) = Flt.negInf (f := f) (L := L)) := by
  obtain ⟨hk0, rfl⟩ := ChiSquared.new_flt h
  rw [chi_flt]
  refine ⟨fun hx0 => ?_, fun hx0 => if_neg (not_lt.mpr hx0)⟩
  rw [if_pos hx0, one_add_one hf]
  have hkR : (0 : ℝ) < k := by exact_mod_cast hk0
  have hxR : (0 : ℝ) < x := by exact_mod_cast hx0
  have hk1' : (1 : ℝ) / 2 ^ 50 ≤ k := by
    have := Rat.cast_le (K := ℝ) |>.mpr hk1
    push_cast at this; exact this
  rw [log_gamma_pdf (by positivity) (by norm_num) hxR]
  have hu := u_pos f
  set s : ℝ := (k : ℝ) / 2 with hs
  have hs0 : 0 < s := by positivity
  have n1 : 0 ≤ s * |Real.log s| := by positivity
  have n2 := abs_nonneg (Real.log (Real.Gamma s))
  have n3 : 0 ≤ (s + 1) * |Real.log x| := by positivity
  have n5 : 0 ≤ s * (1 + |Real.log s|) := by positivity
  have p90 : (2 : ℝ) ^ 90 = 1024 * 2 ^ 80 := by norm_num
  have p89 : (2 : ℝ) ^ 89 = 512 * 2 ^ 80 := by norm_num
  have p80 : (1 : ℝ) ≤ 2 ^ 80 := by norm_num
  have hl2 := Real.log_two_lt_d9
  have hl2' := Real.log_two_gt_d9
  have hone : App f 0 (.fin 1) 1 1 := ⟨1, rfl, Near.one hf⟩
  have htwo : App f 0 (.fin 2) 2 2 := ⟨2, rfl, Near.two hf⟩
  have hsB : s ≤ 2 ^ 80 := by
    have : s ≤ s * (1 + |Real.log s|) := le_mul_of_one_le_right hs0.le (by
      have := abs_nonneg (Real.log s); linarith)
    linarith
  have t0 : App f 6 (Flt.div f (.fin k) (.fin 2)) s s :=
    App.div_rel hf (App.pos hk0 hk) htwo (by norm_num) le_rfl le_rfl (by norm_num) (by norm_num)
      (u_cube_le_tiny hf (by
        have : (1 : ℝ) / 2 ^ 60 ≤ 1 / 2 ^ 50 / 2 := by norm_num
        exact this.trans (div_le_div_of_nonneg_right hk1' (by norm_num)))) (by rw [← hs]; linarith)
  have tl : App f 2 (Flt.ln L (.fin 2)) (Real.log 2) (Real.log 2) := by
    have := App.ln_exact hf hL (q := 2) (by norm_num) hf.rep_two
    push_cast at this
    rwa [abs_of_pos (by linarith)] at this
  have sl : s * Real.log 2 ≤ s := by nlinarith
  have t1 := App.mul hf t0.neg tl (m := 12) (by norm_num) (by norm_num)
    (by norm_num) (by norm_num) (by linarith)
  have t2 := App.sub hf t1 (App.lnGamma hf hG t0 hs0 (m := 21) (by norm_num) (by norm_num)
    (by norm_num) (by linarith)) (m := 23) (by norm_num) (by norm_num) (by norm_num) (by linarith)
  have t3 := App.sub hf t0 hone (m := 8) (by norm_num) (by norm_num) (by norm_num) (by linarith)
  have t4 := App.mul hf t3 (App.ln_exact hf hL hx0 hx) (m := 14) (by norm_num) (by norm_num)
    (by norm_num) (by norm_num) (by linarith)
  have t5 := App.add hf t2 t4 (m := 25) (by norm_num) (by norm_num) (by norm_num) (by linarith)
  have t6 := App.half hf hx0 hx (by linarith)
  have t7 := App.sub hf t5 t6 (m := 27) (by norm_num) (by norm_num) (by norm_num) (by linarith)
  have e : s * Real.log (1 / 2) - Real.log (Real.Gamma s) + (s - 1) * Real.log x - 1 / 2 * x
      = -s * Real.log 2 - Real.log (Real.Gamma s) + (s - 1) * Real.log x - x / 2 := by
    rw [one_div, Real.log_inv]; ring
  rw [e]
  obtain ⟨r, h1, h2, h3⟩ := App.result t7
  have : s ≤ s * (1 + |Real.log s|) := le_mul_of_one_le_right hs0.le (by
      have := abs_nonneg (Real.log s); linarith)
  refine ⟨r, h1, h2, h3.trans ?_⟩
  rw [show (150 : ℝ) * f.u * (1 + s * (1 + |Real.log s|) + |Real.log (Real.Gamma s)| +
    (s + 1) * |Real.log x| + x / 2) = 27 * f.u * (150/27 * (1 + s * (1 + |Real.log s|) +
      |Real.log (Real.Gamma s)| + (s + 1) * |Real.log x| + x / 2)) by ring]
  exact mul_le_mul_of_nonneg_left (by linarith) (by positivity)

/-! ### Beta -/

theorem Beta.new_flt {a b : ℚ} {d : Beta (Flt f L)}
    (h : Beta.new (Flt.fin a) (Flt.fin b) = .ok d) :
    0 < a ∧ 0 < b ∧ d = ⟨Flt.fin a, Flt.fin b⟩ := by
  unfold Beta.new at h
  split_ifs at h with h1 h2
  · have h1' : decide ((0 : ℚ) < a) = true := h1
    have h2' : decide ((0 : ℚ) < b) = true := h2
    exact ⟨by simpa using h1', by simpa using h2', by cases h; rfl⟩

theorem beta_flt (a b x : ℚ) :
    (logDensityWrtRoot (⟨Flt.fin a, Flt.fin b⟩ : Beta (Flt f L)) (Flt.fin x : Flt f L) : Flt f L) =
      if 0 < x ∧ x < 1 then
        Flt.add f (Flt.add f (Flt.sub f (Flt.sub f (L.lnGamma (Flt.add f (.fin a) (.fin b)))
            (L.lnGamma (.fin a))) (L.lnGamma (.fin b)))
          (Flt.mul f (Flt.sub f (.fin a) (.fin 1)) (Flt.ln L (.fin x))))
          (Flt.mul f (Flt.sub f (.fin b) (.fin 1)) (Flt.ln L (Flt.sub f (.fin 1) (.fin x))))
      else Flt.negInf (f := f) (L := L) := by
  show (if (decide ((0 : ℚ) < x) && decide (x < 1)) = true then _ else _) = _
  simp only [Bool.and_eq_true, decide_eq_true_eq]
  rfl

theorem log_beta_pdf {a b x : ℝ} (ha : 0 < a) (hb : 0 < b) (hx : 0 < x) (hx1 : x < 1) :
    Real.log (betaPDFReal a b x) =
      Real.log (Real.Gamma (a + b)) - Real.log (Real.Gamma a) - Real.log (Real.Gamma b)
        + (a - 1) * Real.log x + (b - 1) * Real.log (1 - x) := by
  have ga := Real.Gamma_pos_of_pos ha
  have gb := Real.Gamma_pos_of_pos hb
  have gs := Real.Gamma_pos_of_pos (add_pos ha hb)
  have hx2 : 0 < 1 - x := by linarith
  rw [betaPDFReal, if_pos ⟨hx, hx1⟩, beta, Real.log_mul (by positivity) (by positivity),
    Real.log_mul (by positivity) (by positivity), Real.log_rpow hx, Real.log_rpow hx2, one_div,
    Real.log_inv, Real.log_div (by positivity) gs.ne', Real.log_mul ga.ne' gb.ne']
  ring

/-- **C100** (Beta): for parameters and a point strictly between zero and one, the log-density is a
finite number within `95` units of roundoff of the logarithm of the Beta density, relative to the sizes
of its terms, provided these add up to at most `2^80`.  Outside the support it is exactly `-∞`. -/
theorem C100_beta_partial (hf : f.Std) (hL : L.Accurate f) (hG : L.GammaAccurate f) {a b x : ℚ}
    (ha : f.Representable a) (hb : f.Representable b) (hx : f.Representable x) {d : Beta (Flt f L)}
    (h : Beta.new (Flt.fin a) (Flt.fin b) = .ok d)
    (hB : 1 + |Real.log (Real.Gamma ((a : ℝ) + b))| + ((a : ℝ) + b) * (1 + |Real.log ((a : ℝ) + b)|)
      + |Real.log (Real.Gamma a)| + |Real.log (Real.Gamma b)| + ((a : ℝ) + 1) * |Real.log x|
      + ((b : ℝ) + 1) * (1 + |Real.log (1 - x)|) ≤ 2 ^ 80) :
    (0 < x ∧ x < 1 → ∃ r : ℚ, logDensityWrtRoot d (Flt.fin x : Flt f L) = Flt.fin (f := f) (L := L) r ∧
      f.Representable r ∧
      |(r : ℝ) - Real.log (betaPDFReal a b x)| ≤
        95 * f.u * (1 + |Real.log (Real.Gamma ((a : ℝ) + b))|
          + ((a : ℝ) + b) * (1 + |Real.log ((a : ℝ) + b)|)
          + |Real.log (Real.Gamma a)| + |Real.log (Real.Gamma b)| + ((a : ℝ) + 1) * |Real.log x|
          + ((b : ℝ) + 1) * (1 + |Real.log (1 - x)|))) ∧
    (x ≤ 0 ∨ 1 ≤ x → logDensityWrtRoot d (Flt.fin x : Flt f L) = Flt.negInf (f := f) (L := L)) := by
  obtain ⟨ha0, hb0, rfl⟩ := Beta.new_flt h
  rw [beta_flt]
  refine ⟨fun hx01 => ?_, fun hx0 => if_neg (by
    rintro ⟨h1, h2⟩; rcases hx0 with h3 | h3 <;> linarith)⟩
  rw [if_pos hx01]
  obtain ⟨hx0, hx1⟩ := hx01
  have haR : (0 : ℝ) < a := by exact_mod_cast ha0
  have hbR : (0 : ℝ) < b := by exact_mod_cast hb0
  have hxR : (0 : ℝ) < x := by exact_mod_cast hx0
  have hxR1 : (x : ℝ) < 1 := by exact_mod_cast hx1
  have hx2 : 0 < 1 - (x : ℝ) := by linarith
  rw [log_beta_pdf haR hbR hxR hxR1]
  have hu := u_pos f
  set s : ℝ := (a : ℝ) + b with hs
  have hs0 : 0 < s := by positivity
  have n1 : 0 ≤ s * (1 + |Real.log s|) := by positivity
  have n2 := abs_nonneg (Real.log (Real.Gamma s))
  have n3 := abs_nonneg (Real.log (Real.Gamma a))
  have n4 := abs_nonneg (Real.log (Real.Gamma b))
  have n5 : 0 ≤ ((a : ℝ) + 1) * |Real.log x| := by positivity
  have n6 : 0 ≤ ((b : ℝ) + 1) * (1 + |Real.log (1 - x)|) := by positivity
  have p90 : (2 : ℝ) ^ 90 = 1024 * 2 ^ 80 := by norm_num
  have p89 : (2 : ℝ) ^ 89 = 512 * 2 ^ 80 := by norm_num
  have p80 : (1 : ℝ) ≤ 2 ^ 80 := by norm_num
  have hone : App f 0 (.fin 1) 1 1 := ⟨1, rfl, Near.one hf⟩
  have hsB : s ≤ s * (1 + |Real.log s|) := le_mul_of_one_le_right hs0.le (by
    have := abs_nonneg (Real.log s); linarith)
  have t0 := App.add_pos hf ha hb hs0.le (by linarith)
  have t1 := App.lnGamma hf hG t0 hs0 (m := 11) (by norm_num) (by norm_num) (by norm_num)
    (by linarith)
  have t2 := App.sub hf t1 (App.lnGamma_exact hf hG ha0 ha (by linarith)) (m := 13) (by norm_num)
    (by norm_num) (by norm_num) (by linarith)
  have t3 := App.sub hf t2 (App.lnGamma_exact hf hG hb0 hb (by linarith)) (m := 15) (by norm_num)
    (by norm_num) (by norm_num) (by linarith)
  have t4 := App.sub hf (App.pos ha0 ha) hone (m := 2) (by norm_num) (by norm_num) (by norm_num)
    (by linarith)
  have t5 := App.mul hf t4 (App.ln_exact hf hL hx0 hx) (m := 8) (by norm_num) (by norm_num)
    (by norm_num) (by norm_num) (by linarith)
  have t6 := App.add hf t3 t5 (m := 17) (by norm_num) (by norm_num) (by norm_num) (by linarith)
  have t7 := App.sub hf (App.pos hb0 hb) hone (m := 2) (by norm_num) (by norm_num) (by norm_num)
    (by linarith)
  have t8 : App f 1 (Flt.sub f (.fin 1) (.fin x)) (1 - (x : ℝ)) (1 - (x : ℝ)) := by
    have := App.add_pos hf hf.rep_one (rep_neg hx) (by push_cast; linarith)
      (by push_cast; linarith)
    push_cast at this
    rw [← sub_eq_add_neg] at this
    exact this
  have t9 := App.ln hf hL t8 hx2 (m := 5) (by norm_num) (by norm_num) (by norm_num)
  have t10 := App.mul hf t7 t9 (m := 11) (by norm_num) (by norm_num)
    (by norm_num) (by norm_num) (by linarith)
  have t11 := App.add hf t6 t10 (m := 19) (by norm_num) (by norm_num) (by norm_num) (by linarith)
  obtain ⟨r, h1, h2, h3⟩ := App.result t11
  refine ⟨r, h1, h2, h3.trans ?_⟩
  rw [show ∀ y : ℝ, (95 : ℝ) * f.u * y = 19 * f.u * (5 * y) by intro y; ring]
  exact mul_le_mul_of_nonneg_left (by linarith) (by positivity)

/-! ### Student's t -/

theorem StudentT.new_flt {ν : ℚ} {d : StudentT (Flt f L)}
    (h : StudentT.new (Flt.fin ν) = .ok d) : 0 < ν ∧ d = ⟨Flt.fin ν⟩ := by
  unfold StudentT.new at h
  split_ifs at h with h1
  · refine ⟨?_, by cases h; rfl⟩
    have : decide ((0 : ℚ) < ν) = true := h1
    simpa using this

theorem student_flt (ν x : Flt f L) :
    (logDensityWrtRoot (⟨ν⟩ : StudentT (Flt f L)) x : Flt f L) =
      Flt.add f
        (Flt.sub f (Flt.sub f
          (L.lnGamma (Flt.div f (Flt.add f ν (.fin 1)) (f.round 2)))
          (L.lnGamma (Flt.div f ν (f.round 2))))
          (Flt.mul f (f.round (1/2)) (Flt.ln L (Flt.mul f ν (f.round Flt.piLit)))))
        (Flt.mul f (Flt.neg (Flt.div f (Flt.add f ν (.fin 1)) (f.round 2)))
          (Flt.ln L (Flt.add f (.fin 1) (Flt.div f (Flt.mul f x x) ν)))) := rfl

theorem log_student_pdf {ν x : ℝ} (hν : 0 < ν) :
    Real.log (Spec.studentTPDFReal ν x) =
      Real.log (Real.Gamma ((ν + 1) / 2)) - Real.log (Real.Gamma (ν / 2)) -
        1/2 * Real.log (ν * Real.pi) + -((ν + 1) / 2) * Real.log (1 + x * x / ν) := by
  have g1 := Real.Gamma_pos_of_pos (show 0 < (ν + 1)/2 by positivity)
  have g2 := Real.Gamma_pos_of_pos (show 0 < ν/2 by positivity)
  have hp : 0 < ν * Real.pi := by positivity
  have hq : 0 < 1 + x ^ 2 / ν := by positivity
  rw [Spec.studentTPDFReal, Real.log_mul (by positivity) (by positivity),
    Real.log_div g1.ne' (by positivity), Real.log_mul (by positivity) g2.ne',
    Real.log_sqrt hp.le, Real.log_rpow hq, pow_two]
  ring

set_option maxHeartbeats 1000000 in
/-- **C100** (Student's t): for degrees of freedom from `2^-50` on and a point with `x²` and `x²/ν` at
most `2^80`, the log-density in double precision is a finite number within `528` units of roundoff of
the logarithm of the density, relative to the sizes of its terms, provided these add up to at most
`2^80`. -/
theorem C100_student_t_partial (hL : L.Accurate f64) (hG : L.GammaAccurate f64) {ν x : ℚ}
    (hν : f64.Representable ν) (hx : f64.Representable x) (hν1 : 1 / 2 ^ 50 ≤ ν)
    (hx1 : (x : ℝ) ^ 2 ≤ 2 ^ 80) (hx2 : (x : ℝ) ^ 2 / ν ≤ 2 ^ 80) {d : StudentT (Flt f64 L)}
    (h : StudentT.new (Flt.fin ν) = .ok d) {M : ℝ}
    (hM : M = 1 + |Real.log (Real.Gamma (((ν : ℝ) + 1) / 2))| + |Real.log (Real.Gamma ((ν : ℝ) / 2))|
      + ((ν : ℝ) + 1) / 2 * (1 + |Real.log (((ν : ℝ) + 1) / 2)|)
      + (ν : ℝ) / 2 * (1 + |Real.log ((ν : ℝ) / 2)|) + |Real.log ν|
      + ((ν : ℝ) + 1) / 2 * (1 + Real.log (1 + (x : ℝ) ^ 2 / ν))) (hB : M ≤ 2 ^ 80) :
    ∃ r : ℚ, logDensityWrtRoot d (Flt.fin x : Flt f64 L) = Flt.fin (f := f64) (L := L) r ∧
      f64.Representable r ∧
      |(r : ℝ) - Real.log (Spec.studentTPDFReal ν x)| ≤ 528 * f64.u * M := by
  have hf : f64.Std := .inl rfl
  obtain ⟨hν0, rfl⟩ := StudentT.new_flt h
  rw [student_flt]
  have hνR : (0 : ℝ) < ν := by exact_mod_cast hν0
  rw [log_student_pdf hνR, round_two hf, round_half hf]
  have hν1' : (1 : ℝ) / 2 ^ 50 ≤ ν := by
    have := Rat.cast_le (K := ℝ) |>.mpr hν1
    push_cast at this; exact this
  have hu := u_pos f64
  have hu3 : f64.u ^ 3 ≤ 1 / 2 ^ 150 := by
    have : f64.u = 1 / 2 ^ 53 := by unfold Format.u; rfl
    rw [this]; norm_num
  set s : ℝ := ((ν : ℝ) + 1) / 2 with hs
  set t : ℝ := (ν : ℝ) / 2 with ht
  set w : ℝ := (x : ℝ) ^ 2 / ν with hw
  have hs0 : 0 < s := by positivity
  have ht0 : 0 < t := by positivity
  have hw0 : 0 ≤ w := by positivity
  have hlw : 0 ≤ Real.log (1 + w) := Real.log_nonneg (by linarith)
  have n1 := abs_nonneg (Real.log (Real.Gamma s))
  have n2 := abs_nonneg (Real.log (Real.Gamma t))
  have n3 : 0 ≤ s * (1 + |Real.log s|) := by positivity
  have n4 : 0 ≤ t * (1 + |Real.log t|) := by positivity
  have n5 := abs_nonneg (Real.log ν)
  have n6 : 0 ≤ s * (1 + Real.log (1 + w)) := by positivity
  have p90 : (2 : ℝ) ^ 90 = 1024 * 2 ^ 80 := by norm_num
  have p89 : (2 : ℝ) ^ 89 = 512 * 2 ^ 80 := by norm_num
  have p80 : (1 : ℝ) ≤ 2 ^ 80 := by norm_num
  have hpi3 := Real.pi_gt_three
  have hpi4 := Real.pi_le_four
  have hone : App f64 0 (.fin 1) 1 1 := ⟨1, rfl, Near.one hf⟩
  have htwo : App f64 0 (.fin 2) 2 2 := ⟨2, rfl, Near.two hf⟩
  have hhalf : App f64 0 (.fin (1/2)) (1/2) (1/2) := ⟨1/2, rfl, Near.half hf⟩
  have hpi : App f64 4 (f64.round Flt.piLit) Real.pi Real.pi := near_pi hf
  have hsB : s ≤ s * (1 + |Real.log s|) := le_mul_of_one_le_right hs0.le (by
    have := abs_nonneg (Real.log s); linarith)
  have hνB : (ν : ℝ) ≤ 2 * 2 ^ 80 := by
    have : (ν : ℝ) = 2 * s - 1 := by rw [hs]; ring
    linarith
  -- the arguments of log-gamma
  have a1 : App f64 7 (Flt.div f64 (Flt.add f64 (.fin ν) (.fin 1)) (.fin 2)) s s := by
    have h1 := App.add_pos hf hν hf.rep_one (by push_cast; linarith) (by push_cast; linarith)
    push_cast at h1
    refine App.div_rel hf h1 htwo (by norm_num) (by norm_num) le_rfl (by norm_num) (by norm_num)
      (hu3.trans ?_) (by rw [← hs]; linarith)
    have : (1 : ℝ) / 2 ≤ ((ν : ℝ) + 1) / 2 := by linarith
    exact le_trans (by norm_num) this
  have a2 : App f64 6 (Flt.div f64 (.fin ν) (.fin 2)) t t := by
    refine App.div_rel hf (App.pos hν0 hν) htwo (by norm_num) le_rfl le_rfl (by norm_num)
      (by norm_num) (hu3.trans ?_) (by rw [← ht]; linarith)
    have : (1 : ℝ) / 2 ^ 50 / 2 ≤ (ν : ℝ) / 2 := by linarith
    exact le_trans (by norm_num) this
  have b1 := App.lnGamma hf hG a1 hs0 (m := 23) (by norm_num) (by norm_num) (by norm_num)
    (by linarith)
  have b2 := App.lnGamma hf hG a2 ht0 (m := 21) (by norm_num) (by norm_num) (by norm_num)
    (by linarith)
  have b3 := App.sub hf b1 b2 (m := 25) (by norm_num) (by norm_num) (by norm_num) (by linarith)
  -- `½ ln νπ`
  have hνπ : (1 : ℝ) / 2 ^ 50 * 3 ≤ ν * Real.pi := mul_le_mul hν1' hpi3.le (by norm_num) hνR.le
  have c1 := App.mul_rel hf (App.pos hν0 hν) hpi (m := 8) le_rfl (by norm_num) (by norm_num)
    (by norm_num) (hu3.trans (le_trans (by norm_num) hνπ)) (by nlinarith)
  have c2 := App.ln hf hL c1 (by positivity) (m := 19) (by norm_num) (by norm_num) (by norm_num)
  have hlνπ : |Real.log (ν * Real.pi)| ≤ |Real.log ν| + 7/5 := by
    rw [Real.log_mul hνR.ne' (by positivity)]
    obtain ⟨l0, l1⟩ := log_pi_bounds
    have := abs_add_le (Real.log ν) (Real.log Real.pi)
    rw [abs_of_nonneg l0] at this
    linarith
  have c3 := App.mul hf hhalf c2 (m := 23) le_rfl (by norm_num) (by norm_num) (by norm_num)
    (by linarith)
  have c4 := App.sub hf b3 c3 (m := 27) (by norm_num) (by norm_num) (by norm_num) (by linarith)
  -- the kernel
  have hX : App f64 0 (.fin x) x (|(x : ℝ)| + 1 / 2 ^ 30) :=
    (App.exact hx).mono ⟨le_rfl, le_rfl⟩ (by norm_num)
  have hxa := abs_nonneg (x : ℝ)
  have hsq : (|(x : ℝ)| + 1 / 2 ^ 30) * (|(x : ℝ)| + 1 / 2 ^ 30) ≤ 2 * (x : ℝ) ^ 2 + 1 / 2 ^ 59 := by
    have := sq_abs (x : ℝ)
    nlinarith [sq_nonneg (|(x : ℝ)| - 1 / 2 ^ 30)]
  have hsq' : (1 : ℝ) / 2 ^ 60 ≤ (|(x : ℝ)| + 1 / 2 ^ 30) * (|(x : ℝ)| + 1 / 2 ^ 30) := by
    calc (1 : ℝ) / 2 ^ 60 = (0 + 1 / 2 ^ 30) * (0 + 1 / 2 ^ 30) := by norm_num
      _ ≤ _ := by gcongr
  have d1 := App.mul_rel hf hX hX (m := 4) le_rfl le_rfl (by norm_num) (by norm_num)
    (hu3.trans (le_trans (by norm_num) hsq')) (hsq.trans (by
      have : (1 : ℝ) / 2 ^ 59 ≤ 1 := by norm_num
      linarith))
  have hdv : (|(x : ℝ)| + 1 / 2 ^ 30) * (|(x : ℝ)| + 1 / 2 ^ 30) / ν ≤ 2 * (w + 1) := by
    rw [div_le_iff₀ hνR]
    have e1 : 2 * (w + 1) * (ν : ℝ) = 2 * (x : ℝ) ^ 2 + 2 * ν := by rw [hw]; field_simp
    rw [e1]
    have : (1 : ℝ) / 2 ^ 59 ≤ 1 / 2 ^ 50 := by norm_num
    linarith
  have d2 := App.div_rel hf d1 (App.pos hν0 hν) hνR (m := 10) (by norm_num) le_rfl (by norm_num)
    (by norm_num) (hu3.trans (by
      rw [le_div_iff₀ hνR]
      refine le_trans ?_ hsq'
      calc (1 : ℝ) / 2 ^ 150 * ν ≤ 1 / 2 ^ 150 * (2 * 2 ^ 80) := by gcongr
        _ ≤ _ := by norm_num)) (hdv.trans (by linarith))
  have ew : (x : ℝ) * x / ν = w := by rw [hw, pow_two]
  rw [ew] at d2 ⊢
  have d3 := App.add hf hone d2 (m := 12) (by norm_num) (by norm_num) (by norm_num) (by linarith)
  have d4 : App f64 36 _ (1 + w) (1 + w) := App.rescale d3 (c := 3) (by norm_num) (by linarith)
    (by rw [abs_of_nonneg (by linarith)]) (by norm_num) (by norm_num)
  have d5 := App.ln hf hL d4 (by linarith) (m := 75) (by norm_num) (by norm_num) (by norm_num)
  rw [abs_of_nonneg hlw] at d5
  have d6 := App.mul hf a1.neg d5 (m := 86) (by norm_num) (by norm_num) (by norm_num) (by norm_num)
    (by linarith)
  have d7 := App.add hf c4 d6 (m := 88) (by norm_num) (by norm_num) (by norm_num) (by linarith)
  obtain ⟨r, h1, h2, h3⟩ := App.result d7
  refine ⟨r, h1, h2, h3.trans ?_⟩
  rw [show (528 : ℝ) * f64.u * M = 88 * f64.u * (6 * M) by ring]
  exact mul_le_mul_of_nonneg_left (by linarith) (by positivity)

/-! ### limits of the theorems -/

theorem log_gamma_huge {b : ℚ} (hb : b = 2 ^ (1020 : ℤ)) :
    (0 : ℝ) < b ∧ 700 ≤ Real.log b ∧ Real.log b ≤ 710 ∧ 500 * (b : ℝ) ≤ Real.log (Real.Gamma b) := by
  have h0 : (0 : ℝ) < b := by rw [hb]; push_cast; positivity
  have hl : Real.log b = 1020 * Real.log 2 := by
    rw [hb, cast_zpow, Real.log_zpow]; norm_num
  have l1 := Real.log_two_gt_d9
  have l2 := Real.log_two_lt_d9
  have h700 : 700 ≤ Real.log b := by rw [hl]; linarith
  refine ⟨h0, h700, by rw [hl]; linarith, ?_⟩
  have hS := (StirlingReal.log_gamma_bounds h0).1
  unfold StirlingReal.S at hS
  obtain ⟨b0, -⟩ := log_two_pi_bounds
  have hb1 : (1000 : ℝ) ≤ b := by
    rw [hb, cast_zpow]
    calc (1000 : ℝ) ≤ 2 ^ (10 : ℤ) := by norm_num
      _ ≤ _ := zpow_le_zpow_right₀ (by norm_num) (by norm_num)
  have : ((b : ℝ) - 1/2) * 700 ≤ ((b : ℝ) - 1/2) * Real.log b :=
    mul_le_mul_of_nonneg_left h700 (by linarith)
  linarith

/-- **C100** needs a bound on the sizes of the terms: with shape and rate `2^1020` the log-density at
one, the mean, is NaN although the true value is a moderate number: both terms of the normalisation
overflow. -/
theorem C100_gamma_nan_violated (hL : L.Accurate f64) (hG : L.GammaAccurate f64) :
    ∃ a b x : ℚ, f64.Representable a ∧ f64.Representable b ∧ f64.Representable x ∧
      ∃ d : Gamma (Flt f64 L), Gamma.new (Flt.fin a) (Flt.fin b) = .ok d ∧
        logDensityWrtRoot d (Flt.fin x : Flt f64 L) = Flt.nan (f := f64) (L := L) ∧
        |Real.log (gammaPDFReal a b x)| ≤ 1000 := by
  have hf : f64.Std := .inl rfl
  obtain ⟨b, hb⟩ : ∃ b : ℚ, b = 2 ^ (1020 : ℤ) := ⟨_, rfl⟩
  have hr : f64.Representable b := hb ▸ rep_pow f64 (by decide) (by decide) (by decide)
  have hpos : 0 < b := by rw [hb]; positivity
  obtain ⟨hb0, h700, h710, hbig⟩ := log_gamma_huge hb
  have hbb : (2 : ℚ) ^ f64.emax = 16 * b := by
    rw [show f64.emax = 1020 + 4 by rfl, zpow_add₀ (by norm_num), hb, mul_comm]; norm_num
  refine ⟨b, b, 1, hr, hr, hf.rep_one, ⟨Flt.fin b, Flt.fin b⟩, ?_, ?_, ?_⟩
  · unfold Gamma.new
    have : gt (Flt.fin b : Flt f64 L) zero = true := by
      show decide ((0 : ℚ) < b) = true
      simpa using hpos
    rw [if_pos this, if_pos this]
  · rw [gamma_flt, if_pos one_pos]
    obtain ⟨l, hl, hn⟩ := App.ln_exact hf hL hpos hr
    have hl1 : (100 : ℝ) ≤ l := by
      have h1 := (abs_le.mp hn.err).1
      rw [abs_of_pos (by linarith)] at h1
      have hu := hf.u_le
      have : 2 * f64.u * Real.log b ≤ 2 * (1 / 2 ^ 24) * 710 := by
        have := u_pos f64
        gcongr
      norm_num at this
      linarith
    have hl2 : (100 : ℚ) ≤ l := by exact_mod_cast hl1
    have hm : Flt.mul f64 (.fin b) (.fin l) = .inf false := by
      show f64.round (b * l) = _
      refine round_overflow hf ?_
      rw [hbb, mul_comm]; exact mul_le_mul_of_nonneg_left (by linarith) hpos.le
    have hg : L.lnGamma (.fin b) = .inf false := by
      rcases hG b hpos hr with ⟨r, -, hrep, he⟩ | ⟨h1, -⟩
      · exfalso
        have h1 : |(r : ℝ)| ≤ 16 * b := by
          have h2 := hrep.2
          rw [hbb] at h2
          have := Rat.cast_le (K := ℝ) |>.mpr h2.le
          push_cast at this; exact this
        rw [abs_of_pos (show 0 < Real.log (Real.Gamma b) by linarith)] at he
        have h2 := (abs_le.mp he).1
        have h3 := (abs_le.mp h1).2
        have hu := hf.u_le
        have h4 : 8 * f64.u * (1 + Real.log (Real.Gamma b)) ≤
            8 * (1 / 2 ^ 24) * (1 + Real.log (Real.Gamma b)) := by
          gcongr
          linarith
        norm_num at h4
        have hb1 : (1 : ℝ) ≤ b := by
          have := Real.log_le_sub_one_of_pos hb0
          linarith
        linarith
      · exact h1
    rw [hl, hm, hg]
    simp only [Flt.sub, Flt.add, Flt.neg]
    rfl
  · rw [Rat.cast_one, log_gamma_pdf hb0 hb0 one_pos, Real.log_one, mul_zero, mul_one]
    obtain ⟨s1, s2⟩ := StirlingReal.log_gamma_bounds hb0
    unfold StirlingReal.S at s1 s2
    obtain ⟨b0, b1⟩ := log_two_pi_bounds
    have hb1 : (1 : ℝ) ≤ b := by
      have := Real.log_le_sub_one_of_pos hb0
      linarith
    have : 1 / (12 * (b : ℝ)) ≤ 1 := by
      rw [div_le_one (by positivity)]; linarith
    rw [abs_le]
    constructor <;> linarith

/-- **C100** needs a bound on the point: the log-density of Student's t with one degree of freedom at
`2^600` is `-∞` although the true value is above `-1000`: the point is squared before the logarithm is
taken. -/
theorem C100_student_t_violated (hL : L.Accurate f64) (hG : L.GammaAccurate f64) :
    ∃ x : ℚ, f64.Representable x ∧
      ∃ d : StudentT (Flt f64 L), StudentT.new (Flt.fin 1) = .ok d ∧
        logDensityWrtRoot d (Flt.fin x : Flt f64 L) = Flt.negInf (f := f64) (L := L) ∧
        -1000 ≤ Real.log (Spec.studentTPDFReal 1 x) := by
  have hf : f64.Std := .inl rfl
  obtain ⟨b, hb⟩ : ∃ b : ℚ, b = 2 ^ (600 : ℤ) := ⟨_, rfl⟩
  have hr : f64.Representable b := hb ▸ rep_pow f64 (by decide) (by decide) (by decide)
  have hpos : 0 < b := by rw [hb]; positivity
  have hbb : (2 : ℚ) ^ f64.emax ≤ b * b := by
    rw [hb, ← zpow_add₀ (by norm_num)]
    exact zpow_le_zpow_right₀ (by norm_num) (by decide)
  have hg2 : Real.log (Real.Gamma (1/2)) = 1/2 * Real.log Real.pi := by
    rw [Real.Gamma_one_half_eq, Real.log_sqrt Real.pi_pos.le]; ring
  obtain ⟨l0, l1⟩ := log_pi_bounds
  refine ⟨b, hr, ⟨Flt.fin 1⟩, rfl, ?_, ?_⟩
  · rw [student_flt, round_two hf, round_half hf, one_add_one hf]
    have hd1 : Flt.div f64 (.fin 2) (.fin 2) = .fin 1 := by
      show (if (2 : ℚ) = 0 then Flt.infOf 2 else f64.round (2 / 2)) = _
      rw [if_neg (by norm_num), div_self (by norm_num)]; exact round_one hf
    have hd2 : Flt.div f64 (.fin 1) (.fin 2) = .fin (1/2) := by
      show (if (2 : ℚ) = 0 then Flt.infOf 1 else f64.round (1 / 2)) = _
      rw [if_neg (by norm_num)]; exact round_half hf
    rw [hd1, hd2]
    have g1 := App.lnGamma_exact hf hG one_pos hf.rep_one (by simp)
    have g2 := App.lnGamma_exact hf hG (q := 1/2) (by norm_num) hf.rep_half (by
      push_cast; rw [hg2, abs_of_nonneg (by linarith)]; norm_num; linarith)
    push_cast at g1 g2
    rw [hg2] at g2
    rw [Real.Gamma_one, Real.log_one] at g1
    have hpi : App f64 4 (f64.round Flt.piLit) Real.pi Real.pi := near_pi hf
    have hpi3 := Real.pi_gt_three
    have hpi4 := Real.pi_le_four
    have hone : App f64 0 (.fin 1) 1 1 := ⟨1, rfl, Near.one hf⟩
    have hhalf : App f64 0 (.fin (1/2)) (1/2) (1/2) := ⟨1/2, rfl, Near.half hf⟩
    have c1 := App.mul_rel hf hone hpi (m := 8) le_rfl (by norm_num) (by norm_num)
      (by norm_num) (u_cube_le hf (by linarith)) (by norm_num; linarith)
    rw [one_mul] at c1
    have c2 := App.ln hf hL c1 (by positivity) (m := 19) (by norm_num) (by norm_num) (by norm_num)
    rw [abs_of_nonneg l0] at c2
    have c3 := App.mul hf hhalf c2 (m := 23) le_rfl (by norm_num) (by norm_num) (by norm_num)
      (by norm_num; linarith)
    rw [abs_of_nonneg (show (0 : ℝ) ≤ 1/2 * Real.log Real.pi by linarith)] at g2
    have c4 := App.sub hf g1 g2 (m := 10) (by norm_num) (by norm_num) (by norm_num) (by
      norm_num; linarith)
    have c5 := App.sub hf c4 c3 (m := 25) (by norm_num) (by norm_num) (by norm_num) (by
      norm_num; linarith)
    obtain ⟨r, hr5, -⟩ := c5
    have hm : Flt.mul f64 (.fin b) (.fin b) = .inf false := round_overflow hf hbb
    rw [hr5, hm]
    have hdv : Flt.div f64 (.inf false) (.fin 1) = .inf false := by simp [Flt.div]
    rw [hdv]
    have : Flt.mul f64 (Flt.neg (.fin 1)) (Flt.ln L (Flt.add f64 (.fin 1) (.inf false))) = .inf true := by
      simp [Flt.mul, Flt.neg, Flt.ln, Flt.add]
    rw [this]
    rfl
  · have h0 : (1 : ℝ) ≤ (b : ℝ) := by
      rw [hb, cast_zpow]; exact one_le_zpow₀ (by norm_num) (by norm_num)
    rw [log_student_pdf one_pos]
    have e1 : ((1 : ℝ) + 1) / 2 = 1 := by norm_num
    rw [e1, hg2, Real.Gamma_one, Real.log_one, one_mul, div_one]
    have h2 : Real.log b ≤ 420 := by
      rw [hb, cast_zpow, Real.log_zpow]
      have := Real.log_two_lt_d9
      norm_num at this ⊢
      linarith
    have h3 : Real.log (1 + (b : ℝ) * b) ≤ Real.log (2 * ((b : ℝ) * b)) :=
      Real.log_le_log (by positivity) (by nlinarith)
    rw [Real.log_mul (by norm_num) (by positivity), Real.log_mul (by positivity) (by positivity)] at h3
    have := Real.log_two_lt_d9
    linarith

/-- the hypotheses are met -/
example : ∃ L : Libm, L.Accurate f64 ∧ L.GammaAccurate f64 ∧
    (∃ d : Gamma (Flt f64 L), Gamma.new (Flt.fin 1) (Flt.fin 1) = .ok d) ∧
    (1 + ((1 : ℚ) : ℝ) * |Real.log ((1 : ℚ) : ℝ)| + |Real.log (Real.Gamma ((1 : ℚ) : ℝ))| +
      (((1 : ℚ) : ℝ) + 1) * |Real.log ((3 : ℚ) : ℝ)| + ((1 : ℚ) : ℝ) * ((3 : ℚ) : ℝ) ≤ 2 ^ 80) := by
  obtain ⟨L, hL, hG⟩ := exists_libm_gamma (f := f64) (.inl rfl)
  refine ⟨L, hL, hG, ⟨_, rfl⟩, ?_⟩
  push_cast
  rw [Real.Gamma_one, Real.log_one]
  have h1 := Real.log_le_sub_one_of_pos (show (0 : ℝ) < 3 by norm_num)
  have h2 := Real.log_nonneg (show (1 : ℝ) ≤ 3 by norm_num)
  rw [abs_of_nonneg h2]
  norm_num
  linarith

example : ∃ L : Libm, L.Accurate f64 ∧ L.GammaAccurate f64 ∧
    (∃ d : StudentT (Flt f64 L), StudentT.new (Flt.fin 1) = .ok d) ∧
    (1 / 2 ^ 50 : ℚ) ≤ 1 ∧ ((2 : ℚ) : ℝ) ^ 2 ≤ 2 ^ 80 := by
  obtain ⟨L, hL, hG⟩ := exists_libm_gamma (f := f64) (.inl rfl)
  exact ⟨L, hL, hG, ⟨_, rfl⟩, by norm_num, by norm_num⟩

end Verif
