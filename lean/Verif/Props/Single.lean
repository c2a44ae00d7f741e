import Verif.Props.DoubleDiscrete
import Verif.Model.ViaF64

/-!
# C121: single precision where the code computes in double precision
-/

namespace Verif
open FloatOps Format

variable {L M : Libm}

/-! ### Widening and narrowing -/

/-- Every number of single precision is one of double precision. -/
theorem rep_widen {q : ℚ} (h : f32.Representable q) : f64.Representable q := by
  obtain ⟨⟨m, e, hm, he, rfl⟩, hq⟩ := h
  refine ⟨⟨m, e, hm.trans_le (by norm_num [f32, f64]), le_trans (by norm_num [f32, f64]) he, rfl⟩, hq.trans_le ?_⟩
  exact zpow_le_zpow_right₀ (by norm_num) (by norm_num [f32, f64])

theorem widen_fin {q : ℚ} (h : f32.Representable q) : f64.convert (.fin q) = .fin q :=
  f64.round_exact (rep_widen h)

/-- Narrowing overflows only close to the greatest power of two. -/
theorem narrow_finite {q : ℚ} (h : |q| ≤ 3 * 2 ^ (126 : ℤ)) : ∃ r, f32.round q = .fin r := by
  unfold Format.round
  simp only
  set u : ℚ := 2 ^ f32.quantum q with hu
  have hu0 : 0 < u := by positivity
  refine ⟨_, if_pos ?_⟩
  have hlog : f32.quantum q ≤ 105 := by
    unfold Format.quantum
    refine max_le ?_ (by norm_num [f32])
    rcases eq_or_ne q 0 with rfl | h0
    · norm_num [f32]
    have := log_le_of h0 (k := 128) (h.trans (by norm_num))
    have e : ((f32.prec : ℤ) - 1) = 23 := by norm_num [f32]
    omega
  have huB : u ≤ 2 ^ (105 : ℤ) := zpow_le_zpow_right₀ (by norm_num) hlog
  have he := roundEven_error (q / u)
  have e : |(roundEven (q / u) : ℚ) * u - q| ≤ 1 / 2 * u := by
    have : (roundEven (q / u) : ℚ) * u - q = -((q / u - roundEven (q / u)) * u) := by
      field_simp
      ring
    rw [this, abs_neg, abs_mul, abs_of_pos hu0]
    exact mul_le_mul_of_nonneg_right he hu0.le
  have h2 : |(roundEven (q / u) : ℚ) * u| ≤ |q| + 1 / 2 * u := by
    have := abs_sub_abs_le_abs_sub ((roundEven (q / u) : ℚ) * u) q
    linarith
  have e3 : f32.emax = 128 := rfl
  rw [e3]
  norm_num at h huB h2 ⊢
  linarith

theorem u32 : f32.u = 1 / 2 ^ 24 := rfl
theorem u64 : f64.u = 1 / 2 ^ 53 := rfl

theorem narrow_err {r s : ℚ} {v E : ℝ} (h : |(r : ℝ) - v| ≤ E) (hs : f32.round r = .fin s) :
    f32.Representable s ∧ |(s : ℝ) - v| ≤ E + (f32.u * (|v| + E) + 1 / 2 ^ 150) := by
  have hr : |(r : ℝ)| ≤ |v| + E := by
    have := abs_sub_abs_le_abs_sub (r : ℝ) v
    linarith
  have hv := f32.round_valid (by norm_num [f32]) r
  rw [hs] at hv
  refine ⟨hv, ?_⟩
  have herr : |(s : ℝ) - r| ≤ f32.u * |(r : ℝ)| + 1 / 2 ^ 150 := by
    rcases f32.round_error_abs hs with h1 | ⟨-, h1⟩
    · have h2 : ((|s - r| : ℚ) : ℝ) ≤ ((|r| / 2 ^ f32.prec : ℚ) : ℝ) := by exact_mod_cast h1
      push_cast at h2
      have e : |(r : ℝ)| / 2 ^ f32.prec = f32.u * |(r : ℝ)| := by unfold Format.u; ring
      rw [e] at h2
      have : (0 : ℝ) ≤ 1 / 2 ^ 150 := by positivity
      linarith
    · have h2 : ((|s - r| : ℚ) : ℝ) ≤ ((2 ^ (f32.emin - 1) : ℚ) : ℝ) := by exact_mod_cast h1
      push_cast at h2
      have e : (2 : ℝ) ^ (f32.emin - 1) = 1 / 2 ^ 150 := by
        rw [show f32.emin - 1 = -((150 : ℕ) : ℤ) from rfl, zpow_neg, zpow_natCast, one_div]
      rw [e] at h2
      have : 0 ≤ f32.u * |(r : ℝ)| := mul_nonneg (by rw [u32]; positivity) (abs_nonneg _)
      linarith
  have h3 : f32.u * |(r : ℝ)| ≤ f32.u * (|v| + E) := mul_le_mul_of_nonneg_left hr (by rw [u32]; positivity)
  have h4 := abs_sub_le (s : ℝ) r v
  linarith

/-- Narrowing an approximate value: one more rounding. -/
theorem narrow_near {r : ℚ} {v E : ℝ} (h : |(r : ℝ) - v| ≤ E) (hB : |v| + E ≤ 2 ^ 127) :
    ∃ s : ℚ, f32.convert (.fin r) = .fin s ∧ f32.Representable s ∧
      |(s : ℝ) - v| ≤ E + (f32.u * (|v| + E) + 1 / 2 ^ 150) := by
  have hr : |(r : ℝ)| ≤ |v| + E := by
    have := abs_sub_abs_le_abs_sub (r : ℝ) v
    linarith
  have hq : |r| ≤ 3 * 2 ^ (126 : ℤ) := by
    have : ((|r| : ℚ) : ℝ) ≤ ((3 * 2 ^ (126 : ℤ) : ℚ) : ℝ) := by
      push_cast
      refine (hr.trans hB).trans ?_
      norm_num
    exact_mod_cast this
  obtain ⟨s, hs⟩ := narrow_finite hq
  exact ⟨s, hs, narrow_err h hs⟩

/-! ### Student's t -/

/-- **C121.** Student's t in single precision: the log-density is the one computed in double precision, rounded
once to single precision. -/
theorem C121_student_t_rounded {ν x : ℚ} (hν : f32.Representable ν) (hx : f32.Representable x)
    {d : StudentT (Flt f32 L)} (h : StudentT.new (Flt.fin ν) = .ok d) :
    ∃ d' : StudentT (Flt f64 M), StudentT.new (Flt.fin ν) = .ok d' ∧
      d.logPdfVia (Flt f64 M) (Flt.fin x : Flt f32 L) =
        f32.convert (logDensityWrtRoot d' (Flt.fin x : Flt f64 M) : Flt f64 M) := by
  obtain ⟨h0, rfl⟩ := StudentT.new_flt h
  refine ⟨⟨Flt.fin ν⟩, ?_, ?_⟩
  · unfold StudentT.new
    exact if_pos (show decide ((0 : ℚ) < ν) = true by simpa using h0)
  · show f32.convert ((⟨(f64.convert (.fin ν) : FVal)⟩ : StudentT (Flt f64 M)).logPdf (f64.convert (.fin x) : FVal)) = _
    rw [widen_fin hν, widen_fin hx]
    rfl

/-- **C121.** Student's t in single precision is within one rounding to single precision of the logarithm of the
density, up to the much smaller error of double precision.  Missing: degrees of freedom below `2^-50` and points
beyond `2^40`, for which C100 gives no bound in double precision. -/
theorem C121_student_t_partial (hL : M.Accurate f64) (hG : M.GammaAccurate f64) {ν x : ℚ}
    (hν : f32.Representable ν) (hx : f32.Representable x) (hν1 : 1 / 2 ^ 50 ≤ ν)
    (hx1 : (x : ℝ) ^ 2 ≤ 2 ^ 80) (hx2 : (x : ℝ) ^ 2 / ν ≤ 2 ^ 80) {d : StudentT (Flt f32 L)}
    (h : StudentT.new (Flt.fin ν) = .ok d) {N : ℝ}
    (hN : N = 1 + |Real.log (Real.Gamma (((ν : ℝ) + 1) / 2))| + |Real.log (Real.Gamma ((ν : ℝ) / 2))|
      + ((ν : ℝ) + 1) / 2 * (1 + |Real.log (((ν : ℝ) + 1) / 2)|)
      + (ν : ℝ) / 2 * (1 + |Real.log ((ν : ℝ) / 2)|) + |Real.log ν|
      + ((ν : ℝ) + 1) / 2 * (1 + Real.log (1 + (x : ℝ) ^ 2 / ν))) (hB : N ≤ 2 ^ 80) :
    ∃ s : ℚ, d.logPdfVia (Flt f64 M) (Flt.fin x : Flt f32 L) = Flt.fin (f := f32) (L := L) s ∧
      f32.Representable s ∧
      |(s : ℝ) - Real.log (Spec.studentTPDFReal ν x)| ≤
        f32.u * |Real.log (Spec.studentTPDFReal ν x)| + 529 * f64.u * N + 1 / 2 ^ 150 := by
  obtain ⟨d', h', e⟩ := C121_student_t_rounded (M := M) hν hx h
  obtain ⟨r, hr, -, herr⟩ := C100_student_t_partial hL hG (rep_widen hν) (rep_widen hx) hν1 hx1 hx2 h' hN hB
  have hν0 : (0 : ℝ) < ν := by
    have : (0 : ℚ) < ν := lt_of_lt_of_le (by norm_num) hν1
    exact_mod_cast this
  have hl : 0 ≤ Real.log (1 + (x : ℝ) ^ 2 / ν) := Real.log_nonneg (by
    have : 0 ≤ (x : ℝ) ^ 2 / ν := by positivity
    linarith)
  have hN0 : 0 ≤ N := by
    rw [hN]; positivity
  have hB2 : |Real.log (Spec.studentTPDFReal ν x)| ≤ 2 ^ 126 := by
    refine le_trans (b := N + 1) ?_ (by
      have : (2 : ℝ) ^ 80 + 1 ≤ 2 ^ 126 := by norm_num
      linarith)
    have hp : 0 ≤ Real.log Real.pi := Real.log_nonneg (by linarith [Real.pi_gt_three])
    have hp2 : Real.log Real.pi ≤ 2 := by
      have h1 : Real.log Real.pi ≤ Real.log 4 := Real.log_le_log Real.pi_pos Real.pi_le_four
      have h2 : Real.log 4 = 2 * Real.log 2 := by
        rw [show (4 : ℝ) = 2 ^ 2 by norm_num, Real.log_pow]; norm_num
      have := Real.log_two_lt_d9
      linarith
    have e1 : 0 ≤ ((ν : ℝ) + 1) / 2 * (1 + |Real.log (((ν : ℝ) + 1) / 2)|) := by positivity
    have e2 : 0 ≤ (ν : ℝ) / 2 * (1 + |Real.log ((ν : ℝ) / 2)|) := by positivity
    have e3 : 0 ≤ ((ν : ℝ) + 1) / 2 * Real.log (1 + (x : ℝ) ^ 2 / ν) := by positivity
    rw [log_student_pdf hν0, hN, Real.log_mul hν0.ne' Real.pi_pos.ne', ← _root_.sq]
    have a1 := neg_abs_le (Real.log (Real.Gamma (((ν : ℝ) + 1) / 2)))
    have a2 := le_abs_self (Real.log (Real.Gamma (((ν : ℝ) + 1) / 2)))
    have b1 := neg_abs_le (Real.log (Real.Gamma ((ν : ℝ) / 2)))
    have b2 := le_abs_self (Real.log (Real.Gamma ((ν : ℝ) / 2)))
    have c1 := neg_abs_le (Real.log (ν : ℝ))
    have c2 := le_abs_self (Real.log (ν : ℝ))
    have e4 : ((ν : ℝ) + 1) / 2 * (1 + Real.log (1 + (x : ℝ) ^ 2 / ν)) =
        ((ν : ℝ) + 1) / 2 + ((ν : ℝ) + 1) / 2 * Real.log (1 + (x : ℝ) ^ 2 / ν) := by ring
    rw [e4, neg_mul]
    rw [abs_le]
    constructor <;> linarith
  have hE : 528 * f64.u * N ≤ 2 ^ 80 := by
    rw [u64]
    have : (528 : ℝ) * (1 / 2 ^ 53) ≤ 1 := by norm_num
    calc _ ≤ 1 * N := mul_le_mul_of_nonneg_right this hN0
      _ ≤ _ := by linarith
  obtain ⟨s, hs, hrep, hse⟩ := narrow_near herr (by
    have : (2 : ℝ) ^ 126 + 2 ^ 80 ≤ 2 ^ 127 := by norm_num
    linarith)
  refine ⟨s, ?_, hrep, hse.trans ?_⟩
  · rw [e, hr]; exact hs
  · have h3 : f32.u * (528 * f64.u * N) ≤ f64.u * N := by
      have : f32.u * 528 ≤ 1 := by rw [u32]; norm_num
      have h4 : 0 ≤ f64.u * N := mul_nonneg (by rw [u64]; positivity) hN0
      calc _ = (f32.u * 528) * (f64.u * N) := by ring
        _ ≤ 1 * (f64.u * N) := mul_le_mul_of_nonneg_right this h4
        _ = _ := one_mul _
    linarith

/-! ### Log-gamma -/

theorem log_gamma_ge {x : ℝ} (hx : 0 < x) : -2 ≤ Real.log (Real.Gamma x) := by
  have h2 : Real.Gamma 2 = 1 := Real.Gamma_two
  have l1 := Real.log_two_gt_d9
  have l2 := Real.log_two_lt_d9
  rcases lt_trichotomy x 2 with h | rfl | h
  · have := (log_gamma_diff hx h).2
    rw [h2, Real.log_one] at this
    nlinarith
  · rw [h2, Real.log_one]; norm_num
  · have h1 := (log_gamma_diff two_pos h).1
    rw [h2, Real.log_one] at h1
    have h3 := Real.log_le_sub_one_of_pos (show 0 < x / 2 by positivity)
    rw [Real.log_div hx.ne' two_ne_zero] at h3
    nlinarith

/-- **C121.** The log-gamma function the library uses for single precision, which is that of double precision
rounded, is as accurate as C100 requires of single precision. -/
theorem C121_log_gamma (hG : M.GammaAccurate f64) : (L.single M).GammaAccurate f32 := by
  intro q h0 hq
  show (∃ r : ℚ, f32.convert (M.lnGamma (f64.convert (.fin q))) = .fin r ∧ _ ∧ _) ∨
    (f32.convert (M.lnGamma (f64.convert (.fin q))) = .inf false ∧ _)
  rw [widen_fin hq]
  set v := Real.log (Real.Gamma q) with hv
  have hge : -2 ≤ v := log_gamma_ge (by exact_mod_cast h0)
  have hv0 : (0 : ℝ) ≤ |v| := abs_nonneg _
  rcases hG q h0 (rep_widen hq) with ⟨r, hr, -, herr⟩ | ⟨hr, hbig⟩
  · rw [hr]
    rw [u64] at herr
    rcases f32.round_cases r with ⟨s, hs1⟩ | hs1
    · obtain ⟨hs2, hs3⟩ := narrow_err herr hs1
      refine .inl ⟨s, hs1, hs2, hs3.trans ?_⟩
      rw [u32]
      norm_num
      linarith
    · right
      have hr1 : 3 * 2 ^ (126 : ℤ) < |r| := by
        by_contra hc
        obtain ⟨s, hs⟩ := narrow_finite (not_lt.mp hc)
        rw [hs] at hs1
        cases hs1
      have hr2 : (3 : ℝ) * 2 ^ (126 : ℤ) < |(r : ℝ)| := by
        have : ((3 * 2 ^ (126 : ℤ) : ℚ) : ℝ) < ((|r| : ℚ) : ℝ) := Rat.cast_lt.mpr hr1
        rw [Rat.cast_mul, Rat.cast_zpow, Rat.cast_abs] at this
        exact this
      have herr' := abs_le.mp herr
      have hrp : 0 ≤ (r : ℝ) := by
        by_contra hc
        rw [abs_of_neg (not_le.mp hc)] at hr2
        rcases abs_cases v with ⟨h1, h2⟩ | ⟨h1, h2⟩ <;> rw [h1] at herr' <;> norm_num at herr' hr2 <;> linarith
      rw [abs_of_nonneg hrp] at hr2
      refine ⟨?_, ?_⟩
      · have : ¬ r < 0 := not_lt.mpr (by exact_mod_cast hrp)
        show f32.round r = _
        rw [hs1, decide_eq_false this]
      · show (2 : ℝ) ^ ((128 : ℤ) - 1) ≤ v
        rcases abs_cases v with ⟨h1, h2⟩ | ⟨h1, h2⟩ <;> rw [h1] at herr' <;> norm_num at herr' hr2 ⊢ <;> linarith
  · rw [hr]
    refine .inr ⟨rfl, le_trans ?_ hbig⟩
    exact zpow_le_zpow_right₀ (by norm_num) (by norm_num [f32, f64])

/-! ### Coefficients -/

/-- **C121.** The binomial coefficient measure in single precision: within one rounding to single precision of
the logarithm of the coefficient, up to the error of double precision, for every `n` below `2^53` (in single
precision throughout it would be `2^24`). -/
theorem C121_binomial_coefficient (hG : M.GammaAccurate f64) {n k : ℕ} (hn : n + 1 ≤ 2 ^ 53) (hk : k ≤ n) :
    ∃ s : ℚ, (logBinomialCoefficientVia (Flt f64 M) n k : Flt f32 L) = Flt.fin (f := f32) (L := L) s ∧
      f32.Representable s ∧
      |(s : ℝ) - Real.log (n.choose k)| ≤
        f32.u * Real.log (n.choose k) + 13 * f64.u * (3 + 2 * Real.log (n.factorial : ℝ)) + 1 / 2 ^ 150 := by
  have hf : f64.Std := .inl rfl
  have hn' : n + 1 ≤ 2 ^ f64.prec := hn
  have t2 := App.coef hf hG (a := n) (b := k) (c := n - k) hn' (by omega)
  rw [← log_choose hk, ← binomial_coefficient_flt hf hn' hk] at t2
  obtain ⟨r, hr, hnear⟩ := t2
  have b1 := log_fact_le (two_pow_prec hf (n := n) (by omega))
  have b0 := log_fact_nonneg n
  have hc0 : 0 ≤ Real.log (n.choose k : ℝ) := Real.log_natCast_nonneg _
  have hc1 : Real.log (n.choose k : ℝ) ≤ 2 * Real.log (n.factorial : ℝ) + 3 := by
    rw [log_choose hk]
    have := log_fact_nonneg k
    have := log_fact_nonneg (n - k)
    linarith
  have herr := hnear.err
  obtain ⟨s, hs, hrep, hse⟩ := narrow_near herr (by
    rw [abs_of_nonneg hc0, u64]
    norm_num at b1 ⊢
    linarith)
  refine ⟨s, ?_, hrep, hse.trans ?_⟩
  · have e : (logBinomialCoefficientVia (Flt f64 M) n k : Flt f32 L) =
        f32.convert (logDensityWrtRoot (⟨n⟩ : BinomialCoefficientMeasure (Flt f64 M)) k : Flt f64 M) := by
      have hk' : ¬ k > n := by omega
      simp only [logBinomialCoefficientVia, logDensityWrtRoot, logBinomialCoefficient, if_neg hk']
      rfl
    rw [e, hr]
    exact hs
  · rw [abs_of_nonneg hc0, u32, u64]
    norm_num
    linarith

/-- **C121.** The negative binomial coefficient measure in single precision, likewise. -/
theorem C121_negative_binomial_coefficient (hG : M.GammaAccurate f64) {r x : ℕ} (hr : 1 ≤ r)
    (hn : x + r ≤ 2 ^ 53) :
    ∃ s : ℚ, (logNegativeBinomialCoefficientVia (Flt f64 M) r x : Flt f32 L) = Flt.fin (f := f32) (L := L) s ∧
      f32.Representable s ∧
      |(s : ℝ) - Real.log ((x + r - 1).choose x)| ≤
        f32.u * Real.log ((x + r - 1).choose x) +
          13 * f64.u * (3 + 2 * Real.log ((x + r - 1).factorial : ℝ)) + 1 / 2 ^ 150 := by
  have hf : f64.Std := .inl rfl
  obtain ⟨r, rfl⟩ : ∃ r', r = r' + 1 := ⟨r - 1, by omega⟩
  have hn' : x + r + 1 ≤ 2 ^ f64.prec := hn
  have hk : x ≤ x + r := by omega
  have e1 : x + (r + 1) - 1 = x + r := by omega
  rw [e1]
  have t2 := App.coef hf hG (a := x + r) (b := x) (c := r) hn' le_rfl
  have e2 : Real.log ((x + r).choose x : ℝ) = Real.log ((x + r).factorial : ℝ) - Real.log (x.factorial : ℝ) -
      Real.log (r.factorial : ℝ) := by
    rw [log_choose hk, Nat.add_sub_cancel_left]
  rw [← e2] at t2
  obtain ⟨q, hq, hnear⟩ := t2
  have b1 := log_fact_le (two_pow_prec hf (n := x + r) (by omega))
  have b0 := log_fact_nonneg (x + r)
  have hc0 : 0 ≤ Real.log ((x + r).choose x : ℝ) := Real.log_natCast_nonneg _
  have hc1 : Real.log ((x + r).choose x : ℝ) ≤ 2 * Real.log ((x + r).factorial : ℝ) + 3 := by
    rw [e2]
    have := log_fact_nonneg x
    have := log_fact_nonneg r
    linarith
  have herr := hnear.err
  obtain ⟨s, hs, hrep, hse⟩ := narrow_near herr (by
    rw [abs_of_nonneg hc0, u64]
    norm_num at b1 ⊢
    linarith)
  refine ⟨s, ?_, hrep, hse.trans ?_⟩
  · have e : (logNegativeBinomialCoefficientVia (Flt f64 M) (r + 1) x : Flt f32 L) =
        f32.convert (Flt.sub f64 (Flt.sub f64
          (M.lnGamma (Flt.add f64 (FloatOps.ofNat x : Flt f64 M) (FloatOps.ofNat (r + 1) : Flt f64 M)))
          (M.lnGamma (Flt.add f64 (FloatOps.ofNat x : Flt f64 M) (.fin 1))))
          (M.lnGamma (FloatOps.ofNat (r + 1) : Flt f64 M))) := rfl
    rw [e, ofNat_flt hf (by omega : x ≤ _), ofNat_flt hf (by omega : r + 1 ≤ _)]
    have e3 := add_nat hf (a := x) (b := r + 1) (by omega)
    have e4 := add_nat hf (a := x) (b := 1) (by omega)
    rw [Nat.cast_one] at e4
    unfold Flt.fin
    rw [e3, e4, ← add_assoc, hq]
    exact hs
  · rw [abs_of_nonneg hc0, u32, u64]
    norm_num
    linarith

/-! ### The libraries exist and the hypotheses are met -/

example : ∃ M : Libm, M.Accurate f64 ∧ M.GammaAccurate f64 := exists_libm_gamma (.inl rfl)

/-- Student's t with one degree of freedom at 1/2 -/
example : f32.Representable 1 ∧ f32.Representable (1/2) ∧
    (∃ d : StudentT (Flt f32 L), StudentT.new (Flt.fin 1) = .ok d) ∧ (1 / 2 ^ 50 : ℚ) ≤ 1 ∧
    (((1/2 : ℚ) : ℝ)) ^ 2 ≤ 2 ^ 80 ∧
    1 + |Real.log (Real.Gamma ((1 + 1) / 2))| + |Real.log (Real.Gamma ((1 : ℝ) / 2))|
      + ((1 : ℝ) + 1) / 2 * (1 + |Real.log (((1 : ℝ) + 1) / 2)|)
      + (1 : ℝ) / 2 * (1 + |Real.log ((1 : ℝ) / 2)|) + |Real.log 1|
      + ((1 : ℝ) + 1) / 2 * (1 + Real.log (1 + (1/2 : ℝ) ^ 2 / 1)) ≤ 2 ^ 80 := by
  have hf : f32.Std := .inr rfl
  refine ⟨hf.rep_one, hf.rep_half, ⟨⟨Flt.fin 1⟩, if_pos (show decide ((0 : ℚ) < 1) = true by decide)⟩,
    by norm_num, by norm_num, ?_⟩
  have e1 : ((1 : ℝ) + 1) / 2 = 1 := by norm_num
  have e2 : Real.log ((1 : ℝ) / 2) = -Real.log 2 := by rw [one_div, Real.log_inv]
  have l0 := Real.log_two_gt_d9
  have l1 := Real.log_two_lt_d9
  have l2 := Real.log_le_sub_one_of_pos (show (0 : ℝ) < 1 + (1/2 : ℝ) ^ 2 / 1 by norm_num)
  have hp : 0 ≤ Real.log Real.pi := Real.log_nonneg (by linarith [Real.pi_gt_three])
  have hp2 : Real.log Real.pi ≤ Real.pi - 1 := Real.log_le_sub_one_of_pos Real.pi_pos
  have hp3 := Real.pi_le_four
  rw [e1, e2, Real.Gamma_one, Real.Gamma_one_half_eq, Real.log_one, Real.log_sqrt Real.pi_pos.le, abs_neg,
    abs_zero, abs_of_nonneg (show 0 ≤ Real.log 2 by linarith),
    abs_of_nonneg (show 0 ≤ Real.log Real.pi / 2 by linarith)]
  norm_num at l2 ⊢
  linarith

/-- The elementary functions of single precision are unaffected. -/
theorem single_accurate (hL : L.Accurate f32) : (L.single M).Accurate f32 := ⟨hL.ln, hL.exp⟩

/-- **C121.** Gamma in single precision, as the code computes it (elementary functions in single precision,
log-gamma in double precision and rounded): the bound of C100, with no assumption on a single-precision
log-gamma. -/
theorem C121_gamma (hL : L.Accurate f32) (hG : M.GammaAccurate f64) {a b x : ℚ}
    (ha : f32.Representable a) (hb : f32.Representable b) (hx : f32.Representable x)
    {d : Gamma (Flt f32 (L.single M))} (h : Gamma.new (Flt.fin a) (Flt.fin b) = .ok d)
    (hB : 1 + (a : ℝ) * |Real.log b| + |Real.log (Real.Gamma a)| + ((a : ℝ) + 1) * |Real.log x| + b * x
      ≤ 2 ^ 80) (h0 : 0 < x) :
    ∃ r : ℚ, logDensityWrtRoot d (Flt.fin x : Flt f32 (L.single M)) = Flt.fin (f := f32) (L := L.single M) r ∧
      f32.Representable r ∧
      |(r : ℝ) - Real.log (ProbabilityTheory.gammaPDFReal a b x)| ≤
        56 * f32.u * (1 + (a : ℝ) * |Real.log b| + |Real.log (Real.Gamma a)| +
          ((a : ℝ) + 1) * |Real.log x| + b * x) :=
  (C100_gamma_partial (.inr rfl) (single_accurate hL) (C121_log_gamma hG) ha hb hx h hB).1 h0

example : ∃ L M : Libm, L.Accurate f32 ∧ M.GammaAccurate f64 ∧
    (∃ d : Gamma (Flt f32 (L.single M)), Gamma.new (Flt.fin 1) (Flt.fin 1) = .ok d) := by
  obtain ⟨L, hL⟩ := exists_libm (f := f32) (.inr rfl)
  obtain ⟨M, -, hG⟩ := exists_libm_gamma (f := f64) (.inl rfl)
  exact ⟨L, M, hL, hG, ⟨Flt.fin 1, Flt.fin 1⟩, rfl⟩

end Verif
