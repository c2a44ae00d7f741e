import Verif.Props.JitAccuracy
import Verif.Props.Convert
import Verif.Lemmas.JitDouble
import Verif.Lemmas.IeeeDouble

/-! C96: accuracy of the inline logarithm, exponential, sine, cosine and power of compiled
functions in double precision, with the rounding of every operation. -/

namespace Verif
open Classical Jit Spec.Jit Spec.Ieee FloatOps Accuracy Format

section
variable {L : Libm} [B : FloatBits (Flt f64 L)]

/-- A compiled one-variable function, run on a double. -/
theorem Jit.run_unary {e : Expr (Flt f64 L)} {k : ℕ} {f : Compiled (Flt f64 L)}
    (hf : compileExpression e ["x"] [] FMap.empty k = .ok f) (x : Flt f64 L) :
    run f [x] = Result.ofOption (value (bindings ["x"] [] FMap.empty [x]) e) :=
  C59_computes _ _ _ _ _ hf [x] rfl

/-! ### Logarithm -/

/-- The bit manipulation splits every positive normal double into `2^k · m` with `1 ≤ m < 2`. -/
theorem C96_split (hB : FaithfulDouble B) {a : ℚ} (hd : f64.Representable a)
    (ha : 2 ^ (-1022 : ℤ) ≤ a) :
    ∃ (k : ℤ) (m : ℚ), exponentOf (Flt.fin (f := f64) (L := L) a) = Flt.fin k ∧
      mantissaOf (Flt.fin (f := f64) (L := L) a) = Flt.fin m ∧
      a = 2 ^ k * m ∧ 1 ≤ m ∧ m < 2 ∧ -1022 ≤ k ∧ k ≤ 1023 ∧ f64.Representable m := by
  have hb := hB.toBits a hd
  obtain ⟨b, hbd⟩ : ∃ b, b = B.toBits (Flt.fin a) := ⟨_, rfl⟩
  rw [← hbd] at hb
  have ha' : (2 : ℝ) ^ (-1022 : ℤ) ≤ (a : ℝ) := by
    have : (((2 : ℚ) ^ (-1022 : ℤ) : ℚ) : ℝ) ≤ a := by exact_mod_cast ha
    rwa [Rat.cast_zpow, Rat.cast_ofNat] at this
  obtain ⟨hs, h0, h1, hv⟩ := of_decode_pos (decode_of_pattern hb) ha'
  have he := exponent_lt b
  have hf : (fractionField b : ℚ) < 2 ^ 52 := by exact_mod_cast fraction_lt b
  have hf0 : (0 : ℚ) ≤ fractionField b := Nat.cast_nonneg _
  obtain ⟨m, hm, hmv⟩ := pattern_of_decode (mantissa_bits b)
  have hmq : m = (2 ^ 52 + fractionField b) * 2 ^ (-52 : ℤ) := by
    have : (m : ℝ) = (((2 ^ 52 + fractionField b) * 2 ^ (-52 : ℤ) : ℚ) : ℝ) := by
      rw [hmv]; push_cast; rfl
    exact_mod_cast this
  have haq : a = (2 ^ 52 + fractionField b) * 2 ^ ((exponentField b : ℤ) - 1075) := by
    have : (a : ℝ) = (((2 ^ 52 + fractionField b) * 2 ^ ((exponentField b : ℤ) - 1075) : ℚ) : ℝ) := by
      rw [hv]; push_cast; rfl
    exact_mod_cast this
  refine ⟨(exponentField b : ℤ) - 1023, m, ?_, ?_, ?_, ?_, ?_, by omega, by omega, pattern_rep hm⟩
  · rw [exponentOf, ← hbd, hB.ofInt64 _ (by rw [exponent_bits]; rw [abs_le]; omega), exponent_bits]
  · rw [mantissaOf, ← hbd, hB.ofBits, hm]
  · rw [haq, hmq]
    have : (exponentField b : ℤ) - 1075 = ((exponentField b : ℤ) - 1023) + (-52) := by ring
    rw [this, zpow_add₀ two_ne_zero]
    ring
  · rw [hmq]; norm_num; linarith
  · rw [hmq]; norm_num; linarith

/-- What the logarithm computes from any bit pattern. -/
theorem Jit.jitLn_bits (hB : FaithfulDouble B) {x : Flt f64 L} (hx : (x ==. one) = false) :
    ∃ (v : ℚ) (m : ℝ), jitLn x = Flt.fin v ∧ f64.Representable v ∧
      m = (2 ^ 52 + fractionField (B.toBits x)) * 2 ^ (-52 : ℤ) ∧ 1 ≤ m ∧ m < 2 ∧
      |(v : ℝ) - (((exponentField (B.toBits x) : ℤ) - 1023 : ℤ) * Real.log 2 + Real.log m)| ≤
        3.7112e-12 + 2.6e-16 * |(((exponentField (B.toBits x) : ℤ) - 1023 : ℤ) : ℝ)| := by
  obtain ⟨b, hb⟩ : ∃ b, b = B.toBits x := ⟨_, rfl⟩
  rw [← hb]
  have he := exponent_lt b
  have hf : (fractionField b : ℝ) < 2 ^ 52 := by exact_mod_cast fraction_lt b
  have hf0 : (0 : ℝ) ≤ fractionField b := Nat.cast_nonneg _
  obtain ⟨m, hm, hmv⟩ := pattern_of_decode (mantissa_bits b)
  obtain ⟨k, hk⟩ : ∃ k, k = (exponentField b : ℤ) - 1023 := ⟨_, rfl⟩
  rw [← hk]
  have hk1 : -1023 ≤ k ∧ k ≤ 1024 := by omega
  have e1 : exponentOf x = Flt.fin (k : ℚ) := by
    rw [exponentOf, ← hb, hB.ofInt64 _ (by rw [exponent_bits]; rw [abs_le]; omega), exponent_bits, hk]
  have e2 : mantissaOf x = Flt.fin m := by rw [mantissaOf, ← hb, hB.ofBits, hm]
  have hm1 : (1 : ℝ) ≤ m := by rw [hmv]; norm_num; linarith
  have hm2 : (m : ℝ) < 2 := by rw [hmv]; norm_num; linarith
  obtain ⟨y, hy, hyr, hye⟩ := lnRational_flt (L := L) (pattern_rep hm) (by exact_mod_cast hm1)
    (by exact_mod_cast hm2.le)
  obtain ⟨l, hl, al⟩ := ln2_flt
  have hlm := lnRat_error hm1 hm2.le
  have g0 : 0 ≤ Real.log m := Real.log_nonneg hm1
  have g1 : Real.log m ≤ Real.log 2 := Real.log_le_log (by linarith) hm2.le
  have g3 := Real.log_two_lt_d9
  have ay : Appr y (Real.log m) 0.6932 3.711e-12 := by
    refine ⟨hyr, by rw [abs_of_nonneg g0]; norm_num at g3 ⊢; linarith, ?_⟩
    refine (abs_sub_le _ (lnRat m) _).trans ?_
    norm_num at hye hlm ⊢
    linarith
  obtain ⟨N, hN⟩ : ∃ N : ℝ, N = |(k : ℝ)| := ⟨_, rfl⟩
  have hN0 : 0 ≤ N := by rw [hN]; positivity
  have hN1 : N ≤ 1024 := by
    rw [hN, abs_le]
    constructor
    · have : (-1024 : ℤ) ≤ k := by omega
      exact_mod_cast this
    · exact_mod_cast hk1.2
  have ak : Appr k (k : ℝ) N 0 := by
    have := Appr.exact (rep_int (n := k) (by rw [abs_le]; omega)) (X := N) (by push_cast; rw [hN])
    push_cast at this
    exact this
  obtain ⟨p, hp, ap⟩ := ak.mul al (N * 0.69315) (N * 1.8e-16 + 2e-40) le_rfl
    (by norm_num; nlinarith) (by norm_num; nlinarith)
  obtain ⟨v, hv1, av⟩ := ap.add ay (N * 0.69315 + 0.6932) (3.7112e-12 + 2.6e-16 * N) le_rfl
    (by norm_num; nlinarith) (by norm_num; nlinarith)
  refine ⟨v, m, ?_, av.rep, hmv, hm1, hm2, by rw [← hN]; exact av.err⟩
  simp only [jitLn, hx, Bool.false_eq_true, if_false, e1, e2, hy]
  have : (Flt.fin (f := f64) (L := L) (k : ℚ) *. ln2 +. Flt.fin y) =
    (Flt.add f64 (Flt.mul f64 (.fin k) (f64.round Flt.ln2Lit)) (.fin y) : FVal) := rfl
  rw [this, hl, hp, hv1]

theorem Jit.jitLn_flt (hB : FaithfulDouble B) {a : ℚ} (hd : f64.Representable a)
    (ha : 2 ^ (-1022 : ℤ) ≤ a) :
    ∃ v : ℚ, jitLn (Flt.fin (f := f64) (L := L) a) = Flt.fin v ∧ f64.Representable v ∧
      |(v : ℝ) - Real.log a| ≤ 3.72e-12 + 5e-16 * |Real.log a| := by
  by_cases hone : a = 1
  · refine ⟨0, ?_, rep_zero _, by simp [hone]; norm_num⟩
    have e : (Flt.fin a ==. (one : Flt f64 L)) = true := by
      show Flt.beq (.fin a) (.fin 1) = true
      simp [Flt.beq, hone]
    simp only [jitLn, e, if_true]
    rfl
  have e : (Flt.fin a ==. (one : Flt f64 L)) = false := by
    show Flt.beq (.fin a) (.fin 1) = false
    simp [Flt.beq, hone]
  obtain ⟨v, m, hv, hvr, hm, h1, h2, herr⟩ := Jit.jitLn_bits hB e
  have ha' : (2 : ℝ) ^ (-1022 : ℤ) ≤ (a : ℝ) := by
    have : (((2 : ℚ) ^ (-1022 : ℤ) : ℚ) : ℝ) ≤ a := by exact_mod_cast ha
    rwa [Rat.cast_zpow, Rat.cast_ofNat] at this
  obtain ⟨-, -, -, hav⟩ := of_decode_pos (decode_of_pattern (hB.toBits a hd)) ha'
  obtain ⟨k, hk⟩ : ∃ k, k = (exponentField (B.toBits (Flt.fin (f := f64) (L := L) a)) : ℤ) - 1023 :=
    ⟨_, rfl⟩
  rw [show (exponentField (B.toBits (Flt.fin (f := f64) (L := L) a)) : ℤ) - 1075 = k + (-52) by omega,
    zpow_add₀ two_ne_zero] at hav
  have hlog : Real.log (a : ℝ) = k * Real.log 2 + Real.log m := by
    have : (a : ℝ) = 2 ^ k * m := by rw [hav, hm]; ring
    rw [this, Real.log_mul (by positivity) (by positivity), Real.log_zpow]
  have g0 : 0 ≤ Real.log m := Real.log_nonneg h1
  have g1 : Real.log m ≤ Real.log 2 := Real.log_le_log (by linarith) h2.le
  have g2 := Real.log_two_gt_d9
  have g3 := Real.log_two_lt_d9
  rw [← hk, ← hlog] at herr
  refine ⟨v, hv, hvr, herr.trans ?_⟩
  obtain ⟨N, hN⟩ : ∃ N : ℝ, N = |(k : ℝ)| := ⟨_, rfl⟩
  have hN0 : 0 ≤ N := by rw [hN]; positivity
  have hNl : N * 0.693 ≤ |Real.log a| + 0.6932 := by
    have h5 : |(k : ℝ) * Real.log 2| ≤ |Real.log a| + |Real.log m| := by
      have : (k : ℝ) * Real.log 2 = Real.log a - Real.log m := by rw [hlog]; ring
      rw [this]; exact abs_sub _ _
    rw [abs_mul, ← hN, abs_of_pos (by linarith : 0 < Real.log 2), abs_of_nonneg g0] at h5
    have : N * 0.693 ≤ N * Real.log 2 := by
      apply mul_le_mul_of_nonneg_left _ hN0
      norm_num at g2 ⊢; linarith
    norm_num at g3 this ⊢
    linarith
  rw [← hN]
  norm_num at hNl ⊢
  linarith [abs_nonneg (Real.log (a : ℝ))]

/-- The compiled logarithm at every positive normal double, all roundings included: absolute error
at most 3.72e-12 plus a few units in the last place of the result. -/
theorem C96_ln_partial (hB : FaithfulDouble B) {k : ℕ} {f : Compiled (Flt f64 L)}
    (hf : compileExpression (.ln (.var "x")) ["x"] [] FMap.empty k = .ok f)
    {a : ℚ} (hd : f64.Representable a) (ha : 2 ^ (-1022 : ℤ) ≤ a) :
    ∃ v : ℚ, run f [Flt.fin a] = .value (Flt.fin v) ∧
      |(v : ℝ) - Real.log a| ≤ 3.72e-12 + 5e-16 * |Real.log a| := by
  obtain ⟨v, h1, -, h2⟩ := Jit.jitLn_flt hB hd ha
  refine ⟨v, ?_, h2⟩
  rw [Jit.run_unary hf]
  simp [value, bindings, lookupArgs, Result.ofOption, h1]

/-- The result is a number between -710 and 711 for every argument whatsoever: zero, negative
numbers, infinities and NaN are not reported, and the logarithm of subnormal numbers is wrong. -/
theorem C96_ln_domain_violated (hB : FaithfulDouble B) {k : ℕ} {f : Compiled (Flt f64 L)}
    (hf : compileExpression (.ln (.var "x")) ["x"] [] FMap.empty k = .ok f) (x : Flt f64 L) :
    ∃ v : ℚ, run f [x] = .value (Flt.fin v) ∧ -710 ≤ v ∧ v ≤ 711 := by
  rw [Jit.run_unary hf]
  by_cases hone : (x ==. one) = true
  · refine ⟨0, ?_, by norm_num, by norm_num⟩
    simp [value, bindings, lookupArgs, Result.ofOption, jitLn, hone]
    rfl
  obtain ⟨v, m, hv, -, -, h1, h2, herr⟩ := Jit.jitLn_bits hB (by simpa using hone)
  have he := exponent_lt (B.toBits x)
  obtain ⟨k, hk⟩ : ∃ k, k = (exponentField (B.toBits x) : ℤ) - 1023 := ⟨_, rfl⟩
  rw [← hk] at herr
  have k0 : (-1023 : ℝ) ≤ k := by
    have : -1023 ≤ k := by omega
    exact_mod_cast this
  have k1 : (k : ℝ) ≤ 1024 := by
    have : k ≤ 1024 := by omega
    exact_mod_cast this
  have g0 : 0 ≤ Real.log m := Real.log_nonneg h1
  have g1 : Real.log m ≤ Real.log 2 := Real.log_le_log (by linarith) h2.le
  have g2 := Real.log_two_gt_d9
  have g3 := Real.log_two_lt_d9
  have hN : |(k : ℝ)| ≤ 1024 := by rw [abs_le]; constructor <;> linarith
  have h3 := abs_le.mp herr
  have hlo : -1023 * Real.log 2 ≤ (k : ℝ) * Real.log 2 :=
    mul_le_mul_of_nonneg_right k0 (by linarith)
  have hhi : (k : ℝ) * Real.log 2 ≤ 1024 * Real.log 2 :=
    mul_le_mul_of_nonneg_right k1 (by linarith)
  norm_num at h3 g2 g3
  refine ⟨v, by simp [value, bindings, lookupArgs, Result.ofOption, hv], ?_, ?_⟩
  · have : (-710 : ℝ) ≤ v := by linarith [h3.1, h3.2]
    exact_mod_cast this
  · have : (v : ℝ) ≤ 711 := by linarith [h3.1, h3.2]
    exact_mod_cast this

/-! ### Exponential -/

omit B in
/-- Range reduction: the extracted binary exponent and the reduced argument. -/
theorem Jit.reduce_flt {x : ℚ} (hx : f64.Representable x) (hx' : |(x : ℝ)| ≤ 2200) :
    ∃ (K : ℤ) (r : ℚ) (s : ℝ), expIndex (Flt.fin (f := f64) (L := L) x) = Flt.fin K ∧
      (Flt.fin x -. Flt.fin K *. ln2 : Flt f64 L) = Flt.fin r ∧ f64.Representable r ∧
      0 ≤ s ∧ s ≤ Real.log 2 ∧ |(r : ℝ) - s| ≤ 8e-16 * |(x : ℝ)| + 6e-16 ∧
      |s - (x - K * Real.log 2)| ≤ 4e-16 * |(x : ℝ)| + 1e-40 := by
  obtain ⟨l, hl, al⟩ := ln2_flt
  have g2 := Real.log_two_gt_d9
  have g3 := Real.log_two_lt_d9
  norm_num at g2 g3
  obtain ⟨X, hX⟩ : ∃ X, X = |(x : ℝ)| := ⟨_, rfl⟩
  rw [← hX] at hx' ⊢
  have hX0 : 0 ≤ X := by rw [hX]; positivity
  have a1 : Appr 1 (1 : ℝ) 1 0 := by
    have := Appr.exact (rep_int (n := 1) (by norm_num)) (X := 1) (by norm_num)
    simpa using this
  have ax : Appr x (x : ℝ) X 0 := Appr.exact hx (by rw [hX])
  obtain ⟨i, hi, ai⟩ := a1.div al 0.693 1.4431 4e-16 (by norm_num; linarith) (by norm_num)
    (by rw [abs_of_pos (by positivity), div_le_iff₀ (by linarith)]; norm_num; linarith)
    (by norm_num) (by norm_num)
  obtain ⟨t, ht, at'⟩ := ax.mul ai (X * 1.4431) (X * 5.7e-16 + 1e-40) le_rfl
    (by norm_num; linarith) (by norm_num; linarith)
  have hidx : expIndex (Flt.fin (f := f64) (L := L) x) = Flt.fin (⌊t⌋ : ℤ) := by
    have e : expIndex (Flt.fin (f := f64) (L := L) x) = (Flt.floor (Flt.mul f64 (.fin x)
      (Flt.div f64 (.fin 1) (f64.round Flt.ln2Lit))) : FVal) := rfl
    rw [e, hl, hi, ht]
    rfl
  obtain ⟨K, hK⟩ : ∃ K, K = ⌊t⌋ := ⟨_, rfl⟩
  rw [← hK] at hidx
  have hK1 : (K : ℝ) ≤ t := by
    have := Int.floor_le t; rw [← hK] at this; exact_mod_cast this
  have hK2 : (t : ℝ) < K + 1 := by
    have := Int.lt_floor_add_one t; rw [← hK] at this; exact_mod_cast this
  have het := abs_le.mp at'.err
  have hts := abs_le.mp at'.size
  obtain ⟨N, hN⟩ : ∃ N : ℝ, N = |(K : ℝ)| := ⟨_, rfl⟩
  have hN0 : 0 ≤ N := by rw [hN]; positivity
  have hNX : N ≤ 1.4432 * X + 1.001 := by
    rw [hN, abs_le]
    norm_num at hts ⊢
    constructor <;> linarith [hts.1, hts.2]
  have hKi : |K| ≤ 2 ^ 53 := by
    have h : ((|K| : ℤ) : ℝ) ≤ ((2 ^ 53 : ℤ) : ℝ) := by
      push_cast
      rw [← hN]
      norm_num at hNX ⊢
      linarith
    exact_mod_cast h
  have ak : Appr K (K : ℝ) N 0 := by
    have := Appr.exact (rep_int (n := K) hKi) (X := N) (by push_cast; rw [hN])
    push_cast at this
    exact this
  obtain ⟨p, hp, ap⟩ := ak.mul al (N * 0.69315) (N * 1.8e-16 + 2e-40) le_rfl
    (by norm_num at hNX ⊢; linarith) (by norm_num; linarith)
  -- the exact reduced argument
  have hxl : (x : ℝ) * (1 / Real.log 2) * Real.log 2 = x := by
    have : Real.log 2 ≠ 0 := by linarith
    field_simp
  obtain ⟨w, hw⟩ : ∃ w : ℝ, w = (x : ℝ) * (1 / Real.log 2) := ⟨_, rfl⟩
  rw [← hw] at hxl het
  have hd1 : (t - K : ℝ) * Real.log 2 ≤ 1 * Real.log 2 := by
    apply mul_le_mul_of_nonneg_right _ (by linarith); linarith
  have hd0 : 0 ≤ (t - K : ℝ) * Real.log 2 := mul_nonneg (by linarith) (by linarith)
  have hd2 : |(t - w : ℝ) * Real.log 2| ≤ X * 4e-16 + 1e-40 := by
    rw [abs_mul, abs_of_pos (by linarith : 0 < Real.log 2)]
    have h5 : |(t - w : ℝ)| ≤ X * 5.7e-16 + 1e-40 := by rw [hw]; exact at'.err
    calc |(t - w : ℝ)| * Real.log 2 ≤ (X * 5.7e-16 + 1e-40) * 0.6932 := by
          apply mul_le_mul h5 _ (by linarith) (by positivity)
          norm_num; linarith
      _ ≤ _ := by norm_num; linarith
  have hd3 := abs_le.mp hd2
  have hsx : (x : ℝ) - K * Real.log 2 = (t - K) * Real.log 2 - (t - w) * Real.log 2 := by
    rw [← hxl]; ring
  have hZ : |(x : ℝ) - K * Real.log 2| ≤ 0.69316 := by
    rw [hsx, abs_le]
    norm_num at hd3 ⊢
    constructor <;> linarith [hd3.1, hd3.2]
  obtain ⟨r, hr, ar⟩ := ax.sub_of ap 0.69316 (3.9e-16 * X + 5e-16) hZ
    (by norm_num at hNX ⊢; linarith) (by norm_num at hNX ⊢; linarith)
  refine ⟨K, r, (t - K) * Real.log 2, hidx, ?_, ar.rep, hd0, by linarith, ?_, ?_⟩
  · have e : (Flt.fin x -. Flt.fin K *. ln2 : Flt f64 L) =
      (Flt.sub f64 (.fin x) (Flt.mul f64 (.fin K) (f64.round Flt.ln2Lit)) : FVal) := rfl
    rw [e, hl, hp, hr]
  · have h6 := ar.err
    rw [hsx] at h6
    have h7 : (r : ℝ) - (t - K) * Real.log 2 = (r - ((t - K) * Real.log 2 - (t - w) * Real.log 2))
      - (t - w) * Real.log 2 := by ring
    rw [h7]
    refine (abs_sub _ _).trans ?_
    norm_num at h6 hd2 ⊢
    linarith
  · rw [hsx]
    have h7 : ((t : ℝ) - K) * Real.log 2 - ((t - K) * Real.log 2 - (t - w) * Real.log 2) =
      (t - w) * Real.log 2 := by ring
    rw [h7]
    linarith

omit B in
theorem Jit.rep_scale {y : ℚ} (hy : f64.Representable y) (h0 : 1 / 2 ≤ y) (h1 : y < 4) :
    f64.Representable (y * (1 / 2)) ∧ f64.Representable (y * 2) := by
  obtain ⟨⟨m, e, hm, he, rfl⟩, -⟩ := hy
  have h2e : (0 : ℚ) < 2 ^ e := by positivity
  have hm' : (m : ℚ) < 2 ^ (53 : ℤ) := by
    have := lt_of_le_of_lt (le_abs_self m) hm
    simp only [f64] at this
    exact_mod_cast this
  have he' : -54 ≤ e := by
    have h3 : (2 : ℚ) ^ (-1 : ℤ) < 2 ^ (53 + e) := by
      rw [zpow_add₀ two_ne_zero]
      calc (2 : ℚ) ^ (-1 : ℤ) ≤ m * 2 ^ e := by norm_num at h0 ⊢; linarith
        _ < _ := by gcongr
    rw [zpow_lt_zpow_iff_right₀ (by norm_num)] at h3
    omega
  refine ⟨⟨⟨m, e - 1, hm, by simp only [f64]; omega, ?_⟩, ?_⟩, ⟨⟨m, e + 1, hm, by omega, ?_⟩, ?_⟩⟩
  · rw [zpow_sub₀ two_ne_zero]; ring
  · refine lt_f64_max ?_
    rw [abs_of_pos (by linarith)]
    linarith [show (4 : ℚ) ≤ 2 ^ 100 by norm_num]
  · rw [zpow_add₀ two_ne_zero]; ring
  · refine lt_f64_max ?_
    rw [abs_of_pos (by linarith)]
    linarith [show (8 : ℚ) ≤ 2 ^ 100 by norm_num]

set_option maxHeartbeats 800000 in
/-- Everything the exponential does for arguments up to 2200. -/
theorem Jit.jitExp_flt (hB : FaithfulDouble B) {x : ℚ} (hx : f64.Representable x)
    (hx' : |(x : ℝ)| ≤ 2200) :
    ∃ (K : ℤ) (y : ℚ), f64.Representable y ∧ 1 / 2 ≤ y ∧ y < 4 ∧ |K| ≤ 3200 ∧
      -1e-11 ≤ x - K * Real.log 2 ∧ x - K * Real.log 2 ≤ Real.log 2 + 1e-11 ∧
      |(y : ℝ) - Real.exp (x - K * Real.log 2)| ≤
        (2.9e-12 + 3e-15 * |(x : ℝ)|) * Real.exp (x - K * Real.log 2) ∧
      jitExp (Flt.fin (f := f64) (L := L) x) = some (if K = -1 then Flt.fin (y * (1 / 2))
        else if K = 1 then Flt.fin (y * 2) else if K = 0 then Flt.fin y
        else scaleBits (Flt.fin y) (BitVec.ofInt 32 K)) := by
  obtain ⟨K, r, s, h1, h2, h3, h4, h5, h6, h7⟩ := Jit.reduce_flt (L := L) hx hx'
  obtain ⟨X, hX⟩ : ∃ X, X = |(x : ℝ)| := ⟨_, rfl⟩
  rw [← hX] at hx' h6 h7 ⊢
  have hX0 : 0 ≤ X := by rw [hX]; positivity
  have g2 := Real.log_two_gt_d9
  have g3 := Real.log_two_lt_d9
  norm_num at g2 g3
  have h6' := abs_le.mp h6
  have h7' := abs_le.mp h7
  norm_num at h6' h7'
  have r0 : (-0.1 : ℝ) ≤ r := by norm_num; linarith [h6'.1, h6'.2]
  have r1 : (r : ℝ) ≤ 0.7 := by norm_num; linarith [h6'.1, h6'.2]
  obtain ⟨y, hy, hyr, hye⟩ := expRational_flt (L := L) h3 r0 r1
  have hlip := expRat_lipschitz r0 r1 (b := s) (by norm_num; linarith) (by norm_num; linarith)
  have herr := expRat_error h4 h5
  obtain ⟨S, hS⟩ : ∃ S, S = Real.exp s := ⟨_, rfl⟩
  obtain ⟨u, hu⟩ : ∃ u, u = (x : ℝ) - K * Real.log 2 := ⟨_, rfl⟩
  obtain ⟨T, hT⟩ : ∃ T, T = Real.exp u := ⟨_, rfl⟩
  rw [← hS] at herr
  rw [← hu] at h7 h7'
  have hS1 : 1 ≤ S := by rw [hS]; exact Real.one_le_exp h4
  have hS2 : S ≤ 2 := by
    rw [hS]
    calc Real.exp s ≤ Real.exp (Real.log 2) := Real.exp_le_exp.mpr h5
      _ = 2 := Real.exp_log (by norm_num)
  have hT0 : 0 < T := by rw [hT]; exact Real.exp_pos _
  have hyS : |(y : ℝ) - S| ≤ 2.8e-12 * S + (2e-15 * X + 1.2e-14) := by
    have e : (y : ℝ) - S = (y - expRat r) + (expRat r - expRat s) + (expRat s - S) := by ring
    rw [e]
    refine (abs_add_le _ _).trans (le_trans (add_le_add_left (abs_add_le _ _) _) ?_)
    norm_num at hye hlip herr h6 ⊢
    linarith
  have hST : |S - T| ≤ (8e-16 * X + 2e-40) * T := by
    have e : S - T = (Real.exp (s - u) - 1) * T := by
      rw [hS, hT, sub_mul, one_mul, ← Real.exp_add]; congr 2; ring
    rw [e, abs_mul, abs_of_pos hT0]
    refine mul_le_mul_of_nonneg_right ?_ hT0.le
    refine (Real.abs_exp_sub_one_le (h7.trans (by norm_num; linarith))).trans ?_
    norm_num at h7 ⊢
    linarith
  have hyS' := abs_le.mp hyS
  norm_num at hyS'
  have hKb : |K| ≤ 3200 := by
    have hxa := abs_le.mp (le_of_eq hX.symm)
    rw [abs_le]
    have k1 : (K : ℝ) * Real.log 2 ≤ 2201 := by
      have : (K : ℝ) * Real.log 2 = x - u := by rw [hu]; ring
      rw [this]; linarith [h7'.1, h7'.2, hxa.1, hxa.2]
    have k2 : -2201 ≤ (K : ℝ) * Real.log 2 := by
      have : (K : ℝ) * Real.log 2 = x - u := by rw [hu]; ring
      rw [this]; linarith [h7'.1, h7'.2, hxa.1, hxa.2]
    constructor
    · by_contra hc
      have : (K : ℝ) ≤ -3200 := by exact_mod_cast (not_le.mp hc).le
      nlinarith
    · by_contra hc
      have : (3200 : ℝ) ≤ K := by exact_mod_cast (not_le.mp hc).le
      nlinarith
  have hb := abs_le.mp hKb
  have y0 : 1 / 2 ≤ y := by
    have : ((1 / 2 : ℚ) : ℝ) ≤ y := by push_cast; linarith [hyS'.1]
    exact_mod_cast this
  have y1 : y < 4 := by
    have : (y : ℝ) < ((4 : ℚ) : ℝ) := by push_cast; linarith [hyS'.2]
    exact_mod_cast this
  refine ⟨K, y, hyr, y0, y1, hKb, by rw [← hu]; norm_num; linarith [h7'.1, h7'.2],
    by rw [← hu]; norm_num; linarith [h7'.1, h7'.2], ?_, ?_⟩
  · rw [← hu, ← hT]
    have e : (y : ℝ) - T = (y - S) + (S - T) := by ring
    rw [e]
    refine (abs_add_le _ _).trans ?_
    have hST' := abs_le.mp hST
    have hXT : 0 ≤ X * T := by positivity
    have hXT' : X * T ≤ 2200 * T := by gcongr
    have c1 : S ≤ T + 1e-11 * T := by
      norm_num at hST' ⊢
      nlinarith [hST'.2]
    have c2 : 2e-15 * X + 1.2e-14 ≤ (2e-15 * X + 1.2e-14) * S := by
      have : 0 ≤ 2e-15 * X + 1.2e-14 := by positivity
      nlinarith
    have c3 : (2e-15 * X + 1.2e-14) * S ≤ (2e-15 * X + 1.2e-14) * (T + 1e-11 * T) := by gcongr
    clear hyS' hST' h6' h7' hlip herr hye
    norm_num at hyS hST c1 c2 c3 ⊢
    linarith
  · obtain ⟨q1, q2⟩ := Jit.rep_scale hyr y0 y1
    have hr : -2 ^ 31 ≤ K ∧ K < 2 ^ 31 := by omega
    simp only [jitExp, h1, h2, hy]
    rw [hB.toInt32, if_pos hr]
    have hi : ∀ n : ℤ, (-2 ^ 31 ≤ n ∧ n < 2 ^ 31) → (BitVec.ofInt 32 K = BitVec.ofInt 32 n ↔ K = n) := by
      intro n hn
      constructor
      · intro he; rw [← Jit.toInt_ofInt hr, he, Jit.toInt_ofInt hn]
      · rintro rfl; rfl
    have c1 : (BitVec.ofInt 32 K = -1#32) ↔ K = -1 := by
      rw [show (-1#32) = BitVec.ofInt 32 (-1) by decide]
      exact hi (-1) (by norm_num)
    have c2 : (BitVec.ofInt 32 K = 1#32) ↔ K = 1 := hi 1 (by norm_num)
    have c3 : (BitVec.ofInt 32 K = 0#32) ↔ K = 0 := hi 0 (by norm_num)
    have e1 : (Flt.fin y *. ofRat (1/2) : Flt f64 L) = Flt.fin (y * (1 / 2)) := by
      have e : (Flt.fin y *. ofRat (1/2) : Flt f64 L) =
        (Flt.mul f64 (.fin y) (f64.round (1/2)) : FVal) := rfl
      rw [e, round_half std64]
      exact round_exact _ q1
    have e2 : (Flt.fin y *. ofRat 2 : Flt f64 L) = Flt.fin (y * 2) := by
      have e : (Flt.fin y *. ofRat 2 : Flt f64 L) =
        (Flt.mul f64 (.fin y) (f64.round 2) : FVal) := rfl
      rw [e, round_two std64]
      exact round_exact _ q2
    simp only [c1, c2, c3, e1, e2]

omit B in
/-- The pattern of a number in [1/2, 4) has exponent field 1022, 1023 or 1024. -/
theorem Jit.exponentField_near {b : BitVec 64} {a : ℝ} (h : decode b = XReal.fin a)
    (h0 : 1 / 2 ≤ a) (h1 : a < 4) : 1022 ≤ exponentField b ∧ exponentField b ≤ 1024 := by
  have hmin : (2 : ℝ) ^ (-1022 : ℤ) ≤ a := by
    refine le_trans ?_ h0
    calc (2 : ℝ) ^ (-1022 : ℤ) ≤ 2 ^ (-1 : ℤ) := zpow_le_zpow_right₀ (by norm_num) (by norm_num)
      _ = 1 / 2 := by norm_num
  obtain ⟨-, e0, e1, hv⟩ := of_decode_pos h hmin
  have hf : (fractionField b : ℝ) < 2 ^ 52 := by exact_mod_cast fraction_lt b
  have hf0 : (0 : ℝ) ≤ fractionField b := Nat.cast_nonneg _
  have l1 : (2 : ℝ) ^ ((exponentField b : ℤ) - 1023) ≤ a := by
    rw [hv]
    calc (2 : ℝ) ^ ((exponentField b : ℤ) - 1023) = 2 ^ 52 * 2 ^ ((exponentField b : ℤ) - 1075) := by
          rw [← zpow_natCast, ← zpow_add₀ two_ne_zero]; congr 1; push_cast; ring
      _ ≤ _ := by gcongr; linarith
  have l2 : a < (2 : ℝ) ^ ((exponentField b : ℤ) - 1022) := by
    rw [hv]
    calc _ < 2 ^ 53 * (2 : ℝ) ^ ((exponentField b : ℤ) - 1075) := by
          gcongr
          have : (2 : ℝ) ^ 53 = 2 * 2 ^ 52 := by norm_num
          linarith
      _ = _ := by rw [← zpow_natCast, ← zpow_add₀ two_ne_zero]; congr 1; push_cast; ring
  have u1 : (2 : ℝ) ^ ((exponentField b : ℤ) - 1023) < 2 ^ (2 : ℤ) := by
    norm_num; linarith
  have u2 : (2 : ℝ) ^ (-1 : ℤ) < 2 ^ ((exponentField b : ℤ) - 1022) := by
    calc (2 : ℝ) ^ (-1 : ℤ) = 1 / 2 := by norm_num
      _ ≤ a := h0
      _ < _ := l2
  rw [zpow_lt_zpow_iff_right₀ (by norm_num)] at u1 u2
  omega

theorem Jit.jitExp_accuracy (hB : FaithfulDouble B) {x : ℚ} (hx : f64.Representable x)
    (h0 : -707 ≤ x) (h1 : x ≤ 709) :
    ∃ v : ℚ, jitExp (Flt.fin (f := f64) (L := L) x) = some (Flt.fin v) ∧ f64.Representable v ∧
      |(v : ℝ) - Real.exp x| ≤ (2.9e-12 + 3e-15 * |(x : ℝ)|) * Real.exp x := by
  have h0' : (-707 : ℝ) ≤ x := by exact_mod_cast h0
  have h1' : (x : ℝ) ≤ 709 := by exact_mod_cast h1
  obtain ⟨K, y, hyr, y0, y1, -, u0, u1, herr, hj⟩ := Jit.jitExp_flt (L := L) hB hx
    (by rw [abs_le]; constructor <;> linarith)
  have g2 := Real.log_two_gt_d9
  have g3 := Real.log_two_lt_d9
  norm_num at g2 g3 u0 u1
  have K1 : K ≤ 1022 := by
    by_contra hc
    have : (1023 : ℝ) ≤ K := by exact_mod_cast not_le.mp hc
    nlinarith
  have K0 : -1021 ≤ K := by
    by_contra hc
    have h3 : K ≤ -1022 := by omega
    have : (K : ℝ) ≤ -1022 := by exact_mod_cast h3
    nlinarith
  have hr : -2 ^ 31 ≤ K ∧ K < 2 ^ 31 := by omega
  have done : |(y : ℝ) * 2 ^ K - Real.exp x| ≤ (2.9e-12 + 3e-15 * |(x : ℝ)|) * Real.exp x := by
    have hp : (0 : ℝ) < 2 ^ K := by positivity
    rw [Jit.exp_split x K, ← sub_mul, abs_mul, abs_of_pos hp, ← mul_assoc]
    exact mul_le_mul_of_nonneg_right herr hp.le
  obtain ⟨q1, q2⟩ := Jit.rep_scale hyr y0 y1
  rw [hj]
  split_ifs with c1 c2 c3
  · subst c1
    refine ⟨_, rfl, q1, ?_⟩
    push_cast
    rwa [show (2 : ℝ) ^ (-1 : ℤ) = 1 / 2 by norm_num] at done
  · subst c2
    refine ⟨_, rfl, q2, ?_⟩
    push_cast
    rwa [zpow_one] at done
  · subst c3
    refine ⟨_, rfl, hyr, ?_⟩
    rwa [zpow_zero, mul_one] at done
  · have hd := decode_of_pattern (hB.toBits y hyr)
    have y0' : (1 / 2 : ℝ) ≤ y := by
      have : ((1 / 2 : ℚ) : ℝ) ≤ y := by exact_mod_cast y0
      push_cast at this; exact this
    have y1' : (y : ℝ) < 4 := by exact_mod_cast y1
    have hfld := Jit.exponentField_near hd y0' y1'
    have hmin : (2 : ℝ) ^ (-1022 : ℤ) ≤ (y : ℝ) := by
      refine le_trans ?_ y0'
      calc (2 : ℝ) ^ (-1022 : ℤ) ≤ 2 ^ (-1 : ℤ) := zpow_le_zpow_right₀ (by norm_num) (by norm_num)
        _ = 1 / 2 := by norm_num
    have hs := decode_scale (k := BitVec.ofInt 32 K) hd hmin
      (by rw [Jit.toInt_ofInt hr]; omega) (by rw [Jit.toInt_ofInt hr]; omega)
    rw [Jit.toInt_ofInt hr] at hs
    obtain ⟨v, hv, hvv⟩ := pattern_of_decode hs
    refine ⟨v, ?_, pattern_rep hv, by rw [hvv]; exact done⟩
    simp only [scaleBits, hB.ofBits, hv]

/-- The compiled exponential at every double from -707 to 709, all roundings included: relative
error at most 2.9e-12 + 3e-15·|x| (at most 5.1e-12). -/
theorem C96_exp_partial (hB : FaithfulDouble B) {k : ℕ} {f : Compiled (Flt f64 L)}
    (hf : compileExpression (.exp (.var "x")) ["x"] [] FMap.empty k = .ok f)
    {x : ℚ} (hx : f64.Representable x) (h0 : -707 ≤ x) (h1 : x ≤ 709) :
    ∃ v : ℚ, run f [Flt.fin x] = .value (Flt.fin v) ∧
      |(v : ℝ) - Real.exp x| ≤ (2.9e-12 + 3e-15 * |(x : ℝ)|) * Real.exp x := by
  obtain ⟨v, e1, -, e2⟩ := Jit.jitExp_accuracy hB hx h0 h1
  refine ⟨v, ?_, e2⟩
  rw [Jit.run_unary hf]
  simp [value, bindings, lookupArgs, Result.ofOption, e1]

/-- At every double from 712 to 2000, and from -2000 to -712, the result is a negative number. -/
theorem C96_exp_wrap_violated (hB : FaithfulDouble B) {k : ℕ} {f : Compiled (Flt f64 L)}
    (hf : compileExpression (.exp (.var "x")) ["x"] [] FMap.empty k = .ok f)
    {x : ℚ} (hx : f64.Representable x) (h0 : 712 ≤ |x|) (h1 : |x| ≤ 2000) :
    ∃ v : ℚ, run f [Flt.fin x] = .value (Flt.fin v) ∧ v < 0 := by
  have h0' : (712 : ℝ) ≤ |(x : ℝ)| := by exact_mod_cast h0
  have h1' : |(x : ℝ)| ≤ 2000 := by exact_mod_cast h1
  obtain ⟨K, y, hyr, y0, y1, hKb, u0, u1, herr, hj⟩ := Jit.jitExp_flt (L := L) hB hx
    (h1'.trans (by norm_num))
  have g2 := Real.log_two_gt_d9
  have g3 := Real.log_two_lt_d9
  norm_num at g2 g3 u0 u1
  have hKr : -3000 ≤ K ∧ K ≤ -1026 ∨ 1027 ≤ K ∧ K ≤ 3000 := by
    have h1a := abs_le.mp h1'
    rcases le_abs.mp h0' with h | h
    · right
      constructor
      · by_contra hc
        have h3 : K ≤ 1026 := by omega
        have : (K : ℝ) ≤ 1026 := by exact_mod_cast h3
        nlinarith
      · by_contra hc
        have h3 : 3001 ≤ K := by omega
        have : (3001 : ℝ) ≤ K := by exact_mod_cast h3
        nlinarith
    · left
      constructor
      · by_contra hc
        have h3 : K ≤ -3001 := by omega
        have : (K : ℝ) ≤ -3001 := by exact_mod_cast h3
        nlinarith
      · by_contra hc
        have h3 : -1025 ≤ K := by omega
        have : (-1025 : ℝ) ≤ K := by exact_mod_cast h3
        nlinarith
  have hr : -2 ^ 31 ≤ K ∧ K < 2 ^ 31 := by omega
  have hd := decode_of_pattern (hB.toBits y hyr)
  have y0' : (1 / 2 : ℝ) ≤ y := by
    have : ((1 / 2 : ℚ) : ℝ) ≤ y := by exact_mod_cast y0
    push_cast at this; exact this
  have y1' : (y : ℝ) < 4 := by exact_mod_cast y1
  have hfld := Jit.exponentField_near hd y0' y1'
  have hmin : (2 : ℝ) ^ (-1022 : ℤ) ≤ (y : ℝ) := by
    refine le_trans ?_ y0'
    calc (2 : ℝ) ^ (-1022 : ℤ) ≤ 2 ^ (-1 : ℤ) := zpow_le_zpow_right₀ (by norm_num) (by norm_num)
      _ = 1 / 2 := by norm_num
  obtain ⟨e, he⟩ : ∃ e, e = exponentField (B.toBits (Flt.fin y)) := ⟨_, rfl⟩
  rw [← he] at hfld
  obtain ⟨j, hj1, hj2, hj3⟩ : ∃ j : ℤ, (j = 2048 ∨ j = -2048) ∧ 1 ≤ (e : ℤ) + K + j
      ∧ (e : ℤ) + K + j ≤ 2046 := by
    rcases hKr with hx | hx
    · exact ⟨2048, .inl rfl, by omega, by omega⟩
    · exact ⟨-2048, .inr rfl, by omega, by omega⟩
  have hs := decode_scale_wrap (k := BitVec.ofInt 32 K) hd hmin j hj1
    (by rw [Jit.toInt_ofInt hr, ← he]; exact hj2) (by rw [Jit.toInt_ofInt hr, ← he]; exact hj3)
  rw [Jit.toInt_ofInt hr] at hs
  obtain ⟨v, hv, hvv⟩ := pattern_of_decode hs
  refine ⟨v, ?_, ?_⟩
  · rw [Jit.run_unary hf]
    rw [if_neg (by omega), if_neg (by omega), if_neg (by omega)] at hj
    simp only [scaleBits, hB.ofBits, hv] at hj
    simp [value, bindings, lookupArgs, Result.ofOption, hj]
  · have h5 : (0 : ℝ) < y * 2 ^ (K + j) := by positivity
    have : (v : ℝ) < 0 := by rw [hvv]; linarith
    exact_mod_cast this

/-- NaN and the infinities stop the process. -/
theorem C96_exp_traps_violated (hB : FaithfulDouble B) {k : ℕ} {f : Compiled (Flt f64 L)}
    (hf : compileExpression (.exp (.var "x")) ["x"] [] FMap.empty k = .ok f) :
    run f [Flt.nan] = .trap ∧ run f [Flt.posInf] = .trap ∧ run f [Flt.negInf] = .trap := by
  obtain ⟨l, hl, al⟩ := ln2_flt
  have g2 := Real.log_two_gt_d9
  have g3 := Real.log_two_lt_d9
  norm_num at g2 g3
  have a1 : Appr 1 (1 : ℝ) 1 0 := by
    have := Appr.exact (rep_int (n := 1) (by norm_num)) (X := 1) (by norm_num)
    simpa using this
  obtain ⟨i, hi, ai⟩ := a1.div al 0.693 1.4431 4e-16 (by norm_num; linarith) (by norm_num)
    (by rw [abs_of_pos (by positivity), div_le_iff₀ (by linarith)]; norm_num; linarith)
    (by norm_num) (by norm_num)
  have hi0 : 0 < i := by
    have h3 := abs_le.mp ai.err
    have h4 : 1 ≤ 1 / Real.log 2 := by rw [le_div_iff₀ (by linarith)]; linarith
    have : (0 : ℝ) < i := by norm_num at h3 h4; linarith [h3.1]
    exact_mod_cast this
  have e : ∀ x : Flt f64 L, expIndex x = (Flt.floor (Flt.mul f64 x (.fin i)) : FVal) := by
    intro x
    have e : expIndex x = (Flt.floor (Flt.mul f64 x
      (Flt.div f64 (.fin 1) (f64.round Flt.ln2Lit))) : FVal) := rfl
    rw [e, hl, hi]
  have e1 : expIndex (Flt.nan : Flt f64 L) = Flt.nan := e _
  have e2 : expIndex (Flt.posInf : Flt f64 L) = Flt.posInf := by
    rw [e]
    simp [Flt.mul, hi0.ne', not_lt.mpr hi0.le, Flt.floor]
    rfl
  have e3 : expIndex (Flt.negInf : Flt f64 L) = Flt.negInf := by
    rw [e]
    simp [Flt.mul, hi0.ne', not_lt.mpr hi0.le, Flt.floor]
    rfl
  have key : ∀ x : Flt f64 L, B.toInt32 (expIndex x) = none → run f [x] = .trap := by
    intro x hx
    rw [Jit.run_unary hf]
    simp [value, bindings, lookupArgs, Result.ofOption, jitExp, hx]
  refine ⟨key _ ?_, key _ ?_, key _ ?_⟩
  · rw [e1]; exact hB.toInt32_nan
  · rw [e2]; exact hB.toInt32_inf false
  · rw [e3]; exact hB.toInt32_inf true

/-! ### Sine and cosine -/

theorem Jit.jitSin_flt {x : ℚ} (hx : f64.Representable x) (hx' : |x| ≤ 10) :
    ∃ v : ℚ, jitSin (Flt.fin (f := f64) (L := L) x) = Flt.fin v ∧ f64.Representable v ∧
      |(v : ℝ) - Real.sin x| ≤
        |(x : ℝ)| ^ 7 / 5040 + 3.41e-12 * (|(x : ℝ)| ^ 3 + |(x : ℝ)| ^ 5) + 3e-16 * |(x : ℝ)| + 1e-33 := by
  have hx10 : |(x : ℝ)| ≤ 10 := by exact_mod_cast hx'
  obtain ⟨X, hX⟩ : ∃ X, X = |(x : ℝ)| := ⟨_, rfl⟩
  have hT := sin_taylor x
  rw [← hX] at hx10 hT ⊢
  have hX0 : 0 ≤ X := by rw [hX]; positivity
  have b2 : X ^ 2 ≤ 10 ^ 2 := by gcongr
  have b3 : X ^ 3 ≤ 10 ^ 3 := by gcongr
  have b5 : X ^ 5 ≤ 10 ^ 5 := by gcongr
  have c2 : 0 ≤ X ^ 2 := by positivity
  have c3 : 0 ≤ X ^ 3 := by positivity
  have c5 : 0 ≤ X ^ 5 := by positivity
  have ax : Appr x (x : ℝ) X 0 := Appr.exact hx (by rw [hX])
  obtain ⟨k3, hk3, ak3⟩ := Appr.lit (-0.16666666667) (X := 0.1667) (e := 1.86e-17)
    (by norm_num [abs_le]) (by norm_num) (by norm_num)
  obtain ⟨k5, hk5, ak5⟩ := Appr.lit 0.00833333333 (X := 0.00834) (e := 1e-18)
    (by norm_num [abs_le]) (by norm_num) (by norm_num)
  obtain ⟨x2, h2, a2⟩ := ax.mul ax (X ^ 2) (1.2e-16 * X ^ 2 + 1e-40) (by rw [_root_.sq])
    (by norm_num at *; linarith) (by norm_num; linarith)
  obtain ⟨x3, h3, a3⟩ := a2.mul ax (X ^ 3) (2.4e-16 * X ^ 3 + 2e-39) (by rw [← pow_succ])
    (by norm_num at *; linarith) (by norm_num; linarith)
  obtain ⟨x5, h5, a5⟩ := a3.mul a2 (X ^ 5) (4.8e-16 * X ^ 5 + 1e-36) (by rw [← pow_add])
    (by norm_num at *; linarith) (by norm_num; linarith)
  obtain ⟨t3, ht3, at3⟩ := a3.mul ak3 (0.1667 * X ^ 3) (8e-17 * X ^ 3 + 1e-38) (by rw [mul_comm])
    (by norm_num at *; linarith) (by norm_num; linarith)
  obtain ⟨t5, ht5, at5⟩ := a5.mul ak5 (0.00834 * X ^ 5) (7e-18 * X ^ 5 + 1e-35) (by rw [mul_comm])
    (by norm_num at *; linarith) (by norm_num; linarith)
  obtain ⟨u, hu, au⟩ := ax.add at3 (X + 0.1667 * X ^ 3) (1.2e-16 * X + 1.1e-16 * X ^ 3 + 1e-37) le_rfl
    (by norm_num at *; linarith) (by norm_num; linarith)
  obtain ⟨v, hv, av⟩ := au.add at5 (X + 0.1667 * X ^ 3 + 0.00834 * X ^ 5)
    (2.4e-16 * X + 1.4e-16 * X ^ 3 + 1e-17 * X ^ 5 + 1e-33) le_rfl
    (by norm_num at *; linarith) (by norm_num; linarith)
  refine ⟨v, ?_, av.rep, ?_⟩
  · have e : jitSin (Flt.fin (f := f64) (L := L) x) = Flt.fin v := by
      have e : jitSin (Flt.fin (f := f64) (L := L) x) =
        (Flt.add f64 (Flt.add f64 (.fin x) (Flt.mul f64 (Flt.mul f64 (Flt.mul f64 (.fin x) (.fin x))
          (.fin x)) (f64.round (-0.16666666667)))) (Flt.mul f64 (Flt.mul f64 (Flt.mul f64 (Flt.mul f64
          (.fin x) (.fin x)) (.fin x)) (Flt.mul f64 (.fin x) (.fin x))) (f64.round 0.00833333333))
          : FVal) := rfl
      rw [e]
      simp only [h2, h3, h5, hk3, hk5, ht3, ht5, hu, hv]
      rfl
    exact e
  · have p3 : |(x : ℝ) ^ 3| = X ^ 3 := by rw [abs_pow, hX]
    have p5 : |(x : ℝ) ^ 5| = X ^ 5 := by rw [abs_pow, hX]
    have q3 : |(x : ℝ) ^ 3 * (1 / 6 - 0.16666666667)| ≤ X ^ 3 * 3.4e-12 := by
      rw [abs_mul, p3]; gcongr; norm_num [abs_le]
    have q5 : |(x : ℝ) ^ 5 * (0.00833333333 - 1 / 120)| ≤ X ^ 5 * 3.4e-12 := by
      rw [abs_mul, p5]; gcongr; norm_num [abs_le]
    have e : (v : ℝ) - Real.sin x = (v - (x + x * x * x * ((-0.16666666667 : ℚ) : ℝ) +
        x * x * x * (x * x) * ((0.00833333333 : ℚ) : ℝ))) +
        (x - x ^ 3 / 6 + x ^ 5 / 120 - Real.sin x) +
        (x ^ 3 * (1/6 - 0.16666666667) + x ^ 5 * (0.00833333333 - 1/120)) := by push_cast; ring
    rw [e]
    refine (abs_add_three _ _ _).trans ?_
    have h6 := abs_add_le ((x : ℝ) ^ 3 * (1 / 6 - 0.16666666667)) ((x : ℝ) ^ 5 * (0.00833333333 - 1 / 120))
    have h7 := av.err
    refine (add_le_add (add_le_add h7 hT) (h6.trans (add_le_add q3 q5))).trans ?_
    clear h7 h6 q3 q5 e
    norm_num
    linarith

/-- The compiled sine with rounding, for arguments up to 10. -/
theorem C96_sin_partial {k : ℕ} {f : Compiled (Flt f64 L)}
    (hf : compileExpression (.sin (.var "x")) ["x"] [] FMap.empty k = .ok f)
    {x : ℚ} (hx : f64.Representable x) (hx' : |x| ≤ 10) :
    ∃ v : ℚ, run f [Flt.fin x] = .value (Flt.fin v) ∧
      |(v : ℝ) - Real.sin x| ≤
        |(x : ℝ)| ^ 7 / 5040 + 3.41e-12 * (|(x : ℝ)| ^ 3 + |(x : ℝ)| ^ 5) + 3e-16 * |(x : ℝ)| + 1e-33 := by
  obtain ⟨v, e, -, h⟩ := Jit.jitSin_flt (L := L) hx hx'
  refine ⟨v, ?_, h⟩
  rw [Jit.run_unary hf]
  simp [value, bindings, lookupArgs, Result.ofOption, e]

theorem Jit.jitCos_flt {x : ℚ} (hx : f64.Representable x) (hx' : |x| ≤ 10) :
    ∃ v : ℚ, jitCos (Flt.fin (f := f64) (L := L) x) = Flt.fin v ∧ f64.Representable v ∧
      |(v : ℝ) - Real.cos x| ≤
        |(x : ℝ)| ^ 6 / 720 + 3.41e-12 * |(x : ℝ)| ^ 4 + 3e-16 * (1 + |(x : ℝ)| ^ 2) := by
  have hx10 : |(x : ℝ)| ≤ 10 := by exact_mod_cast hx'
  obtain ⟨X, hX⟩ : ∃ X, X = |(x : ℝ)| := ⟨_, rfl⟩
  have hT := cos_taylor x
  rw [← hX] at hx10 hT ⊢
  have hX0 : 0 ≤ X := by rw [hX]; positivity
  have b2 : X ^ 2 ≤ 10 ^ 2 := by gcongr
  have b4 : X ^ 4 ≤ 10 ^ 4 := by gcongr
  have c2 : 0 ≤ X ^ 2 := by positivity
  have c4 : 0 ≤ X ^ 4 := by positivity
  have ax : Appr x (x : ℝ) X 0 := Appr.exact hx (by rw [hX])
  have a1 : Appr 1 (1 : ℝ) 1 0 := by
    have := Appr.exact (rep_int (n := 1) (by norm_num)) (X := 1) (by norm_num)
    simpa using this
  obtain ⟨k2, hk2, ak2⟩ := Appr.lit (-0.5) (X := 0.5) (e := 5.6e-17)
    (by norm_num [abs_le]) (by norm_num) (by norm_num)
  obtain ⟨k4, hk4, ak4⟩ := Appr.lit 0.04166666667 (X := 0.0417) (e := 5e-18)
    (by norm_num [abs_le]) (by norm_num) (by norm_num)
  obtain ⟨x2, h2, a2⟩ := ax.mul ax (X ^ 2) (1.2e-16 * X ^ 2 + 1e-40) (by rw [_root_.sq])
    (by norm_num at *; linarith) (by norm_num; linarith)
  obtain ⟨x4, h4, a4⟩ := a2.mul a2 (X ^ 4) (3.6e-16 * X ^ 4 + 1e-37) (by rw [← pow_add])
    (by norm_num at *; linarith) (by norm_num; linarith)
  obtain ⟨t2, ht2, at2⟩ := a2.mul ak2 (0.5 * X ^ 2) (1.8e-16 * X ^ 2 + 1e-38) (by rw [mul_comm])
    (by norm_num at *; linarith) (by norm_num; linarith)
  obtain ⟨t4, ht4, at4⟩ := a4.mul ak4 (0.0417 * X ^ 4) (3e-17 * X ^ 4 + 1e-36) (by rw [mul_comm])
    (by norm_num at *; linarith) (by norm_num; linarith)
  obtain ⟨u, hu, au⟩ := a1.add at2 (1 + 0.5 * X ^ 2) (1.2e-16 + 2.4e-16 * X ^ 2 + 1e-37) le_rfl
    (by norm_num at *; linarith) (by norm_num; linarith)
  obtain ⟨v, hv, av⟩ := au.add at4 (1 + 0.5 * X ^ 2 + 0.0417 * X ^ 4)
    (2.9e-16 + 3e-16 * X ^ 2 + 4e-17 * X ^ 4) le_rfl
    (by norm_num at *; linarith) (by norm_num; linarith)
  refine ⟨v, ?_, av.rep, ?_⟩
  · have e : jitCos (Flt.fin (f := f64) (L := L) x) = Flt.fin v := by
      have e : jitCos (Flt.fin (f := f64) (L := L) x) =
        (Flt.add f64 (Flt.add f64 (.fin 1) (Flt.mul f64 (Flt.mul f64 (.fin x) (.fin x))
          (f64.round (-0.5)))) (Flt.mul f64 (Flt.mul f64 (Flt.mul f64 (.fin x) (.fin x))
          (Flt.mul f64 (.fin x) (.fin x))) (f64.round 0.04166666667)) : FVal) := rfl
      rw [e]
      simp only [h2, h4, hk2, hk4, ht2, ht4, hu, hv]
      rfl
    exact e
  · have p4 : |(x : ℝ) ^ 4| = X ^ 4 := by rw [abs_pow, hX]
    have q4 : |(x : ℝ) ^ 4 * (0.04166666667 - 1 / 24)| ≤ X ^ 4 * 3.4e-12 := by
      rw [abs_mul, p4]; gcongr; norm_num [abs_le]
    have e : (v : ℝ) - Real.cos x = (v - (1 + x * x * ((-0.5 : ℚ) : ℝ) +
        x * x * (x * x) * ((0.04166666667 : ℚ) : ℝ))) +
        (1 - x ^ 2 / 2 + x ^ 4 / 24 - Real.cos x) + x ^ 4 * (0.04166666667 - 1/24) := by
      push_cast; ring
    rw [e]
    refine (abs_add_three _ _ _).trans ?_
    have h7 := av.err
    refine (add_le_add (add_le_add h7 hT) q4).trans ?_
    clear h7 q4 e
    norm_num
    linarith

/-- The compiled cosine with rounding, for arguments up to 10. -/
theorem C96_cos_partial {k : ℕ} {f : Compiled (Flt f64 L)}
    (hf : compileExpression (.cos (.var "x")) ["x"] [] FMap.empty k = .ok f)
    {x : ℚ} (hx : f64.Representable x) (hx' : |x| ≤ 10) :
    ∃ v : ℚ, run f [Flt.fin x] = .value (Flt.fin v) ∧
      |(v : ℝ) - Real.cos x| ≤
        |(x : ℝ)| ^ 6 / 720 + 3.41e-12 * |(x : ℝ)| ^ 4 + 3e-16 * (1 + |(x : ℝ)| ^ 2) := by
  obtain ⟨v, e, -, h⟩ := Jit.jitCos_flt (L := L) hx hx'
  refine ⟨v, ?_, h⟩
  rw [Jit.run_unary hf]
  simp [value, bindings, lookupArgs, Result.ofOption, e]

/-! ### Powers -/

theorem Jit.jitPow_flt (hB : FaithfulDouble B)
    {b e : ℚ} (hb : f64.Representable b) (hb0 : 2 ^ (-1022 : ℤ) ≤ b) (he : f64.Representable e)
    (he1 : |e| ≤ 10 ^ 10) (hbe : |(e : ℝ) * Real.log b| ≤ 700) :
    ∃ v : ℚ, jitExp (Flt.fin e *. jitLn (Flt.fin b) : Flt f64 L) = some (Flt.fin v) ∧
      f64.Representable v ∧
      |(v : ℝ) - (b : ℝ) ^ (e : ℝ)| ≤ (7e-12 + 4e-12 * |(e : ℝ)|) * (b : ℝ) ^ (e : ℝ) := by
  have hbpos : (0 : ℝ) < b := by
    have : (0 : ℚ) < b := lt_of_lt_of_le (by positivity) hb0
    exact_mod_cast this
  obtain ⟨l, hl, hlr, hle⟩ := Jit.jitLn_flt (L := L) hB hb hb0
  obtain ⟨E, hE⟩ : ∃ E, E = |(e : ℝ)| := ⟨_, rfl⟩
  have hE0 : 0 ≤ E := by rw [hE]; positivity
  have hE1 : E ≤ 10 ^ 10 := by rw [hE]; exact_mod_cast he1
  obtain ⟨G, hG⟩ : ∃ G, G = |Real.log (b : ℝ)| := ⟨_, rfl⟩
  have hG0 : 0 ≤ G := by rw [hG]; positivity
  have hEG : E * G ≤ 700 := by rw [hE, hG, ← abs_mul]; exact hbe
  rw [← hG] at hle
  have ae : Appr e (e : ℝ) E 0 := Appr.exact he (by rw [hE])
  have al : Appr l (Real.log b) G (3.72e-12 + 5e-16 * G) := ⟨hlr, by rw [hG], hle⟩
  obtain ⟨t, ht, at'⟩ := ae.mul al (E * G) (3.73e-12 * E + 5e-13) le_rfl
    (by norm_num at *; nlinarith) (by norm_num at *; nlinarith)
  have herr := at'.err
  obtain ⟨w, hw⟩ : ∃ w, w = (e : ℝ) * Real.log b := ⟨_, rfl⟩
  rw [← hw] at herr hbe
  have hbw := abs_le.mp hbe
  have her := abs_le.mp herr
  norm_num at hE1 her
  have ht0 : (-707 : ℝ) ≤ t := by linarith [her.1]
  have ht1 : (t : ℝ) ≤ 709 := by linarith [her.2]
  obtain ⟨v, hv, hvr, hve⟩ := Jit.jitExp_accuracy (L := L) hB at'.rep (by exact_mod_cast ht0)
    (by exact_mod_cast ht1)
  have hpow : (b : ℝ) ^ (e : ℝ) = Real.exp w := by
    rw [Real.rpow_def_of_pos hbpos, hw, mul_comm]
  refine ⟨v, ?_, hvr, ?_⟩
  · have e1 : (Flt.fin e *. jitLn (Flt.fin b) : Flt f64 L) = Flt.fin t := by
      rw [hl]; exact ht
    rw [e1, hv]
  · rw [hpow, ← hE]
    obtain ⟨d, hd⟩ : ∃ d, d = (t : ℝ) - w := ⟨_, rfl⟩
    rw [← hd] at herr
    have hd1 : |d| ≤ 0.0374 := by norm_num at herr ⊢; linarith
    have hx1 : |Real.exp d - 1| ≤ 1.04 * |d| := by
      have h1 := Real.abs_exp_sub_one_sub_id_le (x := d) (hd1.trans (by norm_num))
      have h2 : d ^ 2 ≤ 0.04 * |d| := by
        rw [← sq_abs, _root_.sq]
        exact mul_le_mul_of_nonneg_right (hd1.trans (by norm_num)) (abs_nonneg _)
      have e : Real.exp d - 1 = (Real.exp d - 1 - d) + d := by ring
      rw [e]
      refine (abs_add_le _ _).trans ?_
      norm_num at h2 ⊢
      linarith
    have hexp : Real.exp t = Real.exp d * Real.exp w := by
      rw [← Real.exp_add]; congr 1; rw [hd]; ring
    have hW := Real.exp_pos w
    obtain ⟨W, hWd⟩ : ∃ W, W = Real.exp w := ⟨_, rfl⟩
    obtain ⟨D, hD⟩ : ∃ D, D = Real.exp d := ⟨_, rfl⟩
    rw [hexp, ← hWd, ← hD] at hve
    rw [← hWd] at hW ⊢
    rw [← hD] at hx1
    have hD2 : D ≤ 1.04 := by
      have := (abs_le.mp hx1).2; norm_num at this hd1 ⊢; linarith
    have htabs : |(t : ℝ)| ≤ 701 := by rw [abs_le]; constructor <;> linarith [her.1, her.2]
    have h8 : (2.9e-12 + 3e-15 * |(t : ℝ)|) * (D * W) ≤ 5.4e-12 * W := by
      have h9 : (2.9e-12 + 3e-15 * |(t : ℝ)|) * D ≤ 5.1e-12 * 1.04 := by
        apply mul_le_mul _ hD2 (by rw [hD]; positivity) (by norm_num)
        norm_num; linarith
      rw [← mul_assoc]
      refine mul_le_mul_of_nonneg_right (h9.trans (by norm_num)) hW.le
    have h10 : |D * W - W| ≤ (3.9e-12 * E + 6e-13) * W := by
      have e : D * W - W = (D - 1) * W := by ring
      rw [e, abs_mul, abs_of_pos hW]
      refine mul_le_mul_of_nonneg_right (hx1.trans ?_) hW.le
      norm_num at herr ⊢
      linarith
    have h11 := abs_sub_le (v : ℝ) (D * W) W
    refine h11.trans ((add_le_add (hve.trans h8) h10).trans ?_)
    rw [← add_mul]
    refine mul_le_mul_of_nonneg_right ?_ hW.le
    norm_num
    linarith

/-- The compiled power `b^e` with a variable exponent: relative error at most
7e-12 + 4e-12·|e| when the result is between `exp (-700)` and `exp 700`. -/
theorem C96_pow_partial (hB : FaithfulDouble B) {k : ℕ} {f : Compiled (Flt f64 L)}
    (hf : compileExpression (.pow (.var "x") (.var "y")) ["x", "y"] [] FMap.empty k = .ok f)
    {b e : ℚ} (hb : f64.Representable b) (hb0 : 2 ^ (-1022 : ℤ) ≤ b) (he : f64.Representable e)
    (he1 : |e| ≤ 10 ^ 10) (hbe : |(e : ℝ) * Real.log b| ≤ 700) :
    ∃ v : ℚ, run f [Flt.fin b, Flt.fin e] = .value (Flt.fin v) ∧
      |(v : ℝ) - (b : ℝ) ^ (e : ℝ)| ≤ (7e-12 + 4e-12 * |(e : ℝ)|) * (b : ℝ) ^ (e : ℝ) := by
  obtain ⟨v, h1, -, h2⟩ := Jit.jitPow_flt (L := L) hB hb hb0 he he1 hbe
  refine ⟨v, ?_, h2⟩
  rw [C59_computes _ _ _ _ _ hf [Flt.fin b, Flt.fin e] rfl]
  simp [value, bindings, lookupArgs, Result.ofOption, exprPowSpecial, h1]

end

/-- The hypotheses are satisfiable. -/
example : ∃ (L : Libm) (B : FloatBits (Flt f64 L)), FaithfulDouble B := by
  obtain ⟨L, -⟩ := exists_libm (Or.inl rfl : f64.Std)
  exact ⟨L, exists_faithful_double L⟩

example (L : Libm) [FloatBits (Flt f64 L)] (k : ℕ) : ∃ f : Compiled (Flt f64 L),
    compileExpression (.exp (.var "x")) ["x"] [] FMap.empty k = .ok f := ⟨_, rfl⟩

example (L : Libm) [FloatBits (Flt f64 L)] (k : ℕ) : ∃ f : Compiled (Flt f64 L),
    compileExpression (.pow (.var "x") (.var "y")) ["x", "y"] [] FMap.empty k = .ok f := ⟨_, rfl⟩

example : f64.Representable 800 ∧ 712 ≤ |(800 : ℚ)| ∧ |(800 : ℚ)| ≤ 2000 :=
  ⟨rep_int (n := 800) (by norm_num), by norm_num, by norm_num⟩

example : f64.Representable 10 ∧ (2 : ℚ) ^ (-1022 : ℤ) ≤ 10 ∧
    |((3 : ℚ) : ℝ) * Real.log ((10 : ℚ) : ℝ)| ≤ 700 := by
  refine ⟨rep_int (n := 10) (by norm_num), ?_, ?_⟩
  · calc (2 : ℚ) ^ (-1022 : ℤ) ≤ 2 ^ (0 : ℤ) := zpow_le_zpow_right₀ (by norm_num) (by norm_num)
      _ ≤ 10 := by norm_num
  · have h1 := Real.log_le_sub_one_of_pos (show (0 : ℝ) < 10 by norm_num)
    have h2 := Real.log_nonneg (show (1 : ℝ) ≤ 10 by norm_num)
    push_cast
    rw [abs_of_nonneg (by positivity)]
    linarith

end Verif
