import Verif.Props.Jit
import Verif.Lemmas.JitAccuracy
import Verif.Lemmas.IeeeBits

/-! C60, C61, C62: accuracy of the inline exponential, logarithm, sine and cosine of compiled
functions, in exact arithmetic with binary64 bit patterns. -/

namespace Verif
open Classical Jit Spec.Jit Spec.Ieee FloatOps XReal Accuracy

theorem Jit.lnRational_fin {m : ℝ} (hm : 0 < m) :
    Spec.Jit.lnRational (fin m) = fin (lnRat m) := by
  simp only [Spec.Jit.lnRational, f_ofRat, f_mul, f_add]
  rw [f_div _ _ (by push_cast; positivity)]
  congr 1
  rw [lnRat]
  push_cast
  congr 1 <;> ring

theorem Jit.expRational_fin {r : ℝ} (h0 : 0 ≤ r) (h1 : r ≤ 1) :
    Spec.Jit.expRational (fin r) = fin (expRat r) := by
  have hd := expRat_den h0 h1
  simp only [Spec.Jit.expRational, f_ofRat, f_mul, f_add]
  rw [f_div _ _ (by push_cast; intro hc; norm_num at hc hd; linarith)]
  congr 1
  rw [expRat]
  push_cast
  congr 1 <;> ring

section
variable [B : FloatBits XReal]

/-! ### C61 -/

/-- The bit manipulation splits every positive normal double into `2^k · m` with `1 ≤ m < 2`. -/
theorem C61_split (hB : Faithful B) {a : ℝ} (hd : IsDouble a) (ha : 2 ^ (-1022 : ℤ) ≤ a) :
    ∃ (k : ℤ) (m : ℝ), exponentOf (fin a) = fin k ∧ mantissaOf (fin a) = fin m ∧
      a = 2 ^ k * m ∧ 1 ≤ m ∧ m < 2 ∧ -1022 ≤ k ∧ k ≤ 1023 := by
  have hb := hB.toBits_double a hd
  obtain ⟨b, hbd⟩ : ∃ b, b = B.toBits (fin a) := ⟨_, rfl⟩
  rw [← hbd] at hb
  obtain ⟨hs, h0, h1, hv⟩ := of_decode_pos hb ha
  have he := exponent_lt b
  have hf : (fractionField b : ℝ) < 2 ^ 52 := by exact_mod_cast fraction_lt b
  have hf0 : (0 : ℝ) ≤ fractionField b := Nat.cast_nonneg _
  refine ⟨(exponentField b : ℤ) - 1023, (2 ^ 52 + fractionField b) * 2 ^ (-52 : ℤ), ?_, ?_, ?_, ?_,
    ?_, by omega, by omega⟩
  · rw [exponentOf, ← hbd, hB.ofInt64 _ (by rw [exponent_bits]; rw [abs_le]; omega), exponent_bits]
  · rw [mantissaOf, ← hbd, hB.ofBits, mantissa_bits]
  · rw [hv]
    have : (exponentField b : ℤ) - 1075 = ((exponentField b : ℤ) - 1023) + (-52) := by ring
    rw [this, zpow_add₀ two_ne_zero]
    ring
  · have : (1 : ℝ) = 2 ^ 52 * 2 ^ (-52 : ℤ) := by norm_num
    calc (1 : ℝ) = 2 ^ 52 * 2 ^ (-52 : ℤ) := this
      _ ≤ _ := by gcongr; linarith
  · have : (2 : ℝ) = 2 ^ 53 * 2 ^ (-52 : ℤ) := by norm_num
    calc _ < (2 ^ 53 : ℝ) * 2 ^ (-52 : ℤ) := by
          gcongr
          have : (2 : ℝ) ^ 53 = 2 * 2 ^ 52 := by norm_num
          linarith
      _ = 2 := this.symm

theorem Jit.jitLn_error (hB : Faithful B) {a : ℝ} (hd : IsDouble a) (ha : 2 ^ (-1022 : ℤ) ≤ a) :
    ∃ v, jitLn (fin a) = fin v ∧ |v - Real.log a| ≤ 3.7e-12 := by
  obtain ⟨k, m, hk, hm, hv, h1, h2, -, -⟩ := C61_split hB hd ha
  by_cases hone : a = 1
  · refine ⟨0, ?_, by simp [hone]; norm_num⟩
    simp [jitLn, hone]
  · refine ⟨k * Real.log 2 + lnRat m, ?_, ?_⟩
    · simp only [jitLn, f_one, f_beq, hone, decide_false, Bool.false_eq_true, if_false, hk, hm,
        Jit.lnRational_fin (lt_of_lt_of_le one_pos h1), f_ln2, f_mul, f_add]
    · rw [hv, Real.log_mul (by positivity) (by positivity), Real.log_zpow]
      have := lnRat_error h1 h2.le
      rwa [add_sub_add_left_eq_sub]

theorem Jit.run_ln {k : ℕ} {f : Compiled XReal}
    (hf : compileExpression (.ln (.var "x")) ["x"] [] FMap.empty k = .ok f) (x : XReal) :
    run f [x] = .value (jitLn x) := by
  rw [C59_computes _ _ _ _ _ hf [x] rfl]
  simp [value, bindings, lookupArgs, Result.ofOption]

/-- The compiled logarithm is within 3.7e-12 of the logarithm at every positive normal double. -/
theorem C61_accuracy (hB : Faithful B) {k : ℕ} {f : Compiled XReal}
    (hf : compileExpression (.ln (.var "x")) ["x"] [] FMap.empty k = .ok f)
    {a : ℝ} (hd : IsDouble a) (ha : 2 ^ (-1022 : ℤ) ≤ a) :
    ∃ v, run f [fin a] = .value (fin v) ∧ |v - Real.log a| ≤ 3.7e-12 := by
  obtain ⟨v, h1, h2⟩ := Jit.jitLn_error hB hd ha
  exact ⟨v, by rw [Jit.run_ln hf, h1], h2⟩

/-- It is exactly 0 at 1. -/
theorem C61_one {k : ℕ} {f : Compiled XReal}
    (hf : compileExpression (.ln (.var "x")) ["x"] [] FMap.empty k = .ok f) :
    run f [fin 1] = .value (fin 0) := by
  rw [Jit.run_ln hf]; simp [jitLn]

/-- The result is a number between -710 and 711 for every argument whatsoever: zero, negative
numbers, infinities and NaN are not reported. -/
theorem C61_domain_violated (hB : Faithful B) {k : ℕ} {f : Compiled XReal}
    (hf : compileExpression (.ln (.var "x")) ["x"] [] FMap.empty k = .ok f) (x : XReal) :
    ∃ v, run f [x] = .value (fin v) ∧ -710 ≤ v ∧ v ≤ 711 := by
  rw [Jit.run_ln hf]
  simp only [jitLn]
  split_ifs
  · exact ⟨0, rfl, by norm_num, by norm_num⟩
  · obtain ⟨b, hb⟩ : ∃ b, b = B.toBits x := ⟨_, rfl⟩
    have he := exponent_lt b
    have hf : (fractionField b : ℝ) < 2 ^ 52 := by exact_mod_cast fraction_lt b
    have hf0 : (0 : ℝ) ≤ fractionField b := Nat.cast_nonneg _
    have h1 : exponentOf x = fin (((exponentField b : ℤ) - 1023 : ℤ) : ℝ) := by
      rw [exponentOf, ← hb, hB.ofInt64 _ (by rw [exponent_bits]; rw [abs_le]; omega), exponent_bits]
    have h2 : mantissaOf x = fin ((2 ^ 52 + fractionField b) * 2 ^ (-52 : ℤ)) := by
      rw [mantissaOf, ← hb, hB.ofBits, mantissa_bits]
    obtain ⟨m, hm⟩ : ∃ m : ℝ, m = (2 ^ 52 + fractionField b) * 2 ^ (-52 : ℤ) := ⟨_, rfl⟩
    have hm1 : 1 ≤ m := by
      rw [hm]
      calc (1 : ℝ) = 2 ^ 52 * 2 ^ (-52 : ℤ) := by norm_num
        _ ≤ _ := by gcongr; linarith
    have hm2 : m ≤ 2 := by
      rw [hm]
      calc _ ≤ (2 ^ 53 : ℝ) * 2 ^ (-52 : ℤ) := by
            gcongr
            have : (2 : ℝ) ^ 53 = 2 * 2 ^ 52 := by norm_num
            linarith
        _ = 2 := by norm_num
    rw [h1, h2, ← hm, Jit.lnRational_fin (by linarith), f_ln2, f_mul, f_add]
    refine ⟨_, rfl, ?_⟩
    have h3 := abs_le.mp (lnRat_error hm1 hm2)
    have h4 : 0 ≤ Real.log m := Real.log_nonneg hm1
    have h5 : Real.log m ≤ Real.log 2 := Real.log_le_log (by linarith) hm2
    have h6 := Real.log_two_gt_d9
    have h7 := Real.log_two_lt_d9
    have h8 : (-1023 : ℝ) ≤ (((exponentField b : ℤ) - 1023 : ℤ) : ℝ) := by
      exact_mod_cast (show (-1023 : ℤ) ≤ (exponentField b : ℤ) - 1023 by omega)
    have h9 : (((exponentField b : ℤ) - 1023 : ℤ) : ℝ) ≤ 1024 := by
      exact_mod_cast (show (exponentField b : ℤ) - 1023 ≤ 1024 by omega)
    have hlo : -1023 * Real.log 2 ≤ (((exponentField b : ℤ) - 1023 : ℤ) : ℝ) * Real.log 2 := by
      gcongr
    have hhi : (((exponentField b : ℤ) - 1023 : ℤ) : ℝ) * Real.log 2 ≤ 1024 * Real.log 2 := by
      gcongr
    norm_num at h3
    constructor <;> linarith

/-- At a negative normal double the result is the logarithm of the absolute value. -/
theorem C61_negative_violated (hB : Faithful B) {k : ℕ} {f : Compiled XReal}
    (hf : compileExpression (.ln (.var "x")) ["x"] [] FMap.empty k = .ok f)
    {a : ℝ} (hd : IsDouble (-a)) (ha : 2 ^ (-1022 : ℤ) ≤ a) :
    ∃ v, run f [fin (-a)] = .value (fin v) ∧ |v - Real.log a| ≤ 3.7e-12 := by
  have hb := hB.toBits_double (-a) hd
  obtain ⟨b, hbd⟩ : ∃ b, b = B.toBits (fin (-a)) := ⟨_, rfl⟩
  rw [← hbd] at hb
  obtain ⟨h0, h1, hv⟩ := of_decode_neg hb ha
  have hpos : (0 : ℝ) < a := lt_of_lt_of_le (by positivity) ha
  have he := exponent_lt b
  have hf' : (fractionField b : ℝ) < 2 ^ 52 := by exact_mod_cast fraction_lt b
  have hf0 : (0 : ℝ) ≤ fractionField b := Nat.cast_nonneg _
  have e1 : exponentOf (fin (-a)) = fin (((exponentField b : ℤ) - 1023 : ℤ) : ℝ) := by
    rw [exponentOf, ← hbd, hB.ofInt64 _ (by rw [exponent_bits]; rw [abs_le]; omega), exponent_bits]
  have e2 : mantissaOf (fin (-a)) = fin ((2 ^ 52 + fractionField b) * 2 ^ (-52 : ℤ)) := by
    rw [mantissaOf, ← hbd, hB.ofBits, mantissa_bits]
  obtain ⟨m, hm⟩ : ∃ m : ℝ, m = (2 ^ 52 + fractionField b) * 2 ^ (-52 : ℤ) := ⟨_, rfl⟩
  have hm1 : 1 ≤ m := by
    rw [hm]
    calc (1 : ℝ) = 2 ^ 52 * 2 ^ (-52 : ℤ) := by norm_num
      _ ≤ _ := by gcongr; linarith
  have hm2 : m ≤ 2 := by
    rw [hm]
    calc _ ≤ (2 ^ 53 : ℝ) * 2 ^ (-52 : ℤ) := by
          gcongr
          have : (2 : ℝ) ^ 53 = 2 * 2 ^ 52 := by norm_num
          linarith
      _ = 2 := by norm_num
  have ham : a = 2 ^ ((exponentField b : ℤ) - 1023) * m := by
    rw [hv, hm]
    have : (exponentField b : ℤ) - 1075 = ((exponentField b : ℤ) - 1023) + (-52) := by ring
    rw [this, zpow_add₀ two_ne_zero]
    ring
  refine ⟨(((exponentField b : ℤ) - 1023 : ℤ) : ℝ) * Real.log 2 + lnRat m, ?_, ?_⟩
  · rw [Jit.run_ln hf]
    have hne : ¬ (-a = 1) := by linarith
    simp only [jitLn, f_one, f_beq, hne, decide_false, Bool.false_eq_true, if_false, e1, e2,
      ← hm, Jit.lnRational_fin (lt_of_lt_of_le one_pos hm1), f_ln2, f_mul, f_add]
  · rw [ham, Real.log_mul (by positivity) (by positivity), Real.log_zpow, add_sub_add_left_eq_sub]
    exact lnRat_error hm1 hm2

/-! ### C60 -/

/-- The exponent the code extracts: `⌊x / ln 2⌋`. -/
noncomputable def Spec.Jit.binaryExponent (x : ℝ) : ℤ := ⌊x / Real.log 2⌋

omit B in
theorem Jit.reduced (x : ℝ) : 0 ≤ x - binaryExponent x * Real.log 2 ∧
    x - binaryExponent x * Real.log 2 ≤ Real.log 2 := by
  have h := Real.log_pos (show (1 : ℝ) < 2 by norm_num)
  have h1 := Int.floor_le (x / Real.log 2)
  have h2 := Int.lt_floor_add_one (x / Real.log 2)
  rw [le_div_iff₀ h] at h1
  rw [div_lt_iff₀ h] at h2
  simp only [binaryExponent]
  constructor <;> linarith

omit B in
theorem Jit.expIndex_fin (x : ℝ) : expIndex (fin x) = fin (binaryExponent x : ℤ) := by
  have h := (Real.log_pos (show (1 : ℝ) < 2 by norm_num)).ne'
  simp only [expIndex, f_one, f_ln2]
  rw [f_div _ _ h, f_mul, f_floor, mul_one_div]
  rfl

omit B in
theorem Jit.toInt_ofInt {n : ℤ} (h : -2 ^ 31 ≤ n ∧ n < 2 ^ 31) : (BitVec.ofInt 32 n).toInt = n := by
  rw [BitVec.toInt_ofInt, Int.bmod_def]
  split_ifs <;> omega

/-- Everything the exponential does when the exponent fits in 32 bits. -/
theorem Jit.jitExp_cases (hB : Faithful B) (x : ℝ) {K : ℤ} (hK : binaryExponent x = K)
    (h : -2 ^ 31 ≤ K ∧ K < 2 ^ 31) :
    ∃ y : ℝ, |y - Real.exp (x - K * Real.log 2)| ≤ 2.8e-12 * Real.exp (x - K * Real.log 2) ∧
      1 - 2.8e-12 ≤ y ∧ y ≤ 2 - 1e-12 ∧
      jitExp (fin x) = some (if K = -1 then fin (y * (1 / 2)) else if K = 1 then fin (y * 2)
        else if K = 0 then fin y else scaleBits (fin y) (BitVec.ofInt 32 K)) := by
  obtain ⟨h0, h1⟩ := Jit.reduced x
  rw [hK] at h0 h1
  obtain ⟨r, hr⟩ : ∃ r, r = x - K * Real.log 2 := ⟨_, rfl⟩
  rw [← hr] at h0 h1 ⊢
  have h2 : r ≤ 1 := h1.trans (by linarith [Real.log_two_lt_d9])
  have herr := expRat_error h0 h1
  refine ⟨expRat r, herr, ?_, expRat_lt_two h0 h1, ?_⟩
  · have h3 := abs_le.mp herr
    have h4 : 1 ≤ Real.exp r := Real.one_le_exp h0
    norm_num at h3 ⊢
    nlinarith [h3.1]
  · have e1 : (fin x -. expIndex (fin x) *. ln2 : XReal) = fin r := by
      rw [Jit.expIndex_fin, f_ln2, f_mul, f_sub, hK, hr]
    simp only [jitExp, e1, Jit.expRational_fin h0 h2]
    rw [Jit.expIndex_fin, hK, hB.toInt32, if_pos h]
    have hi : ∀ n : ℤ, (-2 ^ 31 ≤ n ∧ n < 2 ^ 31) → (BitVec.ofInt 32 K = BitVec.ofInt 32 n ↔ K = n) := by
      intro n hn
      constructor
      · intro he; rw [← Jit.toInt_ofInt h, he, Jit.toInt_ofInt hn]
      · rintro rfl; rfl
    have c1 : (BitVec.ofInt 32 K = -1#32) ↔ K = -1 := by
      rw [show (-1#32) = BitVec.ofInt 32 (-1) by decide]
      exact hi (-1) (by norm_num)
    have c2 : (BitVec.ofInt 32 K = 1#32) ↔ K = 1 := hi 1 (by norm_num)
    have c3 : (BitVec.ofInt 32 K = 0#32) ↔ K = 0 := hi 0 (by norm_num)
    simp only [c1, c2, c3, f_ofRat, f_mul]
    norm_num

omit B in
/-- The pattern of a number in [1/2, 2) has exponent field 1022 or 1023. -/
theorem Jit.exponentField_unit {b : BitVec 64} {a : ℝ} (h : decode b = fin a) (h0 : 1 / 2 ≤ a)
    (h1 : a < 2) : exponentField b = 1022 ∨ exponentField b = 1023 := by
  have hmin : (2 : ℝ) ^ (-1022 : ℤ) ≤ a := by
    refine le_trans ?_ h0
    calc (2 : ℝ) ^ (-1022 : ℤ) ≤ 2 ^ (-1 : ℤ) := zpow_le_zpow_right₀ (by norm_num) (by norm_num)
      _ = 1 / 2 := by norm_num
  obtain ⟨-, e0, e1, hv⟩ := of_decode_pos h hmin
  have hf : (fractionField b : ℝ) < 2 ^ 52 := by exact_mod_cast fraction_lt b
  have hf0 : (0 : ℝ) ≤ fractionField b := Nat.cast_nonneg _
  have l1 : (2 : ℝ) ^ ((exponentField b : ℤ) - 1023) ≤ a := by
    rw [hv]
    calc (2 : ℝ) ^ ((exponentField b : ℤ) - 1023) = 2 ^ 52 * 2 ^ ((exponentField b : ℤ) - 1075) := by
          rw [← zpow_natCast, ← zpow_add₀ two_ne_zero]; congr 1; push_cast; ring
      _ ≤ _ := by gcongr; linarith
  have l2 : a < (2 : ℝ) ^ ((exponentField b : ℤ) - 1022) := by
    rw [hv]
    calc _ < 2 ^ 53 * (2 : ℝ) ^ ((exponentField b : ℤ) - 1075) := by
          gcongr
          have : (2 : ℝ) ^ 53 = 2 * 2 ^ 52 := by norm_num
          linarith
      _ = _ := by rw [← zpow_natCast, ← zpow_add₀ two_ne_zero]; congr 1; push_cast; ring
  have u1 : (2 : ℝ) ^ ((exponentField b : ℤ) - 1023) < 2 ^ (1 : ℤ) := by
    rw [zpow_one]; linarith
  have u2 : (2 : ℝ) ^ (-1 : ℤ) < 2 ^ ((exponentField b : ℤ) - 1022) := by
    calc (2 : ℝ) ^ (-1 : ℤ) = 1 / 2 := by norm_num
      _ ≤ a := h0
      _ < _ := l2
  rw [zpow_lt_zpow_iff_right₀ (by norm_num)] at u1 u2
  omega

theorem Jit.toBits_unit (hB : Faithful B) {y : ℝ} (h0 : 1 - 2.8e-12 ≤ y) (h1 : y ≤ 2 - 1e-12) :
    ∃ a, decode (B.toBits (fin y)) = fin a ∧ |a - y| ≤ 2 ^ (-53 : ℤ) * y ∧ 1 / 2 ≤ a ∧ a < 2 := by
  norm_num at h0 h1
  have hy : 0 < y := by linarith
  have hmin : (2 : ℝ) ^ (-1022 : ℤ) ≤ |y| := by
    rw [abs_of_pos hy]
    calc (2 : ℝ) ^ (-1022 : ℤ) ≤ 2 ^ (-1 : ℤ) := zpow_le_zpow_right₀ (by norm_num) (by norm_num)
      _ ≤ y := by norm_num; linarith
  have hmax : |y| ≤ (2 : ℝ) ^ (1023 : ℤ) := by
    rw [abs_of_pos hy]
    calc y ≤ 2 ^ (1 : ℤ) := by norm_num; linarith
      _ ≤ (2 : ℝ) ^ (1023 : ℤ) := zpow_le_zpow_right₀ (by norm_num) (by norm_num)
  obtain ⟨a, ha, herr⟩ := hB.toBits_near y hmin hmax
  rw [abs_of_pos hy] at herr
  refine ⟨a, ha, herr, ?_⟩
  have h := abs_le.mp herr
  norm_num at h
  constructor <;> linarith [h.1, h.2]

theorem Jit.run_exp {k : ℕ} {f : Compiled XReal}
    (hf : compileExpression (.exp (.var "x")) ["x"] [] FMap.empty k = .ok f) (x : XReal) :
    run f [x] = Result.ofOption (jitExp x) := by
  rw [C59_computes _ _ _ _ _ hf [x] rfl]
  simp [value, bindings, lookupArgs]

omit B in
theorem Jit.exp_split (x : ℝ) (K : ℤ) :
    Real.exp x = Real.exp (x - K * Real.log 2) * 2 ^ K := by
  have : (2 : ℝ) ^ K = Real.exp (K * Real.log 2) := by
    rw [mul_comm, Real.exp_mul, Real.exp_log (by norm_num), Real.rpow_intCast]
  rw [this, ← Real.exp_add]
  congr 1; ring

/-- The compiled exponential has relative error at most 2.9e-12 for every argument whose binary
exponent lies between -1021 and 1023. -/
theorem C60_accuracy (hB : Faithful B) {k : ℕ} {f : Compiled XReal}
    (hf : compileExpression (.exp (.var "x")) ["x"] [] FMap.empty k = .ok f) {x : ℝ}
    (h0 : -1021 ≤ binaryExponent x) (h1 : binaryExponent x ≤ 1023) :
    ∃ v, run f [fin x] = .value (fin v) ∧ |v - Real.exp x| ≤ 2.9e-12 * Real.exp x := by
  obtain ⟨K, hK⟩ : ∃ K, binaryExponent x = K := ⟨_, rfl⟩
  rw [hK] at h0 h1
  have hr : -2 ^ 31 ≤ K ∧ K < 2 ^ 31 := by omega
  obtain ⟨y, he, hy0, hy1, hj⟩ := Jit.jitExp_cases hB x hK hr
  rw [Jit.run_exp hf, hj]
  have hp : (0 : ℝ) < 2 ^ K := by positivity
  have hE := Real.exp_pos (x - K * Real.log 2)
  have hyle : y ≤ (1 + 2.8e-12) * Real.exp (x - K * Real.log 2) := by
    have := (abs_le.mp he).2; linarith
  have done : ∀ a : ℝ, |a - y| ≤ 2 ^ (-53 : ℤ) * y →
      |a * 2 ^ K - Real.exp x| ≤ 2.9e-12 * Real.exp x := by
    intro a ha
    rw [Jit.exp_split x K, ← sub_mul, abs_mul, abs_of_pos hp, ← mul_assoc]
    refine mul_le_mul_of_nonneg_right ?_ hp.le
    have h3 : a - Real.exp (x - K * Real.log 2) = (a - y) + (y - Real.exp (x - K * Real.log 2)) := by
      ring
    rw [h3]
    refine (abs_add_le _ _).trans ?_
    norm_num at ha he hyle ⊢
    linarith
  have hy : 0 < y := by norm_num at hy0; linarith
  have self : |y - y| ≤ 2 ^ (-53 : ℤ) * y := by rw [sub_self, abs_zero]; positivity
  split_ifs with c1 c2 c3
  · subst c1
    refine ⟨_, rfl, ?_⟩
    have := done y self
    rwa [show (2 : ℝ) ^ (-1 : ℤ) = 1 / 2 by norm_num] at this
  · subst c2
    refine ⟨_, rfl, ?_⟩
    have := done y self
    rwa [zpow_one] at this
  · subst c3
    refine ⟨_, rfl, ?_⟩
    have := done y self
    rwa [zpow_zero, mul_one] at this
  · obtain ⟨a, ha, herr, ha0, ha1⟩ := Jit.toBits_unit hB hy0 hy1
    have hf := Jit.exponentField_unit ha ha0 ha1
    have hmin : (2 : ℝ) ^ (-1022 : ℤ) ≤ a := by
      refine le_trans ?_ ha0
      calc (2 : ℝ) ^ (-1022 : ℤ) ≤ 2 ^ (-1 : ℤ) := zpow_le_zpow_right₀ (by norm_num) (by norm_num)
        _ = 1 / 2 := by norm_num
    have hs := decode_scale (k := BitVec.ofInt 32 K) ha hmin
      (by rw [Jit.toInt_ofInt hr]; omega) (by rw [Jit.toInt_ofInt hr]; omega)
    rw [Jit.toInt_ofInt hr] at hs
    refine ⟨a * 2 ^ K, ?_, done a herr⟩
    simp only [scaleBits, hB.ofBits, hs, Result.ofOption]

omit B in
/-- In ordinary terms: from -707 to 709. -/
theorem C60_range (x : ℝ) (h0 : -707 ≤ x) (h1 : x ≤ 709) :
    -1021 ≤ binaryExponent x ∧ binaryExponent x ≤ 1023 := by
  have h := Real.log_pos (show (1 : ℝ) < 2 by norm_num)
  have g := Real.log_two_gt_d9
  constructor
  · rw [binaryExponent, Int.le_floor, le_div_iff₀ h]; push_cast; linarith
  · rw [binaryExponent, ← Int.lt_add_one_iff, Int.floor_lt, div_lt_iff₀ h]; push_cast; linarith

/-- Outside that range the exponent wraps around into the sign: results are negative, where the true
values are close to 0 or overflow. -/
theorem C60_out_of_range_violated (hB : Faithful B) {k : ℕ} {f : Compiled XReal}
    (hf : compileExpression (.exp (.var "x")) ["x"] [] FMap.empty k = .ok f) {x : ℝ}
    (hx : -3069 ≤ binaryExponent x ∧ binaryExponent x ≤ -1025 ∨
      1027 ≤ binaryExponent x ∧ binaryExponent x ≤ 3071) :
    ∃ v, run f [fin x] = .value (fin v) ∧ v < 0 := by
  obtain ⟨K, hK⟩ : ∃ K, binaryExponent x = K := ⟨_, rfl⟩
  rw [hK] at hx
  have hr : -2 ^ 31 ≤ K ∧ K < 2 ^ 31 := by omega
  obtain ⟨y, he, hy0, hy1, hj⟩ := Jit.jitExp_cases hB x hK hr
  rw [Jit.run_exp hf, hj, if_neg (by omega), if_neg (by omega), if_neg (by omega)]
  obtain ⟨a, ha, herr, ha0, ha1⟩ := Jit.toBits_unit hB hy0 hy1
  have hf := Jit.exponentField_unit ha ha0 ha1
  have hmin : (2 : ℝ) ^ (-1022 : ℤ) ≤ a := by
    refine le_trans ?_ ha0
    calc (2 : ℝ) ^ (-1022 : ℤ) ≤ 2 ^ (-1 : ℤ) := zpow_le_zpow_right₀ (by norm_num) (by norm_num)
      _ = 1 / 2 := by norm_num
  obtain ⟨j, hj⟩ : ∃ j : ℤ, (j = 2048 ∨ j = -2048) ∧ 1 ≤ (exponentField (B.toBits (fin y)) : ℤ) + K + j
      ∧ (exponentField (B.toBits (fin y)) : ℤ) + K + j ≤ 2046 := by
    rcases hx with hx | hx
    · exact ⟨2048, .inl rfl, by omega, by omega⟩
    · exact ⟨-2048, .inr rfl, by omega, by omega⟩
  have hs := decode_scale_wrap (k := BitVec.ofInt 32 K) ha hmin j hj.1
    (by rw [Jit.toInt_ofInt hr]; omega) (by rw [Jit.toInt_ofInt hr]; omega)
  rw [Jit.toInt_ofInt hr] at hs
  refine ⟨-(a * 2 ^ (K + j)), by simp only [scaleBits, hB.ofBits, hs, Result.ofOption], ?_⟩
  have : (0 : ℝ) < a * 2 ^ (K + j) := by positivity
  linarith

omit B in
/-- For example at -800 and 800. -/
theorem C60_wrap_examples : -3069 ≤ binaryExponent (-800) ∧ binaryExponent (-800) ≤ -1025 ∧
    1027 ≤ binaryExponent 800 ∧ binaryExponent 800 ≤ 3071 := by
  have h := Real.log_pos (show (1 : ℝ) < 2 by norm_num)
  have g := Real.log_two_gt_d9
  have g' := Real.log_two_lt_d9
  refine ⟨?_, ?_, ?_, ?_⟩
  · rw [binaryExponent, Int.le_floor, le_div_iff₀ h]; push_cast; linarith
  · rw [binaryExponent, ← Int.lt_add_one_iff, Int.floor_lt, div_lt_iff₀ h]; push_cast; linarith
  · rw [binaryExponent, Int.le_floor, le_div_iff₀ h]; push_cast; linarith
  · rw [binaryExponent, ← Int.lt_add_one_iff, Int.floor_lt, div_lt_iff₀ h]; push_cast; linarith

/-- NaN, infinities and numbers whose exponent does not fit in 32 bits stop the process. -/
theorem C60_traps_violated (hB : Faithful B) {k : ℕ} {f : Compiled XReal}
    (hf : compileExpression (.exp (.var "x")) ["x"] [] FMap.empty k = .ok f) (x : XReal) :
    run f [x] = .trap ↔
      ∀ a : ℝ, x = fin a → ¬ (-2 ^ 31 ≤ binaryExponent a ∧ binaryExponent a < 2 ^ 31) := by
  have hl := Real.log_pos (show (1 : ℝ) < 2 by norm_num)
  rw [Jit.run_exp hf]
  cases x with
  | nan =>
    have : expIndex XReal.nan = XReal.nan := by
      simp only [expIndex, nan_mul]; rfl
    simp only [jitExp, this, hB.toInt32_nan, Result.ofOption]
    simp
  | ninf =>
    have : expIndex XReal.ninf = XReal.ninf := by
      simp only [expIndex, f_one, f_ln2]
      rw [f_div _ _ hl.ne']
      show XReal.floor (infOf _) = _
      simp only [infOf, if_neg (not_lt.mpr (neg_nonpos.mpr (one_div_pos.mpr hl).le)),
        if_pos (neg_neg_of_pos (one_div_pos.mpr hl))]
      rfl
    simp only [jitExp, this, hB.toInt32_ninf, Result.ofOption]
    simp
  | pinf =>
    have : expIndex XReal.pinf = XReal.pinf := by
      simp only [expIndex, f_one, f_ln2]
      rw [f_div _ _ hl.ne']
      show XReal.floor (infOf _) = _
      simp only [infOf, if_pos (one_div_pos.mpr hl)]
      rfl
    simp only [jitExp, this, hB.toInt32_pinf, Result.ofOption]
    simp
  | fin a =>
    by_cases h : -2 ^ 31 ≤ binaryExponent a ∧ binaryExponent a < 2 ^ 31
    · obtain ⟨y, -, -, -, hj⟩ := Jit.jitExp_cases hB a rfl h
      rw [hj]
      simp only [Result.ofOption]
      constructor
      · intro hc; cases hc
      · intro hc; exact absurd h (hc a rfl)
    · have : jitExp (fin a) = none := by
        simp only [jitExp]
        rw [Jit.expIndex_fin, hB.toInt32, if_neg h]
      rw [this]
      simp only [Result.ofOption, true_iff]
      rintro b ⟨⟩
      exact h

/-! ### C62 -/

/-- The compiled sine: truncation error of the degree-5 series plus the error of the two decimal
coefficients. -/
theorem C62_sin {k : ℕ} {f : Compiled XReal}
    (hf : compileExpression (.sin (.var "x")) ["x"] [] FMap.empty k = .ok f) (x : ℝ) :
    ∃ v, run f [fin x] = .value (fin v) ∧
      |v - Real.sin x| ≤ |x| ^ 7 / 5040 + 3.4e-12 * (|x| ^ 3 + |x| ^ 5) ∧ (10 ≤ x → x ≤ v) := by
  rw [C59_computes _ _ _ _ _ hf [fin x] rfl]
  refine ⟨x + x ^ 3 * -0.16666666667 + x ^ 5 * 0.00833333333, ?_, ?_, ?_⟩
  · simp [value, bindings, lookupArgs, Result.ofOption, jitSin]
    push_cast
    ring
  · have h := sin_taylor x
    have e : x + x ^ 3 * -0.16666666667 + x ^ 5 * 0.00833333333 - Real.sin x =
        (x - x ^ 3 / 6 + x ^ 5 / 120 - Real.sin x) +
          (x ^ 3 * (1/6 - 0.16666666667) + x ^ 5 * (0.00833333333 - 1/120)) := by ring
    rw [e]
    refine (abs_add_le _ _).trans (add_le_add h ((abs_add_le _ _).trans ?_))
    rw [abs_mul, abs_mul, abs_pow, abs_pow, mul_add, mul_comm, mul_comm (|x| ^ 5)]
    gcongr
    · norm_num [abs_le]
    · norm_num [abs_le]
  · intro hx
    have h1 : 0 ≤ x ^ 3 * (x ^ 2 - 100) := by
      have : 0 ≤ x ^ 2 - 100 := by nlinarith
      positivity
    have h2 : 0 ≤ x ^ 3 := by positivity
    norm_num
    nlinarith

/-- The compiled cosine. -/
theorem C62_cos {k : ℕ} {f : Compiled XReal}
    (hf : compileExpression (.cos (.var "x")) ["x"] [] FMap.empty k = .ok f) (x : ℝ) :
    ∃ v, run f [fin x] = .value (fin v) ∧
      |v - Real.cos x| ≤ |x| ^ 6 / 720 + 3.4e-12 * |x| ^ 4 ∧ (10 ≤ x → x ≤ v) := by
  rw [C59_computes _ _ _ _ _ hf [fin x] rfl]
  refine ⟨1 + x ^ 2 * -0.5 + x ^ 4 * 0.04166666667, ?_, ?_, ?_⟩
  · simp [value, bindings, lookupArgs, Result.ofOption, jitCos]
    push_cast
    ring
  · have h := cos_taylor x
    have e : 1 + x ^ 2 * -0.5 + x ^ 4 * 0.04166666667 - Real.cos x =
        (1 - x ^ 2 / 2 + x ^ 4 / 24 - Real.cos x) + x ^ 4 * (0.04166666667 - 1/24) := by ring
    rw [e]
    refine (abs_add_le _ _).trans (add_le_add h ?_)
    rw [abs_mul, abs_pow, mul_comm]
    gcongr
    norm_num [abs_le]
  · intro hx
    have h1 : 0 ≤ x ^ 2 * (x ^ 2 - 100) := by
      have : 0 ≤ x ^ 2 - 100 := by nlinarith
      positivity
    norm_num
    nlinarith

end

/-- The hypotheses are satisfiable: faithful conversions exist, the functions compile, and 10 is a
normal double. -/
example : ∃ B : FloatBits XReal, Faithful B := exists_faithful

example (k : ℕ) : ∃ f : Compiled XReal,
    compileExpression (.exp (.var "x")) ["x"] [] FMap.empty k = .ok f := ⟨_, rfl⟩

example : IsDouble 10 ∧ (2 : ℝ) ^ (-1022 : ℤ) ≤ 10 := by
  refine ⟨⟨ofFields false 1026 (2 ^ 50), ?_⟩, ?_⟩
  · obtain ⟨h1, h2, h3⟩ := ofFields_fields (s := false) (e := 1026) (f := 2 ^ 50) (by norm_num)
      (by norm_num)
    rw [decode_normal (by rw [h2]; norm_num) (by rw [h2]; norm_num), h1, h2, h3]
    norm_num
  · calc (2 : ℝ) ^ (-1022 : ℤ) ≤ 2 ^ (0 : ℤ) := zpow_le_zpow_right₀ (by norm_num) (by norm_num)
      _ ≤ 10 := by norm_num

end Verif
