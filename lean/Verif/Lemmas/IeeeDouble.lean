import Verif.Spec.IeeeDouble
import Verif.Lemmas.IeeeBits
import Verif.Props.Double

/-! Facts about `pattern`, carried over from `decode`. -/

namespace Verif.Spec.Ieee
open Format

/-- The two readings of a bit pattern agree. -/
theorem decode_of_pattern {b : BitVec 64} {q : ℚ} (h : pattern b = .fin q) :
    decode b = XReal.fin (q : ℝ) := by
  simp only [pattern, decode] at h ⊢
  split_ifs at h ⊢ <;> first | (cases h; done) | (cases h; push_cast; simp)

theorem pattern_of_decode {b : BitVec 64} {a : ℝ} (h : decode b = XReal.fin a) :
    ∃ q : ℚ, pattern b = .fin q ∧ (q : ℝ) = a := by
  rcases hp : pattern b with _ | s | q
  · simp only [pattern, decode] at h hp
    split_ifs at h hp
  · simp only [pattern, decode] at h hp
    split_ifs at h hp
  · refine ⟨q, rfl, ?_⟩
    rw [decode_of_pattern hp] at h
    exact XReal.fin.inj h

/-- Every finite bit pattern is a double. -/
theorem pattern_rep {b : BitVec 64} {q : ℚ} (h : pattern b = .fin q) : f64.Representable q := by
  have he := exponent_lt b
  have hf := fraction_lt b
  obtain ⟨s, hs⟩ : ∃ s : ℚ, s = if signBit b then -1 else 1 := ⟨_, rfl⟩
  have key : ∀ q : ℚ, f64.Representable q → f64.Representable (s * q) := by
    intro q hq
    rw [hs]
    split_ifs
    · simpa using rep_neg hq
    · simpa using hq
  simp only [pattern, ← hs] at h
  by_cases h1 : exponentField b = 2047
  · rw [if_pos h1] at h
    split_ifs at h
  rw [if_neg h1] at h
  by_cases h2 : exponentField b = 0
  · rw [if_pos h2] at h
    cases h
    refine key _ ⟨⟨fractionField b, -1074, ?_, le_rfl, by push_cast; ring⟩, ?_⟩
    · rw [abs_of_nonneg (by positivity)]; norm_num [f64]; omega
    · rw [abs_of_nonneg (by positivity)]
      calc (fractionField b : ℚ) * 2 ^ (-1074 : ℤ) ≤ 2 ^ (52 : ℤ) * 2 ^ (-1074 : ℤ) := by
            gcongr; exact_mod_cast hf.le
        _ = 2 ^ (-1022 : ℤ) := by rw [← zpow_add₀ two_ne_zero]; norm_num
        _ < 2 ^ f64.emax := zpow_lt_zpow_right₀ (by norm_num) (by norm_num [f64])
  · rw [if_neg h2] at h
    cases h
    refine key _ ⟨⟨2 ^ 52 + fractionField b, (exponentField b : ℤ) - 1075, ?_, ?_,
      by push_cast; ring⟩, ?_⟩
    · rw [abs_of_nonneg (by positivity)]
      simp only [f64]
      omega
    · simp only [f64]; omega
    · rw [abs_of_nonneg (by positivity)]
      have hf' : (fractionField b : ℚ) < 4503599627370496 := by exact_mod_cast hf
      calc (2 ^ 52 + fractionField b : ℚ) * 2 ^ ((exponentField b : ℤ) - 1075)
          < 2 ^ (53 : ℤ) * 2 ^ ((exponentField b : ℤ) - 1075) := by
            gcongr
            norm_num
            linarith
        _ = 2 ^ ((exponentField b : ℤ) - 1022) := by
            rw [← zpow_add₀ two_ne_zero]; congr 1; ring
        _ ≤ 2 ^ f64.emax := zpow_le_zpow_right₀ (by norm_num) (by simp only [f64]; omega)

theorem pattern_normal (s : Bool) {e f : ℕ} (h0 : e ≠ 0) (h1 : e < 2047) (hf : f < 2 ^ 52) :
    pattern (ofFields s e f) =
      .fin ((if s then -1 else 1) * ((2 ^ 52 + f) * 2 ^ ((e : ℤ) - 1075))) := by
  obtain ⟨a, b, c⟩ := ofFields_fields (s := s) (by omega : e < 2048) hf
  simp only [pattern, a, b, c]
  rw [if_neg h1.ne, if_neg h0]

theorem pattern_subnormal (s : Bool) {f : ℕ} (hf : f < 2 ^ 52) :
    pattern (ofFields s 0 f) = .fin ((if s then -1 else 1) * (f * 2 ^ (-1074 : ℤ))) := by
  obtain ⟨a, b, c⟩ := ofFields_fields (s := s) (by norm_num : 0 < 2048) hf
  simp only [pattern, a, b, c]
  norm_num

/-- Every double has a bit pattern. -/
theorem exists_pattern {q : ℚ} (h : f64.Representable q) : ∃ b, pattern b = .fin q := by
  obtain ⟨s, hs⟩ : ∃ s : Bool, s = decide (q < 0) := ⟨_, rfl⟩
  have hsq : q = (if s then -1 else 1) * |q| := by
    by_cases hq : q < 0
    · simp [hs, hq, abs_of_neg hq]
    · simp [hs, hq, abs_of_nonneg (not_lt.mp hq)]
  obtain ⟨⟨m, e, hm, he, hv⟩, hlt⟩ := rep_abs h
  rw [abs_abs] at hlt
  simp only [f64] at hm he hlt
  have h2e : (0 : ℚ) < 2 ^ e := by positivity
  have hm0 : 0 ≤ m := by
    by_contra hc
    have : (m : ℚ) < 0 := by exact_mod_cast not_le.mp hc
    have := mul_neg_of_neg_of_pos this h2e
    linarith [abs_nonneg q]
  rw [abs_of_nonneg hm0] at hm
  obtain ⟨n, rfl⟩ := Int.eq_ofNat_of_zero_le hm0
  have hn : n < 2 ^ 53 := by exact_mod_cast hm
  by_cases hsub : |q| < 2 ^ (-1022 : ℤ)
  · obtain ⟨d, hd⟩ := Int.eq_ofNat_of_zero_le (show 0 ≤ e + 1074 by omega)
    have hq : |q| = (n * 2 ^ d : ℕ) * 2 ^ (-1074 : ℤ) := by
      rw [hv]
      push_cast
      rw [mul_assoc, ← zpow_natCast (2 : ℚ) d, ← zpow_add₀ two_ne_zero]
      congr 2
      omega
    have hb : n * 2 ^ d < 2 ^ 52 := by
      have h3 : ((n * 2 ^ d : ℕ) : ℚ) * 2 ^ (-1074 : ℤ) < 2 ^ (52 : ℤ) * 2 ^ (-1074 : ℤ) := by
        rw [← hq]
        refine hsub.trans_le (le_of_eq ?_)
        rw [← zpow_add₀ two_ne_zero]; norm_num
      have h4 := lt_of_mul_lt_mul_right h3 (by positivity)
      exact_mod_cast h4
    exact ⟨ofFields s 0 (n * 2 ^ d), by rw [pattern_subnormal s hb, ← hq, ← hsq]⟩
  · have hpos : 0 < |q| := lt_of_lt_of_le (by positivity) (not_lt.mp hsub)
    obtain ⟨k, hk1, hk2⟩ : ∃ k : ℤ, (2 : ℚ) ^ k ≤ |q| ∧ |q| < 2 ^ (k + 1) :=
      ⟨Int.log 2 |q|, by exact_mod_cast Int.zpow_log_le_self (by norm_num) hpos,
        by exact_mod_cast Int.lt_zpow_succ_log_self (b := 2) (by norm_num) |q|⟩
    have l1 : -1022 ≤ k := by
      have := lt_of_le_of_lt (not_lt.mp hsub) hk2
      rw [zpow_lt_zpow_iff_right₀ (by norm_num)] at this
      omega
    have l2 : k < 1024 := by
      have := lt_of_le_of_lt hk1 hlt
      rwa [zpow_lt_zpow_iff_right₀ (by norm_num)] at this
    have l3 : k < 53 + e := by
      have : (2 : ℚ) ^ k < 2 ^ (53 + e) := by
        refine lt_of_le_of_lt hk1 ?_
        rw [hv, zpow_add₀ two_ne_zero]
        gcongr
        exact_mod_cast hn
      rwa [zpow_lt_zpow_iff_right₀ (by norm_num)] at this
    obtain ⟨d, hd⟩ := Int.eq_ofNat_of_zero_le (show 0 ≤ e + 52 - k by omega)
    have hq : |q| = (n * 2 ^ d : ℕ) * 2 ^ (k - 52) := by
      rw [hv]
      push_cast
      rw [mul_assoc, ← zpow_natCast (2 : ℚ) d, ← zpow_add₀ two_ne_zero]
      congr 2
      omega
    have hb : n * 2 ^ d < 2 ^ 53 := by
      have h3 : ((n * 2 ^ d : ℕ) : ℚ) * 2 ^ (k - 52) < 2 ^ (53 : ℤ) * 2 ^ (k - 52) := by
        rw [← hq]
        refine hk2.trans_le (le_of_eq ?_)
        rw [← zpow_add₀ two_ne_zero]; congr 1; ring
      have h4 := lt_of_mul_lt_mul_right h3 (by positivity)
      exact_mod_cast h4
    have hb' : 2 ^ 52 ≤ n * 2 ^ d := by
      have h3 : (2 : ℚ) ^ (52 : ℤ) * 2 ^ (k - 52) ≤ ((n * 2 ^ d : ℕ) : ℚ) * 2 ^ (k - 52) := by
        rw [← hq]
        refine le_trans (le_of_eq ?_) hk1
        rw [← zpow_add₀ two_ne_zero]; congr 1; ring
      have h4 := le_of_mul_le_mul_right h3 (by positivity)
      exact_mod_cast h4
    obtain ⟨t, ht⟩ : ∃ t, t = n * 2 ^ d := ⟨_, rfl⟩
    rw [← ht] at hb hb' hq
    obtain ⟨j, hj⟩ := Int.eq_ofNat_of_zero_le (show 0 ≤ k + 1023 by omega)
    refine ⟨ofFields s j (t - 2 ^ 52), ?_⟩
    rw [pattern_normal s (by omega) (by omega) (by omega)]
    congr 1
    rw [hsq]
    congr 1
    rw [hq, Nat.cast_sub hb', show (j : ℤ) - 1075 = k - 52 by omega]
    push_cast
    congr 1
    ring

/-- Conversions as assumed exist. -/
theorem exists_faithful_double (L : Libm) : ∃ B : FloatBits (Flt f64 L), FaithfulDouble B := by
  classical
  refine ⟨{
    toBits := fun x => match (x : FVal) with
      | .fin q => if h : ∃ b, pattern b = .fin q then h.choose else 0
      | _ => 0
    ofBits := fun b => pattern b
    ofInt64 := fun b => FVal.fin b.toInt
    toInt32 := fun x => match (x : FVal) with
      | .fin q => if -2 ^ 31 ≤ ⌊q⌋ ∧ ⌊q⌋ < 2 ^ 31 then some (BitVec.ofInt 32 ⌊q⌋) else none
      | _ => none }, ?_, ?_, ?_, ?_, rfl, fun _ => rfl⟩
  · intro b; rfl
  · intro q hq
    have h := exists_pattern hq
    simp only [dif_pos h]
    exact h.choose_spec
  · intro b _; rfl
  · intro n
    simp only [Int.floor_intCast]

end Verif.Spec.Ieee
