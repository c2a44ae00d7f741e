import Verif.Spec.IeeeBits
import Mathlib.Data.Int.Log
import Mathlib.Algebra.Order.Archimedean.Real.Basic
import Mathlib.Algebra.Order.Round
import Mathlib.Algebra.Order.Field.Power
import Mathlib.Tactic.Positivity
import Mathlib.Tactic.FieldSimp

/-! Facts about binary64 bit patterns. -/

namespace Verif.Spec.Ieee
open XReal Classical

theorem fraction_lt (b : BitVec 64) : fractionField b < 2 ^ 52 := Nat.mod_lt _ (by norm_num)
theorem exponent_lt (b : BitVec 64) : exponentField b < 2048 := Nat.mod_lt _ (by norm_num)

/-- A pattern is its three fields. -/
theorem toNat_fields (b : BitVec 64) :
    b.toNat = (if signBit b then 2 ^ 63 else 0) + exponentField b * 2 ^ 52 + fractionField b := by
  have h := b.isLt
  simp only [signBit, exponentField, fractionField, decide_eq_true_eq]
  split_ifs <;> omega

theorem fields_of_toNat {b : BitVec 64} {s : Bool} {e f : ℕ} (he : e < 2048) (hf : f < 2 ^ 52)
    (h : b.toNat = (if s then 2 ^ 63 else 0) + e * 2 ^ 52 + f) :
    signBit b = s ∧ exponentField b = e ∧ fractionField b = f := by
  simp only [signBit, exponentField, fractionField, h]
  cases s
  · simp; refine ⟨?_, ?_, ?_⟩ <;> omega
  · simp; refine ⟨?_, ?_, ?_⟩ <;> omega

/-- The pattern with given fields. -/
def ofFields (s : Bool) (e f : ℕ) : BitVec 64 :=
  BitVec.ofNat 64 ((if s then 2 ^ 63 else 0) + e * 2 ^ 52 + f)

theorem ofFields_fields {s : Bool} {e f : ℕ} (he : e < 2048) (hf : f < 2 ^ 52) :
    signBit (ofFields s e f) = s ∧ exponentField (ofFields s e f) = e ∧
      fractionField (ofFields s e f) = f := by
  apply fields_of_toNat he hf
  rw [ofFields, BitVec.toNat_ofNat, Nat.mod_eq_of_lt]
  split_ifs <;> omega

theorem decode_normal {b : BitVec 64} (h0 : exponentField b ≠ 0) (h1 : exponentField b ≠ 2047) :
    decode b = fin ((if signBit b then -1 else 1) *
      ((2 ^ 52 + fractionField b) * 2 ^ ((exponentField b : ℤ) - 1075))) := by
  simp [decode, h0, h1]

/-- A positive number of at least the smallest normal size has a positive sign and a normal
exponent. -/
theorem of_decode_pos {b : BitVec 64} {a : ℝ} (h : decode b = fin a) (ha : 2 ^ (-1022 : ℤ) ≤ a) :
    signBit b = false ∧ exponentField b ≠ 0 ∧ exponentField b ≠ 2047 ∧
      a = (2 ^ 52 + fractionField b) * 2 ^ ((exponentField b : ℤ) - 1075) := by
  have hpos : (0 : ℝ) < 2 ^ (-1022 : ℤ) := by positivity
  by_cases h1 : exponentField b = 2047
  · simp only [decode, h1, if_true] at h
    split_ifs at h
  · by_cases h0 : exponentField b = 0
    · exfalso
      simp only [decode, h0] at h
      rw [if_neg (by norm_num), if_pos trivial] at h
      simp only [fin.injEq] at h
      have hf : (fractionField b : ℝ) < 2 ^ 52 := by exact_mod_cast fraction_lt b
      have hf0 : (0 : ℝ) ≤ fractionField b := Nat.cast_nonneg _
      have h2 : (fractionField b : ℝ) * 2 ^ (-1074 : ℤ) < 2 ^ (-1022 : ℤ) := by
        calc (fractionField b : ℝ) * 2 ^ (-1074 : ℤ) < 2 ^ 52 * 2 ^ (-1074 : ℤ) := by gcongr
          _ = 2 ^ (-1022 : ℤ) := by
            rw [← zpow_natCast, ← zpow_add₀ (by norm_num)]; norm_num
      have h3 : (0 : ℝ) ≤ fractionField b * 2 ^ (-1074 : ℤ) := by positivity
      split_ifs at h <;> linarith
    · rw [decode_normal h0 h1] at h
      simp only [fin.injEq] at h
      have h3 : (0 : ℝ) < (2 ^ 52 + fractionField b) * 2 ^ ((exponentField b : ℤ) - 1075) := by
        positivity
      cases hs : signBit b
      · rw [hs] at h; refine ⟨rfl, h0, h1, ?_⟩; simpa using h.symm
      · rw [hs] at h; simp only [if_true] at h; exfalso; linarith

/-- The same for negative numbers. -/
theorem of_decode_neg {b : BitVec 64} {a : ℝ} (h : decode b = fin (-a)) (ha : 2 ^ (-1022 : ℤ) ≤ a) :
    exponentField b ≠ 0 ∧ exponentField b ≠ 2047 ∧
      a = (2 ^ 52 + fractionField b) * 2 ^ ((exponentField b : ℤ) - 1075) := by
  have hpos : (0 : ℝ) < 2 ^ (-1022 : ℤ) := by positivity
  by_cases h1 : exponentField b = 2047
  · simp only [decode, h1, if_true] at h
    split_ifs at h
  · by_cases h0 : exponentField b = 0
    · exfalso
      simp only [decode, h0] at h
      rw [if_neg (by norm_num), if_pos trivial] at h
      simp only [fin.injEq] at h
      have hf : (fractionField b : ℝ) < 2 ^ 52 := by exact_mod_cast fraction_lt b
      have hf0 : (0 : ℝ) ≤ fractionField b := Nat.cast_nonneg _
      have h2 : (fractionField b : ℝ) * 2 ^ (-1074 : ℤ) < 2 ^ (-1022 : ℤ) := by
        calc (fractionField b : ℝ) * 2 ^ (-1074 : ℤ) < 2 ^ 52 * 2 ^ (-1074 : ℤ) := by gcongr
          _ = 2 ^ (-1022 : ℤ) := by
            rw [← zpow_natCast, ← zpow_add₀ (by norm_num)]; norm_num
      have h3 : (0 : ℝ) ≤ fractionField b * 2 ^ (-1074 : ℤ) := by positivity
      split_ifs at h <;> linarith
    · rw [decode_normal h0 h1] at h
      simp only [fin.injEq] at h
      have h3 : (0 : ℝ) < (2 ^ 52 + fractionField b) * 2 ^ ((exponentField b : ℤ) - 1075) := by
        positivity
      refine ⟨h0, h1, ?_⟩
      cases hs : signBit b
      · rw [hs] at h; simp only [Bool.false_eq_true, if_false] at h; exfalso; linarith
      · rw [hs] at h; simp only [if_true] at h; linarith

/-- Exponent mask, shift and bias. -/
theorem exponent_bits (b : BitVec 64) :
    (((b &&& 0x7FF0000000000000#64) >>> 52) - 1023#64).toInt = (exponentField b : ℤ) - 1023 := by
  have h1 : ((b &&& 0x7FF0000000000000#64) >>> 52).toNat = exponentField b := by
    rw [BitVec.toNat_ushiftRight, BitVec.toNat_and, Nat.shiftRight_and_distrib]
    rw [show (0x7FF0000000000000#64).toNat >>> 52 = 2 ^ 11 - 1 from rfl,
      Nat.and_two_pow_sub_one_eq_mod, Nat.shiftRight_eq_div_pow]
    rfl
  have h2 := exponent_lt b
  rw [BitVec.toInt_sub, BitVec.toInt_eq_toNat_of_lt (by rw [h1]; omega), h1]
  rw [show (1023#64).toInt = 1023 from rfl]
  rw [Int.bmod_def]
  split_ifs <;> omega

/-- Mantissa mask with the exponent of 1. -/
theorem mantissa_bits (b : BitVec 64) :
    decode ((b &&& 0x000FFFFFFFFFFFFF#64) ||| 0x3FF0000000000000#64) =
      fin ((2 ^ 52 + fractionField b) * 2 ^ (-52 : ℤ)) := by
  have h1 : ((b &&& 0x000FFFFFFFFFFFFF#64) ||| 0x3FF0000000000000#64).toNat =
      (if false then 2 ^ 63 else 0) + 1023 * 2 ^ 52 + fractionField b := by
    rw [BitVec.toNat_or, BitVec.toNat_and,
      show (0x000FFFFFFFFFFFFF#64).toNat = 2 ^ 52 - 1 from rfl, Nat.and_two_pow_sub_one_eq_mod,
      show (0x3FF0000000000000#64).toNat = 1023 <<< 52 from rfl, Nat.or_comm,
      ← Nat.shiftLeft_add_eq_or_of_lt (Nat.mod_lt _ (by norm_num)), Nat.shiftLeft_eq]
    simp [fractionField]
  obtain ⟨hs, he, hf⟩ := fields_of_toNat (by norm_num) (fraction_lt b) h1
  rw [decode_normal (by rw [he]; norm_num) (by rw [he]; norm_num), hs, he, hf]
  norm_num

/-- The pattern after adding `k` to the exponent field, as an integer. -/
theorem scale_toNat (b : BitVec 64) (k : BitVec 32) :
    ((b + (k.signExtend 64 <<< 52)).toNat : ℤ) = (b.toNat + k.toInt * 2 ^ 52) % 2 ^ 64 := by
  have h1 : (((k.signExtend 64) <<< 52).toNat : ℤ) = (k.toInt * 2 ^ 52) % 2 ^ 64 := by
    rw [BitVec.toNat_shiftLeft, Nat.shiftLeft_eq]
    have h3 : (k.signExtend 64).toInt = k.toInt := BitVec.toInt_signExtend_of_le (by norm_num)
    rw [BitVec.toInt_eq_toNat_cond] at h3
    have h4 := (k.signExtend 64).isLt
    push_cast
    split_ifs at h3 <;> omega
  rw [BitVec.toNat_add]
  push_cast
  rw [h1]
  omega

/-- Adding `k` to the exponent field multiplies by `2^k`, as long as the field stays in range. -/
theorem decode_scale {b : BitVec 64} {k : BitVec 32} {a : ℝ} (h : decode b = fin a)
    (ha : 2 ^ (-1022 : ℤ) ≤ a) (h0 : 1 ≤ (exponentField b : ℤ) + k.toInt)
    (h1 : (exponentField b : ℤ) + k.toInt ≤ 2046) :
    decode (b + (k.signExtend 64 <<< 52)) = fin (a * 2 ^ k.toInt) := by
  obtain ⟨hs, he0, he1, rfl⟩ := of_decode_pos h ha
  obtain ⟨e, he⟩ := Int.eq_ofNat_of_zero_le (show 0 ≤ (exponentField b : ℤ) + k.toInt by omega)
  have hn := toNat_fields b
  rw [hs] at hn
  have hf := fraction_lt b
  have hc := scale_toNat b k
  have h2 : (b + (k.signExtend 64 <<< 52)).toNat =
      (if false then 2 ^ 63 else 0) + e * 2 ^ 52 + fractionField b := by
    simp only [Bool.false_eq_true, if_false] at hn ⊢
    omega
  obtain ⟨hs', he', hf'⟩ := fields_of_toNat (by omega) hf h2
  rw [decode_normal (by omega) (by omega), hs', he', hf']
  simp only [Bool.false_eq_true, if_false, one_mul, fin.injEq]
  have h3 : (e : ℤ) - 1075 = ((exponentField b : ℤ) - 1075) + k.toInt := by omega
  rw [h3, zpow_add₀ two_ne_zero]
  ring

/-- When the field leaves its range by one wrap, the sign bit flips. -/
theorem decode_scale_wrap {b : BitVec 64} {k : BitVec 32} {a : ℝ} (h : decode b = fin a)
    (ha : 2 ^ (-1022 : ℤ) ≤ a) (j : ℤ) (hj : j = 2048 ∨ j = -2048)
    (h0 : 1 ≤ (exponentField b : ℤ) + k.toInt + j)
    (h1 : (exponentField b : ℤ) + k.toInt + j ≤ 2046) :
    decode (b + (k.signExtend 64 <<< 52)) = fin (-(a * 2 ^ (k.toInt + j))) := by
  obtain ⟨hs, he0, he1, rfl⟩ := of_decode_pos h ha
  obtain ⟨e, he⟩ := Int.eq_ofNat_of_zero_le (show 0 ≤ (exponentField b : ℤ) + k.toInt + j by omega)
  have hn := toNat_fields b
  rw [hs] at hn
  have hf := fraction_lt b
  have hc := scale_toNat b k
  have h2 : (b + (k.signExtend 64 <<< 52)).toNat =
      (if true then 2 ^ 63 else 0) + e * 2 ^ 52 + fractionField b := by
    simp only [Bool.false_eq_true, if_false, if_true] at hn ⊢
    rcases hj with rfl | rfl <;> omega
  obtain ⟨hs', he', hf'⟩ := fields_of_toNat (by omega) hf h2
  rw [decode_normal (by omega) (by omega), hs', he', hf']
  simp only [if_true, fin.injEq]
  have h3 : (e : ℤ) - 1075 = ((exponentField b : ℤ) - 1075) + (k.toInt + j) := by omega
  rw [h3, zpow_add₀ two_ne_zero]
  ring

/-- Doubles near every real of normal size. -/
theorem exists_near (a : ℝ) (h0 : 2 ^ (-1022 : ℤ) ≤ |a|) (h1 : |a| ≤ 2 ^ (1023 : ℤ)) :
    ∃ b a', decode b = fin a' ∧ |a' - a| ≤ 2 ^ (-53 : ℤ) * |a| := by
  have hpos : 0 < |a| := lt_of_lt_of_le (by positivity) h0
  obtain ⟨k, hk1, hk2⟩ : ∃ k : ℤ, (2 : ℝ) ^ k ≤ |a| ∧ |a| < 2 ^ (k + 1) :=
    ⟨Int.log 2 |a|, by exact_mod_cast Int.zpow_log_le_self (by norm_num) hpos,
      by exact_mod_cast Int.lt_zpow_succ_log_self (b := 2) (by norm_num) |a|⟩
  have hkl : -1022 ≤ k := by
    have : (2 : ℝ) ^ (-1022 : ℤ) < 2 ^ (k + 1) := lt_of_le_of_lt h0 hk2
    rw [zpow_lt_zpow_iff_right₀ (by norm_num)] at this
    omega
  have hku : k ≤ 1023 := by
    have := hk1.trans h1
    rwa [zpow_le_zpow_iff_right₀ (by norm_num)] at this
  obtain ⟨t, ht⟩ : ∃ t : ℝ, t = |a| / 2 ^ (k - 52) := ⟨_, rfl⟩
  have hu : (0 : ℝ) < 2 ^ (k - 52) := by positivity
  have hat : |a| = t * 2 ^ (k - 52) := by rw [ht]; field_simp
  have e1 : (2 : ℝ) ^ k = 2 ^ 52 * 2 ^ (k - 52) := by
    rw [← zpow_natCast, ← zpow_add₀ (by norm_num)]; congr 1; push_cast; ring
  have e2 : (2 : ℝ) ^ (k + 1) = 2 ^ 53 * 2 ^ (k - 52) := by
    rw [← zpow_natCast, ← zpow_add₀ (by norm_num)]; congr 1; push_cast; ring
  have ht1 : 2 ^ 52 ≤ t := by
    rw [hat, e1] at hk1; exact le_of_mul_le_mul_right hk1 hu
  have ht2 : t < 2 ^ 53 := by
    rw [hat, e2] at hk2; exact lt_of_mul_lt_mul_right hk2 hu.le
  obtain ⟨m, hm⟩ : ∃ m : ℤ, m = round t := ⟨_, rfl⟩
  have hmt : |t - m| ≤ 1 / 2 := by rw [hm]; exact abs_sub_round t
  have hm1 : 2 ^ 52 ≤ m := by
    rw [abs_le] at hmt
    have : (2 ^ 52 : ℝ) - 1 < m := by linarith
    have : (2 ^ 52 : ℤ) - 1 < m := by exact_mod_cast this
    omega
  have hm2 : m ≤ 2 ^ 53 := by
    rw [abs_le] at hmt
    have : (m : ℝ) < 2 ^ 53 + 1 := by linarith
    have : m < 2 ^ 53 + 1 := by exact_mod_cast this
    omega
  have herr : |(m : ℝ) * 2 ^ (k - 52) - (|a|)| ≤ 2 ^ (-53 : ℤ) * |a| := by
    rw [hat, ← sub_mul, abs_mul, abs_of_pos hu, abs_sub_comm, ← mul_assoc]
    gcongr
    refine hmt.trans ?_
    have : (2 : ℝ) ^ (-53 : ℤ) * 2 ^ 52 = 1 / 2 := by norm_num
    calc (1 / 2 : ℝ) = 2 ^ (-53 : ℤ) * 2 ^ 52 := this.symm
      _ ≤ 2 ^ (-53 : ℤ) * t := by gcongr
  have hk' : k = 1023 → |a| = 2 ^ (1023 : ℤ) := by
    rintro rfl; exact le_antisymm h1 hk1
  obtain ⟨s, hs⟩ : ∃ s : Bool, s = decide (a < 0) := ⟨_, rfl⟩
  have hsign : (if s then (-1 : ℝ) else 1) * |a| = a := by
    rw [hs]
    rcases lt_or_ge a 0 with h | h
    · simp [h, abs_of_neg h]
    · simp [not_lt.mpr h, abs_of_nonneg h]
  have hfin : ∀ v : ℝ, |v - (|a|)| ≤ 2 ^ (-53 : ℤ) * |a| →
      |(if s then (-1 : ℝ) else 1) * v - a| ≤ 2 ^ (-53 : ℤ) * |a| := by
    intro v hv
    have : (if s then (-1 : ℝ) else 1) * v - a = (if s then (-1 : ℝ) else 1) * (v - (|a|)) := by
      rw [mul_sub, hsign]
    rw [this, abs_mul]
    cases s <;> simpa using hv
  have main : ∀ m : ℤ, ∀ k : ℤ, 2 ^ 52 ≤ m → m < 2 ^ 53 → -1022 ≤ k → k ≤ 1023 →
      ∃ b, decode b = fin ((if s then (-1 : ℝ) else 1) * ((m : ℝ) * 2 ^ (k - 52))) := by
    intro m k h1 h2 h3 h4
    obtain ⟨f, hf⟩ := Int.eq_ofNat_of_zero_le (show 0 ≤ m - 2 ^ 52 by omega)
    obtain ⟨e, he⟩ := Int.eq_ofNat_of_zero_le (show 0 ≤ k + 1023 by omega)
    obtain ⟨g1, g2, g3⟩ := ofFields_fields (s := s) (e := e) (f := f) (by omega) (by omega)
    refine ⟨ofFields s e f, ?_⟩
    rw [decode_normal (by omega) (by omega), g1, g2, g3]
    have h5 : (2 ^ 52 + (f : ℝ)) = m := by
      have : m = 2 ^ 52 + f := by omega
      rw [this]; push_cast; ring
    rw [h5, show ((e : ℤ) - 1075) = k - 52 by omega]
  rcases hm2.lt_or_eq with hm3 | hm3
  · obtain ⟨b, hb⟩ := main m k hm1 hm3 hkl hku
    exact ⟨b, _, hb, hfin _ herr⟩
  · have hk3 : k ≤ 1022 := by
      rcases hku.lt_or_eq with h | h
      · omega
      · exfalso
        have h2 := hk' h
        have : t = 2 ^ 52 := by
          rw [ht, h2, h]
          rw [div_eq_iff (by positivity), ← zpow_natCast, ← zpow_add₀ (by norm_num)]
          norm_num
        rw [this] at hm
        have : round ((2 : ℝ) ^ 52) = 2 ^ 52 := by
          rw [show (2 : ℝ) ^ 52 = ((2 ^ 52 : ℤ) : ℝ) by norm_num]
          exact round_intCast _
        rw [this] at hm
        omega
    obtain ⟨b, hb⟩ := main (2 ^ 52) (k + 1) (by norm_num) (by norm_num) (by omega) (by omega)
    refine ⟨b, _, hb, hfin _ ?_⟩
    have : ((2 ^ 52 : ℤ) : ℝ) * 2 ^ (k + 1 - 52) = (m : ℝ) * 2 ^ (k - 52) := by
      rw [hm3, show k + 1 - 52 = 1 + (k - 52) by ring, zpow_add₀ (by norm_num)]
      push_cast; ring
    rw [this]
    exact herr

/-- Conversions that are faithful exist. -/
theorem exists_faithful : ∃ B : FloatBits XReal, Faithful B := by
  refine ⟨{
    toBits := fun x =>
      if h : ∃ b, decode b = x then h.choose
      else match x with
        | fin a => if h : ∃ b a', decode b = fin a' ∧ |a' - a| ≤ 2 ^ (-53 : ℤ) * |a| then h.choose
          else 0
        | _ => 0
    ofBits := decode
    ofInt64 := fun b => fin b.toInt
    toInt32 := fun x => match x with
      | fin a => if h : ∃ n : ℤ, a = n ∧ -2 ^ 31 ≤ n ∧ n < 2 ^ 31 then
          some (BitVec.ofInt 32 h.choose) else none
      | _ => none }, ?_⟩
  refine ⟨fun b => rfl, ?_, ?_, fun b _ => rfl, ?_, rfl, rfl, rfl⟩
  · intro a ha
    have ha' : ∃ b, decode b = fin a := ha
    simp only [ha', dif_pos]
    exact ha'.choose_spec
  · intro a h0 h1
    by_cases h : ∃ b, decode b = fin a
    · refine ⟨a, ?_, by simp⟩
      simp only [h, dif_pos]
      exact h.choose_spec
    · have hn := exists_near a h0 h1
      simp only [h, hn, dif_pos, dif_neg, not_false_eq_true]
      exact hn.choose_spec
  · intro n
    by_cases h : -2 ^ 31 ≤ n ∧ n < 2 ^ 31
    · have hex : ∃ k : ℤ, (n : ℝ) = k ∧ -2 ^ 31 ≤ k ∧ k < 2 ^ 31 := ⟨n, rfl, h⟩
      have : hex.choose = n := by exact_mod_cast hex.choose_spec.1.symm
      simp only [hex, dif_pos, this, h, and_self, if_true]
    · have hex : ¬ ∃ k : ℤ, (n : ℝ) = k ∧ -2 ^ 31 ≤ k ∧ k < 2 ^ 31 := by
        rintro ⟨k, hk, h2⟩
        have : n = k := by exact_mod_cast hk
        exact h (this ▸ h2)
      simp only [hex, dif_neg, h, if_false, not_false_eq_true]

end Verif.Spec.Ieee
