import Verif.Model.Convert

/-! C76: numeric conversions. -/

namespace Verif
open Verif.Convert Format

section C76
open Classical

theorem rep_int {n : ℤ} (h : |n| ≤ 2 ^ 53) : f64.Representable n := by
  have hb : |(n : ℚ)| ≤ 2 ^ 53 := by exact_mod_cast h
  refine ⟨?_, lt_f64_max (hb.trans (by norm_num))⟩
  rcases h.lt_or_eq with h | h
  · exact ⟨n, 0, h, by norm_num [f64], by simp⟩
  · rcases abs_choice n with h' | h'
    · refine ⟨1, 53, by norm_num [f64], by norm_num [f64], ?_⟩
      rw [h'] at h; rw [h]; norm_num
    · refine ⟨-1, 53, by norm_num [f64], by norm_num [f64], ?_⟩
      have : n = -(2 ^ 53) := by omega
      rw [this]; norm_num

theorem range_le {t : IntTy} (ht : t ∈ IntTy.all) : -(2 ^ 63) ≤ t.lo ∧ t.hi ≤ 2 ^ 64 - 1 := by
  simp only [IntTy.all, List.mem_cons, List.not_mem_nil, or_false] at ht
  rcases ht with rfl | rfl | rfl | rfl | rfl | rfl | rfl | rfl <;> decide

theorem round_int_fin {n : ℤ} (h : |n| ≤ 2 ^ 64) : ∃ r : ℤ, f64.round n = .fin r ∧ |r| ≤ 2 ^ 64 := by
  set u : ℚ := 2 ^ f64.quantum n with hu
  rcases le_or_gt |n| (2 ^ 53) with hs | hs
  · exact ⟨n, f64.round_exact (rep_int hs), h⟩
  have hb : |(n : ℚ)| ≤ 2 ^ 64 := by exact_mod_cast h
  have hb' : (2 : ℚ) ^ (53 : ℤ) ≤ |(n : ℚ)| := by exact_mod_cast hs.le
  have hlog : 53 ≤ Int.log 2 |(n : ℚ)| := by
    have := Int.zpow_le_iff_le_log (b := 2) (by norm_num) (x := 53) (r := |(n : ℚ)|)
      (lt_of_lt_of_le (by norm_num) hb')
    exact this.mp (by exact_mod_cast hb')
  have hlog2 : Int.log 2 |(n : ℚ)| ≤ 64 := by
    have h1 := Int.zpow_log_le_self (b := 2) (r := |(n : ℚ)|) (by norm_num)
      (lt_of_lt_of_le (by norm_num) hb')
    have h2 : ((2 : ℕ) : ℚ) ^ Int.log 2 |(n : ℚ)| ≤ (2 : ℕ) ^ (64 : ℤ) := h1.trans (by exact_mod_cast hb)
    exact (zpow_le_zpow_iff_right₀ (by norm_num : (1 : ℚ) < (2 : ℕ))).mp h2
  have hq : f64.quantum n = Int.log 2 |(n : ℚ)| - 52 := by
    unfold quantum
    rw [max_eq_left]
    · norm_num [f64]
    · norm_num [f64]; omega
  obtain ⟨d, hd⟩ := Int.eq_ofNat_of_zero_le (show 0 ≤ f64.quantum n by omega)
  have hd12 : d ≤ 12 := by omega
  have hu' : u = ((2 ^ d : ℤ) : ℚ) := by rw [hu, hd]; push_cast; rw [zpow_natCast]
  have hu0 : 0 < u := by positivity
  have hle : |roundEven (n / u)| ≤ 2 ^ (64 - d) := by
    have := roundEven_le (n / u) (2 ^ (64 - d)) (by
      rw [abs_div, abs_of_pos hu0, div_le_iff₀ hu0, hu']
      push_cast
      rw [← pow_add]
      have : 64 - d + d = 64 := by omega
      rw [this]; exact hb)
    exact this
  have hr : |roundEven (n / u) * 2 ^ d| ≤ 2 ^ 64 := by
    rw [abs_mul, abs_of_pos (by positivity : (0 : ℤ) < 2 ^ d)]
    calc |roundEven (n / u)| * 2 ^ d ≤ 2 ^ (64 - d) * 2 ^ d :=
          mul_le_mul_of_nonneg_right hle (by positivity)
      _ = 2 ^ 64 := by rw [← pow_add]; congr 1; omega
  refine ⟨roundEven (n / u) * 2 ^ d, ?_, hr⟩
  unfold Format.round
  simp only
  rw [← hu, if_pos]
  · rw [hu']; push_cast; rfl
  · have e : (roundEven (n / u) : ℚ) * u = ((roundEven (n / u) * 2 ^ d : ℤ) : ℚ) := by
      rw [hu']; push_cast; ring
    rw [e]
    exact lt_f64_max (by exact_mod_cast hr)

theorem abs_le_of_inRange {t : IntTy} (ht : t ∈ IntTy.all) {n : ℤ} (hn : t.InRange n) :
    |n| ≤ 2 ^ 64 := by
  have := range_le ht
  obtain ⟨h1, h2⟩ := hn
  rw [abs_le]
  constructor <;> omega

/-- An integer of any type of at most 64 bits converts to the nearest double. -/
theorem C76_int_to_f64 (t : IntTy) (ht : t ∈ IntTy.all) (n : ℤ) (hn : t.InRange n) (d : FVal) :
    ∃ r : ℚ, safeConvert (intType t) (floatType f64) n = .fin r ∧
      safeConvertOr (intType t) (floatType f64) n d = .fin r ∧
      f64.Representable r ∧ ∀ s, f64.Representable s → |(n : ℚ) - r| ≤ |(n : ℚ) - s| := by
  obtain ⟨r, hr, -⟩ := round_int_fin (abs_le_of_inRange ht hn)
  have hv := f64.round_valid (by norm_num [f64]) n
  rw [hr] at hv
  have e : f64.convert (.fin (r : ℚ)) = .fin (r : ℚ) := f64.round_exact hv
  refine ⟨r, ?_, ?_, hv, fun s hs => f64.round_nearest hr hs⟩
  · simp [safeConvert, intType, floatType, hr, e]
  · simp [safeConvertOr, intType, floatType, hr, e]

/-- The values of the integer types. -/
theorem C76_ranges (n : ℤ) :
    (IntTy.i8.InRange n ↔ -128 ≤ n ∧ n ≤ 127) ∧ (IntTy.i16.InRange n ↔ -32768 ≤ n ∧ n ≤ 32767) ∧
    (IntTy.i32.InRange n ↔ -2147483648 ≤ n ∧ n ≤ 2147483647) ∧
    (IntTy.i64.InRange n ↔ -9223372036854775808 ≤ n ∧ n ≤ 9223372036854775807) ∧
    (IntTy.u8.InRange n ↔ 0 ≤ n ∧ n ≤ 255) ∧ (IntTy.u16.InRange n ↔ 0 ≤ n ∧ n ≤ 65535) ∧
    (IntTy.u32.InRange n ↔ 0 ≤ n ∧ n ≤ 4294967295) ∧ (IntTy.u64.InRange n ↔ 0 ≤ n ∧ n ≤ 18446744073709551615) := by
  refine ⟨?_, ?_, ?_, ?_, ?_, ?_, ?_, ?_⟩ <;> exact Iff.rfl

/-- Up to `2^53` the conversion is exact. -/
theorem C76_int_to_f64_exact (t : IntTy) (n : ℤ) (hn : |n| ≤ 2 ^ 53) :
    safeConvert (intType t) (floatType f64) n = .fin n := by
  have h := f64.round_exact (rep_int hn)
  simp [safeConvert, intType, floatType, h, Format.convert]

theorem trunc_int (n : ℤ) : trunc n = n := by
  unfold trunc; split_ifs <;> simp

theorem floatToInt_int {t : IntTy} (n : ℤ) :
    floatToInt t (.fin n) = if t.lo ≤ n ∧ n ≤ t.hi then some n else none := by
  have e1 : ((t.lo : ℚ) - 1 < n ↔ t.lo ≤ n) := by
    rw [show ((t.lo : ℚ) - 1) = ((t.lo - 1 : ℤ) : ℚ) by push_cast; ring, Int.cast_lt]; omega
  have e2 : ((n : ℚ) < t.hi + 1 ↔ n ≤ t.hi) := by
    rw [show ((t.hi : ℚ) + 1) = ((t.hi + 1 : ℤ) : ℚ) by push_cast; ring, Int.cast_lt]; omega
  have e3 : ((t.lo : ℚ) ≤ n ↔ t.lo ≤ n) := Int.cast_le
  unfold floatToInt
  simp only [e1, e2, e3, trunc_int, ite_self]

/-- Between integer types, numbers up to `2^53` arrive unchanged when the target type contains
them and are replaced by the fallback (zero for `safe_convert`) when it does not. -/
theorem C76_int_to_int_partial (t u : IntTy) (n d : ℤ) (hn : |n| ≤ 2 ^ 53) :
    (u.InRange n → safeConvert (intType t) (intType u) n = n ∧
      safeConvertOr (intType t) (intType u) n d = n) ∧
    (¬ u.InRange n → safeConvert (intType t) (intType u) n = (0 : ℤ) ∧
      safeConvertOr (intType t) (intType u) n d = d) := by
  have h := f64.round_exact (rep_int hn)
  have e1 : safeConvert (intType t) (intType u) n =
      (if u.lo ≤ n ∧ n ≤ u.hi then some n else none).getD 0 := by
    simp [safeConvert, intType, h, floatToInt_int]
  have e2 : safeConvertOr (intType t) (intType u) n d =
      (if u.lo ≤ n ∧ n ≤ u.hi then some n else none).getD d := by
    simp [safeConvertOr, intType, h, floatToInt_int]
  rw [e1, e2]
  unfold IntTy.InRange
  constructor <;> intro hr <;> simp only [hr, and_self, if_true, if_false] <;> exact ⟨rfl, rfl⟩

/-- Beyond `2^53` a representable value is not preserved: converting `i64` to itself loses the low
bit of `2^53 + 1` and turns `i64::MAX` into the fallback. -/
theorem C76_int_identity_violated :
    IntTy.i64.InRange (2 ^ 53 + 1) ∧ IntTy.i64.InRange (2 ^ 63 - 1) ∧
    safeConvert (intType .i64) (intType .i64) (2 ^ 53 + 1 : ℤ) = (2 ^ 53 : ℤ) ∧
    safeConvert (intType .i64) (intType .i64) (2 ^ 63 - 1 : ℤ) = (0 : ℤ) ∧
    ∀ d, safeConvertOr (intType .i64) (intType .i64) (2 ^ 63 - 1 : ℤ) d = d := by
  have r1 : f64.round ((2 ^ 53 + 1 : ℤ) : ℚ) = .fin ((2 ^ 53 : ℤ) : ℚ) := by
    have := f64.round_eval (q := ((2 ^ 53 + 1 : ℤ) : ℚ)) 53 (2 ^ 52) (by norm_num) (by norm_num)
      (by norm_num [f64]) (by norm_num [f64, abs_le]) (.inr (by decide))
      (lt_f64_max (by norm_num [f64]))
    rw [this]; norm_num [f64]
  have r2 : f64.round ((2 ^ 63 - 1 : ℤ) : ℚ) = .fin ((2 ^ 63 : ℤ) : ℚ) := by
    have := f64.round_eval (q := ((2 ^ 63 - 1 : ℤ) : ℚ)) 62 (2 ^ 53) (by norm_num) (by norm_num)
      (by norm_num [f64]) (by norm_num [f64, abs_le]) (.inr (by decide))
      (lt_f64_max (by norm_num [f64]))
    rw [this]; norm_num [f64]
  refine ⟨by constructor <;> decide, by constructor <;> decide, ?_, ?_, ?_⟩
  · simp only [safeConvert, intType, r1, floatToInt_int]; decide
  · simp only [safeConvert, intType, r2, floatToInt_int]; decide
  · intro d; simp only [safeConvertOr, intType, r2, floatToInt_int]; norm_num [IntTy.hi, IntTy.i64]; rfl

/-- No double lies strictly between `−2^63 − 1` and `−2^63`, so the inclusive bound used for 64-bit
types accepts the same doubles as the exclusive one. -/
theorem double_gap {q : ℚ} (h : f64.Representable q) (h1 : (-(2 ^ 63) : ℚ) - 1 < q) :
    (-(2 ^ 63) : ℚ) ≤ q := by
  by_contra hc
  push Not at hc
  obtain ⟨⟨m, e, hm, -, rfl⟩, -⟩ := h
  have he : 0 ≤ e := by
    by_contra hneg
    push Not at hneg
    have hm' : |(m : ℚ)| < 2 ^ 53 := by exact_mod_cast hm
    have h2 : (2 : ℚ) ^ e ≤ 1 := zpow_le_one_of_nonpos₀ (by norm_num) hneg.le
    have h3 : (0 : ℚ) < 2 ^ e := by positivity
    have h4 := (abs_lt.mp hm').1
    nlinarith
  obtain ⟨k, rfl⟩ := Int.eq_ofNat_of_zero_le he
  have e1 : ((m : ℚ) * 2 ^ (k : ℤ)) = ((m * 2 ^ k : ℤ) : ℚ) := by push_cast; rw [zpow_natCast]
  rw [e1] at h1 hc
  have a : -(2 ^ 63) - 1 < m * 2 ^ k := by exact_mod_cast h1
  have b : m * 2 ^ k < -(2 ^ 63) := by exact_mod_cast hc
  omega

/-- A double converts to an integer type exactly when its truncation towards zero lies in the type,
and then to that truncation; otherwise (and for NaN and infinities) the fallback is returned. -/
theorem C76_f64_to_int (t : IntTy) (ht : t ∈ IntTy.all) (q : ℚ) (hq : f64.Representable q) (d : ℤ) :
    (t.InRange (trunc q) → safeConvert (floatType f64) (intType t) (.fin q) = trunc q ∧
      safeConvertOr (floatType f64) (intType t) (.fin q) d = trunc q) ∧
    (¬ t.InRange (trunc q) → safeConvert (floatType f64) (intType t) (.fin q) = (0 : ℤ) ∧
      safeConvertOr (floatType f64) (intType t) (.fin q) d = d) := by
  have hlo : t.lo ≤ 0 := by
    simp only [IntTy.all, List.mem_cons, List.not_mem_nil, or_false] at ht
    rcases ht with rfl | rfl | rfl | rfl | rfl | rfl | rfl | rfl <;> decide
  have hhi : 0 ≤ t.hi := by
    simp only [IntTy.all, List.mem_cons, List.not_mem_nil, or_false] at ht
    rcases ht with rfl | rfl | rfl | rfl | rfl | rfl | rfl | rfl <;> decide
  have h64 : (t.signed && t.bits == 64) = true → t.lo = -(2 ^ 63) := by
    simp only [IntTy.all, List.mem_cons, List.not_mem_nil, or_false] at ht
    rcases ht with rfl | rfl | rfl | rfl | rfl | rfl | rfl | rfl <;> decide
  have key : ((t.lo : ℚ) - 1 < q ∧ q < (t.hi : ℚ) + 1) ↔ t.InRange (trunc q) := by
    unfold IntTy.InRange trunc
    split_ifs with h0
    · have h1 : (t.lo : ℚ) - 1 < q := by
        have : (t.lo : ℚ) ≤ 0 := by exact_mod_cast hlo
        linarith
      have h2 : t.lo ≤ ⌊q⌋ := hlo.trans (Int.floor_nonneg.mpr h0)
      simp only [h1, h2, true_and]
      rw [show ((t.hi : ℚ) + 1) = ((t.hi + 1 : ℤ) : ℚ) by push_cast; ring, ← Int.floor_lt]
      omega
    · push Not at h0
      have h1 : q < (t.hi : ℚ) + 1 := by
        have : (0 : ℚ) ≤ t.hi := by exact_mod_cast hhi
        linarith
      have h2 : ⌈q⌉ ≤ t.hi := (Int.ceil_le.mpr (by exact_mod_cast h0.le)).trans hhi
      simp only [h1, h2, and_true]
      rw [show ((t.lo : ℚ) - 1) = ((t.lo - 1 : ℤ) : ℚ) by push_cast; ring, ← Int.lt_ceil]
      omega
  have conv : floatToInt t (.fin q) = if t.InRange (trunc q) then some (trunc q) else none := by
    simp only [floatToInt]
    split_ifs with h1 h2 h3 h3 h4 h5 h5
    · rfl
    · exact absurd (key.mp ⟨by linarith [h2.1], h2.2⟩) h3
    · exfalso; apply h2
      have := key.mpr h3
      refine ⟨?_, this.2⟩
      rw [h64 h1] at this ⊢
      have := double_gap hq (by have := this.1; push_cast at this ⊢; linarith)
      push_cast; linarith
    · rfl
    · rfl
    · exact absurd (key.mp h4) h5
    · exact absurd (key.mpr h5) h4
    · rfl
  have e : f64.convert (.fin q) = .fin q := f64.round_exact hq
  constructor <;> intro hr <;>
    simp [safeConvert, safeConvertOr, floatType, intType, e, conv, hr]

/-- NaN and the infinities convert to no integer. -/
theorem C76_special_to_int (t : IntTy) (d : ℤ) (x : FVal) (hx : ∀ q, x ≠ .fin q) :
    safeConvert (floatType f64) (intType t) x = (0 : ℤ) ∧
      safeConvertOr (floatType f64) (intType t) x d = d := by
  cases x with
  | fin q => exact absurd rfl (hx q)
  | nan => exact ⟨rfl, rfl⟩
  | inf b => exact ⟨rfl, rfl⟩

theorem rep_f32_f64 {q : ℚ} (h : f32.Representable q) : f64.Representable q := by
  obtain ⟨⟨m, e, hm, he, rfl⟩, hlt⟩ := h
  refine ⟨⟨m, e, lt_of_lt_of_le hm (by norm_num [f32, f64]), le_trans (by norm_num [f32, f64]) he,
    rfl⟩, lt_of_lt_of_le hlt (zpow_le_zpow_right₀ (by norm_num) (by norm_num [f32, f64]))⟩

/-- Floats convert to floats without error: single to double precision and within one format
exactly, double to single precision to the nearest single (or an infinity beyond its range), NaN and
infinities to themselves. -/
theorem C76_float_to_float :
    (∀ x, f32.Valid x → safeFloatConvert (floatType f32) (floatType f64) x = .ok x) ∧
    (∀ x, f64.Valid x → safeFloatConvert (floatType f64) (floatType f64) x = .ok x) ∧
    (∀ x, f32.Valid x → safeFloatConvert (floatType f32) (floatType f32) x = .ok x) ∧
    (∀ q, f64.Representable q → ∃ y, safeFloatConvert (floatType f64) (floatType f32) (.fin q) = .ok y ∧
      f32.Valid y ∧ ((∃ r, y = .fin r ∧ ∀ s, f32.Representable s → |q - r| ≤ |q - s|) ∨
        (y = .inf (decide (q < 0)) ∧ ∀ s, f32.Representable s → |s| < |q|))) ∧
    (∀ b, safeFloatConvert (floatType f64) (floatType f32) (.inf b) = .ok (.inf b)) ∧
    safeFloatConvert (floatType f64) (floatType f32) .nan = .ok .nan := by
  have id64 : ∀ x, f64.Valid x → f64.convert x = x := by
    intro x hx
    cases x with
    | fin q => exact f64.round_exact hx
    | _ => rfl
  have id32 : ∀ x, f32.Valid x → f32.convert x = x := by
    intro x hx
    cases x with
    | fin q => exact f32.round_exact hx
    | _ => rfl
  have up : ∀ x, f32.Valid x → f64.Valid x := by
    intro x hx
    cases x with
    | fin q => exact rep_f32_f64 hx
    | _ => trivial
  refine ⟨fun x hx => ?_, fun x hx => ?_, fun x hx => ?_, fun q hq => ?_, fun b => rfl, rfl⟩
  · simp [safeFloatConvert, floatType, id64 x (up x hx)]
  · simp [safeFloatConvert, floatType, id64 x hx]
  · simp [safeFloatConvert, floatType, id64 x (up x hx), id32 x hx]
  · refine ⟨f32.round q, by
      have h64 := f64.round_exact hq
      simp [safeFloatConvert, floatType, Format.convert, h64],
      f32.round_valid (by norm_num [f32]) q, ?_⟩
    by_cases h : ∃ r, f32.round q = .fin r
    · obtain ⟨r, hr⟩ := h
      exact .inl ⟨r, hr, fun s hs => f32.round_nearest hr hs⟩
    · right
      have hr : f32.round q = .inf (decide (q < 0)) := by
        unfold Format.round at h ⊢
        simp only at h ⊢
        split_ifs at h ⊢ with h1
        · exact absurd ⟨_, rfl⟩ h
        · rfl
      refine ⟨hr, fun s hs => ?_⟩
      by_contra hc
      push Not at hc
      -- a representable number at least as large bounds the rounded value
      apply h
      suffices hlt : |(roundEven (q / 2 ^ f32.quantum q) : ℚ) * 2 ^ f32.quantum q| < 2 ^ f32.emax by
        exact ⟨_, by unfold Format.round; simp only; rw [if_pos hlt]⟩
      · obtain ⟨⟨m, e, hm, he, hs1⟩, hs2⟩ := hs
        set u : ℚ := 2 ^ f32.quantum q with hu
        have hu0 : 0 < u := by positivity
        by_contra hge
        push Not at hge
        -- the rounded value is `2^128`, so `|q|` exceeds the largest representable number
        have herr : |q - roundEven (q / u) * u| ≤ u / 2 := by
          have := roundEven_error (q / u)
          have e : |q - roundEven (q / u) * u| = |q / u - roundEven (q / u)| * u := by
            rw [← abs_of_pos hu0, ← abs_mul, abs_of_pos hu0]
            congr 1
            field_simp
          rw [e]
          nlinarith
        have hmax : |s| ≤ (2 ^ 24 - 1) * 2 ^ (104 : ℤ) := by
          rcases le_or_gt e 104 with h104 | h104
          · rw [hs1, abs_mul, abs_of_pos (by positivity : (0 : ℚ) < 2 ^ e)]
            have hm' : |(m : ℚ)| ≤ 2 ^ 24 - 1 := by
              have : |m| ≤ 2 ^ 24 - 1 := by
                have : |m| < 2 ^ 24 := hm
                omega
              exact_mod_cast this
            exact mul_le_mul hm' (zpow_le_zpow_right₀ (by norm_num) h104) (by positivity)
              (by norm_num)
          · obtain ⟨k, hk⟩ := Int.eq_ofNat_of_zero_le (show 0 ≤ e - 104 by omega)
            have hek : e = 104 + (k : ℤ) := by omega
            have e1 : s = ((m * 2 ^ k : ℤ) : ℚ) * 2 ^ (104 : ℤ) := by
              rw [hs1, hek, zpow_add₀ (by norm_num), zpow_natCast]; push_cast; ring
            have h128 : |((m * 2 ^ k : ℤ) : ℚ)| * 2 ^ (104 : ℤ) < 2 ^ 24 * 2 ^ (104 : ℤ) := by
              have := hs2
              rw [e1, abs_mul, abs_of_pos (by positivity : (0 : ℚ) < 2 ^ (104 : ℤ))] at this
              calc _ < (2 : ℚ) ^ f32.emax := this
                _ = _ := by norm_num [f32]
            have h3 : |((m * 2 ^ k : ℤ) : ℚ)| < 2 ^ 24 := lt_of_mul_lt_mul_right h128 (by positivity)
            have h4 : |m * 2 ^ k| < 2 ^ 24 := by exact_mod_cast h3
            have h5 : |((m * 2 ^ k : ℤ) : ℚ)| ≤ 2 ^ 24 - 1 := by
              have : |m * 2 ^ k| ≤ 2 ^ 24 - 1 := by omega
              exact_mod_cast this
            rw [e1, abs_mul, abs_of_pos (by positivity : (0 : ℚ) < 2 ^ (104 : ℤ))]
            exact mul_le_mul_of_nonneg_right h5 (by positivity)
        have hqlt : |q| < 2 ^ (128 : ℤ) := lt_of_le_of_lt (hc.trans hmax) (by norm_num)
        have hquant : f32.quantum q ≤ 104 := by
          unfold quantum
          refine max_le ?_ (by norm_num [f32])
          rcases eq_or_ne q 0 with h0 | h0
          · subst h0; norm_num [f32]
          have h1 := Int.zpow_log_le_self (b := 2) (r := |q|) (by norm_num) (abs_pos.mpr h0)
          have h2 : ((2 : ℕ) : ℚ) ^ Int.log 2 |q| < (2 : ℕ) ^ (128 : ℤ) :=
            lt_of_le_of_lt h1 (by exact_mod_cast hqlt)
          have := (zpow_lt_zpow_iff_right₀ (by norm_num : (1 : ℚ) < (2 : ℕ))).mp h2
          norm_num [f32]; omega
        have hule : u ≤ 2 ^ (104 : ℤ) := zpow_le_zpow_right₀ (by norm_num) hquant
        have h1 : |roundEven (q / u) * u| ≤ |q| + u / 2 := by
          have := abs_sub_abs_le_abs_sub ((roundEven (q / u) : ℚ) * u) q
          rw [abs_sub_comm] at this
          linarith
        have h2 : (2 : ℚ) ^ f32.emax = 2 ^ 24 * 2 ^ (104 : ℤ) := by norm_num [f32]
        rw [h2] at hge
        have h3 : (0 : ℚ) < 2 ^ (104 : ℤ) := by positivity
        linarith [hc.trans hmax]

/-- `float_constant` never reaches its fallbacks for the two primitive float types: for `f64` it is
the identity and for `f32` the nearest single (or an infinity), whatever the constants are. -/
theorem C76_float_constant (k : FloatConsts FVal) (x : FVal) (hx : f64.Valid x) :
    floatConstant (floatType f64) k x = x ∧
    .ok (floatConstant (floatType f32) k x) = safeFloatConvert (floatType f64) (floatType f32) x := by
  have id64 : f64.convert x = x := by
    cases x with
    | fin q => exact f64.round_exact hx
    | _ => rfl
  simp [floatConstant, floatType, safeFloatConvert, id64]

/-- For any other float type the documented fallbacks apply exactly when the cast fails. -/
theorem C76_float_constant_fallback (T : NumType) (k : FloatConsts T.Val) (x : FVal) :
    (∀ v, T.fromF64 x = some v → floatConstant T k x = v) ∧
    (T.fromF64 x = none →
      floatConstant T k x = match x with
        | .nan => k.nan
        | .inf false => k.infinity
        | .inf true => k.negInfinity
        | .fin q => if q = 1 then k.one else k.zero) := by
  constructor
  · intro v hv; simp [floatConstant, hv]
  · intro hn
    simp only [floatConstant, hn, Option.getD_none]
    cases x with
    | nan => simp
    | inf b => cases b <;> simp
    | fin q =>
      simp only [FVal.fin.injEq, reduceCtorEq, if_false]
      split_ifs with h0 h1 h1 <;> simp_all

/-- Converting an integer to single precision goes through double precision and can miss the
nearest single: `2^60 + 2^36 + 1` becomes `2^60`, although `2^60 + 2^37` is nearer. -/
theorem C76_double_rounding_violated :
    safeConvert (intType .i64) (floatType f32) (2 ^ 60 + 2 ^ 36 + 1 : ℤ) = .fin (2 ^ 60) ∧
    f32.round ((2 ^ 60 + 2 ^ 36 + 1 : ℤ) : ℚ) = .fin (2 ^ 60 + 2 ^ 37) ∧
    IntTy.i64.InRange (2 ^ 60 + 2 ^ 36 + 1) := by
  have r1 : f64.round ((2 ^ 60 + 2 ^ 36 + 1 : ℤ) : ℚ) = .fin (2 ^ 60 + 2 ^ 36) := by
    have := f64.round_eval (q := ((2 ^ 60 + 2 ^ 36 + 1 : ℤ) : ℚ)) 60 (2 ^ 52 + 2 ^ 28) (by norm_num)
      (by norm_num) (by norm_num [f64]) (by norm_num [f64, abs_le])
      (.inr (by decide)) (lt_f64_max (by norm_num [f64]))
    rw [this]; norm_num [f64]
  have r2 : f32.round (2 ^ 60 + 2 ^ 36) = .fin (2 ^ 60) := by
    have := f32.round_eval (q := (2 ^ 60 + 2 ^ 36)) 60 (2 ^ 23) (by norm_num)
      (by norm_num) (by norm_num [f32]) (by norm_num [f32, abs_le])
      (.inr (by decide)) (by norm_num [f32])
    rw [this]; norm_num [f32]
  have r3 : f32.round ((2 ^ 60 + 2 ^ 36 + 1 : ℤ) : ℚ) = .fin (2 ^ 60 + 2 ^ 37) := by
    have := f32.round_eval (q := ((2 ^ 60 + 2 ^ 36 + 1 : ℤ) : ℚ)) 60 (2 ^ 23 + 1) (by norm_num)
      (by norm_num) (by norm_num [f32]) (by norm_num [f32, abs_le])
      (.inl (by norm_num [f32, abs_lt])) (by norm_num [f32])
    rw [this]; norm_num [f32]
  refine ⟨?_, r3, by constructor <;> decide⟩
  simp only [safeConvert, intType, r1, floatType, Option.getD_some, Format.convert, r2]

/-- For any two numeric types whatever: a conversion returns the value reached through a double when there is one;
otherwise `safe_float_convert` reports an error, `safe_convert_or` returns the fallback and `safe_convert` the
default. -/
theorem C76_any_type (T U : NumType) (v : T.Val) (d : U.Val) :
    (∀ w y, T.toF64 v = some w → U.fromF64 w = some y →
      safeFloatConvert T U v = .ok y ∧ safeConvertOr T U v d = y ∧ safeConvert T U v = y) ∧
    ((∀ w, T.toF64 v = some w → U.fromF64 w = none) →
      (∃ e, safeFloatConvert T U v = .error e) ∧ safeConvertOr T U v d = d ∧ safeConvert T U v = U.default) := by
  refine ⟨fun w y h1 h2 => by simp [safeFloatConvert, safeConvertOr, safeConvert, h1, h2], fun h => ?_⟩
  rcases e : T.toF64 v with _ | w
  · simp [safeFloatConvert, safeConvertOr, safeConvert, e]
  · simp [safeFloatConvert, safeConvertOr, safeConvert, e, h w e]

/-- The default of every built-in number type is zero: a value of any type whatever that has no double becomes zero,
and so does a double that the target integer type cannot hold. -/
theorem C76_default (T : NumType) (v : T.Val) (h : T.toF64 v = none) (f : Format) (t : IntTy) (x : FVal)
    (hx : floatToInt t (f64.convert x) = none) :
    safeConvert T (floatType f) v = FVal.fin 0 ∧ safeConvert T (intType t) v = (0 : ℤ) ∧
      safeConvert (floatType f64) (intType t) x = (0 : ℤ) := by
  refine ⟨by simp only [safeConvert, h]; rfl, by simp only [safeConvert, h]; rfl, ?_⟩
  show (floatToInt t (f64.convert x)).getD 0 = 0
  rw [hx]; rfl

example : ∃ (T : NumType) (v : T.Val), T.toF64 v = none ∧ floatToInt .u8 (f64.convert .nan) = none :=
  ⟨⟨Unit, fun _ => none, fun _ => none, ()⟩, (), rfl, rfl⟩

/-- both cases occur -/
example : (intType .u8).toF64 (7 : ℤ) = some (.fin 7) ∧ (intType .u8).fromF64 (.fin 7) = some (7 : ℤ) ∧
    (intType .u8).fromF64 .nan = none := by
  refine ⟨?_, ?_, rfl⟩
  · show some (Format.f64.round _) = _
    have := f64.round_exact (q := 7) ⟨⟨7, 0, by norm_num [f64], by norm_num [f64], by norm_num⟩, lt_f64_max (by norm_num [abs_le])⟩
    exact congrArg some (by exact_mod_cast this)
  · show floatToInt .u8 (.fin 7) = some (7 : ℤ)
    norm_num [floatToInt, IntTy.u8, IntTy.lo, IntTy.hi, trunc]

example : IntTy.u16 ∈ IntTy.all ∧ IntTy.u16.InRange 65535 ∧ ¬ IntTy.u8.InRange 65535 := by
  refine ⟨by simp [IntTy.all], by constructor <;> decide, by unfold IntTy.InRange; decide⟩
example : f64.Representable (-7/4) :=
  ⟨⟨-7, -2, by norm_num [f64], by norm_num [f64], by norm_num⟩, lt_f64_max (by norm_num [abs_le])⟩

end C76
end Verif
