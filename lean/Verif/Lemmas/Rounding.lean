import Verif.Num.Double
import Mathlib.Data.Real.Basic
import Mathlib.Tactic.GCongr

/-! Rounding errors and overflow of single operations. -/

namespace Verif
namespace Format

/-- The two formats of the language. -/
def Std (f : Format) : Prop := f = f64 ∨ f = f32

theorem Std.prec_ge {f : Format} (h : f.Std) : 24 ≤ f.prec := by rcases h with rfl | rfl <;> decide
theorem Std.prec_le {f : Format} (h : f.Std) : f.prec ≤ 53 := by rcases h with rfl | rfl <;> decide
theorem Std.emin_le {f : Format} (h : f.Std) : f.emin ≤ -149 := by rcases h with rfl | rfl <;> decide
theorem Std.emin_ge {f : Format} (h : f.Std) : -1074 ≤ f.emin := by rcases h with rfl | rfl <;> decide
theorem Std.emin_prec {f : Format} (h : f.Std) : f.emin ≤ -4 * f.prec := by
  rcases h with rfl | rfl <;> decide
theorem Std.emax_ge {f : Format} (h : f.Std) : 128 ≤ f.emax := by rcases h with rfl | rfl <;> decide
theorem Std.emax_le {f : Format} (h : f.Std) : f.emax ≤ 1024 := by rcases h with rfl | rfl <;> decide

theorem rep_zero (f : Format) : f.Representable 0 :=
  ⟨⟨0, f.emin, by simp, le_rfl, by simp⟩, by simp; positivity⟩

theorem rep_neg {f : Format} {q : ℚ} (h : f.Representable q) : f.Representable (-q) := by
  obtain ⟨⟨m, e, hm, he, rfl⟩, hx⟩ := h
  exact ⟨⟨-m, e, by simpa using hm, he, by push_cast; ring⟩, by simpa using hx⟩

theorem rep_abs {f : Format} {q : ℚ} (h : f.Representable q) : f.Representable |q| := by
  rcases abs_choice q with h' | h' <;> rw [h']
  · exact h
  · exact rep_neg h

/-- Small integers and their products with powers of two. -/
theorem Std.rep_of {f : Format} (hf : f.Std) (m : ℤ) (e : ℤ) (hm : |m| < 2 ^ 24) (he : -100 ≤ e)
    (he' : e ≤ 100) : f.Representable (m * 2 ^ e) := by
  refine ⟨⟨m, e, lt_of_lt_of_le hm (pow_le_pow_right₀ (by norm_num) hf.prec_ge), ?_, rfl⟩, ?_⟩
  · have := hf.emin_le; omega
  · rw [abs_mul, abs_of_pos (by positivity : (0 : ℚ) < 2 ^ e)]
    have h1 : |(m : ℚ)| < 2 ^ (24 : ℤ) := by exact_mod_cast hm
    calc |(m : ℚ)| * 2 ^ e < 2 ^ (24 : ℤ) * 2 ^ e := mul_lt_mul_of_pos_right h1 (by positivity)
      _ = 2 ^ (24 + e) := by rw [zpow_add₀ (by norm_num)]
      _ ≤ 2 ^ f.emax := zpow_le_zpow_right₀ (by norm_num) (by have := hf.emax_ge; omega)

theorem Std.rep_one {f : Format} (hf : f.Std) : f.Representable 1 := by
  have := hf.rep_of 1 0 (by norm_num) (by norm_num) (by norm_num); simpa using this
theorem Std.rep_two {f : Format} (hf : f.Std) : f.Representable 2 := by
  have := hf.rep_of 2 0 (by norm_num) (by norm_num) (by norm_num); simpa using this
theorem Std.rep_half {f : Format} (hf : f.Std) : f.Representable (1/2) := by
  have := hf.rep_of 1 (-1) (by norm_num) (by norm_num) (by norm_num); simpa using this

/-- A number of the format is a multiple of the least positive one. -/
theorem Representable.multiple {f : Format} {q : ℚ} (h : f.Representable q) :
    ∃ k : ℤ, q = k * 2 ^ f.emin := by
  obtain ⟨⟨m, e, -, he, rfl⟩, -⟩ := h
  obtain ⟨d, hd⟩ := Int.le.dest he
  refine ⟨m * 2 ^ d, ?_⟩
  rw [← hd, zpow_add₀ (by norm_num), zpow_natCast]; push_cast; ring

/-- Rounding never makes a NaN. -/
theorem round_ne_nan (f : Format) (q : ℚ) : f.round q ≠ .nan := by
  unfold round; simp only; split_ifs <;> simp

theorem round_cases (f : Format) (q : ℚ) :
    (∃ r, f.round q = .fin r) ∨ f.round q = .inf (decide (q < 0)) := by
  unfold round; simp only; split_ifs <;> simp

theorem roundEven_sign (q : ℚ) (h : 0 ≤ q) : 0 ≤ roundEven q := by
  have : 0 ≤ ⌊q⌋ := Int.floor_nonneg.mpr h
  unfold roundEven; simp only; split_ifs <;> omega

theorem roundEven_sign' (q : ℚ) (h : q ≤ 0) : roundEven q ≤ 0 := by
  have h1 := Int.floor_le q
  have h2 : ⌊q⌋ ≤ 0 := by exact_mod_cast h1.trans h
  rcases h2.lt_or_eq with h3 | h3
  · unfold roundEven; simp only; split_ifs <;> omega
  · rw [h3] at h1
    have : q = 0 := le_antisymm h (by simpa using h1)
    subst this
    simp [roundEven]

theorem round_nonneg {f : Format} {q r : ℚ} (h : f.round q = .fin r) (hq : 0 ≤ q) : 0 ≤ r := by
  unfold round at h
  simp only at h
  split_ifs at h
  obtain rfl := FVal.fin.inj h
  have := roundEven_sign (q / 2 ^ f.quantum q) (by positivity)
  have h2 : (0 : ℚ) ≤ roundEven (q / 2 ^ f.quantum q) := by exact_mod_cast this
  positivity

theorem round_nonpos {f : Format} {q r : ℚ} (h : f.round q = .fin r) (hq : q ≤ 0) : r ≤ 0 := by
  unfold round at h
  simp only at h
  split_ifs at h
  obtain rfl := FVal.fin.inj h
  have := roundEven_sign' (q / 2 ^ f.quantum q) (div_nonpos_of_nonpos_of_nonneg hq (by positivity))
  have h2 : (roundEven (q / 2 ^ f.quantum q) : ℚ) ≤ 0 := by exact_mod_cast this
  exact mul_nonpos_of_nonpos_of_nonneg h2 (by positivity)

theorem log_le_of {q : ℚ} {k : ℤ} (h0 : q ≠ 0) (h : |q| ≤ 2 ^ k) : Int.log 2 |q| ≤ k := by
  have h1 := Int.zpow_log_le_self (b := 2) (r := |q|) (by norm_num) (abs_pos.mpr h0)
  have h2 : (2 : ℚ) ^ Int.log 2 |q| ≤ 2 ^ k := le_trans (by exact_mod_cast h1) h
  exact (zpow_le_zpow_iff_right₀ (by norm_num : (1 : ℚ) < 2)).mp h2

/-- Numbers up to a power of two below the overflow threshold stay below it when rounded. -/
theorem round_le (f : Format) (hp : 1 ≤ f.prec) {q : ℚ} {k : ℤ} (h : |q| ≤ 2 ^ k) (hk : f.emin ≤ k)
    (hk' : k < f.emax) : ∃ r, f.round q = .fin r ∧ |r| ≤ 2 ^ k := by
  rcases eq_or_ne q 0 with rfl | h0
  · exact ⟨0, f.round_exact f.rep_zero, by simp; positivity⟩
  have hq : f.quantum q ≤ k := by
    unfold quantum
    refine max_le ?_ hk
    have := log_le_of h0 h
    omega
  obtain ⟨d, hd⟩ := Int.le.dest hq
  set u : ℚ := 2 ^ f.quantum q with hu
  have hu0 : 0 < u := by positivity
  have hle := roundEven_le (q / u) (2 ^ d) (by
    rw [abs_div, abs_of_pos hu0, div_le_iff₀ hu0]
    push_cast
    rw [hu, ← zpow_natCast, ← zpow_add₀ (by norm_num), add_comm, hd]
    exact h)
  have hr : |(roundEven (q / u) : ℚ) * u| ≤ 2 ^ k := by
    rw [abs_mul, abs_of_pos hu0, ← hd, add_comm, zpow_add₀ (by norm_num), zpow_natCast, ← hu]
    exact mul_le_mul_of_nonneg_right (by exact_mod_cast hle) hu0.le
  refine ⟨roundEven (q / u) * u, ?_, hr⟩
  unfold round
  simp only
  rw [if_pos]
  exact lt_of_le_of_lt hr (zpow_lt_zpow_right₀ (by norm_num) hk')

/-- Overflow needs a large number. -/
theorem round_inf (f : Format) (hp : 1 ≤ f.prec) (he : f.emin < f.emax) {q : ℚ} {b : Bool}
    (h : f.round q = .inf b) : 2 ^ (f.emax - 1) < |q| ∧ b = decide (q < 0) := by
  refine ⟨?_, ?_⟩
  · by_contra hc
    obtain ⟨r, hr, -⟩ := f.round_le hp (not_lt.mp hc) (by omega) (by omega)
    rw [hr] at h; cases h
  · rcases f.round_cases q with ⟨r, hr⟩ | hr
    · rw [hr] at h; cases h
    · rw [hr] at h; exact (FVal.inf.inj h).symm

/-- Error of rounding: relative `2^-prec` in the normal range, absolute half the least positive
number below it. -/
theorem round_error_abs (f : Format) {q r : ℚ} (h : f.round q = .fin r) :
    |r - q| ≤ |q| / 2 ^ f.prec ∨ (f.quantum q = f.emin ∧ |r - q| ≤ 2 ^ (f.emin - 1)) := by
  rcases le_or_gt (f.emin + ((f.prec : ℤ) - 1)) (Int.log 2 |q|) with hn | hn
  · left; rw [abs_sub_comm]; exact f.round_error h hn
  · right
    have hq : f.quantum q = f.emin := max_eq_right (by omega)
    refine ⟨hq, ?_⟩
    unfold round at h
    simp only at h
    split_ifs at h with hlt
    obtain rfl : _ = r := FVal.fin.inj h
    rw [hq]
    set u : ℚ := 2 ^ f.emin with hu
    have hu0 : 0 < u := by positivity
    have := roundEven_error (q / u)
    have e : |roundEven (q / u) * u - q| = |q / u - roundEven (q / u)| * u := by
      rw [← abs_of_pos hu0, ← abs_mul, abs_of_pos hu0, abs_sub_comm]
      congr 1
      field_simp
    rw [e, zpow_sub₀ (by norm_num), ← hu]
    norm_num
    nlinarith

/-- The error of rounding a sum or difference of two numbers of the format is relative, also in the
subnormal range. -/
theorem round_add_error (f : Format) {a b r : ℚ} (ha : f.Representable a) (hb : f.Representable b)
    (h : f.round (a + b) = .fin r) : |r - (a + b)| ≤ |a + b| / 2 ^ f.prec := by
  rcases f.round_error_abs h with h1 | ⟨hq, -⟩
  · exact h1
  · obtain ⟨k, hk⟩ := ha.multiple
    obtain ⟨l, hl⟩ := hb.multiple
    unfold round at h
    simp only [hq] at h
    have e : (a + b) / 2 ^ f.emin = ((k + l : ℤ) : ℚ) := by
      rw [hk, hl]; push_cast; field_simp
    rw [e, roundEven_int] at h
    split_ifs at h
    obtain rfl := FVal.fin.inj h
    have : (((k + l : ℤ) : ℚ)) * 2 ^ f.emin - (a + b) = 0 := by rw [hk, hl]; push_cast; ring
    rw [this, abs_zero]
    positivity

end Format
end Verif
