import Verif.Lemmas.NearOps
import Verif.Lemmas.DoubleDist

/-! Absolute error bounds with numeric constants, for straight-line double-precision code. -/

namespace Verif
open Format

/-- `r` is a double within `e` of `x`, and `|x| ≤ X`. -/
structure Appr (r : ℚ) (x X e : ℝ) : Prop where
  rep : f64.Representable r
  mag : |x| ≤ X
  err : |(r : ℝ) - x| ≤ e

theorem std64 : f64.Std := Or.inl rfl

theorem round64 {q : ℚ} {Z : ℝ} (h : |(q : ℝ)| ≤ Z) (hZ : Z ≤ 2 ^ 100) :
    ∃ r, f64.round q = .fin r ∧ f64.Representable r ∧
      |(r : ℝ) - q| ≤ 2 ^ (-53 : ℤ) * Z + 1e-40 := by
  obtain ⟨r, hr⟩ := round_small std64 (q := q) (rat_le (h.trans (hZ.trans (by norm_num))))
  obtain ⟨h1, h2⟩ := near_round std64 hr
  refine ⟨r, hr, h1, h2.trans ?_⟩
  have hu : f64.u = 2 ^ (-53 : ℤ) := by norm_num [Format.u, f64]
  have he : (2 : ℝ) ^ f64.emin ≤ 1e-40 := by
    calc (2 : ℝ) ^ f64.emin ≤ 2 ^ (-140 : ℤ) := zpow_le_zpow_right₀ (by norm_num) (by norm_num [f64])
      _ ≤ 1e-40 := by norm_num
  rw [hu]
  have : (2 : ℝ) ^ (-53 : ℤ) * |(q : ℝ)| ≤ 2 ^ (-53 : ℤ) * Z := by gcongr
  linarith

theorem Appr.nonneg {r : ℚ} {x X e : ℝ} (h : Appr r x X e) : 0 ≤ X ∧ 0 ≤ e :=
  ⟨(abs_nonneg _).trans h.mag, (abs_nonneg _).trans h.err⟩

theorem Appr.size {r : ℚ} {x X e : ℝ} (h : Appr r x X e) : |(r : ℝ)| ≤ X + e := by
  have h1 := abs_sub_abs_le_abs_sub (r : ℝ) x
  linarith [h.mag, h.err]

theorem Appr.exact {q : ℚ} (h : f64.Representable q) {X : ℝ} (hX : |(q : ℝ)| ≤ X) : Appr q q X 0 :=
  ⟨h, hX, by simp⟩

theorem Appr.lit (c : ℚ) {X e : ℝ} (hX : |(c : ℝ)| ≤ X) (hZ : X ≤ 2 ^ 100)
    (he : 2 ^ (-53 : ℤ) * X + 1e-40 ≤ e) : ∃ r, f64.round c = .fin r ∧ Appr r c X e := by
  obtain ⟨r, h1, h2, h3⟩ := round64 hX hZ
  exact ⟨r, h1, h2, hX, h3.trans he⟩

theorem Appr.add {a b : ℚ} {x X e y Y d : ℝ} (ha : Appr a x X e) (hb : Appr b y Y d) (Z E : ℝ)
    (hZ : X + Y ≤ Z) (hb' : Z + (e + d) ≤ 2 ^ 100)
    (hE : e + d + (2 ^ (-53 : ℤ) * (Z + (e + d)) + 1e-40) ≤ E) :
    ∃ r, Flt.add f64 (.fin a) (.fin b) = .fin r ∧ Appr r (x + y) Z E := by
  have h0 : |((a + b : ℚ) : ℝ)| ≤ Z + (e + d) := by
    push_cast
    have := abs_add_le (a : ℝ) b
    linarith [ha.size, hb.size]
  obtain ⟨r, h1, h2, h3⟩ := round64 h0 hb'
  refine ⟨r, h1, h2, (abs_add_le _ _).trans (by linarith [ha.mag, hb.mag]), ?_⟩
  push_cast at h3
  have h4 : |(a : ℝ) + b - (x + y)| ≤ e + d := by
    rw [add_sub_add_comm]
    exact (abs_add_le _ _).trans (add_le_add ha.err hb.err)
  have h5 := abs_sub_le (r : ℝ) (a + b) (x + y)
  linarith

/-- Addition where the size of the exact sum is known (cancellation). -/
theorem Appr.add_of {a b : ℚ} {x X e y Y d : ℝ} (ha : Appr a x X e) (hb : Appr b y Y d) (Z E : ℝ)
    (hZ : |x + y| ≤ Z) (hb' : Z + (e + d) ≤ 2 ^ 100)
    (hE : e + d + (2 ^ (-53 : ℤ) * (Z + (e + d)) + 1e-40) ≤ E) :
    ∃ r, Flt.add f64 (.fin a) (.fin b) = .fin r ∧ Appr r (x + y) Z E := by
  have h4 : |(a : ℝ) + b - (x + y)| ≤ e + d := by
    rw [add_sub_add_comm]
    exact (abs_add_le _ _).trans (add_le_add ha.err hb.err)
  have h0 : |((a + b : ℚ) : ℝ)| ≤ Z + (e + d) := by
    push_cast
    have := abs_sub_abs_le_abs_sub ((a : ℝ) + b) (x + y)
    linarith
  obtain ⟨r, h1, h2, h3⟩ := round64 h0 hb'
  refine ⟨r, h1, h2, hZ, ?_⟩
  push_cast at h3
  have h5 := abs_sub_le (r : ℝ) (a + b) (x + y)
  linarith

theorem Appr.neg {a : ℚ} {x X e : ℝ} (h : Appr a x X e) : Appr (-a) (-x) X e := by
  refine ⟨rep_neg h.rep, by rw [abs_neg]; exact h.mag, ?_⟩
  have : ((-a : ℚ) : ℝ) - -x = -((a : ℝ) - x) := by push_cast; ring
  rw [this, abs_neg]; exact h.err

theorem Appr.sub {a b : ℚ} {x X e y Y d : ℝ} (ha : Appr a x X e) (hb : Appr b y Y d) (Z E : ℝ)
    (hZ : X + Y ≤ Z) (hb' : Z + (e + d) ≤ 2 ^ 100)
    (hE : e + d + (2 ^ (-53 : ℤ) * (Z + (e + d)) + 1e-40) ≤ E) :
    ∃ r, Flt.sub f64 (.fin a) (.fin b) = .fin r ∧ Appr r (x - y) Z E := by
  obtain ⟨r, h1, h2⟩ := ha.add hb.neg Z E hZ hb' hE
  exact ⟨r, h1, h2.rep, h2.mag, h2.err⟩

theorem Appr.sub_of {a b : ℚ} {x X e y Y d : ℝ} (ha : Appr a x X e) (hb : Appr b y Y d) (Z E : ℝ)
    (hZ : |x - y| ≤ Z) (hb' : Z + (e + d) ≤ 2 ^ 100)
    (hE : e + d + (2 ^ (-53 : ℤ) * (Z + (e + d)) + 1e-40) ≤ E) :
    ∃ r, Flt.sub f64 (.fin a) (.fin b) = .fin r ∧ Appr r (x - y) Z E := by
  obtain ⟨r, h1, h2⟩ := ha.add_of hb.neg Z E (by rwa [← sub_eq_add_neg]) hb' hE
  exact ⟨r, h1, h2.rep, h2.mag, h2.err⟩

theorem Appr.mul {a b : ℚ} {x X e y Y d : ℝ} (ha : Appr a x X e) (hb : Appr b y Y d) (Z E : ℝ)
    (hZ : X * Y ≤ Z) (hb' : (X + e) * (Y + d) ≤ 2 ^ 100)
    (hE : e * (Y + d) + X * d + (2 ^ (-53 : ℤ) * ((X + e) * (Y + d)) + 1e-40) ≤ E) :
    ∃ r, Flt.mul f64 (.fin a) (.fin b) = .fin r ∧ Appr r (x * y) Z E := by
  obtain ⟨hX, he⟩ := ha.nonneg
  obtain ⟨hY, hd⟩ := hb.nonneg
  have h0 : |((a * b : ℚ) : ℝ)| ≤ (X + e) * (Y + d) := by
    push_cast
    rw [abs_mul]
    exact mul_le_mul ha.size hb.size (abs_nonneg _) (by linarith)
  obtain ⟨r, h1, h2, h3⟩ := round64 h0 hb'
  refine ⟨r, h1, h2, ?_, ?_⟩
  · rw [abs_mul]
    exact (mul_le_mul ha.mag hb.mag (abs_nonneg _) hX).trans hZ
  push_cast at h3
  have h4 : |(a : ℝ) * b - x * y| ≤ e * (Y + d) + X * d := by
    have : (a : ℝ) * b - x * y = (a - x) * b + x * (b - y) := by ring
    rw [this]
    refine (abs_add_le _ _).trans ?_
    rw [abs_mul, abs_mul]
    exact add_le_add (mul_le_mul ha.err hb.size (abs_nonneg _) he)
      (mul_le_mul ha.mag hb.err (abs_nonneg _) hX)
  have h5 := abs_sub_le (r : ℝ) (a * b) (x * y)
  linarith

/-- Division by a number that is at least `m`, with quotient at most `Z`. -/
theorem Appr.div {a b : ℚ} {x X e y Y d : ℝ} (ha : Appr a x X e) (hb : Appr b y Y d) (m Z E : ℝ)
    (hm : m ≤ y) (hmd : d < m) (hq : |x / y| ≤ Z)
    (hb' : Z + (e + Z * d) / (m - d) ≤ 2 ^ 100)
    (hE : (e + Z * d) / (m - d) + (2 ^ (-53 : ℤ) * (Z + (e + Z * d) / (m - d)) + 1e-40) ≤ E) :
    ∃ r, Flt.div f64 (.fin a) (.fin b) = .fin r ∧ Appr r (x / y) Z E := by
  obtain ⟨hX, he⟩ := ha.nonneg
  obtain ⟨hY, hd⟩ := hb.nonneg
  have hbm : m - d ≤ b := by have := (abs_le.mp hb.err).1; linarith
  have hb0 : (0 : ℝ) < b := by linarith
  have hy0 : 0 < y := by linarith
  have hbq : b ≠ 0 := by rintro rfl; simp at hb0
  have hZ0 : 0 ≤ Z := (abs_nonneg _).trans hq
  have h4 : |(a : ℝ) / b - x / y| ≤ (e + Z * d) / (m - d) := by
    have : (a : ℝ) / b - x / y = ((a - x) - x / y * (b - y)) / b := by field_simp; ring
    rw [this, abs_div, abs_of_pos hb0]
    refine div_le_div₀ (by positivity) ?_ (by linarith) hbm
    refine (abs_sub _ _).trans ?_
    rw [abs_mul]
    exact add_le_add ha.err (mul_le_mul hq hb.err (abs_nonneg _) hZ0)
  have h0 : |((a / b : ℚ) : ℝ)| ≤ Z + (e + Z * d) / (m - d) := by
    push_cast
    have := abs_sub_abs_le_abs_sub ((a : ℝ) / b) (x / y)
    linarith
  obtain ⟨r, h1, h2, h3⟩ := round64 h0 hb'
  refine ⟨r, by simp only [Flt.div, if_neg hbq]; exact h1, h2, hq, ?_⟩
  push_cast at h3
  have h5 := abs_sub_le (r : ℝ) (a / b) (x / y)
  linarith

end Verif
