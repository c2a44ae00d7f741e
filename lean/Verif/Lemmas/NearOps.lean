import Verif.Lemmas.DoubleDist

/-! Operations on numbers of moderate size: the result exists and is near. -/

namespace Verif
open Format

variable {f : Format} {L : Libm}

theorem Near.mul_ex (hf : f.Std) {k l : ℝ} {a b : ℚ} {x y X Y : ℝ} (ha : Near f k a x X)
    (hb : Near f l b y Y) (hk0 : 0 ≤ k) (hl0 : 0 ≤ l) (hk : k ≤ 1000) (hl : l ≤ 1000)
    (hη : f.u ^ 3 ≤ X * Y) (hB : X * Y ≤ 2 ^ 90) :
    ∃ r, Flt.mul f (.fin a) (.fin b) = .fin r ∧ Near f (k + l + 4) r (x * y) (X * Y) := by
  have h1 := ha.size hf hk
  have h2 := hb.size hf hl
  have h3 : |(a : ℝ)| * |(b : ℝ)| ≤ (2 * X) * (2 * Y) :=
    mul_le_mul h1 h2 (abs_nonneg _) (by have := ha.nonneg; positivity)
  obtain ⟨r, hr⟩ := round_small hf (q := a * b) (rat_le (by
    push_cast
    rw [abs_mul]
    have : (2 : ℝ) ^ (100 : ℤ) = 1024 * 2 ^ 90 := by norm_num
    rw [this]
    nlinarith))
  exact ⟨r, hr, Near.mul hf ha hb hk0 hl0 hk hl hη hr⟩

theorem Near.add_ex (hf : f.Std) {k : ℝ} {a b : ℚ} {x y X Y : ℝ} (ha : Near f k a x X)
    (hb : Near f k b y Y) (hk : k ≤ 1000) (hB : X + Y ≤ 2 ^ 90) :
    ∃ r, Flt.add f (.fin a) (.fin b) = .fin r ∧ Near f (k + 2) r (x + y) (X + Y) := by
  have h1 := ha.size hf hk
  have h2 := hb.size hf hk
  have h3 := abs_add_le (a : ℝ) b
  obtain ⟨r, hr⟩ := round_small hf (q := a + b) (rat_le (by
    push_cast
    have : (2 : ℝ) ^ (100 : ℤ) = 1024 * 2 ^ 90 := by norm_num
    rw [this]
    linarith))
  exact ⟨r, hr, Near.add hf ha hb hk hr⟩

theorem Near.sub_ex (hf : f.Std) {k : ℝ} {a b : ℚ} {x y X Y : ℝ} (ha : Near f k a x X)
    (hb : Near f k b y Y) (hk : k ≤ 1000) (hB : X + Y ≤ 2 ^ 90) :
    ∃ r, Flt.sub f (.fin a) (.fin b) = .fin r ∧ Near f (k + 2) r (x - y) (X + Y) := by
  have := Near.add_ex hf ha hb.neg hk hB
  rwa [← sub_eq_add_neg] at this

/-- division of two computed numbers, the divisor positive -/
theorem Near.div_ex (hf : f.Std) {k l : ℝ} {a b : ℚ} {x y X : ℝ} (ha : Near f k a x X)
    (hb : Near f l b y y) (hy : 0 < y) (hk0 : 0 ≤ k) (hl0 : 0 ≤ l) (hk : k ≤ 1000) (hl : l ≤ 1000)
    (hη : f.u ^ 3 ≤ X / y) (hB : X / y ≤ 2 ^ 90) :
    ∃ r, Flt.div f (.fin a) (.fin b) = .fin r ∧ Near f (k + 2 * l + 6) r (x / y) (X / y) := by
  have hu := u_pos f
  have hul := hf.u_le
  have hlu : l * f.u ≤ 1/10000 := by nlinarith
  have hku : k * f.u ≤ 1/10000 := by nlinarith
  have hlu0 : 0 ≤ l * f.u := by positivity
  have hbe := abs_le.mp hb.err
  have hbl : (1 - l * f.u) * y ≤ b := by nlinarith
  have hb0 : (0 : ℝ) < b := by nlinarith
  have hb0' : 0 < b := by exact_mod_cast hb0
  have hX := ha.nonneg
  -- the exact quotient of the computed numbers
  have hq1 : |(a : ℝ) / b - x / y| ≤ (k + 2 * l + 1) * f.u * (X / y) := by
    have e : (a : ℝ) / b - x / y = ((a - x) * y - x * (b - y)) / (b * y) := by field_simp; ring
    rw [e, abs_div, abs_of_pos (by positivity : (0 : ℝ) < b * y), div_le_iff₀ (by positivity)]
    have h1 := abs_sub ((a - x) * y) (x * (b - y))
    rw [abs_mul, abs_mul, abs_of_pos hy] at h1
    have h2 : |(a : ℝ) - x| * y ≤ (k * f.u * X) * y := mul_le_mul_of_nonneg_right ha.err hy.le
    have h3 : |x| * |(b : ℝ) - y| ≤ X * (l * f.u * y) := mul_le_mul ha.mag hb.err (abs_nonneg _) hX
    have h4 : (k + 2 * l + 1) * f.u * (X / y) * (b * y) = (k + 2 * l + 1) * f.u * X * b := by
      field_simp
    rw [h4]
    have h5 : (k + 2 * l + 1) * f.u * X * ((1 - l * f.u) * y) ≤ (k + 2 * l + 1) * f.u * X * b := by
      gcongr
    have h6 : k * l * f.u ≤ 1/10 := by
      have := mul_le_mul hk hlu hlu0 (by norm_num)
      linarith
    have h7 : l * (l * f.u) ≤ 1/10 := by
      have := mul_le_mul hl hlu hlu0 (by norm_num)
      linarith
    have h8 : (k + l) ≤ (k + 2 * l + 1) * (1 - l * f.u) := by nlinarith
    have h9 : (k + l) * (f.u * X * y) ≤ (k + 2 * l + 1) * (1 - l * f.u) * (f.u * X * y) :=
      mul_le_mul_of_nonneg_right h8 (by positivity)
    nlinarith
  have hxy : |x / y| ≤ X / y := by rw [abs_div, abs_of_pos hy]; gcongr; exact ha.mag
  have hXy : 0 ≤ X / y := by positivity
  have hsz : |(a : ℝ) / b| ≤ 2 * (X / y) := by
    have h1 := abs_sub_abs_le_abs_sub ((a : ℝ) / b) (x / y)
    have h2 : (k + 2 * l + 1) * f.u ≤ 1 := by
      have : f.u ≤ 1/10000 := hul.trans (by norm_num)
      nlinarith
    have := mul_le_mul_of_nonneg_right h2 hXy
    linarith
  obtain ⟨r, hr⟩ := round_small hf (q := a / b) (rat_le (by
    push_cast
    have : (2 : ℝ) ^ (100 : ℤ) = 1024 * 2 ^ 90 := by norm_num
    rw [this]
    linarith))
  obtain ⟨hrep, he⟩ := near_round hf hr
  push_cast at he
  refine ⟨r, by simp only [Flt.div, if_neg hb0'.ne', hr], hrep, hxy, ?_⟩
  have e : (r : ℝ) - x / y = ((r : ℝ) - a / b) + ((a : ℝ) / b - x / y) := by ring
  rw [e]
  have h6 := abs_add_le ((r : ℝ) - a / b) ((a : ℝ) / b - x / y)
  have hη2 : (2 : ℝ) ^ f.emin ≤ f.u * (X / y) := by
    calc (2 : ℝ) ^ f.emin ≤ f.u ^ 4 := hf.eta_le
      _ = f.u * f.u ^ 3 := by ring
      _ ≤ f.u * (X / y) := by gcongr
  have h9 : f.u * |(a : ℝ) / b| ≤ f.u * (2 * (X / y)) := by gcongr
  nlinarith

theorem u_cube_le_of (hf : f.Std) {x : ℝ} (h : 1 / 2 ^ 20 ≤ x) : f.u ^ 3 ≤ x := by
  have hu := u_pos f
  have : f.u ^ 3 ≤ f.u ^ 1 := pow_le_pow_of_le_one hu.le (hf.u_le.trans (by norm_num)) (by norm_num)
  have := hf.u_le
  norm_num at *
  linarith

theorem u_cube_le_of' (hf : f.Std) {x : ℝ} (h : 1 / 2 ^ 22 ≤ x) : f.u ^ 3 ≤ x := by
  have hu := u_pos f
  have : f.u ^ 3 ≤ f.u ^ 1 := pow_le_pow_of_le_one hu.le (hf.u_le.trans (by norm_num)) (by norm_num)
  have := hf.u_le
  norm_num at *
  linarith

theorem u_cube_le_tiny (hf : f.Std) {x : ℝ} (h : 1 / 2 ^ 60 ≤ x) : f.u ^ 3 ≤ x := by
  have hu := u_pos f
  have : f.u ^ 3 ≤ (1 / 2 ^ 24) ^ 3 := pow_le_pow_left₀ hu.le hf.u_le 3
  norm_num at *
  linarith

theorem Near.one (hf : f.Std) : Near f 0 1 1 1 := by
  have := Near.exact hf.rep_one; norm_num at this; exact this
theorem Near.two (hf : f.Std) : Near f 0 2 2 2 := by
  have := Near.exact hf.rep_two; norm_num at this; exact this
theorem Near.half (hf : f.Std) : Near f 0 (1/2) (1/2) (1/2) := by
  have := Near.exact hf.rep_half; norm_num at this ⊢; exact this

/-- an exact number, with a larger magnitude -/
theorem Near.exact' {a : ℚ} (h : f.Representable a) {X : ℝ} (hX : |(a : ℝ)| ≤ X) : Near f 0 a a X :=
  (Near.exact h).mono le_rfl hX le_rfl

theorem add_zero_rep {a : ℚ} (h : f.Representable a) : Flt.add f (.fin a) (.fin 0) = .fin a := by
  have : Flt.add f (.fin a) (.fin 0) = f.round (a + 0) := rfl
  rw [this, add_zero]; exact f.round_exact h

theorem zero_add_rep {a : ℚ} (h : f.Representable a) : Flt.add f (.fin 0) (.fin a) = .fin a := by
  have : Flt.add f (.fin 0) (.fin a) = f.round (0 + a) := rfl
  rw [this, zero_add]; exact f.round_exact h

end Verif
