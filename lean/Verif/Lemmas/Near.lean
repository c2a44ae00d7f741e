import Verif.Spec.Double
import Verif.Lemmas.Rounding
import Mathlib.Analysis.Real.Pi.Bounds
import Mathlib.Analysis.SpecialFunctions.Log.Deriv
import Mathlib.Analysis.Complex.ExponentialBounds

/-!
A calculus of rounding errors: `Near f k a x X` says that the computed number `a` differs from the
exact number `x` by at most `k` units of roundoff relative to the magnitude `X`.
-/

namespace Verif
open Format

variable {f : Format}

theorem u_pos (f : Format) : 0 < f.u := by unfold Format.u; positivity

theorem Format.Std.u_le (hf : f.Std) : f.u ≤ 1 / 2 ^ 24 := by
  unfold Format.u
  exact one_div_le_one_div_of_le (by positivity) (pow_le_pow_right₀ (by norm_num) hf.prec_ge)

/-- half the least positive number is far below the fourth power of the roundoff -/
theorem Format.Std.eta_le (hf : f.Std) : (2 : ℝ) ^ f.emin ≤ f.u ^ 4 := by
  unfold Format.u
  have h1 : (1 / 2 ^ f.prec : ℝ) ^ 4 = 2 ^ (-4 * (f.prec : ℤ)) := by
    rw [one_div, inv_pow, ← pow_mul, neg_mul, zpow_neg, mul_comm]
    congr 1
  rw [h1]
  exact zpow_le_zpow_right₀ (by norm_num) hf.emin_prec

/-- `a` approximates `x`, of magnitude at most `X`, up to `k` units. -/
structure Near (f : Format) (k : ℝ) (a : ℚ) (x X : ℝ) : Prop where
  rep : f.Representable a
  mag : |x| ≤ X
  err : |(a : ℝ) - x| ≤ k * f.u * X

theorem Near.nonneg {k : ℝ} {a : ℚ} {x X : ℝ} (h : Near f k a x X) : 0 ≤ X :=
  (abs_nonneg _).trans h.mag

theorem Near.mono {k k' : ℝ} {a : ℚ} {x X X' : ℝ} (h : Near f k a x X) (hk : k ≤ k') (hX : X ≤ X')
    (hk0 : 0 ≤ k) : Near f k' a x X' := by
  refine ⟨h.rep, h.mag.trans hX, h.err.trans ?_⟩
  have := u_pos f
  have := h.nonneg
  have h1 : k * f.u ≤ k' * f.u := mul_le_mul_of_nonneg_right hk (by positivity)
  exact mul_le_mul h1 hX (by positivity) (by nlinarith)

theorem Near.exact {a : ℚ} (h : f.Representable a) : Near f 0 a a |(a : ℝ)| :=
  ⟨h, le_rfl, by simp⟩

theorem Near.neg {k : ℝ} {a : ℚ} {x X : ℝ} (h : Near f k a x X) : Near f k (-a) (-x) X := by
  refine ⟨rep_neg h.rep, by rw [abs_neg]; exact h.mag, ?_⟩
  have : ((-a : ℚ) : ℝ) - -x = -((a : ℝ) - x) := by push_cast; ring
  rw [this, abs_neg]; exact h.err

/-- size of the computed number -/
theorem Near.size (hf : f.Std) {k : ℝ} {a : ℚ} {x X : ℝ} (h : Near f k a x X)
    (hk' : k ≤ 1000) : |(a : ℝ)| ≤ 2 * X := by
  have h1 := abs_sub_abs_le_abs_sub (a : ℝ) x
  have h2 := h.err
  have h3 := h.mag
  have h4 : k * f.u ≤ 1 := by
    have := hf.u_le
    have := u_pos f
    nlinarith
  have := mul_le_mul_of_nonneg_right h4 h.nonneg
  linarith

theorem Near.size' {k : ℝ} {a : ℚ} {x X : ℝ} (h : Near f k a x X)
    : |(a : ℝ)| ≤ (1 + k * f.u) * X := by
  have h1 := abs_sub_abs_le_abs_sub (a : ℝ) x
  have h2 := h.err
  have h3 := h.mag
  nlinarith

theorem rat_abs_le {a b : ℚ} {c : ℚ} (h : |a - b| ≤ c) : |(a : ℝ) - b| ≤ c := by
  exact_mod_cast h

theorem near_round_add (hf : f.Std) {a b r : ℚ} (ha : f.Representable a) (hb : f.Representable b)
    (h : f.round (a + b) = .fin r) :
    f.Representable r ∧ |(r : ℝ) - (a + b)| ≤ f.u * |(a : ℝ) + b| := by
  have hv := f.round_valid (by have := hf.prec_ge; omega) (a + b)
  rw [h] at hv
  refine ⟨hv, ?_⟩
  have := f.round_add_error ha hb h
  have h2 : |(r : ℝ) - ((a + b : ℚ) : ℝ)| ≤ ((|a + b| / 2 ^ f.prec : ℚ) : ℝ) := rat_abs_le this
  push_cast at h2
  unfold Format.u
  calc _ ≤ _ := h2
    _ = _ := by ring

theorem near_round (hf : f.Std) {q r : ℚ} (h : f.round q = .fin r) :
    f.Representable r ∧ |(r : ℝ) - q| ≤ f.u * |(q : ℝ)| + 2 ^ f.emin := by
  have hv := f.round_valid (by have := hf.prec_ge; omega) q
  rw [h] at hv
  refine ⟨hv, ?_⟩
  have hu := u_pos f
  rcases f.round_error_abs h with h1 | ⟨-, h1⟩
  · have h2 : |(r : ℝ) - (q : ℝ)| ≤ ((|q| / 2 ^ f.prec : ℚ) : ℝ) := rat_abs_le h1
    push_cast at h2
    have h3 : f.u * |(q : ℝ)| = |(q : ℝ)| / 2 ^ f.prec := by unfold Format.u; ring
    rw [h3]
    have : (0 : ℝ) < 2 ^ f.emin := by positivity
    linarith
  · have h2 : |(r : ℝ) - (q : ℝ)| ≤ ((2 ^ (f.emin - 1) : ℚ) : ℝ) := rat_abs_le h1
    push_cast at h2
    have h3 : (2 : ℝ) ^ (f.emin - 1) ≤ 2 ^ f.emin := zpow_le_zpow_right₀ (by norm_num) (by omega)
    have : 0 ≤ f.u * |(q : ℝ)| := by positivity
    linarith

/-- addition: two more units -/
theorem Near.add (hf : f.Std) {k : ℝ} {a b r : ℚ} {x y X Y : ℝ} (ha : Near f k a x X)
    (hb : Near f k b y Y) (hk : k ≤ 1000) (h : Flt.add f (.fin a) (.fin b) = .fin r) :
    Near f (k + 2) r (x + y) (X + Y) := by
  obtain ⟨hr, he⟩ := near_round_add hf ha.rep hb.rep h
  refine ⟨hr, (abs_add_le _ _).trans (add_le_add ha.mag hb.mag), ?_⟩
  have h1 := abs_add_le (a : ℝ) b
  have h2 := ha.size hf hk
  have h3 := hb.size hf hk
  have h4 := ha.err
  have h5 := hb.err
  have hu := u_pos f
  have e : (r : ℝ) - (x + y) = ((r : ℝ) - (a + b)) + ((a : ℝ) - x) + ((b : ℝ) - y) := by ring
  rw [e]
  have h6 := abs_add_le (((r : ℝ) - (a + b)) + ((a : ℝ) - x)) ((b : ℝ) - y)
  have h7 := abs_add_le ((r : ℝ) - (a + b)) ((a : ℝ) - x)
  have h8 : f.u * |(a : ℝ) + b| ≤ f.u * (2 * X + 2 * Y) := by gcongr; linarith
  nlinarith

theorem Near.sub (hf : f.Std) {k : ℝ} {a b r : ℚ} {x y X Y : ℝ} (ha : Near f k a x X)
    (hb : Near f k b y Y) (hk : k ≤ 1000) (h : Flt.sub f (.fin a) (.fin b) = .fin r) :
    Near f (k + 2) r (x - y) (X + Y) := by
  rw [sub_eq_add_neg]; exact Near.add hf ha hb.neg hk h

/-- multiplication -/
theorem Near.mul (hf : f.Std) {k l : ℝ} {a b r : ℚ} {x y X Y : ℝ} (ha : Near f k a x X)
    (hb : Near f l b y Y) (hk0 : 0 ≤ k) (hl0 : 0 ≤ l) (hk : k ≤ 1000) (hl : l ≤ 1000)
    (hη : f.u ^ 3 ≤ X * Y)
    (h : Flt.mul f (.fin a) (.fin b) = .fin r) :
    Near f (k + l + 4) r (x * y) (X * Y) := by
  obtain ⟨hr, he⟩ := near_round hf (q := a * b) h
  have hX := ha.nonneg
  have hY := hb.nonneg
  refine ⟨hr, by rw [abs_mul]; exact mul_le_mul ha.mag hb.mag (abs_nonneg _) hX, ?_⟩
  have hu := u_pos f
  have hul := hf.u_le
  have hη' := hf.eta_le
  have h2 := ha.size'
  have h3 := hb.size'
  have h4 := ha.err
  have h5 := hb.err
  have e : (r : ℝ) - x * y = ((r : ℝ) - (a * b : ℚ)) + ((a : ℝ) - x) * b + x * ((b : ℝ) - y) := by
    push_cast; ring
  rw [e]
  have h6 := abs_add_le (((r : ℝ) - (a * b : ℚ)) + ((a : ℝ) - x) * b) (x * ((b : ℝ) - y))
  have h7 := abs_add_le ((r : ℝ) - (a * b : ℚ)) (((a : ℝ) - x) * b)
  rw [abs_mul] at h6 h7
  have hP : 0 ≤ X * Y := mul_nonneg hX hY
  set P := X * Y with hPdef
  have hb2 : |(a : ℝ) - x| * |(b : ℝ)| ≤ (k * f.u) * (1 + l * f.u) * P := by
    calc |(a : ℝ) - x| * |(b : ℝ)| ≤ (k * f.u * X) * ((1 + l * f.u) * Y) :=
          mul_le_mul h4 h3 (abs_nonneg _) (by positivity)
      _ = _ := by rw [hPdef]; ring
  have hb3 : |x| * |(b : ℝ) - y| ≤ l * f.u * P := by
    calc |x| * |(b : ℝ) - y| ≤ X * (l * f.u * Y) := mul_le_mul ha.mag h5 (abs_nonneg _) hX
      _ = _ := by rw [hPdef]; ring
  have hab : |((a * b : ℚ) : ℝ)| ≤ (1 + k * f.u) * (1 + l * f.u) * P := by
    push_cast
    rw [abs_mul]
    calc |(a : ℝ)| * |(b : ℝ)| ≤ ((1 + k * f.u) * X) * ((1 + l * f.u) * Y) :=
          mul_le_mul h2 h3 (abs_nonneg _) (by positivity)
      _ = _ := by rw [hPdef]; ring
  have hη2 : (2 : ℝ) ^ f.emin ≤ f.u * P := by
    calc (2 : ℝ) ^ f.emin ≤ f.u ^ 4 := hη'
      _ = f.u * f.u ^ 3 := by ring
      _ ≤ f.u * P := by gcongr
  have hku : k * f.u ≤ 1/10000 := by nlinarith
  have hlu : l * f.u ≤ 1/10000 := by nlinarith
  have hku0 : 0 ≤ k * f.u := by positivity
  have hlu0 : 0 ≤ l * f.u := by positivity
  have hkl : k * (l * f.u) ≤ 1/2 := by nlinarith
  have hcoef : (1 + k * f.u) * (1 + l * f.u) ≤ 2 := by nlinarith
  have hA : f.u * |((a * b : ℚ) : ℝ)| ≤ f.u * (2 * P) := by
    gcongr
    exact hab.trans (mul_le_mul_of_nonneg_right hcoef hP)
  have hB : (k * f.u) * (1 + l * f.u) * P ≤ (k + 1/2) * f.u * P := by
    apply mul_le_mul_of_nonneg_right _ hP
    nlinarith
  nlinarith

/-- division by an exact positive number -/
theorem Near.div (hf : f.Std) {k : ℝ} {a b r : ℚ} {x X : ℝ} (ha : Near f k a x X)
    (hb : 0 < b) (hk : k ≤ 1000)
    (hη : f.u ^ 3 ≤ X / b) (h : Flt.div f (.fin a) (.fin b) = .fin r) :
    Near f (k + 3) r (x / b) (X / b) := by
  have h' : f.round (a / b) = .fin r := by
    have := h
    simp only [Flt.div, if_neg hb.ne'] at this
    exact this
  obtain ⟨hr, he⟩ := near_round hf h'
  have hbR : (0 : ℝ) < b := by exact_mod_cast hb
  refine ⟨hr, by rw [abs_div, abs_of_pos hbR]; gcongr; exact ha.mag, ?_⟩
  have hu := u_pos f
  have hη' := hf.eta_le
  have h2 := ha.size hf hk
  have e : (r : ℝ) - x / b = ((r : ℝ) - (a / b : ℚ)) + ((a : ℝ) - x) / b := by push_cast; ring
  rw [e]
  have h6 := abs_add_le ((r : ℝ) - (a / b : ℚ)) (((a : ℝ) - x) / b)
  have h7 : |((a : ℝ) - x) / b| ≤ k * f.u * (X / b) := by
    rw [abs_div, abs_of_pos hbR, ← mul_div_assoc]; gcongr; exact ha.err
  have h8 : |((a / b : ℚ) : ℝ)| ≤ 2 * (X / b) := by
    push_cast
    rw [abs_div, abs_of_pos hbR, ← mul_div_assoc]; gcongr
  have hη2 : (2 : ℝ) ^ f.emin ≤ f.u * (X / b) := by
    calc (2 : ℝ) ^ f.emin ≤ f.u ^ 4 := hη'
      _ = f.u * f.u ^ 3 := by ring
      _ ≤ f.u * (X / b) := by gcongr
  have h9 : f.u * |((a / b : ℚ) : ℝ)| ≤ f.u * (2 * (X / b)) := by gcongr
  nlinarith

/-- a rounded literal -/
theorem Near.lit (hf : f.Std) {q r : ℚ} (hη : f.u ^ 3 ≤ |(q : ℝ)|) (h : f.round q = .fin r) :
    Near f 2 r q |(q : ℝ)| := by
  obtain ⟨hr, he⟩ := near_round hf h
  refine ⟨hr, le_rfl, he.trans ?_⟩
  have hu := u_pos f
  have : (2 : ℝ) ^ f.emin ≤ f.u * |(q : ℝ)| := by
    calc (2 : ℝ) ^ f.emin ≤ f.u ^ 4 := hf.eta_le
      _ = f.u * f.u ^ 3 := by ring
      _ ≤ f.u * |(q : ℝ)| := by gcongr
  nlinarith

theorem log_near {a x : ℝ} {e : ℝ} (hx : 0 < x) (he : e ≤ 1/2) (h : |a - x| ≤ e * x) :
    0 < a ∧ |Real.log a - Real.log x| ≤ 2 * e := by
  have h1 := abs_le.mp h
  have ha : 0 < a := by nlinarith
  have he0 : 0 ≤ e := by
    by_contra hc
    have := abs_nonneg (a - x)
    nlinarith
  refine ⟨ha, ?_⟩
  rw [← Real.log_div ha.ne' hx.ne']
  have hlo : 1 - e ≤ a / x := by rw [le_div_iff₀ hx]; nlinarith
  have hhi : a / x ≤ 1 + e := by rw [div_le_iff₀ hx]; nlinarith
  rw [abs_le]
  constructor
  · have := Real.one_sub_inv_le_log_of_pos (div_pos ha hx)
    have h2 : (a / x)⁻¹ ≤ 1 + 2 * e := by
      rw [inv_le_comm₀ (div_pos ha hx) (by positivity)]
      have : (1 + 2 * e)⁻¹ ≤ 1 - e := by
        rw [inv_le_iff_one_le_mul₀ (by positivity)]; nlinarith
      exact this.trans hlo
    linarith
  · have := Real.log_le_sub_one_of_pos (div_pos ha hx)
    linarith

/-- the library's logarithm of a computed positive number -/
theorem Near.ln (hf : f.Std) {L : Libm} (hL : L.Accurate f) {k : ℝ} {a : ℚ} {x : ℝ}
    (ha : Near f k a x x) (hx : 0 < x) (hk0 : 0 ≤ k) (hk : k ≤ 1000) :
    ∃ r, Flt.ln L (.fin a) = .fin r ∧ Near f (2 * k + 3) r (Real.log x) (1 + |Real.log x|) := by
  have hu := u_pos f
  have hul := hf.u_le
  have hku : k * f.u ≤ 1/10000 := by nlinarith
  obtain ⟨ha0, hl⟩ := log_near hx (by linarith) ha.err
  have ha0' : 0 < a := by exact_mod_cast ha0
  obtain ⟨r, hr, hrep, he⟩ := hL.ln a ha0' ha.rep
  refine ⟨r, by simp only [Flt.ln, if_pos ha0', hr], hrep, by linarith, ?_⟩
  have h1 := abs_add_le ((r : ℝ) - Real.log a) (Real.log a - Real.log x)
  have h2 : (r : ℝ) - Real.log x = ((r : ℝ) - Real.log a) + (Real.log a - Real.log x) := by ring
  have h3 := abs_sub_abs_le_abs_sub (Real.log a) (Real.log x)
  rw [h2]
  refine h1.trans ?_
  have h5 : |Real.log a| ≤ |Real.log x| + 1 := by nlinarith
  have h4 : 2 * f.u * |Real.log a| ≤ 2 * f.u * (|Real.log x| + 1) := by gcongr
  have h6 : 0 ≤ |Real.log x| := abs_nonneg _
  have h7 : 0 ≤ k * f.u * |Real.log x| := by positivity
  have h8 : 0 ≤ f.u * |Real.log x| := by positivity
  nlinarith

end Verif
