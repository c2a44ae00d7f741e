import Verif.Props.DoubleExpr
import Verif.Props.DoubleNatural2
import Verif.Spec.DoubleRunning

/-!
# C108: propagation of errors through an expression with all operators
-/

namespace Verif
open Format FloatOps Expr Spec

variable {f : Format} {L : Libm}

/-- a number of the format within `t` of `x` -/
structure Approx (f : Format) (t : ℝ) (a : ℚ) (x : ℝ) : Prop where
  rep : f.Representable a
  err : |(a : ℝ) - x| ≤ t

theorem Approx.nonneg {t : ℝ} {a : ℚ} {x : ℝ} (h : Approx f t a x) : 0 ≤ t :=
  (abs_nonneg _).trans h.err

theorem Approx.size {t : ℝ} {a : ℚ} {x : ℝ} (h : Approx f t a x) : |(a : ℝ)| ≤ |x| + t := by
  have := abs_sub_abs_le_abs_sub (a : ℝ) x
  have := h.err
  linarith

theorem rounded_of {g x t r : ℝ} (h : |g - x| ≤ t) (hr : |r - g| ≤ 2 * f.u * |g| + 2 ^ f.emin) :
    |r - x| ≤ rounded f x t := by
  have hu := u_pos f
  have h1 : |g| ≤ |x| + t := by
    have := abs_sub_abs_le_abs_sub g x
    linarith
  have h2 : 2 * f.u * |g| ≤ 2 * f.u * (|x| + t) := by gcongr
  have h3 : |r - x| ≤ |r - g| + |g - x| := by
    have := abs_add_le (r - g) (g - x)
    rwa [sub_add_sub_cancel] at this
  unfold rounded
  linarith

/-- one correctly rounded operation -/
theorem step_round (hf : f.Std) {q : ℚ} {x t : ℝ} (h : |(q : ℝ) - x| ≤ t) (hb : |x| + t < 2 ^ (f.emax - 1)) :
    ∃ r, f.round q = .fin r ∧ Approx f (rounded f x t) r x := by
  have hu := u_pos f
  have h1 : |(q : ℝ)| ≤ |x| + t := by
    have := abs_sub_abs_le_abs_sub (q : ℝ) x
    linarith
  obtain ⟨r, hr⟩ := round_fits hf (h1.trans hb.le)
  obtain ⟨h2, h3⟩ := near_round hf hr
  refine ⟨r, hr, h2, rounded_of h (h3.trans ?_)⟩
  have : 0 ≤ f.u * |(q : ℝ)| := by positivity
  linarith

theorem step_add (hf : f.Std) {s t x y : ℝ} {a b : ℚ} (ha : Approx f s a x) (hb : Approx f t b y)
    (h : |x + y| + (s + t) < 2 ^ (f.emax - 1)) :
    ∃ r, Flt.add f (.fin a) (.fin b) = .fin r ∧ Approx f (rounded f (x + y) (s + t)) r (x + y) := by
  refine step_round hf (q := a + b) ?_ h
  have := abs_add_le ((a : ℝ) - x) ((b : ℝ) - y)
  have e : (((a + b : ℚ)) : ℝ) - (x + y) = ((a : ℝ) - x) + ((b : ℝ) - y) := by push_cast; ring
  rw [e]
  have := ha.err; have := hb.err
  linarith

theorem Approx.neg {t : ℝ} {a : ℚ} {x : ℝ} (h : Approx f t a x) : Approx f t (-a) (-x) := by
  refine ⟨rep_neg h.rep, ?_⟩
  have : ((-a : ℚ) : ℝ) - -x = -((a : ℝ) - x) := by push_cast; ring
  rw [this, abs_neg]; exact h.err

theorem step_sub (hf : f.Std) {s t x y : ℝ} {a b : ℚ} (ha : Approx f s a x) (hb : Approx f t b y)
    (h : |x - y| + (s + t) < 2 ^ (f.emax - 1)) :
    ∃ r, Flt.sub f (.fin a) (.fin b) = .fin r ∧ Approx f (rounded f (x - y) (s + t)) r (x - y) := by
  rw [sub_eq_add_neg] at h ⊢
  exact step_add hf ha hb.neg h

theorem step_mul (hf : f.Std) {s t x y : ℝ} {a b : ℚ} (ha : Approx f s a x) (hb : Approx f t b y)
    (h : (|x| + s) * (|y| + t) < 2 ^ (f.emax - 1)) :
    ∃ r, Flt.mul f (.fin a) (.fin b) = .fin r ∧
      Approx f (rounded f (x * y) (|x| * t + |y| * s + s * t)) r (x * y) := by
  refine step_round hf (q := a * b) ?_ (by rw [abs_mul]; linarith)
  have e : (((a * b : ℚ)) : ℝ) - x * y =
      x * ((b : ℝ) - y) + y * ((a : ℝ) - x) + ((a : ℝ) - x) * ((b : ℝ) - y) := by push_cast; ring
  rw [e]
  refine (abs_add_le _ _).trans (add_le_add ((abs_add_le _ _).trans (add_le_add ?_ ?_)) ?_)
  · rw [abs_mul]; exact mul_le_mul_of_nonneg_left hb.err (abs_nonneg _)
  · rw [abs_mul]; exact mul_le_mul_of_nonneg_left ha.err (abs_nonneg _)
  · rw [abs_mul]; exact mul_le_mul ha.err hb.err (abs_nonneg _) ha.nonneg

theorem step_div (hf : f.Std) {s t x y : ℝ} {a b : ℚ} (ha : Approx f s a x) (hb : Approx f t b y)
    (h0 : t < |y|) (h : (|x| + s) / (|y| - t) < 2 ^ (f.emax - 1)) :
    b ≠ 0 ∧ ∃ r, Flt.div f (.fin a) (.fin b) = .fin r ∧
      Approx f (rounded f (x / y) ((s + |x / y| * t) / (|y| - t))) r (x / y) := by
  have hd : 0 < |y| - t := by linarith
  have ht := hb.nonneg
  have hy : y ≠ 0 := by rintro rfl; rw [abs_zero] at h0; linarith
  have hby : |y| - t ≤ |(b : ℝ)| := by
    have := abs_sub_abs_le_abs_sub y (b : ℝ)
    rw [abs_sub_comm] at this
    have := hb.err
    linarith
  have hb0 : (b : ℝ) ≠ 0 := by
    intro h1; rw [h1, abs_zero] at hby; linarith
  have hbq : b ≠ 0 := by exact_mod_cast hb0
  refine ⟨hbq, ?_⟩
  have he : |((a / b : ℚ) : ℝ) - x / y| ≤ (s + |x / y| * t) / (|y| - t) := by
    have e : ((a / b : ℚ) : ℝ) - x / y = (((a : ℝ) - x) - x / y * ((b : ℝ) - y)) / b := by
      push_cast; field_simp; ring
    rw [e, abs_div]
    have h2 : |((a : ℝ) - x) - x / y * ((b : ℝ) - y)| ≤ s + |x / y| * t := by
      refine (abs_sub _ _).trans (add_le_add ha.err ?_)
      rw [abs_mul]; exact mul_le_mul_of_nonneg_left hb.err (abs_nonneg _)
    exact div_le_div₀ ((abs_nonneg _).trans h2) h2 hd hby
  have hs : |x / y| + (s + |x / y| * t) / (|y| - t) = (|x| + s) / (|y| - t) := by
    have hy' : |y| ≠ 0 := abs_ne_zero.mpr hy
    rw [abs_div]; field_simp; ring
  obtain ⟨r, hr, h3⟩ := step_round hf he (by rw [hs]; exact h)
  refine ⟨r, ?_, h3⟩
  show (if b = 0 then _ else f.round (a / b)) = _
  rw [if_neg hbq]; exact hr

theorem step_ln (hL : L.AllAccurate f) {s x : ℝ} {a : ℚ} (ha : Approx f s a x) (hx : 0 < x)
    (h : 2 * s ≤ x) :
    0 < a ∧ ∃ r, Flt.ln L (.fin a) = .fin r ∧ Approx f (rounded f (Real.log x) (2 * s / x)) r (Real.log x) := by
  have he : s / x ≤ 1/2 := by rw [div_le_iff₀ hx]; linarith
  obtain ⟨h1, h2⟩ := log_near hx he (by rw [div_mul_cancel₀ _ hx.ne']; exact ha.err)
  have h3 : 0 < a := by exact_mod_cast h1
  obtain ⟨r, hr, hrr, hre⟩ := hL.ln a h3 ha.rep
  refine ⟨h3, r, ?_, hrr, rounded_of (g := Real.log a) (by rw [mul_div_assoc]; exact h2) ?_⟩
  · show (if 0 < a then _ else _) = _
    rw [if_pos h3]; exact hr
  · have : (0 : ℝ) < 2 ^ f.emin := by positivity
    linarith

/-- `|e^a - e^x| ≤ e^x (e^s - 1)` for `|a - x| ≤ s` -/
theorem exp_near {a x s : ℝ} (h : |a - x| ≤ s) : |Real.exp a - Real.exp x| ≤ Real.exp x * (Real.exp s - 1) := by
  have e : Real.exp a - Real.exp x = Real.exp x * (Real.exp (a - x) - 1) := by
    rw [mul_sub, ← Real.exp_add, mul_one, add_sub_cancel]
  rw [e, abs_mul, abs_of_pos (Real.exp_pos x)]
  refine mul_le_mul_of_nonneg_left ?_ (Real.exp_pos x).le
  obtain ⟨h1, h2⟩ := abs_le.mp h
  have h3 := Real.exp_le_exp.mpr h2
  have h4 := Real.exp_le_exp.mpr h1
  rw [abs_le]
  refine ⟨?_, by linarith⟩
  have h5 : Real.exp (-s) * Real.exp s = 1 := by rw [← Real.exp_add]; simp
  have h6 := Real.exp_pos (-s)
  have h7 := Real.exp_pos s
  have h8 : 2 ≤ Real.exp (-s) + Real.exp s := by nlinarith [sq_nonneg (Real.exp (-s) - Real.exp s)]
  linarith

theorem step_exp (hL : L.AllAccurate f) {s x : ℝ} {a : ℚ} (ha : Approx f s a x)
    (h : Real.exp (x + s) < 2 ^ (f.emax - 1)) :
    ∃ r, Flt.exp L (.fin a) = .fin r ∧
      Approx f (rounded f (Real.exp x) (Real.exp x * (Real.exp s - 1))) r (Real.exp x) := by
  have h1 := exp_near ha.err
  rcases hL.exp a ha.rep with ⟨r, hr, hrr, hre⟩ | ⟨-, h2⟩
  · refine ⟨r, hr, hrr, rounded_of h1 ?_⟩
    rw [abs_of_pos (Real.exp_pos _)]; exact hre
  · exfalso
    have h3 : (a : ℝ) ≤ x + s := by linarith [(abs_le.mp ha.err).2]
    exact absurd (h2.trans (Real.exp_le_exp.mpr h3)) (not_le.mpr h)

theorem step_sqrt (hS : L.SqrtAccurate f) {s x : ℝ} {a : ℚ} (ha : Approx f s a x) (h : s ≤ x) :
    0 ≤ a ∧ ∃ r, Flt.sqrt L (.fin a) = .fin r ∧ Approx f (rounded f √x (s / √x)) r √x := by
  have hx : 0 ≤ x := ha.nonneg.trans h
  have ha0 : (0 : ℝ) ≤ a := by have := (abs_le.mp ha.err).1; linarith
  have haq : 0 ≤ a := by exact_mod_cast ha0
  obtain ⟨r, hr, hrr, hre⟩ := hS a haq ha.rep
  refine ⟨haq, r, ?_, hrr, rounded_of (g := √(a : ℝ)) ?_ ?_⟩
  · show (if 0 ≤ a then _ else _) = _
    rw [if_pos haq]; exact hr
  · rcases hx.eq_or_lt with rfl | hx
    · have : s = 0 := le_antisymm h ha.nonneg
      have h2 := ha.err
      rw [this, abs_nonpos_iff, sub_zero] at h2
      simp [h2]
    · have hs := Real.sqrt_pos.mpr hx
      rw [le_div_iff₀ hs]
      have h1 : |√(a : ℝ) - √x| * √x ≤ |√(a : ℝ) - √x| * (√(a : ℝ) + √x) := by
        gcongr; linarith [Real.sqrt_nonneg (a : ℝ)]
      have h2 : |√(a : ℝ) - √x| * (√(a : ℝ) + √x) = |(a : ℝ) - x| := by
        have h3 : 0 ≤ √(a : ℝ) + √x := by positivity
        calc |√(a : ℝ) - √x| * (√(a : ℝ) + √x) = |√(a : ℝ) - √x| * |√(a : ℝ) + √x| := by rw [abs_of_nonneg h3]
          _ = |(√(a : ℝ)) ^ 2 - (√x) ^ 2| := by rw [← abs_mul]; congr 1; ring
          _ = _ := by rw [Real.sq_sqrt ha0, Real.sq_sqrt hx.le]
      linarith [ha.err]
  · rw [abs_of_nonneg (Real.sqrt_nonneg _)]
    have : (0 : ℝ) < 2 ^ f.emin := by positivity
    linarith

theorem step_sin (hL : L.AllAccurate f) {s x : ℝ} {a : ℚ} (ha : Approx f s a x) :
    ∃ r, Flt.trig L.sin (.fin a) = .fin r ∧ Approx f (rounded f (Real.sin x) s) r (Real.sin x) := by
  obtain ⟨r, hr, hrr, hre⟩ := hL.sin a ha.rep
  refine ⟨r, hr, hrr, rounded_of (g := Real.sin a) ?_ hre⟩
  refine le_trans ?_ ha.err
  have h1 := Real.sin_sub_sin (a : ℝ) x
  have h2 := Real.abs_sin_le_abs (x := ((a : ℝ) - x) / 2)
  have h3 := Real.abs_cos_le_one (((a : ℝ) + x) / 2)
  rw [h1, abs_mul, abs_mul]
  rw [abs_div] at h2
  norm_num at h2 ⊢
  nlinarith [abs_nonneg (Real.sin (((a : ℝ) - x) / 2)), abs_nonneg (Real.cos (((a : ℝ) + x) / 2))]

theorem step_cos (hL : L.AllAccurate f) {s x : ℝ} {a : ℚ} (ha : Approx f s a x) :
    ∃ r, Flt.trig L.cos (.fin a) = .fin r ∧ Approx f (rounded f (Real.cos x) s) r (Real.cos x) := by
  obtain ⟨r, hr, hrr, hre⟩ := hL.cos a ha.rep
  refine ⟨r, hr, hrr, rounded_of (g := Real.cos a) ?_ hre⟩
  refine le_trans ?_ ha.err
  have h1 := Real.cos_sub_cos (a : ℝ) x
  have h2 := Real.abs_sin_le_abs (x := ((a : ℝ) - x) / 2)
  have h3 := Real.abs_sin_le_one (((a : ℝ) + x) / 2)
  rw [h1, abs_mul, abs_mul]
  rw [abs_div] at h2
  norm_num at h2 ⊢
  nlinarith [abs_nonneg (Real.sin (((a : ℝ) - x) / 2)), abs_nonneg (Real.sin (((a : ℝ) + x) / 2))]

/-- `|a^n - x^n| ≤ (|x| + s)^n - |x|^n` for `|a - x| ≤ s` -/
theorem pow_near {a x s : ℝ} (h : |a - x| ≤ s) (n : ℕ) : |a ^ n - x ^ n| ≤ (|x| + s) ^ n - |x| ^ n := by
  have hs : 0 ≤ s := (abs_nonneg _).trans h
  have ha : |a| ≤ |x| + s := by
    have := abs_sub_abs_le_abs_sub a x
    linarith
  induction n with
  | zero => simp
  | succ n ih =>
    have e : a ^ (n + 1) - x ^ (n + 1) = a * (a ^ n - x ^ n) + x ^ n * (a - x) := by ring
    have h1 : |a * (a ^ n - x ^ n)| ≤ (|x| + s) * ((|x| + s) ^ n - |x| ^ n) := by
      rw [abs_mul]; exact mul_le_mul ha ih (abs_nonneg _) (by positivity)
    have h2 : |x ^ n * (a - x)| ≤ |x| ^ n * s := by
      rw [abs_mul, abs_pow]; exact mul_le_mul_of_nonneg_left h (by positivity)
    have h3 := abs_add_le (a * (a ^ n - x ^ n)) (x ^ n * (a - x))
    rw [e]
    have e2 : (|x| + s) ^ (n + 1) - |x| ^ (n + 1) =
      (|x| + s) * ((|x| + s) ^ n - |x| ^ n) + |x| ^ n * s := by ring
    rw [e2]; linarith

theorem step_pow_nat (hL : L.AllAccurate f) {s x : ℝ} {a : ℚ} (ha : Approx f s a x) (n : ℕ)
    (hn : f.Representable (n : ℚ)) (h : (|x| + s) ^ n < 2 ^ (f.emax - 1)) :
    ∃ r, L.powf (.fin a) (.fin n) = .fin r ∧
      Approx f (rounded f (x ^ n) ((|x| + s) ^ n - |x| ^ n)) r (x ^ n) := by
  have e : (a : ℝ) ^ (((n : ℚ)) : ℝ) = (a : ℝ) ^ n := by push_cast; exact Real.rpow_natCast _ _
  rcases hL.pow a n ha.rep hn (.inr ⟨n, rfl⟩) with ⟨r, hr, hrr, hre⟩ | ⟨h1, -⟩
  · rw [e] at hre
    exact ⟨r, hr, hrr, rounded_of (pow_near ha.err n) hre⟩
  · exfalso
    rw [e, abs_pow] at h1
    have := pow_le_pow_left₀ (abs_nonneg _) ha.size n
    linarith

theorem step_pow (hL : L.AllAccurate f) {s t x y : ℝ} {a b : ℚ} (ha : Approx f s a x)
    (hb : Approx f t b y) (hx : 0 < x) (hs : 2 * s ≤ x)
    (h : x ^ y + powError x y s t < 2 ^ (f.emax - 1)) :
    ∃ r, L.powf (.fin a) (.fin b) = .fin r ∧ Approx f (rounded f (x ^ y) (powError x y s t)) r (x ^ y) := by
  have he : s / x ≤ 1/2 := by rw [div_le_iff₀ hx]; linarith
  obtain ⟨h1, h2⟩ := log_near hx he (by rw [div_mul_cancel₀ _ hx.ne']; exact ha.err)
  have h3 : 0 < a := by exact_mod_cast h1
  have h4 : |Real.log a * b - Real.log x * y| ≤ (|y| + t) * (2 * s / x) + t * |Real.log x| := by
    have e : Real.log a * b - Real.log x * y =
        b * (Real.log a - Real.log x) + ((b : ℝ) - y) * Real.log x := by ring
    rw [e]
    refine (abs_add_le _ _).trans (add_le_add ?_ ?_)
    · rw [abs_mul]
      refine mul_le_mul hb.size (by rw [mul_div_assoc]; exact h2) (abs_nonneg _) ?_
      have := hb.nonneg; positivity
    · rw [abs_mul]; exact mul_le_mul_of_nonneg_right hb.err (abs_nonneg _)
  have h5 : |(a : ℝ) ^ (b : ℝ) - x ^ y| ≤ powError x y s t := by
    rw [Real.rpow_def_of_pos h1, powError, Real.rpow_def_of_pos hx]
    exact exp_near h4
  rcases hL.pow a b ha.rep hb.rep (.inl h3) with ⟨r, hr, hrr, hre⟩ | ⟨h6, -⟩
  · exact ⟨r, hr, hrr, rounded_of h5 hre⟩
  · exfalso
    have h7 : |(a : ℝ) ^ (b : ℝ)| ≤ x ^ y + powError x y s t := by
      have := abs_sub_abs_le_abs_sub ((a : ℝ) ^ (b : ℝ)) (x ^ y)
      rw [abs_of_pos (Real.rpow_pos_of_pos hx y)] at this
      linarith
    linarith

theorem literalExponent_eq {e : Expr (Flt f L)} {n : ℕ} (h : literalExponent e = some n) :
    e = const (Flt.fin (n : ℚ)) := by
  unfold literalExponent at h
  split at h
  · rename_i q
    split_ifs at h with h1
    obtain ⟨h1, h2⟩ := h1
    have e1 : q.num.toNat = n := Option.some.inj h
    have e2 : (q.num.toNat : ℤ) = q.num := Int.toNat_of_nonneg h2
    have : (n : ℚ) = q := by
      rw [← e1]
      have : q = (q.num : ℚ) := (Rat.den_eq_one_iff q |>.mp h1).symm
      rw [this]
      exact_mod_cast e2
    rw [this]
  · cases h

/-! ## The evaluators apply the operations -/

theorem eval_add_all {vars : FMap String (Flt f L)} {l r : Expr (Flt f L)} {a b : ℚ}
    (hra : f.Representable a) (hrb : f.Representable b)
    (ha : l.evaluate vars = .ok (Flt.fin a)) (hb : r.evaluate vars = .ok (Flt.fin b)) :
    (Expr.add l r).evaluate vars = .ok (Flt.add f (.fin a) (.fin b) : Flt f L) := by
  rw [Expr.evaluate]
  split
  · rename_i p c d hc
    cases l <;> cases r <;> simp only [bothConst, reduceCtorEq] at hc
    cases hc
    have e1 : _ = Flt.fin a := Except.ok.inj ha
    have e2 : _ = Flt.fin b := Except.ok.inj hb
    rw [e1, e2]; rfl
  · split_ifs with h1 h2
    · have := isConst_zero h1
      subst this
      have e1 : Flt.fin (f := f) (L := L) 0 = Flt.fin a := Except.ok.inj ha
      obtain rfl := FVal.fin.inj e1
      rw [hb]; exact congrArg Except.ok (zero_add_rep hrb).symm
    · have := isConst_zero h2
      subst this
      have e1 : Flt.fin (f := f) (L := L) 0 = Flt.fin b := Except.ok.inj hb
      obtain rfl := FVal.fin.inj e1
      rw [ha]; exact congrArg Except.ok (add_zero_rep hra).symm
    · rw [ha, hb]; rfl

theorem eval_mul_all {vars : FMap String (Flt f L)} {l r : Expr (Flt f L)} {a b : ℚ}
    (hra : f.Representable a) (hrb : f.Representable b)
    (ha : l.evaluate vars = .ok (Flt.fin a)) (hb : r.evaluate vars = .ok (Flt.fin b)) :
    (Expr.mul l r).evaluate vars = .ok (Flt.mul f (.fin a) (.fin b) : Flt f L) := by
  have hm : Flt.mul f (.fin a) (.fin b) = f.round (a * b) := rfl
  rw [Expr.evaluate]
  split
  · rename_i p c d hc
    cases l <;> cases r <;> simp only [bothConst, reduceCtorEq] at hc
    cases hc
    have e1 : _ = Flt.fin a := Except.ok.inj ha
    have e2 : _ = Flt.fin b := Except.ok.inj hb
    rw [e1, e2]; rfl
  · split_ifs with h1 h2 h3
    · have : a * b = 0 := by
        rcases Bool.or_eq_true_iff.mp h1 with h | h
        · have := isConst_zero h
          subst this
          have e1 : Flt.fin (f := f) (L := L) 0 = Flt.fin a := Except.ok.inj ha
          rw [← FVal.fin.inj e1, zero_mul]
        · have := isConst_zero h
          subst this
          have e1 : Flt.fin (f := f) (L := L) 0 = Flt.fin b := Except.ok.inj hb
          rw [← FVal.fin.inj e1, mul_zero]
      rw [hm, this, f.round_exact f.rep_zero]; rfl
    · have := isConst_one h2
      subst this
      have e1 : Flt.fin (f := f) (L := L) 1 = Flt.fin a := Except.ok.inj ha
      obtain rfl := FVal.fin.inj e1
      rw [hm, one_mul, f.round_exact hrb]; exact hb
    · have := isConst_one h3
      subst this
      have e1 : Flt.fin (f := f) (L := L) 1 = Flt.fin b := Except.ok.inj hb
      obtain rfl := FVal.fin.inj e1
      rw [hm, mul_one, f.round_exact hra]; exact ha
    · rw [ha, hb]; rfl

/-- **C108.** Evaluating a well-conditioned expression, with any of the operators, succeeds, and the
error is at most what the rules of error propagation allow. -/
theorem C108_evaluate (hf : f.Std) (hL : L.AllAccurate f) {vars : FMap String (Flt f L)} {ρ : String → ℝ}
    (hv : Values f L vars ρ) (e : Expr (Flt f L)) (hb : ∀ n, Occurs n e → ∃ v, vars.get n = some v)
    (hw : WellConditioned ρ e) :
    ∃ r : ℚ, e.evaluate vars = .ok (Flt.fin r) ∧ f.Representable r ∧
      |(r : ℝ) - realValue ρ e| ≤ errorBound ρ e := by
  suffices h : ∃ r : ℚ, e.evaluate vars = .ok (Flt.fin r) ∧ Approx f (errorBound ρ e) r (realValue ρ e) by
    obtain ⟨r, h1, h2⟩ := h
    exact ⟨r, h1, h2.rep, h2.err⟩
  induction e with
  | const c =>
    obtain ⟨q, rfl, hq⟩ := hw
    exact ⟨q, rfl, hq, by simp [realValue, errorBound, realOf]⟩
  | var n =>
    obtain ⟨v, hn⟩ := hb n .var
    obtain ⟨q, rfl, hq, hρ⟩ := hv n v hn
    exact ⟨q, by rw [Expr.evaluate, hn], hq, by simp [realValue, errorBound, hρ]⟩
  | add l r ihl ihr =>
    obtain ⟨h1, h2, h3⟩ := hw
    obtain ⟨a, ea, ha⟩ := ihl (fun n h => hb n (.addL h)) h1
    obtain ⟨b, eb, hb'⟩ := ihr (fun n h => hb n (.addR h)) h2
    obtain ⟨c, ec, hc⟩ := step_add hf ha hb' h3
    exact ⟨c, (eval_add_all ha.rep hb'.rep ea eb).trans (congrArg Except.ok ec), hc⟩
  | sub l r ihl ihr =>
    obtain ⟨h1, h2, h3⟩ := hw
    obtain ⟨a, ea, ha⟩ := ihl (fun n h => hb n (.subL h)) h1
    obtain ⟨b, eb, hb'⟩ := ihr (fun n h => hb n (.subR h)) h2
    obtain ⟨c, ec, hc⟩ := step_sub hf ha hb' h3
    refine ⟨c, ?_, hc⟩
    rw [Expr.evaluate, ea, eb]; exact congrArg Except.ok ec
  | mul l r ihl ihr =>
    obtain ⟨h1, h2, h3⟩ := hw
    obtain ⟨a, ea, ha⟩ := ihl (fun n h => hb n (.mulL h)) h1
    obtain ⟨b, eb, hb'⟩ := ihr (fun n h => hb n (.mulR h)) h2
    obtain ⟨c, ec, hc⟩ := step_mul hf ha hb' h3
    exact ⟨c, (eval_mul_all ha.rep hb'.rep ea eb).trans (congrArg Except.ok ec), hc⟩
  | div l r ihl ihr =>
    obtain ⟨h1, h2, h3, h4⟩ := hw
    obtain ⟨a, ea, ha⟩ := ihl (fun n h => hb n (.divL h)) h1
    obtain ⟨b, eb, hb'⟩ := ihr (fun n h => hb n (.divR h)) h2
    obtain ⟨h0, c, ec, hc⟩ := step_div hf ha hb' h3 h4
    refine ⟨c, ?_, hc⟩
    rw [Expr.evaluate, eb]
    show (if Flt.beq (.fin b) (.fin 0) then _ else _) = _
    rw [if_neg (by simp [Flt.beq, h0]), ea]; exact congrArg Except.ok ec
  | pow l r ihl ihr =>
    obtain ⟨h1, h2, h3⟩ := hw
    obtain ⟨a, ea, ha⟩ := ihl (fun n h => hb n (.powL h)) h1
    obtain ⟨b, eb, hb'⟩ := ihr (fun n h => hb n (.powR h)) h2
    suffices h : ∃ c, L.powf (.fin a) (.fin b) = .fin c ∧
        Approx f (errorBound ρ (pow l r)) c (realValue ρ (pow l r)) by
      obtain ⟨c, ec, hc⟩ := h
      refine ⟨c, ?_, hc⟩
      rw [Expr.evaluate, ea, eb]; exact congrArg Except.ok ec
    rw [errorBound]
    cases hn : literalExponent r with
    | some n =>
      rw [hn] at h3
      have := literalExponent_eq hn
      subst this
      have e1 : Flt.fin (f := f) (L := L) (n : ℚ) = Flt.fin b := Except.ok.inj eb
      obtain rfl := FVal.fin.inj e1
      obtain ⟨c, ec, hc⟩ := step_pow_nat hL ha n hb'.rep h3
      refine ⟨c, ec, ?_⟩
      have : realValue ρ (pow l (const (Flt.fin (n : ℚ)) : Expr (Flt f L))) = realValue ρ l ^ n := by
        simp [realValue, realOf]
      rw [this]; exact hc
    | none =>
      rw [hn] at h3
      exact step_pow hL ha hb' h3.1 h3.2.1 h3.2.2
  | ln e ih =>
    obtain ⟨h1, h2, h3⟩ := hw
    obtain ⟨a, ea, ha⟩ := ih (fun n h => hb n (.ln h)) h1
    obtain ⟨h0, c, ec, hc⟩ := step_ln hL ha h2 h3
    refine ⟨c, ?_, hc⟩
    rw [Expr.evaluate, ea]
    show (if Flt.le (.fin a) (.fin 0) then _ else _) = _
    rw [if_neg (by simp [Flt.le, h0])]; exact congrArg Except.ok ec
  | exp e ih =>
    obtain ⟨h1, h2⟩ := hw
    obtain ⟨a, ea, ha⟩ := ih (fun n h => hb n (.exp h)) h1
    obtain ⟨c, ec, hc⟩ := step_exp hL ha h2
    refine ⟨c, ?_, hc⟩
    rw [Expr.evaluate, ea]; exact congrArg Except.ok ec
  | sqrt e ih =>
    obtain ⟨h1, h2⟩ := hw
    obtain ⟨a, ea, ha⟩ := ih (fun n h => hb n (.sqrt h)) h1
    obtain ⟨h0, c, ec, hc⟩ := step_sqrt hL.sqrt ha h2
    refine ⟨c, ?_, hc⟩
    rw [Expr.evaluate, ea]
    show (if Flt.lt (.fin a) (.fin 0) then _ else _) = _
    rw [if_neg (by simp [Flt.lt, h0])]; exact congrArg Except.ok ec
  | sin e ih =>
    obtain ⟨a, ea, ha⟩ := ih (fun n h => hb n (.sin h)) hw
    obtain ⟨c, ec, hc⟩ := step_sin hL ha
    refine ⟨c, ?_, hc⟩
    rw [Expr.evaluate, ea]; exact congrArg Except.ok ec
  | cos e ih =>
    obtain ⟨a, ea, ha⟩ := ih (fun n h => hb n (.cos h)) hw
    obtain ⟨c, ec, hc⟩ := step_cos hL ha
    refine ⟨c, ?_, hc⟩
    rw [Expr.evaluate, ea]; exact congrArg Except.ok ec
  | neg e ih =>
    obtain ⟨a, ea, ha⟩ := ih (fun n h => hb n (.neg h)) hw
    refine ⟨-a, ?_, ha.neg⟩
    rw [Expr.evaluate, ea]; rfl

/-- **C108.** The same for `evaluate_single_var`. -/
theorem C108_single_var (hf : f.Std) (hL : L.AllAccurate f) {x : String} {q : ℚ} (hq : f.Representable q)
    (e : Expr (Flt f L)) (hb : ∀ n, Occurs n e → n = x) (hw : WellConditioned (fun _ => (q : ℝ)) e) :
    ∃ r : ℚ, e.evaluateSingleVar x (Flt.fin q) = .ok (Flt.fin r) ∧ f.Representable r ∧
      |(r : ℝ) - realValue (fun _ => (q : ℝ)) e| ≤ errorBound (fun _ => (q : ℝ)) e := by
  suffices h : ∃ r : ℚ, e.evaluateSingleVar x (Flt.fin q) = .ok (Flt.fin r) ∧ Approx f (errorBound (fun _ => (q : ℝ)) e) r (realValue (fun _ => (q : ℝ)) e) by
    obtain ⟨r, h1, h2⟩ := h
    exact ⟨r, h1, h2.rep, h2.err⟩
  induction e with
  | const c =>
    obtain ⟨p, rfl, hp⟩ := hw
    exact ⟨p, rfl, hp, by simp [realValue, errorBound, realOf]⟩
  | var n =>
    obtain rfl := hb n .var
    exact ⟨q, by rw [Expr.evaluateSingleVar, if_pos rfl], hq, by simp [realValue, errorBound]⟩
  | add l r ihl ihr =>
    obtain ⟨h1, h2, h3⟩ := hw
    obtain ⟨a, ea, ha⟩ := ihl (fun n h => hb n (.addL h)) h1
    obtain ⟨b, eb, hb'⟩ := ihr (fun n h => hb n (.addR h)) h2
    obtain ⟨c, ec, hc⟩ := step_add hf ha hb' h3
    refine ⟨c, ?_, hc⟩
    rw [Expr.evaluateSingleVar, ea, eb]; exact congrArg Except.ok ec
  | sub l r ihl ihr =>
    obtain ⟨h1, h2, h3⟩ := hw
    obtain ⟨a, ea, ha⟩ := ihl (fun n h => hb n (.subL h)) h1
    obtain ⟨b, eb, hb'⟩ := ihr (fun n h => hb n (.subR h)) h2
    obtain ⟨c, ec, hc⟩ := step_sub hf ha hb' h3
    refine ⟨c, ?_, hc⟩
    rw [Expr.evaluateSingleVar, ea, eb]; exact congrArg Except.ok ec
  | mul l r ihl ihr =>
    obtain ⟨h1, h2, h3⟩ := hw
    obtain ⟨a, ea, ha⟩ := ihl (fun n h => hb n (.mulL h)) h1
    obtain ⟨b, eb, hb'⟩ := ihr (fun n h => hb n (.mulR h)) h2
    obtain ⟨c, ec, hc⟩ := step_mul hf ha hb' h3
    refine ⟨c, ?_, hc⟩
    rw [Expr.evaluateSingleVar, ea, eb]; exact congrArg Except.ok ec
  | div l r ihl ihr =>
    obtain ⟨h1, h2, h3, h4⟩ := hw
    obtain ⟨a, ea, ha⟩ := ihl (fun n h => hb n (.divL h)) h1
    obtain ⟨b, eb, hb'⟩ := ihr (fun n h => hb n (.divR h)) h2
    obtain ⟨h0, c, ec, hc⟩ := step_div hf ha hb' h3 h4
    refine ⟨c, ?_, hc⟩
    rw [Expr.evaluateSingleVar, eb]
    show (if Flt.beq (.fin b) (.fin 0) then _ else _) = _
    rw [if_neg (by simp [Flt.beq, h0]), ea]; exact congrArg Except.ok ec
  | pow l r ihl ihr =>
    obtain ⟨h1, h2, h3⟩ := hw
    obtain ⟨a, ea, ha⟩ := ihl (fun n h => hb n (.powL h)) h1
    obtain ⟨b, eb, hb'⟩ := ihr (fun n h => hb n (.powR h)) h2
    suffices h : ∃ c, L.powf (.fin a) (.fin b) = .fin c ∧
        Approx f (errorBound (fun _ => (q : ℝ)) (pow l r)) c (realValue (fun _ => (q : ℝ)) (pow l r)) by
      obtain ⟨c, ec, hc⟩ := h
      refine ⟨c, ?_, hc⟩
      rw [Expr.evaluateSingleVar, ea, eb]; exact congrArg Except.ok ec
    rw [errorBound]
    cases hn : literalExponent r with
    | some n =>
      rw [hn] at h3
      have := literalExponent_eq hn
      subst this
      have e1 : Flt.fin (f := f) (L := L) (n : ℚ) = Flt.fin b := Except.ok.inj eb
      obtain rfl := FVal.fin.inj e1
      obtain ⟨c, ec, hc⟩ := step_pow_nat hL ha n hb'.rep h3
      refine ⟨c, ec, ?_⟩
      have : realValue (fun _ => (q : ℝ)) (pow l (const (Flt.fin (n : ℚ)) : Expr (Flt f L))) = realValue (fun _ => (q : ℝ)) l ^ n := by
        simp [realValue, realOf]
      rw [this]; exact hc
    | none =>
      rw [hn] at h3
      exact step_pow hL ha hb' h3.1 h3.2.1 h3.2.2
  | ln e ih =>
    obtain ⟨h1, h2, h3⟩ := hw
    obtain ⟨a, ea, ha⟩ := ih (fun n h => hb n (.ln h)) h1
    obtain ⟨h0, c, ec, hc⟩ := step_ln hL ha h2 h3
    refine ⟨c, ?_, hc⟩
    rw [Expr.evaluateSingleVar, ea]
    show (if Flt.le (.fin a) (.fin 0) then _ else _) = _
    rw [if_neg (by simp [Flt.le, h0])]; exact congrArg Except.ok ec
  | exp e ih =>
    obtain ⟨h1, h2⟩ := hw
    obtain ⟨a, ea, ha⟩ := ih (fun n h => hb n (.exp h)) h1
    obtain ⟨c, ec, hc⟩ := step_exp hL ha h2
    refine ⟨c, ?_, hc⟩
    rw [Expr.evaluateSingleVar, ea]; exact congrArg Except.ok ec
  | sqrt e ih =>
    obtain ⟨h1, h2⟩ := hw
    obtain ⟨a, ea, ha⟩ := ih (fun n h => hb n (.sqrt h)) h1
    obtain ⟨h0, c, ec, hc⟩ := step_sqrt hL.sqrt ha h2
    refine ⟨c, ?_, hc⟩
    rw [Expr.evaluateSingleVar, ea]
    show (if Flt.lt (.fin a) (.fin 0) then _ else _) = _
    rw [if_neg (by simp [Flt.lt, h0])]; exact congrArg Except.ok ec
  | sin e ih =>
    obtain ⟨a, ea, ha⟩ := ih (fun n h => hb n (.sin h)) hw
    obtain ⟨c, ec, hc⟩ := step_sin hL ha
    refine ⟨c, ?_, hc⟩
    rw [Expr.evaluateSingleVar, ea]; exact congrArg Except.ok ec
  | cos e ih =>
    obtain ⟨a, ea, ha⟩ := ih (fun n h => hb n (.cos h)) hw
    obtain ⟨c, ec, hc⟩ := step_cos hL ha
    refine ⟨c, ?_, hc⟩
    rw [Expr.evaluateSingleVar, ea]; exact congrArg Except.ok ec
  | neg e ih =>
    obtain ⟨a, ea, ha⟩ := ih (fun n h => hb n (.neg h)) hw
    refine ⟨-a, ?_, ha.neg⟩
    rw [Expr.evaluateSingleVar, ea]; rfl

/-! ## A library as assumed exists -/

theorem exists_near_any (hf : f.Std) {x : ℝ} (hx : |x| ≤ 2 ^ (f.emax - 1)) :
    ∃ r : ℚ, f.Representable r ∧ |(r : ℝ) - x| ≤ 2 * f.u * |x| + 2 ^ f.emin := by
  have hu := u_pos f
  have hη : (0 : ℝ) < 2 ^ f.emin := by positivity
  rcases lt_trichotomy x 0 with h | rfl | h
  · obtain ⟨r, h1, h2⟩ := exists_near hf (x := -x) (by linarith) (by rwa [abs_of_neg h] at hx)
    refine ⟨-r, rep_neg h1, ?_⟩
    have e : ((-r : ℚ) : ℝ) - x = -((r : ℝ) - -x) := by push_cast; ring
    rw [e, abs_neg, abs_of_neg h]
    have : 0 < f.u * -x := mul_pos hu (by linarith)
    linarith
  · exact ⟨0, f.rep_zero, by simpa using hη.le⟩
  · obtain ⟨r, h1, h2⟩ := exists_near hf h (by rwa [abs_of_pos h] at hx)
    refine ⟨r, h1, ?_⟩
    rw [abs_of_pos h]
    have : 0 < f.u * x := mul_pos hu h
    linarith

theorem one_le_emax (hf : f.Std) : (1 : ℝ) ≤ 2 ^ (f.emax - 1) :=
  one_le_zpow₀ (by norm_num) (by have := hf.emax_ge; omega)

open Classical in
theorem exists_libm_all (hf : f.Std) : ∃ L : Libm, L.AllAccurate f := by
  obtain ⟨L, hL, hS⟩ := exists_libm_sqrt hf
  have hs := fun q : ℚ => exists_near_any hf ((Real.abs_sin_le_one q).trans (one_le_emax hf))
  have hc := fun q : ℚ => exists_near_any hf ((Real.abs_cos_le_one q).trans (one_le_emax hf))
  let p : FVal → FVal → FVal := fun a b => match a, b with
    | .fin q, .fin p => if h : |(q : ℝ) ^ (p : ℝ)| ≤ 2 ^ (f.emax - 1) then .fin (exists_near_any hf h).choose
        else .inf false
    | _, _ => .nan
  refine ⟨{ L with sin := fun q => .fin (hs q).choose, cos := fun q => .fin (hc q).choose, powf := p },
    ⟨⟨hL.ln, hL.exp⟩, hS, fun q _ => ⟨_, rfl, (hs q).choose_spec⟩, fun q _ => ⟨_, rfl, (hc q).choose_spec⟩, ?_⟩⟩
  intro q r _ _ _
  by_cases h : |(q : ℝ) ^ (r : ℝ)| ≤ 2 ^ (f.emax - 1)
  · left
    exact ⟨_, dif_pos h, (exists_near_any hf h).choose_spec⟩
  · right
    exact ⟨(not_le.mp h).le, false, dif_neg h⟩

/-- the hypotheses are met: `ln(1 + exp(x))`, the softplus function, at `x = 0` -/
example : ∃ L : Libm, L.AllAccurate f64 ∧ f64.Representable 0 ∧
    WellConditioned (fun _ => 0)
      (Expr.ln (.add (.const (Flt.fin 1)) (.exp (.var "x"))) : Expr (Flt f64 L)) := by
  have hf : f64.Std := .inl rfl
  obtain ⟨L, hL⟩ := exists_libm_all hf
  have hu := u_pos f64
  have hul := hf.u_le
  have hη := hf.eta_le
  have h4 : f64.u ^ 4 ≤ f64.u := pow_le_of_le_one hu.le (hul.trans (by norm_num)) (by norm_num)
  have hbig : (2 : ℝ) ^ (10 : ℤ) ≤ 2 ^ (f64.emax - 1) := zpow_le_zpow_right₀ (by norm_num) (by decide)
  norm_num at hbig hul
  refine ⟨L, hL, f64.rep_zero, ?_⟩
  simp only [WellConditioned, realValue, errorBound, rounded, realOf, Real.exp_zero, Rat.cast_one]
  norm_num
  refine ⟨⟨⟨1, rfl, hf.rep_one⟩, by decide, ?_⟩, ?_⟩
  · linarith
  · generalize (2 : ℝ) ^ f64.emin = η at *
    nlinarith

end Verif
