import Verif.Props.DoubleRunning
import Verif.Props.JitDouble
import Verif.Spec.JitRunning

/-!
# C109: propagation of errors through compiled code
-/

namespace Verif
open Format FloatOps Expr Spec Spec.Jit Spec.Ieee Jit

variable {L : Libm}

section steps
variable [B : FloatBits (Flt f64 L)]

theorem f64_std : f64.Std := .inl rfl

theorem f64_emax : f64.emax - 1 = 1023 := rfl

theorem sin_near {a x s : ℝ} (h : |a - x| ≤ s) : |Real.sin a - Real.sin x| ≤ s := by
  refine le_trans ?_ h
  have h1 := Real.sin_sub_sin a x
  have h2 := Real.abs_sin_le_abs (x := (a - x) / 2)
  have h3 := Real.abs_cos_le_one ((a + x) / 2)
  rw [h1, abs_mul, abs_mul]
  rw [abs_div] at h2
  norm_num at h2 ⊢
  nlinarith [abs_nonneg (Real.sin ((a - x) / 2)), abs_nonneg (Real.cos ((a + x) / 2))]

theorem cos_near {a x s : ℝ} (h : |a - x| ≤ s) : |Real.cos a - Real.cos x| ≤ s := by
  refine le_trans ?_ h
  have h1 := Real.cos_sub_cos a x
  have h2 := Real.abs_sin_le_abs (x := (a - x) / 2)
  have h3 := Real.abs_sin_le_one ((a + x) / 2)
  rw [h1, abs_mul, abs_mul]
  rw [abs_div] at h2
  norm_num at h2 ⊢
  nlinarith [abs_nonneg (Real.sin ((a - x) / 2)), abs_nonneg (Real.sin ((a + x) / 2))]

theorem jit_step_sin {s x : ℝ} {a : ℚ} (ha : Approx f64 s a x) (h : |x| + s ≤ 10) :
    ∃ r, jitSin (Flt.fin (f := f64) (L := L) a) = Flt.fin r ∧
      Approx f64 (sineError (|x| + s) s) r (Real.sin x) := by
  have hs := ha.size
  obtain ⟨r, h1, h2, h3⟩ := Jit.jitSin_flt (L := L) ha.rep (by exact_mod_cast hs.trans h)
  refine ⟨r, h1, h2, ?_⟩
  have h4 := sin_near ha.err
  have h5 := abs_sub_le (r : ℝ) (Real.sin a) (Real.sin x)
  have h6 : |(a : ℝ)| ^ 7 / 5040 + 3.41e-12 * (|(a : ℝ)| ^ 3 + |(a : ℝ)| ^ 5) + 3e-16 * |(a : ℝ)| + 1e-33 ≤
      (|x| + s) ^ 7 / 5040 + 3.41e-12 * ((|x| + s) ^ 3 + (|x| + s) ^ 5) + 3e-16 * (|x| + s) + 1e-33 := by
    gcongr
  unfold sineError
  linarith

theorem jit_step_cos {s x : ℝ} {a : ℚ} (ha : Approx f64 s a x) (h : |x| + s ≤ 10) :
    ∃ r, jitCos (Flt.fin (f := f64) (L := L) a) = Flt.fin r ∧
      Approx f64 (cosineError (|x| + s) s) r (Real.cos x) := by
  have hs := ha.size
  obtain ⟨r, h1, h2, h3⟩ := Jit.jitCos_flt (L := L) ha.rep (by exact_mod_cast hs.trans h)
  refine ⟨r, h1, h2, ?_⟩
  have h4 := cos_near ha.err
  have h5 := abs_sub_le (r : ℝ) (Real.cos a) (Real.cos x)
  have h6 : |(a : ℝ)| ^ 6 / 720 + 3.41e-12 * |(a : ℝ)| ^ 4 + 3e-16 * (1 + |(a : ℝ)| ^ 2) ≤
      (|x| + s) ^ 6 / 720 + 3.41e-12 * (|x| + s) ^ 4 + 3e-16 * (1 + (|x| + s) ^ 2) := by
    gcongr
  unfold cosineError
  linarith

theorem certainly_positive {s x : ℝ} {a : ℚ} (ha : Approx f64 s a x) (h : CertainlyPositive x s) :
    0 < x ∧ (2 : ℚ) ^ (-1022 : ℤ) ≤ a ∧ |Real.log a - Real.log x| ≤ 2 * s / x := by
  obtain ⟨h1, h2⟩ := h
  have hp : (0 : ℝ) < 2 ^ (-1022 : ℤ) := by positivity
  have hs := ha.nonneg
  have hx : 0 < x := by linarith
  have he : s / x ≤ 1/2 := by rw [div_le_iff₀ hx]; linarith
  obtain ⟨-, h3⟩ := log_near hx he (by rw [div_mul_cancel₀ _ hx.ne']; exact ha.err)
  refine ⟨hx, ?_, by rw [mul_div_assoc]; exact h3⟩
  have h4 : (2 : ℝ) ^ (-1022 : ℤ) ≤ a := by have := (abs_le.mp ha.err).1; linarith
  exact (Rat.cast_le (K := ℝ)).mp (by rw [Rat.cast_zpow, Rat.cast_ofNat]; exact h4)

theorem jit_step_ln (hB : FaithfulDouble B) {s x : ℝ} {a : ℚ} (ha : Approx f64 s a x)
    (h : CertainlyPositive x s) :
    ∃ r, jitLn (Flt.fin (f := f64) (L := L) a) = Flt.fin r ∧
      Approx f64 (logError x s) r (Real.log x) := by
  obtain ⟨hx, h1, h2⟩ := certainly_positive ha h
  obtain ⟨r, h3, h4, h5⟩ := Jit.jitLn_flt (L := L) hB ha.rep h1
  refine ⟨r, h3, h4, ?_⟩
  have h6 := abs_sub_le (r : ℝ) (Real.log a) (Real.log x)
  have h7 : |Real.log (a : ℝ)| ≤ |Real.log x| + 2 * s / x := by
    have := abs_sub_abs_le_abs_sub (Real.log (a : ℝ)) (Real.log x)
    linarith
  have h8 : 5e-16 * |Real.log (a : ℝ)| ≤ 5e-16 * (|Real.log x| + 2 * s / x) := by gcongr
  unfold logError
  linarith

theorem jit_step_exp (hB : FaithfulDouble B) {s x : ℝ} {a : ℚ} (ha : Approx f64 s a x)
    (h0 : -707 ≤ x - s) (h1 : x + s ≤ 709) :
    ∃ r, jitExp (Flt.fin (f := f64) (L := L) a) = some (Flt.fin r) ∧
      Approx f64 (expError x s) r (Real.exp x) := by
  obtain ⟨e1, e2⟩ := abs_le.mp ha.err
  have g0 : (-707 : ℝ) ≤ a := by linarith
  have g1 : (a : ℝ) ≤ 709 := by linarith
  obtain ⟨r, h3, h4, h5⟩ := Jit.jitExp_accuracy (L := L) hB ha.rep (by exact_mod_cast g0)
    (by exact_mod_cast g1)
  refine ⟨r, h3, h4, ?_⟩
  have h6 := abs_sub_le (r : ℝ) (Real.exp a) (Real.exp x)
  have h7 := exp_near ha.err
  have h8 := ha.size
  have h9 : Real.exp a ≤ Real.exp (x + s) := Real.exp_le_exp.mpr (by linarith)
  have h10 : (2.9e-12 + 3e-15 * |(a : ℝ)|) * Real.exp a ≤
      (2.9e-12 + 3e-15 * (|x| + s)) * Real.exp (x + s) := by
    have := ha.nonneg
    gcongr
  unfold expError
  linarith

theorem jit_step_pow (hB : FaithfulDouble B) {s t x y : ℝ} {a b : ℚ} (ha : Approx f64 s a x)
    (hb : Approx f64 t b y) (h : CertainlyPositive x s) (hy : |y| + t ≤ 10 ^ 10)
    (hl : |y * Real.log x| + ((|y| + t) * (2 * s / x) + t * |Real.log x|) ≤ 700) :
    ∃ r, jitExp (Flt.fin b *. jitLn (Flt.fin a) : Flt f64 L) = some (Flt.fin r) ∧
      Approx f64 (powerError x y s t) r (x ^ y) := by
  obtain ⟨hx, h1, h2⟩ := certainly_positive ha h
  have hap : (0 : ℝ) < a := by
    have : (0 : ℚ) < a := lt_of_lt_of_le (by positivity) h1
    exact_mod_cast this
  have h4 : |Real.log a * b - Real.log x * y| ≤ (|y| + t) * (2 * s / x) + t * |Real.log x| := by
    have e : Real.log a * b - Real.log x * y =
        b * (Real.log a - Real.log x) + ((b : ℝ) - y) * Real.log x := by ring
    rw [e]
    refine (abs_add_le _ _).trans (add_le_add ?_ ?_)
    · rw [abs_mul]
      refine mul_le_mul hb.size h2 (abs_nonneg _) ?_
      have := hb.nonneg; positivity
    · rw [abs_mul]; exact mul_le_mul_of_nonneg_right hb.err (abs_nonneg _)
  have h5 : |(a : ℝ) ^ (b : ℝ) - x ^ y| ≤ powError x y s t := by
    rw [Real.rpow_def_of_pos hap, powError, Real.rpow_def_of_pos hx]
    exact exp_near h4
  have h6 : |(b : ℝ) * Real.log a| ≤ 700 := by
    have := abs_sub_abs_le_abs_sub (Real.log (a : ℝ) * b) (Real.log x * y)
    rw [mul_comm (Real.log x) y] at this h4
    rw [mul_comm]
    linarith
  obtain ⟨r, h7, h8, h9⟩ := Jit.jitPow_flt (L := L) hB ha.rep h1 hb.rep
    (by exact_mod_cast hb.size.trans hy) h6
  refine ⟨r, h7, h8, ?_⟩
  have h10 := abs_sub_le (r : ℝ) ((a : ℝ) ^ (b : ℝ)) (x ^ y)
  have h11 : (a : ℝ) ^ (b : ℝ) ≤ x ^ y + powError x y s t := by linarith [(abs_le.mp h5).2]
  have h12 : (7e-12 + 4e-12 * |(b : ℝ)|) * (a : ℝ) ^ (b : ℝ) ≤
      (7e-12 + 4e-12 * (|y| + t)) * (x ^ y + powError x y s t) := by
    have h13 := hb.size
    have h14 : 0 < (a : ℝ) ^ (b : ℝ) := Real.rpow_pos_of_pos hap _
    have h15 : 0 ≤ |y| + t := by have := hb.nonneg; positivity
    gcongr
  unfold powerError
  linarith

omit B in
theorem numericExponent_eq {e : Expr (Flt f64 L)} {q : ℚ} (h : numericExponent e = some q) :
    e = const (Flt.fin q) := by
  unfold numericExponent at h
  split at h
  · rw [Option.some.inj h]
  · cases h

omit B in
theorem powSpecial_flt (c : Flt f64 L) : powSpecial c =
    if Flt.beq c (.fin 2) then some .square else if Flt.beq c (.fin 3) then some .cube
    else if Flt.beq c (.fin 4) then some .fourth else if Flt.beq c (.fin (1/2)) then some .root
    else if Flt.beq c (.fin 1) then some .self else if Flt.beq c (.fin 0) then some .one else none := by
  have e2 : (ofRat 2 : Flt f64 L) = Flt.fin 2 := f64.round_exact (rep_int (n := 2) (by norm_num))
  have e3 : (ofRat 3 : Flt f64 L) = Flt.fin 3 := f64.round_exact (rep_int (n := 3) (by norm_num))
  have e4 : (ofRat 4 : Flt f64 L) = Flt.fin 4 := f64.round_exact (rep_int (n := 4) (by norm_num))
  have eh : (ofRat (1/2) : Flt f64 L) = Flt.fin (1/2) := f64.round_exact f64_std.rep_half
  have e1 : (ofRat 1 : Flt f64 L) = Flt.fin 1 := f64.round_exact (rep_int (n := 1) (by norm_num))
  have e0 : (ofRat 0 : Flt f64 L) = Flt.fin 0 := f64.round_exact (rep_int (n := 0) (by norm_num))
  unfold powSpecial
  rw [e2, e3, e4, eh, e1, e0]
  rfl

omit B in
theorem powSpecial_fin (q : ℚ) : powSpecial (Flt.fin (f := f64) (L := L) q) =
    if q = 2 then some .square else if q = 3 then some .cube else if q = 4 then some .fourth
    else if q = 1/2 then some .root else if q = 1 then some .self else if q = 0 then some .one else none := by
  have hb : ∀ a b : ℚ, Flt.beq (.fin a) (.fin b) = decide (a = b) := fun a b => rfl
  rw [powSpecial_flt]
  simp only [Flt.fin, hb, decide_eq_true_eq]

omit B in
theorem powSpecial_two : powSpecial (Flt.fin (f := f64) (L := L) 2) = some .square := by
  rw [powSpecial_fin]; norm_num

omit B in
theorem powSpecial_three : powSpecial (Flt.fin (f := f64) (L := L) 3) = some .cube := by
  rw [powSpecial_fin]; norm_num

omit B in
theorem powSpecial_four : powSpecial (Flt.fin (f := f64) (L := L) 4) = some .fourth := by
  rw [powSpecial_fin]; norm_num

omit B in
theorem powSpecial_half : powSpecial (Flt.fin (f := f64) (L := L) (1/2)) = some .root := by
  rw [powSpecial_fin]; norm_num

omit B in
theorem powSpecial_one : powSpecial (Flt.fin (f := f64) (L := L) 1) = some .self := by
  rw [powSpecial_fin]; norm_num

omit B in
theorem powSpecial_zero : powSpecial (Flt.fin (f := f64) (L := L) 0) = some .one := by
  rw [powSpecial_fin]; norm_num

omit B in
theorem powSpecial_none {r : Expr (Flt f64 L)} (h2 : numericExponent r ≠ some 2)
    (h3 : numericExponent r ≠ some 3) (h4 : numericExponent r ≠ some 4)
    (hh : numericExponent r ≠ some (1/2)) (h1 : numericExponent r ≠ some 1)
    (h0 : numericExponent r ≠ some 0) : exprPowSpecial r = none := by
  unfold exprPowSpecial
  split
  · rename_i c
    cases c with
    | fin q =>
      simp only [numericExponent, ne_eq, Option.some.injEq] at h2 h3 h4 hh h1 h0
      rw [powSpecial_fin, if_neg h2, if_neg h3, if_neg h4, if_neg hh, if_neg h1, if_neg h0]
    | nan => exact powSpecial_flt _
    | inf s => exact powSpecial_flt _
  · rfl

/-- what the compiled expression computes is within the bound of the exact value -/
theorem value_near (hB : FaithfulDouble B) (hS : L.SqrtAccurate f64) {σ : String → Option (Flt f64 L)}
    {ρ : String → ℝ} (e : Expr (Flt f64 L))
    (hv : ∀ n, Occurs n e → ∃ q : ℚ, σ n = some (Flt.fin q) ∧ f64.Representable q ∧ (q : ℝ) = ρ n)
    (hw : JitConditioned ρ e) :
    ∃ r : ℚ, Spec.Jit.value σ e = some (Flt.fin r) ∧ Approx f64 (jitErrorBound ρ e) r (realValue ρ e) := by
  induction e with
  | const c =>
    obtain ⟨q, rfl, hq⟩ := hw
    exact ⟨q, rfl, hq, by simp [realValue, jitErrorBound, realOf]⟩
  | var n =>
    obtain ⟨q, hn, hq, hρ⟩ := hv n .var
    exact ⟨q, hn, hq, by simp [realValue, jitErrorBound, hρ]⟩
  | add l r ihl ihr =>
    obtain ⟨h1, h2, h3⟩ := hw
    obtain ⟨a, ea, ha⟩ := ihl (fun n h => hv n (.addL h)) h1
    obtain ⟨b, eb, hb⟩ := ihr (fun n h => hv n (.addR h)) h2
    obtain ⟨c, ec, hc⟩ := step_add f64_std ha hb h3
    refine ⟨c, ?_, hc⟩
    rw [Spec.Jit.value, ea, eb]; exact congrArg some ec
  | sub l r ihl ihr =>
    obtain ⟨h1, h2, h3⟩ := hw
    obtain ⟨a, ea, ha⟩ := ihl (fun n h => hv n (.subL h)) h1
    obtain ⟨b, eb, hb⟩ := ihr (fun n h => hv n (.subR h)) h2
    obtain ⟨c, ec, hc⟩ := step_sub f64_std ha hb h3
    refine ⟨c, ?_, hc⟩
    rw [Spec.Jit.value, ea, eb]; exact congrArg some ec
  | mul l r ihl ihr =>
    obtain ⟨h1, h2, h3⟩ := hw
    obtain ⟨a, ea, ha⟩ := ihl (fun n h => hv n (.mulL h)) h1
    obtain ⟨b, eb, hb⟩ := ihr (fun n h => hv n (.mulR h)) h2
    obtain ⟨c, ec, hc⟩ := step_mul f64_std ha hb h3
    refine ⟨c, ?_, hc⟩
    rw [Spec.Jit.value, ea, eb]; exact congrArg some ec
  | div l r ihl ihr =>
    obtain ⟨h1, h2, h3, h4⟩ := hw
    obtain ⟨a, ea, ha⟩ := ihl (fun n h => hv n (.divL h)) h1
    obtain ⟨b, eb, hb⟩ := ihr (fun n h => hv n (.divR h)) h2
    obtain ⟨-, c, ec, hc⟩ := step_div f64_std ha hb h3 h4
    refine ⟨c, ?_, hc⟩
    rw [Spec.Jit.value, ea, eb]; exact congrArg some ec
  | pow l r ihl ihr =>
    obtain ⟨h1, h2, h3⟩ := hw
    obtain ⟨a, ea, ha⟩ := ihl (fun n h => hv n (.powL h)) h1
    obtain ⟨b, eb, hb⟩ := ihr (fun n h => hv n (.powR h)) h2
    rw [Spec.Jit.value, jitErrorBound]
    rw [ea]
    by_cases c2 : numericExponent r = some 2
    · obtain rfl := numericExponent_eq c2
      rw [if_pos c2] at h3 ⊢
      obtain ⟨c, ec, hc⟩ := step_mul f64_std ha ha h3
      refine ⟨c, ?_, ?_⟩
      · rw [exprPowSpecial, powSpecial_two]; exact congrArg some ec
      · have : realValue ρ (pow l (const (Flt.fin 2) : Expr (Flt f64 L))) = realValue ρ l * realValue ρ l := by
          simp [realValue, realOf, _root_.sq]
        rw [this]; exact hc
    rw [if_neg c2] at h3 ⊢
    by_cases c3 : numericExponent r = some 3
    · obtain rfl := numericExponent_eq c3
      rw [if_pos c3] at h3 ⊢
      obtain ⟨c, ec, hc⟩ := step_mul f64_std ha ha h3.1
      obtain ⟨d, ed, hd⟩ := step_mul f64_std hc ha h3.2
      refine ⟨d, ?_, ?_⟩
      · rw [exprPowSpecial, powSpecial_three]
        refine congrArg some (Eq.trans ?_ ed)
        exact congrArg (fun z => Flt.mul f64 z (.fin a)) ec
      · have : realValue ρ (pow l (const (Flt.fin 3) : Expr (Flt f64 L))) =
            realValue ρ l * realValue ρ l * realValue ρ l := by
          have : ((3 : ℝ)) = ((3 : ℕ) : ℝ) := by norm_num
          simp only [realValue, realOf, Rat.cast_ofNat]
          rw [this, Real.rpow_natCast]; ring
        rw [this]; exact hd
    rw [if_neg c3] at h3 ⊢
    by_cases c4 : numericExponent r = some 4
    · obtain rfl := numericExponent_eq c4
      rw [if_pos c4] at h3 ⊢
      obtain ⟨c, ec, hc⟩ := step_mul f64_std ha ha h3.1
      obtain ⟨d, ed, hd⟩ := step_mul f64_std hc hc h3.2
      refine ⟨d, ?_, ?_⟩
      · rw [exprPowSpecial, powSpecial_four]
        refine congrArg some (Eq.trans ?_ ed)
        exact congrArg (fun z => Flt.mul f64 z z) ec
      · have : realValue ρ (pow l (const (Flt.fin 4) : Expr (Flt f64 L))) =
            realValue ρ l * realValue ρ l * (realValue ρ l * realValue ρ l) := by
          have : ((4 : ℝ)) = ((4 : ℕ) : ℝ) := by norm_num
          simp only [realValue, realOf, Rat.cast_ofNat]
          rw [this, Real.rpow_natCast]; ring
        rw [this]; exact hd
    rw [if_neg c4] at h3 ⊢
    by_cases ch : numericExponent r = some (1/2)
    · obtain rfl := numericExponent_eq ch
      rw [if_pos ch] at h3 ⊢
      obtain ⟨-, c, ec, hc⟩ := step_sqrt hS ha h3
      refine ⟨c, ?_, ?_⟩
      · rw [exprPowSpecial, powSpecial_half]; exact congrArg some ec
      · have : realValue ρ (pow l (const (Flt.fin (1/2)) : Expr (Flt f64 L))) = √(realValue ρ l) := by
          simp [realValue, realOf, Real.sqrt_eq_rpow]
        rw [this]; exact hc
    rw [if_neg ch] at h3 ⊢
    by_cases c1 : numericExponent r = some 1
    · obtain rfl := numericExponent_eq c1
      rw [if_pos c1]
      refine ⟨a, ?_, ?_⟩
      · rw [exprPowSpecial, powSpecial_one]; rfl
      · have : realValue ρ (pow l (const (Flt.fin 1) : Expr (Flt f64 L))) = realValue ρ l := by
          simp [realValue, realOf]
        rw [this]; exact ha
    rw [if_neg c1] at h3 ⊢
    by_cases c0 : numericExponent r = some 0
    · obtain rfl := numericExponent_eq c0
      rw [if_pos c0]
      refine ⟨1, ?_, rep_int (n := 1) (by norm_num), ?_⟩
      · rw [exprPowSpecial, powSpecial_zero]
        exact congrArg some (f64.round_exact (rep_int (n := 1) (by norm_num)))
      · simp [realValue, realOf]
    rw [if_neg c0] at h3 ⊢
    have hn : exprPowSpecial r = none := powSpecial_none c2 c3 c4 ch c1 c0
    obtain ⟨c, ec, hc⟩ := jit_step_pow (L := L) hB ha hb h3.1 h3.2.1 h3.2.2
    refine ⟨c, ?_, hc⟩
    rw [hn, eb]; exact ec
  | ln e ih =>
    obtain ⟨h1, h2⟩ := hw
    obtain ⟨a, ea, ha⟩ := ih (fun n h => hv n (.ln h)) h1
    obtain ⟨c, ec, hc⟩ := jit_step_ln hB ha h2
    refine ⟨c, ?_, hc⟩
    rw [Spec.Jit.value, ea]; exact congrArg some ec
  | exp e ih =>
    obtain ⟨h1, h2, h3⟩ := hw
    obtain ⟨a, ea, ha⟩ := ih (fun n h => hv n (.exp h)) h1
    obtain ⟨c, ec, hc⟩ := jit_step_exp (L := L) hB ha h2 h3
    refine ⟨c, ?_, hc⟩
    rw [Spec.Jit.value, ea]; exact ec
  | sqrt e ih =>
    obtain ⟨h1, h2⟩ := hw
    obtain ⟨a, ea, ha⟩ := ih (fun n h => hv n (.sqrt h)) h1
    obtain ⟨-, c, ec, hc⟩ := step_sqrt hS ha h2
    refine ⟨c, ?_, hc⟩
    rw [Spec.Jit.value, ea]; exact congrArg some ec
  | sin e ih =>
    obtain ⟨h1, h2⟩ := hw
    obtain ⟨a, ea, ha⟩ := ih (fun n h => hv n (.sin h)) h1
    obtain ⟨c, ec, hc⟩ := jit_step_sin (L := L) ha h2
    refine ⟨c, ?_, hc⟩
    rw [Spec.Jit.value, ea]; exact congrArg some ec
  | cos e ih =>
    obtain ⟨h1, h2⟩ := hw
    obtain ⟨a, ea, ha⟩ := ih (fun n h => hv n (.cos h)) h1
    obtain ⟨c, ec, hc⟩ := jit_step_cos (L := L) ha h2
    refine ⟨c, ?_, hc⟩
    rw [Spec.Jit.value, ea]; exact congrArg some ec
  | neg e ih =>
    obtain ⟨a, ea, ha⟩ := ih (fun n h => hv n (.neg h)) hw
    refine ⟨-a, ?_, ha.neg⟩
    rw [Spec.Jit.value, ea]; rfl

end steps

variable [B : FloatBits (Flt f64 L)]

/-- **C109.** A compiled function, called on doubles, returns a number whose distance from the exact
value of the expression is at most what the rules of error propagation allow. -/
theorem C109_compiled (hB : FaithfulDouble B) (hS : L.SqrtAccurate f64) {ρ : String → ℝ}
    {e : Expr (Flt f64 L)} {ds ps : List String} {cs : FMap String (Flt f64 L)} {k : ℕ}
    {f : Compiled (Flt f64 L)} (hf : compileExpression e ds ps cs k = .ok f) {args : List (Flt f64 L)}
    (hlen : args.length = ds.length + ps.length)
    (hv : ∀ n, Occurs n e → ∃ q : ℚ, bindings ds ps cs args n = some (Flt.fin q) ∧
      f64.Representable q ∧ (q : ℝ) = ρ n)
    (hw : JitConditioned ρ e) :
    ∃ r : ℚ, run f args = .value (Flt.fin r) ∧ f64.Representable r ∧
      |(r : ℝ) - realValue ρ e| ≤ jitErrorBound ρ e := by
  obtain ⟨r, h1, h2⟩ := value_near hB hS e hv hw
  exact ⟨r, by rw [C59_computes e ds ps cs k hf args hlen, h1]; rfl, h2.rep, h2.err⟩

/-- **C109.** The compiled function and the interpreter agree up to the sum of their errors. -/
theorem C109_agrees (hB : FaithfulDouble B) (hL : L.AllAccurate f64) {ρ : String → ℝ}
    {e : Expr (Flt f64 L)} {ds ps : List String} {cs : FMap String (Flt f64 L)} {k : ℕ}
    {f : Compiled (Flt f64 L)} (hf : compileExpression e ds ps cs k = .ok f) {args : List (Flt f64 L)}
    (hlen : args.length = ds.length + ps.length)
    (hv : ∀ n, Occurs n e → ∃ q : ℚ, bindings ds ps cs args n = some (Flt.fin q) ∧
      f64.Representable q ∧ (q : ℝ) = ρ n)
    {vars : FMap String (Flt f64 L)} (hvars : Values f64 L vars ρ)
    (hbound : ∀ n, Occurs n e → ∃ v, vars.get n = some v)
    (hw : JitConditioned ρ e) (hw' : WellConditioned ρ e) :
    ∃ r r' : ℚ, run f args = .value (Flt.fin r) ∧ e.evaluate vars = .ok (Flt.fin r') ∧
      |(r : ℝ) - r'| ≤ jitErrorBound ρ e + errorBound ρ e := by
  obtain ⟨r, h1, -, h2⟩ := C109_compiled hB hL.sqrt hf hlen hv hw
  obtain ⟨r', h3, -, h4⟩ := C108_evaluate f64_std hL hvars e hbound hw'
  refine ⟨r, r', h1, h3, ?_⟩
  have h5 := abs_sub_le (r : ℝ) (realValue ρ e) r'
  rw [abs_sub_comm (realValue ρ e)] at h5
  linarith

/-- the hypotheses are met: `exp(-x²/2)` at `x = 1` -/
example : ∃ (L : Libm) (B : FloatBits (Flt f64 L)), FaithfulDouble B ∧ L.AllAccurate f64 ∧
    ∃ (e : Expr (Flt f64 L)) (f : Compiled (Flt f64 L)),
      e = .exp (.mul (.const (Flt.fin (-(1/2)))) (.pow (.var "x") (.const (Flt.fin 2)))) ∧
      compileExpression e ["x"] [] FMap.empty 0 = .ok f ∧
      (∀ n, Occurs n e → ∃ q : ℚ,
        bindings (F := Flt f64 L) ["x"] [] FMap.empty [Flt.fin 1] n = some (Flt.fin q) ∧ f64.Representable q ∧ (q : ℝ) = (fun _ => 1 : String → ℝ) n) ∧
      JitConditioned (fun _ => 1) e ∧ WellConditioned (fun _ => 1) e := by
  have hf : f64.Std := .inl rfl
  obtain ⟨L, hL⟩ := exists_libm_all hf
  obtain ⟨B, hB⟩ := exists_faithful_double L
  have hu := u_pos f64
  have hul := hf.u_le
  have hη := hf.eta_le
  have h4 : f64.u ^ 4 ≤ f64.u := pow_le_of_le_one hu.le (hul.trans (by norm_num)) (by norm_num)
  have hη' : (2 : ℝ) ^ f64.emin ≤ f64.u := by linarith
  have hη0 : (0 : ℝ) < 2 ^ f64.emin := by positivity
  have hbig : (2 : ℝ) ^ (10 : ℤ) ≤ 2 ^ (1023 : ℤ) := zpow_le_zpow_right₀ (by norm_num) (by decide)
  have hbig' : (2 : ℝ) ^ (10 : ℤ) ≤ 2 ^ (f64.emax - 1) := zpow_le_zpow_right₀ (by norm_num) (by decide)
  have hocc : ∀ n, Occurs n (.exp (.mul (.const (Flt.fin (-(1/2)))) (.pow (.var "x") (.const (Flt.fin 2)))) :
      Expr (Flt f64 L)) → n = "x" := by
    intro n hn
    cases hn with
    | exp h => cases h with
      | mulL h => cases h
      | mulR h => cases h with
        | powL h => cases h; rfl
        | powR h => cases h
  obtain ⟨g, hg⟩ := (C59_compiles_iff (.exp (.mul (.const (Flt.fin (-(1/2)))) (.pow (.var "x")
    (.const (Flt.fin 2)))) : Expr (Flt f64 L)) ["x"] [] FMap.empty 0).mpr
    (fun n hn => .inl (by rw [hocc n hn]; simp))
  refine ⟨L, B, hB, hL, _, g, rfl, hg, ?_, ?_, ?_⟩
  · intro n hn
    obtain rfl := hocc n hn
    exact ⟨1, rfl, hf.rep_one, by norm_num⟩
  · simp only [JitConditioned, realValue, jitErrorBound, productError, rounded, realOf, numericExponent]
    generalize (2 : ℝ) ^ (1023 : ℤ) = M at *
    norm_num at hbig hul ⊢
    generalize (2 : ℝ) ^ f64.emin = η at *
    have hm : f64.u * η ≤ f64.u := mul_le_of_le_one_right hu.le (by linarith)
    have hq : f64.u * f64.u ≤ f64.u := mul_le_of_le_one_right hu.le (by linarith)
    exact ⟨⟨⟨_, rfl, rep_neg hf.rep_half⟩, ⟨⟨2, rfl, rep_int (n := 2) (by norm_num)⟩, by linarith⟩, by linarith⟩,
      by linarith, by linarith⟩
  · simp only [WellConditioned, realValue, errorBound, rounded, realOf, literalExponent]
    generalize (2 : ℝ) ^ (f64.emax - 1) = M at *
    norm_num at hbig' hul ⊢
    generalize (2 : ℝ) ^ f64.emin = η at *
    have hm : f64.u * η ≤ f64.u := mul_le_of_le_one_right hu.le (by linarith)
    have hq : f64.u * f64.u ≤ f64.u := mul_le_of_le_one_right hu.le (by linarith)
    refine ⟨⟨⟨_, rfl, rep_neg hf.rep_half⟩, ⟨⟨2, rfl, rep_int (n := 2) (by norm_num)⟩, by linarith⟩, by linarith⟩, ?_⟩
    refine lt_of_le_of_lt (Real.exp_le_one_iff.mpr (by linarith)) (by linarith)

end Verif
