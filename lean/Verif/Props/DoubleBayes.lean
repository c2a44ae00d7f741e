import Verif.Props.DoubleLogSumExp
import Verif.Props.DoubleExpr
import Verif.Props.DoubleTagless
import Verif.Spec.DoubleBayes
import Verif.Model.Bayesian

/-!
# C106: Bayesian model expressions in floating point
-/

namespace Verif
open Format FloatOps Expr Bayes Builders ProbabilityTheory

variable {f : Format} {L : Libm}

/-- division of two computed numbers, the divisor positive: the exact quotient of the computed numbers
is near, and so is the rounded one when it is finite -/
theorem near_div (hf : f.Std) {k l : ℝ} {a b : ℚ} {x y X : ℝ} (ha : Near f k a x X)
    (hb : Near f l b y y) (hy : 0 < y) (hk0 : 0 ≤ k) (hl0 : 0 ≤ l) (hk : k ≤ 1000) (hl : l ≤ 1000)
    (hη : f.u ^ 3 ≤ X / y) :
    0 < b ∧ |(a : ℝ) / b - x / y| ≤ (k + 2 * l + 1) * f.u * (X / y) ∧
    ∀ r, f.round (a / b) = .fin r → Near f (k + 2 * l + 6) r (x / y) (X / y) := by
  have hu := u_pos f
  have hul := hf.u_le
  have hlu : l * f.u ≤ 1/10000 := by nlinarith
  have hku : k * f.u ≤ 1/10000 := by nlinarith
  have hlu0 : 0 ≤ l * f.u := by positivity
  have hbe := abs_le.mp hb.err
  have hbl : (1 - l * f.u) * y ≤ b := by nlinarith
  have hb0 : (0 : ℝ) < b := by nlinarith
  have hb0' : 0 < b := by exact_mod_cast hb0
  have hX := ha.nonneg
  have hq1 : |(a : ℝ) / b - x / y| ≤ (k + 2 * l + 1) * f.u * (X / y) := by
    have e : (a : ℝ) / b - x / y = ((a - x) * y - x * (b - y)) / (b * y) := by field_simp; ring
    rw [e, abs_div, abs_of_pos (by positivity : (0 : ℝ) < b * y), div_le_iff₀ (by positivity)]
    have h1 := abs_sub ((a - x) * y) (x * (b - y))
    rw [abs_mul, abs_mul, abs_of_pos hy] at h1
    have h2 : |(a : ℝ) - x| * y ≤ (k * f.u * X) * y := mul_le_mul_of_nonneg_right ha.err hy.le
    have h3 : |x| * |(b : ℝ) - y| ≤ X * (l * f.u * y) := mul_le_mul ha.mag hb.err (abs_nonneg _) hX
    have h4 : (k + 2 * l + 1) * f.u * (X / y) * (b * y) = (k + 2 * l + 1) * f.u * X * b := by
      field_simp
    rw [h4]
    have h5 : (k + 2 * l + 1) * f.u * X * ((1 - l * f.u) * y) ≤ (k + 2 * l + 1) * f.u * X * b := by
      gcongr
    have h6 : k * l * f.u ≤ 1/10 := by
      have := mul_le_mul hk hlu hlu0 (by norm_num)
      linarith
    have h7 : l * (l * f.u) ≤ 1/10 := by
      have := mul_le_mul hl hlu hlu0 (by norm_num)
      linarith
    have h8 : (k + l) ≤ (k + 2 * l + 1) * (1 - l * f.u) := by nlinarith
    have h9 : (k + l) * (f.u * X * y) ≤ (k + 2 * l + 1) * (1 - l * f.u) * (f.u * X * y) :=
      mul_le_mul_of_nonneg_right h8 (by positivity)
    nlinarith
  have hxy : |x / y| ≤ X / y := by rw [abs_div, abs_of_pos hy]; gcongr; exact ha.mag
  have hXy : 0 ≤ X / y := by positivity
  refine ⟨hb0', hq1, fun r hr => ?_⟩
  have hsz : |(a : ℝ) / b| ≤ 2 * (X / y) := by
    have h1 := abs_sub_abs_le_abs_sub ((a : ℝ) / b) (x / y)
    have h2 : (k + 2 * l + 1) * f.u ≤ 1 := by
      have : f.u ≤ 1/10000 := hul.trans (by norm_num)
      nlinarith
    have := mul_le_mul_of_nonneg_right h2 hXy
    linarith
  obtain ⟨hrep, he⟩ := near_round hf hr
  push_cast at he
  refine ⟨hrep, hxy, ?_⟩
  have e : (r : ℝ) - x / y = ((r : ℝ) - a / b) + ((a : ℝ) / b - x / y) := by ring
  rw [e]
  have h6 := abs_add_le ((r : ℝ) - a / b) ((a : ℝ) / b - x / y)
  have hη2 : (2 : ℝ) ^ f.emin ≤ f.u * (X / y) := by
    calc (2 : ℝ) ^ f.emin ≤ f.u ^ 4 := hf.eta_le
      _ = f.u * f.u ^ 3 := by ring
      _ ≤ f.u * (X / y) := by gcongr
  have h9 : f.u * |(a : ℝ) / b| ≤ f.u * (2 * (X / y)) := by gcongr
  nlinarith

/-- neither operand is a constant -/
theorem eval_add_flt {vars : FMap String (Flt f L)} {l r : Expr (Flt f L)} {a b : Flt f L}
    (hl : ∀ c, l ≠ .const c) (hr : ∀ c, r ≠ .const c) (ha : l.evaluate vars = .ok a)
    (hb : r.evaluate vars = .ok b) : (Expr.add l r).evaluate vars = .ok (Flt.add f a b : Flt f L) := by
  have e1 : bothConst l r = none := by
    cases l <;> first | rfl | exact absurd rfl (hl _)
  have e2 : ∀ c, Expr.isConst c l = false := by
    intro c; cases l <;> first | rfl | exact absurd rfl (hl _)
  have e3 : ∀ c, Expr.isConst c r = false := by
    intro c; cases r <;> first | rfl | exact absurd rfl (hr _)
  rw [Expr.evaluate, e1]
  simp only [e2, e3]
  rw [ha, hb]; rfl

theorem eval_mul_flt {vars : FMap String (Flt f L)} {l r : Expr (Flt f L)} {a b : Flt f L}
    (hr : ∀ c, r ≠ .const c) (hl0 : Expr.isConst FloatOps.zero l = false) (hl1 : Expr.isConst FloatOps.one l = false)
    (ha : l.evaluate vars = .ok a)
    (hb : r.evaluate vars = .ok b) : (Expr.mul l r).evaluate vars = .ok (Flt.mul f a b : Flt f L) := by
  have e1 : bothConst l r = none := by
    cases r <;> first | (cases l <;> rfl) | exact absurd rfl (hr _)
  have e3 : ∀ c, Expr.isConst c r = false := by
    intro c; cases r <;> first | rfl | exact absurd rfl (hr _)
  rw [Expr.evaluate, e1]
  simp only [hl0, hl1, e3, Bool.or_self]
  rw [ha, hb]; rfl

theorem eval_sub_flt {vars : FMap String (Flt f L)} {l r : Expr (Flt f L)} {a b : Flt f L}
    (ha : l.evaluate vars = .ok a) (hb : r.evaluate vars = .ok b) :
    (Expr.sub l r).evaluate vars = .ok (Flt.sub f a b : Flt f L) := by
  rw [Expr.evaluate, ha, hb]; rfl

theorem eval_pow_flt {vars : FMap String (Flt f L)} {l r : Expr (Flt f L)} {a b : Flt f L}
    (ha : l.evaluate vars = .ok a) (hb : r.evaluate vars = .ok b) :
    (Expr.pow l r).evaluate vars = .ok (L.powf a b : Flt f L) := by
  rw [Expr.evaluate, ha, hb]; rfl

theorem eval_div_flt {vars : FMap String (Flt f L)} {l r : Expr (Flt f L)} {a b : Flt f L}
    (ha : l.evaluate vars = .ok a) (hb : r.evaluate vars = .ok b) :
    (Expr.div l r).evaluate vars = if Flt.beq b (.fin 0) then .error .divisionByZero
      else .ok (Flt.div f a b : Flt f L) := by
  rw [Expr.evaluate, hb]
  show (if Flt.beq b (.fin 0) then _ else _) = _
  rw [ha]; rfl

theorem eval_ln_flt {vars : FMap String (Flt f L)} {e : Expr (Flt f L)} {q : ℚ}
    (h : e.evaluate vars = .ok (Flt.fin q)) (h0 : 0 < q) :
    (Expr.ln e).evaluate vars = .ok (Flt.ln L (.fin q) : Flt f L) := by
  rw [Expr.evaluate, h]
  show (if Flt.le (.fin q) (.fin 0) then _ else _) = _
  rw [if_neg (by simp [Flt.le, h0])]; rfl

/-- what evaluating `normal_log_pdf` computes -/
theorem eval_normalLogPdf (hf : f.Std) {vars : FMap String (Flt f L)} {ex em es : Expr (Flt f L)}
    {x μ σ : ℚ} (hx : ex.evaluate vars = .ok (Flt.fin x)) (hm : em.evaluate vars = .ok (Flt.fin μ))
    (hs : es.evaluate vars = .ok (Flt.fin σ)) (h0 : 0 < σ) :
    (normalLogPdf ex em es).evaluate vars =
      if Flt.beq (L.powf (.fin σ) (.fin 2)) (.fin 0) then .error .divisionByZero
      else .ok (Flt.add f
        (Flt.neg (Flt.add f
          (Flt.mul f (f.round (1/2)) (Flt.ln L (Flt.mul f (f.round 2) (f.round Flt.piLit)))) (Flt.ln L (.fin σ))))
        (Flt.div f (Flt.mul f (.fin (-(1/2))) (L.powf (Flt.sub f (.fin x) (.fin μ)) (.fin 2)))
          (L.powf (.fin σ) (.fin 2))) : Flt f L) := by
  obtain ⟨p, hp, hpn⟩ := near_two_pi hf
  have hp0 : 0 < p := by
    have h1 := (log_near (e := 8 * f.u) (by positivity) (by
      have := hf.u_le; norm_num at this ⊢; linarith) hpn.err).1
    exact_mod_cast h1
  have hh := round_half hf
  have h2 : (ofRat 2 : Flt f L) = Flt.fin 2 := round_two hf
  have hz : ∀ q : ℚ, q ≠ 1/2 → Expr.isConst (Flt.fin q : Flt f L) (.const (ofRat (1/2))) = false := by
    intro q hq
    show Flt.beq (f.round (1/2)) (.fin q) = false
    rw [hh]
    simp only [Flt.beq, decide_eq_false_iff_not]
    exact hq.symm
  have hln : Expr.evaluate vars (.ln (.const ((ofRat 2 : Flt f L) *. FloatOps.pi))) =
      .ok (Flt.ln L (Flt.mul f (f.round 2) (f.round Flt.piLit)) : Flt f L) := by
    have e : ((ofRat 2 : Flt f L) *. FloatOps.pi) = Flt.fin p := hp
    rw [e, hp]
    exact eval_ln_flt rfl hp0
  have hmul := eval_mul_flt (l := .const (ofRat (1/2) : Flt f L)) (by simp) (hz 0 (by norm_num))
    (hz 1 (by norm_num)) rfl hln
  have hneg : Expr.evaluate vars (.neg (.add (.mul (.const (ofRat (1/2) : Flt f L))
      (.ln (.const ((ofRat 2 : Flt f L) *. FloatOps.pi)))) (.ln es))) = .ok (Flt.neg (Flt.add f
          (Flt.mul f (f.round (1/2)) (Flt.ln L (Flt.mul f (f.round 2) (f.round Flt.piLit)))) (Flt.ln L (.fin σ))) : Flt f L) := by
    rw [Expr.evaluate, eval_add_flt (by simp) (by simp) hmul (eval_ln_flt hs h0)]; rfl
  have hquad : Expr.evaluate vars (.mul (.neg (.const (ofRat (1/2) : Flt f L))) (.pow (.sub ex em) (.const (ofRat 2)))) =
      .ok (Flt.mul f (.fin (-(1/2))) (L.powf (Flt.sub f (.fin x) (.fin μ)) (.fin 2)) : Flt f L) := by
    refine eval_mul_flt (by simp) rfl rfl ?_ ?_
    · show Except.ok (Flt.neg (f.round (1/2))) = _
      rw [hh]; rfl
    · rw [h2]; exact eval_pow_flt (eval_sub_flt hx hm) rfl
  have hden : Expr.evaluate vars (.pow es (.const (ofRat 2 : Flt f L))) = .ok (L.powf (.fin σ) (.fin 2) : Flt f L) := by
    rw [h2]; exact eval_pow_flt hs rfl
  have hdiv := eval_div_flt hquad hden
  unfold normalLogPdf
  split_ifs with hc
  · rw [if_pos hc] at hdiv
    rw [Expr.evaluate]
    simp only [bothConst, Expr.isConst]
    rw [hneg, hdiv]; rfl
  · rw [if_neg hc] at hdiv
    exact eval_add_flt (by simp) (by simp) hneg hdiv

/-- **C106**, Normal log-density as an expression: for every point, mean and positive scale (numbers of
the format, given by arbitrary expressions), when the squares of the scale and of the distance from the
mean are in the format's range, `evaluate` succeeds; the result is a number within `80` units of roundoff
of the logarithm of the Gaussian density, relative to the sizes of its terms, or `-∞` when the squared
standard score is at the edge of the range.  (Missing: scales whose square is not in the range, see
`C106_small_scale_violated`.) -/
theorem C106_normal_log_pdf_partial (hf : f.Std) (hL : L.Accurate f) (hP : L.SquareAccurate f)
    {vars : FMap String (Flt f L)} {ex em es : Expr (Flt f L)} {x μ σ : ℚ}
    (hx : ex.evaluate vars = .ok (Flt.fin x)) (hm : em.evaluate vars = .ok (Flt.fin μ))
    (hs : es.evaluate vars = .ok (Flt.fin σ)) (hxr : f.Representable x) (hmr : f.Representable μ)
    (hsr : f.Representable σ) (h0 : 0 < σ) (hlo : 2 ^ f.emin / f.u ≤ (σ : ℝ) ^ 2)
    (hhi : (σ : ℝ) ^ 2 < 2 ^ (f.emax - 1)) (hd : ((x : ℝ) - μ) ^ 2 ≤ 2 ^ (f.emax - 2)) :
    (∃ r : ℚ, (normalLogPdf ex em es).evaluate vars = .ok (Flt.fin r) ∧ f.Representable r ∧
      |(r : ℝ) - Real.log (gaussianPDFReal μ ((σ : ℝ) ^ 2).toNNReal x)| ≤
        80 * f.u * (1 + |Real.log σ| + (((x : ℝ) - μ) / σ) ^ 2 / 2)) ∨
    ((normalLogPdf ex em es).evaluate vars = .ok (Flt.negInf (f := f) (L := L)) ∧
      (2 : ℝ) ^ (f.emax - 4) < (((x : ℝ) - μ) / σ) ^ 2) := by
  have hu := u_pos f
  have hul : f.u ≤ 1/10000 := hf.u_le.trans (by norm_num)
  have hσR : (0 : ℝ) < σ := by exact_mod_cast h0
  have hσ2 : 0 < (σ : ℝ) ^ 2 := by positivity
  have hη : (2 : ℝ) ^ f.emin ≤ f.u * (σ : ℝ) ^ 2 := by rw [div_le_iff₀ hu] at hlo; linarith
  have hη0 : (0 : ℝ) < 2 ^ f.emin := by positivity
  rw [eval_normalLogPdf hf hx hm hs h0, log_gaussian_flt hσR]
  -- the scale
  obtain ⟨s, hs1, hs2, hs3⟩ := (hP σ hsr).resolve_right fun h => absurd h.2 (not_le.mpr hhi)
  have hsn : Near f 3 s ((σ : ℝ) ^ 2) ((σ : ℝ) ^ 2) := ⟨hs2, by rw [abs_of_pos hσ2], by linarith⟩
  -- the distance
  have hbig : (2 : ℝ) ^ (120 : ℤ) ≤ 2 ^ (f.emax - 4) :=
    zpow_le_zpow_right₀ (by norm_num) (by have := hf.emax_ge; omega)
  have h2e : (2 : ℝ) ^ (f.emax - 2) = 4 * 2 ^ (f.emax - 4) := by
    rw [show f.emax - 2 = 2 + (f.emax - 4) by ring, zpow_add₀ (by norm_num)]; norm_num
  have h1e : (2 : ℝ) ^ (f.emax - 1) = 8 * 2 ^ (f.emax - 4) := by
    rw [show f.emax - 1 = 3 + (f.emax - 4) by ring, zpow_add₀ (by norm_num)]; norm_num
  have hbig' : (1000000 : ℝ) ≤ 2 ^ (f.emax - 4) := le_trans (by norm_num) hbig
  generalize hE : (2 : ℝ) ^ (f.emax - 4) = E at *
  set d : ℝ := (x : ℝ) - μ with hdd
  have hdabs : |d| ≤ 4 * E := by
    have h1 : |d| ≤ 1 + d ^ 2 / 2 := by
      have := sq_abs d
      nlinarith [sq_nonneg (|d| - 1)]
    linarith
  obtain ⟨a, ha, -⟩ := f.round_le (prec1 hf) (q := x + -μ) (k := f.emax - 1) (rat_le (by
    push_cast
    rw [h1e, ← sub_eq_add_neg]
    linarith)) (by have := emin_lt_emax hf; omega) (by omega)
  have ha1 : Flt.sub f (.fin x) (.fin μ) = .fin a := ha
  obtain ⟨har, hae⟩ := near_round_add hf hxr (rep_neg hmr) ha
  have hae' : |(a : ℝ) - d| ≤ f.u * |d| := by
    push_cast at hae
    rwa [← sub_eq_add_neg] at hae
  have hsq : |(a : ℝ) ^ 2 - d ^ 2| ≤ 2.1 * f.u * d ^ 2 := by
    have e : (a : ℝ) ^ 2 - d ^ 2 = (a - d) * ((a - d) + 2 * d) := by ring
    rw [e, abs_mul]
    have h1 := abs_add_le ((a : ℝ) - d) (2 * d)
    rw [abs_mul, abs_two] at h1
    have h2 : |(a : ℝ) - d + 2 * d| ≤ 2.1 * |d| := by
      have : f.u * |d| ≤ 1/10000 * |d| := by gcongr
      linarith [abs_nonneg d]
    calc _ ≤ (f.u * |d|) * (2.1 * |d|) := mul_le_mul hae' h2 (abs_nonneg _) (by positivity)
      _ = 2.1 * f.u * |d| ^ 2 := by ring
      _ = _ := by rw [sq_abs]
  have hd0 : 0 ≤ d ^ 2 := sq_nonneg d
  have hud : f.u * d ^ 2 ≤ 1/10000 * d ^ 2 := by gcongr
  have haup : (a : ℝ) ^ 2 ≤ 1.1 * d ^ 2 := by
    have := (abs_le.mp hsq).2
    linarith
  obtain ⟨p, hp1, hp2, hp3⟩ := (hP a har).resolve_right fun h => absurd h.2 (not_le.mpr (by
    rw [h1e]; linarith))
  set X : ℝ := d ^ 2 + (σ : ℝ) ^ 2 with hXd
  have hX0 : 0 < X := by positivity
  have hpe : |(p : ℝ) - d ^ 2| ≤ 5 * f.u * X := by
    have h1 := abs_sub_le (p : ℝ) ((a : ℝ) ^ 2) (d ^ 2)
    have h2 : f.u * (a : ℝ) ^ 2 ≤ f.u * (1.1 * d ^ 2) := by gcongr
    have h3 : 0 ≤ f.u * d ^ 2 := by positivity
    have h4 : 0 ≤ f.u * (σ : ℝ) ^ 2 := by positivity
    rw [hXd]
    linarith
  have huX : f.u * X ≤ 1/10000 * X := by gcongr
  have hpabs : |(p : ℝ)| ≤ 1.1 * X := by
    have h1 := abs_sub_abs_le_abs_sub (p : ℝ) (d ^ 2)
    rw [abs_of_nonneg hd0] at h1
    have : d ^ 2 ≤ X := by linarith
    linarith
  have hXE : X ≤ 12 * E := by linarith
  obtain ⟨h, hh1, -⟩ := f.round_le (prec1 hf) (q := -(1/2) * p) (k := f.emax - 1) (rat_le (by
    push_cast
    rw [h1e, abs_mul]
    norm_num
    linarith)) (by have := emin_lt_emax hf; omega) (by omega)
  obtain ⟨hhr, hhe⟩ := near_round hf hh1
  have hhn : Near f 5 h (-(d ^ 2) / 2) X := by
    refine ⟨hhr, ?_, ?_⟩
    · rw [abs_div, abs_neg, abs_of_nonneg hd0, abs_two]; linarith
    · have h1 := abs_sub_le (h : ℝ) (((-(1/2) * p : ℚ)) : ℝ) (-(d ^ 2) / 2)
      have h2 : ((-(1/2) * p : ℚ) : ℝ) - (-(d ^ 2) / 2) = -(1/2) * ((p : ℝ) - d ^ 2) := by push_cast; ring
      rw [h2, abs_mul] at h1
      have h3 : |((-(1/2) * p : ℚ) : ℝ)| = 1/2 * |(p : ℝ)| := by
        push_cast; rw [abs_mul]; norm_num
      rw [h3] at hhe
      have h4 : f.u * |(p : ℝ)| ≤ f.u * (1.1 * X) := by gcongr
      have h5 : f.u * (σ : ℝ) ^ 2 ≤ f.u * X := by gcongr; linarith
      have h6 : |(-(1/2) : ℝ)| = 1/2 := by norm_num
      rw [h6] at h1
      linarith
  have hXs : X / (σ : ℝ) ^ 2 = (d / σ) ^ 2 + 1 := by rw [hXd]; field_simp
  have hz0 : 0 ≤ (d / σ) ^ 2 := sq_nonneg _
  obtain ⟨hs0, hq1, hq2⟩ := near_div hf hhn hsn hσ2 (by norm_num) (by norm_num) (by norm_num) (by norm_num)
    (u_cube_le hf (by rw [hXs]; linarith))
  rw [hXs, show -(d ^ 2) / 2 / (σ : ℝ) ^ 2 = -((d / σ) ^ 2 / 2) by field_simp] at hq1 hq2
  -- the constant
  obtain ⟨c, hc, hcn⟩ := near_const hf hL
  rw [mul_neg_left] at hc
  obtain ⟨c', hc'⟩ : ∃ c', Flt.mul f (f.round (1/2)) (Flt.ln L (Flt.mul f (f.round 2) (f.round Flt.piLit))) = .fin c' ∧ c = -c' := by
    revert hc
    cases Flt.mul f (f.round (1/2)) (Flt.ln L (Flt.mul f (f.round 2) (f.round Flt.piLit))) with
    | fin v => intro hc; exact ⟨v, rfl, (FVal.fin.inj hc).symm⟩
    | inf b => intro hc; cases hc
    | nan => intro hc; cases hc
  obtain ⟨hc1, rfl⟩ := hc'
  have hcn' := hcn.neg
  rw [neg_neg] at hcn'
  obtain ⟨l, hl, hln, hl2⟩ := near_ln_rep hf hL h0 hsr
  obtain ⟨b0, b4⟩ := log_two_pi_bounds
  have hcsz := hcn'.size hf (by norm_num)
  obtain ⟨t, ht⟩ := round_small hf (q := c' + l) (rat_le (by
    push_cast
    have := abs_add_le (c' : ℝ) l
    have h100 : (10000 : ℝ) ≤ 2 ^ (100 : ℤ) := by norm_num
    linarith))
  have htn := (Near.add hf hcn' (hln.mono (k' := 24) (by norm_num) le_rfl (by norm_num)) (by norm_num) ht).neg
  have ht1 : Flt.add f (.fin c') (.fin l) = .fin t := ht
  have htsz : |(t : ℝ)| ≤ 10000 := by
    have h1 := htn.size hf (by norm_num)
    have h2 := log_rep_le hf h0 hsr
    push_cast at h1
    rw [abs_neg] at h1
    linarith
  have hbeq : Flt.beq (.fin s) (.fin 0) = false := by
    simp only [Flt.beq, decide_eq_false_iff_not]; exact hs0.ne'
  have hmulh : Flt.mul f (.fin (-(1/2))) (.fin p) = .fin h := hh1
  rw [hs1, ha1, hp1, hc1, hl, ht1, hmulh, hbeq]
  simp only [Flt.neg, Bool.false_eq_true, if_false]
  have hdiv : Flt.div f (.fin h) (.fin s) = f.round (h / s) := by
    simp only [Flt.div, if_neg hs0.ne']
  rw [hdiv]
  have hfin : (80 : ℝ) * f.u * (1 + |Real.log σ| + (d / σ) ^ 2 / 2) ≥
      (24 + 2 + 2) * f.u * (1 / 2 * (1 + Real.log (2 * Real.pi)) + |Real.log ↑σ| + ((d / σ) ^ 2 + 1)) := by
    have hlog := abs_nonneg (Real.log σ)
    have h1 : (24 + 2 + 2) * (1 / 2 * (1 + Real.log (2 * Real.pi)) + |Real.log ↑σ| + ((d / σ) ^ 2 + 1)) ≤
        80 * (1 + |Real.log σ| + (d / σ) ^ 2 / 2) := by linarith
    have := mul_le_mul_of_nonneg_left h1 hu.le
    linarith
  have hzq : (5 + 2 * 3 + 1) * f.u * ((d / σ) ^ 2 + 1) ≤ 1/100 * ((d / σ) ^ 2 + 1) := by
    gcongr; linarith
  have hqa := abs_le.mp hq1
  rcases f.round_cases (h / s) with ⟨q, hq⟩ | hq
  · rw [hq]
    have hqn := hq2 q hq
    rcases f.round_cases (-t + q) with ⟨r, hr⟩ | hr
    · left
      have hrn := Near.add hf htn (hqn.mono (k' := 24 + 2) (by norm_num) le_rfl (by norm_num)) (by norm_num) hr
      refine ⟨r, congrArg Except.ok hr, hrn.rep, ?_⟩
      have := hrn.err
      have e : -(1 / 2) * Real.log (2 * Real.pi) - Real.log σ - (d / σ) ^ 2 / 2 =
        -(-(-(1 / 2) * Real.log (2 * Real.pi)) + Real.log σ) + -((d / σ) ^ 2 / 2) := by ring
      rw [e]
      exact this.trans hfin
    · right
      obtain ⟨hov, -⟩ := f.round_inf (prec1 hf) (emin_lt_emax hf) hr
      have hov' := real_lt hov
      push_cast at hov'
      rw [h1e] at hov'
      have h1 := abs_add_le (-(t : ℝ)) q
      rw [abs_neg] at h1
      have h2 := hqn.size hf (by norm_num)
      have hzE : E < (d / σ) ^ 2 := by linarith
      have hneg : (-t + q : ℚ) < 0 := by
        have h3 := (abs_le.mp hqn.err).2
        have h4 := (abs_le.mp htsz).1
        have h5 : (5 + 2 * 3 + 6) * f.u * ((d / σ) ^ 2 + 1) ≤ 1/100 * ((d / σ) ^ 2 + 1) := by
          gcongr; linarith
        have : ((-t + q : ℚ) : ℝ) < 0 := by push_cast; linarith
        exact_mod_cast this
      refine ⟨?_, hzE⟩
      have e : Flt.add f (.fin (-t)) (.fin q) = .inf true := by
        show f.round (-t + q) = _
        rw [hr]; simp [hneg]
      rw [e]
  · right
    obtain ⟨hov, -⟩ := f.round_inf (prec1 hf) (emin_lt_emax hf) hq
    have hov' := real_lt hov
    push_cast at hov'
    rw [h1e] at hov'
    have hzE : E < (d / σ) ^ 2 := by
      have h1 := abs_sub_abs_le_abs_sub ((h : ℝ) / s) (-((d / σ) ^ 2 / 2))
      rw [abs_neg, abs_of_nonneg (by positivity : 0 ≤ (d / σ) ^ 2 / 2)] at h1
      linarith
    have hneg : (h / s : ℚ) < 0 := by
      have : ((h / s : ℚ) : ℝ) < 0 := by push_cast; linarith
      exact_mod_cast this
    refine ⟨?_, hzE⟩
    rw [hq]
    simp [hneg, Flt.add]

/-- the logarithm of a Gaussian density and the size of its terms -/
theorem log_gaussian_size {μ σ x : ℝ} (hσ : 0 < σ) :
    |Real.log (gaussianPDFReal μ (σ ^ 2).toNNReal x)| ≤ 3 * (1 + |Real.log σ| + ((x - μ) / σ) ^ 2 / 2) := by
  rw [log_gaussian_flt hσ]
  obtain ⟨b0, b4⟩ := log_two_pi_bounds
  have h1 := abs_le.mp (le_refl |Real.log σ|)
  have h2 := sq_nonneg ((x - μ) / σ)
  exact abs_le.mpr ⟨by linarith, by linarith⟩

/-- when the terms are of moderate size the result is finite -/
theorem normal_log_pdf_fin (hf : f.Std) (hL : L.Accurate f) (hP : L.SquareAccurate f)
    {vars : FMap String (Flt f L)} {ex em es : Expr (Flt f L)} {x μ σ : ℚ}
    (hx : ex.evaluate vars = .ok (Flt.fin x)) (hm : em.evaluate vars = .ok (Flt.fin μ))
    (hs : es.evaluate vars = .ok (Flt.fin σ)) (hxr : f.Representable x) (hmr : f.Representable μ)
    (hsr : f.Representable σ) (h0 : 0 < σ) (hlo : 2 ^ f.emin / f.u ≤ (σ : ℝ) ^ 2)
    (hhi : (σ : ℝ) ^ 2 < 2 ^ (f.emax - 1)) (hd : ((x : ℝ) - μ) ^ 2 ≤ 2 ^ (f.emax - 2))
    (hz : (((x : ℝ) - μ) / σ) ^ 2 / 2 ≤ 2 ^ 90) :
    ∃ r : ℚ, (normalLogPdf ex em es).evaluate vars = .ok (Flt.fin r) ∧ f.Representable r ∧
      |(r : ℝ) - Real.log (gaussianPDFReal μ ((σ : ℝ) ^ 2).toNNReal x)| ≤
        80 * f.u * (1 + |Real.log σ| + (((x : ℝ) - μ) / σ) ^ 2 / 2) := by
  rcases C106_normal_log_pdf_partial hf hL hP hx hm hs hxr hmr hsr h0 hlo hhi hd with h | ⟨-, h⟩
  · exact h
  · exfalso
    have hbig : (2 : ℝ) ^ (120 : ℤ) ≤ 2 ^ (f.emax - 4) :=
      zpow_le_zpow_right₀ (by norm_num) (by have := hf.emax_ge; omega)
    norm_num at hbig hz
    linarith

/-- **C106**, posterior: the sum of the log-likelihood of an observation and the log-density of the prior,
both Normal, evaluated in floating point. -/
theorem C106_posterior_partial (hf : f.Std) (hL : L.Accurate f) (hP : L.SquareAccurate f)
    {vars : FMap String (Flt f L)} (xv mv sv : String) {x μ σ m₀ s₀ : ℚ}
    (hx : vars.get xv = some (Flt.fin x)) (hm : vars.get mv = some (Flt.fin μ))
    (hs : vars.get sv = some (Flt.fin σ))
    (hr : ∀ q ∈ [x, μ, σ, m₀, s₀], f.Representable q) (h0 : 0 < σ) (h1 : 0 < s₀)
    (hl : (NormalPart.mk 1 μ σ).InRange f x) (hp : (NormalPart.mk 1 m₀ s₀).InRange f μ)
    (hb : (NormalPart.mk 1 μ σ).size x + (NormalPart.mk 1 m₀ s₀).size μ ≤ 2 ^ 80) :
    ∃ r : ℚ, (posteriorLogDensity (normalLikelihood xv mv sv) (normalPrior mv (Flt.fin m₀) (Flt.fin s₀))).evaluate vars
        = .ok (Flt.fin (f := f) (L := L) r) ∧ f.Representable r ∧
      |(r : ℝ) - Real.log (gaussianPDFReal μ ((σ : ℝ) ^ 2).toNNReal x * gaussianPDFReal m₀ ((s₀ : ℝ) ^ 2).toNNReal μ)| ≤
        84 * f.u * ((NormalPart.mk 1 μ σ).size x + (NormalPart.mk 1 m₀ s₀).size μ) := by
  have hu := u_pos f
  have hul : f.u ≤ 1/10000 := hf.u_le.trans (by norm_num)
  have hσR : (0 : ℝ) < σ := by exact_mod_cast h0
  have hs₀R : (0 : ℝ) < s₀ := by exact_mod_cast h1
  have hvar : ∀ {n : String} {q : ℚ}, vars.get n = some (Flt.fin q) →
      (Expr.var n : Expr (Flt f L)).evaluate vars = .ok (Flt.fin q) := by
    intro n q h; simp only [Expr.evaluate, h]
  simp only [NormalPart.size, Rat.cast_one, Real.log_one, abs_zero, add_zero] at hb ⊢
  have p1 := sq_nonneg (((x : ℝ) - μ) / σ)
  have p2 := sq_nonneg (((μ : ℝ) - m₀) / s₀)
  have q1 := abs_nonneg (Real.log (σ : ℝ))
  have q2 := abs_nonneg (Real.log (s₀ : ℝ))
  have c1 : (2 : ℝ) ^ 80 ≤ 2 ^ 90 := by norm_num
  obtain ⟨a, ha1, ha2, ha3⟩ := normal_log_pdf_fin hf hL hP (hvar hx) (hvar hm) (hvar hs) (hr x (by simp))
    (hr μ (by simp)) (hr σ (by simp)) h0 hl.1 hl.2.1 hl.2.2 (by linarith)
  obtain ⟨b, hb1, hb2, hb3⟩ := normal_log_pdf_fin hf hL hP (em := .const (Flt.fin m₀)) (es := .const (Flt.fin s₀))
    (hvar hm) rfl rfl (hr μ (by simp)) (hr m₀ (by simp)) (hr s₀ (by simp)) h1 hp.1 hp.2.1 hp.2.2 (by linarith)
  have g1 : gaussianPDFReal (μ : ℝ) ((σ : ℝ) ^ 2).toNNReal x ≠ 0 :=
    (gaussianPDFReal_pos _ _ _ (by simp [h0.ne'])).ne'
  have g2 : gaussianPDFReal (m₀ : ℝ) ((s₀ : ℝ) ^ 2).toNNReal μ ≠ 0 :=
    (gaussianPDFReal_pos _ _ _ (by simp [h1.ne'])).ne'
  rw [Real.log_mul g1 g2]
  have k1 := log_gaussian_size (μ := μ) (x := x) hσR
  have k2 := log_gaussian_size (μ := m₀) (x := μ) hs₀R
  generalize hA : 1 + |Real.log (σ : ℝ)| + (((x : ℝ) - μ) / σ) ^ 2 / 2 = A at *
  generalize hB : 1 + |Real.log (s₀ : ℝ)| + (((μ : ℝ) - m₀) / s₀) ^ 2 / 2 = B at *
  generalize Real.log (gaussianPDFReal (μ : ℝ) ((σ : ℝ) ^ 2).toNNReal x) = v at *
  generalize Real.log (gaussianPDFReal (m₀ : ℝ) ((s₀ : ℝ) ^ 2).toNNReal μ) = w at *
  have hA1 : 1 ≤ A := by linarith
  have hB1 : 1 ≤ B := by linarith
  have huA : f.u * A ≤ 1/10000 * A := by gcongr
  have huB : f.u * B ≤ 1/10000 * B := by gcongr
  have s1 : |(a : ℝ) + b| ≤ 4 * (A + B) := by
    have := abs_add_le (a : ℝ) b
    have := abs_sub_abs_le_abs_sub (a : ℝ) v
    have := abs_sub_abs_le_abs_sub (b : ℝ) w
    linarith
  obtain ⟨r, hr1⟩ := round_small hf (q := a + b) (rat_le (by
    push_cast
    have : (2 : ℝ) ^ (100 : ℤ) = 1048576 * 2 ^ 80 := by norm_num
    rw [this]
    linarith))
  obtain ⟨hrr, hre⟩ := near_round_add hf ha2 hb2 hr1
  refine ⟨r, ?_, hrr, ?_⟩
  · have := eval_add_flt (l := normalLikelihood xv mv sv) (r := normalPrior mv (Flt.fin m₀) (Flt.fin s₀))
      (by simp [normalLikelihood, normalLogPdf]) (by simp [normalPrior, normalLogPdf]) ha1 hb1
    exact this.trans (congrArg Except.ok hr1)
  · have e : (r : ℝ) - (v + w) = (r - (a + b)) + ((a - v) + (b - w)) := by ring
    rw [e]
    have h2 := abs_add_le ((r : ℝ) - (a + b)) ((a - v) + (b - w))
    have h3 := abs_add_le ((a : ℝ) - v) (b - w)
    have h4 : f.u * |(a : ℝ) + b| ≤ f.u * (4 * (A + B)) := by gcongr
    linarith

/-- `ln` of a sum of exponentials of numbers of the format, summed from left to right -/
theorem ln_sum_exps (hf : f.Std) (hL : L.Accurate f) (v : ℚ) (vs : List ℚ)
    (hq : ∀ q ∈ v :: vs, f.Representable q)
    (hhi : ((v :: vs).map fun q : ℚ => Real.exp q).sum ≤ 2 ^ (f.emax - 4))
    (hlo : 2 ^ f.emin / f.u ≤ ((v :: vs).map fun q : ℚ => Real.exp q).sum)
    (hn : ((v :: vs).length : ℝ) * f.u ≤ 1/100) :
    ∃ t r : ℚ, (vs.map L.exp).foldl (Flt.add f) (L.exp v) = .fin t ∧ 0 < t ∧ Flt.ln L (.fin t) = .fin r ∧
      f.Representable r ∧
      |(r : ℝ) - Real.log ((v :: vs).map fun q : ℚ => Real.exp q).sum| ≤
        16 * (v :: vs).length * f.u *
          (1 + |Real.log ((v :: vs).map fun q : ℚ => Real.exp q).sum|) := by
  have hu := u_pos f
  have hul : f.u ≤ 1/1000 := hf.u_le.trans (by norm_num)
  have hsingle : ∀ q ∈ v :: vs, Real.exp (q : ℝ) ≤ ((v :: vs).map fun q : ℚ => Real.exp q).sum := by
    intro q hqm
    exact List.single_le_sum (by simp only [List.mem_map]; rintro _ ⟨p, -, rfl⟩; exact (Real.exp_pos _).le) _
      (List.mem_map.mpr ⟨q, hqm, rfl⟩)
  have hb : ∀ q ∈ v :: vs, Real.exp (q : ℝ) < 2 ^ (f.emax - 1) := fun q hqm =>
    lt_of_le_of_lt ((hsingle q hqm).trans hhi) (zpow_lt_zpow_right₀ (by norm_num) (by omega))
  have hlen : 1 ≤ (v :: vs).length := by simp
  have hS0 : 0 < ((v :: vs).map fun q : ℚ => Real.exp q).sum :=
    lt_of_lt_of_le (Real.exp_pos (v : ℝ)) (hsingle v (by simp))
  obtain ⟨es, h1, h2, h3, h4, h5⟩ := exps_approx hL (v :: vs) hq hb
  generalize hSd : ((v :: vs).map fun q : ℚ => Real.exp q).sum = S at *
  generalize hNd : (v :: vs).length = N at *
  rcases es with _ | ⟨e, es⟩
  · simp only [List.length_nil] at h2; omega
  simp only [List.map_cons, List.cons.injEq] at h1
  obtain ⟨g1, g2⟩ := h1
  rw [g1, g2]
  simp only [List.length_cons] at h2
  simp only [List.map_cons, List.sum_cons] at h4 h5
  have hη : (2 : ℝ) ^ f.emin ≤ f.u * S := by rw [div_le_iff₀ hu] at hlo; linarith
  have hN : (1 : ℝ) ≤ N := by exact_mod_cast hlen
  have hNη : (N : ℝ) * 2 ^ f.emin ≤ N * (f.u * S) := by gcongr
  have hNuS : (N : ℝ) * (f.u * S) ≤ 1/100 * S := by
    have := mul_le_mul_of_nonneg_right hn hS0.le
    linarith
  have hgr : f.grow (0 + es.length) ≤ 2 * N * f.u := by
    have h6 : f.grow (0 + es.length) ≤ f.grow N := grow_mono (by omega)
    exact h6.trans (grow_le (by linarith))
  have huS : f.u * S ≤ 1/1000 * S := by gcongr
  have hrest := fun x hx => h3 x (List.mem_cons_of_mem _ hx)
  have habs : |(e : ℝ)| + (es.map fun e : ℚ => |(e : ℝ)|).sum ≤ 1.1 * S := by linarith
  obtain ⟨t, ht⟩ := foldl_add_fin hf es hrest (a := e) (S := e) (T := |(e : ℝ)|) (k := 0) (h3 e (by simp))
    (by simp [grow_zero]) le_rfl (by linarith) (by
      refine habs.trans ?_
      have : (2 : ℝ) ^ (f.emax - 3) = 2 * 2 ^ (f.emax - 4) := by
        rw [show f.emax - 3 = 1 + (f.emax - 4) by ring, zpow_add₀ (by norm_num)]; norm_num
      rw [this]; linarith)
  obtain ⟨htr, hte⟩ := foldl_add_err hf es hrest (a := e) (S := e) (T := |(e : ℝ)|) (k := 0) (h3 e (by simp))
    (by simp [grow_zero]) le_rfl ht
  have h7 : |(t : ℝ) - S| ≤ (6 * N * f.u) * S := by
    have h8 := abs_sub_le (t : ℝ) (e + (es.map fun x : ℚ => (x : ℝ)).sum) S
    have h9 : f.grow (0 + es.length) * (|(e : ℝ)| + (es.map fun e : ℚ => |(e : ℝ)|).sum) ≤
        2 * N * f.u * (1.1 * S) :=
      mul_le_mul hgr habs (add_nonneg (abs_nonneg _) (List.sum_nonneg (by simp))) (by positivity)
    have h10 : 1 * (f.u * S) ≤ N * (f.u * S) := mul_le_mul_of_nonneg_right hN (by positivity)
    have h11 : 0 < N * (f.u * S) := by positivity
    linarith
  obtain ⟨ht0, hl⟩ := log_near hS0 (by linarith) h7
  have htq : 0 < t := by exact_mod_cast ht0
  obtain ⟨l, hl1, hl2, hl3⟩ := hL.ln t htq htr
  refine ⟨t, l, ht, htq, by simp only [Flt.ln, if_pos htq]; exact hl1, hl2, ?_⟩
  have h12 : |Real.log t| ≤ |Real.log S| + 2 * (6 * N * f.u) := by
    have := abs_sub_abs_le_abs_sub (Real.log t) (Real.log S); linarith
  have h13 : 2 * f.u * |Real.log t| ≤ 2 * f.u * (|Real.log S| + 2 * (6 * N * f.u)) := by gcongr
  have h14 := abs_sub_le (l : ℝ) (Real.log t) (Real.log S)
  have h15 : f.u * (N * f.u) ≤ f.u * (1/100) := by gcongr
  have h16 : 1 * (f.u * |Real.log S|) ≤ N * (f.u * |Real.log S|) :=
    mul_le_mul_of_nonneg_right hN (by positivity)
  have h17 : 1 * f.u ≤ N * f.u := by gcongr
  have h18 : 0 ≤ N * (f.u * |Real.log S|) := by positivity
  linarith

/-- one weighted component -/
theorem weighted_component (hf : f.Std) (hL : L.Accurate f) (hP : L.SquareAccurate f)
    {vars : FMap String (Flt f L)} {xv : String} {x : ℚ} (hx : vars.get xv = some (Flt.fin x))
    (hxr : f.Representable x) {c : NormalPart} (hv : c.Valid f) (hr : c.InRange f x) (hB : c.size x ≤ 2 ^ 80) :
    ∃ t : ℚ, (Expr.exp (ExprOps.plus (.const (FloatOps.ln (Flt.fin c.weight : Flt f L)))
        (normalLogPdf (.var xv) (.const (Flt.fin c.mean)) (.const (Flt.fin c.scale))))).evaluate vars =
          .ok (L.exp t : Flt f L) ∧ f.Representable t ∧ 0 < c.density x ∧
      |(t : ℝ) - Real.log (c.density x)| ≤ 84 * f.u * c.size x := by
  obtain ⟨hw, hs, hwr, hmr, hsr⟩ := hv
  have hu := u_pos f
  have hul : f.u ≤ 1/10000 := hf.u_le.trans (by norm_num)
  have hwR : (0 : ℝ) < c.weight := by exact_mod_cast hw
  have hsR : (0 : ℝ) < c.scale := by exact_mod_cast hs
  have hg : 0 < gaussianPDFReal (c.mean : ℝ) ((c.scale : ℝ) ^ 2).toNNReal x :=
    gaussianPDFReal_pos _ _ _ (by simp [hs.ne'])
  have hk := log_gaussian_size (μ := c.mean) (x := x) hsR
  have hz := sq_nonneg (((x : ℝ) - c.mean) / c.scale)
  have hls := abs_nonneg (Real.log (c.scale : ℝ))
  have hlw := abs_nonneg (Real.log (c.weight : ℝ))
  have c1 : (2 : ℝ) ^ 80 ≤ 2 ^ 90 := by norm_num
  unfold NormalPart.size at hB ⊢
  obtain ⟨b, hb1, hb2, hb3⟩ := normal_log_pdf_fin hf hL hP (vars := vars) (ex := .var xv)
    (em := .const (Flt.fin c.mean)) (es := .const (Flt.fin c.scale))
    (by simp only [Expr.evaluate, hx]) rfl rfl hxr hmr hsr hs hr.1 hr.2.1 hr.2.2 (by linarith)
  obtain ⟨a, ha, han, -⟩ := near_ln_rep hf hL hw hwr
  have hd : Real.log (c.density x) = Real.log c.weight +
      Real.log (gaussianPDFReal (c.mean : ℝ) ((c.scale : ℝ) ^ 2).toNNReal x) := by
    unfold NormalPart.density; rw [Real.log_mul hwR.ne' hg.ne']
  have hae := han.err
  have har := han.rep
  rw [hd]
  generalize Real.log (gaussianPDFReal (c.mean : ℝ) ((c.scale : ℝ) ^ 2).toNNReal x) = w at *
  generalize Real.log (c.weight : ℝ) = v at *
  generalize hA : 1 + |Real.log (c.scale : ℝ)| + (((x : ℝ) - c.mean) / c.scale) ^ 2 / 2 = A at *
  have hA1 : 1 ≤ A := by linarith
  have huA : f.u * A ≤ 1/10000 * A := by gcongr
  have huv : f.u * |v| ≤ 1/10000 * |v| := by gcongr
  have s1 : |(a : ℝ) + b| ≤ 2 * |v| + 4 * A := by
    have := abs_add_le (a : ℝ) b
    have := abs_sub_abs_le_abs_sub (a : ℝ) v
    have := abs_sub_abs_le_abs_sub (b : ℝ) w
    linarith
  obtain ⟨t, ht⟩ := round_small hf (q := a + b) (rat_le (by
    push_cast
    have : (2 : ℝ) ^ (100 : ℤ) = 1048576 * 2 ^ 80 := by norm_num
    rw [this]
    linarith))
  obtain ⟨htr, hte⟩ := near_round_add hf har hb2 ht
  refine ⟨t, ?_, htr, mul_pos hwR hg, ?_⟩
  · have ha' : FloatOps.ln (Flt.fin c.weight : Flt f L) = Flt.fin a := ha
    have key : (ExprOps.plus (.const (FloatOps.ln (Flt.fin c.weight : Flt f L)))
        (normalLogPdf (.var xv) (.const (Flt.fin c.mean)) (.const (Flt.fin c.scale)))).evaluate vars =
          .ok (Flt.fin t : Flt f L) := by
      rw [ha']
      unfold ExprOps.plus
      rw [Expr.evaluate]
      have e1 : bothConst (.const (Flt.fin a : Flt f L)) (normalLogPdf (.var xv) (.const (Flt.fin c.mean)) (.const (Flt.fin c.scale))) = none := rfl
      have e2 : Expr.isConst (FloatOps.zero : Flt f L) (normalLogPdf (.var xv) (.const (Flt.fin c.mean)) (.const (Flt.fin c.scale))) = false := rfl
      rw [e1]
      simp only [e2]
      by_cases h0 : a = 0
      · subst h0
        have e3 : Expr.isConst (FloatOps.zero : Flt f L) (.const (Flt.fin 0)) = true := by
          show Flt.beq (.fin 0) (.fin 0) = true
          simp [Flt.beq]
        rw [e3, if_pos rfl, hb1]
        rw [zero_add, f.round_exact hb2] at ht
        rw [FVal.fin.inj ht]
      · have e3 : Expr.isConst (FloatOps.zero : Flt f L) (.const (Flt.fin a)) = false := by
          show Flt.beq (.fin a) (.fin 0) = false
          simp [Flt.beq, h0]
        rw [e3]
        simp only [Bool.false_eq_true, if_false]
        rw [hb1]
        exact congrArg Except.ok ht
    rw [Expr.evaluate, key]; rfl
  · have e : (t : ℝ) - (v + w) = (t - (a + b)) + ((a - v) + (b - w)) := by ring
    rw [e]
    have h2 := abs_add_le ((t : ℝ) - (a + b)) ((a - v) + (b - w))
    have h3 := abs_add_le ((a : ℝ) - v) (b - w)
    have h4 : f.u * |(a : ℝ) + b| ≤ f.u * (2 * |v| + 4 * A) := by gcongr
    have h5 : 0 ≤ f.u * |v| := by positivity
    have hsz : (1 + |v| + |Real.log (c.scale : ℝ)| + (((x : ℝ) - c.mean) / c.scale) ^ 2 / 2) = A + |v| := by
      rw [← hA]; ring
    rw [hsz]
    linarith

/-- evaluating the sum built by `mixture_likelihood` -/
theorem eval_mixtureFrom {vars : FMap String (Flt f L)} {xv : String} (cs : List NormalPart)
    (T : NormalPart → ℚ) (acc : Expr (Flt f L)) (a : Flt f L) (hacc : acc.evaluate vars = .ok a)
    (hne : ∀ c, acc ≠ .const c)
    (hT : ∀ c ∈ cs, (Expr.exp (ExprOps.plus (.const (FloatOps.ln (Flt.fin c.weight : Flt f L)))
        (normalLogPdf (.var xv) (.const (Flt.fin c.mean)) (.const (Flt.fin c.scale))))).evaluate vars =
          .ok (L.exp (T c) : Flt f L)) :
    (mixtureFrom xv acc (cs.map fun c => Flt.fin c.weight) (cs.map fun c => Flt.fin c.mean)
        (cs.map fun c => Flt.fin c.scale)).evaluate vars =
      .ok ((cs.map fun c => L.exp (T c)).foldl (Flt.add f) a : Flt f L) := by
  induction cs generalizing acc a with
  | nil => exact hacc
  | cons c cs ih =>
    simp only [List.map_cons, mixtureFrom]
    refine ih _ _ (eval_add_flt hne (by simp) hacc (hT c (by simp))) (by simp [ExprOps.plus])
      fun d hd => hT d (List.mem_cons_of_mem _ hd)

/-- **C106**, mixture: `mixture_likelihood` of Normals with positive weights, all numbers of the format,
evaluated in floating point.  When the mixture's density is inside the range of the format, the result is
near its logarithm.  (Missing: densities outside the range, see `C106_mixture_violated`.) -/
theorem C106_mixture_partial (hf : f.Std) (hL : L.Accurate f) (hP : L.SquareAccurate f)
    {vars : FMap String (Flt f L)} (xv : String) {x : ℚ} (hx : vars.get xv = some (Flt.fin x))
    (hxr : f.Representable x) (cs : List NormalPart) (hne : cs ≠ []) (hn : cs.length * f.u ≤ 1/100) {B : ℝ}
    (hv : ∀ c ∈ cs, c.Valid f ∧ c.InRange f x ∧ c.size x ≤ B) (hB : B * f.u ≤ 1/1000)
    (hlo : 2 * (2 ^ f.emin / f.u) ≤ (cs.map fun c => c.density x).sum)
    (hhi : (cs.map fun c => c.density x).sum ≤ 2 ^ (f.emax - 5)) :
    ∃ (e : Expr (Flt f L)) (r : ℚ),
      mixtureLikelihood xv (cs.map fun c => Flt.fin c.weight) (cs.map fun c => Flt.fin c.mean)
        (cs.map fun c => Flt.fin c.scale) = .ok e ∧
      e.evaluate vars = .ok (Flt.fin r) ∧ f.Representable r ∧
      |(r : ℝ) - Real.log (cs.map fun c => c.density x).sum| ≤
        (100 * B + 16 * cs.length * (1 + |Real.log (cs.map fun c => c.density x).sum|)) * f.u := by
  have hu := u_pos f
  have hug := u_ge hf
  have hul : f.u ≤ 1/10000 := hf.u_le.trans (by norm_num)
  obtain ⟨c, cs, rfl⟩ := List.exists_cons_of_ne_nil hne
  have hB80 : B ≤ 2 ^ 80 := by
    by_contra hc
    push Not at hc
    have : 2 ^ 80 * f.u ≤ B * f.u := by gcongr
    have : (2 : ℝ) ^ 80 * (1 / 2 ^ 53) ≤ 2 ^ 80 * f.u := by gcongr
    norm_num at *
    linarith
  have hB0 : 0 ≤ B := by
    have := (hv c (by simp)).2.2
    unfold NormalPart.size at this
    have := sq_nonneg (((x : ℝ) - c.mean) / c.scale)
    have := abs_nonneg (Real.log (c.scale : ℝ))
    have := abs_nonneg (Real.log (c.weight : ℝ))
    linarith
  have hex : ∀ d : NormalPart, ∃ t : ℚ, d ∈ c :: cs →
      ((Expr.exp (ExprOps.plus (.const (FloatOps.ln (Flt.fin d.weight : Flt f L)))
        (normalLogPdf (.var xv) (.const (Flt.fin d.mean)) (.const (Flt.fin d.scale))))).evaluate vars =
          .ok (L.exp t : Flt f L) ∧ f.Representable t ∧ 0 < d.density x ∧
      |(t : ℝ) - Real.log (d.density x)| ≤ 84 * f.u * d.size x) := by
    intro d
    by_cases hd : d ∈ c :: cs
    · obtain ⟨h1, h2, h3⟩ := hv d hd
      obtain ⟨t, ht⟩ := weighted_component hf hL hP hx hxr h1 h2 (h3.trans hB80)
      exact ⟨t, fun _ => ht⟩
    · exact ⟨0, fun h => absurd h hd⟩
  choose T hT using hex
  set δ : ℝ := 84 * f.u * B with hδ
  have hδ0 : 0 ≤ δ := by positivity
  have hδ1 : δ ≤ 84/1000 := by rw [hδ]; linarith
  have hpos : 0 < ((c :: cs).map fun c => c.density x).sum :=
    lt_of_lt_of_le (by positivity) hlo
  obtain ⟨hS0, hS⟩ := sum_exp_perturb (fun c => FVal.fin (T c)) (fun c => c.density x) δ (c :: cs) (by
    intro d hd
    obtain ⟨-, -, h1, h2⟩ := hT d hd
    have h3 : |(T d : ℝ) - Real.log (d.density x)| ≤ δ := by
      refine h2.trans ?_
      rw [hδ]
      have := (hv d hd).2.2
      gcongr
    have h4 := abs_le.mp h3
    show Real.exp (-δ) * d.density x ≤ Real.exp (T d) ∧ Real.exp (T d) ≤ Real.exp δ * d.density x
    have e : d.density x = Real.exp (Real.log (d.density x)) := (Real.exp_log h1).symm
    rw [e, ← Real.exp_add, ← Real.exp_add]
    exact ⟨Real.exp_le_exp.mpr (by linarith), Real.exp_le_exp.mpr (by linarith)⟩) hpos
  have hmap : (((c :: cs).map fun c => FVal.fin (T c)).map expOf) = ((c :: cs).map T).map fun q : ℚ => Real.exp q := by
    simp only [List.map_map]; rfl
  rw [hmap] at hS0 hS
  have hlog := abs_le.mp hS
  -- the perturbed sum is still in the range
  have hexpδ : Real.exp δ ≤ 2 := by
    have h1 : Real.exp δ ≤ Real.exp (Real.log 2) := Real.exp_le_exp.mpr (by
      have := Real.log_two_gt_d9
      linarith)
    rwa [Real.exp_log (by norm_num)] at h1
  have hup : (((c :: cs).map T).map fun q : ℚ => Real.exp q).sum ≤ 2 * ((c :: cs).map fun c => c.density x).sum := by
    have h1 : Real.log (((c :: cs).map T).map fun q : ℚ => Real.exp q).sum ≤
        Real.log (Real.exp δ * ((c :: cs).map fun c => c.density x).sum) := by
      rw [Real.log_mul (Real.exp_pos _).ne' hpos.ne', Real.log_exp]; linarith
    have h2 := (Real.log_le_log_iff hS0 (mul_pos (Real.exp_pos _) hpos)).mp h1
    exact h2.trans (mul_le_mul_of_nonneg_right hexpδ hpos.le)
  have hdown : ((c :: cs).map fun c => c.density x).sum ≤ 2 * (((c :: cs).map T).map fun q : ℚ => Real.exp q).sum := by
    have h1 : Real.log ((c :: cs).map fun c => c.density x).sum ≤
        Real.log (Real.exp δ * (((c :: cs).map T).map fun q : ℚ => Real.exp q).sum) := by
      rw [Real.log_mul (Real.exp_pos _).ne' hS0.ne', Real.log_exp]; linarith
    have h2 := (Real.log_le_log_iff hpos (mul_pos (Real.exp_pos _) hS0)).mp h1
    exact h2.trans (mul_le_mul_of_nonneg_right hexpδ hS0.le)
  have h45 : (2 : ℝ) ^ (f.emax - 4) = 2 * 2 ^ (f.emax - 5) := by
    rw [show f.emax - 4 = 1 + (f.emax - 5) by ring, zpow_add₀ (by norm_num)]; norm_num
  obtain ⟨t, r, h1, h2, h3, h4, h5⟩ := ln_sum_exps hf hL (T c) (cs.map T) (by
      intro q hq
      rw [← List.map_cons, List.mem_map] at hq
      obtain ⟨d, hd, rfl⟩ := hq
      exact (hT d hd).2.1)
    (by rw [← List.map_cons, h45]; linarith) (by rw [← List.map_cons]; linarith)
    (by simpa using hn)
  refine ⟨.ln (mixtureFrom xv (.const FloatOps.zero) ((c :: cs).map fun c => Flt.fin c.weight)
    ((c :: cs).map fun c => Flt.fin c.mean) ((c :: cs).map fun c => Flt.fin c.scale)), r,
    by simp [mixtureLikelihood], ?_, h4, ?_⟩
  · have e0 : (Expr.add (.const (FloatOps.zero : Flt f L)) (Expr.exp (ExprOps.plus (.const (FloatOps.ln (Flt.fin c.weight : Flt f L)))
        (normalLogPdf (.var xv) (.const (Flt.fin c.mean)) (.const (Flt.fin c.scale)))))).evaluate vars =
          .ok (L.exp (T c) : Flt f L) := by
      rw [Expr.evaluate]
      have e1 : Expr.isConst (FloatOps.zero : Flt f L) (.const FloatOps.zero) = true := by
        show Flt.beq (.fin 0) (.fin 0) = true
        simp [Flt.beq]
      simp only [bothConst, e1, if_true]
      exact (hT c (by simp)).1
    have e2 := eval_mixtureFrom (xv := xv) cs T _ _ e0 (by simp) fun d hd => (hT d (List.mem_cons_of_mem _ hd)).1
    have e3 : (cs.map fun c => L.exp (T c)).foldl (Flt.add f) (L.exp (T c)) = .fin t := by
      rw [← h1, List.map_map]; rfl
    exact (eval_ln_flt (e2.trans (congrArg Except.ok e3)) h2).trans (congrArg Except.ok h3)
  · rw [← List.map_cons] at h5
    set S := ((c :: cs).map fun c => c.density x).sum
    set S' := (((c :: cs).map T).map fun q : ℚ => Real.exp q).sum
    have hlen : ((c :: cs).map T).length = (c :: cs).length := by simp
    rw [hlen] at h5
    generalize (c :: cs).length = N at *
    have g1 := abs_sub_le (r : ℝ) (Real.log S') (Real.log S)
    have g2 : |Real.log S'| ≤ |Real.log S| + δ := by
      have := abs_sub_abs_le_abs_sub (Real.log S') (Real.log S); linarith
    have g3 : 16 * N * f.u * (1 + |Real.log S'|) ≤ 16 * N * f.u * (1 + (|Real.log S| + δ)) := by gcongr
    have g4 : N * f.u * δ ≤ 1/100 * δ := by gcongr
    have g5 : 0 ≤ f.u * B := by positivity
    rw [hδ] at *
    linarith

/-! ## Where it fails -/

/-- numbers up to half the least positive one round to zero -/
theorem round_tiny (hp : 1 ≤ f.prec) {q : ℚ} (h : |q| ≤ 2 ^ (f.emin - 1)) : f.round q = .fin 0 := by
  rcases eq_or_ne q 0 with rfl | h0
  · exact f.round_exact f.rep_zero
  have hq : f.quantum q = f.emin := by
    unfold Format.quantum
    have : Int.log 2 |q| ≤ f.emin - 1 := log_le_of h0 h
    omega
  have hpos : (0 : ℚ) < 2 ^ f.emin := by positivity
  have h2 : |q / 2 ^ f.emin| ≤ 1/2 := by
    rw [abs_div, abs_of_pos hpos, div_le_iff₀ hpos]
    rw [zpow_sub₀ (by norm_num), zpow_one] at h
    linarith
  have hr : roundEven (q / 2 ^ f.emin) = 0 := by
    generalize q / 2 ^ f.emin = y at h2
    obtain ⟨h3, h4⟩ := abs_le.mp h2
    unfold roundEven
    rcases le_or_gt 0 y with hy | hy
    · have : ⌊y⌋ = 0 := Int.floor_eq_iff.mpr ⟨by simpa using hy, by push_cast; linarith⟩
      simp only [this]
      split_ifs with h5 h6
      · rfl
      · rfl
      · exact absurd Even.zero (by assumption)
      · exfalso
        push_cast at h5 h6
        rw [sub_zero] at h5 h6
        exact h6 (le_antisymm h4 (not_lt.mp h5))
    · have : ⌊y⌋ = -1 := Int.floor_eq_iff.mpr ⟨by push_cast; linarith, by push_cast; linarith⟩
      simp only [this]
      push_cast
      split_ifs with h5 h6 h7
      · exfalso; linarith
      · exact absurd h7 (by decide)
      · rfl
      · rfl
  unfold Format.round
  simp only [hq, hr]
  simp
  positivity

/-- a number of the format less than twice the least positive one in size is at most that -/
theorem rep_le_eta {q : ℚ} (h : f.Representable q) (h2 : |q| < 2 * 2 ^ f.emin) : |q| ≤ 2 ^ f.emin := by
  obtain ⟨k, rfl⟩ := h.multiple
  have hpos : (0 : ℚ) < 2 ^ f.emin := by positivity
  rw [abs_mul, abs_of_pos hpos] at h2 ⊢
  have h3 : |(k : ℚ)| < 2 := lt_of_mul_lt_mul_right h2 hpos.le
  have h4 : |k| < 2 := by exact_mod_cast h3
  have h5 : |(k : ℚ)| ≤ 1 := by exact_mod_cast (by omega : |k| ≤ 1)
  calc _ ≤ 1 * (2 : ℚ) ^ f.emin := by gcongr
    _ = _ := one_mul _

/-- **C106** fails for small scales: for scale `2^-600` (about `2.4e-181`) and a point `1024` standard
deviations from the mean, both ordinary doubles, the squares vanish.  Evaluation fails with a division by
zero or, if the library rounds tiny squares up, gives a log-density above `400`; the log-density is below
`-500000`. -/
theorem C106_small_scale_violated (hL : L.Accurate f64) (hP : L.SquareAccurate f64)
    {vars : FMap String (Flt f64 L)} (xv mv sv : String)
    (hx : vars.get xv = some (Flt.fin (2 ^ (-590 : ℤ)))) (hm : vars.get mv = some (Flt.fin 0))
    (hs : vars.get sv = some (Flt.fin (2 ^ (-600 : ℤ)))) :
    ((normalLikelihood xv mv sv).evaluate vars = .error .divisionByZero ∨
      ∃ r : ℚ, (normalLikelihood xv mv sv).evaluate vars = .ok (Flt.fin (f := f64) (L := L) r) ∧ 400 ≤ r) ∧
    Real.log (gaussianPDFReal 0 (((2 : ℝ) ^ (-600 : ℤ)) ^ 2).toNNReal (2 ^ (-590 : ℤ))) ≤ -500000 := by
  have hf : f64.Std := .inl rfl
  have hvar : ∀ {n : String} {q : ℚ}, vars.get n = some (Flt.fin q) →
      (Expr.var n : Expr (Flt f64 L)).evaluate vars = .ok (Flt.fin q) := by
    intro n q h; simp only [Expr.evaluate, h]
  have h600 : f64.Representable (2 ^ (-600 : ℤ)) := rep_pow f64 (prec1 hf) (by decide) (by decide)
  have h590 : f64.Representable (2 ^ (-590 : ℤ)) := rep_pow f64 (prec1 hf) (by decide) (by decide)
  have h0 : (0 : ℚ) < 2 ^ (-600 : ℤ) := by positivity
  have hl2 := Real.log_two_gt_d9
  have hl2' := Real.log_two_lt_d9
  have hlogs : Real.log ((2 : ℝ) ^ (-600 : ℤ)) = -600 * Real.log 2 := by
    rw [Real.log_zpow]; norm_num
  obtain ⟨b0, b4⟩ := log_two_pi_bounds
  constructor
  · have hev := eval_normalLogPdf hf (hvar hx) (hvar hm) (hvar hs) h0
    change (normalLikelihood xv mv sv).evaluate vars = _ at hev
    rw [hev]
    -- squares of numbers up to `2^-590` are at most the least positive number
    have hsmall : ∀ k : ℤ, k ≤ -590 → f64.Representable (2 ^ k) →
        ∃ r : ℚ, L.powf (.fin (2 ^ k)) (.fin 2) = .fin r ∧ |r| ≤ 2 ^ f64.emin := by
      intro k hk hr
      have hsq : (((2 ^ k : ℚ) : ℝ)) ^ 2 ≤ 2 ^ (-1180 : ℤ) := by
        rw [cast_zpow, ← zpow_natCast, ← zpow_mul]
        exact zpow_le_zpow_right₀ (by norm_num) (by push_cast; omega)
      have hη : (2 : ℝ) ^ (-1180 : ℤ) ≤ 1/4 * 2 ^ f64.emin := by
        have : (1/4 : ℝ) * 2 ^ f64.emin = 2 ^ (-1076 : ℤ) := by
          rw [show (-1076 : ℤ) = -2 + f64.emin from rfl, zpow_add₀ (by norm_num)]; norm_num
        rw [this]
        exact zpow_le_zpow_right₀ (by norm_num) (by norm_num)
      have hu := u_pos f64
      have hul : f64.u ≤ 1/10000 := hf.u_le.trans (by norm_num)
      rcases hP _ hr with ⟨r, h1, h2, h3⟩ | ⟨-, h1⟩
      · refine ⟨r, h1, rep_le_eta h2 ?_⟩
        have h4 := abs_sub_abs_le_abs_sub (r : ℝ) ((((2 ^ k : ℚ) : ℝ)) ^ 2)
        rw [abs_of_nonneg (sq_nonneg (((2 ^ k : ℚ) : ℝ)))] at h4
        have h5 : f64.u * (((2 ^ k : ℚ) : ℝ)) ^ 2 ≤ 1 * (((2 ^ k : ℚ) : ℝ)) ^ 2 := by gcongr; linarith
        have h6 : |(r : ℝ)| < 2 * 2 ^ f64.emin := by
          have : (0 : ℝ) < 2 ^ f64.emin := by positivity
          linarith
        have h7 : (((|r| : ℚ)) : ℝ) < ((2 * 2 ^ f64.emin : ℚ) : ℝ) := by
          rw [Rat.cast_abs, Rat.cast_mul, cast_zpow]; exact_mod_cast h6
        exact Rat.cast_lt.mp h7
      · exfalso
        have h2 : (2 : ℝ) ^ (-1180 : ℤ) < 2 ^ (f64.emax - 1) :=
          zpow_lt_zpow_right₀ (by norm_num) (by decide)
        linarith
    obtain ⟨s, hs1, -⟩ := hsmall (-600) (by norm_num) h600
    obtain ⟨p, hp1, hp2⟩ := hsmall (-590) (by norm_num) h590
    rw [hs1]
    by_cases hs0 : s = 0
    · left
      subst hs0
      rw [if_pos (by simp [Flt.beq])]
    · right
      rw [if_neg (by simp [Flt.beq, hs0])]
      have hsub : Flt.sub f64 (.fin (2 ^ (-590 : ℤ))) (.fin 0) = .fin (2 ^ (-590 : ℤ)) := by
        show f64.round (2 ^ (-590 : ℤ) + -0) = _
        rw [neg_zero, add_zero, f64.round_exact h590]
      have hmul : Flt.mul f64 (.fin (-(1/2))) (.fin p) = .fin 0 := by
        show f64.round (-(1/2) * p) = _
        refine round_tiny (prec1 hf) ?_
        rw [abs_mul, zpow_sub₀ (by norm_num), zpow_one]
        norm_num at hp2 ⊢
        linarith
      have hdiv : Flt.div f64 (.fin 0) (.fin s) = .fin 0 := by
        simp only [Flt.div, if_neg hs0, zero_div]
        exact f64.round_exact f64.rep_zero
      rw [hsub, hp1, hmul, hdiv]
      obtain ⟨c, hc, hcn⟩ := near_const hf hL
      rw [mul_neg_left] at hc
      obtain ⟨c', hc1, hc2⟩ : ∃ c', Flt.mul f64 (f64.round (1/2)) (Flt.ln L (Flt.mul f64 (f64.round 2) (f64.round Flt.piLit))) = .fin c' ∧ c = -c' := by
        revert hc
        cases Flt.mul f64 (f64.round (1/2)) (Flt.ln L (Flt.mul f64 (f64.round 2) (f64.round Flt.piLit))) with
        | fin v => intro hc; exact ⟨v, rfl, (FVal.fin.inj hc).symm⟩
        | inf b => intro hc; cases hc
        | nan => intro hc; cases hc
      subst hc2
      have hcn' := hcn.neg
      rw [neg_neg] at hcn'
      obtain ⟨l, hl, hln, hl2⟩ := near_ln_rep hf hL h0 h600
      have hcsz := hcn'.size hf (by norm_num)
      obtain ⟨t, ht⟩ := round_small hf (q := c' + l) (rat_le (by
        push_cast
        have := abs_add_le (c' : ℝ) l
        have h100 : (10000 : ℝ) ≤ 2 ^ (100 : ℤ) := by norm_num
        linarith))
      have htn := (Near.add hf hcn' (hln.mono (k' := 24) (by norm_num) le_rfl (by norm_num)) (by norm_num) ht).neg
      have ht1 : Flt.add f64 (.fin c') (.fin l) = .fin t := ht
      rw [hc1, hl, ht1]
      refine ⟨-t, ?_, ?_⟩
      · show Except.ok (f64.round (-t + 0)) = _
        rw [add_zero, f64.round_exact htn.rep]; rfl
      · have he := (abs_le.mp htn.err).1
        rw [cast_zpow, hlogs] at he
        rw [abs_of_nonpos (by linarith : -600 * Real.log 2 ≤ 0)] at he
        have hul : f64.u ≤ 1/10000 := hf.u_le.trans (by norm_num)
        have h3 : (24 + 2) * f64.u * (1 / 2 * (1 + Real.log (2 * Real.pi)) + -(-600 * Real.log 2)) ≤
            (24 + 2) * (1/10000) * (1 / 2 * (1 + Real.log (2 * Real.pi)) + -(-600 * Real.log 2)) := by
          have : 0 ≤ 1 / 2 * (1 + Real.log (2 * Real.pi)) + -(-600 * Real.log 2) := by linarith
          gcongr
        have : (400 : ℝ) ≤ ((-t : ℚ) : ℝ) := by linarith
        exact_mod_cast this
  · rw [log_gaussian_flt (by positivity), hlogs, sub_zero, ← zpow_sub₀ (by norm_num)]
    norm_num
    linarith

/-- **C106** fails for a mixture far from its components: `mixture_likelihood` with the single component
`N(0, 1)` at the point `100`.  Evaluation fails with the logarithm of a number that is not positive or, if
the library rounds tiny exponentials up, gives a log-likelihood above `-1200`; it is below `-5000`.  (The
log-density of a mixture measure does not have this defect, `C93_normal_mixture`.) -/
theorem C106_mixture_violated (hL : L.Accurate f64) (hP : L.SquareAccurate f64)
    {vars : FMap String (Flt f64 L)} (xv : String) (hx : vars.get xv = some (Flt.fin 100)) :
    ∃ e : Expr (Flt f64 L), mixtureLikelihood xv [Flt.fin 1] [Flt.fin 0] [Flt.fin 1] = .ok e ∧
      ((∃ v, e.evaluate vars = .error (.invalidLogarithm v)) ∨
        ∃ r : ℚ, e.evaluate vars = .ok (Flt.fin r) ∧ -1200 ≤ r) ∧
      Real.log (1 * gaussianPDFReal 0 (1 ^ 2 : ℝ).toNNReal 100) ≤ -5000 := by
  have hf : f64.Std := .inl rfl
  obtain ⟨b0, b4⟩ := log_two_pi_bounds
  have hl2 := Real.log_two_gt_d9
  have hl2' := Real.log_two_lt_d9
  have hlog : Real.log (gaussianPDFReal 0 (1 ^ 2 : ℝ).toNNReal 100) =
      -(1/2) * Real.log (2 * Real.pi) - 5000 := by
    rw [log_gaussian_flt one_pos, Real.log_one]; norm_num
  have h100 : f64.Representable 100 :=
    ⟨⟨100, 0, by norm_num [f64], by norm_num [f64], by norm_num⟩, lt_f64_max (by norm_num)⟩
  have hone : (1 : ℝ) ^ 2 = 1 := one_pow 2
  have hu := u_pos f64
  have hul : f64.u ≤ 1/2 ^ 24 := hf.u_le
  refine ⟨_, rfl, ?_, by rw [one_mul, hlog]; linarith⟩
  have hsz : (NormalPart.mk 1 0 1).size ((100 : ℚ) : ℝ) = 5001 := by
    simp [NormalPart.size]; norm_num
  obtain ⟨t, ht1, ht2, -, ht4⟩ := weighted_component hf hL hP hx h100 (c := ⟨1, 0, 1⟩)
    ⟨one_pos, one_pos, hf.rep_one, rep_zero _, hf.rep_one⟩ (by
      refine ⟨?_, ?_, ?_⟩
      · show _ ≤ ((1 : ℚ) : ℝ) ^ 2
        rw [Rat.cast_one, one_pow, show f64.u = 1 / 2 ^ 53 from rfl, div_le_one (by positivity),
          show f64.emin = -1074 from rfl, ← zpow_natCast, one_div, ← zpow_neg]
        exact zpow_le_zpow_right₀ (by norm_num) (by norm_num)
      · show ((1 : ℚ) : ℝ) ^ 2 < _
        rw [Rat.cast_one, one_pow]
        exact one_lt_zpow₀ (by norm_num) (by decide)
      · show (((100 : ℚ) : ℝ) - ((0 : ℚ) : ℝ)) ^ 2 ≤ _
        calc (((100 : ℚ) : ℝ) - ((0 : ℚ) : ℝ)) ^ 2 ≤ (2 : ℝ) ^ (14 : ℤ) := by norm_num
          _ ≤ _ := zpow_le_zpow_right₀ (by norm_num) (by decide)) (by rw [hsz]; norm_num)
  have hd : Real.log ((NormalPart.mk 1 0 1).density ((100 : ℚ) : ℝ)) = -(1/2) * Real.log (2 * Real.pi) - 5000 := by
    rw [← hlog]; simp [NormalPart.density]
  rw [hd, hsz] at ht4
  have htle : (t : ℝ) ≤ -4000 := by
    have h1 := (abs_le.mp ht4).2
    have h2 : 84 * f64.u * 5001 ≤ 84 * (1/2 ^ 24) * 5001 := by gcongr
    norm_num at h2
    linarith
  -- the exponential
  have hexp : Real.exp t ≤ 1/4 * 2 ^ f64.emin := by
    have : (1/4 : ℝ) * 2 ^ f64.emin = 2 ^ (-1076 : ℤ) := by
      rw [show (-1076 : ℤ) = -2 + f64.emin from rfl, zpow_add₀ (by norm_num)]; norm_num
    rw [this, ← Real.le_log_iff_exp_le (by positivity), Real.log_zpow]
    push_cast
    linarith
  obtain ⟨w, hw1, hw2, hw3⟩ := (hL.exp t ht2).resolve_right (by
    rintro ⟨-, h⟩
    have h1 : (1/4 : ℝ) * 2 ^ f64.emin ≤ 1 := by
      have : (2 : ℝ) ^ f64.emin ≤ 1 := zpow_le_one_of_nonpos₀ (by norm_num) (by decide)
      linarith
    have h2 : (1 : ℝ) < 2 ^ (f64.emax - 1) := one_lt_zpow₀ (by norm_num) (by decide)
    linarith)
  have e0 : (mixtureFrom xv (.const (FloatOps.zero : Flt f64 L)) [Flt.fin 1] [Flt.fin 0] [Flt.fin 1]).evaluate vars =
      .ok (Flt.fin w : Flt f64 L) := by
    show (Expr.add (.const (FloatOps.zero : Flt f64 L)) _).evaluate vars = _
    rw [Expr.evaluate]
    have e1 : Expr.isConst (FloatOps.zero : Flt f64 L) (.const FloatOps.zero) = true := by
      show Flt.beq (.fin 0) (.fin 0) = true
      simp [Flt.beq]
    simp only [bothConst, e1, if_true]
    rw [ht1, hw1]
  rcases lt_or_ge 0 w with h0 | h0
  · right
    obtain ⟨r, hr1, hr2, hr3⟩ := hL.ln w h0 hw2
    refine ⟨r, (eval_ln_flt e0 h0).trans (congrArg Except.ok (by simp only [Flt.ln, if_pos h0]; exact hr1)), ?_⟩
    have h1 := log_rep_le hf h0 hw2
    have h2 := (abs_le.mp hr3).1
    have h3 := (abs_le.mp h1).1
    have h4 : 2 * f64.u * |Real.log w| ≤ 2 * (1/2 ^ 24) * 1100 := by gcongr
    have : (-1200 : ℝ) ≤ r := by norm_num at h4; linarith
    exact_mod_cast this
  · left
    refine ⟨Flt.fin w, ?_⟩
    show (Expr.ln _).evaluate vars = _
    rw [Expr.evaluate, e0]
    show (if Flt.le (.fin w) (.fin 0) then _ else _) = _
    rw [if_pos (by simp [Flt.le, h0])]

/-- an accurate library with accurate squares -/
theorem exists_libm_square (hf : f.Std) : ∃ L : Libm, L.Accurate f ∧ L.SquareAccurate f := by
  obtain ⟨L, hL⟩ := exists_libm hf
  refine ⟨{ L with powf := fun a _ => Flt.mul f a a }, ⟨hL.ln, hL.exp⟩, ?_⟩
  intro q _
  show (∃ r : ℚ, f.round (q * q) = .fin r ∧ _) ∨ (f.round (q * q) = .inf false ∧ _)
  rcases f.round_cases (q * q) with ⟨r, hr⟩ | hr
  · left
    obtain ⟨h1, h2⟩ := near_round hf hr
    refine ⟨r, hr, h1, ?_⟩
    push_cast at h2
    rw [← _root_.sq, abs_of_nonneg (sq_nonneg (q : ℝ))] at h2
    have : 0 ≤ f.u * (q : ℝ) ^ 2 := mul_nonneg (u_pos f).le (sq_nonneg _)
    linarith
  · right
    have hn : decide (q * q < 0) = false := by simp [mul_self_nonneg]
    refine ⟨by rw [hr, hn], ?_⟩
    have h1 := (f.round_inf (prec1 hf) (emin_lt_emax hf) hr).1
    have h2 := real_lt h1
    push_cast at h2
    rw [← _root_.sq, abs_of_nonneg (sq_nonneg (q : ℝ))] at h2
    exact h2.le

/-- the hypotheses are met: the likelihood of `1` under `N(0, 1)`, and the mixture with this component -/
example : ∃ (L : Libm) (r : ℚ) (vars : FMap String (Flt f64 L)), L.Accurate f64 ∧ L.SquareAccurate f64 ∧
    vars.get "x" = some (Flt.fin 1) ∧ vars.get "mu" = some (Flt.fin 0) ∧ vars.get "sigma" = some (Flt.fin 1) ∧
    (normalLikelihood "x" "mu" "sigma").evaluate vars = .ok (Flt.fin (f := f64) (L := L) r) ∧
    (NormalPart.mk 1 0 1).Valid f64 ∧ (NormalPart.mk 1 0 1).InRange f64 1 ∧
    (NormalPart.mk 1 0 1).size 1 * f64.u ≤ 1/1000 ∧ (NormalPart.mk 1 0 1).density 1 ≤ 2 ^ (f64.emax - 5) ∧
    2 * (2 ^ f64.emin / f64.u) ≤ (NormalPart.mk 1 0 1).density 1 := by
  have hf : f64.Std := .inl rfl
  obtain ⟨L, hL, hP⟩ := exists_libm_square hf
  have hr : (NormalPart.mk 1 0 1).InRange f64 1 := by
    refine ⟨?_, ?_, ?_⟩
    · show _ ≤ ((1 : ℚ) : ℝ) ^ 2
      rw [Rat.cast_one, one_pow, show f64.u = 1 / 2 ^ 53 from rfl, div_le_one (by positivity),
        show f64.emin = -1074 from rfl, ← zpow_natCast, one_div, ← zpow_neg]
      exact zpow_le_zpow_right₀ (by norm_num) (by norm_num)
    · show ((1 : ℚ) : ℝ) ^ 2 < _
      rw [Rat.cast_one, one_pow]
      exact one_lt_zpow₀ (by norm_num) (by decide)
    · show ((1 : ℝ) - ((0 : ℚ) : ℝ)) ^ 2 ≤ _
      calc ((1 : ℝ) - ((0 : ℚ) : ℝ)) ^ 2 ≤ (2 : ℝ) ^ (14 : ℤ) := by norm_num
        _ ≤ _ := zpow_le_zpow_right₀ (by norm_num) (by decide)
  let vars : FMap String (Flt f64 L) :=
    ((FMap.empty.insert "x" (Flt.fin 1)).insert "mu" (Flt.fin 0)).insert "sigma" (Flt.fin 1)
  have h1 : vars.get "x" = some (Flt.fin 1) := by simp [vars, FMap.insert]
  have h2 : vars.get "mu" = some (Flt.fin 0) := by simp [vars, FMap.insert]
  have h3 : vars.get "sigma" = some (Flt.fin 1) := by simp [vars, FMap.insert]
  have hvar : ∀ {n : String} {q : ℚ}, vars.get n = some (Flt.fin q) →
      (Expr.var n : Expr (Flt f64 L)).evaluate vars = .ok (Flt.fin q) := by
    intro n q h; simp only [Expr.evaluate, h]
  obtain ⟨r, hr1, -⟩ := normal_log_pdf_fin hf hL hP (hvar h1) (hvar h2) (hvar h3) hf.rep_one (rep_zero _) hf.rep_one
    one_pos hr.1 hr.2.1 (by simpa using hr.2.2) (by norm_num)
  have hdens : Real.log ((NormalPart.mk 1 0 1).density 1) = -(1/2) * Real.log (2 * Real.pi) - 1/2 := by
    have := log_gaussian_flt (μ := 0) (x := 1) (σ := 1) one_pos
    rw [Real.log_one] at this
    simp only [NormalPart.density, Rat.cast_one, Rat.cast_zero, one_mul]
    rw [this]; norm_num
  have hpos : 0 < (NormalPart.mk 1 0 1).density 1 := by
    simp only [NormalPart.density, Rat.cast_one, one_mul]
    exact gaussianPDFReal_pos _ _ _ (by simp)
  obtain ⟨b0, b4⟩ := log_two_pi_bounds
  refine ⟨L, r, vars, hL, hP, h1, h2, h3, hr1, ⟨one_pos, one_pos, hf.rep_one, rep_zero _, hf.rep_one⟩, hr, ?_, ?_, ?_⟩
  · have := hf.u_le
    simp [NormalPart.size]
    norm_num at this ⊢
    linarith
  · have h4 : (NormalPart.mk 1 0 1).density 1 ≤ 1 := by
      rw [← Real.log_nonpos_iff hpos.le]; linarith
    exact h4.trans (one_le_zpow₀ (by norm_num) (by decide))
  · have h4 : Real.exp (-2) ≤ (NormalPart.mk 1 0 1).density 1 := by
      rw [← Real.le_log_iff_exp_le hpos]; linarith
    refine le_trans ?_ h4
    have h5 : (1 : ℝ) / 16 ≤ Real.exp (-2) := by
      rw [Real.exp_neg, one_div]
      refine inv_anti₀ (Real.exp_pos _) ?_
      have h6 := Real.exp_one_lt_d9
      have h7 := Real.exp_pos 1
      have : Real.exp 2 = Real.exp 1 * Real.exp 1 := by rw [← Real.exp_add]; norm_num
      rw [this]; nlinarith
    refine le_trans ?_ h5
    have e : (2 : ℝ) * (2 ^ f64.emin / f64.u) = 2 ^ (-1020 : ℤ) := by
      rw [show f64.u = 1 / 2 ^ 53 from rfl, show f64.emin = -1074 from rfl, one_div, div_inv_eq_mul,
        ← zpow_natCast, ← zpow_add₀ (by norm_num), ← zpow_one_add₀ (by norm_num)]
      norm_num
    rw [e]
    calc (2 : ℝ) ^ (-1020 : ℤ) ≤ 2 ^ (-4 : ℤ) := zpow_le_zpow_right₀ (by norm_num) (by norm_num)
      _ = 1/16 := by norm_num

end Verif
