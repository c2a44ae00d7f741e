import Verif.Props.DoubleNatural2

/-!
# C103: natural parameters and back in floating point
-/

namespace Verif
open Format FloatOps ExponentialFamily

variable {f : Format} {L : Libm}

/-- **C103**: exponential distributions survive the round trip exactly. -/
theorem C103_exponential {rate : ℚ} (h : 0 < rate) :
    (fromNatural (toNatural (⟨Flt.fin rate⟩ : Exponential (Flt f L))) :
      Except Panic (Exponential (Flt f L))) = .ok ⟨Flt.fin rate⟩ := by
  have hunf : (fromNatural (toNatural (⟨Flt.fin rate⟩ : Exponential (Flt f L))) :
      Except Panic (Exponential (Flt f L))) =
      if decide (0 < - -rate) = true then .ok ⟨Flt.fin (- -rate)⟩
      else .error ⟨"Rate parameter must be positive"⟩ := rfl
  rw [hunf, neg_neg, if_pos (by simpa using h)]

/-- **C103**: the rate of a Poisson distribution survives with a relative error of `4|ln λ| + 4` units. -/
theorem C103_poisson_partial (hf : f.Std) (hL : L.Accurate f) {rate : ℚ} (h0 : 0 < rate)
    (hr : f.Representable rate) (hlo : (2 : ℝ) ^ (f.emin + f.prec + 1) ≤ rate)
    (hhi : (rate : ℝ) ≤ 2 ^ (f.emax - 2)) :
    ∃ r : ℚ, (fromNatural (toNatural (⟨Flt.fin rate⟩ : Poisson (Flt f L))) :
        Except Panic (Poisson (Flt f L))) = .ok ⟨Flt.fin r⟩ ∧
      |(r : ℝ) - rate| ≤ (4 * |Real.log rate| + 4) * f.u * rate := by
  have hu := u_pos f
  have hul := hf.u_le
  norm_num at hul
  have hR : (0 : ℝ) < rate := by exact_mod_cast h0
  obtain ⟨η, hη, hηr, hηe⟩ := hL.ln rate h0 hr
  have hlog := log_rep_le hf h0 hr
  set l := Real.log rate with hl
  have hl0 : 0 ≤ |l| := abs_nonneg _
  have hd : |(η : ℝ) - l| ≤ 1/1000 := by
    refine hηe.trans ?_
    nlinarith
  -- the exponential of the computed logarithm
  set δ := (η : ℝ) - l with hδ
  have hexp : Real.exp η = rate * Real.exp δ := by
    rw [hδ, Real.exp_sub, hl, Real.exp_log hR]; field_simp
  have h1 : |Real.exp δ - 1| ≤ 101/100 * |δ| := by
    have h2 := Real.abs_exp_sub_one_sub_id_le (x := δ) (hd.trans (by norm_num))
    have h3 : Real.exp δ - 1 = (Real.exp δ - 1 - δ) + δ := by ring
    have h4 := abs_add_le (Real.exp δ - 1 - δ) δ
    rw [← h3] at h4
    have h5 : δ ^ 2 ≤ 1/1000 * |δ| := by
      rw [← sq_abs, _root_.sq]; gcongr
    have h6 := abs_nonneg δ
    linarith
  have h2 := abs_le.mp h1
  have h3 : 101/100 * |δ| ≤ 1/100 := by linarith
  have hEle : Real.exp η ≤ 101/100 * rate := by
    rw [hexp]; nlinarith
  have hEge : 99/100 * rate ≤ Real.exp η := by
    rw [hexp]; nlinarith
  obtain ⟨r, hres, -, hre⟩ := C102_poisson_partial hf hL (η := η) hηr (by
    have e : (2 : ℝ) ^ (f.emin + f.prec + 1) = 2 * 2 ^ (f.emin + f.prec) := by
      rw [zpow_add₀ (by norm_num), zpow_one, mul_comm]
    have : (0 : ℝ) < 2 ^ (f.emin + f.prec) := by positivity
    linarith) (by
    have e : (2 : ℝ) ^ (f.emax - 1) = 2 * 2 ^ (f.emax - 2) := by
      rw [show f.emax - 1 = (f.emax - 2) + 1 by ring, zpow_add₀ (by norm_num), zpow_one, mul_comm]
    have : (0 : ℝ) < 2 ^ (f.emax - 2) := by positivity
    linarith)
  refine ⟨r, ?_, ?_⟩
  · have hunf : toNatural (⟨Flt.fin rate⟩ : Poisson (Flt f L)) = [Flt.ln L (.fin rate)] := rfl
    have e1 : Flt.ln L (.fin rate) = .fin η := by simp only [Flt.ln, if_pos h0, hη]
    rw [hunf, e1]
    exact hres
  · have h4 := abs_sub_le (r : ℝ) (Real.exp η) rate
    have h5 : |Real.exp η - rate| ≤ rate * (101/100 * (2 * f.u * |l|)) := by
      rw [hexp, show (rate : ℝ) * Real.exp δ - rate = rate * (Real.exp δ - 1) by ring, abs_mul,
        abs_of_pos hR]
      gcongr
      exact h1.trans (by gcongr)
    have h6 : 3 * f.u * Real.exp η ≤ 3 * f.u * (101/100 * rate) := by gcongr
    have h7 : 0 ≤ f.u * rate := by positivity
    have h8 : 0 ≤ f.u * rate * |l| := by positivity
    nlinarith

example : f64.Representable 3 ∧ (2 : ℝ) ^ (f64.emin + f64.prec + 1) ≤ ((3 : ℚ) : ℝ) ∧
    ((3 : ℚ) : ℝ) ≤ 2 ^ (f64.emax - 2) := by
  refine ⟨?_, ?_, ?_⟩
  · have := Std.rep_of (f := f64) (.inl rfl) 3 0 (by norm_num) (by norm_num) (by norm_num)
    simpa using this
  · have h1 : (2 : ℝ) ^ (f64.emin + f64.prec + 1) ≤ 2 ^ (0 : ℤ) := zpow_le_zpow_right₀ (by norm_num) (by decide)
    rw [zpow_zero] at h1
    push_cast
    linarith
  · have h1 : (2 : ℝ) ^ (2 : ℤ) ≤ 2 ^ (f64.emax - 2) := zpow_le_zpow_right₀ (by norm_num) (by decide)
    refine le_trans ?_ h1
    norm_num

/-! ### gamma, beta, chi-squared -/

/-- one can be subtracted exactly from numbers between one half and `2^prec` -/
theorem sub_one_rep (hf : f.Std) {a : ℚ} (h : f.Representable a) (h1 : 1/2 ≤ a) (h2 : a ≤ 2 ^ f.prec) :
    f.Representable (a - 1) := by
  have hp := hf.prec_ge
  have hem : f.emin ≤ 0 := by have := hf.emin_le; omega
  refine ⟨?_, ?_⟩
  · obtain ⟨⟨m, e, hm, he, rfl⟩, -⟩ := h
    rcases le_or_gt e 0 with hle | hgt
    · obtain ⟨d, hd⟩ := Int.le.dest hle
      have e1 : (2 : ℚ) ^ e * 2 ^ d = 1 := by
        rw [← zpow_natCast, ← zpow_add₀ (by norm_num), hd, zpow_zero]
      have hpos : (0 : ℚ) < 2 ^ e := by positivity
      have hmd : (2 : ℤ) ^ d ≤ 2 * m := by
        have h3 : (2 ^ d : ℚ) * (1/2) ≤ m := by
          have h4 : (2 ^ d : ℚ) * (1/2) ≤ 2 ^ d * (m * 2 ^ e) := by gcongr
          calc (2 ^ d : ℚ) * (1/2) ≤ 2 ^ d * (m * 2 ^ e) := h4
            _ = m * (2 ^ e * 2 ^ d) := by ring
            _ = m := by rw [e1, mul_one]
        have h5 : ((2 ^ d : ℤ) : ℚ) ≤ ((2 * m : ℤ) : ℚ) := by push_cast; linarith
        exact_mod_cast h5
      refine ⟨m - 2 ^ d, e, ?_, he, ?_⟩
      · have h3 : 0 < (2 : ℤ) ^ d := by positivity
        have h4 := (abs_lt.mp hm).2
        rw [abs_lt]; constructor <;> omega
      · push_cast
        rw [sub_mul, mul_comm ((2 : ℚ) ^ d), e1]
    · -- an integer
      obtain ⟨d, hd⟩ := Int.le.dest hgt.le
      rw [zero_add] at hd
      subst hd
      rw [zpow_natCast] at h1 h2 ⊢
      refine ⟨m * 2 ^ d - 1, 0, ?_, hem, by push_cast; ring⟩
      have h3 : ((m * 2 ^ d : ℤ) : ℚ) ≤ ((2 ^ f.prec : ℤ) : ℚ) := by push_cast; exact h2
      have h4 : m * 2 ^ d ≤ 2 ^ f.prec := by exact_mod_cast h3
      have h5 : ((0 : ℤ) : ℚ) < ((m * 2 ^ d : ℤ) : ℚ) := by push_cast; linarith
      have h6 : 0 < m * 2 ^ d := by exact_mod_cast h5
      rw [abs_lt]; constructor <;> omega
  · have h3 := h.2
    rw [abs_of_nonneg (by linarith)] at h3
    have h4 : (1 : ℚ) ≤ 2 ^ f.emax := one_le_zpow₀ (by norm_num) (by have := hf.emax_ge; omega)
    rw [abs_lt]; constructor <;> linarith

/-- taking one off a shape and adding it again -/
theorem shape_trip (hf : f.Std) {a : ℚ} (h : f.Representable a) (h0 : f.u ≤ a) :
    ∃ b c : ℚ, Flt.sub f (.fin a) (.fin 1) = .fin b ∧ f.Representable b ∧
      Flt.add f (.fin b) (.fin 1) = .fin c ∧ f.Representable c ∧ 0 < c ∧ |(c : ℝ) - a| ≤ 3 * f.u * (1 + a) ∧
      (1/2 ≤ a → a ≤ 2 ^ f.prec → c = a) := by
  have hu := u_pos f
  have hul := hf.u_le
  norm_num at hul
  obtain ⟨b, hb⟩ := round_add_small hf h (d := -1) (by
    rw [abs_neg, abs_one]
    exact one_le_zpow₀ (by norm_num) (by rcases hf with rfl | rfl <;> decide))
  obtain ⟨hbr, hbe⟩ := near_round_add hf h (rep_neg hf.rep_one) hb
  push_cast at hbe
  have hbab := abs_le.mp hbe
  have hb1 : (-1 : ℝ) < b := by
    rcases le_total (a : ℝ) 1 with h1 | h1
    · rw [abs_of_nonpos (a := (a : ℝ) + -1) (by linarith)] at hbab
      nlinarith
    · rw [abs_of_nonneg (a := (a : ℝ) + -1) (by linarith)] at hbab
      nlinarith
  obtain ⟨c, hc, hcr, hcp, hce⟩ := add_one_flt hf hbr
  have hb1' : -1 < b := by exact_mod_cast hb1
  refine ⟨b, c, by rw [sub_fin, sub_eq_add_neg]; exact hb, hbr, hc, hcr, hcp.mpr hb1', ?_, ?_⟩
  · rw [abs_of_pos (a := (b : ℝ) + 1) (by linarith)] at hce
    have h1 := abs_sub_le (c : ℝ) (b + 1) a
    have e1 : (b : ℝ) + 1 - a = b - (a + -1) := by ring
    rw [e1] at h1
    have h2 : |(a : ℝ) + -1| ≤ 1 + a := by rw [abs_le]; constructor <;> linarith
    rcases le_total (a : ℝ) 1 with h3 | h3
    · rw [abs_of_nonpos (a := (a : ℝ) + -1) (by linarith)] at hbe hbab
      nlinarith
    · rw [abs_of_nonneg (a := (a : ℝ) + -1) (by linarith)] at hbe hbab
      have h4 : f.u * ((b : ℝ) + 1) ≤ f.u * (a + f.u * (a + -1)) :=
        mul_le_mul_of_nonneg_left (by linarith) hu.le
      have h5 : f.u * (f.u * ((a : ℝ) + -1)) ≤ f.u * (1 * (a + -1)) :=
        mul_le_mul_of_nonneg_left (mul_le_mul_of_nonneg_right (by linarith) (by linarith)) hu.le
      linarith
  · intro h1 h2
    have e1 : b = a - 1 := by
      have h3 := f.round_exact (sub_one_rep hf h h1 h2)
      rw [sub_eq_add_neg, hb] at h3
      rw [sub_eq_add_neg]
      exact FVal.fin.inj h3
    subst e1
    have h4 : f.round (a - 1 + 1) = .fin c := hc
    rw [sub_add_cancel, f.round_exact h] at h4
    exact (FVal.fin.inj h4).symm

/-- **C103**: gamma distributions survive the round trip if the shape is at least the unit roundoff;
exactly if the shape is between one half and `2^prec`. -/
theorem C103_gamma_partial (hf : f.Std) {shape rate : ℚ} (hs : f.Representable shape) (h0 : f.u ≤ shape)
    (hr : 0 < rate) :
    ∃ a : ℚ, (fromNatural (toNatural (⟨Flt.fin shape, Flt.fin rate⟩ : Gamma (Flt f L))) :
        Except Panic (Gamma (Flt f L))) = .ok ⟨Flt.fin a, Flt.fin rate⟩ ∧
      |(a : ℝ) - shape| ≤ 3 * f.u * (1 + shape) ∧
      (1/2 ≤ shape → shape ≤ 2 ^ f.prec → a = shape) := by
  obtain ⟨b, c, hb, -, hc, -, hc0, hce, hex⟩ := shape_trip hf hs h0
  refine ⟨c, ?_, hce, hex⟩
  have hunf : (fromNatural (toNatural (⟨Flt.fin shape, Flt.fin rate⟩ : Gamma (Flt f L))) :
      Except Panic (Gamma (Flt f L))) =
      Gamma.new (F := Flt f L) (Flt.add f (Flt.sub f (.fin shape) (.fin 1)) (.fin 1)) (Flt.fin (- -rate)) := rfl
  have hunf2 : Gamma.new (F := Flt f L) (Flt.fin c) (Flt.fin rate) =
      if decide (0 < c) = true then if decide (0 < rate) = true then .ok ⟨Flt.fin c, Flt.fin rate⟩
        else .error ⟨"Rate parameter must be positive"⟩
      else .error ⟨"Shape parameter must be positive"⟩ := rfl
  rw [hunf, hb, hc, neg_neg, hunf2, if_pos (by simpa using hc0), if_pos (by simpa using hr)]

/-- **C103**: the same for the two shapes of a beta distribution. -/
theorem C103_beta_partial (hf : f.Std) {α β : ℚ} (hα : f.Representable α) (hβ : f.Representable β)
    (h0 : f.u ≤ α) (h1 : f.u ≤ β) :
    ∃ a b : ℚ, (fromNatural (toNatural (⟨Flt.fin α, Flt.fin β⟩ : Beta (Flt f L))) :
        Except Panic (Beta (Flt f L))) = .ok ⟨Flt.fin a, Flt.fin b⟩ ∧
      |(a : ℝ) - α| ≤ 3 * f.u * (1 + α) ∧ |(b : ℝ) - β| ≤ 3 * f.u * (1 + β) ∧
      (1/2 ≤ α → α ≤ 2 ^ f.prec → a = α) ∧ (1/2 ≤ β → β ≤ 2 ^ f.prec → b = β) := by
  obtain ⟨a', a, ha', -, ha, -, ha0, hae, hax⟩ := shape_trip hf hα h0
  obtain ⟨b', b, hb', -, hb, -, hb0, hbe, hbx⟩ := shape_trip hf hβ h1
  refine ⟨a, b, ?_, hae, hbe, hax, hbx⟩
  have hunf : (fromNatural (toNatural (⟨Flt.fin α, Flt.fin β⟩ : Beta (Flt f L))) :
      Except Panic (Beta (Flt f L))) =
      Beta.new (F := Flt f L) (Flt.add f (Flt.sub f (.fin α) (.fin 1)) (.fin 1))
        (Flt.add f (Flt.sub f (.fin β) (.fin 1)) (.fin 1)) := rfl
  have hunf2 : Beta.new (F := Flt f L) (Flt.fin a) (Flt.fin b) =
      if decide (0 < a) = true then if decide (0 < b) = true then .ok ⟨Flt.fin a, Flt.fin b⟩
        else .error ⟨"Beta parameter must be positive"⟩
      else .error ⟨"Alpha parameter must be positive"⟩ := rfl
  rw [hunf, ha', ha, hb', hb, hunf2, if_pos (by simpa using ha0), if_pos (by simpa using hb0)]

example : f64.Representable (3/4) ∧ f64.u ≤ (((3/4 : ℚ)) : ℝ) ∧ (1/2 : ℚ) ≤ 3/4 ∧ (3/4 : ℚ) ≤ 2 ^ f64.prec := by
  refine ⟨?_, ?_, by norm_num, ?_⟩
  · have := Std.rep_of (f := f64) (.inl rfl) 3 (-2) (by norm_num) (by norm_num) (by norm_num)
    norm_num at this ⊢; exact this
  · rw [show f64.u = 1 / 2 ^ 53 from rfl]; norm_num
  · have : (1 : ℚ) ≤ 2 ^ f64.prec := one_le_pow₀ (by norm_num)
    linarith

/-- a tiny number minus one, in double precision -/
theorem tiny_sub_one : Flt.sub f64 (.fin (2 ^ (-60 : ℤ))) (.fin 1) = .fin (-1) := by
  rw [sub_fin]
  have := f64.round_eval (q := 2 ^ (-60 : ℤ) - 1) (-1) (-2 ^ 53) (by norm_num [abs_of_neg])
    (by norm_num [abs_of_neg]) (by norm_num [f64]) (by norm_num [f64, abs_le])
    (.inl (by norm_num [f64, abs_lt]))
      (by norm_num [f64]; exact one_lt_pow₀ (by norm_num) (by norm_num))
  rw [this]; norm_num [f64]

/-- **C103 violated**: the natural parameters of a gamma, beta or chi-squared distribution with shape
`2^-60` do not describe a distribution any more: `from_natural` panics. -/
theorem C103_shape_violated {rate : Flt f64 L} {β : Flt f64 L} :
    f64.Representable (2 ^ (-60 : ℤ)) ∧
    (∃ e, (fromNatural (toNatural (⟨Flt.fin (2 ^ (-60 : ℤ)), rate⟩ : Gamma (Flt f64 L))) :
      Except Panic (Gamma (Flt f64 L))) = .error e) ∧
    (∃ e, (fromNatural (toNatural (⟨Flt.fin (2 ^ (-60 : ℤ)), β⟩ : Beta (Flt f64 L))) :
      Except Panic (Beta (Flt f64 L))) = .error e) ∧
    (∃ e, (fromNatural (toNatural (⟨Flt.fin (2 ^ (-59 : ℤ))⟩ : ChiSquared (Flt f64 L))) :
      Except Panic (ChiSquared (Flt f64 L))) = .error e) := by
  have hf : f64.Std := .inl rfl
  have h0 : Flt.add f64 (.fin (-1)) (.fin 1) = .fin 0 := by
    show f64.round (-1 + 1) = _
    rw [neg_add_cancel]; exact f64.round_exact (rep_zero f64)
  refine ⟨rep_pow f64 (by decide) (by decide) (by decide), ?_, ?_, ?_⟩
  · have hunf : (fromNatural (toNatural (⟨Flt.fin (2 ^ (-60 : ℤ)), rate⟩ : Gamma (Flt f64 L))) :
        Except Panic (Gamma (Flt f64 L))) = Gamma.new (F := Flt f64 L)
          (Flt.add f64 (Flt.sub f64 (.fin (2 ^ (-60 : ℤ))) (.fin 1)) (.fin 1)) (Flt.neg (Flt.neg rate)) := rfl
    rw [hunf, tiny_sub_one, h0]
    exact ⟨_, rfl⟩
  · have hunf : (fromNatural (toNatural (⟨Flt.fin (2 ^ (-60 : ℤ)), β⟩ : Beta (Flt f64 L))) :
        Except Panic (Beta (Flt f64 L))) = Beta.new (F := Flt f64 L)
          (Flt.add f64 (Flt.sub f64 (.fin (2 ^ (-60 : ℤ))) (.fin 1)) (.fin 1))
          (Flt.add f64 (Flt.sub f64 β (.fin 1)) (.fin 1)) := rfl
    rw [hunf, tiny_sub_one, h0]
    exact ⟨_, rfl⟩
  · have h2 : f64.round 2 = .fin 2 := f64.round_exact hf.rep_two
    have hq : Flt.div f64 (.fin (2 ^ (-59 : ℤ))) (.fin 2) = .fin (2 ^ (-60 : ℤ)) := by
      simp only [Flt.div]
      rw [if_neg (by norm_num), show (2 ^ (-59 : ℤ) / 2 : ℚ) = 2 ^ (-60 : ℤ) by norm_num]
      exact f64.round_exact (rep_pow f64 (by decide) (by decide) (by decide))
    have hunf : (fromNatural (toNatural (⟨Flt.fin (2 ^ (-59 : ℤ))⟩ : ChiSquared (Flt f64 L))) :
        Except Panic (ChiSquared (Flt f64 L))) = ChiSquared.new (F := Flt f64 L)
          (Flt.mul f64 (f64.round 2) (Flt.add f64 (Flt.sub f64 (Flt.div f64 (.fin (2 ^ (-59 : ℤ)))
            (f64.round 2)) (.fin 1)) (.fin 1))) := rfl
    rw [hunf, h2, hq, tiny_sub_one, h0]
    have h3 : Flt.mul f64 (.fin 2) (.fin 0) = .fin 0 := by
      show f64.round (2 * 0) = _
      rw [mul_zero]; exact f64.round_exact (rep_zero f64)
    rw [h3]
    exact ⟨_, rfl⟩

/-- halving is exact above the subnormal range -/
theorem half_rep (hf : f.Std) {k : ℚ} (h : f.Representable k) (h0 : f.u ≤ k) : f.Representable (k / 2) := by
  have hu := u_pos f
  have hk0 : (0 : ℝ) < k := by linarith
  obtain ⟨⟨m, e, hm, he, rfl⟩, hlt⟩ := h
  refine ⟨⟨m, e - 1, hm, ?_, ?_⟩, ?_⟩
  · rcases he.eq_or_lt with h1 | h1
    · exfalso
      have h2 : (m : ℝ) < 2 ^ f.prec := by exact_mod_cast (abs_lt.mp hm).2
      have h3 : (((m : ℚ) * 2 ^ e : ℚ) : ℝ) < 2 ^ f.prec * 2 ^ e := by
        push_cast
        exact mul_lt_mul_of_pos_right h2 (by positivity)
      have h4 : (2 : ℝ) ^ f.prec * 2 ^ e ≤ f.u := by
        have e1 : f.u = 2 ^ (-(f.prec : ℤ)) := by
          rw [zpow_neg, zpow_natCast, Format.u, one_div]
        rw [e1, ← zpow_natCast, ← zpow_add₀ (by norm_num), ← h1]
        exact zpow_le_zpow_right₀ (by norm_num) (by rcases hf with rfl | rfl <;> decide)
      linarith
    · omega
  · rw [zpow_sub₀ (by norm_num), zpow_one]; ring
  · have hq : (0 : ℚ) < m * 2 ^ e := by exact_mod_cast hk0
    rw [abs_of_pos hq] at hlt
    rw [abs_of_pos (by linarith)]
    linarith

/-- doubling is exact below the overflow threshold -/
theorem double_rep {c : ℚ} (h : f.Representable c) (h1 : |2 * c| < 2 ^ f.emax) : f.Representable (2 * c) := by
  obtain ⟨⟨m, e, hm, he, rfl⟩, -⟩ := h
  refine ⟨⟨m, e + 1, hm, by omega, ?_⟩, h1⟩
  rw [zpow_add₀ (by norm_num), zpow_one]; ring

/-- **C103**: the degrees of freedom of a chi-squared distribution survive; exactly between one and
`2^(prec+1)`. -/
theorem C103_chi_squared_partial (hf : f.Std) {k : ℚ} (hk : f.Representable k) (h0 : 2 * f.u ≤ k)
    (h1 : (k : ℝ) ≤ 2 ^ 90) :
    ∃ k' : ℚ, (fromNatural (toNatural (⟨Flt.fin k⟩ : ChiSquared (Flt f L))) :
        Except Panic (ChiSquared (Flt f L))) = .ok ⟨Flt.fin k'⟩ ∧
      |(k' : ℝ) - k| ≤ 3 * f.u * (2 + k) ∧ (1 ≤ k → k ≤ 2 ^ (f.prec + 1) → k' = k) := by
  have hu := u_pos f
  have hul := hf.u_le
  norm_num at hul
  obtain ⟨b, c, hb, -, hc, hcr, hc0, hce, hex⟩ := shape_trip hf (half_rep hf hk (by linarith))
    (by push_cast; linarith)
  push_cast at hce
  have hcab := abs_le.mp hce
  have h2 : f.round 2 = .fin 2 := f.round_exact hf.rep_two
  have hbig : (2 : ℝ) * c ≤ 2 ^ (100 : ℤ) := by
    have h3 : f.u * (1 + (k : ℝ) / 2) ≤ 1/16777216 * (1 + k / 2) :=
      mul_le_mul_of_nonneg_right hul (by linarith)
    norm_num at h1 ⊢
    linarith
  have hrep : f.Representable (2 * c) := by
    refine double_rep hcr ?_
    rw [abs_of_pos (by linarith)]
    have h3 : 2 * c ≤ (2 : ℚ) ^ (100 : ℤ) := by
      have : ((2 * c : ℚ) : ℝ) ≤ (((2 : ℚ) ^ (100 : ℤ) : ℚ) : ℝ) := by
        norm_num at hbig ⊢; exact hbig
      exact_mod_cast this
    exact lt_of_le_of_lt h3 (zpow_lt_zpow_right₀ (by norm_num) (by rcases hf with rfl | rfl <;> decide))
  refine ⟨2 * c, ?_, ?_, ?_⟩
  · have hd : Flt.div f (.fin k) (.fin 2) = .fin (k / 2) := by
      simp only [Flt.div]
      rw [if_neg (by norm_num)]
      exact f.round_exact (half_rep hf hk (by linarith))
    have hm : Flt.mul f (.fin 2) (.fin c) = .fin (2 * c) := f.round_exact hrep
    have hunf : (fromNatural (toNatural (⟨Flt.fin k⟩ : ChiSquared (Flt f L))) :
        Except Panic (ChiSquared (Flt f L))) = ChiSquared.new (F := Flt f L)
          (Flt.mul f (f.round 2) (Flt.add f (Flt.sub f (Flt.div f (.fin k)
            (f.round 2)) (.fin 1)) (.fin 1))) := rfl
    have hunf2 : ChiSquared.new (F := Flt f L) (Flt.fin (2 * c)) =
      if decide (0 < 2 * c) = true then .ok ⟨Flt.fin (2 * c)⟩
        else .error ⟨"Degrees of freedom must be positive"⟩ := rfl
    rw [hunf, h2, hd, hb, hc, hm, hunf2, if_pos (by simpa using hc0)]
  · push_cast
    rw [abs_le]; constructor <;> linarith
  · intro h3 h4
    rw [hex (by linarith) (by rw [pow_succ] at h4; linarith)]
    ring

example : f64.Representable 7 ∧ 2 * f64.u ≤ (((7 : ℚ)) : ℝ) ∧ (((7 : ℚ)) : ℝ) ≤ 2 ^ 90 := by
  refine ⟨?_, ?_, by norm_num⟩
  · have := Std.rep_of (f := f64) (.inl rfl) 7 0 (by norm_num) (by norm_num) (by norm_num)
    simpa using this
  · rw [show f64.u = 1 / 2 ^ 53 from rfl]; norm_num

/-! ### normal -/

/-- **C103**: normal distributions of moderate size survive: the standard deviation within 40 units,
the mean within 50 (and an underflow term). -/
theorem C103_normal_partial (hf : f.Std) (hS : L.SqrtAccurate f) {μ σ : ℚ}
    (hσr : f.Representable σ) (hlo : 1 / 2 ^ 28 ≤ (σ : ℝ)) (hhi : (σ : ℝ) ≤ 2 ^ 28)
    (hμ : |(μ : ℝ)| ≤ 2 ^ 40) :
    ∃ μ' σ' : ℚ, (fromNatural (toNatural (⟨Flt.fin μ, Flt.fin σ⟩ : Normal (Flt f L))) :
        Except Panic (Normal (Flt f L))) = .ok ⟨Flt.fin μ', Flt.fin σ'⟩ ∧
      |(σ' : ℝ) - σ| ≤ 40 * f.u * σ ∧
      |(μ' : ℝ) - μ| ≤ 55 * f.u * |(μ : ℝ)| + (1 + 2 * σ ^ 2) * 2 ^ f.emin := by
  have hu := u_pos f
  have hul := hf.u_le
  norm_num at hul
  have hσ : (0 : ℝ) < σ := lt_of_lt_of_le (by norm_num) hlo
  have hσq : 0 < σ := by exact_mod_cast hσ
  have hs0 : (0 : ℝ) < σ * σ := by positivity
  have hslo : 1 / 2 ^ 56 ≤ (σ : ℝ) * σ := by
    calc (1 : ℝ) / 2 ^ 56 = 1 / 2 ^ 28 * (1 / 2 ^ 28) := by norm_num
      _ ≤ _ := mul_le_mul hlo hlo (by norm_num) hσ.le
  have hshi : (σ : ℝ) * σ ≤ 2 ^ 56 := by
    calc (σ : ℝ) * σ ≤ 2 ^ 28 * 2 ^ 28 := mul_le_mul hhi hhi hσ.le (by norm_num)
      _ = _ := by norm_num
  have hilo : 1 / 2 ^ 56 ≤ 1 / ((σ : ℝ) * σ) := one_div_le_one_div_of_le hs0 hshi
  have hihi : 1 / ((σ : ℝ) * σ) ≤ 2 ^ 56 := by
    rw [div_le_iff₀ hs0]; norm_num at hslo ⊢; linarith
  have aσ : App f 0 (.fin σ) σ σ := App.pos hσq hσr
  have a1 : App f 0 (.fin 1) ((1 : ℚ) : ℝ) ((1 : ℚ) : ℝ) := App.pos (by norm_num) hf.rep_one
  have ah : App f 0 (.fin (1/2)) (((1/2 : ℚ)) : ℝ) (((1/2 : ℚ)) : ℝ) := App.pos (by norm_num) hf.rep_half
  push_cast at a1 ah
  have as := App.mul_rel hf aσ aσ le_rfl le_rfl (m := 4) (by norm_num) (by norm_num)
    (u_cube_le_tiny hf (by norm_num at hslo ⊢; linarith)) (by norm_num at hshi ⊢; linarith)
  have ai := App.div_rel hf a1 as hs0 le_rfl (by norm_num) (m := 14) (by norm_num) (by norm_num)
    (u_cube_le_tiny hf (by norm_num at hilo ⊢; linarith)) (by norm_num at hihi ⊢; linarith)
  have am := App.mul_rel hf ah ai le_rfl (by norm_num) (m := 18) (by norm_num) (by norm_num)
    (u_cube_le_tiny hf (by norm_num at hilo ⊢; linarith)) (by norm_num at hihi ⊢; linarith)
  obtain ⟨s, hs, hsn⟩ := as
  obtain ⟨i, hi, hin⟩ := ai
  rw [hs] at hi
  rw [hs, hi] at am
  obtain ⟨h, hh, hhn⟩ := am
  set w := 1 / ((σ : ℝ) * σ) with hw
  have hw0 : 0 < w := by positivity
  have hiab := abs_le.mp hin.err
  have hhab := abs_le.mp hhn.err
  have hwu : f.u * w ≤ 1/16777216 * w := mul_le_mul_of_nonneg_right hul hw0.le
  have hh0 : (0 : ℝ) < h := by linarith
  -- the second natural parameter
  have hη₂ : Flt.mul f (f.round (-1/2)) (.fin i) = .fin (-h) := by
    have e1 : f.round (-1/2) = .fin (-(1/2)) := by
      rw [show (-1/2 : ℚ) = -(1/2) by norm_num]
      exact f.round_exact (rep_neg hf.rep_half)
    have e2 : f.round (1/2 * i) = .fin h := hh
    rw [e1]
    show f.round (-(1/2) * i) = _
    rw [neg_mul, round_neg, e2]; rfl
  -- the first one
  have hi0 : (0 : ℝ) < i := by linarith
  obtain ⟨η, hη⟩ := round_small hf (q := μ * i) (rat_le (by
    push_cast
    rw [abs_mul, abs_of_pos hi0]
    calc |(μ : ℝ)| * i ≤ 2 ^ 40 * (2 * 2 ^ 56) :=
          mul_le_mul hμ (by norm_num at hihi ⊢; linarith) hi0.le (by norm_num)
      _ ≤ _ := by norm_num))
  obtain ⟨-, hηe⟩ := near_round hf hη
  push_cast at hηe
  -- and back
  set x := 1 / (2 * (h : ℝ)) with hx
  have hx0 : 0 < x := by positivity
  have e₂ : ∀ a : ℝ, -a / (2 * (((-h : ℚ)) : ℝ)) = a * x := by
    intro a; push_cast; rw [hx]; field_simp
  have e₁ : -1 / (2 * (((-h : ℚ)) : ℝ)) = x := by simpa using e₂ 1
  have hxs : |x - σ * σ| ≤ 19 * f.u * (σ * σ) := by
    have e3 : x - σ * σ = (1 / 2 * w - h) * (2 * x * (σ * σ)) := by
      rw [hx, hw]; field_simp
    have h1 : x ≤ 101/100 * (σ * σ) := by
      have e4 : (101 : ℝ)/100 * (σ * σ) = 1 / (100/101 * w) := by rw [hw]; field_simp
      rw [e4, hx]
      exact one_div_le_one_div_of_le (by positivity) (by linarith)
    have h2 : x * w ≤ 101/100 := by
      calc x * w ≤ 101/100 * (σ * σ) * w := by gcongr
        _ = 101/100 := by rw [hw]; field_simp
    rw [e3, abs_mul, abs_sub_comm, abs_of_pos (a := 2 * x * ((σ : ℝ) * σ)) (by positivity)]
    calc |(h : ℝ) - 1 / 2 * w| * (2 * x * (σ * σ)) ≤ 18 * f.u * (1 / 2 * w) * (2 * x * (σ * σ)) := by
          gcongr
          exact hhn.err
      _ = 18 * f.u * (σ * σ) * (x * w) := by ring
      _ ≤ 18 * f.u * (σ * σ) * (101/100) := by gcongr
      _ ≤ _ := by
        have : 0 ≤ f.u * ((σ : ℝ) * σ) := by positivity
        linarith
  have hxab := abs_le.mp hxs
  have hsu : f.u * ((σ : ℝ) * σ) ≤ 1/16777216 * (σ * σ) := mul_le_mul_of_nonneg_right hul hs0.le
  -- size of the first natural parameter times the variance
  have hη1 : |(η : ℝ)| * x ≤ 2 * |(μ : ℝ)| + 2 * (σ * σ) * 2 ^ f.emin := by
    have h1 : |(η : ℝ)| ≤ |(μ : ℝ)| * i + (f.u * |(μ : ℝ) * i| + 2 ^ f.emin) := by
      have := abs_add_le ((η : ℝ) - μ * i) (μ * i)
      rw [sub_add_cancel, abs_mul (μ : ℝ) i, abs_of_pos hi0] at this
      rw [abs_mul, abs_of_pos hi0] at hηe ⊢
      linarith
    rw [abs_mul, abs_of_pos hi0] at h1
    have h2 : |(η : ℝ)| ≤ |(μ : ℝ)| * (101/100 * w) + 2 ^ f.emin := by
      have h3 : |(μ : ℝ)| * i ≤ |(μ : ℝ)| * (1001/1000 * w) := by gcongr; linarith
      have h4 : 0 ≤ |(μ : ℝ)| * i := by positivity
      have h5 : f.u * (|(μ : ℝ)| * i) ≤ 1/16777216 * (|(μ : ℝ)| * i) := mul_le_mul_of_nonneg_right hul h4
      have h6 : 0 ≤ |(μ : ℝ)| * w := by positivity
      linarith
    have h3 : x ≤ 101/100 * (σ * σ) := by linarith
    have h4 : (0 : ℝ) < 2 ^ f.emin := by positivity
    calc |(η : ℝ)| * x ≤ (|(μ : ℝ)| * (101/100 * w) + 2 ^ f.emin) * (101/100 * (σ * σ)) := by gcongr
      _ = 10201/10000 * |(μ : ℝ)| * (w * (σ * σ)) + 101/100 * (σ * σ) * 2 ^ f.emin := by ring
      _ = 10201/10000 * |(μ : ℝ)| + 101/100 * (σ * σ) * 2 ^ f.emin := by
        rw [show w * ((σ : ℝ) * σ) = 1 by rw [hw]; field_simp, mul_one]
      _ ≤ _ := by
        have h5 := abs_nonneg (μ : ℝ)
        have h6 : 0 ≤ (σ : ℝ) * σ * 2 ^ f.emin := by positivity
        linarith
  have hηs : (2 : ℝ) ^ f.emin ≤ 1 := by
    refine zpow_le_one_of_nonpos₀ (by norm_num) ?_
    rcases hf with rfl | rfl <;> decide
  obtain ⟨μ', σ', hres, -, hσe, hμe⟩ := C102_normal_partial (L := L) hf hS (η₁ := η) (η₂ := -h)
    (rep_neg hhn.rep) (by push_cast; norm_num at hilo ⊢; linarith)
    (by push_cast; norm_num at hihi ⊢; linarith) (by
      rw [e₂, abs_mul, abs_of_pos hx0]
      refine hη1.trans ?_
      have h1 : 2 * ((σ : ℝ) * σ) * 2 ^ f.emin ≤ 2 * 2 ^ 56 * 1 := by gcongr
      norm_num at h1 hμ ⊢; linarith)
  rw [e₁] at hσe
  rw [e₂, abs_mul, abs_of_pos hx0] at hμe
  refine ⟨μ', σ', ?_, ?_, ?_⟩
  · have hunf : toNatural (⟨Flt.fin μ, Flt.fin σ⟩ : Normal (Flt f L)) =
        [Flt.mul f (.fin μ) (Flt.div f (.fin 1) (Flt.mul f (.fin σ) (.fin σ))),
         Flt.mul f (f.round (-1/2)) (Flt.div f (.fin 1) (Flt.mul f (.fin σ) (.fin σ)))] := rfl
    rw [hunf, hs, hi, hη₂, show Flt.mul f (.fin μ) (.fin i) = f.round (μ * i) from rfl, hη]
    exact hres
  · -- the standard deviation
    have hsx := Real.sqrt_pos.mpr hx0
    have e3 : (√x - σ) * (√x + σ) = x - σ * σ := by
      have := Real.mul_self_sqrt hx0.le
      linear_combination this
    have h1 : |√x - σ| * σ ≤ 19 * f.u * σ * σ := by
      have h2 : |√x - σ| * (√x + σ) = |x - σ * σ| := by
        rw [← e3, abs_mul, abs_of_pos (a := √x + σ) (by positivity)]
      have h3 : |√x - σ| * σ ≤ |√x - σ| * (√x + σ) :=
        mul_le_mul_of_nonneg_left (by linarith) (abs_nonneg _)
      linarith
    have h2 : |√x - σ| ≤ 19 * f.u * σ := le_of_mul_le_mul_right h1 hσ
    have h3 := abs_sub_le (σ' : ℝ) √x σ
    have h4 := (abs_le.mp h2).2
    have h5 : f.u * √x ≤ f.u * (σ + 19 * f.u * σ) := by gcongr; linarith
    have h6 : f.u * (19 * f.u * σ) ≤ 1/16777216 * (19 * f.u * σ) :=
      mul_le_mul_of_nonneg_right hul (by positivity)
    have h7 : 0 ≤ f.u * (σ : ℝ) := by positivity
    linarith
  · -- the mean
    have h1 : |(η : ℝ) * x - μ| ≤ 36 * f.u * |(μ : ℝ)| + 3/2 * (σ * σ) * 2 ^ f.emin := by
      have e3 : (η : ℝ) * x - μ = ((η - μ * i) * x + μ * ((i - w) * x)) + μ * (w * (x - σ * σ)) := by
        rw [hw]; field_simp; ring
      have hM := abs_nonneg (μ : ℝ)
      have hx1 : x ≤ 101/100 * (σ * σ) := by linarith
      have h4 : (0 : ℝ) < 2 ^ f.emin := by positivity
      have b1 : |((η : ℝ) - μ * i) * x| ≤ 21/20 * f.u * |(μ : ℝ)| + 101/100 * (σ * σ) * 2 ^ f.emin := by
        rw [abs_mul, abs_of_pos hx0]
        rw [abs_mul, abs_of_pos hi0] at hηe
        calc |(η : ℝ) - μ * i| * x ≤ (f.u * (|(μ : ℝ)| * (101/100 * w)) + 2 ^ f.emin) * (101/100 * (σ * σ)) := by
              refine mul_le_mul (hηe.trans ?_) hx1 hx0.le (by positivity)
              gcongr; linarith
          _ = 10201/10000 * (f.u * |(μ : ℝ)|) * (w * (σ * σ)) + 101/100 * (σ * σ) * 2 ^ f.emin := by ring
          _ = 10201/10000 * (f.u * |(μ : ℝ)|) + 101/100 * (σ * σ) * 2 ^ f.emin := by
            rw [show w * ((σ : ℝ) * σ) = 1 by rw [hw]; field_simp, mul_one]
          _ ≤ _ := by
            have : 0 ≤ f.u * |(μ : ℝ)| := by positivity
            linarith
      have b2 : |(μ : ℝ) * ((i - w) * x)| ≤ 15 * f.u * |(μ : ℝ)| := by
        rw [abs_mul, abs_mul, abs_of_pos hx0]
        calc |(μ : ℝ)| * (|(i : ℝ) - w| * x) ≤ |(μ : ℝ)| * ((14 * f.u * w) * (101/100 * (σ * σ))) := by
              gcongr
              exact hin.err
          _ = 1414/100 * (f.u * |(μ : ℝ)|) * (w * (σ * σ)) := by ring
          _ = 1414/100 * (f.u * |(μ : ℝ)|) := by
            rw [show w * ((σ : ℝ) * σ) = 1 by rw [hw]; field_simp, mul_one]
          _ ≤ _ := by
            have : 0 ≤ f.u * |(μ : ℝ)| := by positivity
            linarith
      have b3 : |(μ : ℝ) * (w * (x - σ * σ))| ≤ 19 * f.u * |(μ : ℝ)| := by
        rw [abs_mul, abs_mul, abs_of_pos hw0]
        calc |(μ : ℝ)| * (w * |x - σ * σ|) ≤ |(μ : ℝ)| * (w * (19 * f.u * (σ * σ))) := by gcongr
          _ = 19 * f.u * |(μ : ℝ)| * (w * (σ * σ)) := by ring
          _ = _ := by rw [show w * ((σ : ℝ) * σ) = 1 by rw [hw]; field_simp, mul_one]
      rw [e3]
      have t1 := abs_add_le (((η : ℝ) - μ * i) * x + μ * ((i - w) * x)) (μ * (w * (x - σ * σ)))
      have t2 := abs_add_le (((η : ℝ) - μ * i) * x) (μ * ((i - w) * x))
      have : 0 ≤ f.u * |(μ : ℝ)| := by positivity
      have : 0 ≤ (σ : ℝ) * σ * 2 ^ f.emin := by positivity
      linarith
    have h2 := abs_sub_le (μ' : ℝ) (η * x) μ
    have h3 : |(η : ℝ)| * x ≤ |(μ : ℝ)| + |(η : ℝ) * x - μ| := by
      have := abs_add_le ((η : ℝ) * x - μ) μ
      rw [sub_add_cancel, abs_mul, abs_of_pos hx0] at this
      linarith
    have h4 : 16 * f.u * (|(η : ℝ)| * x) ≤
        16 * f.u * (|(μ : ℝ)| + (36 * f.u * |(μ : ℝ)| + 3/2 * (σ * σ) * 2 ^ f.emin)) := by
      gcongr; linarith
    have h5 : f.u * (f.u * |(μ : ℝ)|) ≤ 1/16777216 * (f.u * |(μ : ℝ)|) :=
      mul_le_mul_of_nonneg_right hul (by positivity)
    have h6 : f.u * ((σ : ℝ) * σ * 2 ^ f.emin) ≤ 1/16777216 * ((σ : ℝ) * σ * 2 ^ f.emin) :=
      mul_le_mul_of_nonneg_right hul (by positivity)
    have h7 : 0 ≤ f.u * |(μ : ℝ)| := by positivity
    have h8 : 0 ≤ (σ : ℝ) * σ * 2 ^ f.emin := by positivity
    have e4 : (1 + 2 * (σ : ℝ) ^ 2) * 2 ^ f.emin = 2 ^ f.emin + 2 * (σ * σ * 2 ^ f.emin) := by ring
    rw [e4]
    linarith

example : ∃ L : Libm, L.SqrtAccurate f64 ∧ f64.Representable 2 ∧ (1 : ℝ) / 2 ^ 28 ≤ ((2 : ℚ) : ℝ) ∧
    ((2 : ℚ) : ℝ) ≤ 2 ^ 28 ∧ |(((-3 : ℚ)) : ℝ)| ≤ 2 ^ 40 := by
  obtain ⟨L, -, hL⟩ := exists_libm_sqrt (f := f64) (.inl rfl)
  exact ⟨L, hL, Std.rep_two (.inl rfl), by norm_num, by norm_num, by norm_num⟩

/-! ### Bernoulli and geometric away from the edges -/

/-- the exponential of a small perturbation -/
theorem exp_pert {δ : ℝ} (h : |δ| ≤ 1/1000) : |Real.exp δ - 1| ≤ 101/100 * |δ| := by
  have h2 := Real.abs_exp_sub_one_sub_id_le (x := δ) (h.trans (by norm_num))
  have h3 : Real.exp δ - 1 = (Real.exp δ - 1 - δ) + δ := by ring
  have h4 := abs_add_le (Real.exp δ - 1 - δ) δ
  rw [← h3] at h4
  have h5 : δ ^ 2 ≤ 1/1000 * |δ| := by
    rw [← sq_abs, _root_.sq]; gcongr
  have h6 := abs_nonneg δ
  linarith

/-- **C103**: a success probability between `2^-60` and one survives with a relative error of
`3 |logit p| + 30` units. -/
theorem C103_bernoulli_partial (hf : f.Std) (hL : L.Accurate f) {p : ℚ} (hp : f.Representable p)
    (hlo : 1 / 2 ^ 60 ≤ (p : ℝ)) (hhi : p < 1) :
    ∃ p' : ℚ, (fromNatural (toNatural (⟨Flt.fin p⟩ : Bernoulli (Flt f L))) :
        Except Panic (Bernoulli (Flt f L))) = .ok ⟨Flt.fin p'⟩ ∧
      |(p' : ℝ) - p| ≤ (3 * |Real.log (p / (1 - p))| + 30) * f.u * p := by
  have hu := u_pos f
  have hul := hf.u_le
  norm_num at hul
  have hp0 : (0 : ℝ) < p := lt_of_lt_of_le (by norm_num) hlo
  have hp0' : 0 < p := by exact_mod_cast hp0
  have hp1 : (p : ℝ) < 1 := by exact_mod_cast hhi
  have hq0 : (0 : ℝ) < 1 - p := by linarith
  have hdist := rep_ne_one hf hp hhi.ne
  rw [abs_sub_comm, abs_of_pos hq0] at hdist
  have hu53 : 1 / 2 ^ 53 ≤ f.u := by
    rcases hf with rfl | rfl
    · exact le_of_eq rfl
    · show (1 : ℝ) / 2 ^ 53 ≤ 1 / 2 ^ 24; norm_num
  -- the odds
  have aq := App.add_pos hf hf.rep_one (rep_neg hp) (by push_cast; linarith) (by push_cast; norm_num; linarith)
  have ap : App f 0 (.fin p) p p := App.pos hp0' hp
  push_cast at aq
  rw [← sub_eq_add_neg] at aq
  have hole : (p : ℝ) ≤ p / (1 - p) := by rw [le_div_iff₀ hq0]; nlinarith
  have ao := App.div_rel hf ap aq hq0 le_rfl (by norm_num) (m := 8) (by norm_num) (by norm_num)
    (u_cube_le_tiny hf (hlo.trans hole)) (by
      rw [div_le_iff₀ hq0]; norm_num at hu53 ⊢; linarith)
  obtain ⟨o, ho, hon⟩ := ao
  set O := (p : ℝ) / (1 - p) with hO
  have hO0 : 0 < O := by positivity
  have hoab := abs_le.mp hon.err
  have hOu : f.u * O ≤ 1/16777216 * O := mul_le_mul_of_nonneg_right hul hO0.le
  have ho0 : (0 : ℝ) < o := by linarith
  have ho0' : 0 < o := by exact_mod_cast ho0
  obtain ⟨η, hη, hηr, hηe⟩ := hL.ln o ho0' hon.rep
  set l := Real.log O with hl
  -- the logarithm of the computed odds
  have hlo' : |Real.log o - l| ≤ 9 * f.u := by
    rw [hl, ← Real.log_div ho0.ne' hO0.ne', abs_le]
    have h1 : 1 - 8 * f.u ≤ (o : ℝ) / O := by rw [le_div_iff₀ hO0]; linarith
    have h2 : (o : ℝ) / O ≤ 1 + 8 * f.u := by rw [div_le_iff₀ hO0]; linarith
    have h3 : 0 < (o : ℝ) / O := by positivity
    constructor
    · have h4 := Real.one_sub_inv_le_log_of_pos h3
      have h5 : ((o : ℝ) / O)⁻¹ ≤ 1 + 9 * f.u := by
        rw [inv_le_comm₀ h3 (by linarith)]
        refine le_trans ?_ h1
        rw [inv_le_iff_one_le_mul₀ (by linarith)]
        nlinarith
      linarith
    · have h4 := Real.log_le_sub_one_of_pos h3
      linarith
  have hL0 := log_rep_le hf ho0' hon.rep
  have hll : |Real.log (o : ℝ)| ≤ |l| + 9 * f.u := by
    have := abs_add_le (Real.log (o : ℝ) - l) l
    rw [sub_add_cancel] at this
    linarith
  set δ := (η : ℝ) - l with hδ
  have hδe : |δ| ≤ 2 * f.u * |l| + 10 * f.u := by
    have h1 := abs_sub_le (η : ℝ) (Real.log o) l
    have h2 : 2 * f.u * |Real.log (o : ℝ)| ≤ 2 * f.u * (|l| + 9 * f.u) := by gcongr
    have h3 : f.u * f.u ≤ 1/16777216 * f.u := mul_le_mul_of_nonneg_right hul hu.le
    rw [← hδ] at h1
    linarith
  have hls : |l| ≤ 1101 := by
    have := abs_sub_le l (Real.log (o : ℝ)) 0
    rw [sub_zero, sub_zero, abs_sub_comm] at this
    linarith
  have hδs : |δ| ≤ 1/1000 := by
    have h1 : f.u * |l| ≤ 1/16777216 * 1101 := mul_le_mul hul hls (abs_nonneg _) (by norm_num)
    linarith
  have hpert := exp_pert hδs
  have hexp : Real.exp η = O * Real.exp δ := by
    rw [hδ, Real.exp_sub, hl, Real.exp_log hO0]; field_simp
  have hpab := abs_le.mp hpert
  obtain ⟨p', hres, -, -, hpe⟩ := C102_bernoulli_partial (L := L) hf hL hηr (by
    have h1 : O ≤ 2 ^ 54 := by
      rw [hO, div_le_iff₀ hq0]; norm_num at hu53 ⊢; linarith
    have h2 : Real.exp δ ≤ 2 := by linarith
    rw [hexp]
    calc O * Real.exp δ ≤ 2 ^ 54 * 2 := mul_le_mul h1 h2 (Real.exp_pos _).le (by norm_num)
      _ = (2 : ℝ) ^ (55 : ℤ) := by norm_num
      _ ≤ _ := zpow_le_zpow_right₀ (by norm_num) (by rcases hf with rfl | rfl <;> decide))
  refine ⟨p', ?_, ?_⟩
  · have hunf : toNatural (⟨Flt.fin p⟩ : Bernoulli (Flt f L)) =
        [Flt.ln L (Flt.div f (.fin p) (Flt.sub f (.fin 1) (.fin p)))] := rfl
    have e1 : Flt.div f (.fin p) (Flt.sub f (.fin 1) (.fin p)) = .fin o := ho
    have e2 : Flt.ln L (.fin o) = .fin η := by simp only [Flt.ln, if_pos ho0', hη]
    rw [hunf, e1, e2]
    exact hres
  · have hsig : |sigmoid η - p| ≤ p * (21/20 * |δ|) := by
      have hden : 99/100 ≤ 1 + (p : ℝ) * (Real.exp δ - 1) := by
        have : -(1/100 : ℝ) ≤ p * (Real.exp δ - 1) := by nlinarith
        linarith
      have e1 : sigmoid η - p = p * ((1 - p) * (Real.exp δ - 1) / (1 + p * (Real.exp δ - 1))) := by
        have h1 : 1 + O * Real.exp δ ≠ 0 := by positivity
        rw [sigmoid, hexp, eq_comm, ← sub_eq_zero, hO]
        have h2 : 1 + (p : ℝ) / (1 - p) * Real.exp δ = (1 + p * (Real.exp δ - 1)) / (1 - p) := by
          field_simp; ring
        have h3 : 1 + (p : ℝ) * (Real.exp δ - 1) ≠ 0 := by linarith
        rw [h2]
        field_simp
        ring
      rw [e1, abs_mul, abs_of_pos hp0, abs_div, abs_mul, abs_of_pos hq0,
        abs_of_pos (a := 1 + (p : ℝ) * (Real.exp δ - 1)) (by linarith)]
      gcongr
      rw [div_le_iff₀ (by linarith)]
      have h2 : (1 - (p : ℝ)) * |Real.exp δ - 1| ≤ 1 * (101/100 * |δ|) :=
        mul_le_mul (by linarith) hpert (abs_nonneg _) (by norm_num)
      have h3 : 21/20 * |δ| * (99/100) ≤ 21/20 * |δ| * (1 + p * (Real.exp δ - 1)) := by gcongr
      have h4 := abs_nonneg δ
      linarith
    have h1 := abs_sub_le (p' : ℝ) (sigmoid η) p
    have hs := (abs_le.mp hsig).2
    have h2 : sigmoid η ≤ 101/100 * p := by
      have : (p : ℝ) * (21/20 * |δ|) ≤ p * (1/100) := by gcongr; linarith
      linarith
    have h3 : 15 * f.u * sigmoid η ≤ 15 * f.u * (101/100 * p) := by gcongr
    have h4 : (p : ℝ) * (21/20 * |δ|) ≤ p * (21/20 * (2 * f.u * |l| + 10 * f.u)) := by gcongr
    have h5 : 4 * (2 : ℝ) ^ f.emin ≤ f.u * p := by
      have h6 : (2 : ℝ) ^ f.emin ≤ 1 / 2 ^ 53 * (1 / 2 ^ 60) * (1 / 2 ^ 2) := by
        rw [show (1 : ℝ) / 2 ^ 53 * (1 / 2 ^ 60) * (1 / 2 ^ 2) = 2 ^ (-115 : ℤ) by norm_num]
        exact zpow_le_zpow_right₀ (by norm_num) (by rcases hf with rfl | rfl <;> decide)
      have h7 : (1 : ℝ) / 2 ^ 53 * (1 / 2 ^ 60) ≤ f.u * p := mul_le_mul hu53 hlo (by norm_num) hu.le
      norm_num at h6 h7 ⊢
      linarith
    have h6 : 0 ≤ f.u * (p : ℝ) := by positivity
    have h7 : 0 ≤ f.u * p * |l| := by positivity
    linarith

example : ∃ L : Libm, L.Accurate f64 ∧ f64.Representable (1/2) ∧ (1 : ℝ) / 2 ^ 60 ≤ ((1/2 : ℚ) : ℝ) ∧
    (1/2 : ℚ) < 1 := by
  obtain ⟨L, hL⟩ := exists_libm (f := f64) (.inl rfl)
  exact ⟨L, hL, Std.rep_half (.inl rfl), by norm_num, by norm_num⟩

/-- **C103**: a geometric success probability between `16u` and one survives with an absolute error of
nine units. -/
theorem C103_geometric_partial (hf : f.Std) (hL : L.Accurate f) {p : ℚ} (hp : f.Representable p)
    (hlo : 16 * f.u ≤ (p : ℝ)) (hhi : p < 1) :
    ∃ p' : ℚ, (fromNatural (toNatural (⟨Flt.fin p⟩ : Geometric (Flt f L))) :
        Except Panic (Geometric (Flt f L))) = .ok ⟨Flt.fin p'⟩ ∧ |(p' : ℝ) - p| ≤ 9 * f.u := by
  have hu := u_pos f
  have hul := hf.u_le
  norm_num at hul
  have hp0 : (0 : ℝ) < p := by linarith
  have hp1 : (p : ℝ) < 1 := by exact_mod_cast hhi
  have hq0 : (0 : ℝ) < 1 - p := by linarith
  obtain ⟨w, hw, hwn⟩ := App.add_pos hf hf.rep_one (rep_neg hp) (by push_cast; linarith)
    (by push_cast; norm_num; linarith)
  have hwe := hwn.err
  push_cast at hwe
  rw [← sub_eq_add_neg, one_mul] at hwe
  have hwab := abs_le.mp hwe
  have huq : f.u * (1 - (p : ℝ)) ≤ f.u * 1 := by gcongr; linarith
  have huq2 : f.u * (1 - (p : ℝ)) ≤ 1/16777216 * (1 - p) := mul_le_mul_of_nonneg_right hul hq0.le
  have hw0 : (0 : ℝ) < w := by linarith
  have hw0' : 0 < w := by exact_mod_cast hw0
  have hw1 : (w : ℝ) ≤ 1 - 15 * f.u := by linarith
  obtain ⟨η, hη, hηr, hηe⟩ := hL.ln w hw0' hwn.rep
  have hlog := log_rep_le hf hw0' hwn.rep
  have hl1 : Real.log w ≤ -(15 * f.u) := by
    have := Real.log_le_sub_one_of_pos hw0
    linarith
  have hl2 := Real.one_sub_inv_le_log_of_pos hw0
  rw [abs_of_nonpos (a := Real.log w) (by linarith)] at hηe hlog
  have hηab := abs_le.mp hηe
  set δ := (η : ℝ) - Real.log w with hδ
  have hηup : (η : ℝ) ≤ -(8 * f.u) := by
    have h1 : f.u * -Real.log w ≤ 1/16777216 * -Real.log w := mul_le_mul_of_nonneg_right hul (by linarith)
    linarith
  have hδs : |δ| ≤ 1/1000 := by
    have h1 : f.u * -Real.log w ≤ 1/16777216 * 1100 := mul_le_mul hul hlog (by linarith) (by norm_num)
    linarith
  have hpert := exp_pert hδs
  have hexp : Real.exp η = w * Real.exp δ := by
    rw [hδ, Real.exp_sub, Real.exp_log hw0]; field_simp
  obtain ⟨p', hres, -, -, hpe⟩ := C102_geometric_partial (L := L) hf hL hηr hηup
  refine ⟨p', ?_, ?_⟩
  · have hunf : toNatural (⟨Flt.fin p⟩ : Geometric (Flt f L)) =
        [Flt.ln L (Flt.sub f (.fin 1) (.fin p))] := rfl
    have e1 : Flt.sub f (.fin 1) (.fin p) = .fin w := hw
    have e2 : Flt.ln L (.fin w) = .fin η := by simp only [Flt.ln, if_pos hw0', hη]
    rw [hunf, e1, e2]
    exact hres
  · have h1 : |Real.exp η - w| ≤ 101/50 * f.u := by
      have hwl : (w : ℝ) * -Real.log w ≤ 1 := by
        have h2 : (w : ℝ) * -Real.log w ≤ w * ((w : ℝ)⁻¹ - 1) := by gcongr; linarith
        rw [mul_sub, mul_inv_cancel₀ hw0.ne'] at h2
        linarith
      rw [hexp, show (w : ℝ) * Real.exp δ - w = w * (Real.exp δ - 1) by ring, abs_mul, abs_of_pos hw0]
      calc (w : ℝ) * |Real.exp δ - 1| ≤ w * (101/100 * (2 * f.u * -Real.log w)) := by
            gcongr
            exact hpert.trans (by gcongr)
        _ = 101/50 * f.u * (w * -Real.log w) := by ring
        _ ≤ 101/50 * f.u * 1 := by gcongr
        _ = _ := mul_one _
    have h2 := abs_le.mp h1
    have h3 := abs_le.mp hpe
    rw [abs_le]; constructor <;> linarith

example : ∃ L : Libm, L.Accurate f64 ∧ f64.Representable (1/2) ∧ 16 * f64.u ≤ ((1/2 : ℚ) : ℝ) ∧
    (1/2 : ℚ) < 1 := by
  obtain ⟨L, hL⟩ := exists_libm (f := f64) (.inl rfl)
  refine ⟨L, hL, Std.rep_half (.inl rfl), ?_, by norm_num⟩
  rw [show f64.u = 1 / 2 ^ 53 from rfl]; norm_num

/-! ### Bernoulli and geometric at the edges -/

/-- **C103 violated**: the natural parameter of a certain event is infinite, and `from_natural` panics
on it; so is the round trip of a Bernoulli distribution with probability one. -/
theorem C103_bernoulli_violated :
    (∃ d : Bernoulli (Flt f L), Bernoulli.new (Flt.fin 1) = .ok d ∧
      ∃ e, (fromNatural (toNatural d) : Except Panic (Bernoulli (Flt f L))) = .error e) := by
  refine ⟨⟨Flt.fin 1⟩, rfl, ?_⟩
  have h0 : Flt.sub f (.fin 1) (.fin 1) = .fin 0 := by
    rw [sub_fin, sub_self]; exact f.round_exact (rep_zero f)
  have hunf : toNatural (⟨Flt.fin 1⟩ : Bernoulli (Flt f L)) =
      [Flt.ln L (Flt.div f (.fin 1) (Flt.sub f (.fin 1) (.fin 1)))] := rfl
  rw [hunf, h0]
  exact ⟨_, rfl⟩

/-- **C103 violated**: in double precision the natural parameter of a geometric distribution with
probability `2^-60` is zero, and no distribution built from it has a probability below `100 * 2^-60`
(with a correctly rounded `exp 0 = 1` it panics). -/
theorem C103_geometric_violated (hL : L.Accurate f64) :
    (∃ d : Geometric (Flt f64 L), Geometric.new (Flt.fin (2 ^ (-60 : ℤ))) = .ok d ∧
      ∀ q : ℚ, (fromNatural (toNatural d) : Except Panic (Geometric (Flt f64 L))) = .ok ⟨Flt.fin q⟩ →
        100 * 2 ^ (-60 : ℤ) < q) ∧
    (L.exp 0 = .fin 1 → ∀ d : Geometric (Flt f64 L), d.prob = Flt.fin (2 ^ (-60 : ℤ)) →
      ∃ e, (fromNatural (toNatural d) : Except Panic (Geometric (Flt f64 L))) = .error e) := by
  have hf : f64.Std := .inl rfl
  have hone : Flt.sub f64 (.fin 1) (.fin (2 ^ (-60 : ℤ))) = .fin 1 := by
    rw [sub_fin]
    have := f64.round_eval (q := 1 - 2 ^ (-60 : ℤ)) (-1) (2 ^ 53) (by norm_num [abs_of_pos])
      (by norm_num [abs_of_pos]) (by norm_num [f64]) (by norm_num [f64, abs_le])
      (.inl (by norm_num [f64, abs_lt]))
      (by norm_num [f64]; exact one_lt_pow₀ (by norm_num) (by norm_num))
    rw [this]; norm_num [f64]
  have hln : Flt.ln L (.fin 1) = .fin 0 := by
    obtain ⟨r, hr, -, he⟩ := hL.ln 1 one_pos hf.rep_one
    have : r = 0 := by
      push_cast at he
      rw [Real.log_one, abs_zero, mul_zero, sub_zero] at he
      have := abs_nonpos_iff.mp he
      exact_mod_cast this
    simp only [Flt.ln, if_pos one_pos, hr, this]
  have hunf : ∀ d : Geometric (Flt f64 L), d.prob = Flt.fin (2 ^ (-60 : ℤ)) →
      (fromNatural (toNatural d) : Except Panic (Geometric (Flt f64 L))) =
      Geometric.new (F := Flt f64 L) (Flt.sub f64 (.fin 1) (L.exp 0)) := by
    rintro ⟨p⟩ hp
    have hu : (fromNatural (toNatural (⟨p⟩ : Geometric (Flt f64 L))) : Except Panic (Geometric (Flt f64 L))) =
      Geometric.new (F := Flt f64 L) (Flt.sub f64 (.fin 1)
        (Flt.exp L (Flt.ln L (Flt.sub f64 (.fin 1) p)))) := rfl
    rw [hu, show p = FVal.fin (2 ^ (-60 : ℤ)) from hp, hone, hln]
    rfl
  constructor
  · refine ⟨⟨Flt.fin (2 ^ (-60 : ℤ))⟩, ?_, ?_⟩
    · show (if (decide ((0 : ℚ) < 2 ^ (-60 : ℤ)) && decide ((2 ^ (-60 : ℤ) : ℚ) ≤ 1)) = true then _ else _) = _
      rw [if_pos (by norm_num)]
    · intro q hq
      rw [hunf _ rfl] at hq
      have hnew : ∀ v : Flt f64 L, Geometric.new v = .ok ⟨Flt.fin q⟩ →
          v = Flt.fin q ∧ 0 < q := by
        intro v hv
        unfold Geometric.new at hv
        split_ifs at hv with h1
        injection hv with h2
        injection h2 with h3
        subst h3
        refine ⟨rfl, ?_⟩
        rw [Bool.and_eq_true] at h1
        exact of_decide_eq_true h1.1
      obtain ⟨h1, h2⟩ := hnew _ hq
      rcases hL.exp 0 (rep_zero f64) with ⟨r, hr, hrr, -⟩ | ⟨hr, -⟩
      · rw [hr, sub_fin] at h1
        have hq' : f64.round (1 - r) = .fin q := h1
        have hr1 : r ≠ 1 := by
          rintro rfl
          rw [sub_self, f64.round_exact (rep_zero f64)] at hq'
          have := FVal.fin.inj hq'
          linarith
        have hdist := rep_ne_one hf hrr hr1
        have herr := (near_round_add hf hf.rep_one (rep_neg hrr) (r := q) (by
          rw [← sub_eq_add_neg]; exact hq')).2
        push_cast at herr
        rw [← sub_eq_add_neg] at herr
        rw [abs_sub_comm] at hdist
        have hq0 : (0 : ℝ) < q := by exact_mod_cast h2
        have hu : f64.u = 1 / 2 ^ 53 := rfl
        have h5 := abs_le.mp herr
        have hpos : 0 < 1 - (r : ℝ) := by
          by_contra hc
          rw [not_lt] at hc
          rw [abs_of_nonpos hc] at h5
          rw [hu] at h5
          norm_num at h5
          linarith
        rw [abs_of_pos hpos] at hdist h5
        rw [hu] at hdist h5
        have h6 : (((100 * 2 ^ (-60 : ℤ) : ℚ)) : ℝ) < q := by
          push_cast
          norm_num at hdist h5 ⊢
          linarith
        exact_mod_cast h6
      · rw [hr] at h1
        exact absurd (show FVal.inf true = FVal.fin q from h1) (by simp)
  · intro he d hd
    rw [hunf d hd, he]
    have h0 : Flt.sub f64 (.fin 1) (.fin 1) = .fin 0 := by
      rw [sub_fin, sub_self]; exact f64.round_exact (rep_zero f64)
    rw [h0]
    exact ⟨_, rfl⟩

end Verif
