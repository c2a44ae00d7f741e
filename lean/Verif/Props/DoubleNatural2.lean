import Verif.Props.DoubleNatural

/-!
# C102, continued: Poisson, geometric, chi-squared, normal; overflow; the uniform categorical
-/

namespace Verif
open Format FloatOps

variable {f : Format} {L : Libm}

/-- **C102**: a Poisson distribution is built from every natural parameter whose exponential is a
normal number; the rate has a relative error of three units. -/
theorem C102_poisson_partial (hf : f.Std) (hL : L.Accurate f) {η : ℚ} (hη : f.Representable η)
    (hlo : (2 : ℝ) ^ (f.emin + f.prec) ≤ Real.exp η) (hhi : Real.exp η < 2 ^ (f.emax - 1)) :
    ∃ r : ℚ, (ExponentialFamily.fromNatural [Flt.fin η] : Except Panic (Poisson (Flt f L))) =
        .ok ⟨Flt.fin r⟩ ∧ 0 < r ∧ |(r : ℝ) - Real.exp η| ≤ 3 * f.u * Real.exp η := by
  have hu := u_pos f
  have hul := hf.u_le
  obtain ⟨r, hr, -, -, he⟩ := exp_flt hf hL hη hhi
  have h1 : (2 : ℝ) ^ f.emin = f.u * 2 ^ (f.emin + f.prec) := by
    rw [zpow_add₀ (by norm_num), zpow_natCast]
    unfold Format.u
    field_simp
  have h2 : (2 : ℝ) ^ f.emin ≤ f.u * Real.exp η := by rw [h1]; gcongr
  have h3 : |(r : ℝ) - Real.exp η| ≤ 3 * f.u * Real.exp η := by linarith
  have h4 : 0 < r := by
    have h5 := (abs_le.mp h3).1
    have h6 : 3 * f.u * Real.exp η ≤ 1/2 * Real.exp η := by gcongr; norm_num at hul; linarith
    have h7 := Real.exp_pos η
    have : (0 : ℝ) < r := by linarith
    exact_mod_cast this
  refine ⟨r, ?_, h4, h3⟩
  show (if Flt.lt (.fin 0) (L.exp η) = true then Except.ok (⟨L.exp η⟩ : Poisson (Flt f L)) else _) = _
  rw [hr]
  show (if decide (0 < r) = true then _ else _) = _
  rw [if_pos (by simpa using h4)]

example : f64.Representable 2 ∧ (2 : ℝ) ^ (f64.emin + f64.prec) ≤ Real.exp ((2 : ℚ) : ℝ) ∧
    Real.exp ((2 : ℚ) : ℝ) < 2 ^ (f64.emax - 1) := by
  refine ⟨Std.rep_two (.inl rfl), ?_, ?_⟩
  · have h1 : (2 : ℝ) ^ (f64.emin + f64.prec) ≤ 2 ^ (0 : ℤ) := zpow_le_zpow_right₀ (by norm_num) (by decide)
    have h2 := Real.add_one_le_exp ((2 : ℚ) : ℝ)
    push_cast at h2 ⊢
    rw [zpow_zero] at h1
    linarith
  · have h1 : (2 : ℝ) ^ (100 : ℤ) ≤ 2 ^ (f64.emax - 1) := zpow_le_zpow_right₀ (by norm_num) (by decide)
    have h2 : Real.exp ((2 : ℚ) : ℝ) = Real.exp 1 * Real.exp 1 := by
      rw [← Real.exp_add]; norm_num
    have h3 := Real.exp_one_lt_d9
    have h4 := Real.exp_pos 1
    refine lt_of_lt_of_le ?_ h1
    rw [h2]
    norm_num1
    nlinarith

/-- **C102**: a geometric distribution is built from every natural parameter below `-8u`; the
probability has an absolute error of five units (a small probability loses its relative accuracy). -/
theorem C102_geometric_partial (hf : f.Std) (hL : L.Accurate f) {η : ℚ} (hη : f.Representable η)
    (h : (η : ℝ) ≤ -(8 * f.u)) :
    ∃ p : ℚ, (ExponentialFamily.fromNatural [Flt.fin η] : Except Panic (Geometric (Flt f L))) =
        .ok ⟨Flt.fin p⟩ ∧ 0 < p ∧ p ≤ 1 ∧ |(p : ℝ) - (1 - Real.exp η)| ≤ 5 * f.u := by
  have hu := u_pos f
  have hul := hf.u_le
  norm_num at hul
  have hE0 := Real.exp_pos η
  have hη0 : (η : ℝ) ≤ 0 := by linarith
  have hE1 : Real.exp η ≤ 1 := Real.exp_le_one_iff.mpr hη0
  -- the exponential stays below `1 - 7u`
  have hE2 : Real.exp η ≤ 1 - 7 * f.u := by
    have h1 : Real.exp η ≤ Real.exp (-(8 * f.u)) := Real.exp_le_exp.mpr h
    have h2 := Real.add_one_le_exp (8 * f.u)
    have h3 : Real.exp (-(8 * f.u)) * Real.exp (8 * f.u) = 1 := by
      rw [← Real.exp_add, neg_add_cancel, Real.exp_zero]
    have h4 := Real.exp_pos (-(8 * f.u))
    have h5 : Real.exp (-(8 * f.u)) * (8 * f.u + 1) ≤ 1 := by
      exact (mul_le_mul_of_nonneg_left h2 h4.le).trans h3.le
    nlinarith
  have hem : (1 : ℝ) < 2 ^ (f.emax - 1) := by
    refine one_lt_zpow₀ (by norm_num) ?_
    have := hf.emax_ge; omega
  obtain ⟨e, he, her, he0, hee⟩ := exp_flt hf hL hη (by linarith)
  have hη2 := eta_small hf
  have hsm : (2 : ℝ) ^ f.emin ≤ f.u * (1/100) := by
    refine hη2.trans ?_
    gcongr
    nlinarith
  have h6 := abs_le.mp hee
  have h7 : f.u * Real.exp η ≤ f.u * 1 := by gcongr
  have he1 : (e : ℝ) < 1 := by linarith
  have he1' : e < 1 := by exact_mod_cast he1
  have he0' : (0 : ℝ) ≤ e := by exact_mod_cast he0
  obtain ⟨p, hp⟩ := round_small hf (q := 1 - e) (rat_le (by
    push_cast
    rw [abs_of_nonneg (by linarith)]
    refine le_trans (b := (1 : ℝ)) (by linarith) (by norm_num)))
  obtain ⟨hpr, hpe⟩ := near_round_add hf hf.rep_one (rep_neg her) (r := p) (by rw [← sub_eq_add_neg]; exact hp)
  push_cast at hpe
  rw [← sub_eq_add_neg, abs_of_pos (a := 1 - (e : ℝ)) (by linarith)] at hpe
  have h8 := abs_le.mp hpe
  have hp0 : 0 < p := by
    have : (0 : ℝ) < p := by nlinarith
    exact_mod_cast this
  have hp1 : p ≤ 1 := by
    have h9 := f.round_nearest hp hf.rep_one
    rw [abs_of_nonpos (a := 1 - e - 1) (by linarith)] at h9
    have := neg_abs_le (1 - e - p)
    linarith
  refine ⟨p, ?_, hp0, hp1, ?_⟩
  · show (if (Flt.lt (.fin 0) (Flt.sub f (.fin 1) (L.exp η)) &&
      Flt.le (Flt.sub f (.fin 1) (L.exp η)) (.fin 1)) = true
      then Except.ok (⟨Flt.sub f (.fin 1) (L.exp η)⟩ : Geometric (Flt f L)) else _) = _
    rw [he, sub_fin, hp]
    show (if (decide (0 < p) && decide (p ≤ 1)) = true then _ else _) = _
    rw [if_pos (by simp [hp0, hp1])]
  · have h9 : f.u * (e : ℝ) ≥ 0 := by positivity
    rw [abs_le]
    constructor <;> nlinarith

example : f64.Representable (-1) ∧ (((-1 : ℚ) : ℝ)) ≤ -(8 * f64.u) := by
  refine ⟨rep_neg (Std.rep_one (.inl rfl)), ?_⟩
  rw [show f64.u = 1 / 2 ^ 53 from rfl]
  norm_num

/-- **C102**: a chi-squared distribution is built exactly when its first natural parameter exceeds
`-1`; the degrees of freedom are correctly rounded. -/
theorem C102_chi_squared (hf : f.Std) {η₁ : ℚ} {η₂ : Flt f L} (h₁ : f.Representable η₁)
    (hB : |(η₁ : ℝ)| ≤ 2 ^ 90) :
    (-1 < η₁ → ∃ k : ℚ, |(k : ℝ) - 2 * (η₁ + 1)| ≤ f.u * (2 * (η₁ + 1)) ∧
      (ExponentialFamily.fromNatural [Flt.fin η₁, η₂] : Except Panic (ChiSquared (Flt f L))) =
        .ok ⟨Flt.fin k⟩) ∧
    (¬ -1 < η₁ → ∃ e, (ExponentialFamily.fromNatural [Flt.fin η₁, η₂] :
      Except Panic (ChiSquared (Flt f L))) = .error e) := by
  have hu := u_pos f
  have hul := hf.u_le
  norm_num at hul
  obtain ⟨a, ha, har, hpos, he⟩ := add_one_flt hf h₁
  have hab := abs_le.mp hB
  have h2r : f.round 2 = .fin 2 := f.round_exact hf.rep_two
  have h3 : |(η₁ : ℝ) + 1| ≤ 2 ^ 91 := by
    rw [abs_le]; constructor <;> norm_num at hab ⊢ <;> linarith
  have h4 : |(a : ℝ)| ≤ 2 ^ 92 := by
    have h5 := abs_sub_abs_le_abs_sub (a : ℝ) (η₁ + 1)
    have h6 : f.u * |(η₁ : ℝ) + 1| ≤ 1 * 2 ^ 91 := by gcongr; linarith
    norm_num at h3 h6 ⊢
    linarith
  -- doubling is exact
  have h2a : f.round (2 * a) = .fin (2 * a) := by
    rw [two_mul]
    obtain ⟨r, hr⟩ := round_small hf (q := a + a) (rat_le (by
      push_cast
      rw [← two_mul, abs_mul, abs_of_pos (by norm_num : (0 : ℝ) < 2)]
      norm_num at h4 ⊢; linarith))
    refine f.round_exact ⟨?_, ?_⟩
    · obtain ⟨⟨m, e, hm, he, rfl⟩, -⟩ := har
      exact ⟨m, e + 1, hm, by omega, by rw [zpow_add₀ (by norm_num)]; ring⟩
    · have h5 : (2 : ℝ) ^ (100 : ℤ) ≤ 2 ^ f.emax :=
        zpow_le_zpow_right₀ (by norm_num) (by have := hf.emax_ge; omega)
      have h6 : |((a + a : ℚ) : ℝ)| < 2 ^ f.emax := by
        refine lt_of_lt_of_le ?_ h5
        push_cast
        rw [← two_mul, abs_mul, abs_of_pos (by norm_num : (0 : ℝ) < 2)]
        norm_num at h4 ⊢; linarith
      rw [← cast_zpow] at h6
      exact_mod_cast h6
  have hunf : (ExponentialFamily.fromNatural [Flt.fin η₁, η₂] : Except Panic (ChiSquared (Flt f L))) =
      ChiSquared.new (F := Flt f L) (Flt.mul f (f.round 2) (Flt.add f (.fin η₁) (.fin 1))) := rfl
  have hunf2 : ChiSquared.new (F := Flt f L) (Flt.mul f (f.round 2) (Flt.add f (.fin η₁) (.fin 1))) =
      if decide (0 < 2 * a) = true then .ok ⟨Flt.fin (2 * a)⟩
      else .error ⟨"Degrees of freedom must be positive"⟩ := by
    rw [ha, h2r, show Flt.mul f (.fin 2) (.fin a) = f.round (2 * a) from rfl, h2a]
    rfl
  rw [hunf, hunf2]
  constructor
  · intro h1
    have h1' : (-1 : ℝ) < η₁ := by exact_mod_cast h1
    rw [abs_of_pos (a := (η₁ : ℝ) + 1) (by linarith)] at he
    refine ⟨2 * a, ?_, ?_⟩
    · push_cast
      rw [← mul_sub, abs_mul, abs_of_pos (by norm_num : (0 : ℝ) < 2)]
      linarith
    · rw [if_pos (by have := hpos.mpr h1; simpa using this)]
  · intro h
    rw [if_neg (by
      have := mt hpos.mp h
      simpa using this)]
    exact ⟨_, rfl⟩

/-! ### overflow -/

/-- an exponential beyond the greatest number of the format -/
theorem exp_flt_overflow (hf : f.Std) (hL : L.Accurate f) {q : ℚ} (hq : f.Representable q)
    (h : (2 : ℝ) ^ (f.emax + 1) ≤ Real.exp q) : L.exp q = .inf false := by
  rcases hL.exp q hq with ⟨r, -, h2, h3⟩ | ⟨h, -⟩
  · exfalso
    have hul := hf.u_le
    norm_num at hul
    have h4 : |(r : ℝ)| ≤ 2 ^ f.emax := by
      have h5 := rep_le_max hf h2
      have h6 : (0 : ℚ) < 2 ^ (f.emax - f.prec) := by positivity
      have h7 : |r| ≤ 2 ^ f.emax := by linarith
      rw [← cast_zpow]
      exact_mod_cast h7
    have h5 : (2 : ℝ) ^ f.emin ≤ 2 ^ 0 := by
      rw [← zpow_natCast]
      exact zpow_le_zpow_right₀ (by norm_num) (by have := hf.emin_le; push_cast; omega)
    have h6 : (2 : ℝ) ^ (f.emax + 1) = 2 * 2 ^ f.emax := by
      rw [zpow_add₀ (by norm_num), zpow_one, mul_comm]
    have h7 : (2 : ℝ) ^ 100 ≤ 2 ^ f.emax := by
      rw [← zpow_natCast]
      exact zpow_le_zpow_right₀ (by norm_num) (by have := hf.emax_ge; push_cast; omega)
    have h8 := (abs_le.mp h3).1
    have h9 := (abs_le.mp h4).2
    norm_num at h7
    have h10 : 2 * f.u * Real.exp q ≤ 1/4 * Real.exp q := by gcongr; linarith
    linarith
  · exact h

/-- **C102 violated**: log-odds whose exponential exceeds the format make the Bernoulli and the
two-category categorical constructor panic, although the probability is then next to one; a Poisson
distribution gets an infinite rate. -/
theorem C102_overflow_violated (hf : f.Std) (hL : L.Accurate f) {η : ℚ} (hη : f.Representable η)
    (h : (2 : ℝ) ^ (f.emax + 1) ≤ Real.exp η) :
    (∃ e, (ExponentialFamily.fromNatural [Flt.fin η] : Except Panic (Bernoulli (Flt f L))) = .error e) ∧
    (∃ e, (ExponentialFamily.fromNatural [Flt.fin η] : Except Panic (Categorical (Flt f L))) = .error e) ∧
    (ExponentialFamily.fromNatural [Flt.fin η] : Except Panic (Poisson (Flt f L))) = .ok ⟨Flt.posInf⟩ := by
  have he := exp_flt_overflow hf hL hη h
  refine ⟨?_, ?_, ?_⟩
  · have hunf : (ExponentialFamily.fromNatural [Flt.fin η] : Except Panic (Bernoulli (Flt f L))) =
        Bernoulli.new (F := Flt f L) (Flt.div f (L.exp η) (Flt.add f (.fin 1) (L.exp η))) := rfl
    rw [hunf, he]
    exact ⟨_, rfl⟩
  · have hunf : (ExponentialFamily.fromNatural [Flt.fin η] : Except Panic (Categorical (Flt f L))) =
        Categorical.new (F := Flt f L)
          [Flt.div f (L.exp η) (Flt.add f (.fin 1) (Flt.add f (.fin 0) (L.exp η))),
           Flt.div f (.fin 1) (Flt.add f (.fin 1) (Flt.add f (.fin 0) (L.exp η)))] := rfl
    rw [hunf, he]
    exact ⟨_, rfl⟩
  · have hunf : (ExponentialFamily.fromNatural [Flt.fin η] : Except Panic (Poisson (Flt f L))) =
        Poisson.new (F := Flt f L) (L.exp η) := rfl
    rw [hunf, he]
    rfl

example : f64.Representable 800 ∧ (2 : ℝ) ^ (f64.emax + 1) ≤ Real.exp ((800 : ℚ) : ℝ) := by
  refine ⟨?_, ?_⟩
  · have := Std.rep_of (f := f64) (.inl rfl) 800 0 (by norm_num) (by norm_num) (by norm_num)
    simpa using this
  · have h1 : Real.exp ((800 : ℚ) : ℝ) = (Real.exp 1 ^ 8) ^ 100 := by
      rw [← pow_mul, ← Real.exp_nat_mul]; norm_num
    have h2 : (2 : ℝ) ^ 11 ≤ Real.exp 1 ^ 8 := by
      have h3 : (2.7 : ℝ) ≤ Real.exp 1 := by have := Real.exp_one_gt_d9; linarith
      calc (2 : ℝ) ^ 11 ≤ 2.7 ^ 8 := by norm_num
        _ ≤ _ := by gcongr
    rw [h1]
    calc (2 : ℝ) ^ (f64.emax + 1) ≤ 2 ^ (1100 : ℤ) := zpow_le_zpow_right₀ (by norm_num) (by decide)
      _ = (2 ^ 11) ^ 100 := by rw [← pow_mul, ← zpow_natCast]; rfl
      _ ≤ _ := by gcongr

/-! ### the uniform categorical -/

/-- **C102**: `Categorical::uniform` succeeds in double precision for up to `2^16` categories. -/
theorem C102_uniform_partial (k : ℕ) (h1 : 1 ≤ k) (h2 : k ≤ 2 ^ 16) :
    ∃ p : ℚ, (Categorical.uniform k : Except Panic (Categorical (Flt f64 L))) =
        .ok ⟨List.replicate k (Flt.fin p)⟩ ∧ |(p : ℝ) - 1 / k| ≤ 2 * f64.u / k := by
  have hf : f64.Std := .inl rfl
  obtain ⟨w, s, hw, hrep, hwe, hs, hs1⟩ := uniform_weights (L := L) k h1 h2
  refine ⟨w, ?_, hwe⟩
  have hk : (0 : ℝ) < k := by exact_mod_cast h1
  have hw0 : 0 ≤ w := by
    have hu : f64.u = 1 / 2 ^ 53 := rfl
    have h3 := (abs_le.mp hwe).1
    have h4 : 2 * f64.u / k ≤ 1 / k := by
      rw [hu]; gcongr; norm_num
    have : (0 : ℝ) ≤ w := by linarith
    exact_mod_cast this
  unfold Categorical.uniform
  rw [if_pos (show k > 0 from h1), hw, show List.replicate k (Flt.fin (f := f64) (L := L) w) = (List.replicate k w).map Flt.fin by
    simp]
  refine categorical_accepts hf ?_ ?_ ?_ hs1
  · intro hc
    have := congrArg List.length hc
    simp at this; omega
  · intro p hp; rw [List.eq_of_mem_replicate hp]; exact hw0
  · rw [List.map_replicate]; exact hs

example : (1 : ℕ) ≤ 3 ∧ 3 ≤ 2 ^ 16 := by decide

/-- **C102 violated**: in single precision `Categorical::uniform(10)` panics. -/
theorem C102_uniform_violated :
    ∃ e, (Categorical.uniform 10 : Except Panic (Categorical (Flt f32 L))) = .error e := by
  unfold Categorical.uniform
  rw [if_pos (by norm_num), r32_div10, categorical_new_flt]
  have e1 : (List.replicate 10 (Flt.fin (f := f32) (L := L) (13421773/134217728))).foldl (Flt.add f32) (.fin 0) =
      .fin (8388609/8388608) := r32_fold
  obtain ⟨t, ht, -, ht2⟩ := round_tol (f := f32) (.inr rfl)
  rw [e1, sub_fin, r32_minus_one, ht]
  split_ifs with h1 h2 h3
  · exact ⟨_, rfl⟩
  · exact ⟨_, rfl⟩
  · exfalso
    simp only [Flt.abs, Flt.lt, decide_eq_true_eq] at h3
    have h4 : ((|1/8388608| : ℚ) : ℝ) < t := by exact_mod_cast h3
    rw [abs_of_pos (by norm_num)] at h4
    norm_num at h4 ht2
    linarith
  · exact ⟨_, rfl⟩

/-- **C102**: the probabilities of every categorical distribution the constructor accepts are finite,
not negative and add up to one, up to the tolerance `1e-10` and the rounding of the sum. -/
theorem C102_accepted (hf : f.Std) {ps : List (Flt f L)} {d : Categorical (Flt f L)}
    (hv : ∀ p ∈ ps, f.Valid p) (h : Categorical.new ps = .ok d) :
    d.probs = ps ∧ ps ≠ [] ∧
    ∃ qs : List ℚ, ps = qs.map Flt.fin ∧ (∀ q ∈ qs, 0 ≤ q) ∧
      |(qs.map fun q : ℚ => (q : ℝ)).sum - 1| ≤ 1.01 / 10 ^ 10 +
        ((1 + f.u) ^ qs.length - 1) * (qs.map fun q : ℚ => (q : ℝ)).sum := by
  rw [categorical_new_flt] at h
  split_ifs at h with h1 h2 h3
  obtain rfl := Except.ok.inj h
  obtain ⟨qs, hq, hs⟩ := tol_passed hf hv h3
  have h0 : ∀ q ∈ qs, 0 ≤ q := by
    intro q hq'
    rw [Bool.not_eq_true, Bool.not_eq_false', List.all_eq_true] at h2
    have := h2 (Flt.fin q) (by rw [hq]; exact List.mem_map.mpr ⟨q, hq', rfl⟩)
    exact of_decide_eq_true this
  refine ⟨rfl, ?_, qs, hq, h0, ?_⟩
  · intro hc; rw [hc] at h1; simp at h1
  · have e : (qs.map fun q : ℚ => |(q : ℝ)|) = qs.map fun q : ℚ => (q : ℝ) := by
      refine List.map_congr_left fun q hq' => abs_of_nonneg ?_
      exact_mod_cast h0 q hq'
    rw [e] at hs
    exact hs

/-! ### normal -/

/-- the square root of an approximate number -/
theorem sqrt_near (hf : f.Std) (hS : L.SqrtAccurate f) {k : ℝ} {a : ℚ} {x : ℝ} (hx : 0 < x)
    (ha : Near f k a x x) (hk0 : 0 ≤ k) (hk : k ≤ 1000) :
    ∃ r : ℚ, Flt.sqrt L (.fin a) = .fin r ∧ 0 < r ∧ Near f (k + 3) r √x √x := by
  have hu := u_pos f
  have hul := hf.u_le
  norm_num at hul
  have hku : k * f.u ≤ 1/1000 := by nlinarith
  have he := ha.err
  have hab := abs_le.mp he
  have hax : (0 : ℝ) < a := by nlinarith
  have ha0 : 0 < a := by exact_mod_cast hax
  obtain ⟨r, hr, hrr, hre⟩ := hS a ha0.le ha.rep
  have hsx := Real.sqrt_pos.mpr hx
  have hsa := Real.sqrt_pos.mpr hax
  -- `|√a - √x| = |a - x| / (√a + √x)`
  have h1 : |√(a : ℝ) - √x| ≤ k * f.u * √x := by
    have e1 : (√(a : ℝ) - √x) * (√(a : ℝ) + √x) = a - x := by
      have := Real.mul_self_sqrt hax.le
      have := Real.mul_self_sqrt hx.le
      nlinarith
    have e2 : |√(a : ℝ) - √x| * (√(a : ℝ) + √x) = |(a : ℝ) - x| := by
      rw [← e1, abs_mul, abs_of_pos (by positivity : 0 < √(a : ℝ) + √x)]
    have e3 : |√(a : ℝ) - √x| * √x ≤ k * f.u * √x * √x := by
      have h3 : |√(a : ℝ) - √x| * √x ≤ |(a : ℝ) - x| := by
        rw [← e2]; gcongr; linarith
      have h4 := Real.mul_self_sqrt hx.le
      rw [mul_assoc, h4]
      linarith
    exact le_of_mul_le_mul_right e3 hsx
  have h2 := (abs_le.mp h1).2
  have h3 : k * f.u * √x ≤ 1/1000 * √x := by gcongr
  have h4 : |(r : ℝ) - √x| ≤ (k + 3) * f.u * √x := by
    have h5 := abs_sub_le (r : ℝ) √(a : ℝ) √x
    have h6 : 2 * f.u * √(a : ℝ) ≤ 2 * f.u * (√x + 1/1000 * √x) := by
      gcongr; linarith
    have : 0 ≤ f.u * √x := by positivity
    nlinarith
  have h5 := (abs_le.mp h4).1
  have h6 : (k + 3) * f.u * √x ≤ 1/2 * √x := by gcongr; nlinarith
  refine ⟨r, ?_, ?_, hrr, by rw [abs_of_pos hsx], h4⟩
  · show (if 0 ≤ a then L.sqrt a else .nan) = _
    rw [if_pos ha0.le, hr]
  · have : (0 : ℝ) < r := by linarith
    exact_mod_cast this

/-- the variance `-1/(2η)` -/
theorem variance_near (hf : f.Std) {η₂ : ℚ} (h₂ : f.Representable η₂) (hlo : 1 / 2 ^ 59 ≤ -(η₂ : ℝ))
    (hhi : -(η₂ : ℝ) ≤ 2 ^ 59) :
    ∃ v : ℚ, Flt.neg (Flt.div f (.fin 1) (Flt.mul f (f.round 2) (.fin η₂))) = .fin v ∧
      Near f 14 v (-1 / (2 * η₂)) (-1 / (2 * η₂)) := by
  have h2r : f.round 2 = .fin 2 := f.round_exact hf.rep_two
  have hneg : (0 : ℝ) < -(η₂ : ℝ) := lt_of_lt_of_le (by norm_num) hlo
  have h0 : (0 : ℝ) < 2 * -(η₂ : ℝ) := by linarith
  have a2 : App f 0 (.fin 2) ((2 : ℚ) : ℝ) ((2 : ℚ) : ℝ) := App.pos (by norm_num) hf.rep_two
  have aη : App f 0 (.fin (-η₂)) ((-η₂ : ℚ) : ℝ) ((-η₂ : ℚ) : ℝ) :=
    App.pos (by exact_mod_cast hneg) (rep_neg h₂)
  have a1 : App f 0 (.fin 1) ((1 : ℚ) : ℝ) ((1 : ℚ) : ℝ) := App.pos (by norm_num) hf.rep_one
  push_cast at a2 aη a1
  have am := App.mul_rel hf a2 aη le_rfl le_rfl (m := 4) (by norm_num) (by norm_num)
    (u_cube_le_tiny hf (by norm_num at hlo ⊢; linarith)) (by norm_num at hhi ⊢; linarith)
  have ad := App.div_rel hf a1 am h0 le_rfl (by norm_num) (m := 14) (by norm_num) (by norm_num)
    (u_cube_le_tiny hf (by
      rw [div_le_div_iff₀ (by norm_num) h0]; norm_num at hhi ⊢; linarith)) (by
      rw [div_le_iff₀ h0]; norm_num at hlo ⊢; linarith)
  obtain ⟨v, hv, hn⟩ := ad
  have e : (1 : ℝ) / (2 * -(η₂ : ℝ)) = -1 / (2 * η₂) := by
    rw [mul_neg, div_neg, neg_div]
  rw [e] at hn
  refine ⟨v, ?_, hn⟩
  rw [h2r, ← hv]
  have e1 : Flt.mul f (.fin 2) (.fin (-η₂)) = Flt.neg (Flt.mul f (.fin 2) (.fin η₂)) := by
    show f.round (2 * -η₂) = Flt.neg (f.round (2 * η₂))
    rw [mul_neg, round_neg]
  rw [e1]
  obtain ⟨m, hm, hmn⟩ := am
  rw [e1] at hm
  cases hx : Flt.mul f (.fin 2) (.fin η₂) with
  | nan => rw [hx] at hm; simp [Flt.neg] at hm
  | inf => rw [hx] at hm; simp [Flt.neg] at hm
  | fin q =>
    rw [hx] at hm
    simp only [Flt.neg, FVal.fin.injEq] at hm
    have hm0 : m ≠ 0 := by
      intro hc
      have := hmn.err
      rw [hc] at this
      push_cast at this
      rw [zero_sub, abs_neg, abs_of_pos h0] at this
      have hul := hf.u_le
      norm_num at hul
      nlinarith
    have hq0 : q ≠ 0 := by intro hc; apply hm0; rw [← hm, hc]; simp
    simp only [Flt.neg, Flt.div]
    rw [if_neg hq0, if_neg (by simpa using hq0), div_neg, round_neg]
    rfl

/-- **C102**: a normal distribution is built from natural parameters `η₁, η₂ < 0` of moderate size;
its standard deviation is within 17 units of `√(-1/(2η₂))` and its mean within 16 of `-η₁/(2η₂)`. -/
theorem C102_normal_partial (hf : f.Std) (hS : L.SqrtAccurate f) {η₁ η₂ : ℚ}
    (h₂ : f.Representable η₂) (hlo : 1 / 2 ^ 59 ≤ -(η₂ : ℝ)) (hhi : -(η₂ : ℝ) ≤ 2 ^ 59)
    (hB : |-η₁ / (2 * (η₂ : ℝ))| ≤ 2 ^ 97) :
    ∃ μ σ : ℚ, (ExponentialFamily.fromNatural [Flt.fin η₁, Flt.fin η₂] :
        Except Panic (Normal (Flt f L))) = .ok ⟨Flt.fin μ, Flt.fin σ⟩ ∧ 0 < σ ∧
      |(σ : ℝ) - √(-1 / (2 * η₂))| ≤ 17 * f.u * √(-1 / (2 * η₂)) ∧
      |(μ : ℝ) - -η₁ / (2 * η₂)| ≤ 16 * f.u * |-η₁ / (2 * (η₂ : ℝ))| + 2 ^ f.emin := by
  have hu := u_pos f
  have hul := hf.u_le
  norm_num at hul
  have hneg : (0 : ℝ) < -(η₂ : ℝ) := lt_of_lt_of_le (by norm_num) hlo
  obtain ⟨v, hv, hn⟩ := variance_near hf h₂ hlo hhi
  have hx : (0 : ℝ) < -1 / (2 * η₂) := by
    rw [neg_div, ← div_neg, ← mul_neg]; positivity
  have hxle : -1 / (2 * (η₂ : ℝ)) ≤ 2 ^ 58 := by
    rw [neg_div, ← div_neg, ← mul_neg, div_le_iff₀ (by linarith)]
    norm_num at hlo ⊢; linarith
  obtain ⟨σ, hσ, hσ0, hσn⟩ := sqrt_near hf hS hx hn (by norm_num) (by norm_num)
  set x := -1 / (2 * (η₂ : ℝ)) with hxdef
  have hve := hn.err
  have hvab := abs_le.mp hve
  have hvx : 14 * f.u * x ≤ 1/1000 * x := by gcongr; linarith
  have hv0 : (0 : ℝ) < v := by linarith
  -- the mean
  have hsz : |((η₁ * v : ℚ) : ℝ)| ≤ 2 ^ (100 : ℤ) := by
    push_cast
    rw [abs_mul, abs_of_pos hv0]
    have e : -(η₁ : ℝ) / (2 * η₂) = η₁ * x := by rw [hxdef]; ring
    rw [e, abs_mul, abs_of_pos hx] at hB
    calc |(η₁ : ℝ)| * v ≤ |(η₁ : ℝ)| * (2 * x) := by gcongr; linarith
      _ = 2 * (|(η₁ : ℝ)| * x) := by ring
      _ ≤ 2 * 2 ^ 97 := by linarith
      _ ≤ _ := by norm_num
  obtain ⟨μ, hμ⟩ := round_small hf (q := η₁ * v) (rat_le hsz)
  obtain ⟨-, hμe⟩ := near_round hf hμ
  push_cast at hμe
  refine ⟨μ, σ, ?_, hσ0, ?_, ?_⟩
  · have hunf : (ExponentialFamily.fromNatural [Flt.fin η₁, Flt.fin η₂] : Except Panic (Normal (Flt f L))) =
        Normal.new (F := Flt f L)
          (Flt.mul f (.fin η₁) (Flt.neg (Flt.div f (.fin 1) (Flt.mul f (f.round 2) (.fin η₂)))))
          (Flt.sqrt L (Flt.neg (Flt.div f (.fin 1) (Flt.mul f (f.round 2) (.fin η₂))))) := rfl
    rw [hunf, hv, hσ, show Flt.mul f (.fin η₁) (.fin v) = f.round (η₁ * v) from rfl, hμ]
    show (if decide (0 < σ) = true then _ else _) = _
    rw [if_pos (by simpa using hσ0)]
  · have := hσn.err
    norm_num at this ⊢
    exact this
  · have e : -(η₁ : ℝ) / (2 * η₂) = η₁ * x := by rw [hxdef]; ring
    rw [e, abs_mul, abs_of_pos hx]
    have h1 := abs_sub_le (μ : ℝ) (η₁ * v) (η₁ * x)
    rw [← mul_sub, abs_mul] at h1
    have h2 : |(η₁ : ℝ)| * |(v : ℝ) - x| ≤ |(η₁ : ℝ)| * (14 * f.u * x) := by gcongr
    rw [abs_mul, abs_of_pos hv0] at hμe
    have h3 : f.u * (|(η₁ : ℝ)| * v) ≤ f.u * (|(η₁ : ℝ)| * (2 * x)) := by gcongr; linarith
    linarith

/-- the square root of a number of the format, rounded -/
theorem libm_sqrt (hf : f.Std) (q : ℚ) (h0 : 0 ≤ q) (hr : f.Representable q) :
    ∃ r : ℚ, f.Representable r ∧ |(r : ℝ) - √(q : ℝ)| ≤ 2 * f.u * √(q : ℝ) := by
  have hu := u_pos f
  rcases h0.eq_or_lt with rfl | h0
  · exact ⟨0, f.rep_zero, by simp⟩
  have hq : (0 : ℝ) < q := by exact_mod_cast h0
  have hs := Real.sqrt_pos.mpr hq
  have hmax : √(q : ℝ) ≤ 2 ^ (f.emax - 1) := by
    rw [Real.sqrt_le_left (by positivity), ← zpow_natCast, ← zpow_mul]
    have h1 := rep_le_max hf hr
    rw [abs_of_pos h0] at h1
    have h2 : (0 : ℚ) < 2 ^ (f.emax - f.prec) := by positivity
    have h3 : q ≤ 2 ^ f.emax := by linarith
    have h4 : (q : ℝ) ≤ 2 ^ f.emax := by rw [← cast_zpow]; exact_mod_cast h3
    refine h4.trans (zpow_le_zpow_right₀ (by norm_num) ?_)
    have := hf.emax_ge; push_cast; omega
  obtain ⟨r, hrr, he⟩ := exists_near hf hs hmax
  refine ⟨r, hrr, he.trans ?_⟩
  have hmin : (2 : ℝ) ^ f.emin ≤ q := by
    obtain ⟨k, rfl⟩ := hr.multiple
    have h2 : (0 : ℚ) < 2 ^ f.emin := by positivity
    have hk : 0 < k := by
      have : (0 : ℚ) < k := by
        by_contra hc
        rw [not_lt] at hc
        have := mul_nonpos_of_nonpos_of_nonneg hc h2.le
        linarith
      exact_mod_cast this
    have h3 : (1 : ℝ) ≤ k := by exact_mod_cast hk
    push_cast
    have h4 : (0 : ℝ) < 2 ^ f.emin := by positivity
    nlinarith
  -- `2^emin ≤ √(2^emin) · u²`
  have h5 : √((2 : ℝ) ^ f.emin) ≤ √(q : ℝ) := Real.sqrt_le_sqrt hmin
  have h6 : √((2 : ℝ) ^ f.emin) ≤ f.u ^ 2 := by
    rw [Real.sqrt_le_left (by positivity)]
    refine hf.eta_le.trans (le_of_eq (by ring))
  have h7 : (2 : ℝ) ^ f.emin = √((2 : ℝ) ^ f.emin) * √((2 : ℝ) ^ f.emin) :=
    (Real.mul_self_sqrt (by positivity)).symm
  have h8 : √((2 : ℝ) ^ f.emin) * √((2 : ℝ) ^ f.emin) ≤ f.u ^ 2 * √(q : ℝ) :=
    mul_le_mul h6 h5 (Real.sqrt_nonneg _) (by positivity)
  have h9 : f.u ^ 2 * √(q : ℝ) ≤ (1/2 * f.u) * √(q : ℝ) := by
    gcongr
    have := hf.u_le
    norm_num at this
    nlinarith
  linarith

open Classical in
/-- There is an accurate library, square root included, for both formats. -/
theorem exists_libm_sqrt (hf : f.Std) : ∃ L : Libm, L.Accurate f ∧ L.SqrtAccurate f := by
  obtain ⟨L, hL⟩ := exists_libm hf
  let g : ℚ → FVal := fun q =>
    if h : 0 ≤ q ∧ f.Representable q then FVal.fin (libm_sqrt hf q h.1 h.2).choose else FVal.nan
  refine ⟨{ L with sqrt := g }, ⟨hL.ln, hL.exp⟩, ?_⟩
  intro q h0 hr
  have := (libm_sqrt hf q h0 hr).choose_spec
  exact ⟨_, dif_pos ⟨h0, hr⟩, this.1, this.2⟩

example : ∃ L : Libm, L.SqrtAccurate f64 ∧ f64.Representable (-2) ∧ (1 : ℝ) / 2 ^ 59 ≤ -((-2 : ℚ) : ℝ) ∧
    -((-2 : ℚ) : ℝ) ≤ 2 ^ 59 ∧ |-((3 : ℚ) : ℝ) / (2 * ((-2 : ℚ) : ℝ))| ≤ 2 ^ 97 := by
  obtain ⟨L, -, hL⟩ := exists_libm_sqrt (f := f64) (.inl rfl)
  refine ⟨L, hL, rep_neg (Std.rep_two (.inl rfl)), by norm_num, by norm_num, by norm_num⟩

/-! The hypotheses of the theorems on categorical, Bernoulli, gamma, beta and chi-squared
distributions, at concrete parameters. -/

example : ∃ L : Libm, L.Accurate f64 ∧ (∀ q ∈ ([1, -1] : List ℚ), f64.Representable q) ∧
    ([1, -1] : List ℚ).length ≤ 2 ^ 16 ∧
    (([1, -1] : List ℚ).map fun q : ℚ => Real.exp q).sum ≤ 2 ^ 1000 := by
  obtain ⟨L, hL⟩ := exists_libm (f := f64) (.inl rfl)
  have hf : f64.Std := .inl rfl
  refine ⟨L, hL, ?_, by simp, ?_⟩
  · simp only [List.mem_cons, List.not_mem_nil, or_false]
    rintro q (rfl | rfl)
    · exact hf.rep_one
    · exact rep_neg hf.rep_one
  · have h1 := Real.exp_one_lt_d9
    have h2 : Real.exp (-1) ≤ 1 := Real.exp_le_one_iff.mpr (by norm_num)
    have h3 : (2 : ℝ) ^ 3 ≤ 2 ^ 1000 := pow_le_pow_right₀ (by norm_num) (by norm_num)
    refine le_trans ?_ h3
    simp only [List.map_cons, List.map_nil, List.sum_cons, List.sum_nil]
    push_cast
    norm_num1
    linarith

example : f64.Representable (-3) ∧ Real.exp ((-3 : ℚ) : ℝ) ≤ 2 ^ (f64.emax - 5) := by
  have hf : f64.Std := .inl rfl
  refine ⟨?_, ?_⟩
  · have := hf.rep_of (-3) 0 (by norm_num) (by norm_num) (by norm_num)
    simpa using this
  · have h2 : Real.exp ((-3 : ℚ) : ℝ) ≤ 1 := Real.exp_le_one_iff.mpr (by norm_num)
    exact h2.trans (one_le_zpow₀ (by norm_num) (by decide))

example : f64.Representable (1/2) ∧ -1 < (1/2 : ℚ) ∧ (-3 : ℚ) < 0 ∧ |((1/2 : ℚ) : ℝ)| ≤ 2 ^ 90 :=
  ⟨Std.rep_half (.inl rfl), by norm_num, by norm_num, by norm_num [abs_of_pos]⟩

/-- a categorical distribution that is accepted -/
example : (∀ p ∈ ([Flt.fin 1] : List (Flt f64 L)), f64.Valid p) ∧
    ∃ d, (Categorical.new [Flt.fin 1] : Except Panic (Categorical (Flt f64 L))) = .ok d := by
  have hf : f64.Std := .inl rfl
  refine ⟨?_, _, categorical_accepts hf (ps := [1]) (s := 1) (by simp) (by simp) ?_ (by norm_num)⟩
  · intro p hp
    rw [List.mem_singleton.mp hp]
    exact hf.rep_one
  · simp only [List.map_cons, List.map_nil, List.foldl_cons, List.foldl_nil]
    exact zero_add_rep hf.rep_one

end Verif
