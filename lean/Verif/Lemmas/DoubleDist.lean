import Verif.Lemmas.Near

/-! Building blocks for floating-point densities. -/

namespace Verif
open Format

variable {f : Format} {L : Libm}

theorem cast_zpow (k : ℤ) : ((2 ^ k : ℚ) : ℝ) = 2 ^ k := by push_cast; rfl

theorem real_lt {q : ℚ} {k : ℤ} (h : 2 ^ k < |q|) : (2 : ℝ) ^ k < |(q : ℝ)| := by
  rw [← cast_zpow, ← Rat.cast_abs]; exact Rat.cast_lt.mpr h

theorem real_le {q : ℚ} {k : ℤ} (h : |q| ≤ 2 ^ k) : |(q : ℝ)| ≤ (2 : ℝ) ^ k := by
  rw [← cast_zpow, ← Rat.cast_abs]; exact Rat.cast_le.mpr h

theorem rat_le {q : ℚ} {k : ℤ} (h : |(q : ℝ)| ≤ (2 : ℝ) ^ k) : |q| ≤ 2 ^ k := by
  rw [← cast_zpow, ← Rat.cast_abs] at h; exact Rat.cast_le.mp h

theorem u_ge (hf : f.Std) : 1 / 2 ^ 53 ≤ f.u := by
  unfold Format.u
  exact one_div_le_one_div_of_le (by positivity) (pow_le_pow_right₀ (by norm_num) hf.prec_le)

theorem prec1 (hf : f.Std) : 1 ≤ f.prec := by have := hf.prec_ge; omega
theorem emin_lt_emax (hf : f.Std) : f.emin < f.emax := by
  have := hf.emin_le; have := hf.emax_ge; omega

/-- numbers below `2^100` do not overflow -/
theorem round_small (hf : f.Std) {q : ℚ} (h : |q| ≤ 2 ^ (100 : ℤ)) : ∃ r, f.round q = .fin r := by
  obtain ⟨r, hr, -⟩ := f.round_le (prec1 hf) h (by have := hf.emin_le; omega)
    (by have := hf.emax_ge; omega)
  exact ⟨r, hr⟩

theorem round_half (hf : f.Std) : f.round (1/2) = .fin (1/2) := f.round_exact hf.rep_half
theorem round_two (hf : f.Std) : f.round 2 = .fin 2 := f.round_exact hf.rep_two
theorem round_one (hf : f.Std) : f.round 1 = .fin 1 := f.round_exact hf.rep_one

theorem pi_lit : |(Flt.piLit : ℝ) - Real.pi| ≤ 1 / 2 ^ 60 := by
  have h1 := Real.pi_gt_d20
  have h2 := Real.pi_lt_d20
  have h3 : ((Flt.piLit : ℚ) : ℝ) = 3.14159265358979323846264338327950288 := by
    unfold Flt.piLit; norm_num
  rw [h3, abs_le]
  constructor <;> norm_num at h1 h2 ⊢ <;> linarith

theorem pi_lit_bounds : 3 ≤ Flt.piLit ∧ Flt.piLit ≤ 4 := by
  unfold Flt.piLit; constructor <;> norm_num

theorem near_pi (hf : f.Std) : ∃ p, f.round Flt.piLit = .fin p ∧ Near f 4 p Real.pi Real.pi := by
  obtain ⟨b1, b2⟩ := pi_lit_bounds
  obtain ⟨p, hp⟩ := round_small hf (q := Flt.piLit) (by
    rw [abs_of_nonneg (by linarith)]; exact b2.trans (by norm_num))
  refine ⟨p, hp, ?_⟩
  obtain ⟨hr, he⟩ := near_round hf hp
  have hu := u_pos f
  have hul := hf.u_le
  have hug := u_ge hf
  have hη := hf.eta_le
  have hpi := Real.pi_gt_three
  have hpi4 := Real.pi_le_four
  refine ⟨hr, by rw [abs_of_pos (by linarith)], ?_⟩
  have e : (p : ℝ) - Real.pi = ((p : ℝ) - Flt.piLit) + ((Flt.piLit : ℝ) - Real.pi) := by ring
  rw [e]
  have b1' : (3 : ℝ) ≤ Flt.piLit := by exact_mod_cast b1
  have b2' : (Flt.piLit : ℝ) ≤ 4 := by exact_mod_cast b2
  rw [abs_of_nonneg (by linarith : (0:ℝ) ≤ Flt.piLit)] at he
  have h1 := abs_add_le ((p : ℝ) - Flt.piLit) ((Flt.piLit : ℝ) - Real.pi)
  have h2 := pi_lit
  have h3 : f.u ^ 4 ≤ f.u := by
    have : f.u ^ 4 ≤ f.u ^ 1 := pow_le_pow_of_le_one hu.le (by linarith [show (1:ℝ)/2^24 ≤ 1 by norm_num]) (by norm_num)
    simpa using this
  have h4 : f.u * (Flt.piLit : ℝ) ≤ f.u * 4 := by gcongr
  have h5 : (1 : ℝ) / 2 ^ 60 ≤ f.u := le_trans (by norm_num) hug
  nlinarith

/-- `2π` -/
theorem near_two_pi (hf : f.Std) : ∃ p, Flt.mul f (f.round 2) (f.round Flt.piLit) = .fin p ∧
    Near f 8 p (2 * Real.pi) (2 * Real.pi) := by
  obtain ⟨p, hp, hn⟩ := near_pi hf
  have hsz := hn.size hf (by norm_num)
  have hpi := Real.pi_gt_three
  have hpi4 := Real.pi_le_four
  have hpq : |p| ≤ 8 := by
    have : |(p : ℝ)| ≤ 8 := by linarith
    exact_mod_cast this
  obtain ⟨r, hr⟩ := round_small hf (q := 2 * p) (by
    rw [abs_mul]; norm_num; linarith)
  rw [hp, round_two hf]
  refine ⟨r, hr, ?_⟩
  have h2 : Near f 0 2 2 2 := by
    have := Near.exact hf.rep_two; simpa using this
  have := Near.mul hf h2 hn le_rfl (by norm_num) (by norm_num) (by norm_num) (by
    have hu := u_pos f
    have hul := hf.u_le
    have : f.u ^ 3 ≤ 1 := pow_le_one₀ hu.le (hul.trans (by norm_num))
    linarith) hr
  exact this.mono (by norm_num) le_rfl (by norm_num)

theorem log_two_pi_bounds : 0 ≤ Real.log (2 * Real.pi) ∧ Real.log (2 * Real.pi) ≤ 5/2 := by
  have hpi := Real.pi_gt_three
  have hpi4 := Real.pi_le_four
  constructor
  · exact Real.log_nonneg (by linarith)
  · have h1 : Real.log (2 * Real.pi) ≤ Real.log (2 ^ 3) :=
      Real.log_le_log (by linarith) (by norm_num; linarith)
    rw [Real.log_pow] at h1
    have := Real.log_two_lt_d9
    norm_num at h1 ⊢
    linarith

theorem u_cube_le (hf : f.Std) {x : ℝ} (h : 1/1000 ≤ x) : f.u ^ 3 ≤ x := by
  have hu := u_pos f
  have hul := hf.u_le
  have : f.u ^ 3 ≤ f.u := by
    have : f.u ^ 3 ≤ f.u ^ 1 := pow_le_pow_of_le_one hu.le (hul.trans (by norm_num)) (by norm_num)
    simpa using this
  have h2 : (1 : ℝ) / 2 ^ 24 ≤ 1/1000 := by norm_num
  linarith

/-- the constant `-½ ln 2π` -/
theorem near_const (hf : f.Std) (hL : L.Accurate f) :
    ∃ c, Flt.mul f (Flt.neg (f.round (1/2))) (Flt.ln L (Flt.mul f (f.round 2) (f.round Flt.piLit)))
        = .fin c ∧ Near f 24 c (-(1/2) * Real.log (2 * Real.pi)) (1/2 * (1 + Real.log (2 * Real.pi))) := by
  obtain ⟨p, hp, hn⟩ := near_two_pi hf
  have hpi := Real.pi_pos
  obtain ⟨l, hl, hln⟩ := Near.ln hf hL hn (by positivity) (by norm_num) (by norm_num)
  obtain ⟨b0, b4⟩ := log_two_pi_bounds
  rw [abs_of_nonneg b0] at hln
  have hsz := hln.size hf (by norm_num)
  have hlq : |l| ≤ 10 := by
    have : |(l : ℝ)| ≤ 10 := by linarith
    exact_mod_cast this
  obtain ⟨r, hr⟩ := round_small hf (q := -(1/2) * l) (by
    rw [abs_mul]; norm_num; linarith)
  rw [hp, hl, round_half hf]
  refine ⟨r, hr, ?_⟩
  have h2 : Near f 0 (-(1/2)) (-(1/2)) (1/2) := by
    have := (Near.exact hf.rep_half).neg
    norm_num at this ⊢
    exact this
  have := Near.mul hf h2 hln le_rfl (by norm_num) (by norm_num) (by norm_num)
    (u_cube_le hf (by linarith)) hr
  exact this.mono (by norm_num) le_rfl (by norm_num)

/-- logarithms of numbers of the format are moderate -/
theorem log_rep_le (hf : f.Std) {q : ℚ} (h0 : 0 < q) (h : f.Representable q) :
    |Real.log q| ≤ 1100 := by
  have h0' : (0 : ℝ) < q := by exact_mod_cast h0
  have hl2 := Real.log_two_lt_d9
  have hl2' : 0 < Real.log 2 := Real.log_pos (by norm_num)
  obtain ⟨k, hk⟩ := h.multiple
  have hk1 : 1 ≤ k := by
    by_contra hc
    have : (k : ℚ) ≤ 0 := by exact_mod_cast (by omega : k ≤ 0)
    have : (k : ℚ) * 2 ^ f.emin ≤ 0 := mul_nonpos_of_nonpos_of_nonneg this (by positivity)
    linarith
  have hlo : (2 : ℚ) ^ f.emin ≤ q := by
    rw [hk]
    have : (1 : ℚ) ≤ k := by exact_mod_cast hk1
    have h2 : (0 : ℚ) < 2 ^ f.emin := by positivity
    nlinarith
  have hhi : q < 2 ^ f.emax := by
    have := h.2; rwa [abs_of_pos h0] at this
  have hlo' : (2 : ℝ) ^ f.emin ≤ q := by
    rw [← cast_zpow]; exact Rat.cast_le.mpr hlo
  have hhi' : (q : ℝ) ≤ 2 ^ f.emax := by
    rw [← cast_zpow]; exact Rat.cast_le.mpr hhi.le
  have h1 := Real.log_le_log (by positivity) hlo'
  have h2 := Real.log_le_log h0' hhi'
  rw [Real.log_zpow] at h1 h2
  have h3 : (-1074 : ℝ) ≤ f.emin := by exact_mod_cast hf.emin_ge
  have h4 : (f.emax : ℝ) ≤ 1024 := by exact_mod_cast hf.emax_le
  rw [abs_le]
  constructor
  · nlinarith
  · nlinarith

/-- `ln` of a positive number of the format -/
theorem near_ln_rep (hf : f.Std) (hL : L.Accurate f) {q : ℚ} (h0 : 0 < q) (h : f.Representable q) :
    ∃ r, Flt.ln L (.fin q) = .fin r ∧ Near f 2 r (Real.log q) |Real.log q| ∧ |(r : ℝ)| ≤ 2200 := by
  obtain ⟨r, hr, hrep, he⟩ := hL.ln q h0 h
  have hn : Near f 2 r (Real.log q) |Real.log q| := ⟨hrep, le_rfl, he⟩
  refine ⟨r, by simp only [Flt.ln, if_pos h0, hr], hn, ?_⟩
  have := hn.size hf (by norm_num)
  have := log_rep_le hf h0 h
  linarith

theorem sub_fin (a b : ℚ) : Flt.sub f (.fin a) (.fin b) = f.round (a - b) := by
  rw [sub_eq_add_neg]; rfl

theorem sub_cases (a b : ℚ) :
    (∃ r, Flt.sub f (.fin a) (.fin b) = .fin r) ∨ Flt.sub f (.fin a) (.fin b) = .inf (decide (a < b)) := by
  rw [sub_fin]
  rcases f.round_cases (a - b) with h | h
  · exact .inl h
  · right; rw [h]; congr 1; simp

theorem Near.rescale {k c : ℝ} {a : ℚ} {x X X' : ℝ} (h : Near f k a x X) (hk : 0 ≤ k)
    (hX : X ≤ c * X') (hx : |x| ≤ X') : Near f (k * c) a x X' := by
  refine ⟨h.rep, hx, h.err.trans ?_⟩
  have hu := u_pos f
  calc k * f.u * X ≤ k * f.u * (c * X') := by gcongr
    _ = _ := by ring

/-- the difference of two numbers of the format, divided by a positive one -/
theorem score (hf : f.Std) {μ σ x : ℚ} (hμ : f.Representable μ)
    (hx : f.Representable x) (hσ0 : 0 < σ) :
    (∃ z, Flt.div f (Flt.sub f (.fin x) (.fin μ)) (.fin σ) = .fin z ∧
      Near f 5 z (((x : ℝ) - μ) / σ) (|((x : ℝ) - μ) / σ| + f.u)) ∨
    (∃ b, Flt.div f (Flt.sub f (.fin x) (.fin μ)) (.fin σ) = .inf b ∧
      ((2 : ℝ) ^ (f.emax - 1) < |(x : ℝ) - μ| ∨
        (2 : ℝ) ^ (f.emax - 2) < |((x : ℝ) - μ) / σ| + f.u)) := by
  have hu := u_pos f
  have hul := hf.u_le
  have hσR : (0 : ℝ) < σ := by exact_mod_cast hσ0
  have hlt := emin_lt_emax hf
  set z0 : ℝ := ((x : ℝ) - μ) / σ with hz0
  have hu3 : f.u ^ 3 ≤ f.u := by
    have : f.u ^ 3 ≤ f.u ^ 1 := pow_le_pow_of_le_one hu.le (hul.trans (by norm_num)) (by norm_num)
    simpa using this
  have hZ1 : f.u ≤ |z0| + f.u := by have := abs_nonneg z0; linarith
  rcases sub_cases (f := f) x μ with ⟨s, hs⟩ | hs
  · have hd : Near f 2 s ((x : ℝ) - μ) (|(x : ℝ) - μ| + f.u * σ) := by
      rw [sub_fin] at hs
      rw [sub_eq_add_neg] at hs
      obtain ⟨hr, he⟩ := near_round_add hf hx (rep_neg hμ) hs
      push_cast at he
      rw [← sub_eq_add_neg] at he
      have h0 := abs_nonneg ((x : ℝ) - μ)
      refine ⟨hr, by nlinarith, he.trans ?_⟩
      have : 0 ≤ f.u * (f.u * σ) := by positivity
      nlinarith
    rw [hs]
    have hdiv : Flt.div f (.fin s) (.fin σ) = f.round (s / σ) := by
      simp only [Flt.div, if_neg hσ0.ne']
    have eZ : (|(x : ℝ) - μ| + f.u * σ) / σ = |z0| + f.u := by
      rw [hz0, abs_div, abs_of_pos hσR]; field_simp
    rcases f.round_cases (s / σ) with ⟨z, hz⟩ | hz
    · have hzn := Near.div hf hd hσ0 (by norm_num) (by rw [eZ]; linarith) (by rw [hdiv, hz])
      rw [← hz0, eZ] at hzn
      left
      exact ⟨z, by rw [hdiv, hz], hzn.mono (by norm_num) le_rfl (by norm_num)⟩
    · right
      rw [hdiv, hz]
      refine ⟨_, rfl, .inr ?_⟩
      have hover' := real_lt (f.round_inf (prec1 hf) hlt hz).1
      push_cast at hover'
      rw [abs_div, abs_of_pos hσR] at hover'
      have hssz := hd.size hf (by norm_num)
      have h1 : |(s : ℝ)| / σ ≤ 2 * (|z0| + f.u) := by
        rw [← eZ, ← mul_div_assoc]; gcongr
      have h2 : (2 : ℝ) ^ (f.emax - 1) = 2 * 2 ^ (f.emax - 2) := by
        rw [show f.emax - 1 = 1 + (f.emax - 2) by ring, zpow_add₀ (by norm_num)]; norm_num
      rw [h2] at hover'
      linarith
  · right
    rw [hs]
    have hover' := real_lt (f.round_inf (prec1 hf) hlt (by rw [← sub_fin]; exact hs)).1
    push_cast at hover'
    have hdiv : Flt.div f (.inf (decide (x < μ))) (.fin σ) = .inf (decide (x < μ)) := by
      simp [Flt.div, not_lt.mpr hσ0.le]
    rw [hdiv]
    exact ⟨_, rfl, .inl hover'⟩

/-- the square of a computed number -/
theorem near_square (hf : f.Std) {z : ℚ} {z0 : ℝ} (hz : Near f 5 z z0 (|z0| + f.u)) :
    (∃ q, Flt.mul f (.fin z) (.fin z) = .fin q ∧ 0 ≤ q ∧ Near f 14 q (z0 ^ 2) ((|z0| + f.u) ^ 2)) ∨
    (Flt.mul f (.fin z) (.fin z) = .inf false ∧ (2 : ℝ) ^ (f.emax - 3) < (|z0| + f.u) ^ 2) := by
  have hu := u_pos f
  have hul := hf.u_le
  have hm : Flt.mul f (.fin z) (.fin z) = f.round (z * z) := rfl
  have hZ1 : f.u ≤ |z0| + f.u := by have := abs_nonneg z0; linarith
  rcases f.round_cases (z * z) with ⟨q, hq⟩ | hq
  · left
    refine ⟨q, by rw [hm, hq], round_nonneg hq (mul_self_nonneg z), ?_⟩
    have := Near.mul hf hz hz (by norm_num) (by norm_num) (by norm_num) (by norm_num) (by
      have h1 : f.u ^ 3 ≤ f.u ^ 2 := pow_le_pow_of_le_one hu.le (hul.trans (by norm_num)) (by norm_num)
      have h2 : f.u ^ 2 ≤ (|z0| + f.u) ^ 2 := by gcongr
      nlinarith) (by rw [hm, hq])
    rw [← pow_two, ← pow_two] at this
    exact this.mono (by norm_num) le_rfl (by norm_num)
  · right
    have hd : decide (z * z < 0) = false := by simpa using mul_self_nonneg z
    refine ⟨by rw [hm, hq, hd], ?_⟩
    have hover' := real_lt (f.round_inf (prec1 hf) (emin_lt_emax hf) hq).1
    push_cast at hover'
    rw [abs_mul] at hover'
    have hsz := hz.size hf (by norm_num)
    have h1 : |(z : ℝ)| * |(z : ℝ)| ≤ (2 * (|z0| + f.u)) * (2 * (|z0| + f.u)) :=
      mul_le_mul hsz hsz (abs_nonneg _) (by positivity)
    have h2 : (2 : ℝ) ^ (f.emax - 1) = 4 * 2 ^ (f.emax - 3) := by
      rw [show f.emax - 1 = 2 + (f.emax - 3) by ring, zpow_add₀ (by norm_num)]; norm_num
    rw [h2] at hover'
    nlinarith

/-- from a magnitude with roundoff to the number itself -/
theorem square_big (hf : f.Std) {z0 : ℝ} (h : 3 * (2 : ℝ) ^ (f.emax - 5) ≤ (|z0| + f.u) ^ 2) :
    (2 : ℝ) ^ (f.emax - 5) < z0 ^ 2 := by
  have hu := u_pos f
  have hul := hf.u_le
  have hbig : (2 : ℝ) ^ (100 : ℤ) ≤ 2 ^ (f.emax - 5) :=
    zpow_le_zpow_right₀ (by norm_num) (by have := hf.emax_ge; omega)
  have h3 : (|z0| + f.u) ^ 2 ≤ 2 * z0 ^ 2 + 2 * f.u ^ 2 := by
    have := sq_abs z0
    nlinarith [sq_nonneg (|z0| - f.u)]
  have h4 : f.u ^ 2 ≤ 1 := by
    have : f.u ≤ 1 := hul.trans (by norm_num)
    nlinarith
  have h5 : (2 : ℝ) ^ (100 : ℤ) = 2 ^ 100 := by norm_cast
  rw [h5] at hbig
  norm_num at hbig
  nlinarith

theorem pow_split (e : ℤ) (k : ℕ) (j : ℤ) (h : j = e + k) : (2 : ℝ) ^ j = 2 ^ k * 2 ^ e := by
  rw [h, zpow_add₀ (by norm_num), zpow_natCast, mul_comm]

/-- `ln π` -/
theorem near_ln_pi (hf : f.Std) (hL : L.Accurate f) :
    ∃ c, Flt.ln L (f.round Flt.piLit) = .fin c ∧
      Near f 11 c (Real.log Real.pi) (1 + Real.log Real.pi) := by
  obtain ⟨p, hp, hn⟩ := near_pi hf
  obtain ⟨l, hl, hln⟩ := Near.ln hf hL hn Real.pi_pos (by norm_num) (by norm_num)
  rw [abs_of_nonneg (Real.log_nonneg (by linarith [Real.pi_gt_three]))] at hln
  exact ⟨l, by rw [hp, hl], hln.mono (by norm_num) le_rfl (by norm_num)⟩

theorem log_pi_bounds : 0 ≤ Real.log Real.pi ∧ Real.log Real.pi ≤ 7/5 := by
  have h3 := Real.pi_gt_three
  refine ⟨Real.log_nonneg (by linarith), ?_⟩
  have h1 : Real.log Real.pi ≤ Real.log (2 ^ 2) :=
    Real.log_le_log (by linarith) (by norm_num; exact Real.pi_le_four)
  rw [Real.log_pow] at h1
  have := Real.log_two_lt_d9
  norm_num at h1 ⊢
  linarith

/-- differences of moderate numbers do not overflow -/
theorem sub_small (hf : f.Std) {a b : ℚ} (ha : |(a : ℝ)| ≤ 10000) (hb : |(b : ℝ)| ≤ 10000) :
    ∃ r, Flt.sub f (.fin a) (.fin b) = .fin r := by
  rw [sub_fin]
  refine round_small hf (rat_le ?_)
  push_cast
  have := abs_sub (a : ℝ) b
  have h : (20000 : ℝ) ≤ 2 ^ (100 : ℤ) := by norm_num
  linarith

end Verif
