import Verif.Lemmas.DoubleDist
import Verif.Model.DistContinuous
import Mathlib.Probability.Distributions.Gaussian.Real
import Mathlib.Probability.Distributions.Exponential
import Mathlib.Probability.Distributions.Cauchy
import Verif.Lemmas.LibmExists

/-!
# C88–: densities computed in floating point
-/

namespace Verif
open Format FloatOps ProbabilityTheory

variable {f : Format} {L : Libm}

theorem Normal.new_flt {μ σ : ℚ} {d : Normal (Flt f L)}
    (h : Normal.new (Flt.fin μ) (Flt.fin σ) = .ok d) : 0 < σ ∧ d = ⟨Flt.fin μ, Flt.fin σ⟩ := by
  unfold Normal.new at h
  split_ifs at h with h1
  · refine ⟨?_, by cases h; rfl⟩
    have : decide ((0 : ℚ) < σ) = true := h1
    simpa using this

/-- what the density computes, as floating-point operations -/
theorem normal_flt (μ σ x : Flt f L) :
    (logDensityWrtRoot (⟨μ, σ⟩ : Normal (Flt f L)) x : Flt f L) =
      Flt.sub f (Flt.sub f (Flt.mul f (Flt.neg (f.round (1/2)))
          (Flt.ln L (Flt.mul f (f.round 2) (f.round Flt.piLit)))) (Flt.ln L σ))
        (Flt.mul f (Flt.mul f (f.round (1/2)) (Flt.div f (Flt.sub f x μ) σ))
          (Flt.div f (Flt.sub f x μ) σ)) := rfl

/-- the squared, halved standard score -/
theorem normal_quad (hf : f.Std) {μ σ x : ℚ} (hμ : f.Representable μ)
    (hx : f.Representable x) (hσ0 : 0 < σ) :
    (∃ q, Flt.mul f (Flt.mul f (f.round (1/2)) (Flt.div f (Flt.sub f (.fin x) (.fin μ)) (.fin σ)))
          (Flt.div f (Flt.sub f (.fin x) (.fin μ)) (.fin σ)) = .fin q ∧ 0 ≤ q ∧
        Near f 18 q ((((x : ℝ) - μ) / σ) ^ 2 / 2) ((|((x : ℝ) - μ) / σ| + f.u) ^ 2 / 2)) ∨
    (Flt.mul f (Flt.mul f (f.round (1/2)) (Flt.div f (Flt.sub f (.fin x) (.fin μ)) (.fin σ)))
          (Flt.div f (Flt.sub f (.fin x) (.fin μ)) (.fin σ)) = .inf false ∧
      ((2 : ℝ) ^ (f.emax - 1) < |(x : ℝ) - μ| ∨
        (2 : ℝ) ^ (f.emax - 2) < (|((x : ℝ) - μ) / σ| + f.u) ^ 2)) := by
  have hu := u_pos f
  have hul := hf.u_le
  have hσR : (0 : ℝ) < σ := by exact_mod_cast hσ0
  have hlt := emin_lt_emax hf
  set z0 : ℝ := ((x : ℝ) - μ) / σ with hz0
  have hu3 : f.u ^ 3 ≤ f.u := by
    have : f.u ^ 3 ≤ f.u ^ 1 := pow_le_pow_of_le_one hu.le (hul.trans (by norm_num)) (by norm_num)
    simpa using this
  have hZ1 : f.u ≤ |z0| + f.u := by have := abs_nonneg z0; linarith
  -- an infinite difference or quotient gives an infinite square
  have hinf : ∀ b, Flt.mul f (Flt.mul f (f.round (1/2)) (.inf b)) (.inf b) = .inf false := by
    intro b
    rw [round_half hf]
    have : Flt.mul f (.fin (1/2)) (.inf b) = .inf b := by
      simp only [Flt.mul]; norm_num
    rw [this]; simp [Flt.mul]
  rcases sub_cases (f := f) x μ with ⟨s, hs⟩ | hs
  · have hd : Near f 2 s ((x : ℝ) - μ) (|(x : ℝ) - μ| + f.u * σ) := by
      rw [sub_fin] at hs
      rw [sub_eq_add_neg] at hs
      obtain ⟨hr, he⟩ := near_round_add hf hx (rep_neg hμ) hs
      push_cast at he
      rw [← sub_eq_add_neg] at he
      have h0 := abs_nonneg ((x : ℝ) - μ)
      refine ⟨hr, by nlinarith, he.trans ?_⟩
      have : 0 ≤ f.u * (f.u * σ) := by positivity
      nlinarith
    rw [hs]
    have hdiv : Flt.div f (.fin s) (.fin σ) = f.round (s / σ) := by
      simp only [Flt.div, if_neg hσ0.ne']
    have eZ : (|(x : ℝ) - μ| + f.u * σ) / σ = |z0| + f.u := by
      rw [hz0, abs_div, abs_of_pos hσR]; field_simp
    rcases f.round_cases (s / σ) with ⟨z, hz⟩ | hz
    · have hzn := Near.div hf hd hσ0 (by norm_num) (by rw [eZ]; linarith) (by rw [hdiv, hz])
      rw [← hz0, eZ] at hzn
      set Z := |z0| + f.u with hZ
      have hZ0 : 0 < Z := by linarith
      have hZsz := hzn.size hf (by norm_num)
      rw [hdiv, hz, round_half hf]
      have hhalf : Near f 0 (1/2) (1/2) (1/2) := by
        have := Near.exact hf.rep_half; norm_num at this ⊢; exact this
      have hm : Flt.mul f (.fin (1/2)) (.fin z) = f.round (1/2 * z) := rfl
      -- halving cannot overflow
      have hzv := hzn.rep
      obtain ⟨h, hh⟩ : ∃ h, f.round (1/2 * z) = .fin h := by
        have := f.round_le (prec1 hf) (q := 1/2 * z) (k := f.emax - 1) (by
          rw [abs_mul]
          have h1 := hzv.2.le
          rw [zpow_sub₀ (by norm_num)]
          norm_num
          linarith) (by omega) (by omega)
        exact ⟨_, this.choose_spec.1⟩
      have hhn := Near.mul hf hhalf hzn le_rfl (by norm_num) (by norm_num) (by norm_num)
        (by
          have : f.u ^ 3 ≤ f.u ^ 2 := pow_le_pow_of_le_one hu.le (hul.trans (by norm_num)) (by norm_num)
          have h2 : f.u ^ 2 ≤ 1/2 * f.u := by
            have : f.u ≤ 1/2 := hul.trans (by norm_num)
            nlinarith
          linarith) (by rw [hm, hh])
      have hhsz := hhn.size hf (by norm_num)
      rw [hm, hh]
      have hm2 : Flt.mul f (.fin h) (.fin z) = f.round (h * z) := rfl
      -- the product is not negative
      have hsgn : 0 ≤ h * z := by
        rcases le_total 0 z with h0 | h0
        · exact mul_nonneg (round_nonneg hh (by linarith)) h0
        · exact mul_nonneg_of_nonpos_of_nonpos (round_nonpos hh (by linarith)) h0
      rcases f.round_cases (h * z) with ⟨q, hq⟩ | hq
      · left
        refine ⟨q, by rw [hm2, hq], round_nonneg hq hsgn, ?_⟩
        have := Near.mul hf hhn hzn (by norm_num) (by norm_num) (by norm_num) (by norm_num)
          (by
            have hh1 : f.u ^ 3 ≤ f.u ^ 2 * (1/2) := by
              have : f.u ≤ 1/2 := hul.trans (by norm_num)
              have : 0 ≤ f.u ^ 2 := by positivity
              nlinarith
            have : f.u ^ 2 ≤ Z ^ 2 := by gcongr
            nlinarith) (by rw [hm2, hq])
        have e1 : 1/2 * z0 * z0 = z0 ^ 2 / 2 := by ring
        have e2 : 1/2 * Z * Z = Z ^ 2 / 2 := by ring
        rw [e1, e2] at this
        exact this.mono (by norm_num) le_rfl (by norm_num)
      · right
        have hd0 : decide (h * z < 0) = false := by simpa using hsgn
        rw [hm2, hq, hd0]
        refine ⟨rfl, .inr ?_⟩
        have hover := (f.round_inf (prec1 hf) hlt hq).1
        have hover' : (2 : ℝ) ^ (f.emax - 1) < |((h * z : ℚ) : ℝ)| := real_lt hover
        push_cast at hover'
        rw [abs_mul] at hover'
        have h1 : |(h : ℝ)| * |(z : ℝ)| ≤ (2 * (1/2 * Z)) * (2 * Z) :=
          mul_le_mul hhsz hZsz (abs_nonneg _) (by positivity)
        have h2 : (2 : ℝ) ^ (f.emax - 1) = 2 * 2 ^ (f.emax - 2) := by
          rw [show f.emax - 1 = 1 + (f.emax - 2) by ring, zpow_add₀ (by norm_num)]; norm_num
        rw [h2] at hover'
        nlinarith
    · right
      rw [hdiv, hz]
      refine ⟨hinf _, .inr ?_⟩
      have hover := (f.round_inf (prec1 hf) hlt hz).1
      have hover' : (2 : ℝ) ^ (f.emax - 1) < |((s / σ : ℚ) : ℝ)| := real_lt hover
      push_cast at hover'
      rw [abs_div, abs_of_pos hσR] at hover'
      have hssz := hd.size hf (by norm_num)
      have h1 : |(s : ℝ)| / σ ≤ 2 * (|z0| + f.u) := by
        rw [← eZ, ← mul_div_assoc]; gcongr
      have h2 : (2 : ℝ) ^ (f.emax - 1) = 2 * 2 ^ (f.emax - 2) := by
        rw [show f.emax - 1 = 1 + (f.emax - 2) by ring, zpow_add₀ (by norm_num)]; norm_num
      have h3 : (1 : ℝ) ≤ 2 ^ (f.emax - 2) := one_le_zpow₀ (by norm_num) (by have := hf.emax_ge; omega)
      rw [h2] at hover'
      nlinarith
  · right
    rw [hs]
    have hover := (f.round_inf (prec1 hf) hlt (by rw [← sub_fin]; exact hs)).1
    have hover' : (2 : ℝ) ^ (f.emax - 1) < |((x - μ : ℚ) : ℝ)| := real_lt hover
    push_cast at hover'
    have hdiv : Flt.div f (.inf (decide (x < μ))) (.fin σ) = .inf (decide (x < μ)) := by
      simp [Flt.div, not_lt.mpr hσ0.le]
    rw [hdiv]
    exact ⟨hinf _, .inl hover'⟩

theorem log_gaussian_flt {μ σ x : ℝ} (hσ : 0 < σ) :
    Real.log (gaussianPDFReal μ (σ ^ 2).toNNReal x) =
      -(1/2) * Real.log (2 * Real.pi) - Real.log σ - ((x - μ) / σ) ^ 2 / 2 := by
  have h2 : (0 : ℝ) < 2 * Real.pi := by positivity
  rw [gaussianPDFReal, Real.coe_toNNReal _ (sq_nonneg σ),
    Real.log_mul (by positivity) (by positivity), Real.log_exp, Real.log_inv, Real.sqrt_mul h2.le,
    Real.sqrt_sq hσ.le, Real.log_mul (by positivity) hσ.ne', Real.log_sqrt h2.le]
  field_simp
  ring

/-- **C88**, Normal: for every accepted mean and standard deviation and every point, all numbers of
the format, the log-density is never NaN or `+∞`.  It is a number within `64` units of roundoff of the
logarithm of the Gaussian density, relative to the sizes of its terms; or it is `-∞`, and then the
distance of the point from the mean, or its standard score squared, is at the edge of the format's
range. -/
theorem C88_normal (hf : f.Std) (hL : L.Accurate f) {μ σ x : ℚ} (hμ : f.Representable μ)
    (hσ : f.Representable σ) (hx : f.Representable x) {d : Normal (Flt f L)}
    (h : Normal.new (Flt.fin μ) (Flt.fin σ) = .ok d) :
    (∃ r : ℚ, logDensityWrtRoot d (Flt.fin x) = Flt.fin (L := L) (f := f) r ∧ f.Representable r ∧
      |(r : ℝ) - Real.log (gaussianPDFReal μ ((σ : ℝ) ^ 2).toNNReal x)| ≤
        64 * f.u * (1 + |Real.log σ| + (((x : ℝ) - μ) / σ) ^ 2 / 2)) ∨
    (logDensityWrtRoot d (Flt.fin x) = Flt.negInf (f := f) (L := L) ∧
      ((2 : ℝ) ^ (f.emax - 1) < |(x : ℝ) - μ| ∨ (2 : ℝ) ^ (f.emax - 4) < (((x : ℝ) - μ) / σ) ^ 2)) := by
  obtain ⟨hσ0, rfl⟩ := Normal.new_flt h
  have hσR : (0 : ℝ) < σ := by exact_mod_cast hσ0
  rw [normal_flt, log_gaussian_flt hσR]
  obtain ⟨c, hc, hcn⟩ := near_const hf hL
  obtain ⟨l, hl, hln, hl2⟩ := near_ln_rep hf hL hσ0 hσ
  rw [hc, hl]
  obtain ⟨b0, b4⟩ := log_two_pi_bounds
  have hcsz := hcn.size hf (by norm_num)
  set z0 : ℝ := ((x : ℝ) - μ) / σ with hz0
  have hu := u_pos f
  have hul := hf.u_le
  have hbig : (2 : ℝ) ^ (120 : ℤ) ≤ 2 ^ (f.emax - 4) :=
    zpow_le_zpow_right₀ (by norm_num) (by have := hf.emax_ge; omega)
  -- from the magnitude with roundoff to the score
  have hsc : ∀ {k : ℝ}, (2 : ℝ) ^ (f.emax - 4) ≤ k → 3 * k ≤ (|z0| + f.u) ^ 2 → k < z0 ^ 2 := by
    intro k h1 h2
    have h3 : (|z0| + f.u) ^ 2 ≤ 2 * z0 ^ 2 + 2 * f.u ^ 2 := by
      have := sq_abs z0
      nlinarith [sq_nonneg (|z0| - f.u)]
    have h4 : f.u ^ 2 ≤ 1 := by
      have : f.u ≤ 1 := hul.trans (by norm_num)
      nlinarith
    have h5 : (2 : ℝ) ^ (120 : ℤ) = 2 ^ 120 := by norm_cast
    rw [h5] at hbig
    norm_num at hbig
    nlinarith
  -- the first two terms
  have hcl : |(c : ℝ) - l| ≤ 2 ^ (12 : ℤ) := by
    have := abs_sub (c : ℝ) l
    norm_num
    linarith
  have hcl' : |c - l| ≤ (2 : ℚ) ^ (12 : ℤ) := rat_le (by push_cast; exact hcl)
  obtain ⟨t, ht, ht12⟩ := f.round_le (prec1 hf) hcl' (by have := hf.emin_le; omega)
    (by have := hf.emax_ge; omega)
  have hcs : Flt.sub f (.fin c) (.fin l) = .fin t := by rw [sub_fin, ht]
  have htn := Near.sub hf hcn (hln.mono (k' := 24) (by norm_num) le_rfl (by norm_num)) (by norm_num) hcs
  rw [hcs]
  rcases normal_quad hf hμ hx hσ0 with ⟨q, hq, hq0, hqn⟩ | ⟨hq, hq2⟩
  · rw [hq]
    rcases sub_cases (f := f) t q with ⟨r, hr⟩ | hr
    · left
      have hrn := Near.sub hf htn (hqn.mono (k' := 24 + 2) (by norm_num) le_rfl (by norm_num))
        (by norm_num) hr
      refine ⟨r, hr, hrn.rep, hrn.err.trans ?_⟩
      have h1 : (|z0| + f.u) ^ 2 / 2 ≤ z0 ^ 2 / 2 + 1/1000 * (1 + z0 ^ 2 / 2) := by
        have h2 : f.u ≤ 1 / 10000 := hul.trans (by norm_num)
        have h3 : |z0| ≤ 1 + z0 ^ 2 / 2 := by
          have := sq_abs z0
          nlinarith [sq_nonneg (|z0| - 1)]
        have h4 : (|z0| + f.u) ^ 2 = z0 ^ 2 + 2 * f.u * |z0| + f.u ^ 2 := by
          rw [add_sq, sq_abs]; ring
        rw [h4]
        have h5 : f.u * |z0| ≤ 1/10000 * (1 + z0 ^ 2 / 2) :=
          mul_le_mul h2 h3 (abs_nonneg _) (by norm_num)
        have h6 : f.u ^ 2 ≤ 1/10000 := by nlinarith
        have h7 : 0 ≤ z0 ^ 2 := sq_nonneg _
        linarith
      have h0 : 0 ≤ z0 ^ 2 := sq_nonneg _
      have hlog := abs_nonneg (Real.log σ)
      have : (24 + 2 + 2) * f.u * (1 / 2 * (1 + Real.log (2 * Real.pi)) + |Real.log ↑σ| +
          (|z0| + f.u) ^ 2 / 2) ≤ (28 * f.u) * ((16/7) * (1 + |Real.log σ| + z0 ^ 2 / 2)) := by
        norm_num
        gcongr
        linarith
      linarith
    · right
      have hover := (f.round_inf (prec1 hf) (emin_lt_emax hf) (by rw [← sub_fin]; exact hr)).1
      have hover' : (2 : ℝ) ^ (f.emax - 1) < |((t - q : ℚ) : ℝ)| := real_lt hover
      push_cast at hover'
      have ht' : |(t : ℝ)| ≤ 2 ^ (12 : ℤ) := real_le ht12
      norm_num at ht'
      have hq0' : (0 : ℝ) ≤ q := by exact_mod_cast hq0
      have h2 : (2 : ℝ) ^ (f.emax - 1) = 8 * 2 ^ (f.emax - 4) := by
        rw [show f.emax - 1 = 3 + (f.emax - 4) by ring, zpow_add₀ (by norm_num)]; norm_num
      have h3 := abs_sub (t : ℝ) q
      have h5 : (2 : ℝ) ^ (120 : ℤ) = 2 ^ 120 := by norm_cast
      have hbig' := hbig
      rw [h5] at hbig'
      norm_num at hbig'
      have hqbig : 7 * (2 : ℝ) ^ (f.emax - 4) ≤ q := by
        rw [h2] at hover'
        rw [abs_of_nonneg hq0'] at h3
        linarith
      have hneg : decide (t < q) = true := by
        have : (t : ℝ) < q := by
          have := (abs_le.mp ht').2
          linarith
        have : t < q := by exact_mod_cast this
        simpa using this
      rw [hr, hneg]
      refine ⟨rfl, .inr (hsc le_rfl ?_)⟩
      have := hqn.size hf (by norm_num)
      rw [abs_of_nonneg hq0'] at this
      have : (0 : ℝ) < 2 ^ (f.emax - 4) := by positivity
      linarith
  · right
    rw [hq]
    refine ⟨rfl, hq2.imp id (fun h2 => hsc le_rfl ?_)⟩
    have h3 : (2 : ℝ) ^ (f.emax - 2) = 4 * 2 ^ (f.emax - 4) := by
      rw [show f.emax - 2 = 2 + (f.emax - 4) by ring, zpow_add₀ (by norm_num)]; norm_num
    rw [h3] at h2
    have : (0 : ℝ) < 2 ^ (f.emax - 4) := by positivity
    linarith

/-- The hypotheses of C88 can be met: there is an accurate library, and `N(0, 1)` is accepted. -/
example : ∃ L : Libm, L.Accurate f64 ∧ f64.Representable (1/2) ∧
    ∃ d : Normal (Flt f64 L), Normal.new (Flt.fin 0) (Flt.fin 1) = .ok d := by
  obtain ⟨L, hL⟩ := exists_libm (f := f64) (.inl rfl)
  exact ⟨L, hL, Std.rep_half (.inl rfl), _, rfl⟩

theorem rep_pow (f : Format) (hp : 1 ≤ f.prec) {k : ℤ} (h : f.emin ≤ k) (h' : k < f.emax) :
    f.Representable (2 ^ k) := by
  refine ⟨⟨1, k, ?_, h, by simp⟩, ?_⟩
  · have : (2 : ℤ) ^ 1 ≤ 2 ^ f.prec := pow_le_pow_right₀ (by norm_num) hp
    norm_num at this ⊢
    omega
  · rw [abs_of_pos (by positivity)]; exact zpow_lt_zpow_right₀ (by norm_num) h'

theorem round_overflow (hf : f.Std) {q : ℚ} (h : 2 ^ f.emax ≤ q) : f.round q = .inf false := by
  have hq0 : 0 < q := lt_of_lt_of_le (by positivity) h
  rcases f.round_cases q with ⟨r, hr⟩ | hr
  · exfalso
    have hv := f.round_valid (prec1 hf) q
    rw [hr] at hv
    -- `2^(emax-1) · …`: the rounded number is below `2^emax` but nearest to `q`
    unfold Format.round at hr
    simp only at hr
    split_ifs at hr with hlt
    have hlog : f.emax ≤ Int.log 2 |q| := by
      refine (Int.zpow_le_iff_le_log (by norm_num) (abs_pos.mpr hq0.ne')).mp ?_
      rw [abs_of_pos hq0]; exact_mod_cast h
    have hqu : f.quantum q = Int.log 2 |q| - (f.prec - 1) := by
      unfold Format.quantum
      refine max_eq_left ?_
      have := hf.emin_prec; have := hf.emax_ge; have := hf.prec_le; omega
    obtain ⟨d, hd⟩ : ∃ d : ℕ, Int.log 2 |q| = f.quantum q + d := ⟨f.prec - 1, by
      have := prec1 hf; omega⟩
    set uu : ℚ := 2 ^ f.quantum q with huu
    have huu0 : 0 < uu := by positivity
    have h1 : (2 : ℚ) ^ Int.log 2 |q| ≤ q := by
      have := Int.zpow_log_le_self (b := 2) (r := |q|) (by norm_num) (abs_pos.mpr hq0.ne')
      rw [abs_of_pos hq0] at this ⊢
      exact_mod_cast this
    have h2 : ((2 ^ d : ℤ) : ℚ) ≤ q / uu := by
      rw [le_div_iff₀ huu0, huu]
      push_cast
      rw [← zpow_natCast, ← zpow_add₀ (by norm_num), add_comm, ← hd]
      exact h1
    have h3 : 2 ^ d ≤ Format.roundEven (q / uu) := by
      have h4 : (2 : ℤ) ^ d ≤ ⌊q / uu⌋ := Int.le_floor.mpr h2
      unfold Format.roundEven
      simp only
      split_ifs <;> omega
    have h5 : (2 : ℚ) ^ f.emax ≤ |(Format.roundEven (q / uu) : ℚ) * uu| := by
      refine le_trans ?_ (le_abs_self _)
      calc (2 : ℚ) ^ f.emax ≤ 2 ^ Int.log 2 |q| := zpow_le_zpow_right₀ (by norm_num) hlog
        _ = ((2 ^ d : ℤ) : ℚ) * uu := by
            rw [hd, zpow_add₀ (by norm_num), zpow_natCast, mul_comm]; push_cast; rfl
        _ ≤ _ := mul_le_mul_of_nonneg_right (by exact_mod_cast h3) huu0.le
    exact absurd hlt (not_lt.mpr h5)
  · rw [hr]; simp [hq0.le]

/-- **C88** cannot be strengthened to finite results: with mean `-2^1023` and standard deviation
`2^1023` the log-density at `2^1023`, two standard deviations away, is `-∞` although the true value is
above `-1000`: the difference overflows before it is divided. -/
theorem C88_overflow_violated (hL : L.Accurate f64) :
    ∃ μ σ x : ℚ, f64.Representable μ ∧ f64.Representable σ ∧ f64.Representable x ∧
      ∃ d : Normal (Flt f64 L), Normal.new (Flt.fin μ) (Flt.fin σ) = .ok d ∧
        logDensityWrtRoot d (Flt.fin x) = Flt.negInf (f := f64) (L := L) ∧
        -1000 ≤ Real.log (gaussianPDFReal μ ((σ : ℝ) ^ 2).toNNReal x) := by
  have hf : f64.Std := .inl rfl
  obtain ⟨b, hb⟩ : ∃ b : ℚ, b = 2 ^ (1023 : ℤ) := ⟨_, rfl⟩
  have hr : f64.Representable b := hb ▸ rep_pow f64 (by decide) (by decide) (by decide)
  have hpos : 0 < b := by rw [hb]; positivity
  have hbb : (2 : ℚ) ^ f64.emax = b + b := by
    rw [show f64.emax = 1023 + 1 by rfl, zpow_add₀ (by norm_num), hb]; ring
  refine ⟨-b, b, b, rep_neg hr, hr, hr, ⟨Flt.fin (-b), Flt.fin b⟩, ?_, ?_, ?_⟩
  · unfold Normal.new
    rw [if_pos]
    show decide ((0 : ℚ) < b) = true
    simpa using hpos
  · rw [normal_flt]
    obtain ⟨c, hc, hcn⟩ := near_const hf hL
    obtain ⟨l, hl, hln, hl2⟩ := near_ln_rep hf hL hpos hr
    have hcsz := hcn.size hf (by norm_num)
    obtain ⟨b0, b4⟩ := log_two_pi_bounds
    obtain ⟨t, ht⟩ := sub_small hf (a := c) (b := l) (by linarith) (by linarith)
    have hs : Flt.sub f64 (.fin b) (.fin (-b)) = .inf false := by
      rw [sub_fin]
      refine round_overflow hf ?_
      rw [hbb]; linarith
    have hdv : Flt.div f64 (.inf false) (.fin b) = .inf false := by
      simp [Flt.div, not_lt.mpr hpos.le]
    have hml : Flt.mul f64 (.fin (1/2)) (.inf false) = .inf false := by
      simp only [Flt.mul]; norm_num
    rw [hs, hdv, hc, hl, ht, round_half hf, hml]
    rfl
  · have h0 : (0 : ℝ) < (b : ℝ) := by exact_mod_cast hpos
    rw [log_gaussian_flt h0]
    obtain ⟨b0, b4⟩ := log_two_pi_bounds
    have h1 : ((b : ℝ) - ((-b : ℚ) : ℝ)) / (b : ℝ) = 2 := by
      rw [Rat.cast_neg, sub_neg_eq_add, ← two_mul]
      field_simp
    have h2 : Real.log (b : ℝ) ≤ 800 := by
      rw [hb, cast_zpow, Real.log_zpow]
      have := Real.log_two_lt_d9
      norm_num at this ⊢
      linarith
    rw [h1]
    linarith

/-! ### Exponential -/

theorem Exponential.new_flt {r : ℚ} {d : Exponential (Flt f L)}
    (h : Exponential.new (Flt.fin r) = .ok d) : 0 < r ∧ d = ⟨Flt.fin r⟩ := by
  unfold Exponential.new at h
  split_ifs at h with h1
  · refine ⟨?_, by cases h; rfl⟩
    have : decide ((0 : ℚ) < r) = true := h1
    simpa using this

theorem exponential_flt (r : Flt f L) (x : ℚ) :
    (logDensityWrtRoot (⟨r⟩ : Exponential (Flt f L)) (Flt.fin x) : Flt f L) =
      if 0 ≤ x then Flt.sub f (Flt.ln L r) (Flt.mul f r (.fin x))
      else Flt.negInf (f := f) (L := L) := by
  show (if decide ((0 : ℚ) ≤ x) = true then _ else _) = _
  simp only [decide_eq_true_eq]
  rfl

theorem log_exponential {r x : ℝ} (hr : 0 < r) (hx : 0 ≤ x) :
    Real.log (exponentialPDFReal r x) = Real.log r - r * x := by
  simp [exponentialPDFReal, gammaPDFReal, hx, Real.log_mul hr.ne' (Real.exp_pos _).ne']
  ring

/-- **C88**, Exponential: outside the support exactly `-∞`; on it never NaN or `+∞`, within `16` units
of roundoff, or `-∞` when the product of rate and point is at the edge of the format's range. -/
theorem C88_exponential (hf : f.Std) (hL : L.Accurate f) {r x : ℚ}
    (hr : f.Representable r) (hx : f.Representable x) {d : Exponential (Flt f L)}
    (h : Exponential.new (Flt.fin r) = .ok d) :
    (x < 0 ∧ logDensityWrtRoot d (Flt.fin x) = Flt.negInf (f := f) (L := L)) ∨
    (0 ≤ x ∧ ∃ v : ℚ, logDensityWrtRoot d (Flt.fin x) = Flt.fin (f := f) (L := L) v ∧
      f.Representable v ∧ |(v : ℝ) - Real.log (exponentialPDFReal r x)| ≤
        16 * f.u * (f.u + |Real.log r| + r * x)) ∨
    (0 ≤ x ∧ logDensityWrtRoot d (Flt.fin x) = Flt.negInf (f := f) (L := L) ∧
      (2 : ℝ) ^ (f.emax - 3) < r * x) := by
  obtain ⟨hr0, rfl⟩ := Exponential.new_flt h
  rw [exponential_flt]
  rcases lt_or_ge x 0 with hx0 | hx0
  · left; exact ⟨hx0, by rw [if_neg (not_le.mpr hx0)]⟩
  right
  rw [if_pos hx0]
  have hu := u_pos f
  have hul := hf.u_le
  have hrR : (0 : ℝ) < r := by exact_mod_cast hr0
  have hxR : (0 : ℝ) ≤ x := by exact_mod_cast hx0
  have hrx : (0 : ℝ) ≤ r * x := by positivity
  rw [log_exponential hrR hxR]
  obtain ⟨l, hl, hln, hl2⟩ := near_ln_rep hf hL hr0 hr
  have hl' : Flt.ln L (Flt.fin (f := f) (L := L) r) = .fin l := hl
  rw [hl']
  have hm : Flt.mul f (Flt.fin (f := f) (L := L) r) (.fin x) = f.round (r * x) := rfl
  rw [hm]
  have hbig : (2 : ℝ) ^ (100 : ℤ) ≤ 2 ^ (f.emax - 3) :=
    zpow_le_zpow_right₀ (by norm_num) (by have := hf.emax_ge; omega)
  have h5 : (2 : ℝ) ^ (100 : ℤ) = 2 ^ 100 := by norm_cast
  rw [h5] at hbig
  norm_num at hbig
  have hpw : (2 : ℝ) ^ (f.emax - 1) = 4 * 2 ^ (f.emax - 3) := by
    rw [pow_split (f.emax - 3) 2 _ (by push_cast; ring)]; norm_num
  rcases f.round_cases (r * x) with ⟨p, hp⟩ | hp
  · have hrn : Near f 0 r r r := by
      have := Near.exact hr; rwa [abs_of_pos hrR] at this
    have hxn : Near f 0 x x (x + f.u ^ 3 / r) := by
      have := Near.exact hx
      rw [abs_of_nonneg hxR] at this
      have h0 : 0 ≤ f.u ^ 3 / (r : ℝ) := by positivity
      exact this.mono le_rfl (by linarith) le_rfl
    have e : (r : ℝ) * (x + f.u ^ 3 / r) = r * x + f.u ^ 3 := by field_simp
    have hpn := Near.mul hf hrn hxn le_rfl le_rfl (by norm_num) (by norm_num)
      (by rw [e]; linarith) (show Flt.mul f (.fin r) (.fin x) = .fin p from hp)
    rw [e] at hpn
    norm_num at hpn
    have hpsz := hpn.size hf (by norm_num)
    have hp0 : (0 : ℝ) ≤ p := by exact_mod_cast round_nonneg hp (mul_nonneg hr0.le hx0)
    rw [abs_of_nonneg hp0] at hpsz
    have hu3 : f.u ^ 3 ≤ f.u := by
      have : f.u ^ 3 ≤ f.u ^ 1 := pow_le_pow_of_le_one hu.le (hul.trans (by norm_num)) (by norm_num)
      simpa using this
    rw [hp]
    rcases sub_cases (f := f) l p with ⟨v, hv⟩ | hv
    · left
      have hvn := Near.sub hf (hln.mono (k' := 4) (by norm_num) le_rfl (by norm_num)) hpn (by norm_num) hv
      refine ⟨hx0, v, hv, hvn.rep, hvn.err.trans ?_⟩
      have hlog := abs_nonneg (Real.log r)
      have h1 : (|Real.log r| + (r * x + f.u ^ 3)) ≤ f.u + |Real.log r| + r * x := by linarith
      exact mul_le_mul (by nlinarith) h1 (by positivity) (by positivity)
    · right
      have hover := real_lt (f.round_inf (prec1 hf) (emin_lt_emax hf) (by rw [← sub_fin]; exact hv)).1
      push_cast at hover
      have h3 := abs_sub (l : ℝ) p
      rw [abs_of_nonneg hp0] at h3
      have hpb : 3 * (2 : ℝ) ^ (f.emax - 3) ≤ p := by
        rw [hpw] at hover
        linarith
      have hneg : decide (l < p) = true := by
        have : (l : ℝ) < p := by
          have := (abs_le.mp hl2).2
          linarith
        have : l < p := by exact_mod_cast this
        simpa using this
      refine ⟨hx0, by rw [hv, hneg], ?_⟩
      have : f.u ≤ 1 := hul.trans (by norm_num)
      linarith
  · right
    have hd : decide (r * x < 0) = false := by simpa using mul_nonneg hr0.le hx0
    have hover := real_lt (f.round_inf (prec1 hf) (emin_lt_emax hf) hp).1
    push_cast at hover
    rw [abs_of_nonneg hrx, hpw] at hover
    refine ⟨hx0, by rw [hp, hd]; rfl, by linarith⟩

end Verif
