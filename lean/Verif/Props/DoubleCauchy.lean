import Verif.Props.Double

/-!
# C89: the Cauchy log-density in floating point
-/

namespace Verif
open Format FloatOps ProbabilityTheory

variable {f : Format} {L : Libm}

theorem Cauchy.new_flt {l s : ℚ} {d : Cauchy (Flt f L)}
    (h : Cauchy.new (Flt.fin l) (Flt.fin s) = .ok d) : 0 < s ∧ d = ⟨Flt.fin l, Flt.fin s⟩ := by
  unfold Cauchy.new at h
  split_ifs at h with h1
  · refine ⟨?_, by cases h; rfl⟩
    have : decide ((0 : ℚ) < s) = true := h1
    simpa using this

theorem cauchy_flt (l s x : Flt f L) :
    (logDensityWrtRoot (⟨l, s⟩ : Cauchy (Flt f L)) x : Flt f L) =
      Flt.sub f (Flt.sub f (Flt.neg (Flt.ln L (Flt.add f (.fin 1)
          (Flt.mul f (Flt.div f (Flt.sub f x l) s) (Flt.div f (Flt.sub f x l) s)))))
        (Flt.ln L s)) (Flt.ln L (f.round Flt.piLit)) := rfl

theorem log_cauchy {l s x : ℝ} (hs : 0 < s) :
    Real.log (cauchyPDFReal l s.toNNReal x) =
      -Real.log (1 + ((x - l) / s) ^ 2) - Real.log s - Real.log Real.pi := by
  have hpi := Real.pi_pos
  rw [cauchyPDFReal, Real.coe_toNNReal _ hs.le, Real.log_mul (by positivity) (by positivity),
    Real.log_mul (by positivity) hs.ne', Real.log_inv, Real.log_inv]
  have e : (x - l) ^ 2 + s ^ 2 = s * s * (1 + ((x - l) / s) ^ 2) := by field_simp; ring
  rw [e, Real.log_mul (by positivity) (by positivity), Real.log_mul hs.ne' hs.ne']
  ring

/-- **C89**: the Cauchy log-density is never NaN or `+∞`.  It is within `256` units of roundoff of the
true value, relative to the sizes of its terms; or it is `-∞`, and then the distance of the point from
the location, or its score squared, is at the edge of the format's range. -/
theorem C89_cauchy_partial (hf : f.Std) (hL : L.Accurate f) {l s x : ℚ} (hl : f.Representable l)
    (hs : f.Representable s) (hx : f.Representable x) {d : Cauchy (Flt f L)}
    (h : Cauchy.new (Flt.fin l) (Flt.fin s) = .ok d) :
    (∃ r : ℚ, logDensityWrtRoot d (Flt.fin x) = Flt.fin (f := f) (L := L) r ∧ f.Representable r ∧
      |(r : ℝ) - Real.log (cauchyPDFReal l (s : ℝ).toNNReal x)| ≤
        256 * f.u * (1 + |Real.log s| + Real.log (1 + (((x : ℝ) - l) / s) ^ 2))) ∨
    (logDensityWrtRoot d (Flt.fin x) = Flt.negInf (f := f) (L := L) ∧
      ((2 : ℝ) ^ (f.emax - 1) < |(x : ℝ) - l| ∨ (2 : ℝ) ^ (f.emax - 5) < (((x : ℝ) - l) / s) ^ 2)) := by
  obtain ⟨hs0, rfl⟩ := Cauchy.new_flt h
  have hsR : (0 : ℝ) < s := by exact_mod_cast hs0
  rw [cauchy_flt, log_cauchy hsR]
  obtain ⟨c, hc, hcn⟩ := near_ln_pi hf hL
  obtain ⟨b0, b1⟩ := log_pi_bounds
  obtain ⟨g, hg, hgn, hg2⟩ := near_ln_rep hf hL hs0 hs
  have hcsz := hcn.size hf (by norm_num)
  have hg' : Flt.ln L (Flt.fin (f := f) (L := L) s) = .fin g := hg
  rw [hc, hg']
  set z0 : ℝ := ((x : ℝ) - l) / s with hz0
  have hu := u_pos f
  have hul := hf.u_le
  have hz2 : 0 ≤ z0 ^ 2 := sq_nonneg _
  -- an infinite square
  have hinf : Flt.sub f (Flt.sub f (Flt.neg (Flt.ln L (Flt.add f (.fin 1) (.inf false)))) (.fin g))
      (.fin c) = .inf true := by simp [Flt.sub, Flt.add, Flt.ln, Flt.neg]
  have p1 := pow_split (f.emax - 5) 3 (f.emax - 2) (by push_cast; ring)
  have p2 := pow_split (f.emax - 5) 2 (f.emax - 3) (by push_cast; ring)
  have p3 := pow_split (f.emax - 5) 4 (f.emax - 1) (by push_cast; ring)
  have pp : (1 : ℝ) ≤ 2 ^ (f.emax - 5) := one_le_zpow₀ (by norm_num) (by have := hf.emax_ge; omega)
  rcases score hf hl hx hs0 with ⟨z, hz, hzn⟩ | ⟨b, hz, hb⟩
  · have hz' : Flt.div f (Flt.sub f (Flt.fin (f := f) (L := L) x) (Flt.fin (f := f) (L := L) l))
        (Flt.fin (f := f) (L := L) s) = .fin z := hz
    rw [hz']
    rcases near_square hf hzn with ⟨q, hq, hq0, hqn⟩ | ⟨hq, hq2⟩
    · rw [hq]
      have hone : Near f 14 1 1 1 := by
        have := Near.exact hf.rep_one
        norm_num at this
        exact this.mono (by norm_num) le_rfl le_rfl
      have hadd : Flt.add f (.fin 1) (.fin q) = f.round (1 + q) := rfl
      rcases f.round_cases (1 + q) with ⟨w, hw⟩ | hw
      · left
        have hwn := Near.add hf hone hqn (by norm_num) (by rw [hadd, hw])
        have hwn' : Near f 20 w (1 + z0 ^ 2) (1 + z0 ^ 2) := by
          have h1 : 1 + (|z0| + f.u) ^ 2 ≤ (5/4) * (1 + z0 ^ 2) := by
            have h2 : f.u ≤ 1 / 10000 := hul.trans (by norm_num)
            have h3 : |z0| ≤ 1 + z0 ^ 2 := by
              have := sq_abs z0
              nlinarith [sq_nonneg (|z0| - 1), abs_nonneg z0]
            have h4 : (|z0| + f.u) ^ 2 = z0 ^ 2 + 2 * f.u * |z0| + f.u ^ 2 := by
              rw [add_sq, sq_abs]; ring
            have h5 : f.u * |z0| ≤ 1/10000 * (1 + z0 ^ 2) :=
              mul_le_mul h2 h3 (abs_nonneg _) (by norm_num)
            have h6 : f.u ^ 2 ≤ 1/10000 := by nlinarith
            rw [h4]
            linarith
          have := hwn.rescale (by norm_num) h1 (by rw [abs_of_nonneg (by linarith)])
          exact this.mono (by norm_num) le_rfl (by norm_num)
        obtain ⟨v, hv, hvn⟩ := Near.ln hf hL hwn' (by linarith) (by norm_num) (by norm_num)
        have hlog0 : 0 ≤ Real.log (1 + z0 ^ 2) := Real.log_nonneg (by linarith)
        rw [abs_of_nonneg hlog0] at hvn
        have hw0 : 0 < w := by
          have h1 := (log_near (e := 20 * f.u) (by linarith : 0 < 1 + z0 ^ 2) (by
            have : f.u ≤ 1 / 10000 := hul.trans (by norm_num)
            linarith) hwn'.err).1
          exact_mod_cast h1
        have hv2 : |(v : ℝ)| ≤ 2200 := by
          obtain ⟨r, hr, -, hr2⟩ := near_ln_rep hf hL hw0 hwn.rep
          rw [hv] at hr
          obtain rfl := FVal.fin.inj hr
          exact hr2
        rw [hadd, hw, hv]
        have hneg : Flt.neg (.fin v) = .fin (-v) := rfl
        rw [hneg]
        obtain ⟨t, ht⟩ := sub_small hf (a := -v) (b := g) (by push_cast; rw [abs_neg]; linarith)
          (by linarith)
        have htn := Near.sub hf hvn.neg (hgn.mono (k' := 2 * 20 + 3) (by norm_num) le_rfl (by norm_num))
          (by norm_num) ht
        have htb : |(t : ℝ)| ≤ 10000 := by
          have h1 := (near_round_add hf (rep_neg hvn.rep) (rep_neg hgn.rep)
            (show f.round (-v + -g) = .fin t by rw [← sub_eq_add_neg, ← sub_fin]; exact ht)).2
          push_cast at h1
          have h2 := abs_add_le (-(v : ℝ)) (-(g : ℝ))
          rw [abs_neg, abs_neg] at h2
          have h3 := abs_sub_abs_le_abs_sub (t : ℝ) (-(v : ℝ) + -(g : ℝ))
          have h4 : f.u * |-(v : ℝ) + -(g : ℝ)| ≤ 1 * |-(v : ℝ) + -(g : ℝ)| :=
            mul_le_mul_of_nonneg_right (hul.trans (by norm_num)) (abs_nonneg _)
          linarith
        obtain ⟨r, hr⟩ := sub_small hf (a := t) (b := c) htb (by linarith)
        have hrn := Near.sub hf htn (hcn.mono (k' := 2 * 20 + 3 + 2) (by norm_num) le_rfl (by norm_num))
          (by norm_num) hr
        refine ⟨r, by rw [ht, hr], hrn.rep, hrn.err.trans ?_⟩
        have hlog := abs_nonneg (Real.log s)
        norm_num
        have h1 : 1 + Real.log (1 + z0 ^ 2) + |Real.log ↑s| + (1 + Real.log Real.pi) ≤
            (17/5) * (1 + |Real.log s| + Real.log (1 + z0 ^ 2)) := by linarith
        have h2 : 0 < f.u := hu
        calc 47 * f.u * (1 + Real.log (1 + z0 ^ 2) + |Real.log ↑s| + (1 + Real.log Real.pi))
            ≤ 47 * f.u * ((17/5) * (1 + |Real.log s| + Real.log (1 + z0 ^ 2))) := by gcongr
          _ ≤ 256 * f.u * (1 + |Real.log s| + Real.log (1 + z0 ^ 2)) := by
            have : 0 ≤ f.u * (1 + |Real.log s| + Real.log (1 + z0 ^ 2)) := by positivity
            linarith
      · right
        have hd : decide (1 + q < 0) = false := by simpa using (by linarith : 0 ≤ 1 + q)
        have hw2 : f.round (1 + q) = .inf false := by rw [hw, hd]
        have hover := real_lt (f.round_inf (prec1 hf) (emin_lt_emax hf) hw2).1
        push_cast at hover
        have hq0' : (0 : ℝ) ≤ q := by exact_mod_cast hq0
        rw [abs_of_nonneg (by linarith)] at hover
        have hqsz := hqn.size hf (by norm_num)
        rw [abs_of_nonneg hq0'] at hqsz
        refine ⟨?_, .inr (square_big hf ?_)⟩
        · rw [hadd, hw2]
          simp [Flt.sub, Flt.add, Flt.ln, Flt.neg]
          rfl
        · rw [p3] at hover
          norm_num at hover
          linarith
    · right
      rw [hq, hinf]
      refine ⟨rfl, .inr (square_big hf ?_)⟩
      rw [p2] at hq2
      norm_num at hq2
      linarith
  · right
    have hz' : Flt.div f (Flt.sub f (Flt.fin (f := f) (L := L) x) (Flt.fin (f := f) (L := L) l))
        (Flt.fin (f := f) (L := L) s) = .inf b := hz
    have hbb : Flt.mul f (.inf b) (.inf b) = .inf false := by simp [Flt.mul]
    rw [hz', hbb, hinf]
    refine ⟨rfl, hb.imp id (fun h2 => square_big hf ?_)⟩
    rw [p1] at h2
    norm_num at h2
    have h8 : 8 * (2 : ℝ) ^ (f.emax - 5) < |z0| + f.u := h2
    nlinarith

/-- The hypotheses can be met. -/
example : ∃ L : Libm, L.Accurate f64 ∧ ∃ d : Cauchy (Flt f64 L),
    Cauchy.new (Flt.fin 0) (Flt.fin 1) = .ok d := by
  obtain ⟨L, hL⟩ := exists_libm (f := f64) (.inl rfl)
  exact ⟨L, hL, _, rfl⟩

/-- **C89** is violated: the standard Cauchy log-density at `2^600` is `-∞`, a point of density zero,
although the density is positive there and its logarithm is above `-1000`: the score is squared before
the logarithm is taken. -/
theorem C89_cauchy_violated (hL : L.Accurate f64) :
    ∃ x : ℚ, f64.Representable x ∧
      ∃ d : Cauchy (Flt f64 L), Cauchy.new (Flt.fin 0) (Flt.fin 1) = .ok d ∧
        logDensityWrtRoot d (Flt.fin x) = Flt.negInf (f := f64) (L := L) ∧
        -1000 ≤ Real.log (cauchyPDFReal 0 1 x) := by
  have hf : f64.Std := .inl rfl
  obtain ⟨b, hb⟩ : ∃ b : ℚ, b = 2 ^ (600 : ℤ) := ⟨_, rfl⟩
  have hr : f64.Representable b := hb ▸ rep_pow f64 (by decide) (by decide) (by decide)
  have hpos : 0 < b := by rw [hb]; positivity
  have hbb : (2 : ℚ) ^ f64.emax ≤ b * b := by
    rw [hb, ← zpow_add₀ (by norm_num)]
    exact zpow_le_zpow_right₀ (by norm_num) (by decide)
  refine ⟨b, hr, ⟨Flt.fin 0, Flt.fin 1⟩, rfl, ?_, ?_⟩
  · rw [cauchy_flt]
    obtain ⟨c, hc, -⟩ := near_ln_pi hf hL
    obtain ⟨g, hg, -, -⟩ := near_ln_rep hf hL one_pos hf.rep_one
    have hs : Flt.sub f64 (.fin b) (.fin 0) = .fin b := by
      rw [sub_fin, sub_zero]; exact f64.round_exact hr
    have hd : Flt.div f64 (.fin b) (.fin 1) = .fin b := by
      simp only [Flt.div, if_neg one_ne_zero, div_one]; exact f64.round_exact hr
    have hm : Flt.mul f64 (.fin b) (.fin b) = .inf false := round_overflow hf hbb
    rw [hs, hd, hm, hc, hg]
    simp [Flt.sub, Flt.add, Flt.ln, Flt.neg]
    rfl
  · have e := log_cauchy (l := 0) (s := 1) (x := b) one_pos
    rw [Real.toNNReal_one] at e
    rw [e]
    obtain ⟨b0, b1⟩ := log_pi_bounds
    have hb1 : (1 : ℝ) ≤ b := by
      rw [hb, cast_zpow]; exact one_le_zpow₀ (by norm_num) (by norm_num)
    have h2 : Real.log (1 + (b : ℝ) ^ 2) ≤ 900 := by
      have h3 : 1 + (b : ℝ) ^ 2 ≤ 2 * (b : ℝ) ^ 2 := by nlinarith
      have h4 := Real.log_le_log (by positivity) h3
      rw [Real.log_mul (by norm_num) (by positivity), Real.log_pow, hb, cast_zpow, Real.log_zpow] at h4
      have := Real.log_two_lt_d9
      rw [hb, cast_zpow]
      norm_num at this h4 ⊢
      linarith
    simp only [sub_zero, div_one, Real.log_one]
    linarith

end Verif
