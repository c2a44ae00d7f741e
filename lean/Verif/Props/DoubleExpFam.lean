import Verif.Props.Double
import Verif.Lemmas.NearOps

/-!
# C90: the exponential-family path of Normal in floating point
-/

namespace Verif
open Format FloatOps ProbabilityTheory ExponentialFamily

variable {f : Format} {L : Libm}

/-- what the exponential-family path computes, as floating-point operations -/
theorem normal_ef_flt (μ σ x : Flt f L) :
    (expFamLogDensity (⟨μ, σ⟩ : Normal (Flt f L)) x : Flt f L) =
      Flt.add f (Flt.sub f
        (Flt.add f (Flt.add f (.fin 0) (Flt.mul f (Flt.mul f μ (Flt.div f (.fin 1) (Flt.mul f σ σ))) x))
          (Flt.mul f (Flt.mul f (f.round (-1/2)) (Flt.div f (.fin 1) (Flt.mul f σ σ))) (Flt.mul f x x)))
        (Flt.add f
          (Flt.mul f (Flt.ln L (Flt.mul f (Flt.mul f (f.round 2) (f.round Flt.piLit)) (Flt.mul f σ σ)))
            (f.round (1/2)))
          (Flt.mul f (Flt.mul f (f.round (1/2)) (Flt.mul f μ μ)) (Flt.div f (.fin 1) (Flt.mul f σ σ)))))
        (.fin 0) := by
  simp only [expFamLogDensity, expFamLogDensityDefault, dot, List.zip_cons_cons, List.zip_nil_right,
    List.foldl_cons, List.foldl_nil, Normal.variance, recip]
  rfl

set_option maxHeartbeats 2000000 in
/-- **C90**: for parameters and points of moderate size the exponential-family path is accurate
relative to the squares of the point and of the mean in standard deviations.  Missing: accuracy
relative to the density itself, as in C88, and all other parameters; both fail, see
`C90_cancellation_violated` and `C90_nan_violated`. -/
theorem C90_normal_partial (hf : f.Std) (hL : L.Accurate f) {μ σ x : ℚ} (hμ : f.Representable μ)
    (hσ : f.Representable σ) (hx : f.Representable x) {d : Normal (Flt f L)}
    (h : Normal.new (Flt.fin μ) (Flt.fin σ) = .ok d)
    (hσ1 : 1 / 2 ^ 10 ≤ σ) (hσ2 : σ ≤ 2 ^ 10) (hμ2 : |μ| ≤ 2 ^ 20) (hx2 : |x| ≤ 2 ^ 20) :
    ∃ r : ℚ, expFamLogDensity d (Flt.fin x) = Flt.fin (f := f) (L := L) r ∧ f.Representable r ∧
      |(r : ℝ) - Real.log (gaussianPDFReal μ ((σ : ℝ) ^ 2).toNNReal x)| ≤
        128 * f.u * (1 + |Real.log σ| + (x / σ : ℝ) ^ 2 + (μ / σ : ℝ) ^ 2) := by
  obtain ⟨hσ0, rfl⟩ := Normal.new_flt h
  have hσR : (0 : ℝ) < σ := by exact_mod_cast hσ0
  rw [normal_ef_flt, log_gaussian_flt hσR]
  have hu := u_pos f
  have hul := hf.u_le
  have s1 : (1 / 2 ^ 10 : ℝ) ≤ σ := by
    have : ((1 / 2 ^ 10 : ℚ) : ℝ) ≤ σ := by exact_mod_cast hσ1
    simpa using this
  have s2 : (σ : ℝ) ≤ 2 ^ 10 := by
    have : (σ : ℝ) ≤ ((2 ^ 10 : ℚ) : ℝ) := by exact_mod_cast hσ2
    simpa using this
  have m2 : |(μ : ℝ)| ≤ 2 ^ 20 := by
    have : |(μ : ℝ)| ≤ ((2 ^ 20 : ℚ) : ℝ) := by exact_mod_cast hμ2
    simpa using this
  have x2 : |(x : ℝ)| ≤ 2 ^ 20 := by
    have : |(x : ℝ)| ≤ ((2 ^ 20 : ℚ) : ℝ) := by exact_mod_cast hx2
    simpa using this
  set s : ℝ := (σ : ℝ) with hs
  set M : ℝ := |(μ : ℝ)| + f.u * s with hM
  set X : ℝ := |(x : ℝ)| + f.u * s with hX
  have hus : f.u * s ≤ 1 := by
    have := mul_le_mul hul s2 hσR.le (by norm_num)
    refine this.trans (by norm_num)
  have hus0 : f.u * (1 / 2 ^ 10) ≤ f.u * s := by gcongr
  have hMl : f.u * (1 / 2 ^ 10) ≤ M := by have := abs_nonneg (μ : ℝ); linarith
  have hXl : f.u * (1 / 2 ^ 10) ≤ X := by have := abs_nonneg (x : ℝ); linarith
  have hM0 : 0 < M := lt_of_lt_of_le (by positivity) hMl
  have hX0 : 0 < X := lt_of_lt_of_le (by positivity) hXl
  have hMu : M ≤ 2 ^ 21 := by norm_num at m2 ⊢; linarith
  have hXu : X ≤ 2 ^ 21 := by norm_num at x2 ⊢; linarith
  -- small magnitudes dominate the underflow threshold
  have u3 : f.u ^ 3 ≤ f.u ^ 2 * (1 / 2 ^ 24) := by
    rw [pow_succ]; gcongr
  have u2 : f.u ^ 2 ≤ f.u * (1 / 2 ^ 24) := by rw [pow_two]; gcongr
  have sq : ∀ {a b : ℝ}, f.u * (1 / 2 ^ 10) ≤ a → f.u * (1 / 2 ^ 10) ≤ b → f.u ^ 2 * (1 / 2 ^ 20) ≤ a * b := by
    intro a b ha hb
    calc f.u ^ 2 * (1 / 2 ^ 20) = (f.u * (1 / 2 ^ 10)) * (f.u * (1 / 2 ^ 10)) := by ring
      _ ≤ a * b := mul_le_mul ha hb (by positivity) (le_trans (by positivity) ha)
  have hss : 1 / 2 ^ 20 ≤ s * s := by
    have := mul_le_mul s1 s1 (by norm_num) hσR.le
    norm_num at this ⊢; linarith
  have hss2 : s * s ≤ 2 ^ 20 := by
    have := mul_le_mul s2 s2 hσR.le (by norm_num)
    norm_num at this ⊢; linarith
  have hi : 1 / 2 ^ 20 ≤ 1 / (s * s) := one_div_le_one_div_of_le (by positivity) hss2
  have hi2 : 1 / (s * s) ≤ 2 ^ 20 := by
    have := one_div_le_one_div_of_le (by norm_num) hss
    simpa using this
  have hi0 : 0 < 1 / (s * s) := by positivity
  set I : ℝ := 1 / (s * s) with hI
  have uu : 0 < f.u ^ 2 := by positivity
  have mu : Near f 0 μ μ M := Near.exact' hμ (by rw [hM]; linarith [mul_pos hu hσR])
  have xu : Near f 0 x x X := Near.exact' hx (by rw [hX]; linarith [mul_pos hu hσR])
  have su : Near f 0 σ s s := Near.exact' hσ (by rw [abs_of_pos hσR])
  have pw : ∀ {a b p q : ℝ}, 0 ≤ a → 0 ≤ b → a ≤ p → b ≤ q → a * b ≤ p * q := fun ha hb h1 h2 =>
    mul_le_mul h1 h2 hb (ha.trans h1)
  -- σ²
  obtain ⟨v, hv, nv⟩ := Near.mul_ex hf su su le_rfl le_rfl (by norm_num) (by norm_num)
    (u_cube_le_of hf hss) (hss2.trans (by norm_num))
  -- 1/σ²
  obtain ⟨i, hiv, ni⟩ := Near.div_ex hf (Near.one hf) nv (by positivity) le_rfl (by norm_num) (by norm_num)
    (by norm_num) (by
      rw [← hI]; exact u_cube_le_of hf hi) (by rw [← hI]; exact hi2.trans (by norm_num))
  rw [← hI] at ni
  -- η₁
  obtain ⟨e1, he1, ne1⟩ := Near.mul_ex hf mu ni le_rfl (by norm_num) (by norm_num) (by norm_num)
    (by
      have := pw (by positivity) (by positivity) hMl hi
      linarith [u3, u2, uu]) (by
      have := pw hM0.le hi0.le hMu hi2
      exact this.trans (by norm_num))
  have hus1 : f.u * s ≤ M := by have := abs_nonneg (μ : ℝ); linarith
  have hus2 : f.u * s ≤ X := by have := abs_nonneg (x : ℝ); linarith
  have big : ∀ {a b : ℝ}, f.u * s ≤ a → f.u * s ≤ b → f.u ^ 2 ≤ a * b * I := by
    intro a b ha hb
    have h1 : (f.u * s) * (f.u * s) ≤ a * b :=
      mul_le_mul ha hb (by positivity) (le_trans (by positivity) ha)
    calc f.u ^ 2 = (f.u * s) * (f.u * s) * I := by rw [hI]; field_simp
      _ ≤ a * b * I := by gcongr
  -- η₁ x
  obtain ⟨p1, hp1, np1⟩ := Near.mul_ex hf ne1 xu (by norm_num) le_rfl (by norm_num) (by norm_num)
    (by
      have := big hus1 hus2
      linarith [u3, uu]) (by
      have := pw (by positivity) hX0.le (pw hM0.le hi0.le hMu hi2) hXu
      exact this.trans (by norm_num))
  -- x²
  obtain ⟨xx, hxx, nxx⟩ := Near.mul_ex hf xu xu le_rfl le_rfl (by norm_num) (by norm_num)
    (by have := sq hXl hXl; linarith [u3, uu]) (by
      have := pw hX0.le hX0.le hXu hXu
      exact this.trans (by norm_num))
  -- η₂
  obtain ⟨e2, he2, ne2⟩ := Near.mul_ex hf (Near.half hf).neg ni le_rfl (by norm_num) (by norm_num)
    (by norm_num) (u_cube_le_of' hf (by norm_num at hi ⊢; linarith)) (by norm_num at hi2 ⊢; linarith)
  -- η₂ x²
  obtain ⟨p2, hp2, np2⟩ := Near.mul_ex hf ne2 nxx (by norm_num) (by norm_num) (by norm_num) (by norm_num)
    (by
      have := big hus2 hus2
      linarith [u3, uu]) (by
      have := pw hi0.le (by positivity) hi2 (pw hX0.le hX0.le hXu hXu)
      norm_num at this ⊢
      linarith)
  have b1 : M * I * X ≤ 2 ^ 62 := (pw (by positivity) hX0.le (pw hM0.le hi0.le hMu hi2) hXu).trans (by norm_num)
  have b2 : 1/2 * I * (X * X) ≤ 2 ^ 62 := by
    have := pw hi0.le (by positivity) hi2 (pw hX0.le hX0.le hXu hXu)
    norm_num at this ⊢
    linarith
  have b3 : 1/2 * (M * M) * I ≤ 2 ^ 62 := by
    have := pw (by positivity) hi0.le (pw hM0.le hM0.le hMu hMu) hi2
    norm_num at this ⊢
    linarith
  obtain ⟨dt, hdt, ndt⟩ := Near.add_ex hf (np1.mono (k' := 0 + 4 + 0 + 4 + 18) (by norm_num) le_rfl (by norm_num))
    (np2.mono (k' := 0 + 4 + 0 + 4 + 18) (by norm_num) le_rfl (by norm_num)) (by norm_num)
    ((add_le_add b1 b2).trans (by norm_num))
  -- ln(2πσ²)
  obtain ⟨tp, htp, ntp⟩ := near_two_pi hf
  have hpi := Real.pi_gt_three
  have hpi4 := Real.pi_lt_four
  obtain ⟨w, hw, nw⟩ := Near.mul_ex hf ntp nv (by norm_num) (by norm_num) (by norm_num) (by norm_num)
    (u_cube_le_of hf (hss.trans (le_mul_of_one_le_left (by positivity) (by linarith))))
    ((pw (by positivity) (by positivity) (show 2 * Real.pi ≤ 8 by linarith) hss2).trans (by norm_num))
  obtain ⟨lg, hlg, nlg⟩ := Near.ln hf hL nw (by positivity) (by norm_num) (by norm_num)
  have elog : Real.log (2 * Real.pi * (s * s)) = Real.log (2 * Real.pi) + 2 * Real.log s := by
    rw [Real.log_mul (by positivity) (by positivity), Real.log_mul hσR.ne' hσR.ne']; ring
  obtain ⟨c0, c1⟩ := log_two_pi_bounds
  have hls : |Real.log s| ≤ 1100 := log_rep_le hf hσ0 hσ
  have hlb : |Real.log (2 * Real.pi * (s * s))| ≤ 5/2 + 2 * |Real.log s| := by
    rw [elog]
    have h1 := abs_add_le (Real.log (2 * Real.pi)) (2 * Real.log s)
    rw [abs_of_nonneg c0, abs_mul, abs_two] at h1
    linarith
  have hl0 := abs_nonneg (Real.log (2 * Real.pi * (s * s)))
  obtain ⟨hl, hhl, nhl⟩ := Near.mul_ex hf nlg (Near.half hf) (by norm_num) le_rfl (by norm_num) (by norm_num)
    (u_cube_le hf (by linarith)) (by norm_num; linarith)
  -- μ²
  obtain ⟨mm, hmm, nmm⟩ := Near.mul_ex hf mu mu le_rfl le_rfl (by norm_num) (by norm_num)
    (by have := sq hMl hMl; linarith [u3, uu]) (by
      have := pw hM0.le hM0.le hMu hMu
      exact this.trans (by norm_num))
  obtain ⟨hm, hhm, nhm⟩ := Near.mul_ex hf (Near.half hf) nmm le_rfl (by norm_num) (by norm_num) (by norm_num)
    (by have := sq hMl hMl; linarith [u3, uu]) (by
      have := pw hM0.le hM0.le hMu hMu
      norm_num at this ⊢; linarith)
  obtain ⟨q, hq, nq⟩ := Near.mul_ex hf nhm ni (by norm_num) (by norm_num) (by norm_num) (by norm_num)
    (by have := big hus1 hus1; linarith [u3, uu]) (b3.trans (by norm_num))
  obtain ⟨A, hA, nA⟩ := Near.add_ex hf (nhl.mono (k' := 39) (by norm_num) le_rfl (by norm_num))
    (nq.mono (k' := 39) (by norm_num) le_rfl (by norm_num)) (by norm_num)
    (by norm_num at b3 ⊢; linarith)
  obtain ⟨r, hr, nr⟩ := Near.sub_ex hf (ndt.mono (k' := 41) (by norm_num) le_rfl (by norm_num))
    (nA.mono (k' := 41) (by norm_num) le_rfl (by norm_num)) (by norm_num)
    (by norm_num at b1 b2 b3 ⊢; linarith)
  refine ⟨r, ?_, nr.rep, ?_⟩
  · have hmh : f.round (-1/2) = .fin (-(1/2)) := by
      have := f.round_exact (rep_neg hf.rep_half)
      rw [← this]; norm_num
    have hσσ : Flt.mul f (Flt.fin (f := f) (L := L) σ) (Flt.fin (f := f) (L := L) σ) = .fin v := hv
    have hxx' : Flt.mul f (Flt.fin (f := f) (L := L) x) (Flt.fin (f := f) (L := L) x) = .fin xx := hxx
    have hmm' : Flt.mul f (Flt.fin (f := f) (L := L) μ) (Flt.fin (f := f) (L := L) μ) = .fin mm := hmm
    have he1' : Flt.mul f (Flt.fin (f := f) (L := L) μ) (.fin i) = .fin e1 := he1
    have hp1' : Flt.mul f (.fin e1) (Flt.fin (f := f) (L := L) x) = .fin p1 := hp1
    rw [hσσ, hiv, he1', hp1', zero_add_rep np1.rep, hxx', hmh, he2, hp2, hdt, htp, hw, hlg,
      round_half hf, hhl, hmm', hhm, hq, hA, hr]
    exact add_zero_rep nr.rep
  · have e : -(1/2) * Real.log (2 * Real.pi) - Real.log s - (((x : ℝ) - μ) / s) ^ 2 / 2 =
        (μ : ℝ) * I * x + -(1/2) * I * (x * x) -
          (Real.log (2 * Real.pi * (s * s)) * (1/2) + 1/2 * ((μ : ℝ) * μ) * I) := by
      rw [elog, hI]; field_simp; ring
    rw [e]
    refine nr.err.trans ?_
    have hMI : M * M * I ≤ 2 * (μ / s : ℝ) ^ 2 + 2 * f.u ^ 2 := by
      have h1 : M * M * I = (|(μ : ℝ)| / s + f.u) ^ 2 := by rw [hM, hI]; field_simp
      have h2 : (|(μ : ℝ)| / s) ^ 2 = (μ / s : ℝ) ^ 2 := by rw [div_pow, sq_abs, div_pow]
      rw [h1]
      linarith [sq_nonneg (|(μ : ℝ)| / s - f.u), add_sq (|(μ : ℝ)| / s) f.u, sub_sq (|(μ : ℝ)| / s) f.u]
    have hXI : X * X * I ≤ 2 * (x / s : ℝ) ^ 2 + 2 * f.u ^ 2 := by
      have h1 : X * X * I = (|(x : ℝ)| / s + f.u) ^ 2 := by rw [hX, hI]; field_simp
      have h2 : (|(x : ℝ)| / s) ^ 2 = (x / s : ℝ) ^ 2 := by rw [div_pow, sq_abs, div_pow]
      rw [h1]
      linarith [sq_nonneg (|(x : ℝ)| / s - f.u), add_sq (|(x : ℝ)| / s) f.u, sub_sq (|(x : ℝ)| / s) f.u]
    have hMX : M * I * X ≤ 1/2 * (M * M * I) + 1/2 * (X * X * I) := by
      have : 0 ≤ I * (M - X) ^ 2 := by positivity
      linarith
    have hu2 : f.u ^ 2 ≤ 1/100 := by
      linarith [hul.trans (show (1 / 2 ^ 24 : ℝ) ≤ 1/100 by norm_num)]
    have : M * I * X + 1 / 2 * I * (X * X) + ((1 + |Real.log (2 * Real.pi * (s * s))|) * (1 / 2) +
        1 / 2 * (M * M) * I) ≤ 128/43 * (1 + |Real.log s| + (x / s : ℝ) ^ 2 + (μ / s : ℝ) ^ 2) := by
      have := abs_nonneg (Real.log s)
      have := sq_nonneg (x / s : ℝ)
      have := sq_nonneg (μ / s : ℝ)
      linarith
    have h43 : 0 ≤ 43 * f.u := by positivity
    have := mul_le_mul_of_nonneg_left this h43
    norm_num at this ⊢
    linarith

/-- The hypotheses can be met. -/
example : ∃ L : Libm, L.Accurate f32 ∧ f32.Representable 2 ∧ (1 / 2 ^ 10 : ℚ) ≤ 2 ∧ (2 : ℚ) ≤ 2 ^ 10 ∧
    ∃ d : Normal (Flt f32 L), Normal.new (Flt.fin 1) (Flt.fin 2) = .ok d := by
  obtain ⟨L, hL⟩ := exists_libm (f := f32) (.inr rfl)
  exact ⟨L, hL, Std.rep_two (.inr rfl), by norm_num, by norm_num, _, rfl⟩

/-! ### Where it goes wrong -/

theorem log_normal_at_mean {μ : ℝ} :
    Real.log (gaussianPDFReal μ ((1 : ℝ) ^ 2).toNNReal μ) = -(1/2) * Real.log (2 * Real.pi) := by
  rw [log_gaussian_flt one_pos]; simp

theorem log_two_pi_gt : 13/10 < Real.log (2 * Real.pi) := by
  have h : Real.log 4 < Real.log (2 * Real.pi) :=
    Real.log_lt_log (by norm_num) (by linarith [Real.pi_gt_three])
  have e : Real.log 4 = 2 * Real.log 2 := by
    rw [show (4 : ℝ) = 2 ^ 2 by norm_num, Real.log_pow]; norm_num
  have := Real.log_two_gt_d9
  linarith

theorem log_two_pi_lt : Real.log (2 * Real.pi) < 19/10 := by
  have hpi := Real.pi_pos
  have h1 := Real.log_le_sub_one_of_pos (show 0 < 2 * Real.pi / Real.exp 2 by positivity)
  rw [Real.log_div (by positivity) (Real.exp_pos _).ne', Real.log_exp] at h1
  have h2 : (7.3 : ℝ) < Real.exp 2 := by
    have := Real.exp_one_gt_d9
    have e : Real.exp 2 = Real.exp 1 * Real.exp 1 := by rw [← Real.exp_add]; norm_num
    rw [e]; nlinarith
  have h3 : 2 * Real.pi / Real.exp 2 ≤ 2 * 3.15 / 7.3 := by
    have := Real.pi_lt_d2
    gcongr
  norm_num at h3
  linarith

theorem mul_one_rep {a : ℚ} (h : f.Representable a) : Flt.mul f (.fin a) (.fin 1) = .fin a := by
  have : Flt.mul f (.fin a) (.fin 1) = f.round (a * 1) := rfl
  rw [this, mul_one]; exact f.round_exact h

theorem one_mul_rep {a : ℚ} (h : f.Representable a) : Flt.mul f (.fin 1) (.fin a) = .fin a := by
  have : Flt.mul f (.fin 1) (.fin a) = f.round (1 * a) := rfl
  rw [this, one_mul]; exact f.round_exact h

/-- **C90** fails for large means: at the mean `2^600` of a Normal with standard deviation one the
exponential-family path returns NaN, while the direct path is accurate there by C88. -/
theorem C90_nan_violated (hL : L.Accurate f64) :
    ∃ μ : ℚ, f64.Representable μ ∧
      ∃ d : Normal (Flt f64 L), Normal.new (Flt.fin μ) (Flt.fin 1) = .ok d ∧
        expFamLogDensity d (Flt.fin μ) = Flt.nan (f := f64) (L := L) ∧
        ∃ r : ℚ, logDensityWrtRoot d (Flt.fin μ) = Flt.fin (f := f64) (L := L) r ∧
          |(r : ℝ) - Real.log (gaussianPDFReal μ ((1 : ℝ) ^ 2).toNNReal μ)| ≤ 64 * f64.u := by
  have hf : f64.Std := .inl rfl
  obtain ⟨b, hb⟩ : ∃ b : ℚ, b = 2 ^ (600 : ℤ) := ⟨_, rfl⟩
  have hr : f64.Representable b := hb ▸ rep_pow f64 (by decide) (by decide) (by decide)
  have hpos : 0 < b := by rw [hb]; positivity
  have hbb : (2 : ℚ) ^ f64.emax ≤ b * b := by
    rw [hb, ← zpow_add₀ (by norm_num)]
    exact zpow_le_zpow_right₀ (by norm_num) (by decide)
  refine ⟨b, hr, ⟨Flt.fin b, Flt.fin 1⟩, rfl, ?_, ?_⟩
  · rw [normal_ef_flt]
    have h1 : Flt.mul f64 (Flt.fin (f := f64) (L := L) 1) (Flt.fin (f := f64) (L := L) 1) = .fin 1 :=
      one_mul_rep hf.rep_one
    have h2 : Flt.div f64 (.fin 1) (.fin 1) = .fin 1 := by
      have : Flt.div f64 (.fin 1) (.fin 1) = f64.round (1 / 1) := by simp [Flt.div]
      rw [this, div_one]; exact f64.round_exact hf.rep_one
    have h3 : Flt.mul f64 (Flt.fin (f := f64) (L := L) b) (.fin 1) = .fin b := mul_one_rep hr
    have h4 : Flt.mul f64 (.fin b) (Flt.fin (f := f64) (L := L) b) = .inf false := round_overflow hf hbb
    have h4' : Flt.mul f64 (Flt.fin (f := f64) (L := L) b) (Flt.fin (f := f64) (L := L) b) = .inf false := h4
    have hmh : f64.round (-1/2) = .fin (-(1/2)) := by
      have := f64.round_exact (rep_neg hf.rep_half)
      rw [← this]; norm_num
    have h5 : Flt.mul f64 (.fin (-(1/2))) (.fin 1) = .fin (-(1/2)) := mul_one_rep (rep_neg hf.rep_half)
    have h6 : Flt.mul f64 (.fin (-(1/2))) (.inf false) = .inf true := by simp [Flt.mul]
    rw [h1, h2, h3, h4, hmh, h5, h6]
    rfl
  · rcases C88_normal hf hL hr hf.rep_one hr (d := ⟨Flt.fin b, Flt.fin 1⟩) rfl with ⟨r, h1, -, h2⟩ | ⟨-, h2⟩
    · exact ⟨r, h1, by simpa using h2⟩
    · exfalso
      have p1 : (0 : ℝ) < 2 ^ (f64.emax - 1) := by positivity
      have p2 : (0 : ℝ) < 2 ^ (f64.emax - 4) := by positivity
      rcases h2 with h2 | h2
      · rw [sub_self, abs_zero] at h2; exact absurd h2 (not_lt.mpr p1.le)
      · rw [sub_self, zero_div, zero_pow two_ne_zero] at h2; exact absurd h2 (not_lt.mpr p2.le)

/-- **C90** fails without overflow, too: at the mean `2^27` of a Normal with standard deviation one
the exponential-family path returns exactly `0`, density one, while the true density is below
`exp (-13/20)`. -/
theorem C90_cancellation_violated (hL : L.Accurate f64) :
    ∃ μ : ℚ, f64.Representable μ ∧
      ∃ d : Normal (Flt f64 L), Normal.new (Flt.fin μ) (Flt.fin 1) = .ok d ∧
        expFamLogDensity d (Flt.fin μ) = Flt.fin (f := f64) (L := L) 0 ∧
        Real.log (gaussianPDFReal μ ((1 : ℝ) ^ 2).toNNReal μ) < -13/20 := by
  have hf : f64.Std := .inl rfl
  have hr : f64.Representable (2 ^ 27) := by
    have := rep_pow f64 (by decide) (k := 27) (by decide) (by decide)
    exact_mod_cast this
  have hr2 : f64.Representable (2 ^ 54) := by
    have := rep_pow f64 (by decide) (k := 54) (by decide) (by decide)
    exact_mod_cast this
  have hr3 : f64.Representable (2 ^ 53) := by
    have := rep_pow f64 (by decide) (k := 53) (by decide) (by decide)
    exact_mod_cast this
  refine ⟨2 ^ 27, hr, ⟨Flt.fin (2 ^ 27), Flt.fin 1⟩, rfl, ?_, ?_⟩
  · rw [normal_ef_flt]
    have h1 : Flt.mul f64 (Flt.fin (f := f64) (L := L) 1) (Flt.fin (f := f64) (L := L) 1) = .fin 1 :=
      one_mul_rep hf.rep_one
    have h2 : Flt.div f64 (.fin 1) (.fin 1) = .fin 1 := by
      have : Flt.div f64 (.fin 1) (.fin 1) = f64.round (1 / 1) := by simp [Flt.div]
      rw [this, div_one]; exact f64.round_exact hf.rep_one
    have h3 : Flt.mul f64 (Flt.fin (f := f64) (L := L) (2 ^ 27)) (.fin 1) = .fin (2 ^ 27) := mul_one_rep hr
    have h4 : Flt.mul f64 (.fin (2 ^ 27)) (Flt.fin (f := f64) (L := L) (2 ^ 27)) = .fin (2 ^ 54) := by
      show f64.round (2 ^ 27 * 2 ^ 27) = _
      rw [← pow_add]; exact f64.round_exact hr2
    have hmh : f64.round (-1/2) = .fin (-(1/2)) := by
      have := f64.round_exact (rep_neg hf.rep_half)
      rw [← this]; norm_num
    have h5 : Flt.mul f64 (.fin (-(1/2))) (.fin 1) = .fin (-(1/2)) := mul_one_rep (rep_neg hf.rep_half)
    have h6 : Flt.mul f64 (.fin (-(1/2))) (.fin (2 ^ 54)) = .fin (-2 ^ 53) := by
      show f64.round (-(1/2) * 2 ^ 54) = _
      rw [show (-(1/2) * 2 ^ 54 : ℚ) = -2 ^ 53 by norm_num]; exact f64.round_exact (rep_neg hr3)
    have h7 : Flt.add f64 (.fin (2 ^ 54)) (.fin (-2 ^ 53)) = .fin (2 ^ 53) := by
      show f64.round (2 ^ 54 + -2 ^ 53) = _
      rw [show (2 ^ 54 + -2 ^ 53 : ℚ) = 2 ^ 53 by norm_num]; exact f64.round_exact hr3
    have h8 : Flt.mul f64 (.fin (1/2)) (.fin (2 ^ 54)) = .fin (2 ^ 53) := by
      show f64.round (1/2 * 2 ^ 54) = _
      rw [show (1/2 * 2 ^ 54 : ℚ) = 2 ^ 53 by norm_num]; exact f64.round_exact hr3
    obtain ⟨tp, htp, ntp⟩ := near_two_pi hf
    have h9 : Flt.mul f64 (.fin tp) (.fin 1) = .fin tp := mul_one_rep ntp.rep
    obtain ⟨l, hl, nl⟩ := Near.ln hf hL ntp (by positivity) (by norm_num) (by norm_num)
    have c0 := log_two_pi_gt
    have c1 := log_two_pi_lt
    obtain ⟨w, hw, nw⟩ := Near.mul_ex hf nl (Near.half hf) (by norm_num) le_rfl (by norm_num) (by norm_num)
      (u_cube_le hf (by have := abs_nonneg (Real.log (2 * Real.pi)); linarith))
      (by rw [abs_of_pos (by linarith)]; norm_num; linarith)
    have hw1 : 0 < w ∧ w < 1 := by
      have he := nw.err
      have habs : |Real.log (2 * Real.pi)| = Real.log (2 * Real.pi) := abs_of_pos (by linarith)
      rw [habs] at he
      have hu := u_pos f64
      have hul := hf.u_le
      have h := mul_le_mul (mul_le_mul_of_nonneg_left hul (show (0 : ℝ) ≤ 2 * 8 + 3 + 0 + 4 by norm_num))
        (show (1 + Real.log (2 * Real.pi)) * (1 / 2) ≤ 2 by linarith) (by linarith) (by norm_num)
      have h' := abs_le.mp (he.trans h)
      norm_num at h'
      have w0 : (0 : ℝ) < w := by linarith [h'.1]
      have w1 : (w : ℝ) < 1 := by linarith [h'.2]
      exact ⟨by exact_mod_cast w0, by exact_mod_cast w1⟩
    have h10 : Flt.mul f64 (.fin (2 ^ 53)) (.fin 1) = .fin (2 ^ 53) := mul_one_rep hr3
    have h11 : Flt.add f64 (.fin w) (.fin (2 ^ 53)) = .fin (2 ^ 53) := by
      show f64.round (w + 2 ^ 53) = _
      have e2 : (2 : ℚ) ^ ((53 : ℤ) - ((f64.prec : ℤ) - 1)) = 2 := by
        rw [show (53 : ℤ) - ((f64.prec : ℤ) - 1) = 1 by rfl]; norm_num
      have habs : |w + 2 ^ 53| = w + 2 ^ 53 := abs_of_pos (by linarith [hw1.1])
      have := f64.round_eval (q := w + 2 ^ 53) 53 (2 ^ 52) (by rw [habs]; norm_num; linarith [hw1.1])
        (by rw [habs]; norm_num; linarith [hw1.2]) (by decide)
        (by
          rw [e2, show (w + 2 ^ 53) / 2 - ((2 ^ 52 : ℤ) : ℚ) = w / 2 by push_cast; ring,
            abs_of_pos (by linarith [hw1.1])]
          linarith [hw1.2])
        (.inl (by
          rw [e2, show (w + 2 ^ 53) / 2 - ((2 ^ 52 : ℤ) : ℚ) = w / 2 by push_cast; ring,
            abs_of_pos (by linarith [hw1.1])]
          linarith [hw1.2]))
        (by rw [e2]; exact lt_f64_max (by norm_num))
      rw [this, e2]
      norm_num
    have h12 : Flt.sub f64 (.fin (2 ^ 53)) (.fin (2 ^ 53)) = .fin 0 := by
      rw [sub_fin, sub_self]; exact f64.round_exact (rep_zero f64)
    rw [h1, h2, h3, h4, hmh, h5, h6, zero_add_rep hr2, h7, htp, h9, hl, round_half hf, hw, h8, h10, h11,
      h12]
    exact add_zero_rep (rep_zero f64)
  · rw [log_normal_at_mean]
    have := log_two_pi_gt
    linarith

end Verif
