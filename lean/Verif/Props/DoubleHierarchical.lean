import Verif.Props.DoubleBayes

/-!
# C106: the hierarchical model in floating point
-/

namespace Verif
open Format FloatOps Expr Bayes Builders ProbabilityTheory

variable {f : Format} {L : Libm}

/-- **C106**, hierarchical model: the sum of the log-likelihood of an observation, the log-density of the prior of its
mean and that of the prior of `tau`, evaluated in floating point. -/
theorem C106_hierarchical_partial (hf : f.Std) (hL : L.Accurate f) (hP : L.SquareAccurate f)
    {vars : FMap String (Flt f L)} (xv mv sv tv : String) {x μ σ τ m₀ s₀ : ℚ}
    (hx : vars.get xv = some (Flt.fin x)) (hm : vars.get mv = some (Flt.fin μ))
    (hs : vars.get sv = some (Flt.fin σ)) (ht : vars.get tv = some (Flt.fin τ))
    (hr : ∀ q ∈ [x, μ, σ, τ, m₀, s₀], f.Representable q) (h0 : 0 < σ) (h1 : 0 < s₀)
    (hl : (NormalPart.mk 1 μ σ).InRange f x) (hp : (NormalPart.mk 1 m₀ s₀).InRange f μ)
    (hq : (NormalPart.mk 1 0 s₀).InRange f τ) {A B C : ℝ}
    (hA : A = (NormalPart.mk 1 μ σ).size x) (hB : B = (NormalPart.mk 1 m₀ s₀).size μ)
    (hC : C = (NormalPart.mk 1 0 s₀).size τ) (hb : A + B + C ≤ 2 ^ 80) :
    ∃ r : ℚ, (hierarchicalNormal xv mv sv tv (Flt.fin m₀) (Flt.fin s₀)).evaluate vars
        = .ok (Flt.fin (f := f) (L := L) r) ∧ f.Representable r ∧
      |(r : ℝ) - Real.log (gaussianPDFReal μ ((σ : ℝ) ^ 2).toNNReal x * gaussianPDFReal m₀ ((s₀ : ℝ) ^ 2).toNNReal μ
          * gaussianPDFReal 0 ((s₀ : ℝ) ^ 2).toNNReal τ)| ≤ 88 * f.u * (A + B + C) := by
  have hu := u_pos f
  have hul : f.u ≤ 1/10000 := hf.u_le.trans (by norm_num)
  have hσR : (0 : ℝ) < σ := by exact_mod_cast h0
  have hs₀R : (0 : ℝ) < s₀ := by exact_mod_cast h1
  have hAge : ∀ (m s : ℚ) (y : ℝ), 1 ≤ (NormalPart.mk 1 m s).size y := fun m s y => by
    simp only [NormalPart.size, Rat.cast_one, Real.log_one, abs_zero, add_zero]
    have := abs_nonneg (Real.log (s : ℝ))
    have := sq_nonneg ((y - m) / s)
    linarith
  have a1 : 1 ≤ A := hA ▸ hAge _ _ _
  have b1 : 1 ≤ B := hB ▸ hAge _ _ _
  have c1 : 1 ≤ C := hC ▸ hAge _ _ _
  have hvar : ∀ {n : String} {q : ℚ}, vars.get n = some (Flt.fin q) →
      (Expr.var n : Expr (Flt f L)).evaluate vars = .ok (Flt.fin q) := by
    intro n q h; simp only [Expr.evaluate, h]
  obtain ⟨a, ha1, ha2, ha3⟩ := C106_posterior_partial hf hL hP xv mv sv hx hm hs
    (fun q h => hr q (by simp only [List.mem_cons, List.not_mem_nil, or_false] at h ⊢; tauto)) h0 h1 hl hp
    (by rw [← hA, ← hB]; linarith)
  rw [← hA, ← hB] at ha3
  have hCe : C = 1 + |Real.log (s₀ : ℝ)| + (((τ : ℝ) - (0 : ℚ)) / s₀) ^ 2 / 2 := by
    rw [hC]; simp only [NormalPart.size, Rat.cast_one, Real.log_one, abs_zero, add_zero]
  obtain ⟨b, hb1, hb2, hb3⟩ := normal_log_pdf_fin hf hL hP (em := .const (Flt.fin 0)) (es := .const (Flt.fin s₀))
    (hvar ht) rfl rfl (hr τ (by simp)) (rep_zero f) (hr s₀ (by simp)) h1 hq.1 hq.2.1 hq.2.2 (by
      have := abs_nonneg (Real.log (s₀ : ℝ))
      have e : (2 : ℝ) ^ 80 ≤ 2 ^ 90 := by norm_num
      linarith)
  rw [← hCe] at hb3
  have g1 : gaussianPDFReal (μ : ℝ) ((σ : ℝ) ^ 2).toNNReal x ≠ 0 :=
    (gaussianPDFReal_pos _ _ _ (by simp [h0.ne'])).ne'
  have g2 : gaussianPDFReal (m₀ : ℝ) ((s₀ : ℝ) ^ 2).toNNReal μ ≠ 0 :=
    (gaussianPDFReal_pos _ _ _ (by simp [h1.ne'])).ne'
  have g3 : gaussianPDFReal (0 : ℝ) ((s₀ : ℝ) ^ 2).toNNReal τ ≠ 0 :=
    (gaussianPDFReal_pos _ _ _ (by simp [h1.ne'])).ne'
  have k1 := log_gaussian_size (μ := μ) (x := x) hσR
  have k2 := log_gaussian_size (μ := m₀) (x := μ) hs₀R
  have k3 := log_gaussian_size (μ := 0) (x := τ) hs₀R
  have hv : |Real.log (gaussianPDFReal μ ((σ : ℝ) ^ 2).toNNReal x * gaussianPDFReal m₀ ((s₀ : ℝ) ^ 2).toNNReal μ)| ≤ 3 * (A + B) := by
    rw [Real.log_mul g1 g2]
    have := abs_add_le (Real.log (gaussianPDFReal μ ((σ : ℝ) ^ 2).toNNReal x)) (Real.log (gaussianPDFReal m₀ ((s₀ : ℝ) ^ 2).toNNReal μ))
    rw [hA, hB]
    simp only [NormalPart.size, Rat.cast_one, Real.log_one, abs_zero, add_zero]
    linarith
  have hw : |Real.log (gaussianPDFReal 0 ((s₀ : ℝ) ^ 2).toNNReal τ)| ≤ 3 * C := by
    rw [hCe, Rat.cast_zero]; exact k3
  rw [Rat.cast_zero] at hb3
  rw [Real.log_mul (mul_ne_zero g1 g2) g3]
  generalize Real.log (gaussianPDFReal μ ((σ : ℝ) ^ 2).toNNReal x * gaussianPDFReal m₀ ((s₀ : ℝ) ^ 2).toNNReal μ) = v at *
  generalize Real.log (gaussianPDFReal (0 : ℝ) ((s₀ : ℝ) ^ 2).toNNReal τ) = w at *
  have huA : f.u * (A + B) ≤ 1/10000 * (A + B) := by gcongr
  have huC : f.u * C ≤ 1/10000 * C := by gcongr
  have s1 : |(a : ℝ) + b| ≤ 4 * (A + B + C) := by
    have := abs_add_le (a : ℝ) b
    have := abs_sub_abs_le_abs_sub (a : ℝ) v
    have := abs_sub_abs_le_abs_sub (b : ℝ) w
    linarith
  obtain ⟨r, hr1⟩ := round_small hf (q := a + b) (rat_le (by
    push_cast
    have : (2 : ℝ) ^ (100 : ℤ) = 1048576 * 2 ^ 80 := by norm_num
    rw [this]
    linarith))
  obtain ⟨hrr, hre⟩ := near_round_add hf ha2 hb2 hr1
  refine ⟨r, ?_, hrr, ?_⟩
  · have := eval_add_flt (l := posteriorLogDensity (normalLikelihood xv mv sv) (normalPrior mv (Flt.fin m₀) (Flt.fin s₀)))
      (r := normalPrior tv (Flt.fin 0) (Flt.fin s₀))
      (by simp [posteriorLogDensity]) (by simp [normalPrior, normalLogPdf]) ha1 hb1
    exact this.trans (congrArg Except.ok hr1)
  · have e : (r : ℝ) - (v + w) = (r - (a + b)) + ((a - v) + (b - w)) := by ring
    rw [e]
    have h2 := abs_add_le ((r : ℝ) - (a + b)) ((a - v) + (b - w))
    have h3 := abs_add_le ((a : ℝ) - v) (b - w)
    have h4 : f.u * |(a : ℝ) + b| ≤ f.u * (4 * (A + B + C)) := by gcongr
    have h5 : 0 ≤ f.u * C := by positivity
    linarith

/-- the hypotheses are met: observation 1, mean 0, scales 1, `tau` 1 -/
example : ∃ (L : Libm) (r : ℚ) (vars : FMap String (Flt f64 L)), L.Accurate f64 ∧ L.SquareAccurate f64 ∧
    vars.get "x" = some (Flt.fin 1) ∧ vars.get "tau" = some (Flt.fin 1) ∧
    (hierarchicalNormal "x" "mu" "sigma" "tau" (Flt.fin 0) (Flt.fin 1)).evaluate vars
      = .ok (Flt.fin (f := f64) (L := L) r) := by
  have hf : f64.Std := .inl rfl
  obtain ⟨L, hL, hP⟩ := exists_libm_square hf
  have hr : ∀ y : ℝ, y ^ 2 ≤ 1 → (NormalPart.mk 1 0 1).InRange f64 y := by
    intro y hy
    refine ⟨?_, ?_, ?_⟩
    · show _ ≤ ((1 : ℚ) : ℝ) ^ 2
      rw [Rat.cast_one, one_pow, show f64.u = 1 / 2 ^ 53 from rfl, div_le_one (by positivity),
        show f64.emin = -1074 from rfl, ← zpow_natCast, one_div, ← zpow_neg]
      exact zpow_le_zpow_right₀ (by norm_num) (by norm_num)
    · show ((1 : ℚ) : ℝ) ^ 2 < _
      rw [Rat.cast_one, one_pow]
      exact one_lt_zpow₀ (by norm_num) (by decide)
    · show (y - ((0 : ℚ) : ℝ)) ^ 2 ≤ _
      calc (y - ((0 : ℚ) : ℝ)) ^ 2 ≤ (2 : ℝ) ^ (14 : ℤ) := by norm_num; linarith
        _ ≤ _ := zpow_le_zpow_right₀ (by norm_num) (by decide)
  let vars : FMap String (Flt f64 L) :=
    (((FMap.empty.insert "x" (Flt.fin 1)).insert "mu" (Flt.fin 0)).insert "sigma" (Flt.fin 1)).insert "tau" (Flt.fin 1)
  have h1 : vars.get "x" = some (Flt.fin 1) := by simp [vars, FMap.insert]
  have h2 : vars.get "mu" = some (Flt.fin 0) := by simp [vars, FMap.insert]
  have h3 : vars.get "sigma" = some (Flt.fin 1) := by simp [vars, FMap.insert]
  have h4 : vars.get "tau" = some (Flt.fin 1) := by simp [vars, FMap.insert]
  obtain ⟨r, h, -⟩ := C106_hierarchical_partial hf hL hP "x" "mu" "sigma" "tau" (m₀ := 0) (s₀ := 1) h1 h2 h3 h4
    (by simpa using ⟨hf.rep_one, rep_zero f64, hf.rep_one, rep_zero f64, hf.rep_one⟩) one_pos one_pos (hr _ (by norm_num)) (hr _ (by norm_num))
    (hr _ (by norm_num)) rfl rfl rfl (by simp [NormalPart.size]; norm_num)
  exact ⟨L, r, vars, hL, hP, h1, h4, h⟩

end Verif
