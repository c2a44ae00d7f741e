import Verif.Props.Laws
import Mathlib.Probability.Moments.ComplexMGF
import Mathlib.Probability.Distributions.Exponential
import Mathlib.MeasureTheory.Measure.CharacteristicFunction.Basic

/-!
# C125: sums of independent draws
-/

namespace Verif
open FloatOps XReal Spec MeasureTheory ProbabilityTheory Filter Topology

/-- Two laws on the line with the same moment generating function near 0 are equal. -/
theorem eq_of_mgf_near {P Q : MeasureTheory.Measure ℝ} [IsProbabilityMeasure P] [IsProbabilityMeasure Q]
    (h : ∀ᶠ t in 𝓝 (0 : ℝ), Integrable (fun x => Real.exp (t * x)) P ∧
      Integrable (fun x => Real.exp (t * x)) Q ∧ mgf id P t = mgf id Q t) : P = Q := by
  obtain ⟨ε, hε, hb⟩ := Metric.eventually_nhds_iff.mp h
  have hsub : ∀ t : ℝ, t ∈ Set.Ioo (-ε) ε → dist t 0 < ε := by
    intro t ht
    rw [Real.dist_0_eq_abs, abs_lt]; exact ht
  have hP : Set.Ioo (-ε) ε ⊆ interior (integrableExpSet id P) :=
    interior_maximal (fun t ht => (hb (hsub t ht)).1) isOpen_Ioo
  have hQ : Set.Ioo (-ε) ε ⊆ interior (integrableExpSet id Q) :=
    interior_maximal (fun t ht => (hb (hsub t ht)).2.1) isOpen_Ioo
  set W : Set ℂ := {z | z.re ∈ Set.Ioo (-ε) ε} with hW
  have aP : AnalyticOnNhd ℂ (complexMGF id P) W := fun z hz => analyticOnNhd_complexMGF z (hP hz)
  have aQ : AnalyticOnNhd ℂ (complexMGF id Q) W := fun z hz => analyticOnNhd_complexMGF z (hQ hz)
  have hconn : IsPreconnected W := ((convex_Ioo (-ε) ε).linear_preimage Complex.reLm).isPreconnected
  have h0 : (0 : ℂ) ∈ W := by simp [hW, hε]
  have heq : Set.EqOn (complexMGF id P) (complexMGF id Q) W := by
    refine AnalyticOnNhd.eqOn_of_preconnected_of_frequently_eq aP aQ hconn h0 ?_
    have hreal : ∃ᶠ x : ℝ in 𝓝[≠] 0, complexMGF id P x = complexMGF id Q x := by
      refine Eventually.frequently ?_
      filter_upwards [h.filter_mono nhdsWithin_le_nhds] with t ht
      rw [complexMGF_ofReal, complexMGF_ofReal, ht.2.2]
    rw [frequently_iff_seq_forall] at hreal ⊢
    obtain ⟨xs, hx, he⟩ := hreal
    refine ⟨fun n => xs n, ?_, he⟩
    rw [tendsto_nhdsWithin_iff] at hx ⊢
    refine ⟨?_, by simpa using hx.2⟩
    have := (Complex.continuous_ofReal.tendsto (0 : ℝ)).comp hx.1
    rw [Complex.ofReal_zero] at this
    exact this
  refine Measure.ext_of_charFun (funext fun t => ?_)
  rw [← complexMGF_id_mul_I, ← complexMGF_id_mul_I]
  exact heq (by simp [hW, hε])

/-- The moment generating function of a statistic, from a second distribution with a density tilted by it. -/
theorem mgf_of_tilt {D D' X X' α : Type} [MeasurableSpace α] [HasLogDensity D X XReal] [HasLogDensity D' X' XReal]
    (μ : MeasureTheory.Measure α) (e : α → X) (e' : α → X') (d : D) (d' : D') (hr : RegularLaw μ e d)
    (hr' : RegularLaw μ e' d') (g : α → ℝ) (hg : Measurable g) (t c : ℝ)
    (h : ∀ a, ((logDensityWrtRoot d (e a) : XReal) = ninf ∧ (logDensityWrtRoot d' (e' a) : XReal) = ninf) ∨
      ∃ l : ℝ, (logDensityWrtRoot d (e a) : XReal) = fin l ∧
        (logDensityWrtRoot d' (e' a) : XReal) = fin (l + t * g a - c)) :
    Integrable (fun a => Real.exp (t * g a)) (law μ e d) ∧ mgf g (law μ e d) t = Real.exp c := by
  set ν := law μ e d with hν
  have e1 : ∫⁻ a, ENNReal.ofReal (Real.exp (t * g a - c)) ∂ν = 1 := by
    rw [hν, law, lintegral_withDensity_eq_lintegral_mul_non_measurable _ hr.measurable.ennreal_ofReal
      (by simp), ← hr'.mass_one]
    unfold mass
    congr 1
    funext a
    rcases h a with ⟨k1, k2⟩ | ⟨l, k1, k2⟩
    · rw [Pi.mul_apply, k1, k2]; simp [density]
    · rw [Pi.mul_apply, k1, k2, density_fin, density_fin, ← ENNReal.ofReal_mul (Real.exp_pos _).le,
        ← Real.exp_add]
      congr 2; ring
  have m1 : Measurable fun a => Real.exp (t * g a - c) := by fun_prop
  have i1 : Integrable (fun a => Real.exp (t * g a - c)) ν := by
    refine ⟨m1.aestronglyMeasurable, ?_⟩
    rw [hasFiniteIntegral_iff_ofReal (Eventually.of_forall fun a => (Real.exp_pos _).le), e1]
    exact ENNReal.one_lt_top
  have i2 : ∫ a, Real.exp (t * g a - c) ∂ν = 1 := by
    rw [integral_eq_lintegral_of_nonneg_ae (Eventually.of_forall fun a => (Real.exp_pos _).le)
      m1.aestronglyMeasurable, e1, ENNReal.toReal_one]
  have e2 : (fun a => Real.exp (t * g a)) = fun a => Real.exp c * Real.exp (t * g a - c) := by
    funext a; rw [← Real.exp_add]; congr 1; ring
  refine ⟨by rw [e2]; exact i1.const_mul _, ?_⟩
  rw [mgf]
  show ∫ a, Real.exp (t * g a) ∂ν = _
  rw [e2, integral_const_mul, i2, mul_one]

/-- The law of a sum of independent statistics, identified by the logarithms of the moment generating
functions. -/
theorem sum_law {α : Type} [MeasurableSpace α] {n : ℕ} (P : Fin n → MeasureTheory.Measure α)
    [∀ i, IsProbabilityMeasure (P i)] (g : Fin n → α → ℝ) (hg : ∀ i, Measurable (g i))
    (Q : MeasureTheory.Measure ℝ) [IsProbabilityMeasure Q] (K : Fin n → ℝ → ℝ)
    (h1 : ∀ i, ∀ᶠ t in 𝓝 (0 : ℝ), Integrable (fun a => Real.exp (t * g i a)) (P i) ∧
      mgf (g i) (P i) t = Real.exp (K i t))
    (h2 : ∀ᶠ t in 𝓝 (0 : ℝ), Integrable (fun x => Real.exp (t * x)) Q ∧ mgf id Q t = Real.exp (∑ i, K i t)) :
    (MeasureTheory.Measure.pi P).map (fun v => ∑ i, g i (v i)) = Q := by
  have hind : iIndepFun (fun (i : Fin n) (v : Fin n → α) => g i (v i)) (Measure.pi P) :=
    iIndepFun_pi (X := g) fun i => (hg i).aemeasurable
  have hm : ∀ i : Fin n, Measurable fun v : Fin n → α => g i (v i) := fun i =>
    (hg i).comp (measurable_pi_apply i)
  have hs : Measurable fun v : Fin n → α => ∑ i, g i (v i) := Finset.measurable_fun_sum _ fun i _ => hm i
  have hP : IsProbabilityMeasure ((Measure.pi P).map (fun v => ∑ i, g i (v i))) :=
    Measure.isProbabilityMeasure_map hs.aemeasurable
  refine eq_of_mgf_near ?_
  have h1' : ∀ᶠ t in 𝓝 (0 : ℝ), ∀ i, Integrable (fun a => Real.exp (t * g i a)) (P i) ∧
      mgf (g i) (P i) t = Real.exp (K i t) := eventually_all.mpr h1
  filter_upwards [h1', h2] with t k1 k2
  have hev : ∀ i, mgf (fun v : Fin n → α => g i (v i)) (Measure.pi P) t = Real.exp (K i t) := by
    intro i
    rw [← (k1 i).2, mgf, mgf, ← (measurePreserving_eval P i).map_eq,
      integral_map (measurable_pi_apply i).aemeasurable
        (((hg i).const_mul t).exp).aestronglyMeasurable]
  have hint : ∀ i, Integrable (fun v : Fin n → α => Real.exp (t * g i (v i))) (Measure.pi P) := by
    intro i
    have := (k1 i).1
    rw [← (measurePreserving_eval P i).map_eq] at this
    exact (integrable_map_measure this.1 (measurable_pi_apply i).aemeasurable).mp this
  have esum : (fun v : Fin n → α => ∑ i, g i (v i)) = ∑ i, fun v : Fin n → α => g i (v i) := by
    funext v; simp
  have hmgf : mgf (fun v : Fin n → α => ∑ i, g i (v i)) (Measure.pi P) t = Real.exp (∑ i, K i t) := by
    rw [esum, hind.mgf_sum hm, Finset.prod_congr rfl fun i _ => hev i, Real.exp_sum]
  have hint2 : Integrable (fun v : Fin n → α => Real.exp (t * ∑ i, g i (v i))) (Measure.pi P) := by
    have := hind.integrable_exp_mul_sum hm (s := Finset.univ) (t := t) (fun i _ => hint i)
    rw [← esum] at this
    exact this
  refine ⟨?_, k2.1, ?_⟩
  · rw [integrable_map_measure (by fun_prop) hs.aemeasurable]
    exact hint2
  · rw [mgf_id_map hs.aemeasurable, hmgf, k2.2]

theorem Normal.mgf_linear {μ σ : ℝ} (hσ : 0 < σ) (c t : ℝ) :
    Integrable (fun x => Real.exp (t * (c * x))) (law volume fin (⟨fin μ, fin σ⟩ : Normal XReal)) ∧
    mgf (fun x => c * x) (law volume fin (⟨fin μ, fin σ⟩ : Normal XReal)) t
      = Real.exp (c * μ * t + c ^ 2 * σ ^ 2 * t ^ 2 / 2) := by
  have hn : ∀ m, Normal.new (fin m) (fin σ) = .ok (⟨fin m, fin σ⟩ : Normal XReal) := by
    intro m; simp [Normal.new, hσ]
  refine mgf_of_tilt volume fin fin _ (⟨fin (μ + c * t * σ ^ 2), fin σ⟩ : Normal XReal)
    (C122_regular.1 _ _ _ (hn μ)) (C122_regular.1 _ _ _ (hn _)) _ (by fun_prop) t _ fun x => ?_
  refine Or.inr ⟨_, Normal.ld hσ, ?_⟩
  rw [Normal.ld hσ]
  congr 1
  field_simp
  ring

theorem Normal.mgf_square {μ σ : ℝ} (hσ : 0 < σ) {t : ℝ} (ht : t < 1 / 2) :
    Integrable (fun x => Real.exp (t * ((x - μ) / σ) ^ 2)) (law volume fin (⟨fin μ, fin σ⟩ : Normal XReal)) ∧
    mgf (fun x => ((x - μ) / σ) ^ 2) (law volume fin (⟨fin μ, fin σ⟩ : Normal XReal)) t
      = Real.exp (1 / 2 * (Real.log (1 / 2) - Real.log (1 / 2 - t))) := by
  have hp : 0 < 1 - 2 * t := by linarith
  have hs : 0 < σ / Real.sqrt (1 - 2 * t) := div_pos hσ (Real.sqrt_pos.mpr hp)
  have hn : ∀ s, 0 < s → Normal.new (fin μ) (fin s) = .ok (⟨fin μ, fin s⟩ : Normal XReal) := by
    intro s h; simp [Normal.new, h]
  refine mgf_of_tilt volume fin fin _ (⟨fin μ, fin (σ / Real.sqrt (1 - 2 * t))⟩ : Normal XReal)
    (C122_regular.1 _ _ _ (hn σ hσ)) (C122_regular.1 _ _ _ (hn _ hs)) _ (by fun_prop) t _ fun x => ?_
  refine Or.inr ⟨_, Normal.ld hσ, ?_⟩
  rw [Normal.ld hs]
  congr 1
  have e1 : Real.log (1 / 2) - Real.log (1 / 2 - t) = - Real.log (1 - 2 * t) := by
    rw [← Real.log_div (by norm_num) (by linarith), ← Real.log_inv]
    congr 1
    field_simp
  rw [e1, Real.log_div hσ.ne' (Real.sqrt_pos.mpr hp).ne', Real.log_sqrt hp.le]
  have e2 : (x - μ) / (σ / Real.sqrt (1 - 2 * t)) = (x - μ) / σ * Real.sqrt (1 - 2 * t) := by
    field_simp
  rw [e2]
  have e3 : 1 / 2 * ((x - μ) / σ * Real.sqrt (1 - 2 * t)) * ((x - μ) / σ * Real.sqrt (1 - 2 * t))
      = 1 / 2 * ((x - μ) / σ) ^ 2 * (1 - 2 * t) := by
    rw [show 1 / 2 * ((x - μ) / σ * Real.sqrt (1 - 2 * t)) * ((x - μ) / σ * Real.sqrt (1 - 2 * t))
      = 1 / 2 * ((x - μ) / σ) ^ 2 * (Real.sqrt (1 - 2 * t) * Real.sqrt (1 - 2 * t)) by ring,
      Real.mul_self_sqrt hp.le]
  rw [e3]
  ring

theorem Gamma.mgf_id {a b : ℝ} (ha : 0 < a) {t : ℝ} (hb : 0 < b) (ht : t < b) :
    Integrable (fun x => Real.exp (t * x)) (law volume fin (⟨fin a, fin b⟩ : Gamma XReal)) ∧
    mgf id (law volume fin (⟨fin a, fin b⟩ : Gamma XReal)) t
      = Real.exp (a * (Real.log b - Real.log (b - t))) := by
  have hb' : 0 < b - t := by linarith
  have hn : ∀ c, 0 < c → Gamma.new (fin a) (fin c) = .ok (⟨fin a, fin c⟩ : Gamma XReal) := by
    intro c h; simp [Gamma.new, h, ha]
  refine mgf_of_tilt volume fin fin _ (⟨fin a, fin (b - t)⟩ : Gamma XReal)
    (C122_regular.2.2.1 _ _ _ (hn b hb)) (C122_regular.2.2.1 _ _ _ (hn _ hb')) id measurable_id t _ fun x => ?_
  rcases le_or_gt x 0 with hx | hx
  · exact Or.inl ⟨Gamma.ld_of_nonpos hx, Gamma.ld_of_nonpos hx⟩
  · refine Or.inr ⟨_, Gamma.ld_of_pos ha hb hx, ?_⟩
    rw [Gamma.ld_of_pos ha hb' hx]
    congr 1
    simp only [id]
    ring

theorem Exponential.mgf_id {r : ℝ} (hr : 0 < r) {t : ℝ} (ht : t < r) :
    Integrable (fun x => Real.exp (t * x)) (law volume fin (⟨fin r⟩ : Exponential XReal)) ∧
    mgf id (law volume fin (⟨fin r⟩ : Exponential XReal)) t = Real.exp (Real.log r - Real.log (r - t)) := by
  have hb' : 0 < r - t := by linarith
  have hn : ∀ c, 0 < c → Exponential.new (fin c) = .ok (⟨fin c⟩ : Exponential XReal) := by
    intro c h; simp [Exponential.new, h]
  refine mgf_of_tilt volume fin fin _ (⟨fin (r - t)⟩ : Exponential XReal)
    (C122_regular.2.1 _ _ (hn r hr)) (C122_regular.2.1 _ _ (hn _ hb')) id measurable_id t _ fun x => ?_
  rcases lt_or_ge x 0 with hx | hx
  · exact Or.inl ⟨(C10_exponential_density (hn _ hr)).2.1 x hx, (C10_exponential_density (hn _ hb')).2.1 x hx⟩
  · refine Or.inr ⟨_, Exponential.ld_of_nonneg hr hx, ?_⟩
    rw [Exponential.ld_of_nonneg hb' hx]
    congr 1
    simp only [id]
    ring

theorem ChiSquared.law_eq {k : ℝ} (hk : 0 < k) :
    law volume fin (⟨fin k⟩ : ChiSquared XReal) = law volume fin (⟨fin (k / 2), fin (1 / 2)⟩ : Gamma XReal) := by
  have hn : ChiSquared.new (fin k) = .ok (⟨fin k⟩ : ChiSquared XReal) := by simp [ChiSquared.new, hk]
  have hg : Gamma.new (fin (k / 2)) (fin (1 / 2)) = .ok (⟨fin (k / 2), fin (1 / 2)⟩ : Gamma XReal) := by
    simp [Gamma.new, hk]
  unfold law
  congr 1
  funext x
  rw [(C13_chi_squared_is_gamma hn hg).2.1 x]

/-- **C125**, normal: a linear combination of independent normal variables is normal, with the combined mean
and the root of the combined variance. -/
theorem C125_normal {n : ℕ} {c μ σ : Fin n → ℝ} {d : Fin n → Normal XReal} {d' : Normal XReal}
    (h : ∀ i, Normal.new (fin (μ i)) (fin (σ i)) = .ok (d i))
    (h' : Normal.new (fin (∑ i, c i * μ i)) (fin (Real.sqrt (∑ i, c i ^ 2 * σ i ^ 2))) = .ok d') :
    (MeasureTheory.Measure.pi fun i => law volume fin (d i)).map (fun v => ∑ i, c i * v i)
      = law volume fin d' := by
  have hp : ∀ i, IsProbabilityMeasure (law volume fin (d i)) := fun i =>
    law_prob _ _ _ (C122_regular.1 _ _ _ (h i))
  have hp' := law_prob _ _ _ (C122_regular.1 _ _ _ h')
  obtain ⟨hs, rfl⟩ := Normal.new_ok h'
  refine sum_law _ (fun i x => c i * x) (fun i => by fun_prop) _
    (fun i t => c i * μ i * t + c i ^ 2 * σ i ^ 2 * t ^ 2 / 2) (fun i => ?_) ?_
  · obtain ⟨hσ, hd⟩ := Normal.new_ok (h i)
    rw [hd]
    exact Eventually.of_forall fun t => Normal.mgf_linear hσ (c i) t
  · refine Eventually.of_forall fun t => ?_
    have := Normal.mgf_linear (μ := ∑ i, c i * μ i) hs 1 t
    simp only [one_mul] at this
    refine ⟨this.1, ?_⟩
    have h2 := this.2
    rw [show (fun x : ℝ => x) = id from rfl] at h2
    rw [h2, Real.sq_sqrt (Real.sqrt_pos.mp hs).le]
    congr 1
    rw [Finset.sum_add_distrib, ← Finset.sum_mul, ← Finset.sum_div, ← Finset.sum_mul]
    ring

/-- **C125**, gamma: a sum of independent gamma variables with a common rate is gamma with the summed shape;
in particular a sum of chi-squared variables is chi-squared with the summed degrees of freedom, and a sum of `n`
exponential variables of rate `r` is gamma with shape `n`. -/
theorem C125_gamma {n : ℕ} :
    (∀ (a : Fin n → ℝ) (b : ℝ) (d : Fin n → Gamma XReal) (d' : Gamma XReal),
      (∀ i, Gamma.new (fin (a i)) (fin b) = .ok (d i)) → Gamma.new (fin (∑ i, a i)) (fin b) = .ok d' →
      (MeasureTheory.Measure.pi fun i => law volume fin (d i)).map (fun v => ∑ i, v i) = law volume fin d') ∧
    (∀ (k : Fin n → ℝ) (d : Fin n → ChiSquared XReal) (d' : ChiSquared XReal),
      (∀ i, ChiSquared.new (fin (k i)) = .ok (d i)) → ChiSquared.new (fin (∑ i, k i)) = .ok d' →
      (MeasureTheory.Measure.pi fun i => law volume fin (d i)).map (fun v => ∑ i, v i) = law volume fin d') ∧
    (∀ (r : ℝ) (d : Exponential XReal) (d' : Gamma XReal),
      Exponential.new (fin r) = .ok d → Gamma.new (fin n) (fin r) = .ok d' →
      (MeasureTheory.Measure.pi fun _ : Fin n => law volume fin d).map (fun v => ∑ i, v i) = law volume fin d') := by
  have key : ∀ (a : Fin n → ℝ) (b : ℝ), (∀ i, 0 < a i) → 0 < b → 0 < ∑ i, a i →
      (MeasureTheory.Measure.pi fun i => law volume fin (⟨fin (a i), fin b⟩ : Gamma XReal)).map
        (fun v => ∑ i, v i) = law volume fin (⟨fin (∑ i, a i), fin b⟩ : Gamma XReal) := by
    intro a b ha hb hs
    have hn : ∀ c, 0 < c → Gamma.new (fin c) (fin b) = .ok (⟨fin c, fin b⟩ : Gamma XReal) := by
      intro c h; simp [Gamma.new, h, hb]
    have hp : ∀ i, IsProbabilityMeasure (law volume fin (⟨fin (a i), fin b⟩ : Gamma XReal)) := fun i =>
      law_prob _ _ _ (C122_regular.2.2.1 _ _ _ (hn _ (ha i)))
    have hp' := law_prob _ _ _ (C122_regular.2.2.1 _ _ _ (hn _ hs))
    refine sum_law _ (fun _ => id) (fun i => measurable_id) _
      (fun i t => a i * (Real.log b - Real.log (b - t))) (fun i => ?_) ?_
    · filter_upwards [gt_mem_nhds hb] with t ht using Gamma.mgf_id (ha i) hb ht
    · filter_upwards [gt_mem_nhds hb] with t ht
      rw [← Finset.sum_mul]
      exact Gamma.mgf_id hs hb ht
  refine ⟨?_, ?_, ?_⟩
  · intro a b d d' h h'
    obtain ⟨hs, hb, rfl⟩ := Gamma.new_ok h'
    rw [show d = fun i => ⟨fin (a i), fin b⟩ from funext fun i => (Gamma.new_ok (h i)).2.2]
    exact key a b (fun i => (Gamma.new_ok (h i)).1) hb hs
  · intro k d d' h h'
    obtain ⟨hs, rfl⟩ := ChiSquared.new_ok h'
    rw [show d = fun i => ⟨fin (k i)⟩ from funext fun i => (ChiSquared.new_ok (h i)).2, ChiSquared.law_eq hs,
      Finset.sum_div,
      show (fun i => law volume fin (⟨fin (k i)⟩ : ChiSquared XReal)) = fun i => law volume fin
        (⟨fin (k i / 2), fin (1 / 2)⟩ : Gamma XReal) from
        funext fun i => ChiSquared.law_eq (ChiSquared.new_ok (h i)).1]
    refine key (fun i => k i / 2) (1 / 2) (fun i => half_pos (ChiSquared.new_ok (h i)).1) (by norm_num) ?_
    rw [← Finset.sum_div]; exact half_pos hs
  · intro r d d' h h'
    have hp := law_prob _ _ _ (C122_regular.2.1 _ _ h)
    have hp' := law_prob _ _ _ (C122_regular.2.2.1 _ _ _ h')
    obtain ⟨hr, rfl⟩ := Exponential.new_ok h
    obtain ⟨hs, -, rfl⟩ := Gamma.new_ok h'
    refine sum_law _ (fun _ => id) (fun i => measurable_id) _
      (fun i t => Real.log r - Real.log (r - t)) (fun i => ?_) ?_
    · filter_upwards [gt_mem_nhds hr] with t ht using Exponential.mgf_id hr ht
    · filter_upwards [gt_mem_nhds hr] with t ht
      rw [Finset.sum_const, Finset.card_univ, Fintype.card_fin, nsmul_eq_mul]
      exact Gamma.mgf_id hs hr ht

/-- **C125**, chi-squared: the sum of the squares of `n` independent standardised normal variables is
chi-squared with `n` degrees of freedom. -/
theorem C125_chi_squared {n : ℕ} {μ σ : Fin n → ℝ} {d : Fin n → Normal XReal} {d' : ChiSquared XReal}
    (h : ∀ i, Normal.new (fin (μ i)) (fin (σ i)) = .ok (d i)) (h' : ChiSquared.new (fin n) = .ok d') :
    (MeasureTheory.Measure.pi fun i => law volume fin (d i)).map (fun v => ∑ i, ((v i - μ i) / σ i) ^ 2)
      = law volume fin d' := by
  have hp : ∀ i, IsProbabilityMeasure (law volume fin (d i)) := fun i =>
    law_prob _ _ _ (C122_regular.1 _ _ _ (h i))
  have hp' := law_prob _ _ _ (C122_regular.2.2.2.2.1 _ _ h')
  obtain ⟨hs, rfl⟩ := ChiSquared.new_ok h'
  refine sum_law _ (fun i x => ((x - μ i) / σ i) ^ 2) (fun i => by fun_prop) _
    (fun i t => 1 / 2 * (Real.log (1 / 2) - Real.log (1 / 2 - t))) (fun i => ?_) ?_
  · obtain ⟨hσ, hd⟩ := Normal.new_ok (h i)
    rw [hd]
    filter_upwards [gt_mem_nhds (show (0:ℝ) < 1 / 2 by norm_num)] with t ht using Normal.mgf_square hσ ht
  · filter_upwards [gt_mem_nhds (show (0:ℝ) < 1 / 2 by norm_num)] with t ht
    rw [Finset.sum_const, Finset.card_univ, Fintype.card_fin, nsmul_eq_mul, ← mul_assoc,
      show (n : ℝ) * (1 / 2) = n / 2 by ring, ChiSquared.law_eq hs]
    exact Gamma.mgf_id (half_pos hs) (by norm_num) ht

theorem Exponential.law_eq {r : ℝ} {d : Exponential XReal} (h : Exponential.new (fin r) = .ok d) :
    law volume fin d = expMeasure r := by
  unfold law expMeasure gammaMeasure
  congr 1
  funext x
  rw [(C10_exponential_density h).2.2.1 x]
  rfl

theorem Exponential.tail {r : ℝ} (hr : 0 < r) (x : ℝ) :
    expMeasure r (Set.Ici x) = ENNReal.ofReal (Real.exp (-(r * max x 0))) := by
  have hp := isProbabilityMeasure_expMeasure hr
  have hna : NullSingletonClass (expMeasure r) := by
    unfold expMeasure gammaMeasure; infer_instance
  have h1 : expMeasure r (Set.Ici x) = 1 - expMeasure r (Set.Iic x) := by
    rw [measure_congr Ioi_ae_eq_Ici.symm, ← Set.compl_Iic, prob_compl_eq_one_sub measurableSet_Iic]
  rw [h1, ← ofReal_cdf, cdf_expMeasure_eq hr, ← ENNReal.ofReal_one, ← ENNReal.ofReal_sub]
  · congr 1
    split_ifs with h
    · rw [max_eq_left h]; ring
    · rw [max_eq_right (not_le.mp h).le]; simp
  · split_ifs with h
    · have : Real.exp (-(r * x)) ≤ 1 := Real.exp_le_one_iff.mpr (by have := mul_nonneg hr.le h; linarith)
      linarith
    · exact le_rfl

/-- **C125**, exponential: the smallest of independent exponential variables is exponential with the summed
rate. -/
theorem C125_minimum {n : ℕ} [NeZero n] {r : Fin n → ℝ} {d : Fin n → Exponential XReal} {d' : Exponential XReal}
    (h : ∀ i, Exponential.new (fin (r i)) = .ok (d i)) (h' : Exponential.new (fin (∑ i, r i)) = .ok d') :
    (MeasureTheory.Measure.pi fun i => law volume fin (d i)).map (fun v => ⨅ i, v i) = law volume fin d' := by
  have hr : ∀ i, 0 < r i := fun i => (Exponential.new_ok (h i)).1
  have hs := (Exponential.new_ok h').1
  have hp : ∀ i, IsProbabilityMeasure (expMeasure (r i)) := fun i => isProbabilityMeasure_expMeasure (hr i)
  have hp' := isProbabilityMeasure_expMeasure hs
  rw [Exponential.law_eq h', show (fun i => law volume fin (d i)) = fun i => expMeasure (r i) from
    funext fun i => Exponential.law_eq (h i)]
  have hm : Measurable fun v : Fin n → ℝ => ⨅ i, v i := Measurable.iInf fun i => measurable_pi_apply i
  have : IsProbabilityMeasure ((Measure.pi fun i => expMeasure (r i)).map fun v => ⨅ i, v i) :=
    Measure.isProbabilityMeasure_map hm.aemeasurable
  refine Measure.ext_of_Ici _ _ fun x => ?_
  rw [Measure.map_apply hm measurableSet_Ici]
  have hpre : (fun v : Fin n → ℝ => ⨅ i, v i) ⁻¹' Set.Ici x = Set.univ.pi fun _ => Set.Ici x := by
    ext v
    simp only [Set.mem_preimage, Set.mem_Ici, Set.mem_univ_pi]
    exact le_ciInf_iff (Set.finite_range v).bddBelow
  rw [hpre, Measure.pi_pi, Finset.prod_congr rfl fun i _ => Exponential.tail (hr i) x, Exponential.tail hs,
    ← ENNReal.ofReal_prod_of_nonneg fun i _ => (Real.exp_pos _).le, ← Real.exp_sum, Finset.sum_neg_distrib,
    Finset.sum_mul]
example : Normal.new (fin (∑ i : Fin 2, 1 * (fun _ : Fin 2 => (3:ℝ)) i))
    (fin (Real.sqrt (∑ i : Fin 2, (1:ℝ) ^ 2 * (fun _ : Fin 2 => (2:ℝ)) i ^ 2)))
    = .ok ⟨fin (∑ i : Fin 2, 1 * (fun _ : Fin 2 => (3:ℝ)) i),
      fin (Real.sqrt (∑ i : Fin 2, (1:ℝ) ^ 2 * (fun _ : Fin 2 => (2:ℝ)) i ^ 2))⟩ := by
  simp [Normal.new]
example : Gamma.new (fin (∑ i : Fin 3, (2:ℝ))) (fin 5) = .ok ⟨fin (∑ i : Fin 3, (2:ℝ)), fin 5⟩ := by
  simp [Gamma.new]
example : ChiSquared.new (fin (4:ℕ)) = .ok ⟨fin (4:ℕ)⟩ := by simp [ChiSquared.new]

end Verif
