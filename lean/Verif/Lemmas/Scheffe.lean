import Verif.Spec.Distance
import Verif.Spec.RadonNikodym
import Verif.Props.RadonNikodym
import Verif.Props.Product
import Mathlib.MeasureTheory.Integral.DominatedConvergence
import Mathlib.MeasureTheory.Integral.Bochner.Set

/-! Densities that converge pointwise give distributions that converge in total variation. -/

namespace Verif
open FloatOps XReal Spec MeasureTheory Filter Topology

variable {α ι : Type} [MeasurableSpace α] {μ : MeasureTheory.Measure α}

/-- a probability density -/
structure IsPdf (μ : MeasureTheory.Measure α) (p : α → ℝ) : Prop where
  nonneg : ∀ a, 0 ≤ p a
  measurable : Measurable p
  mass : ∫⁻ a, ENNReal.ofReal (p a) ∂μ = 1

theorem IsPdf.integrable {p : α → ℝ} (h : IsPdf μ p) : Integrable p μ := by
  refine ⟨h.measurable.aestronglyMeasurable, ?_⟩
  rw [hasFiniteIntegral_iff_ofReal (Eventually.of_forall h.nonneg), h.mass]
  exact ENNReal.one_lt_top

theorem IsPdf.integral {p : α → ℝ} (h : IsPdf μ p) : ∫ a, p a ∂μ = 1 := by
  rw [integral_eq_lintegral_of_nonneg_ae (Eventually.of_forall h.nonneg) h.measurable.aestronglyMeasurable, h.mass]
  rfl

theorem pdf_close {p q : α → ℝ} (hp : IsPdf μ p) (hq : IsPdf μ q) {A : Set α} (hA : MeasurableSet A) :
    |∫ a in A, q a ∂μ - ∫ a in A, p a ∂μ| ≤ ∫ a, max (p a - q a) 0 ∂μ := by
  have hi : Integrable (fun a => max (p a - q a) 0) μ := (hp.integrable.sub hq.integrable).pos_part
  have key : ∀ B : Set α, MeasurableSet B →
      ∫ a in B, p a ∂μ - ∫ a in B, q a ∂μ ≤ ∫ a, max (p a - q a) 0 ∂μ := by
    intro B hB
    rw [← integral_sub hp.integrable.integrableOn hq.integrable.integrableOn]
    calc ∫ a in B, (p a - q a) ∂μ ≤ ∫ a in B, max (p a - q a) 0 ∂μ :=
          setIntegral_mono (hp.integrable.sub hq.integrable).integrableOn hi.integrableOn fun a => le_max_left _ _
      _ ≤ _ := setIntegral_le_integral hi (Eventually.of_forall fun a => le_max_right _ _)
  have h1 := key A hA
  have h2 := key Aᶜ hA.compl
  have e1 := integral_add_compl hA hp.integrable
  have e2 := integral_add_compl hA hq.integrable
  rw [hp.integral] at e1
  rw [hq.integral] at e2
  rw [abs_le]
  constructor <;> linarith

theorem pdf_tendsto {l : Filter ι} [l.IsCountablyGenerated] {p : α → ℝ} {P : ι → α → ℝ} (hp : IsPdf μ p)
    (hP : ∀ᶠ i in l, IsPdf μ (P i)) (h : ∀ᵐ a ∂μ, Tendsto (fun i => P i a) l (𝓝 (p a))) :
    Tendsto (fun i => ∫ a, max (p a - P i a) 0 ∂μ) l (𝓝 0) := by
  have h0 : ∫ _ : α, (0 : ℝ) ∂μ = 0 := integral_zero _ _
  suffices hs : Tendsto (fun i => ∫ a, max (p a - P i a) 0 ∂μ) l (𝓝 (∫ _ : α, (0 : ℝ) ∂μ)) by rwa [h0] at hs
  refine tendsto_integral_filter_of_dominated_convergence p ?_ ?_ hp.integrable ?_
  · filter_upwards [hP] with i hi
    exact (hp.integrable.sub hi.integrable).pos_part.aestronglyMeasurable
  · filter_upwards [hP] with i hi
    refine Eventually.of_forall fun a => ?_
    rw [Real.norm_of_nonneg (le_max_right _ _)]
    exact max_le (by linarith [hi.nonneg a]) (hp.nonneg a)
  · filter_upwards [h] with a ha
    have := ((tendsto_const_nhds (x := p a)).sub ha).max (tendsto_const_nhds (x := (0 : ℝ)))
    simpa using this

theorem Spec.RegularLaw.isPdf {M X : Type} [HasLogDensity M X XReal] {emb : α → X} {m : M} (h : RegularLaw μ emb m) :
    IsPdf μ fun a => density (logDensityWrtRoot m (emb a) : XReal) :=
  ⟨fun a => density_nonneg_of_proper (h.proper a), h.measurable, h.mass_one⟩

theorem Spec.RegularLaw.real_apply {M X : Type} [HasLogDensity M X XReal] {emb : α → X} {m : M} (h : RegularLaw μ emb m)
    {A : Set α} (hA : MeasurableSet A) :
    (law μ emb m).real A = ∫ a in A, density (logDensityWrtRoot m (emb a) : XReal) ∂μ := by
  rw [Measure.real, law, withDensity_apply _ hA,
    integral_eq_lintegral_of_nonneg_ae (Eventually.of_forall h.isPdf.nonneg)
      h.measurable.aestronglyMeasurable]

/-- **Scheffé.** -/
theorem law_close {M N X : Type} [HasLogDensity M X XReal] [HasLogDensity N X XReal] {emb : α → X} {l : Filter ι}
    [l.IsCountablyGenerated] {d : M} {D : ι → N} (hd : RegularLaw μ emb d) (hD : ∀ᶠ i in l, RegularLaw μ emb (D i))
    (h : ∀ᵐ a ∂μ, Tendsto (fun i => density (logDensityWrtRoot (D i) (emb a) : XReal)) l
      (𝓝 (density (logDensityWrtRoot d (emb a) : XReal)))) {ε : ℝ} (hε : 0 < ε) :
    ∀ᶠ i in l, Close (law μ emb (D i)) (law μ emb d) ε := by
  have ht := pdf_tendsto hd.isPdf (hD.mono fun i hi => hi.isPdf) h
  filter_upwards [hD, ht.eventually_lt_const hε] with i hi h1 A hA
  rw [hi.real_apply hA, hd.real_apply hA]
  exact (pdf_close hd.isPdf hi.isPdf hA).trans h1.le

end Verif
