import Verif.Spec.RadonNikodym
import Verif.Props.CoreDensity
import Mathlib.InformationTheory.KullbackLeibler.Basic

/-!
# C122: relative log-densities are logarithms of Radon–Nikodym derivatives
-/

namespace Verif
open FloatOps XReal LogDensity Spec MeasureTheory InformationTheory

section
variable {M B X α : Type} [MeasurableSpace α]

omit [MeasurableSpace α] in
/-- Pointwise: density of `m` = density of `b` times exponential of the relative log-density; the latter is
also the quotient (with `0/0 = 0`). -/
theorem rel_density [Measure M X] [Measure B X] [HasLogDensity M X XReal] [HasLogDensity B X XReal]
    (lay : Layout) (hl : lay.Apart) (addr : ℕ) (emb : α → X) (m : M) (b : B)
    (hm : Proper emb m) (hb : Proper emb b) (hd : Dominates emb b m) (a : α) :
    ENNReal.ofReal (density (logDensityWrtRoot m (emb a)))
      = ENNReal.ofReal (density (logDensityWrtRoot b (emb a)))
        * ENNReal.ofReal (density (relLogDensity lay addr m b (emb a))) ∧
    ENNReal.ofReal (density (relLogDensity lay addr m b (emb a)))
      = ENNReal.ofReal (density (logDensityWrtRoot m (emb a)))
        / ENNReal.ofReal (density (logDensityWrtRoot b (emb a))) := by
  rw [C01_relative_log_density_apart_partial lay hl]
  rcases hm a with h | h
  · obtain ⟨r, hr⟩ := h
    obtain ⟨s, hs⟩ := hd a ⟨r, hr⟩
    rw [hr, hs, f_sub, density_fin, density_fin, density_fin,
      ← ENNReal.ofReal_mul (Real.exp_pos s).le, ← ENNReal.ofReal_div_of_pos (Real.exp_pos s), ← Real.exp_add,
      ← Real.exp_sub, add_sub_cancel]
    exact ⟨rfl, rfl⟩
  · rw [h]
    rcases hb a with h' | h'
    · obtain ⟨s, hs⟩ := h'
      rw [hs]
      have e : (FloatOps.sub ninf (fin s) : XReal) = ninf := rfl
      simp [e, density]
    · rw [h']
      have e : (FloatOps.sub ninf ninf : XReal) = nan := rfl
      simp [e, density]

/-- **C122**: for every pair of measures with measurable densities, `b` positive wherever `m` is: the
exponential of `m.log_density().wrt(b).at(x)` is the density of `m` with respect to `b`, that is, the
Radon–Nikodym derivative of the two laws (almost everywhere); expectations under `m` are expectations under
`b` weighted by it (importance weights), for every test function.  Missing from the full claim: operands that
share an address (C04). -/
theorem C122_radon_nikodym_partial [Measure M X] [Measure B X] [HasLogDensity M X XReal]
    [HasLogDensity B X XReal] (μ : MeasureTheory.Measure α) [SigmaFinite μ]
    (lay : Layout) (hl : lay.Apart) (addr : ℕ) (emb : α → X) (m : M) (b : B)
    (hm : Proper emb m) (hb : Proper emb b) (hd : Dominates emb b m)
    (mm : MeasurableDensity emb m) (mb : MeasurableDensity emb b) :
    law μ emb m = (law μ emb b).withDensity
      (fun a => ENNReal.ofReal (density (relLogDensity lay addr m b (emb a)))) ∧
    law μ emb m ≪ law μ emb b ∧
    (law μ emb m).rnDeriv (law μ emb b) =ᵐ[law μ emb b]
      (fun a => ENNReal.ofReal (density (relLogDensity lay addr m b (emb a)))) ∧
    (∀ f : α → ℝ, (Integrable f (law μ emb m) ↔
      Integrable (fun a => density (relLogDensity lay addr m b (emb a)) * f a) (law μ emb b)) ∧
      ∫ a, f a ∂(law μ emb m) = ∫ a, density (relLogDensity lay addr m b (emb a)) * f a ∂(law μ emb b)) := by
  have key := rel_density lay hl addr emb m b hm hb hd
  have mm' : Measurable fun a => ENNReal.ofReal (density (logDensityWrtRoot m (emb a))) := mm.ennreal_ofReal
  have mb' : Measurable fun a => ENNReal.ofReal (density (logDensityWrtRoot b (emb a))) := mb.ennreal_ofReal
  have mr : Measurable fun a => ENNReal.ofReal (density (relLogDensity lay addr m b (emb a))) := by
    have : (fun a => ENNReal.ofReal (density (relLogDensity lay addr m b (emb a)))) =
        fun a => ENNReal.ofReal (density (logDensityWrtRoot m (emb a)))
          / ENNReal.ofReal (density (logDensityWrtRoot b (emb a))) := funext fun a => (key a).2
    rw [this]
    exact mm'.div mb'
  have h1 : law μ emb m = (law μ emb b).withDensity
      (fun a => ENNReal.ofReal (density (relLogDensity lay addr m b (emb a)))) := by
    unfold law
    rw [← withDensity_mul _ mb' mr]
    congr 1
    funext a
    exact (key a).1
  have hsf : SigmaFinite (law μ emb b) := by
    unfold law
    exact SigmaFinite.withDensity_of_ne_top (by simp)
  -- almost everywhere under `b` the relative log-density is finite or `-∞`
  have hpos : ∀ᵐ a ∂(law μ emb b), 0 ≤ density (relLogDensity lay addr m b (emb a)) := by
    unfold law
    rw [ae_withDensity_iff mb']
    refine Filter.Eventually.of_forall fun a ha => ?_
    rw [C01_relative_log_density_apart_partial lay hl]
    rcases hb a with h | h
    · obtain ⟨s, hs⟩ := h
      rcases hm a with h' | h'
      · obtain ⟨r, hr⟩ := h'
        rw [hr, hs, f_sub, density_fin]; exact (Real.exp_pos _).le
      · rw [h', hs]
        exact le_refl (0 : ℝ)
    · exact absurd (by rw [h]; simp [density]) ha
  have hre : ∀ f : α → ℝ, (fun a => (ENNReal.ofReal (density (relLogDensity lay addr m b (emb a)))).toReal • f a)
      =ᵐ[law μ emb b] fun a => density (relLogDensity lay addr m b (emb a)) * f a := by
    intro f
    filter_upwards [hpos] with a ha
    rw [ENNReal.toReal_ofReal ha, smul_eq_mul]
  refine ⟨h1, ?_, ?_, fun f => ⟨?_, ?_⟩⟩
  · rw [h1]; exact withDensity_absolutelyContinuous _ _
  · rw [h1]; exact Measure.rnDeriv_withDensity _ mr
  · rw [h1, integrable_withDensity_iff_integrable_smul' mr (by simp)]
    exact integrable_congr (hre f)
  · rw [h1, integral_withDensity_eq_integral_toReal_smul mr (by simp)]
    exact integral_congr_ae (hre f)

/-- Under `m`, the relative log-density is almost everywhere a finite number. -/
theorem law_ae_fin [HasLogDensity M X XReal] (μ : MeasureTheory.Measure α) (emb : α → X) (m : M)
    (hm : Proper emb m) (mm : MeasurableDensity emb m) :
    ∀ᵐ a ∂(law μ emb m), (logDensityWrtRoot m (emb a) : XReal).IsFin := by
  unfold law
  rw [ae_withDensity_iff mm.ennreal_ofReal]
  refine Filter.Eventually.of_forall fun a ha => ?_
  rcases hm a with h | h
  · exact h
  · exact absurd (by rw [h]; simp [density]) ha

/-- **C122**, expected relative log-density: for two probability distributions, `b` positive wherever `m`
is, the expectation under `m` of `m.log_density().wrt(b)` is the Kullback–Leibler divergence; it is never
negative, and (when the expectation exists) it is zero only if the two laws are the same: on average over data
from `m`, no other model has a greater log-density than `m` itself. -/
theorem C122_divergence_partial [Measure M X] [Measure B X] [HasLogDensity M X XReal]
    [HasLogDensity B X XReal] (μ : MeasureTheory.Measure α) [SigmaFinite μ]
    (lay : Layout) (hl : lay.Apart) (addr : ℕ) (emb : α → X) (m : M) (b : B)
    (hm : Proper emb m) (hb : Proper emb b) (hd : Dominates emb b m)
    (mm : MeasurableDensity emb m) (mb : MeasurableDensity emb b)
    (h1 : mass μ emb m = 1) (h2 : mass μ emb b = 1) :
    (klDiv (law μ emb m) (law μ emb b)).toReal
      = ∫ a, (relLogDensity (F := XReal) lay addr m b (emb a)).toReal ∂(law μ emb m) ∧
    0 ≤ ∫ a, (relLogDensity (F := XReal) lay addr m b (emb a)).toReal ∂(law μ emb m) ∧
    (Integrable (fun a => (relLogDensity (F := XReal) lay addr m b (emb a)).toReal) (law μ emb m) →
      (∫ a, (relLogDensity (F := XReal) lay addr m b (emb a)).toReal ∂(law μ emb m) = 0 ↔
        law μ emb m = law μ emb b)) := by
  obtain ⟨-, hac, hrn, -⟩ := C122_radon_nikodym_partial μ lay hl addr emb m b hm hb hd mm mb
  have u1 : law μ emb m Set.univ = 1 := by
    rw [law, withDensity_apply _ MeasurableSet.univ, Measure.restrict_univ]; exact h1
  have u2 : law μ emb b Set.univ = 1 := by
    rw [law, withDensity_apply _ MeasurableSet.univ, Measure.restrict_univ]; exact h2
  have : IsFiniteMeasure (law μ emb m) := ⟨by rw [u1]; exact ENNReal.one_lt_top⟩
  have : IsFiniteMeasure (law μ emb b) := ⟨by rw [u2]; exact ENNReal.one_lt_top⟩
  have hll : llr (law μ emb m) (law μ emb b) =ᵐ[law μ emb m]
      fun a => (relLogDensity (F := XReal) lay addr m b (emb a)).toReal := by
    filter_upwards [hac.ae_le hrn, law_ae_fin μ emb m hm mm] with a ha hf
    obtain ⟨r, hr⟩ := hf
    obtain ⟨s, hs⟩ := hd a ⟨r, hr⟩
    rw [llr_def]
    simp only [ha]
    rw [C01_relative_log_density_apart_partial lay hl, hr, hs, f_sub, density_fin,
      ENNReal.toReal_ofReal (Real.exp_pos _).le, Real.log_exp]
    rfl
  have e : (klDiv (law μ emb m) (law μ emb b)).toReal
      = ∫ a, (relLogDensity (F := XReal) lay addr m b (emb a)).toReal ∂(law μ emb m) := by
    rw [toReal_klDiv_of_measure_eq hac (u1.trans u2.symm), integral_congr_ae hll]
  refine ⟨e, e ▸ ENNReal.toReal_nonneg, fun hi => ?_⟩
  rw [← e, ENNReal.toReal_eq_zero_iff, klDiv_eq_zero_iff]
  have : klDiv (law μ emb m) (law μ emb b) ≠ ⊤ := klDiv_ne_top hac ((integrable_congr hll).2 hi)
  simp [this]

/-- **C122**, points that `b` excludes: where `m` has a finite log-density and `b` has `-∞`, the relative
log-density is `+∞`; these points have no weight under `m` exactly when `m` has a density with respect to
`b` at all. -/
theorem C122_not_dominated_partial [Measure M X] [Measure B X] [HasLogDensity M X XReal]
    [HasLogDensity B X XReal] (μ : MeasureTheory.Measure α) [SigmaFinite μ]
    (lay : Layout) (hl : lay.Apart) (addr : ℕ) (emb : α → X) (m : M) (b : B)
    (hm : Proper emb m) (hb : Proper emb b)
    (mm : MeasurableDensity emb m) (mb : MeasurableDensity emb b) :
    (∀ a, relLogDensity (F := XReal) lay addr m b (emb a) = pinf ↔
      (logDensityWrtRoot m (emb a) : XReal).IsFin ∧ (logDensityWrtRoot b (emb a) : XReal) = ninf) ∧
    (law μ emb m ≪ law μ emb b ↔
      law μ emb m {a | relLogDensity (F := XReal) lay addr m b (emb a) = pinf} = 0) := by
  have hiff : ∀ a, relLogDensity (F := XReal) lay addr m b (emb a) = pinf ↔
      (logDensityWrtRoot m (emb a) : XReal).IsFin ∧ (logDensityWrtRoot b (emb a) : XReal) = ninf := by
    intro a
    rw [C01_relative_log_density_apart_partial lay hl]
    rcases hm a with h | h
    · obtain ⟨r, hr⟩ := h
      rcases hb a with h' | h'
      · obtain ⟨s, hs⟩ := h'
        rw [hr, hs, f_sub]; simp
      · rw [hr, h']
        have e : (FloatOps.sub (fin r) ninf : XReal) = pinf := rfl
        simp [e]
    · rw [h]
      rcases hb a with h' | h'
      · obtain ⟨s, hs⟩ := h'
        rw [hs]
        have e : (FloatOps.sub ninf (fin s) : XReal) = ninf := rfl
        simp [e]
      · rw [h']
        have e : (FloatOps.sub ninf ninf : XReal) = nan := rfl
        simp [e]
  refine ⟨hiff, ?_⟩
  have mb' := mb.ennreal_ofReal
  have mm' := mm.ennreal_ofReal
  have hz : ∀ a, ENNReal.ofReal (density (logDensityWrtRoot b (emb a))) = 0 ↔
      (logDensityWrtRoot b (emb a) : XReal) = ninf := by
    intro a
    rcases hb a with h' | h'
    · obtain ⟨s, hs⟩ := h'
      rw [hs, density_fin]; simp [Real.exp_pos]
    · rw [h']; simp [density]
  have hset : law μ emb b {a | (logDensityWrtRoot b (emb a) : XReal) = ninf} = 0 := by
    have : ∀ᵐ a ∂(law μ emb b), ¬ (logDensityWrtRoot b (emb a) : XReal) = ninf := by
      unfold law
      rw [ae_withDensity_iff mb']
      exact Filter.Eventually.of_forall fun a ha => fun h => ha ((hz a).2 h)
    simpa [ae_iff] using this
  constructor
  · intro hac
    refine measure_mono_null (fun a ha => ?_) (hac hset)
    exact ((hiff a).1 ha).2
  · intro h0
    refine Measure.AbsolutelyContinuous.mk fun s hs hs0 => ?_
    have hae : ∀ᵐ a ∂(law μ emb m), ¬ (logDensityWrtRoot b (emb a) : XReal) = ninf := by
      have h0' : ∀ᵐ a ∂(law μ emb m), ¬ relLogDensity (F := XReal) lay addr m b (emb a) = pinf := by
        simpa [ae_iff] using h0
      filter_upwards [h0', law_ae_fin μ emb m hm mm] with a h1 h2 h3
      exact h1 ((hiff a).2 ⟨h2, h3⟩)
    have hae' : ∀ᵐ a ∂μ, ENNReal.ofReal (density (logDensityWrtRoot m (emb a))) ≠ 0 →
        ENNReal.ofReal (density (logDensityWrtRoot b (emb a))) ≠ 0 := by
      unfold law at hae
      rw [ae_withDensity_iff mm'] at hae
      filter_upwards [hae] with a ha h1 h2
      exact ha h1 ((hz a).1 h2)
    unfold law at hs0 ⊢
    rw [withDensity_apply _ hs, lintegral_eq_zero_iff mb'] at hs0
    rw [withDensity_apply _ hs, lintegral_eq_zero_iff mm']
    filter_upwards [hs0, ae_restrict_of_ae hae'] with a h1 h2
    by_contra h3
    exact h2 h3 h1

end
end Verif
