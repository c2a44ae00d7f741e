import Verif.Spec.Testing
import Verif.Props.Ordering
import Verif.Props.Tails
import Verif.Props.Sufficient
import Verif.Props.Laws
import Verif.Props.Bayes
import Verif.Props.Identifiable

/-!
# C141: decisions by the relative log-density are optimal
-/

namespace Verif
open FloatOps XReal Spec MeasureTheory ProbabilityTheory Filter LogDensity

section core
variable {α : Type} [MeasurableSpace α] {ν : MeasureTheory.Measure α} {p q : α → ℝ}

/-- the integral of a bounded function with respect to a density -/
theorem integral_density_eq (mp : Measurable p) (p0 : ∀ a, 0 ≤ p a) (g : α → ℝ) :
    ∫ a, g a ∂(ν.withDensity fun a => ENNReal.ofReal (p a)) = ∫ a, p a * g a ∂ν := by
  rw [integral_withDensity_eq_integral_toReal_smul mp.ennreal_ofReal (ae_of_all _ fun a => ENNReal.ofReal_lt_top)]
  refine integral_congr_ae (ae_of_all _ fun a => ?_)
  simp only [ENNReal.toReal_ofReal (p0 a), smul_eq_mul]

theorem integrable_of_mass_one (mp : Measurable p) (p0 : ∀ a, 0 ≤ p a) (ip : ∫⁻ a, ENNReal.ofReal (p a) ∂ν = 1) :
    Integrable p ν :=
  ⟨mp.aestronglyMeasurable, by rw [hasFiniteIntegral_iff_ofReal (ae_of_all _ p0), ip]; exact ENNReal.one_lt_top⟩

theorem integrable_rule (ip : Integrable p ν) {φ : α → ℝ} (hφ : DecisionRule φ) :
    Integrable (fun a => p a * φ a) ν := by
  refine ip.mul_bdd (c := 1) hφ.measurable.aestronglyMeasurable (ae_of_all _ fun a => ?_)
  rw [Real.norm_of_nonneg (hφ.nonneg a)]
  exact hφ.le_one a

theorem rule_indicator {R : Set α} (hR : MeasurableSet R) : DecisionRule (R.indicator (1 : α → ℝ)) where
  measurable := measurable_one.indicator hR
  nonneg a := Set.indicator_nonneg (fun _ _ => zero_le_one) a
  le_one a := Set.indicator_le_self' (fun _ _ => zero_le_one) a

theorem real_eq_integral_indicator (P : MeasureTheory.Measure α) {R : Set α} (hR : MeasurableSet R) :
    P.real R = ∫ a, R.indicator (1 : α → ℝ) a ∂P := (integral_indicator_one hR).symm

/-- The comparison behind the Neyman–Pearson lemma. -/
theorem region_gain (mp : Measurable p) (mq : Measurable q) (p0 : ∀ a, 0 ≤ p a) (q0 : ∀ a, 0 ≤ q a)
    (ip : ∫⁻ a, ENNReal.ofReal (p a) ∂ν = 1) (iq : ∫⁻ a, ENNReal.ofReal (q a) ∂ν = 1) {R : Set α}
    (mR : MeasurableSet R) {k : ℝ} (hR : ∀ a ∈ R, k * q a ≤ p a) (hR' : ∀ a ∉ R, p a ≤ k * q a) {φ : α → ℝ}
    (hφ : DecisionRule φ) :
    k * ((ν.withDensity fun a => ENNReal.ofReal (q a)).real R - ∫ a, φ a ∂(ν.withDensity fun a => ENNReal.ofReal (q a)))
      ≤ (ν.withDensity fun a => ENNReal.ofReal (p a)).real R
        - ∫ a, φ a ∂(ν.withDensity fun a => ENNReal.ofReal (p a)) := by
  have Ip := integrable_of_mass_one mp p0 ip
  have Iq := integrable_of_mass_one mq q0 iq
  have hI := rule_indicator mR
  rw [real_eq_integral_indicator _ mR, real_eq_integral_indicator _ mR, integral_density_eq mp p0,
    integral_density_eq mp p0, integral_density_eq mq q0, integral_density_eq mq q0,
    ← integral_sub (integrable_rule Iq hI) (integrable_rule Iq hφ),
    ← integral_sub (integrable_rule Ip hI) (integrable_rule Ip hφ), ← integral_const_mul]
  refine integral_mono (((integrable_rule Iq hI).sub (integrable_rule Iq hφ)).const_mul k)
    ((integrable_rule Ip hI).sub (integrable_rule Ip hφ)) fun a => ?_
  by_cases ha : a ∈ R
  · have := mul_le_mul_of_nonneg_right (hR a ha) (sub_nonneg.2 (hφ.le_one a))
    simp only [Set.indicator_of_mem ha, Pi.one_apply]
    linarith
  · have := mul_le_mul_of_nonneg_right (hR' a ha) (hφ.nonneg a)
    simp only [Set.indicator_of_notMem ha]
    linarith

theorem neyman_pearson (mp : Measurable p) (mq : Measurable q) (p0 : ∀ a, 0 ≤ p a) (q0 : ∀ a, 0 ≤ q a)
    (ip : ∫⁻ a, ENNReal.ofReal (p a) ∂ν = 1) (iq : ∫⁻ a, ENNReal.ofReal (q a) ∂ν = 1) {R : Set α}
    (mR : MeasurableSet R) {k : ℝ} (hk : 0 ≤ k) (hR : ∀ a ∈ R, k * q a ≤ p a) (hR' : ∀ a ∉ R, p a ≤ k * q a) :
    MostPowerful (ν.withDensity fun a => ENNReal.ofReal (p a)) (ν.withDensity fun a => ENNReal.ofReal (q a)) R ∧
    LeastError k (ν.withDensity fun a => ENNReal.ofReal (p a)) (ν.withDensity fun a => ENNReal.ofReal (q a)) R := by
  have key := fun (φ : α → ℝ) (hφ : DecisionRule φ) => region_gain mp mq p0 q0 ip iq mR hR hR' hφ
  have prob : IsProbabilityMeasure (ν.withDensity fun a => ENNReal.ofReal (p a)) :=
    ⟨by rw [withDensity_apply _ MeasurableSet.univ, Measure.restrict_univ]; exact ip⟩
  refine ⟨⟨mR, fun φ hφ h => ?_⟩, mR, fun φ hφ => ?_⟩
  · have := mul_nonneg hk (sub_nonneg.2 h)
    linarith [key φ hφ]
  · have hi : Integrable φ (ν.withDensity fun a => ENNReal.ofReal (p a)) :=
      Integrable.of_bound hφ.measurable.aestronglyMeasurable 1 (ae_of_all _ fun a => by
        rw [Real.norm_of_nonneg (hφ.nonneg a)]; exact hφ.le_one a)
    rw [integral_sub (integrable_const (1:ℝ)) hi, probReal_compl_eq_one_sub mR]
    simp only [integral_const, probReal_univ, smul_eq_mul, mul_one]
    linarith [key φ hφ]

/-- One-sided decisions: the ratio of the densities increases with a statistic `T`. -/
theorem one_sided (mp : Measurable p) (mq : Measurable q) (p0 : ∀ a, 0 ≤ p a) (q0 : ∀ a, 0 ≤ q a)
    (ip : ∫⁻ a, ENNReal.ofReal (p a) ∂ν = 1) (iq : ∫⁻ a, ENNReal.ofReal (q a) ∂ν = 1) {R : Set α}
    (mR : MeasurableSet R) (hz : ∀ a, q a = 0 → p a = 0)
    (hR : ∀ x ∉ R, ∀ y ∈ R, p x * q y ≤ p y * q x) :
    MostPowerful (ν.withDensity fun a => ENNReal.ofReal (p a)) (ν.withDensity fun a => ENNReal.ofReal (q a)) R := by
  refine ⟨mR, fun φ hφ h => ?_⟩
  have Ip := integrable_of_mass_one mp p0 ip
  have Iq := integrable_of_mass_one mq q0 iq
  have hI := rule_indicator mR
  set g : α → ℝ := fun a => R.indicator 1 a * (1 - φ a) with hg
  set f : α → ℝ := fun a => (1 - R.indicator 1 a) * φ a with hf
  have i01 := hI.nonneg
  have i11 := hI.le_one
  have rg : DecisionRule g := ⟨hI.measurable.mul (measurable_const.sub hφ.measurable),
    fun a => mul_nonneg (i01 a) (sub_nonneg.2 (hφ.le_one a)),
    fun a => mul_le_one₀ (i11 a) (sub_nonneg.2 (hφ.le_one a)) (by linarith [hφ.nonneg a])⟩
  have rf : DecisionRule f := ⟨(measurable_const.sub hI.measurable).mul hφ.measurable,
    fun a => mul_nonneg (sub_nonneg.2 (i11 a)) (hφ.nonneg a),
    fun a => mul_le_one₀ (by linarith [i01 a]) (hφ.nonneg a) (hφ.le_one a)⟩
  have diff : ∀ {r : α → ℝ}, Integrable r ν → (∫ a, r a * R.indicator 1 a ∂ν) - ∫ a, r a * φ a ∂ν
      = (∫ a, r a * g a ∂ν) - ∫ a, r a * f a ∂ν := by
    intro r ir
    rw [← integral_sub (integrable_rule ir hI) (integrable_rule ir hφ),
      ← integral_sub (integrable_rule ir rg) (integrable_rule ir rf)]
    refine integral_congr_ae (ae_of_all _ fun a => ?_)
    simp only [hg, hf]
    ring
  rw [real_eq_integral_indicator _ mR, integral_density_eq mq q0, integral_density_eq mq q0] at h
  rw [real_eq_integral_indicator _ mR, integral_density_eq mp p0, integral_density_eq mp p0]
  have dq := diff Iq
  have dp := diff Ip
  have cross : (∫ a, p a * f a ∂ν) * (∫ a, q a * g a ∂ν) ≤ (∫ a, p a * g a ∂ν) * ∫ a, q a * f a ∂ν := by
    rw [mul_comm (∫ a, p a * g a ∂ν), ← integral_mul_const, ← integral_mul_const]
    refine integral_mono ((integrable_rule Ip rf).mul_const _) ((integrable_rule Iq rf).mul_const _) fun x => ?_
    simp only
    rw [← integral_const_mul, ← integral_const_mul]
    refine integral_mono ((integrable_rule Iq rg).const_mul _) ((integrable_rule Ip rg).const_mul _) fun y => ?_
    simp only [hg, hf]
    by_cases hx : x ∈ R
    · simp [Set.indicator_of_mem hx]
    · by_cases hy : y ∈ R
      · rw [Set.indicator_of_notMem hx, Set.indicator_of_mem hy, Pi.one_apply]
        have := mul_le_mul_of_nonneg_right (hR x hx y hy) (mul_nonneg (hφ.nonneg x) (sub_nonneg.2 (hφ.le_one y)))
        linarith
      · simp [Set.indicator_of_notMem hy]
  have nonneg : ∀ {r s : α → ℝ}, (∀ a, 0 ≤ r a) → DecisionRule s → 0 ≤ ∫ a, r a * s a ∂ν := fun r0 hs =>
    integral_nonneg fun a => mul_nonneg (r0 a) (hs.nonneg a)
  rcases (nonneg q0 rg).eq_or_lt with hD | hD
  · have hB : ∫ a, q a * f a ∂ν = 0 := le_antisymm (by linarith) (nonneg q0 rf)
    have := (integral_eq_zero_iff_of_nonneg (fun a => mul_nonneg (q0 a) (rf.nonneg a)) (integrable_rule Iq rf)).1 hB
    have hC : ∫ a, p a * f a ∂ν = 0 := by
      refine (integral_congr_ae (g := fun _ => 0) ?_).trans (by simp)
      filter_upwards [this] with a ha
      rcases mul_eq_zero.1 ha with h | h
      · rw [hz a h, zero_mul]
      · rw [h, mul_zero]
    have := nonneg p0 rg
    linarith
  · have hBD : ∫ a, q a * f a ∂ν ≤ ∫ a, q a * g a ∂ν := by linarith
    have := mul_le_mul_of_nonneg_left hBD (nonneg p0 rg)
    have := le_of_mul_le_mul_right (cross.trans this) hD
    linarith

end core

/-! ### the relative log-density -/

theorem rel_lt_iff {x y : XReal} (hx : x.IsFin ∨ x = ninf) (hy : y.IsFin ∨ y = ninf) (t : ℝ) :
    (fin t <. (x -. y)) = true ↔ Real.exp t * density y < density x := by
  rcases hx with ⟨a, rfl⟩ | rfl <;> rcases hy with ⟨b, rfl⟩ | rfl
  · rw [f_sub, density_fin, density_fin, ← Real.exp_add, Real.exp_lt_exp, f_lt, decide_eq_true_eq]
    exact lt_sub_iff_add_lt
  · have e : (fin t <. (fin a -. ninf) : Bool) = true := rfl
    rw [e]; simp [Real.exp_pos]
  · have e : (fin t <. (ninf -. fin b) : Bool) = false := rfl
    rw [e]; simp [(mul_pos (Real.exp_pos t) (Real.exp_pos b)).le]
  · have e : (fin t <. (ninf -. ninf) : Bool) = false := rfl
    rw [e]; simp

theorem rel_le_iff {x y : XReal} (hx : x.IsFin ∨ x = ninf) (hy : y.IsFin ∨ y = ninf) (t : ℝ) :
    (fin t ≤. (x -. y)) = true ↔ Real.exp t * density y ≤ density x ∧ 0 < density x := by
  rcases hx with ⟨a, rfl⟩ | rfl <;> rcases hy with ⟨b, rfl⟩ | rfl
  · rw [f_sub, density_fin, density_fin, ← Real.exp_add, Real.exp_le_exp, f_le, decide_eq_true_eq, le_sub_iff_add_le]
    exact (and_iff_left (Real.exp_pos a)).symm
  · have e : (fin t ≤. (fin a -. ninf) : Bool) = true := rfl
    rw [e]; simp [Real.exp_pos, (Real.exp_pos a).le]
  · have e : (fin t ≤. (ninf -. fin b) : Bool) = false := rfl
    rw [e]; simp
  · have e : (fin t ≤. (ninf -. ninf) : Bool) = false := rfl
    rw [e]; simp

/-- both forms of the threshold, for any two densities with values `X a` and `Y a` of their logarithms -/
theorem threshold_optimal {α : Type} [MeasurableSpace α] {ν : MeasureTheory.Measure α} {X Y : α → XReal}
    (hX : ∀ a, (X a).IsFin ∨ X a = ninf) (hY : ∀ a, (Y a).IsFin ∨ Y a = ninf)
    (mX : Measurable fun a => density (X a)) (mY : Measurable fun a => density (Y a))
    (iX : ∫⁻ a, ENNReal.ofReal (density (X a)) ∂ν = 1) (iY : ∫⁻ a, ENNReal.ofReal (density (Y a)) ∂ν = 1)
    (t : ℝ) {R : Set α} (hR : R = {a | (fin t <. (X a -. Y a)) = true} ∨ R = {a | (fin t ≤. (X a -. Y a)) = true}) :
    MostPowerful (ν.withDensity fun a => ENNReal.ofReal (density (X a)))
      (ν.withDensity fun a => ENNReal.ofReal (density (Y a))) R ∧
    LeastError (Real.exp t) (ν.withDensity fun a => ENNReal.ofReal (density (X a)))
      (ν.withDensity fun a => ENNReal.ofReal (density (Y a))) R := by
  have nn : ∀ {x : XReal}, x.IsFin ∨ x = ninf → 0 ≤ density x := fun h => by
    rcases h with ⟨r, rfl⟩ | rfl
    · exact (Real.exp_pos r).le
    · exact le_refl (0:ℝ)
  have mt := mY.const_mul (Real.exp t)
  rcases hR with rfl | rfl
  · simp only [rel_lt_iff (hX _) (hY _)]
    exact neyman_pearson mX mY (fun a => nn (hX a)) (fun a => nn (hY a)) iX iY (measurableSet_lt mt mX)
      (Real.exp_pos t).le (fun a (ha : _ < _) => ha.le) fun a ha => not_lt.1 ha
  · simp only [rel_le_iff (hX _) (hY _)]
    refine neyman_pearson mX mY (fun a => nn (hX a)) (fun a => nn (hY a)) iX iY
      ((measurableSet_le mt mX).inter (measurableSet_lt measurable_const mX)) (Real.exp_pos t).le
      (fun a ha => ha.1) fun a ha => ?_
    by_contra hc
    push Not at hc
    exact ha ⟨hc.le, lt_of_le_of_lt (mul_nonneg (Real.exp_pos t).le (nn (hY a))) hc⟩

/-- two distributions that occupy memory are at different addresses (C04) -/
theorem apart_of_legal {lay : Layout} (hl : lay.Legal) (hM : 0 < lay.sizeMeasure) (hB : 0 < lay.sizeBase) : lay.Apart :=
  fun h => C04_shortcut_never_fires_partial lay hl hM hB 0 (by rw [h])

/-- **C141**: deciding between two distributions (of any families) by comparing `d.log_density().wrt(d').at(x)` with a
threshold `t`, strictly or not, is most powerful, and has the least error when a wrong decision for `d` counts `e^t` times. -/
theorem C141_most_powerful {M N X α : Type} [MeasurableSpace α] [Measure M X] [Measure N X]
    [HasLogDensity M X XReal] [HasLogDensity N X XReal] {ν : MeasureTheory.Measure α} {e : α → X} {d : M} {d' : N}
    (h : RegularLaw ν e d) (h' : RegularLaw ν e d') (lay : Layout) (hl : lay.Legal)
    (hM : 0 < lay.sizeMeasure) (hB : 0 < lay.sizeBase) (addr : ℕ) (t : ℝ) (R : Set α)
    (hR : R = {a | (fin t <. relLogDensity (F := XReal) lay addr d d' (e a)) = true} ∨
      R = {a | (fin t ≤. relLogDensity (F := XReal) lay addr d d' (e a)) = true}) :
    MostPowerful (law ν e d) (law ν e d') R ∧ LeastError (Real.exp t) (law ν e d) (law ν e d') R := by
  simp only [C01_relative_log_density_apart_partial lay (apart_of_legal hl hM hB)] at hR
  exact threshold_optimal h.proper h'.proper h.measurable h'.measurable h.mass_one h'.mass_one t hR

/-- **C141**, the size of the least total error: it is the overlap of the two densities. -/
theorem C141_overlap {M N X α : Type} [MeasurableSpace α] [Measure M X] [Measure N X]
    [HasLogDensity M X XReal] [HasLogDensity N X XReal] {ν : MeasureTheory.Measure α} {e : α → X} {d : M} {d' : N}
    (h : RegularLaw ν e d) (h' : RegularLaw ν e d') (lay : Layout) (hl : lay.Legal)
    (hM : 0 < lay.sizeMeasure) (hB : 0 < lay.sizeBase) (addr : ℕ) :
    (law ν e d').real {a | (fin 0 <. relLogDensity (F := XReal) lay addr d d' (e a)) = true}
      + (law ν e d).real {a | (fin 0 <. relLogDensity (F := XReal) lay addr d d' (e a)) = true}ᶜ
      = ∫ a, min (density (logDensityWrtRoot d (e a) : XReal)) (density (logDensityWrtRoot d' (e a) : XReal)) ∂ν := by
  simp only [C01_relative_log_density_apart_partial lay (apart_of_legal hl hM hB), rel_lt_iff (h.proper _) (h'.proper _), Real.exp_zero, one_mul]
  have mR : MeasurableSet {a | density (logDensityWrtRoot d' (e a) : XReal) < density (logDensityWrtRoot d (e a) : XReal)} :=
    measurableSet_lt h'.measurable h.measurable
  have hi : Integrable (fun a => min (density (logDensityWrtRoot d (e a) : XReal))
      (density (logDensityWrtRoot d' (e a) : XReal))) ν := (integrable_density h).1.inf (integrable_density h').1
  rw [law_real_set h' mR, law_real_set h mR.compl, ← integral_add_compl mR hi]
  congr 1
  · exact setIntegral_congr_fun mR fun a ha => (min_eq_right (le_of_lt ha)).symm
  · exact setIntegral_congr_fun mR.compl fun a ha => (min_eq_left (le_of_not_gt fun hc => ha hc)).symm

/-! ### samples -/

/-- the product of the laws as a density -/
theorem pi_law_density {M X α : Type} [MeasurableSpace α] [HasLogDensity M X XReal] {ν : MeasureTheory.Measure α}
    [SigmaFinite ν] {e : α → X} {d : M} (h : RegularLaw ν e d) (n : ℕ) :
    Measure.pi (fun _ : Fin n => law ν e d) = (Measure.pi fun _ => ν).withDensity (fun v =>
      ENNReal.ofReal (density ((IID.ofDist d).iidLogDensityFallback (List.ofFn fun i => e (v i))))) ∧
    (∀ v : Fin n → α, (((IID.ofDist d).iidLogDensityFallback (List.ofFn fun i => e (v i)) : XReal).IsFin ∨
      ((IID.ofDist d).iidLogDensityFallback (List.ofFn fun i => e (v i)) : XReal) = ninf) ∧
      density ((IID.ofDist d).iidLogDensityFallback (List.ofFn fun i => e (v i)))
        = ∏ i, density (logDensityWrtRoot d (e (v i)) : XReal)) ∧
    (Measurable fun v : Fin n → α =>
      density ((IID.ofDist d).iidLogDensityFallback (List.ofFn fun i => e (v i)))) ∧
    ∫⁻ v : Fin n → α, ENNReal.ofReal (density ((IID.ofDist d).iidLogDensityFallback (List.ofFn fun i => e (v i))))
      ∂(Measure.pi fun _ => ν) = 1 := by
  have key := C124_iid_fallback ν e d h n
  have val : ∀ v : Fin n → α, (((IID.ofDist d).iidLogDensityFallback (List.ofFn fun i => e (v i)) : XReal).IsFin ∨
      ((IID.ofDist d).iidLogDensityFallback (List.ofFn fun i => e (v i)) : XReal) = ninf) ∧
      density ((IID.ofDist d).iidLogDensityFallback (List.ofFn fun i => e (v i)))
        = ∏ i, density (logDensityWrtRoot d (e (v i)) : XReal) := fun v => by
    have s := density_sum ((List.ofFn fun i => e (v i)).map fun x => logDensityWrtRoot d x) (by
      intro w hw
      obtain ⟨x, hx, rfl⟩ := List.mem_map.1 hw
      obtain ⟨i, rfl⟩ := List.mem_ofFn.1 hx
      exact h.proper (v i))
    refine ⟨s.2, s.1.trans ?_⟩
    rw [List.map_map, List.map_ofFn, List.prod_ofFn]
    rfl
  refine ⟨key.1.symm, val, ?_, ?_⟩
  · simp only [fun v => (val v).2]
    exact Finset.measurable_prod _ fun i _ => h.measurable.comp (measurable_pi_apply i)
  · have := key.2.1.measure_univ
    rwa [jointLaw, withDensity_apply _ MeasurableSet.univ, Measure.restrict_univ] at this

/-- **C141** for samples of any size: comparing the difference of the two joint log-densities with a threshold. -/
theorem C141_sample {M N X α : Type} [MeasurableSpace α] [HasLogDensity M X XReal] [HasLogDensity N X XReal]
    {ν : MeasureTheory.Measure α} [SigmaFinite ν] {e : α → X} {d : M} {d' : N} (h : RegularLaw ν e d)
    (h' : RegularLaw ν e d') (n : ℕ) (t : ℝ) (R : Set (Fin n → α))
    (hR : R = {v | (fin t <. ((IID.ofDist d).iidLogDensityFallback (List.ofFn fun i => e (v i))
        -. (IID.ofDist d').iidLogDensityFallback (List.ofFn fun i => e (v i)))) = true} ∨
      R = {v | (fin t ≤. ((IID.ofDist d).iidLogDensityFallback (List.ofFn fun i => e (v i))
        -. (IID.ofDist d').iidLogDensityFallback (List.ofFn fun i => e (v i)))) = true}) :
    MostPowerful (Measure.pi fun _ => law ν e d) (Measure.pi fun _ => law ν e d') R ∧
    LeastError (Real.exp t) (Measure.pi fun _ => law ν e d) (Measure.pi fun _ => law ν e d') R := by
  obtain ⟨e1, v1, m1, i1⟩ := pi_law_density h n
  obtain ⟨e2, v2, m2, i2⟩ := pi_law_density h' n
  rw [e1, e2]
  exact threshold_optimal (fun v => (v1 v).1) (fun v => (v2 v).1) m1 m2 i1 i2 t hR

/-! ### one-sided decisions -/

/-- **C141**, one-sided decisions: in the likelihood-ratio order (C134), deciding for `hi` when the observation is large is
most powerful, whatever `hi` is. -/
theorem C141_one_sided {M N X α : Type} [MeasurableSpace α] [LinearOrder α] [HasLogDensity M X XReal]
    [HasLogDensity N X XReal] {ν : MeasureTheory.Measure α} {e : α → X} {lo : M} {hi : N}
    (hl : RegularLaw ν e lo) (hh : RegularLaw ν e hi) (ho : LikelihoodOrder e lo hi) (hd : Dominates e lo hi)
    (U : Set α) (hU : IsUpperSet U) (mU : MeasurableSet U) : MostPowerful (law ν e hi) (law ν e lo) U := by
  refine one_sided hh.measurable hl.measurable (fun a => density_nonneg_of_proper (hh.proper a))
    (fun a => density_nonneg_of_proper (hl.proper a)) hh.mass_one hl.mass_one mU (fun a ha => ?_) fun x hx y hy => ?_
  · rcases hh.proper a with hf | hf
    · obtain ⟨r, hr⟩ := hd a hf
      rw [hr, density_fin] at ha
      exact absurd ha (Real.exp_pos r).ne'
    · rw [hf]; exact density_ninf
  · exact ho x y (le_of_lt (not_le.1 fun hle => hx (hU hle hy)))

/-- samples: the log-densities differ by an increasing affine function of a statistic `T` on the common support -/
theorem sample_one_sided {M N X α : Type} [MeasurableSpace α] [HasLogDensity M X XReal] [HasLogDensity N X XReal]
    {ν : MeasureTheory.Measure α} [SigmaFinite ν] {e : α → X} {lo : M} {hi : N} (hl : RegularLaw ν e lo)
    (hh : RegularLaw ν e hi) {S : α → Prop} {u v T : α → ℝ} {a b : ℝ} (ha : 0 ≤ a) (mT : Measurable T)
    (hu : ∀ x, S x → (logDensityWrtRoot lo (e x) : XReal) = fin (u x))
    (hv : ∀ x, S x → (logDensityWrtRoot hi (e x) : XReal) = fin (v x))
    (nu : ∀ x, ¬ S x → (logDensityWrtRoot lo (e x) : XReal) = ninf)
    (nv : ∀ x, ¬ S x → (logDensityWrtRoot hi (e x) : XReal) = ninf)
    (hT : ∀ x, S x → v x - u x = a * T x + b) (n : ℕ) (c : ℝ) :
    MostPowerful (Measure.pi fun _ : Fin n => law ν e hi) (Measure.pi fun _ => law ν e lo) {x | c ≤ ∑ i, T (x i)} := by
  obtain ⟨e1, v1, m1, i1⟩ := pi_law_density hl n
  obtain ⟨e2, v2, m2, i2⟩ := pi_law_density hh n
  have mR : MeasurableSet {x : Fin n → α | c ≤ ∑ i, T (x i)} :=
    measurableSet_le measurable_const (Finset.measurable_sum _ fun i _ => mT.comp (measurable_pi_apply i))
  have p1 : ∀ x : Fin n → α, (∀ i, S (x i)) → ∏ i : Fin n, density (logDensityWrtRoot lo (e (x i)) : XReal)
      = Real.exp (∑ i, u (x i)) := fun x hx => by
    rw [Real.exp_sum]
    exact Finset.prod_congr rfl fun i _ => by rw [hu _ (hx i), density_fin]
  have p2 : ∀ x : Fin n → α, (∀ i, S (x i)) → ∏ i : Fin n, density (logDensityWrtRoot hi (e (x i)) : XReal)
      = Real.exp (∑ i, v (x i)) := fun x hx => by
    rw [Real.exp_sum]
    exact Finset.prod_congr rfl fun i _ => by rw [hv _ (hx i), density_fin]
  have z1 : ∀ x : Fin n → α, (¬ ∀ i, S (x i)) → ∏ i : Fin n, density (logDensityWrtRoot lo (e (x i)) : XReal) = 0 := fun x hx => by
    obtain ⟨i, hi⟩ := not_forall.1 hx
    exact Finset.prod_eq_zero (Finset.mem_univ i) (by rw [nu _ hi, density_ninf])
  have z2 : ∀ x : Fin n → α, (¬ ∀ i, S (x i)) → ∏ i : Fin n, density (logDensityWrtRoot hi (e (x i)) : XReal) = 0 := fun x hx => by
    obtain ⟨i, hi⟩ := not_forall.1 hx
    exact Finset.prod_eq_zero (Finset.mem_univ i) (by rw [nv _ hi, density_ninf])
  rw [e1, e2]
  refine one_sided m2 m1 (fun x => ?_) (fun x => ?_) i2 i1 mR (fun x hx => ?_) fun x hx y hy => ?_
  · rw [(v2 x).2]; exact Finset.prod_nonneg fun i _ => density_nonneg_of_proper (hh.proper _)
  · rw [(v1 x).2]; exact Finset.prod_nonneg fun i _ => density_nonneg_of_proper (hl.proper _)
  · rw [(v1 x).2] at hx
    rw [(v2 x).2]
    refine z2 x fun hc => ?_
    rw [p1 x hc] at hx
    exact (Real.exp_pos _).ne' hx
  · rw [(v1 x).2, (v2 x).2, (v1 y).2, (v2 y).2]
    by_cases sx : ∀ i, S (x i)
    · by_cases sy : ∀ i, S (y i)
      · rw [p1 x sx, p2 x sx, p1 y sy, p2 y sy, ← Real.exp_add, ← Real.exp_add, Real.exp_le_exp]
        have s : ∀ w : Fin n → α, (∀ i, S (w i)) → ∑ i, v (w i) - ∑ i, u (w i) = a * ∑ i, T (w i) + n * b := by
          intro w hw
          rw [← Finset.sum_sub_distrib, Finset.sum_congr rfl fun i _ => hT _ (hw i), Finset.sum_add_distrib,
            ← Finset.mul_sum]
          simp
        have hxc : ∑ i, T (x i) ≤ ∑ i, T (y i) := (not_le.1 hx).le.trans hy
        have := mul_le_mul_of_nonneg_left hxc ha
        have := s x sx
        have := s y sy
        linarith
      · rw [z1 y sy, z2 y sy]; simp
    · rw [z1 x sx, z2 x sx]; simp

/-- **C141** for samples of any size of the families: deciding for the second distribution when the sum of the statistic is
large is most powerful.  The region does not depend on the second parameter, so it is most powerful against all of them. -/
theorem C141_families (n : ℕ) (c : ℝ) :
    (∀ (μ₁ μ₂ σ : ℝ) (d₁ d₂ : Normal XReal), Normal.new (fin μ₁) (fin σ) = .ok d₁ → Normal.new (fin μ₂) (fin σ) = .ok d₂ →
      μ₁ ≤ μ₂ → MostPowerful (Measure.pi fun _ : Fin n => law volume fin d₂) (Measure.pi fun _ => law volume fin d₁)
        {x | c ≤ ∑ i, x i}) ∧
    (∀ (μ σ₁ σ₂ : ℝ) (d₁ d₂ : Normal XReal), Normal.new (fin μ) (fin σ₁) = .ok d₁ → Normal.new (fin μ) (fin σ₂) = .ok d₂ →
      σ₁ ≤ σ₂ → MostPowerful (Measure.pi fun _ : Fin n => law volume fin d₂) (Measure.pi fun _ => law volume fin d₁)
        {x | c ≤ ∑ i, (x i - μ) ^ 2}) ∧
    (∀ (r₁ r₂ : ℝ) (d₁ d₂ : Exponential XReal), Exponential.new (fin r₁) = .ok d₁ → Exponential.new (fin r₂) = .ok d₂ →
      r₂ ≤ r₁ → MostPowerful (Measure.pi fun _ : Fin n => law volume fin d₂) (Measure.pi fun _ => law volume fin d₁)
        {x | c ≤ ∑ i, x i}) ∧
    (∀ (a b₁ b₂ : ℝ) (d₁ d₂ : Gamma XReal), Gamma.new (fin a) (fin b₁) = .ok d₁ → Gamma.new (fin a) (fin b₂) = .ok d₂ →
      b₂ ≤ b₁ → MostPowerful (Measure.pi fun _ : Fin n => law volume fin d₂) (Measure.pi fun _ => law volume fin d₁)
        {x | c ≤ ∑ i, x i}) ∧
    (∀ (a₁ a₂ b : ℝ) (d₁ d₂ : Gamma XReal), Gamma.new (fin a₁) (fin b) = .ok d₁ → Gamma.new (fin a₂) (fin b) = .ok d₂ →
      a₁ ≤ a₂ → MostPowerful (Measure.pi fun _ : Fin n => law volume fin d₂) (Measure.pi fun _ => law volume fin d₁)
        {x | c ≤ ∑ i, Real.log (x i)}) ∧
    (∀ (k₁ k₂ : ℝ) (d₁ d₂ : ChiSquared XReal), ChiSquared.new (fin k₁) = .ok d₁ → ChiSquared.new (fin k₂) = .ok d₂ →
      k₁ ≤ k₂ → MostPowerful (Measure.pi fun _ : Fin n => law volume fin d₂) (Measure.pi fun _ => law volume fin d₁)
        {x | c ≤ ∑ i, Real.log (x i)}) ∧
    (∀ (a₁ a₂ b : ℝ) (d₁ d₂ : Beta XReal), Beta.new (fin a₁) (fin b) = .ok d₁ → Beta.new (fin a₂) (fin b) = .ok d₂ →
      a₁ ≤ a₂ → MostPowerful (Measure.pi fun _ : Fin n => law volume fin d₂) (Measure.pi fun _ => law volume fin d₁)
        {x | c ≤ ∑ i, Real.log (x i)}) ∧
    (∀ (a b₁ b₂ : ℝ) (d₁ d₂ : Beta XReal), Beta.new (fin a) (fin b₁) = .ok d₁ → Beta.new (fin a) (fin b₂) = .ok d₂ →
      b₁ ≤ b₂ → MostPowerful (Measure.pi fun _ : Fin n => law volume fin d₂) (Measure.pi fun _ => law volume fin d₁)
        {x | c ≤ ∑ i, Real.log (1 - x i)}) ∧
    (∀ (r₁ r₂ : ℝ) (d₁ d₂ : Poisson XReal), Poisson.new (fin r₁) = .ok d₁ → Poisson.new (fin r₂) = .ok d₂ →
      r₁ ≤ r₂ → MostPowerful (Measure.pi fun _ : Fin n => law Measure.count (id : ℕ → ℕ) d₂)
        (Measure.pi fun _ => law Measure.count (id : ℕ → ℕ) d₁) {x | c ≤ ∑ i, (x i : ℝ)}) ∧
    (∀ (p₁ p₂ : ℝ) (d₁ d₂ : Geometric XReal), Geometric.new (fin p₁) = .ok d₁ → Geometric.new (fin p₂) = .ok d₂ →
      p₁ < 1 → p₂ ≤ p₁ → MostPowerful (Measure.pi fun _ : Fin n => law Measure.count (id : ℕ → ℕ) d₂)
        (Measure.pi fun _ => law Measure.count (id : ℕ → ℕ) d₁) {x | c ≤ ∑ i, (x i : ℝ)}) ∧
    (∀ (p₁ p₂ : ℝ) (d₁ d₂ : Bernoulli XReal), Bernoulli.new (fin p₁) = .ok d₁ → Bernoulli.new (fin p₂) = .ok d₂ →
      0 < p₁ → p₂ < 1 → p₁ ≤ p₂ → MostPowerful (Measure.pi fun _ : Fin n => law Measure.count byteOf d₂)
        (Measure.pi fun _ => law Measure.count byteOf d₁) {x | c ≤ ∑ i, ((byteOf (x i)).toNat : ℝ)}) ∧
    (∀ (m : ℕ) (p₁ p₂ : ℝ) (d₁ d₂ : Binomial XReal), Binomial.new m (fin p₁) = .ok d₁ → Binomial.new m (fin p₂) = .ok d₂ →
      0 < p₁ → p₂ < 1 → p₁ ≤ p₂ →
      MostPowerful (Measure.pi fun _ : Fin n => law Measure.count (id : ℕ → ℕ) d₂.withBase)
        (Measure.pi fun _ => law Measure.count (id : ℕ → ℕ) d₁.withBase) {x | c ≤ ∑ i, (x i : ℝ)}) ∧
    (∀ (r : ℕ) (p₁ p₂ : ℝ) (d₁ d₂ : NegativeBinomial XReal), NegativeBinomial.new r (fin p₁) = .ok d₁ →
      NegativeBinomial.new r (fin p₂) = .ok d₂ → p₂ ≤ p₁ →
      MostPowerful (Measure.pi fun _ : Fin n => law Measure.count (id : ℕ → ℕ) d₂.withBase)
        (Measure.pi fun _ => law Measure.count (id : ℕ → ℕ) d₁.withBase) {x | c ≤ ∑ i, (x i : ℝ)}) := by
  have never : ∀ {α : Type} (x : α) {P : Prop}, ¬ (fun _ : α => True) x → P := fun x _ h => absurd trivial h
  have logodds : ∀ {p q : ℝ}, 0 < p → q < 1 → p ≤ q →
      0 ≤ (Real.log q - Real.log (1 - q)) - (Real.log p - Real.log (1 - p)) := fun {p q} hp hq h => by
    have h1 := Real.log_le_log hp h
    have h2 := Real.log_le_log (show 0 < 1 - q by linarith) (show 1 - q ≤ 1 - p by linarith)
    linarith
  refine ⟨?_, ?_, ?_, ?_, ?_, ?_, ?_, ?_, ?_, ?_, ?_, ?_, ?_⟩
  · intro μ₁ μ₂ σ d₁ d₂ h₁ h₂ hle
    have r₁ := C122_regular.1 _ _ _ h₁
    have r₂ := C122_regular.1 _ _ _ h₂
    obtain ⟨hσ, rfl⟩ := Normal.new_ok h₁
    obtain ⟨-, rfl⟩ := Normal.new_ok h₂
    refine sample_one_sided r₁ r₂ (S := fun _ => True) (T := fun x => x) (a := (μ₂ - μ₁) / σ ^ 2)
      (b := (μ₁ ^ 2 - μ₂ ^ 2) / (2 * σ ^ 2)) (div_nonneg (sub_nonneg.2 hle) (sq_nonneg σ)) measurable_id
      (fun x _ => Normal.ld hσ) (fun x _ => Normal.ld hσ) (fun x => never x) (fun x => never x) (fun x _ => ?_) n c
    field_simp; ring
  · intro μ σ₁ σ₂ d₁ d₂ h₁ h₂ hle
    have r₁ := C122_regular.1 _ _ _ h₁
    have r₂ := C122_regular.1 _ _ _ h₂
    obtain ⟨s₁, rfl⟩ := Normal.new_ok h₁
    obtain ⟨s₂, rfl⟩ := Normal.new_ok h₂
    refine sample_one_sided r₁ r₂ (S := fun _ => True) (T := fun x => (x - μ) ^ 2)
      (a := (1 / σ₁ ^ 2 - 1 / σ₂ ^ 2) / 2) (b := Real.log σ₁ - Real.log σ₂) ?_ (by fun_prop)
      (fun x _ => Normal.ld s₁) (fun x _ => Normal.ld s₂) (fun x => never x) (fun x => never x) (fun x _ => ?_) n c
    · have := one_div_le_one_div_of_le (pow_pos s₁ 2) (pow_le_pow_left₀ s₁.le hle 2)
      linarith
    · field_simp; ring
  · intro r₁ r₂ d₁ d₂ h₁ h₂ hle
    have l₁ := C122_regular.2.1 _ _ h₁
    have l₂ := C122_regular.2.1 _ _ h₂
    obtain ⟨s₁, rfl⟩ := Exponential.new_ok h₁
    obtain ⟨s₂, rfl⟩ := Exponential.new_ok h₂
    refine sample_one_sided l₁ l₂ (S := fun x => 0 ≤ x) (T := fun x => x) (a := r₁ - r₂)
      (b := Real.log r₂ - Real.log r₁) (sub_nonneg.2 hle) measurable_id
      (fun x hx => Exponential.ld_of_nonneg s₁ hx) (fun x hx => Exponential.ld_of_nonneg s₂ hx)
      (fun x hx => Exponential.ld_of_neg (not_le.1 hx)) (fun x hx => Exponential.ld_of_neg (not_le.1 hx))
      (fun x _ => ?_) n c
    ring
  · intro a b₁ b₂ d₁ d₂ h₁ h₂ hle
    have l₁ := C122_regular.2.2.1 _ _ _ h₁
    have l₂ := C122_regular.2.2.1 _ _ _ h₂
    obtain ⟨ha, s₁, rfl⟩ := Gamma.new_ok h₁
    obtain ⟨-, s₂, rfl⟩ := Gamma.new_ok h₂
    refine sample_one_sided l₁ l₂ (S := fun x => 0 < x) (T := fun x => x) (a := b₁ - b₂)
      (b := a * Real.log b₂ - a * Real.log b₁) (sub_nonneg.2 hle) measurable_id
      (fun x hx => Gamma.ld_of_pos ha s₁ hx) (fun x hx => Gamma.ld_of_pos ha s₂ hx)
      (fun x hx => Gamma.ld_of_nonpos (not_lt.1 hx)) (fun x hx => Gamma.ld_of_nonpos (not_lt.1 hx))
      (fun x _ => ?_) n c
    ring
  · intro a₁ a₂ b d₁ d₂ h₁ h₂ hle
    have l₁ := C122_regular.2.2.1 _ _ _ h₁
    have l₂ := C122_regular.2.2.1 _ _ _ h₂
    obtain ⟨s₁, hb, rfl⟩ := Gamma.new_ok h₁
    obtain ⟨s₂, -, rfl⟩ := Gamma.new_ok h₂
    refine sample_one_sided l₁ l₂ (S := fun x => 0 < x) (T := fun x => Real.log x) (a := a₂ - a₁)
      (b := (a₂ - a₁) * Real.log b - (Real.log (Real.Gamma a₂) - Real.log (Real.Gamma a₁))) (sub_nonneg.2 hle)
      Real.measurable_log (fun x hx => Gamma.ld_of_pos s₁ hb hx) (fun x hx => Gamma.ld_of_pos s₂ hb hx)
      (fun x hx => Gamma.ld_of_nonpos (not_lt.1 hx)) (fun x hx => Gamma.ld_of_nonpos (not_lt.1 hx))
      (fun x _ => ?_) n c
    ring
  · intro k₁ k₂ d₁ d₂ h₁ h₂ hle
    have l₁ := C122_regular.2.2.2.2.1 _ _ h₁
    have l₂ := C122_regular.2.2.2.2.1 _ _ h₂
    obtain ⟨s₁, rfl⟩ := ChiSquared.new_ok h₁
    obtain ⟨s₂, rfl⟩ := ChiSquared.new_ok h₂
    refine sample_one_sided l₁ l₂ (S := fun x => 0 < x) (T := fun x => Real.log x) (a := (k₂ - k₁) / 2)
      (b := -((k₂ - k₁) / 2) * Real.log 2 - (Real.log (Real.Gamma (k₂ / 2)) - Real.log (Real.Gamma (k₁ / 2))))
      (div_nonneg (sub_nonneg.2 hle) two_pos.le)
      Real.measurable_log (fun x hx => ChiSquared.ld_of_pos s₁ hx) (fun x hx => ChiSquared.ld_of_pos s₂ hx)
      (fun x hx => ChiSquared.ld_of_nonpos (not_lt.1 hx)) (fun x hx => ChiSquared.ld_of_nonpos (not_lt.1 hx))
      (fun x _ => ?_) n c
    ring
  · intro a₁ a₂ b d₁ d₂ h₁ h₂ hle
    have l₁ := C122_regular.2.2.2.1 _ _ _ h₁
    have l₂ := C122_regular.2.2.2.1 _ _ _ h₂
    obtain ⟨s₁, hb, rfl⟩ := Beta.new_ok h₁
    obtain ⟨s₂, -, rfl⟩ := Beta.new_ok h₂
    refine sample_one_sided l₁ l₂ (S := fun x => 0 < x ∧ x < 1) (T := fun x => Real.log x) (a := a₂ - a₁)
      (b := Real.log (Real.Gamma (a₂ + b)) - Real.log (Real.Gamma a₂)
        - (Real.log (Real.Gamma (a₁ + b)) - Real.log (Real.Gamma a₁))) (sub_nonneg.2 hle)
      Real.measurable_log (fun x hx => Beta.ld_of_mem s₁ hb hx.1 hx.2) (fun x hx => Beta.ld_of_mem s₂ hb hx.1 hx.2)
      (fun x hx => Beta.ld_of_not_mem hx) (fun x hx => Beta.ld_of_not_mem hx) (fun x _ => ?_) n c
    ring
  · intro a b₁ b₂ d₁ d₂ h₁ h₂ hle
    have l₁ := C122_regular.2.2.2.1 _ _ _ h₁
    have l₂ := C122_regular.2.2.2.1 _ _ _ h₂
    obtain ⟨ha, s₁, rfl⟩ := Beta.new_ok h₁
    obtain ⟨-, s₂, rfl⟩ := Beta.new_ok h₂
    refine sample_one_sided l₁ l₂ (S := fun x => 0 < x ∧ x < 1) (T := fun x => Real.log (1 - x)) (a := b₂ - b₁)
      (b := Real.log (Real.Gamma (a + b₂)) - Real.log (Real.Gamma b₂)
        - (Real.log (Real.Gamma (a + b₁)) - Real.log (Real.Gamma b₁))) (sub_nonneg.2 hle)
      (by fun_prop) (fun x hx => Beta.ld_of_mem ha s₁ hx.1 hx.2) (fun x hx => Beta.ld_of_mem ha s₂ hx.1 hx.2)
      (fun x hx => Beta.ld_of_not_mem hx) (fun x hx => Beta.ld_of_not_mem hx) (fun x _ => ?_) n c
    ring
  · intro r₁ r₂ d₁ d₂ h₁ h₂ hle
    have l₁ := C122_regular.2.2.2.2.2.2.2.2 _ _ h₁
    have l₂ := C122_regular.2.2.2.2.2.2.2.2 _ _ h₂
    obtain ⟨s₁, rfl⟩ := Poisson.new_ok h₁
    obtain ⟨s₂, rfl⟩ := Poisson.new_ok h₂
    refine sample_one_sided l₁ l₂ (S := fun _ => True) (T := fun k => (k : ℝ)) (a := Real.log r₂ - Real.log r₁)
      (b := r₁ - r₂) (sub_nonneg.2 (Real.log_le_log s₁ hle)) (measurable_of_countable _)
      (fun k _ => Poisson.ld s₁ k) (fun k _ => Poisson.ld s₂ k) (fun x => never x) (fun x => never x) (fun k _ => ?_) n c
    ring
  · intro p₁ p₂ d₁ d₂ h₁ h₂ h1 hle
    have l₁ := C122_regular.2.2.2.2.2.2.2.1 _ _ h₁ h1.ne
    have l₂ := C122_regular.2.2.2.2.2.2.2.1 _ _ h₂ (hle.trans_lt h1).ne
    obtain ⟨⟨s₁, -⟩, rfl⟩ := Geometric.new_ok h₁
    obtain ⟨⟨s₂, -⟩, rfl⟩ := Geometric.new_ok h₂
    have off : ∀ {p : ℝ} (k : ℕ), ¬ 1 ≤ k → (logDensityWrtRoot (⟨fin p⟩ : Geometric XReal) k : XReal) = ninf := by
      intro p k hk
      obtain rfl : k = 0 := by omega
      simp [logDensityWrtRoot]
    refine sample_one_sided l₁ l₂ (S := fun k => 1 ≤ k) (T := fun k => (k : ℝ))
      (a := Real.log (1 - p₂) - Real.log (1 - p₁))
      (b := Real.log p₂ - Real.log (1 - p₂) - (Real.log p₁ - Real.log (1 - p₁)))
      (sub_nonneg.2 (Real.log_le_log (by linarith) (by linarith))) (measurable_of_countable _)
      (fun k hk => Geometric.ld_of_pos s₁ h1 hk) (fun k hk => Geometric.ld_of_pos s₂ (hle.trans_lt h1) hk)
      (fun k hk => off k hk) (fun k hk => off k hk) (fun k _ => ?_) n c
    simp only [id]; ring
  · intro p₁ p₂ d₁ d₂ h₁ h₂ h0 h1 hle
    have pmf₁ := (C16_bernoulli_pmf h₁).1
    have pmf₂ := (C16_bernoulli_pmf h₂).1
    obtain ⟨-, rfl⟩ := Bernoulli.new_ok h₁
    obtain ⟨-, rfl⟩ := Bernoulli.new_ok h₂
    have l₁ := Bernoulli.regular h0 (hle.trans_lt h1)
    have l₂ := Bernoulli.regular (h0.trans_le hle) h1
    refine sample_one_sided l₁ l₂ (S := fun x => byteOf x = 0 ∨ byteOf x = 1) (T := fun x => ((byteOf x).toNat : ℝ))
      (a := (Real.log p₂ - Real.log (1 - p₂)) - (Real.log p₁ - Real.log (1 - p₁)))
      (b := Real.log (1 - p₂) - Real.log (1 - p₁)) (logodds h0 h1 hle) (measurable_of_countable _)
      (fun x hx => Bernoulli.ld_bit h0 (hle.trans_lt h1) hx) (fun x hx => Bernoulli.ld_bit (h0.trans_le hle) h1 hx)
      (fun x hx => ?_) (fun x hx => ?_) (fun x _ => ?_) n c
    · rcases l₁.proper x with ⟨v, hv⟩ | hv
      · have := pmf₁ (byteOf x)
        push Not at hx
        rw [hv, if_neg hx.2, if_neg hx.1] at this
        exact absurd this (Real.exp_pos v).ne'
      · exact hv
    · rcases l₂.proper x with ⟨v, hv⟩ | hv
      · have := pmf₂ (byteOf x)
        push Not at hx
        rw [hv, if_neg hx.2, if_neg hx.1] at this
        exact absurd this (Real.exp_pos v).ne'
      · exact hv
    · ring
  · intro m p₁ p₂ d₁ d₂ h₁ h₂ h0 h1 hle
    obtain ⟨-, rfl⟩ := Binomial.new_ok h₁
    obtain ⟨-, rfl⟩ := Binomial.new_ok h₂
    refine sample_one_sided (Binomial.regular h0 (hle.trans_lt h1)) (Binomial.regular (h0.trans_le hle) h1)
      (S := fun k => k ≤ m) (T := fun k => (k : ℝ))
      (a := (Real.log p₂ - Real.log (1 - p₂)) - (Real.log p₁ - Real.log (1 - p₁)))
      (b := m * Real.log (1 - p₂) - m * Real.log (1 - p₁)) (logodds h0 h1 hle) (measurable_of_countable _)
      (fun k hk => (Binomial.withBase_ld h0 (hle.trans_lt h1) k).1 hk)
      (fun k hk => (Binomial.withBase_ld (h0.trans_le hle) h1 k).1 hk)
      (fun k hk => (Binomial.withBase_ld h0 (hle.trans_lt h1) k).2 (not_le.1 hk))
      (fun k hk => (Binomial.withBase_ld (h0.trans_le hle) h1 k).2 (not_le.1 hk)) (fun k _ => ?_) n c
    ring
  · intro r p₁ p₂ d₁ d₂ h₁ h₂ hle
    obtain ⟨hr, ⟨h0, h1⟩, rfl⟩ := NegativeBinomial.new_ok h₁
    obtain ⟨-, ⟨h0', h1'⟩, rfl⟩ := NegativeBinomial.new_ok h₂
    refine sample_one_sided (NegativeBinomial.regular hr h0 h1) (NegativeBinomial.regular hr h0' h1')
      (S := fun _ => True) (T := fun k => (k : ℝ)) (a := Real.log (1 - p₂) - Real.log (1 - p₁))
      (b := r * Real.log p₂ - r * Real.log p₁) (sub_nonneg.2 (Real.log_le_log (by linarith) (by linarith)))
      (measurable_of_countable _) (fun k _ => NegativeBinomial.withBase_ld hr h0 h1 k)
      (fun k _ => NegativeBinomial.withBase_ld hr h0' h1' k) (fun x => never x) (fun x => never x) (fun k _ => ?_) n c
    ring

/-- the hypotheses hold: a normal with a larger mean -/
example (n : ℕ) (c : ℝ) : MostPowerful (Measure.pi fun _ : Fin n => law volume fin (⟨fin 1, fin 2⟩ : Normal XReal))
    (Measure.pi fun _ => law volume fin (⟨fin 0, fin 2⟩ : Normal XReal)) {x | c ≤ ∑ i, x i} :=
  (C141_families n c).1 0 1 2 _ _ (by simp [Normal.new]) (by simp [Normal.new]) zero_le_one

/-- **C141** for two binomial distributions with the same number of trials, and two negative binomial distributions with
the same number of failures; the missing coefficient (C13, C14) cancels. -/
theorem C141_counts (lay : Layout) (hl : lay.Legal) (hM : 0 < lay.sizeMeasure) (hB : 0 < lay.sizeBase) (addr : ℕ) (t : ℝ) :
    (∀ (n : ℕ) (p₁ p₂ : ℝ) (d₁ d₂ : Binomial XReal), Binomial.new n (fin p₁) = .ok d₁ → Binomial.new n (fin p₂) = .ok d₂ →
      0 < p₁ → p₁ < 1 → 0 < p₂ → p₂ < 1 →
      ∀ R, R = {k : ℕ | (fin t <. relLogDensity (F := XReal) lay addr d₁ d₂ k) = true} ∨
        R = {k : ℕ | (fin t ≤. relLogDensity (F := XReal) lay addr d₁ d₂ k) = true} →
      MostPowerful (law Measure.count (id : ℕ → ℕ) d₁.withBase) (law Measure.count (id : ℕ → ℕ) d₂.withBase) R ∧
      LeastError (Real.exp t) (law Measure.count (id : ℕ → ℕ) d₁.withBase) (law Measure.count (id : ℕ → ℕ) d₂.withBase) R) ∧
    (∀ (r : ℕ) (p₁ p₂ : ℝ) (d₁ d₂ : NegativeBinomial XReal), NegativeBinomial.new r (fin p₁) = .ok d₁ →
      NegativeBinomial.new r (fin p₂) = .ok d₂ →
      ∀ R, R = {k : ℕ | (fin t <. relLogDensity (F := XReal) lay addr d₁ d₂ k) = true} ∨
        R = {k : ℕ | (fin t ≤. relLogDensity (F := XReal) lay addr d₁ d₂ k) = true} →
      MostPowerful (law Measure.count (id : ℕ → ℕ) d₁.withBase) (law Measure.count (id : ℕ → ℕ) d₂.withBase) R ∧
      LeastError (Real.exp t) (law Measure.count (id : ℕ → ℕ) d₁.withBase)
        (law Measure.count (id : ℕ → ℕ) d₂.withBase) R) := by
  have ap := apart_of_legal hl hM hB
  refine ⟨?_, ?_⟩
  · intro n p₁ p₂ d₁ d₂ h₁ h₂ a₁ b₁ a₂ b₂ R hR
    obtain ⟨-, rfl⟩ := Binomial.new_ok h₁
    obtain ⟨-, rfl⟩ := Binomial.new_ok h₂
    have l₁ := Binomial.regular (n := n) a₁ b₁
    have l₂ := Binomial.regular (n := n) a₂ b₂
    have e : ∀ k : ℕ, relLogDensity (F := XReal) lay addr (⟨n, fin p₁⟩ : Binomial XReal) (⟨n, fin p₂⟩ : Binomial XReal) k
        = (logDensityWrtRoot (⟨n, fin p₁⟩ : Binomial XReal).withBase (id k)
          -. logDensityWrtRoot (⟨n, fin p₂⟩ : Binomial XReal).withBase (id k)) := fun k => by
      rw [C01_relative_log_density_apart_partial lay ap, id]
      by_cases hk : k ≤ n
      · rw [(Binomial.withBase_ld a₁ b₁ k).1 hk, (Binomial.withBase_ld a₂ b₂ k).1 hk, Binomial.ld_of_le a₁ b₁ hk,
          Binomial.ld_of_le a₂ b₂ hk, f_sub, f_sub]
        congr 1
        ring
      · rw [(Binomial.withBase_ld a₁ b₁ k).2 (not_le.1 hk), (Binomial.withBase_ld a₂ b₂ k).2 (not_le.1 hk)]
        simp [logDensityWrtRoot, hk]
    simp only [e] at hR
    exact threshold_optimal l₁.proper l₂.proper l₁.measurable l₂.measurable l₁.mass_one l₂.mass_one t hR
  · intro r p₁ p₂ d₁ d₂ h₁ h₂ R hR
    obtain ⟨hr, ⟨a₁, b₁⟩, rfl⟩ := NegativeBinomial.new_ok h₁
    obtain ⟨-, ⟨a₂, b₂⟩, rfl⟩ := NegativeBinomial.new_ok h₂
    have l₁ := NegativeBinomial.regular hr a₁ b₁
    have l₂ := NegativeBinomial.regular hr a₂ b₂
    have e : ∀ k : ℕ, relLogDensity (F := XReal) lay addr (⟨r, fin p₁⟩ : NegativeBinomial XReal)
          (⟨r, fin p₂⟩ : NegativeBinomial XReal) k
        = (logDensityWrtRoot (⟨r, fin p₁⟩ : NegativeBinomial XReal).withBase (id k)
          -. logDensityWrtRoot (⟨r, fin p₂⟩ : NegativeBinomial XReal).withBase (id k)) := fun k => by
      rw [C01_relative_log_density_apart_partial lay ap, id, NegativeBinomial.withBase_ld hr a₁ b₁,
        NegativeBinomial.withBase_ld hr a₂ b₂, NegativeBinomial.ld a₁ b₁, NegativeBinomial.ld a₂ b₂, f_sub, f_sub]
      congr 1
      ring
    simp only [e] at hR
    exact threshold_optimal l₁.proper l₂.proper l₁.measurable l₂.measurable l₁.mass_one l₂.mass_one t hR

/-- **C141** fails for two negative binomial distributions with the same probability and different numbers of failures: the
relative log-density is the same negative number at every point, so the larger number is never decided for, and a better
rule exists. -/
theorem C141_violated (lay : Layout) (hl : lay.Legal) (hM : 0 < lay.sizeMeasure) (hB : 0 < lay.sizeBase) (addr : ℕ)
    (r r' : ℕ) (p : ℝ) (d d' : NegativeBinomial XReal) (h : NegativeBinomial.new r (fin p) = .ok d)
    (h' : NegativeBinomial.new r' (fin p) = .ok d') (hlt : r' < r) :
    ¬ LeastError 1 (law Measure.count (id : ℕ → ℕ) d.withBase) (law Measure.count (id : ℕ → ℕ) d'.withBase)
      {k | (fin 0 <. relLogDensity (F := XReal) lay addr d d' k) = true} := by
  intro hc
  have ne : law Measure.count (id : ℕ → ℕ) d.withBase ≠ law Measure.count (id : ℕ → ℕ) d'.withBase := fun he =>
    hlt.ne' ((C126_discrete.2.2.2.2.2 r r' p p d d' h h').1 he).1
  obtain ⟨hr, ⟨h0, h1⟩, rfl⟩ := NegativeBinomial.new_ok h
  obtain ⟨hr', -, rfl⟩ := NegativeBinomial.new_ok h'
  have := law_prob _ _ _ (NegativeBinomial.regular hr h0 h1)
  have := law_prob _ _ _ (NegativeBinomial.regular hr' h0 h1)
  have e : {k : ℕ | (fin 0 <. relLogDensity (F := XReal) lay addr (⟨r, fin p⟩ : NegativeBinomial XReal)
      (⟨r', fin p⟩ : NegativeBinomial XReal) k) = true} = ∅ := by
    ext k
    rw [Set.mem_empty_iff_false, iff_false]
    change ¬ (fin 0 <. _) = true
    rw [C01_relative_log_density_apart_partial lay (apart_of_legal hl hM hB), NegativeBinomial.ld h0 h1,
      NegativeBinomial.ld h0 h1, f_sub, f_lt, decide_eq_true_eq, not_lt]
    have hr2 : (r' : ℝ) ≤ r := by exact_mod_cast hlt.le
    have := mul_le_mul_of_nonpos_right hr2 (Real.log_nonpos h0.le h1.le)
    linarith
  rw [e] at hc
  have le : ∀ S : Set ℕ, MeasurableSet S → (law Measure.count (id : ℕ → ℕ) (⟨r, fin p⟩ : NegativeBinomial XReal).withBase).real S
      ≤ (law Measure.count (id : ℕ → ℕ) (⟨r', fin p⟩ : NegativeBinomial XReal).withBase).real S := by
    intro S hS
    have := hc.2 _ (rule_indicator hS)
    rw [integral_sub (integrable_const 1) ((integrable_const 1).indicator hS), ← real_eq_integral_indicator _ hS,
      ← real_eq_integral_indicator _ hS] at this
    simp at this
    linarith
  refine ne (Measure.ext fun S hS => ?_)
  have h1 := le S hS
  have h2 := le Sᶜ hS.compl
  rw [probReal_compl_eq_one_sub hS, probReal_compl_eq_one_sub hS] at h2
  exact (measureReal_eq_measureReal_iff).1 (le_antisymm h1 (by linarith))

/-- the hypotheses hold: two normals in a builder with their 16 bytes each -/
example (addr : ℕ) : MostPowerful (law volume fin (⟨fin 1, fin 2⟩ : Normal XReal)) (law volume fin (⟨fin 0, fin 1⟩ : Normal XReal))
    {x | (fin 0 <. relLogDensity (F := XReal) ⟨0, 16, 16, 16, 32⟩ addr (⟨fin 1, fin 2⟩ : Normal XReal)
      (⟨fin 0, fin 1⟩ : Normal XReal) (fin x)) = true} :=
  (C141_most_powerful (C122_regular.1 1 2 _ (by simp [Normal.new])) (C122_regular.1 0 1 _ (by simp [Normal.new]))
    ⟨0, 16, 16, 16, 32⟩ ⟨by decide, by decide, by decide⟩ (by decide) (by decide) addr 0 _ (Or.inl rfl)).1

example : ∃ d d' : NegativeBinomial XReal, NegativeBinomial.new 3 (fin (1/2)) = .ok d ∧
    NegativeBinomial.new 2 (fin (1/2)) = .ok d' :=
  ⟨⟨3, fin (1/2)⟩, ⟨2, fin (1/2)⟩, by simp [NegativeBinomial.new]; norm_num, by simp [NegativeBinomial.new]; norm_num⟩

end Verif
