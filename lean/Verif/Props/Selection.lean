import Verif.Spec.Selection
import Verif.Props.Consistency
import Verif.Props.Identifiable
import Verif.Props.Laws

/-!
# C140: the joint log-density recognises the distribution behind the data
-/

namespace Verif
open FloatOps XReal Spec MeasureTheory ProbabilityTheory Filter Topology

/-- The Hellinger affinity of two different distributions is below one. -/
theorem affinity_lt_one {α : Type} [MeasurableSpace α] {ν : MeasureTheory.Measure α} {p q : α → ℝ}
    (mp : Measurable p) (mq : Measurable q) (hp : ∀ a, 0 ≤ p a) (hq : ∀ a, 0 ≤ q a)
    (ip : ∫⁻ a, ENNReal.ofReal (p a) ∂ν = 1) (iq : ∫⁻ a, ENNReal.ofReal (q a) ∂ν = 1)
    (hne : (ν.withDensity fun a => ENNReal.ofReal (p a)) ≠ ν.withDensity fun a => ENNReal.ofReal (q a)) :
    Integrable (fun a => √(q a / p a)) (ν.withDensity fun a => ENNReal.ofReal (p a)) ∧
    ∫ a, √(q a / p a) ∂(ν.withDensity fun a => ENNReal.ofReal (p a)) < 1 := by
  set P := ν.withDensity fun a => ENNReal.ofReal (p a) with hP
  have : IsProbabilityMeasure P := ⟨by rw [hP, withDensity_apply _ MeasurableSet.univ, Measure.restrict_univ]; exact ip⟩
  have mr : Measurable fun a => q a / p a := mq.div mp
  have hr : ∀ a, 0 ≤ q a / p a := fun a => div_nonneg (hq a) (hp a)
  have l1 : ∫⁻ a, ENNReal.ofReal (q a / p a) ∂P ≤ 1 := by
    rw [hP, lintegral_withDensity_eq_lintegral_mul _ mp.ennreal_ofReal mr.ennreal_ofReal, ← iq]
    refine lintegral_mono fun a => ?_
    rw [Pi.mul_apply, ← ENNReal.ofReal_mul (hp a)]
    refine ENNReal.ofReal_le_ofReal ?_
    rcases (hp a).eq_or_lt with h | h
    · rw [← h]; simpa using hq a
    · rw [mul_div_cancel₀ _ h.ne']
  have i1 : Integrable (fun a => q a / p a) P := by
    refine ⟨mr.aestronglyMeasurable, ?_⟩
    rw [hasFiniteIntegral_iff_ofReal (ae_of_all _ hr)]
    exact lt_of_le_of_lt l1 ENNReal.one_lt_top
  have e1 : ∫ a, q a / p a ∂P ≤ 1 := by
    rw [integral_eq_lintegral_of_nonneg_ae (ae_of_all _ hr) mr.aestronglyMeasurable]
    exact ENNReal.toReal_le_of_le_ofReal zero_le_one (by simpa using l1)
  have i2 : Integrable (fun a => √(q a / p a)) P := by
    refine ((integrable_const (1 : ℝ)).add i1).mono' mr.sqrt.aestronglyMeasurable (ae_of_all _ fun a => ?_)
    rw [Real.norm_of_nonneg (Real.sqrt_nonneg _), Pi.add_apply]
    have := Real.sq_sqrt (hr a)
    nlinarith [sq_nonneg (√(q a / p a) - 1), Real.sqrt_nonneg (q a / p a)]
  refine ⟨i2, ?_⟩
  by_contra hc
  push Not at hc
  have sq : ∀ a, (1 - √(q a / p a)) ^ 2 = 1 - 2 * √(q a / p a) + q a / p a := fun a => by
    have := Real.sq_sqrt (hr a)
    linear_combination this
  have i4 : Integrable (fun a => 1 - 2 * √(q a / p a)) P := (integrable_const (1 : ℝ)).sub (i2.const_mul 2)
  have i3 : Integrable (fun a => (1 - √(q a / p a)) ^ 2) P := by
    simp_rw [sq]
    exact i4.add i1
  have e3 : ∫ a, (1 - √(q a / p a)) ^ 2 ∂P ≤ 0 := by
    simp_rw [sq]
    rw [integral_add i4 i1,
      integral_sub (integrable_const (1 : ℝ)) (i2.const_mul 2), integral_const_mul, integral_const]
    simp only [probReal_univ, smul_eq_mul, mul_one]
    linarith
  have z := (integral_eq_zero_iff_of_nonneg (fun a => sq_nonneg _) i3).mp
    (le_antisymm e3 (integral_nonneg fun a => sq_nonneg _))
  have z2 : ∀ᵐ a ∂ν, ENNReal.ofReal (p a) ≠ 0 → (1 - √(q a / p a)) ^ 2 = 0 := by
    rw [hP] at z
    exact (ae_withDensity_iff mp.ennreal_ofReal).mp z
  have le : (fun a => ENNReal.ofReal (p a)) ≤ᵐ[ν] fun a => ENNReal.ofReal (q a) := by
    filter_upwards [z2] with a ha
    rcases (hp a).eq_or_lt with h | h
    · rw [← h, ENNReal.ofReal_zero]; exact zero_le
    · have h1 : √(q a / p a) = 1 := by
        have := pow_eq_zero_iff (two_ne_zero) |>.mp (ha (by simpa using h))
        linarith
      rw [Real.sqrt_eq_one, div_eq_one_iff_eq h.ne'] at h1
      rw [h1]
  exact hne (withDensity_congr_ae (ae_eq_of_ae_le_of_lintegral_le le (by rw [ip]; simp)
    mq.ennreal_ofReal.aemeasurable (by rw [ip, iq])))

theorem firstN_map {α β : Type} (x : ℕ → α) (g : α → β) (n : ℕ) : firstN (fun i => g (x i)) n = (firstN x n).map g := by
  simp [firstN, List.map_map, Function.comp_def]

theorem firstN_prod {α : Type} (x : ℕ → α) (g : α → ℝ) (n : ℕ) :
    ((firstN x n).map g).prod = ∏ i ∈ Finset.range n, g (x i) := by
  induction n with
  | zero => simp [firstN]
  | succ n ih =>
    rw [Finset.prod_range_succ, ← ih]
    simp [firstN, List.range_succ]

/-- **C140**: of two different distributions (of any two families), the one the data are drawn from is recognised by its
joint log-density, computed in any way that differs from the sum of the log-densities by the same amount for both. -/
theorem C140_recognised {M M' X α : Type} [MeasurableSpace α] [HasLogDensity M X XReal] [HasLogDensity M' X XReal]
    {ν : MeasureTheory.Measure α} {e : α → X} {d : M} {d' : M'} (h : RegularLaw ν e d) (h' : RegularLaw ν e d')
    (hne : law ν e d ≠ law ν e d') {J J' : List X → XReal}
    (hJ : ∀ l : List α, (∀ a ∈ l, (logDensityWrtRoot d (e a) : XReal).IsFin) → ∃ c : ℝ,
      J (l.map e) = (IID.ofDist d).iidLogDensityFallback (l.map e) +. fin c ∧
      J' (l.map e) = (IID.ofDist d').iidLogDensityFallback (l.map e) +. fin c) :
    Recognised ν e d J J' := by
  set p : α → ℝ := fun a => density (logDensityWrtRoot d (e a)) with hp
  set q : α → ℝ := fun a => density (logDensityWrtRoot d' (e a)) with hq
  have p0 : ∀ a, 0 ≤ p a := fun a => by
    rcases h.proper a with ⟨r, hr⟩ | hr
    · rw [hp]; simp only [hr]; exact (Real.exp_pos _).le
    · rw [hp]; simp only [hr]; exact le_refl (0 : ℝ)
  have q0 : ∀ a, 0 ≤ q a := fun a => by
    rcases h'.proper a with ⟨r, hr⟩ | hr
    · rw [hq]; simp only [hr]; exact (Real.exp_pos _).le
    · rw [hq]; simp only [hr]; exact le_refl (0 : ℝ)
  obtain ⟨hi, hlt⟩ := affinity_lt_one h.measurable h'.measurable p0 q0 h.mass_one h'.mass_one hne
  change Integrable (fun a => √(q a / p a)) (law ν e d) at hi
  change ∫ a, √(q a / p a) ∂(law ν e d) < 1 at hlt
  have hfin := law_ae_fin ν e d h.proper h.measurable
  have mh : Measurable fun a => √(q a / p a) := (h'.measurable.div h.measurable).sqrt
  refine ⟨_, integral_nonneg fun a => Real.sqrt_nonneg _, hlt, fun {Ω} _ μ x hx => ?_⟩
  have main : ∀ n, μ {ω | ¬ (J' (firstN (fun i => e (x i ω)) n) <. J (firstN (fun i => e (x i ω)) n)) = true}
      ≤ ENNReal.ofReal ((∫ a, √(q a / p a) ∂(law ν e d)) ^ n) := by
    intro n
    have incl : ∀ᵐ ω ∂μ, ω ∈ {ω | ¬ (J' (firstN (fun i => e (x i ω)) n) <. J (firstN (fun i => e (x i ω)) n)) = true} →
        ω ∈ {ω | 1 ≤ ∏ i ∈ Finset.range n, ENNReal.ofReal (√(q (x i ω) / p (x i ω)))} := by
      filter_upwards [draws_always hx hfin] with ω hω hmem
      change ¬ (J' (firstN (fun i => e (x i ω)) n) <. J (firstN (fun i => e (x i ω)) n)) = true at hmem
      rw [firstN_map (fun i => x i ω) e] at hmem
      obtain ⟨c, hc, hc'⟩ := hJ _ (firstN_mem (x := fun i => x i ω) hω n)
      rw [hc, hc'] at hmem
      have s := density_sum (((firstN (fun i => x i ω) n).map e).map fun y => logDensityWrtRoot d y) (by
        intro v hv
        simp only [List.mem_map] at hv
        obtain ⟨y, ⟨a, -, rfl⟩, rfl⟩ := hv
        exact h.proper a)
      have s' := density_sum (((firstN (fun i => x i ω) n).map e).map fun y => logDensityWrtRoot d' y) (by
        intro v hv
        simp only [List.mem_map] at hv
        obtain ⟨y, ⟨a, -, rfl⟩, rfl⟩ := hv
        exact h'.proper a)
      have e1 : ((((firstN (fun i => x i ω) n).map e).map fun y => (logDensityWrtRoot d y : XReal)).map density)
          = (firstN (fun i => x i ω) n).map p := by simp [List.map_map, Function.comp_def, hp]
      have e1' : ((((firstN (fun i => x i ω) n).map e).map fun y => (logDensityWrtRoot d' y : XReal)).map density)
          = (firstN (fun i => x i ω) n).map q := by simp [List.map_map, Function.comp_def, hq]
      rw [e1] at s
      rw [e1'] at s'
      change density ((IID.ofDist d).iidLogDensityFallback ((firstN (fun i => x i ω) n).map e))
        = ((firstN (fun i => x i ω) n).map p).prod ∧ _ at s
      change density ((IID.ofDist d').iidLogDensityFallback ((firstN (fun i => x i ω) n).map e))
        = ((firstN (fun i => x i ω) n).map q).prod ∧ _ at s'
      rw [firstN_prod] at s s'
      have ppos : ∀ i, 0 < p (x i ω) := fun i => by
        obtain ⟨r, hr⟩ := hω i
        rw [hp]; simp only [hr]; exact Real.exp_pos _
      have hprod : 0 < ∏ i ∈ Finset.range n, p (x i ω) := Finset.prod_pos fun i _ => ppos i
      obtain ⟨s1, s2⟩ := s
      obtain ⟨s1', s2'⟩ := s'
      change IsFin ((IID.ofDist d).iidLogDensityFallback ((firstN (fun i => x i ω) n).map e)) ∨
        (IID.ofDist d).iidLogDensityFallback ((firstN (fun i => x i ω) n).map e) = ninf at s2
      change IsFin ((IID.ofDist d').iidLogDensityFallback ((firstN (fun i => x i ω) n).map e)) ∨
        (IID.ofDist d').iidLogDensityFallback ((firstN (fun i => x i ω) n).map e) = ninf at s2'
      generalize ((IID.ofDist d).iidLogDensityFallback ((firstN (fun i => x i ω) n).map e) : XReal) = A at s1 s2 hmem
      generalize ((IID.ofDist d').iidLogDensityFallback ((firstN (fun i => x i ω) n).map e) : XReal) = B at s1' s2' hmem
      obtain ⟨a, rfl⟩ : A.IsFin := by
        rcases s2 with h | h
        · exact h
        · rw [h] at s1; simp only [density_ninf] at s1; exact absurd s1 hprod.ne
      obtain ⟨b, rfl⟩ : B.IsFin := by
        rcases s2' with h | h
        · exact h
        · rw [h] at hmem; exact absurd rfl hmem
      have hab : a ≤ b := by simpa using hmem
      rw [density_fin] at s1 s1'
      rw [← ENNReal.ofReal_prod_of_nonneg fun i _ => Real.sqrt_nonneg _]
      refine ENNReal.one_le_ofReal.mpr ?_
      rw [← Real.sqrt_prod _ fun i _ => div_nonneg (q0 _) (p0 _), Finset.prod_div_distrib, ← s1, ← s1',
        Real.one_le_sqrt, one_le_div (Real.exp_pos _)]
      exact Real.exp_le_exp.mpr hab
    refine (measure_mono_ae incl).trans ?_
    have mY : ∀ i, Measurable fun ω => ENNReal.ofReal (√(q (x i ω) / p (x i ω))) :=
      fun i => mh.ennreal_ofReal.comp (hx.measurable i)
    have mk := mul_meas_ge_le_lintegral₀ (μ := μ)
      (f := fun ω => ∏ i ∈ Finset.range n, ENNReal.ofReal (√(q (x i ω) / p (x i ω))))
      (Finset.measurable_fun_prod _ fun i _ => mY i).aemeasurable 1
    rw [one_mul] at mk
    refine mk.trans (le_of_eq ?_)
    rw [lintegral_prod_eq_prod_lintegral_of_indepFun (Finset.range n)
      (fun i ω => ENNReal.ofReal (√(q (x i ω) / p (x i ω))))
      (hx.independent.comp (fun _ a => ENNReal.ofReal (√(q a / p a))) fun _ => mh.ennreal_ofReal) mY]
    have each : ∀ i, ∫⁻ ω, ENNReal.ofReal (√(q (x i ω) / p (x i ω))) ∂μ
        = ENNReal.ofReal (∫ a, √(q a / p a) ∂(law ν e d)) := fun i => by
      rw [ofReal_integral_eq_lintegral_ofReal hi (ae_of_all _ fun a => Real.sqrt_nonneg _), ← hx.law i,
        lintegral_map mh.ennreal_ofReal (hx.measurable i)]
    rw [Finset.prod_congr rfl fun i _ => each i, Finset.prod_const, Finset.card_range, ENNReal.ofReal_pow]
    exact integral_nonneg fun a => Real.sqrt_nonneg _
  refine ⟨main, ?_⟩
  have sum : ∑' n, μ {ω | ¬ (J' (firstN (fun i => e (x i ω)) n) <. J (firstN (fun i => e (x i ω)) n)) = true} ≠ ⊤ := by
    refine ne_top_of_le_ne_top ?_ (ENNReal.tsum_le_tsum main)
    have hs := summable_geometric_of_lt_one (integral_nonneg fun a => Real.sqrt_nonneg (q a / p a)) hlt
    rw [← ENNReal.ofReal_tsum_of_nonneg (fun n => pow_nonneg (integral_nonneg fun a => Real.sqrt_nonneg _) n) hs]
    exact ENNReal.ofReal_ne_top
  filter_upwards [ae_eventually_notMem sum] with ω hω
  filter_upwards [hω] with n hn
  simpa using hn

theorem add_fin_zero (x : XReal) : (x +. fin 0) = x := by
  cases x with
  | fin a => rw [f_add, add_zero]
  | _ => rfl

/-- **C140** for the sum of the log-densities (`iid_log_density_fallback`), for any two different distributions, of the
same family or of different families. -/
theorem C140_direct {M M' X α : Type} [MeasurableSpace α] [HasLogDensity M X XReal] [HasLogDensity M' X XReal]
    {ν : MeasureTheory.Measure α} {e : α → X} {d : M} {d' : M'} (h : RegularLaw ν e d) (h' : RegularLaw ν e d')
    (hne : law ν e d ≠ law ν e d') :
    Recognised ν e d (IID.ofDist d).iidLogDensityFallback (IID.ofDist d').iidLogDensityFallback :=
  C140_recognised h h' hne fun _ _ => ⟨0, (add_fin_zero _).symm, (add_fin_zero _).symm⟩

theorem map_sum_add {α : Type} (l : List α) (v w : α → ℝ) :
    (l.map fun a => v a + w a).sum = (l.map v).sum + (l.map w).sum := by
  induction l with
  | nil => simp
  | cons a l ih => simp only [List.map_cons, List.sum_cons, ih]; ring

/-- the log-densities of both candidates, and their values summed by `J` and `J'`, term by term -/
theorem recognised_terms {M M' X α : Type} [MeasurableSpace α] [HasLogDensity M X XReal] [HasLogDensity M' X XReal]
    {ν : MeasureTheory.Measure α} {e : α → X} {d : M} {d' : M'} (h : RegularLaw ν e d) (h' : RegularLaw ν e d')
    (hne : law ν e d ≠ law ν e d') {J J' : List X → XReal} (support : α → Prop)
    (hsup : ∀ a, (logDensityWrtRoot d (e a) : XReal).IsFin → support a) (v v' w : α → ℝ)
    (hv : ∀ a, support a → (logDensityWrtRoot d (e a) : XReal) = fin (v a))
    (hv' : ∀ a, support a → (logDensityWrtRoot d' (e a) : XReal) = fin (v' a))
    (hJ : ∀ l : List α, (∀ a ∈ l, support a) → J (l.map e) = fin (l.map fun a => v a + w a).sum)
    (hJ' : ∀ l : List α, (∀ a ∈ l, support a) → J' (l.map e) = fin (l.map fun a => v' a + w a).sum) :
    Recognised ν e d J J' := by
  refine C140_recognised h h' hne fun l hl => ⟨(l.map w).sum, ?_, ?_⟩
  · rw [hJ l fun a ha => hsup a (hl a ha), fallback_of_terms hv fun a ha => hsup a (hl a ha), f_add, map_sum_add]
  · rw [hJ' l fun a ha => hsup a (hl a ha), fallback_of_terms hv' fun a ha => hsup a (hl a ha), f_add, map_sum_add]

/-- **C140**, continuous families: two distributions of the same family with different parameters. -/
theorem C140_continuous :
    (∀ (μ σ μ' σ' : ℝ) (d d' : Normal XReal), Normal.new (fin μ) (fin σ) = .ok d → Normal.new (fin μ') (fin σ') = .ok d' →
      (μ, σ) ≠ (μ', σ') →
      Recognised volume fin d (IID.ofDist d).iidLogDensityFallback (IID.ofDist d').iidLogDensityFallback ∧
      Recognised volume fin d (IID.ofDist d).iidLogDensity (IID.ofDist d').iidLogDensity) ∧
    (∀ (r r' : ℝ) (d d' : Exponential XReal), Exponential.new (fin r) = .ok d → Exponential.new (fin r') = .ok d' →
      r ≠ r' →
      Recognised volume fin d (IID.ofDist d).iidLogDensityFallback (IID.ofDist d').iidLogDensityFallback) ∧
    (∀ (a b a' b' : ℝ) (d d' : Gamma XReal), Gamma.new (fin a) (fin b) = .ok d → Gamma.new (fin a') (fin b') = .ok d' →
      (a, b) ≠ (a', b') →
      Recognised volume fin d (IID.ofDist d).iidLogDensityFallback (IID.ofDist d').iidLogDensityFallback ∧
      Recognised volume fin d (IID.ofDist d).iidLogDensity (IID.ofDist d').iidLogDensity) ∧
    (∀ (a b a' b' : ℝ) (d d' : Beta XReal), Beta.new (fin a) (fin b) = .ok d → Beta.new (fin a') (fin b') = .ok d' →
      (a, b) ≠ (a', b') →
      Recognised volume fin d (IID.ofDist d).iidLogDensityFallback (IID.ofDist d').iidLogDensityFallback ∧
      Recognised volume fin d (IID.ofDist d).iidLogDensity (IID.ofDist d').iidLogDensity) ∧
    (∀ (k k' : ℝ) (d d' : ChiSquared XReal), ChiSquared.new (fin k) = .ok d → ChiSquared.new (fin k') = .ok d' →
      k ≠ k' →
      Recognised volume fin d (IID.ofDist d).iidLogDensityFallback (IID.ofDist d').iidLogDensityFallback ∧
      Recognised volume fin d (IID.ofDist d).iidLogDensity (IID.ofDist d').iidLogDensity) ∧
    (∀ (l s l' s' : ℝ) (d d' : Cauchy XReal), Cauchy.new (fin l) (fin s) = .ok d → Cauchy.new (fin l') (fin s') = .ok d' →
      (l, s) ≠ (l', s') →
      Recognised volume fin d (IID.ofDist d).iidLogDensityFallback (IID.ofDist d').iidLogDensityFallback) ∧
    (∀ (ν ν' : ℝ) (d d' : StudentT XReal), StudentT.new (fin ν) = .ok d → StudentT.new (fin ν') = .ok d' → ν ≠ ν' →
      Recognised volume fin d (IID.ofDist d).iidLogDensityFallback (IID.ofDist d').iidLogDensityFallback) := by
  refine ⟨?_, ?_, ?_, ?_, ?_, ?_, ?_⟩
  · intro μ σ μ' σ' d d' h h' hne
    have hl : law volume fin d ≠ law volume fin d' := fun hc =>
      hne (Prod.ext_iff.mpr ((C126_continuous.1 μ σ μ' σ' d d' h h').mp hc))
    have r := C122_regular.1 μ σ d h
    have r' := C122_regular.1 μ' σ' d' h'
    refine ⟨C140_direct r r' hl, ?_⟩
    have s := C28_iid_is_sum_partial.1 μ σ d h
    have s' := C28_iid_is_sum_partial.1 μ' σ' d' h'
    obtain ⟨hσ, rfl⟩ := Normal.new_ok h
    obtain ⟨hσ', rfl⟩ := Normal.new_ok h'
    refine recognised_terms r r' hl (fun _ => True) (fun _ _ => trivial) _ _ (fun _ => 0)
      (fun a _ => Normal.ld hσ) (fun a _ => Normal.ld hσ') (fun l hl => ?_) (fun l hl => ?_)
    · simp only [add_zero]; exact iid_of_terms s (fun a _ => Normal.ef hσ) hl
    · simp only [add_zero]; exact iid_of_terms s' (fun a _ => Normal.ef hσ') hl
  · intro r r' d d' h h' hne
    exact C140_direct (C122_regular.2.1 r d h) (C122_regular.2.1 r' d' h') fun hc =>
      hne ((C126_continuous.2.1 r r' d d' h h').mp hc)
  · intro a b a' b' d d' h h' hne
    have hl : law volume fin d ≠ law volume fin d' := fun hc =>
      hne (Prod.ext_iff.mpr ((C126_continuous.2.2.1 a b a' b' d d' h h').mp hc))
    have r := C122_regular.2.2.1 a b d h
    have r' := C122_regular.2.2.1 a' b' d' h'
    refine ⟨C140_direct r r' hl, ?_⟩
    have s := C28_iid_is_sum_partial.2.2.2.1 a b d h
    have s' := C28_iid_is_sum_partial.2.2.2.1 a' b' d' h'
    obtain ⟨ha, hb, rfl⟩ := Gamma.new_ok h
    obtain ⟨ha', hb', rfl⟩ := Gamma.new_ok h'
    refine recognised_terms r r' hl (fun x => 0 < x) (fun x hx => ?_) _ _ (fun _ => 0)
      (fun x hx => Gamma.ld_of_pos ha hb hx) (fun x hx => Gamma.ld_of_pos ha' hb' hx) (fun l hl => ?_) (fun l hl => ?_)
    · by_contra hc
      rw [Gamma.ld_of_nonpos (not_lt.mp hc)] at hx
      exact not_isFin_ninf hx
    · simp only [add_zero]; exact iid_of_terms s (fun x hx => Gamma.ef ha hb hx) hl
    · simp only [add_zero]; exact iid_of_terms s' (fun x hx => Gamma.ef ha' hb' hx) hl
  · intro a b a' b' d d' h h' hne
    have hl : law volume fin d ≠ law volume fin d' := fun hc =>
      hne (Prod.ext_iff.mpr ((C126_continuous.2.2.2.1 a b a' b' d d' h h').mp hc))
    have r := C122_regular.2.2.2.1 a b d h
    have r' := C122_regular.2.2.2.1 a' b' d' h'
    refine ⟨C140_direct r r' hl, ?_⟩
    have s := C28_iid_is_sum_partial.2.2.2.2.1 a b d h
    have s' := C28_iid_is_sum_partial.2.2.2.2.1 a' b' d' h'
    obtain ⟨ha, hb, rfl⟩ := Beta.new_ok h
    obtain ⟨ha', hb', rfl⟩ := Beta.new_ok h'
    refine recognised_terms r r' hl (fun x => 0 < x ∧ x < 1) (fun x hx => ?_) _ _ (fun _ => 0)
      (fun x hx => Beta.ld_of_mem ha hb hx.1 hx.2) (fun x hx => Beta.ld_of_mem ha' hb' hx.1 hx.2)
      (fun l hl => ?_) (fun l hl => ?_)
    · by_contra hc
      rw [Beta.ld_of_not_mem hc] at hx
      exact not_isFin_ninf hx
    · simp only [add_zero]; exact iid_of_terms s (fun x hx => Beta.ef ha hb hx.1 hx.2) hl
    · simp only [add_zero]; exact iid_of_terms s' (fun x hx => Beta.ef ha' hb' hx.1 hx.2) hl
  · intro k k' d d' h h' hne
    have hl : law volume fin d ≠ law volume fin d' := fun hc =>
      hne ((C126_continuous.2.2.2.2.1 k k' d d' h h').mp hc)
    have r := C122_regular.2.2.2.2.1 k d h
    have r' := C122_regular.2.2.2.2.1 k' d' h'
    refine ⟨C140_direct r r' hl, ?_⟩
    have s := C28_iid_is_sum_partial.2.2.2.2.2.1 k d h
    have s' := C28_iid_is_sum_partial.2.2.2.2.2.1 k' d' h'
    obtain ⟨hk, rfl⟩ := ChiSquared.new_ok h
    obtain ⟨hk', rfl⟩ := ChiSquared.new_ok h'
    refine recognised_terms r r' hl (fun x => 0 < x) (fun x hx => ?_) _ _ (fun _ => 0)
      (fun x hx => ChiSquared.ld_of_pos hk hx) (fun x hx => ChiSquared.ld_of_pos hk' hx) (fun l hl => ?_) (fun l hl => ?_)
    · by_contra hc
      rw [ChiSquared.ld_of_nonpos (not_lt.mp hc)] at hx
      exact not_isFin_ninf hx
    · simp only [add_zero]; exact iid_of_terms s (fun x hx => ChiSquared.ef hk hx) hl
    · simp only [add_zero]; exact iid_of_terms s' (fun x hx => ChiSquared.ef hk' hx) hl
  · intro l s l' s' d d' h h' hne
    exact C140_direct (C122_regular.2.2.2.2.2.1 l s d h) (C122_regular.2.2.2.2.2.1 l' s' d' h') fun hc =>
      hne (Prod.ext_iff.mpr ((C126_continuous.2.2.2.2.2.1 l s l' s' d d' h h').mp hc))
  · intro ν ν' d d' h h' hne
    exact C140_direct (C122_regular.2.2.2.2.2.2.1 ν d h) (C122_regular.2.2.2.2.2.2.1 ν' d' h') fun hc =>
      hne ((C126_continuous.2.2.2.2.2.2 ν ν' d d' h h').mp hc)

/-- **C140**, discrete families: two distributions of the same family with different parameters.  Binomial and negative
binomial log-densities omit the coefficient (C20, C21), which cancels when the number of trials or failures is the same. -/
theorem C140_discrete :
    (∀ (p p' : ℝ) (d d' : Bernoulli XReal), Bernoulli.new (fin p) = .ok d → Bernoulli.new (fin p') = .ok d' →
      0 < p → p < 1 → 0 < p' → p' < 1 → p ≠ p' →
      Recognised Measure.count byteOf d (IID.ofDist d).iidLogDensityFallback (IID.ofDist d').iidLogDensityFallback ∧
      Recognised Measure.count byteOf d (IID.ofDist d).iidLogDensity (IID.ofDist d').iidLogDensity) ∧
    (∀ (r r' : ℝ) (d d' : Poisson XReal), Poisson.new (fin r) = .ok d → Poisson.new (fin r') = .ok d' → r ≠ r' →
      Recognised Measure.count (id : ℕ → ℕ) d (IID.ofDist d).iidLogDensityFallback (IID.ofDist d').iidLogDensityFallback ∧
      Recognised Measure.count (id : ℕ → ℕ) d (IID.ofDist d).iidLogDensity (IID.ofDist d').iidLogDensity) ∧
    (∀ (p p' : ℝ) (d d' : Geometric XReal), Geometric.new (fin p) = .ok d → Geometric.new (fin p') = .ok d' →
      p < 1 → p' < 1 → p ≠ p' →
      Recognised Measure.count (id : ℕ → ℕ) d (IID.ofDist d).iidLogDensityFallback
        (IID.ofDist d').iidLogDensityFallback) ∧
    (∀ (ps ps' : List ℝ) (d d' : Categorical XReal), Categorical.new (ps.map fin) = .ok d →
      Categorical.new (ps'.map fin) = .ok d' → (∀ p ∈ ps, 0 < p) → ps.sum = 1 → (∀ p ∈ ps', 0 < p) → ps'.sum = 1 →
      ps ≠ ps' →
      Recognised Measure.count (id : ℕ → ℕ) d (IID.ofDist d).iidLogDensityFallback
        (IID.ofDist d').iidLogDensityFallback) ∧
    (∀ (n : ℕ) (p p' : ℝ) (d d' : Binomial XReal), Binomial.new n (fin p) = .ok d → Binomial.new n (fin p') = .ok d' →
      0 < n → 0 < p → p < 1 → 0 < p' → p' < 1 → p ≠ p' →
      Recognised Measure.count (id : ℕ → ℕ) d.withBase (IID.ofDist d).iidLogDensityFallback
        (IID.ofDist d').iidLogDensityFallback ∧
      Recognised Measure.count (id : ℕ → ℕ) d.withBase (IID.ofDist d).iidLogDensity (IID.ofDist d').iidLogDensity) ∧
    (∀ (r : ℕ) (p p' : ℝ) (d d' : NegativeBinomial XReal), NegativeBinomial.new r (fin p) = .ok d →
      NegativeBinomial.new r (fin p') = .ok d' → p ≠ p' →
      Recognised Measure.count (id : ℕ → ℕ) d.withBase (IID.ofDist d).iidLogDensityFallback
        (IID.ofDist d').iidLogDensityFallback) := by
  refine ⟨?_, ?_, ?_, ?_, ?_, ?_⟩
  · intro p p' d d' h h' h0 h1 h0' h1' hne
    have hl : law Measure.count byteOf d ≠ law Measure.count byteOf d' := fun hc =>
      hne ((C126_discrete.1 p p' d d' h h').mp hc)
    have s := C28_iid_is_sum_partial.2.2.2.2.2.2.1 p d h h0.ne' h1.ne
    have s' := C28_iid_is_sum_partial.2.2.2.2.2.2.1 p' d' h' h0'.ne' h1'.ne
    have pmf := (C16_bernoulli_pmf h).1
    obtain ⟨-, rfl⟩ := Bernoulli.new_ok h
    obtain ⟨-, rfl⟩ := Bernoulli.new_ok h'
    have r := Bernoulli.regular h0 h1
    have r' := Bernoulli.regular h0' h1'
    refine ⟨C140_direct r r' hl, ?_⟩
    have ld : ∀ {q : ℝ}, 0 < q → q < 1 → ∀ a : Fin 256, (byteOf a = 0 ∨ byteOf a = 1) →
        (logDensityWrtRoot (⟨fin q⟩ : Bernoulli XReal) (byteOf a) : XReal)
          = fin ((byteOf a).toNat * (Real.log q - Real.log (1 - q)) + Real.log (1 - q)) := by
      intro q h0 h1 a ha
      rw [Bernoulli.ld_bit h0 h1 ha, Real.log_one]
      congr 1
      ring
    refine recognised_terms r r' hl (fun a => byteOf a = 0 ∨ byteOf a = 1) (fun a ha => ?_) _ _ (fun _ => 0)
      (ld h0 h1) (ld h0' h1') (fun l hl => ?_) (fun l hl => ?_)
    · by_contra hc
      push Not at hc
      obtain ⟨v, hv⟩ := ha
      have := pmf (byteOf a)
      rw [hv, if_neg hc.2, if_neg hc.1] at this
      exact (Real.exp_pos v).ne' this
    · simp only [add_zero]; exact iid_of_terms s (fun x _ => Bernoulli.ef h0 h1 (byteOf x)) hl
    · simp only [add_zero]; exact iid_of_terms s' (fun x _ => Bernoulli.ef h0' h1' (byteOf x)) hl
  · intro r r' d d' h h' hne
    have hl : law Measure.count (id : ℕ → ℕ) d ≠ law Measure.count id d' := fun hc =>
      hne ((C126_discrete.2.1 r r' d d' h h').mp hc)
    have reg := C122_regular.2.2.2.2.2.2.2.2 r d h
    have reg' := C122_regular.2.2.2.2.2.2.2.2 r' d' h'
    refine ⟨C140_direct reg reg' hl, ?_⟩
    have s := poisson_iid_value h
    have s' := poisson_iid_value h'
    obtain ⟨hr, rfl⟩ := Poisson.new_ok h
    obtain ⟨hr', rfl⟩ := Poisson.new_ok h'
    have key : ∀ (ρ : ℝ) (l : List ℕ), (l.sum : ℝ) * Real.log ρ - l.length * ρ
        - (l.map (fun k => (C38_log_factorial_accurate k).choose)).sum
        = (l.map fun k => (k * Real.log ρ - ρ - Real.log (Nat.factorial k))
          + (Real.log (Nat.factorial k) - (C38_log_factorial_accurate k).choose)).sum := by
      intro ρ l
      induction l with
      | nil => simp
      | cons k l ih =>
        simp only [List.map_cons, List.sum_cons, List.length_cons, ← ih]
        push_cast
        ring
    exact recognised_terms reg reg' hl (fun _ => True) (fun _ _ => trivial) _ _
      (fun k => Real.log (Nat.factorial k) - (C38_log_factorial_accurate k).choose)
      (fun k _ => Poisson.ld hr k) (fun k _ => Poisson.ld hr' k)
      (fun l _ => by rw [List.map_id, s l, key]) (fun l _ => by rw [List.map_id, s' l, key])
  · intro p p' d d' h h' h1 h1' hne
    exact C140_direct (C122_regular.2.2.2.2.2.2.2.1 p d h h1.ne) (C122_regular.2.2.2.2.2.2.2.1 p' d' h' h1'.ne)
      fun hc => hne ((C126_discrete.2.2.1 p p' d d' h h').mp hc)
  · intro ps ps' d d' h h' hp hs hp' hs' hne
    have e : ps ≠ [] := fun h => by rw [h] at hs; simp at hs
    have e' : ps' ≠ [] := fun h => by rw [h] at hs'; simp at hs'
    obtain ⟨n1, r⟩ := Categorical.regular e hp hs
    obtain ⟨n1', r'⟩ := Categorical.regular e' hp' hs'
    rw [n1] at h
    rw [n1'] at h'
    cases h
    cases h'
    refine C140_direct r r' fun hc => hne (((C126_discrete.2.2.2.1 ps ps' _ _ n1 n1').2 ?_).mp hc)
    exact Or.inr ⟨fun p h => (hp p h).ne', fun p h => (hp' p h).ne'⟩
  · intro n p p' d d' h h' hn h0 h1 h0' h1' hne
    have hl : law Measure.count (id : ℕ → ℕ) d.withBase ≠ law Measure.count id d'.withBase := fun hc => by
      rcases ((C126_discrete.2.2.2.2.1 n n p p' d d' h h' h0.ne' h1.ne h0'.ne' h1'.ne).mp hc).2 with h | h
      · exact hn.ne' h
      · exact hne h
    have s := C28_iid_is_sum_partial.2.2.2.2.2.2.2.1 n p d h h0.ne' h1.ne
    have s' := C28_iid_is_sum_partial.2.2.2.2.2.2.2.1 n p' d' h' h0'.ne' h1'.ne
    obtain ⟨-, rfl⟩ := Binomial.new_ok h
    obtain ⟨-, rfl⟩ := Binomial.new_ok h'
    have sup : ∀ k : ℕ, (logDensityWrtRoot (⟨n, fin p⟩ : Binomial XReal).withBase (id k) : XReal).IsFin → k ≤ n := by
      intro k hk
      by_contra hc
      rw [id, (Binomial.withBase_ld h0 h1 k).2 (not_le.mp hc)] at hk
      exact not_isFin_ninf hk
    refine ⟨?_, ?_⟩
    · refine recognised_terms (Binomial.regular h0 h1) (Binomial.regular h0' h1') hl (fun k => k ≤ n) sup _ _
        (fun k => -Real.log (n.choose k)) (fun k hk => (Binomial.withBase_ld h0 h1 k).1 hk)
        (fun k hk => (Binomial.withBase_ld h0' h1' k).1 hk) (fun l hl => ?_) (fun l hl => ?_)
      · rw [fallback_of_terms (sample := id) (support := fun k => k ≤ n) (fun k hk => Binomial.ld_of_le h0 h1 hk) hl]
        congr 2
        exact List.map_congr_left fun k _ => by simp only [id]; ring
      · rw [fallback_of_terms (sample := id) (support := fun k => k ≤ n) (fun k hk => Binomial.ld_of_le h0' h1' hk) hl]
        congr 2
        exact List.map_congr_left fun k _ => by simp only [id]; ring
    · refine recognised_terms (Binomial.regular h0 h1) (Binomial.regular h0' h1') hl (fun k => k ≤ n) sup _ _
        (fun k => 0) (fun k hk => (Binomial.withBase_ld h0 h1 k).1 hk)
        (fun k hk => (Binomial.withBase_ld h0' h1' k).1 hk) (fun l hl => ?_) (fun l hl => ?_)
      · rw [iid_of_terms s (sample := id) (support := fun k => k ≤ n) (fun k hk => Binomial.ef h0 h1 hk) hl]
        congr 2
        exact List.map_congr_left fun k _ => by simp only [id]; ring
      · rw [iid_of_terms s' (sample := id) (support := fun k => k ≤ n) (fun k hk => Binomial.ef h0' h1' hk) hl]
        congr 2
        exact List.map_congr_left fun k _ => by simp only [id]; ring
  · intro r p p' d d' h h' hne
    have hl : law Measure.count (id : ℕ → ℕ) d.withBase ≠ law Measure.count id d'.withBase := fun hc =>
      hne ((C126_discrete.2.2.2.2.2 r r p p' d d' h h').mp hc).2
    obtain ⟨hr, ⟨h0, h1⟩, rfl⟩ := NegativeBinomial.new_ok h
    obtain ⟨-, ⟨h0', h1'⟩, rfl⟩ := NegativeBinomial.new_ok h'
    refine recognised_terms (NegativeBinomial.regular hr h0 h1) (NegativeBinomial.regular hr h0' h1') hl
      (fun _ => True) (fun _ _ => trivial) _ _ (fun k => -Real.log ((k + r - 1).choose k))
      (fun k _ => NegativeBinomial.withBase_ld hr h0 h1 k) (fun k _ => NegativeBinomial.withBase_ld hr h0' h1' k)
      (fun l hl => ?_) (fun l hl => ?_)
    · rw [fallback_of_terms (sample := id) (support := fun _ => True) (fun k _ => NegativeBinomial.ld h0 h1) hl]
      congr 2
      exact List.map_congr_left fun k _ => by simp only [id]; ring
    · rw [fallback_of_terms (sample := id) (support := fun _ => True) (fun k _ => NegativeBinomial.ld h0' h1') hl]
      congr 2
      exact List.map_congr_left fun k _ => by simp only [id]; ring

/-- a joint log-density that never prefers `d` does not recognise it -/
theorem not_recognised {M X α : Type} [MeasurableSpace α] [HasLogDensity M X XReal] {ν : MeasureTheory.Measure α}
    {e : α → X} {d : M} (h : RegularLaw ν e d) {J J' : List X → XReal}
    (hJ : ∀ {Ω : Type} [MeasurableSpace Ω] (μ : MeasureTheory.Measure Ω) (x : ℕ → Ω → α), Draws μ x (law ν e d) →
      ∀ᵐ ω ∂μ, ∃ᶠ n in atTop, ¬ (J' (firstN (fun i => e (x i ω)) n) <. J (firstN (fun i => e (x i ω)) n)) = true) :
    ¬ Recognised ν e d J J' := by
  rintro ⟨ρ, -, -, hr⟩
  obtain ⟨μ, hμ, hd⟩ := exists_draws h
  obtain ⟨ω, h1, h2⟩ := ((hr μ _ hd).2.and (hJ μ _ hd)).exists
  exact h2 (h1.mono fun n hn hc => hc hn)

/-- **C140** fails for `iid_log_density` of exponential data: whatever the data, the smaller of two rates is preferred;
of geometric data: the probability `p / (1 + p)` is preferred to the true one, for every `p`;
and for the sum of the log-densities of negative binomial distributions with different numbers of failures: whatever the
data, the smaller number is preferred. -/
theorem C140_violated :
    (∀ (r r' : ℝ) (d d' : Exponential XReal), Exponential.new (fin r) = .ok d → Exponential.new (fin r') = .ok d' →
      r' < r → ¬ Recognised volume fin d (IID.ofDist d).iidLogDensity (IID.ofDist d').iidLogDensity) ∧
    (∀ (p : ℝ) (d d' : Geometric XReal), Geometric.new (fin p) = .ok d → p < 1 →
      Geometric.new (fin (p / (1 + p))) = .ok d' →
      ¬ Recognised Measure.count (id : ℕ → ℕ) d (IID.ofDist d).iidLogDensity (IID.ofDist d').iidLogDensity) ∧
    (∀ (r r' : ℕ) (p : ℝ) (d d' : NegativeBinomial XReal), NegativeBinomial.new r (fin p) = .ok d →
      NegativeBinomial.new r' (fin p) = .ok d' → r' < r →
      ¬ Recognised Measure.count (id : ℕ → ℕ) d.withBase (IID.ofDist d).iidLogDensityFallback
        (IID.ofDist d').iidLogDensityFallback) := by
  refine ⟨?_, ?_, ?_⟩
  · intro r r' d d' h h' hlt
    have reg := C122_regular.2.1 r d h
    have s := C28_iid_is_sum_partial.2.2.1 r d h
    have s' := C28_iid_is_sum_partial.2.2.1 r' d' h'
    obtain ⟨hr, rfl⟩ := Exponential.new_ok h
    obtain ⟨hr', rfl⟩ := Exponential.new_ok h'
    refine not_recognised reg fun {Ω} _ μ x hx => ?_
    have hpos : ∀ᵐ x ∂(law volume fin (⟨fin r⟩ : Exponential XReal)), 0 ≤ x := law_ae reg fun x hx => by
      by_contra hc
      rw [Exponential.ld_of_neg (not_le.1 hc)] at hx
      simp [density] at hx
    filter_upwards [draws_always hx hpos] with ω hω
    refine Frequently.of_forall fun n => ?_
    rw [firstN_map (fun i => x i ω) fin, iid_of_terms s (support := fun _ => True) (fun x _ => Exponential.ef hr) (by simp),
      iid_of_terms s' (support := fun _ => True) (fun x _ => Exponential.ef hr') (by simp), firstN_sum, firstN_sum]
    rw [f_lt, decide_eq_true_eq, not_lt]
    refine Finset.sum_le_sum fun i _ => ?_
    have h1 := Real.log_le_log hr' hlt.le
    have h2 := mul_le_mul_of_nonneg_right hlt.le (hω i)
    linarith
  · intro p d d' h h1 h'
    have reg := C122_regular.2.2.2.2.2.2.2.1 p d h h1.ne
    obtain ⟨m, v, e1, -, hmom⟩ := C27_discrete_moments_partial.2.1 p d h h1.ne
    have s := C28_iid_is_sum_partial.2.2.2.2.2.2.2.2.1 p d h h1.ne
    obtain ⟨⟨h0, -⟩, rfl⟩ := Geometric.new_ok h
    have q0 : 0 < p / (1 + p) := by positivity
    have q1 : p / (1 + p) < 1 := by rw [div_lt_one (by positivity)]; linarith
    have s' := C28_iid_is_sum_partial.2.2.2.2.2.2.2.2.1 _ d' h' q1.ne
    obtain ⟨-, rfl⟩ := Geometric.new_ok h'
    have hm : m = 1 / p := by
      have : fin (1 / p) = fin m := by rw [← e1]; exact (f_div _ _ h0.ne').symm
      rw [fin.injEq] at this; exact this.symm
    obtain ⟨i1, i2⟩ := integral_law_nat (⟨fin p⟩ : Geometric XReal) reg (fun k => (k : ℝ)) (t := m)
      (by simpa [mul_comm] using hmom.mean)
    refine not_recognised reg fun {Ω} _ μ x hx => ?_
    filter_upwards [draws_average hx measurable_from_top i1 i2] with ω ha
    refine Eventually.frequently ?_
    have hm0 : 0 < m := by rw [hm]; positivity
    have hq : p / (1 + p) = 1 / (1 + m) := by rw [hm]; field_simp; ring
    have gap := prob_max one_pos hm0 h0 h1 (by
      rw [← hq]
      intro hc
      rw [eq_div_iff (by positivity)] at hc
      nlinarith)
    rw [← hq] at gap
    have lim : ∀ q : ℝ, Tendsto (fun n : ℕ => (∑ i ∈ Finset.range n, ((x i ω : ℝ) * Real.log (1 - q) + Real.log q)) / n)
        atTop (𝓝 (m * Real.log (1 - q) + Real.log q)) := by
      intro q
      refine ((ha.mul_const (Real.log (1 - q))).add_const (Real.log q)).congr' ?_
      filter_upwards [eventually_gt_atTop 0] with n hn
      have : (n : ℝ) ≠ 0 := by exact_mod_cast hn.ne'
      rw [Finset.sum_add_distrib, ← Finset.sum_mul, Finset.sum_const, Finset.card_range, nsmul_eq_mul]
      field_simp
    filter_upwards [(lim p).eventually_lt (lim (p / (1 + p))) (by linarith), eventually_gt_atTop 0] with n hn hn0
    have hn' : (0 : ℝ) < n := by exact_mod_cast hn0
    rw [firstN_map (fun i => x i ω) id, iid_of_terms s (sample := id) (support := fun _ => True) (fun k _ => Geometric.ef h0 h1 k) (by simp),
      iid_of_terms s' (sample := id) (support := fun _ => True) (fun k _ => Geometric.ef q0 q1 k) (by simp), firstN_sum, firstN_sum]
    rw [f_lt, decide_eq_true_eq, not_lt]
    exact ((div_lt_div_iff_of_pos_right hn').mp hn).le
  · intro r r' p d d' h h' hlt
    obtain ⟨hr, ⟨h0, h1⟩, rfl⟩ := NegativeBinomial.new_ok h
    obtain ⟨-, -, rfl⟩ := NegativeBinomial.new_ok h'
    refine not_recognised (NegativeBinomial.regular hr h0 h1) fun {Ω} _ μ x hx => ?_
    refine ae_of_all _ fun ω => Frequently.of_forall fun n => ?_
    rw [firstN_map (fun i => x i ω) id, fallback_of_terms (sample := id) (support := fun _ => True) (fun k _ => NegativeBinomial.ld h0 h1)
      (by simp), fallback_of_terms (sample := id) (support := fun _ => True) (fun k _ => NegativeBinomial.ld h0 h1) (by simp),
      firstN_sum, firstN_sum, f_lt, decide_eq_true_eq, not_lt]
    refine Finset.sum_le_sum fun i _ => ?_
    have hc : (r' : ℝ) ≤ r := by exact_mod_cast hlt.le
    have := mul_le_mul_of_nonpos_right hc (Real.log_nonpos h0.le h1.le)
    linarith

/-- a quadratic is not bounded by a linear function -/
theorem quadratic_not_le (a b K : ℝ) (hb : 0 ≤ b) : ∃ t : ℝ, 0 ≤ t ∧ 2 * (a + b * t) + K < t * t / 2 := by
  have ha := abs_nonneg a
  have hK := abs_nonneg K
  have h1 := le_abs_self a
  have h2 := le_abs_self K
  refine ⟨4 * b + (2 + 2 * |a| + |K|), by positivity, ?_⟩
  nlinarith [mul_nonneg hb ha, mul_nonneg hb hK, mul_nonneg ha hK, mul_nonneg ha ha, mul_nonneg hK hK]

theorem normal_law_ne_cauchy {μ σ l s : ℝ} {d : Normal XReal} {d' : Cauchy XReal}
    (h : Normal.new (fin μ) (fin σ) = .ok d) (h' : Cauchy.new (fin l) (fin s) = .ok d') :
    law volume fin d ≠ law volume fin d' := by
  intro hc
  have ae := density_ae_eq_of_law volume fin d d' (C122_regular.1 _ _ _ h) (C122_regular.2.2.2.2.2.1 _ _ _ h') hc
  obtain ⟨hσ, rfl⟩ := Normal.new_ok h
  obtain ⟨hs, rfl⟩ := Cauchy.new_ok h'
  have pos : ∀ x : ℝ, 0 < 1 + (x - l)/s * ((x - l)/s) := fun x => by
    have := mul_self_nonneg ((x - l)/s)
    linarith
  simp only [Normal.ld hσ, Cauchy.ld hs, density_fin] at ae
  have eq := (Continuous.ae_eq_iff_eq (volume : MeasureTheory.Measure ℝ) (by fun_prop)
    (Real.continuous_exp.comp (((Continuous.log (by fun_prop) fun x => (pos x).ne').neg.sub continuous_const).sub
      continuous_const))).mp ae
  obtain ⟨t, ht, hlt⟩ := quadratic_not_le (|μ - l| / s) (σ / s)
    (-(1/2) * Real.log (2 * Real.pi) - Real.log σ + Real.log s + Real.log Real.pi) (by positivity)
  have e := Real.exp_injective (congrFun eq (μ + σ * t))
  have g1 : (μ + σ * t - μ) / σ = t := by field_simp; ring
  rw [g1] at e
  simp only [Pi.sub_apply, Pi.neg_apply] at e
  set g := (μ + σ * t - l) / s with hg
  have hga : |g| ≤ |μ - l| / s + σ / s * t := by
    rw [hg, abs_div, abs_of_pos hs, div_mul_eq_mul_div, ← add_div]
    refine div_le_div_of_nonneg_right ?_ hs.le
    calc |μ + σ * t - l| = |(μ - l) + σ * t| := by ring_nf
      _ ≤ |μ - l| + |σ * t| := abs_add_le _ _
      _ = |μ - l| + σ * t := by rw [abs_of_nonneg (mul_nonneg hσ.le ht)]
  have hlog : Real.log (1 + g * g) ≤ 2 * |g| := by
    have h0 := abs_nonneg g
    have h1 : 1 + g * g ≤ (1 + |g|) ^ 2 := by nlinarith [abs_mul_abs_self g]
    have h2 : (0:ℝ) < 1 + g * g := by nlinarith [mul_self_nonneg g]
    calc Real.log (1 + g * g) ≤ Real.log ((1 + |g|) ^ 2) := Real.log_le_log h2 h1
      _ = 2 * Real.log (1 + |g|) := by rw [Real.log_pow]; norm_num
      _ ≤ 2 * |g| := by
        have := Real.log_le_sub_one_of_pos (show 0 < 1 + |g| by linarith)
        linarith
  linarith

/-- **C140** for candidates of different families: data from a normal distribution are told from a Cauchy distribution,
and data from the Cauchy distribution from the normal one, whatever the parameters. -/
theorem C140_normal_or_cauchy {μ σ l s : ℝ} {d : Normal XReal} {d' : Cauchy XReal}
    (h : Normal.new (fin μ) (fin σ) = .ok d) (h' : Cauchy.new (fin l) (fin s) = .ok d') :
    Recognised volume fin d (IID.ofDist d).iidLogDensityFallback (IID.ofDist d').iidLogDensityFallback ∧
    Recognised volume fin d' (IID.ofDist d').iidLogDensityFallback (IID.ofDist d).iidLogDensityFallback :=
  ⟨C140_direct (C122_regular.1 _ _ _ h) (C122_regular.2.2.2.2.2.1 _ _ _ h') (normal_law_ne_cauchy h h'),
    C140_direct (C122_regular.2.2.2.2.2.1 _ _ _ h') (C122_regular.1 _ _ _ h) (normal_law_ne_cauchy h h').symm⟩

/-- the hypotheses hold: two normals, two Poisson distributions, and a normal against a Cauchy distribution -/
example : ∃ d d' : Normal XReal, Normal.new (fin 0) (fin 1) = .ok d ∧ Normal.new (fin 1) (fin 2) = .ok d' ∧
    ((0:ℝ), (1:ℝ)) ≠ (1, 2) := ⟨⟨fin 0, fin 1⟩, ⟨fin 1, fin 2⟩, by simp [Normal.new], by simp [Normal.new], by norm_num⟩

example : ∃ d d' : Poisson XReal, Poisson.new (fin 1) = .ok d ∧ Poisson.new (fin 2) = .ok d' ∧ (1:ℝ) ≠ 2 :=
  ⟨⟨fin 1⟩, ⟨fin 2⟩, by simp [Poisson.new], by simp [Poisson.new], by norm_num⟩

example : ∃ (d : Normal XReal) (d' : Cauchy XReal), Normal.new (fin 0) (fin 1) = .ok d ∧
    Cauchy.new (fin 0) (fin 1) = .ok d' := ⟨⟨fin 0, fin 1⟩, ⟨fin 0, fin 1⟩, by simp [Normal.new], by simp [Cauchy.new]⟩

end Verif
