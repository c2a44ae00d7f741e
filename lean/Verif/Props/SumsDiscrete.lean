import Verif.Props.Sums
import Verif.Spec.WithBase

/-!
# C125: sums of independent draws, discrete distributions
-/

namespace Verif
open FloatOps XReal Spec MeasureTheory ProbabilityTheory Filter Topology

theorem Binomial.withBase_ld {n : ℕ} {p : ℝ} (h0 : 0 < p) (h1 : p < 1) (k : ℕ) :
    (k ≤ n → (logDensityWrtRoot (⟨n, fin p⟩ : Binomial XReal).withBase k : XReal)
      = fin (Real.log (n.choose k) + (k * Real.log p + (n - k) * Real.log (1 - p)))) ∧
    (n < k → (logDensityWrtRoot (⟨n, fin p⟩ : Binomial XReal).withBase k : XReal) = ninf) := by
  constructor
  · intro hk
    have e : (logDensityWrtRoot (⟨n⟩ : BinomialCoefficientMeasure XReal) k : XReal)
        = fin (Real.log (n.choose k)) := by
      simp [logDensityWrtRoot, not_lt.mpr hk, logBinomialCoefficient_fin hk]
    show (logDensityWrtRoot (⟨n⟩ : BinomialCoefficientMeasure XReal) k
      +. logDensityWrtRoot (⟨n, fin p⟩ : Binomial XReal) k : XReal) = _
    rw [e, Binomial.ld_of_le h0 h1 hk, f_add]
  · intro hk
    show (logDensityWrtRoot (⟨n⟩ : BinomialCoefficientMeasure XReal) k
      +. logDensityWrtRoot (⟨n, fin p⟩ : Binomial XReal) k : XReal) = _
    have e : (logDensityWrtRoot (⟨n⟩ : BinomialCoefficientMeasure XReal) k : XReal) = ninf := by
      simp [logDensityWrtRoot, hk]
    have e2 : (logDensityWrtRoot (⟨n, fin p⟩ : Binomial XReal) k : XReal) = ninf := by
      simp [logDensityWrtRoot, not_le.mpr hk]
    rw [e, e2]; rfl

theorem NegativeBinomial.withBase_ld {r : ℕ} {p : ℝ} (hr : 0 < r) (h0 : 0 < p) (h1 : p < 1) (k : ℕ) :
    (logDensityWrtRoot (⟨r, fin p⟩ : NegativeBinomial XReal).withBase k : XReal)
      = fin (Real.log ((k + r - 1).choose k) + (r * Real.log p + k * Real.log (1 - p))) := by
  have e : (logDensityWrtRoot (⟨r⟩ : NegativeBinomialCoefficientMeasure XReal) k : XReal)
      = fin (Real.log ((k + r - 1).choose k)) := logNegativeBinomialCoefficient_fin hr
  show (logDensityWrtRoot (⟨r⟩ : NegativeBinomialCoefficientMeasure XReal) k
      +. logDensityWrtRoot (⟨r, fin p⟩ : NegativeBinomial XReal) k : XReal) = _
  rw [e, NegativeBinomial.ld h0 h1, f_add]

theorem regular_of_hasSum {M : Type} [HasLogDensity M ℕ XReal] (m : M)
    (hp : ∀ k : ℕ, (logDensityWrtRoot m k : XReal).IsFin ∨ (logDensityWrtRoot m k : XReal) = ninf)
    (hs : HasSum (fun k : ℕ => density (logDensityWrtRoot m k : XReal)) 1) :
    RegularLaw Measure.count (id : ℕ → ℕ) m := by
  refine ⟨hp, measurable_from_top, ?_⟩
  unfold mass
  simp only [id]
  rw [lintegral_count, ← ENNReal.ofReal_tsum_of_nonneg (fun k => density_nonneg_of_proper (hp k)) hs.summable,
    hs.tsum_eq, ENNReal.ofReal_one]

theorem Binomial.regular {n : ℕ} {p : ℝ} (h0 : 0 < p) (h1 : p < 1) :
    RegularLaw Measure.count (id : ℕ → ℕ) (⟨n, fin p⟩ : Binomial XReal).withBase := by
  have hn : Binomial.new n (fin p) = .ok (⟨n, fin p⟩ : Binomial XReal) := by simp [Binomial.new, h0.le, h1.le]
  refine regular_of_hasSum _ (fun k => ?_) ?_
  · rcases le_or_gt k n with hk | hk
    · exact Or.inl ⟨_, (Binomial.withBase_ld h0 h1 k).1 hk⟩
    · exact Or.inr ((Binomial.withBase_ld h0 h1 k).2 hk)
  · refine (C20_binomial_pmf_partial hn h0.ne' h1.ne).2.2.congr_fun ?_
    intro k
    congr 1
    exact XReal.add_comm' _ _

theorem NegativeBinomial.regular {r : ℕ} {p : ℝ} (hr : 0 < r) (h0 : 0 < p) (h1 : p < 1) :
    RegularLaw Measure.count (id : ℕ → ℕ) (⟨r, fin p⟩ : NegativeBinomial XReal).withBase := by
  have hn : NegativeBinomial.new r (fin p) = .ok (⟨r, fin p⟩ : NegativeBinomial XReal) := by
    simp [NegativeBinomial.new, h0, h1, hr.ne']
  refine regular_of_hasSum _ (fun k => Or.inl ⟨_, NegativeBinomial.withBase_ld hr h0 h1 k⟩) ?_
  refine (C21_negative_binomial_pmf_partial hn).2.1.congr_fun ?_
  intro k
  congr 1
  exact XReal.add_comm' _ _

theorem eq_of_map_cast {P Q : MeasureTheory.Measure ℕ}
    (h : P.map (fun k : ℕ => (k : ℝ)) = Q.map (fun k : ℕ => (k : ℝ))) : P = Q := by
  refine MeasureTheory.Measure.ext_of_singleton fun k => ?_
  have e := congrArg (fun m => m {(k : ℝ)}) h
  simp only [Measure.map_apply (measurable_from_top (f := fun k : ℕ => (k : ℝ))) (measurableSet_singleton _)] at e
  have : (fun k : ℕ => (k : ℝ)) ⁻¹' {(k : ℝ)} = {k} := by ext j; simp
  rwa [this] at e

/-- `sum_law` for statistics with natural values. -/
theorem sum_law_nat {α : Type} [MeasurableSpace α] {n : ℕ} (P : Fin n → MeasureTheory.Measure α)
    [∀ i, IsProbabilityMeasure (P i)] (g : Fin n → α → ℕ) (hg : ∀ i, Measurable (g i))
    (Q : MeasureTheory.Measure ℕ) [IsProbabilityMeasure Q] (K : Fin n → ℝ → ℝ)
    (h1 : ∀ i, ∀ᶠ t in 𝓝 (0 : ℝ), Integrable (fun a => Real.exp (t * (g i a : ℝ))) (P i) ∧
      mgf (fun a => (g i a : ℝ)) (P i) t = Real.exp (K i t))
    (h2 : ∀ᶠ t in 𝓝 (0 : ℝ), Integrable (fun k : ℕ => Real.exp (t * (k : ℝ))) Q ∧
      mgf (fun k : ℕ => (k : ℝ)) Q t = Real.exp (∑ i, K i t)) :
    (MeasureTheory.Measure.pi P).map (fun v => ∑ i, g i (v i)) = Q := by
  have hc : Measurable fun k : ℕ => (k : ℝ) := measurable_from_top
  have hs : Measurable fun v : Fin n → α => ∑ i, g i (v i) :=
    Finset.measurable_fun_sum _ fun i _ => (hg i).comp (measurable_pi_apply i)
  refine eq_of_map_cast ?_
  rw [Measure.map_map hc hs]
  have hQ : IsProbabilityMeasure (Q.map fun k : ℕ => (k : ℝ)) := Measure.isProbabilityMeasure_map hc.aemeasurable
  rw [← sum_law P (fun i a => (g i a : ℝ)) (fun i => hc.comp (hg i)) (Q.map fun k : ℕ => (k : ℝ)) K h1 ?_]
  · congr 1
    funext v
    simp
  · filter_upwards [h2] with t ht
    refine ⟨?_, ?_⟩
    · rw [integrable_map_measure (by fun_prop) hc.aemeasurable]; exact ht.1
    · rw [mgf_id_map hc.aemeasurable]; exact ht.2

theorem Poisson.mgf_cast {r : ℝ} (hr : 0 < r) (t : ℝ) :
    Integrable (fun k : ℕ => Real.exp (t * (k : ℝ))) (law Measure.count id (⟨fin r⟩ : Poisson XReal)) ∧
    mgf (fun k : ℕ => (k : ℝ)) (law Measure.count id (⟨fin r⟩ : Poisson XReal)) t
      = Real.exp (r * (Real.exp t - 1)) := by
  have hr' : 0 < r * Real.exp t := by positivity
  have hn : ∀ c, 0 < c → Poisson.new (fin c) = .ok (⟨fin c⟩ : Poisson XReal) := by
    intro c h; simp [Poisson.new, h]
  refine mgf_of_tilt Measure.count id id _ (⟨fin (r * Real.exp t)⟩ : Poisson XReal)
    (C122_regular.2.2.2.2.2.2.2.2 _ _ (hn r hr)) (C122_regular.2.2.2.2.2.2.2.2 _ _ (hn _ hr')) _
    measurable_from_top t _ fun k => ?_
  refine Or.inr ⟨_, Poisson.ld hr k, ?_⟩
  rw [id, Poisson.ld hr', Real.log_mul hr.ne' (Real.exp_pos t).ne', Real.log_exp]
  congr 1
  ring

theorem Binomial.mgf_cast {n : ℕ} {p : ℝ} (h0 : 0 < p) (h1 : p < 1) (t : ℝ) :
    Integrable (fun k : ℕ => Real.exp (t * (k : ℝ))) (law Measure.count id (⟨n, fin p⟩ : Binomial XReal).withBase) ∧
    mgf (fun k : ℕ => (k : ℝ)) (law Measure.count id (⟨n, fin p⟩ : Binomial XReal).withBase) t
      = Real.exp (n * Real.log (1 - p + p * Real.exp t)) := by
  have he := Real.exp_pos t
  have hq : 0 < 1 - p := by linarith
  have hz : 0 < 1 - p + p * Real.exp t := by positivity
  have k0 : 0 < p * Real.exp t / (1 - p + p * Real.exp t) := by positivity
  have kc : 1 - p * Real.exp t / (1 - p + p * Real.exp t) = (1 - p) / (1 - p + p * Real.exp t) := by
    field_simp; ring
  have k1 : p * Real.exp t / (1 - p + p * Real.exp t) < 1 := by rw [div_lt_one hz]; linarith
  refine mgf_of_tilt Measure.count id id _
    (⟨n, fin (p * Real.exp t / (1 - p + p * Real.exp t))⟩ : Binomial XReal).withBase
    (Binomial.regular h0 h1) (Binomial.regular k0 k1) _ measurable_from_top t _ fun k => ?_
  rcases le_or_gt k n with hk | hk
  · refine Or.inr ⟨_, (Binomial.withBase_ld h0 h1 k).1 hk, ?_⟩
    rw [id, (Binomial.withBase_ld k0 k1 k).1 hk, kc, Real.log_div (by positivity) hz.ne',
      Real.log_div hq.ne' hz.ne', Real.log_mul h0.ne' he.ne', Real.log_exp]
    congr 1
    ring
  · exact Or.inl ⟨(Binomial.withBase_ld h0 h1 k).2 hk, (Binomial.withBase_ld k0 k1 k).2 hk⟩

theorem Bernoulli.mgf_cast {p : ℝ} (h0 : 0 < p) (h1 : p < 1) (t : ℝ) :
    Integrable (fun i : Fin 256 => Real.exp (t * ((i : ℕ) : ℝ))) (law Measure.count byteOf (⟨fin p⟩ : Bernoulli XReal)) ∧
    mgf (fun i : Fin 256 => ((i : ℕ) : ℝ)) (law Measure.count byteOf (⟨fin p⟩ : Bernoulli XReal)) t
      = Real.exp (Real.log (1 - p + p * Real.exp t)) := by
  have he := Real.exp_pos t
  have hq : 0 < 1 - p := by linarith
  have hz : 0 < 1 - p + p * Real.exp t := by positivity
  have k0 : 0 < p * Real.exp t / (1 - p + p * Real.exp t) := by positivity
  have kc : 1 - p * Real.exp t / (1 - p + p * Real.exp t) = (1 - p) / (1 - p + p * Real.exp t) := by
    field_simp; ring
  have k1 : p * Real.exp t / (1 - p + p * Real.exp t) < 1 := by rw [div_lt_one hz]; linarith
  have kq : 0 < 1 - p * Real.exp t / (1 - p + p * Real.exp t) := by linarith
  refine mgf_of_tilt Measure.count byteOf byteOf _
    (⟨fin (p * Real.exp t / (1 - p + p * Real.exp t))⟩ : Bernoulli XReal)
    (Bernoulli.regular h0 h1) (Bernoulli.regular k0 k1) _ Measurable.of_discrete t _ fun i => ?_
  by_cases i0 : i = 0
  · subst i0
    have hb : byteOf 0 = 0 := rfl
    refine Or.inr ⟨Real.log (1 - p), ?_, ?_⟩
    · simp [logDensityWrtRoot, hb, f_ln _ hq]
    · simp only [logDensityWrtRoot, hb, f_one, f_sub, f_ln _ k0, f_ln _ kq]
      rw [kc, Real.log_div hq.ne' hz.ne']
      simp
  · by_cases i1 : i = 1
    · subst i1
      have hb : byteOf 1 = 1 := rfl
      refine Or.inr ⟨Real.log p, ?_, ?_⟩
      · simp [logDensityWrtRoot, hb, f_ln _ h0]
      · simp only [logDensityWrtRoot, hb, f_one, f_sub, f_ln _ k0, f_ln _ kq]
        rw [Real.log_div (by positivity) hz.ne', Real.log_mul h0.ne' he.ne', Real.log_exp]
        simp
    · have b0 : ¬ byteOf i = 0 := fun h => i0 (byteOf_eq_zero.mp h)
      have b1 : ¬ byteOf i = 1 := fun h => i1 (byteOf_eq_one.mp h)
      exact Or.inl ⟨by simp [logDensityWrtRoot, b0, b1], by simp [logDensityWrtRoot, b0, b1]⟩

theorem tilt_failure {p t : ℝ} (h1 : p < 1) (ht : t < - Real.log (1 - p)) :
    0 < (1 - p) * Real.exp t ∧ (1 - p) * Real.exp t < 1 := by
  have hq : 0 < 1 - p := by linarith
  refine ⟨by positivity, ?_⟩
  have := Real.exp_lt_exp.mpr ht
  rw [Real.exp_neg, Real.exp_log hq] at this
  calc (1 - p) * Real.exp t < (1 - p) * (1 - p)⁻¹ := by gcongr
    _ = 1 := mul_inv_cancel₀ hq.ne'

theorem NegativeBinomial.mgf_cast {r : ℕ} (hr : 0 < r) {p : ℝ} (h0 : 0 < p) (h1 : p < 1) {t : ℝ}
    (ht : t < - Real.log (1 - p)) :
    Integrable (fun k : ℕ => Real.exp (t * (k : ℝ)))
      (law Measure.count id (⟨r, fin p⟩ : NegativeBinomial XReal).withBase) ∧
    mgf (fun k : ℕ => (k : ℝ)) (law Measure.count id (⟨r, fin p⟩ : NegativeBinomial XReal).withBase) t
      = Real.exp (r * (Real.log p - Real.log (1 - (1 - p) * Real.exp t))) := by
  have hq : 0 < 1 - p := by linarith
  obtain ⟨q0, q1⟩ := tilt_failure h1 ht
  have k0 : 0 < 1 - (1 - p) * Real.exp t := by linarith
  have k1 : 1 - (1 - p) * Real.exp t < 1 := by linarith
  refine mgf_of_tilt Measure.count id id _ (⟨r, fin (1 - (1 - p) * Real.exp t)⟩ : NegativeBinomial XReal).withBase
    (NegativeBinomial.regular hr h0 h1) (NegativeBinomial.regular hr k0 k1) _ measurable_from_top t _ fun k => ?_
  refine Or.inr ⟨_, NegativeBinomial.withBase_ld hr h0 h1 k, ?_⟩
  rw [id, NegativeBinomial.withBase_ld hr k0 k1, sub_sub_cancel, Real.log_mul hq.ne' (Real.exp_pos t).ne',
    Real.log_exp]
  congr 1
  ring

theorem Geometric.mgf_pred {p : ℝ} (h0 : 0 < p) (h1 : p < 1) {t : ℝ} (ht : t < - Real.log (1 - p)) :
    Integrable (fun k : ℕ => Real.exp (t * ((k - 1 : ℕ) : ℝ))) (law Measure.count id (⟨fin p⟩ : Geometric XReal)) ∧
    mgf (fun k : ℕ => ((k - 1 : ℕ) : ℝ)) (law Measure.count id (⟨fin p⟩ : Geometric XReal)) t
      = Real.exp (Real.log p - Real.log (1 - (1 - p) * Real.exp t)) := by
  have hq : 0 < 1 - p := by linarith
  obtain ⟨q0, q1⟩ := tilt_failure h1 ht
  have k0 : 0 < 1 - (1 - p) * Real.exp t := by linarith
  have k1 : 1 - (1 - p) * Real.exp t < 1 := by linarith
  have hn : ∀ c, 0 < c → c < 1 → Geometric.new (fin c) = .ok (⟨fin c⟩ : Geometric XReal) := by
    intro c h h'; simp [Geometric.new, h, h'.le]
  have hreg := C122_regular.2.2.2.2.2.2.2.1
  refine mgf_of_tilt Measure.count id id _ (⟨fin (1 - (1 - p) * Real.exp t)⟩ : Geometric XReal)
    (hreg _ _ (hn p h0 h1) h1.ne) (hreg _ _ (hn _ k0 k1) k1.ne) _ measurable_from_top t _ fun k => ?_
  rcases Nat.eq_zero_or_pos k with rfl | hk
  · exact Or.inl ⟨by simp [logDensityWrtRoot], by simp [logDensityWrtRoot]⟩
  · refine Or.inr ⟨_, Geometric.ld_of_pos h0 h1 hk, ?_⟩
    rw [id, Geometric.ld_of_pos k0 k1 hk, sub_sub_cancel, Real.log_mul hq.ne' (Real.exp_pos t).ne',
      Real.log_exp, Nat.cast_sub hk]
    congr 1
    push_cast
    ring

/-- **C125**, Poisson: a sum of independent Poisson counts is Poisson with the summed rate. -/
theorem C125_poisson {n : ℕ} {r : Fin n → ℝ} {d : Fin n → Poisson XReal} {d' : Poisson XReal}
    (h : ∀ i, Poisson.new (fin (r i)) = .ok (d i)) (h' : Poisson.new (fin (∑ i, r i)) = .ok d') :
    (MeasureTheory.Measure.pi fun i => law Measure.count id (d i)).map (fun v : Fin n → ℕ => ∑ i, v i)
      = law Measure.count id d' := by
  have hreg := C122_regular.2.2.2.2.2.2.2.2
  have hp : ∀ i, IsProbabilityMeasure (law Measure.count id (d i)) := fun i => law_prob _ _ _ (hreg _ _ (h i))
  have hp' := law_prob _ _ _ (hreg _ _ h')
  obtain ⟨hs, rfl⟩ := Poisson.new_ok h'
  refine sum_law_nat _ (fun _ k => k) (fun i => measurable_id) _ (fun i t => r i * (Real.exp t - 1))
    (fun i => ?_) ?_
  · obtain ⟨hr, hd⟩ := Poisson.new_ok (h i)
    rw [hd]
    exact Eventually.of_forall fun t => Poisson.mgf_cast hr t
  · refine Eventually.of_forall fun t => ?_
    rw [← Finset.sum_mul]
    exact Poisson.mgf_cast hs t

/-- **C125**, binomial: the number of successes in `n` independent Bernoulli trials is binomial, and a sum of
independent binomial counts with a common probability is binomial with the summed number of trials. -/
theorem C125_binomial_partial {p : ℝ} (h0 : p ≠ 0) (h1 : p ≠ 1) {n : ℕ} :
    (∀ (d : Bernoulli XReal) (d' : Binomial XReal), Bernoulli.new (fin p) = .ok d → Binomial.new n (fin p) = .ok d' →
      (MeasureTheory.Measure.pi fun _ : Fin n => law Measure.count byteOf d).map (fun v => ∑ i, (v i : ℕ))
        = law Measure.count id d'.withBase) ∧
    (∀ (k : Fin n → ℕ) (d : Fin n → Binomial XReal) (d' : Binomial XReal),
      (∀ i, Binomial.new (k i) (fin p) = .ok (d i)) → Binomial.new (∑ i, k i) (fin p) = .ok d' →
      (MeasureTheory.Measure.pi fun i => law Measure.count id (d i).withBase).map (fun v : Fin n → ℕ => ∑ i, v i)
        = law Measure.count id d'.withBase) := by
  refine ⟨?_, ?_⟩
  · intro d d' h h'
    obtain ⟨⟨k0, k1⟩, rfl⟩ := Bernoulli.new_ok h
    obtain ⟨-, rfl⟩ := Binomial.new_ok h'
    have h0 : 0 < p := lt_of_le_of_ne k0 (Ne.symm h0)
    have h1 : p < 1 := lt_of_le_of_ne k1 h1
    have hp := law_prob _ _ _ (Bernoulli.regular h0 h1)
    have hp' := law_prob _ _ _ (Binomial.regular (n := n) h0 h1)
    refine sum_law_nat _ (fun _ (i : Fin 256) => (i : ℕ)) (fun i => Measurable.of_discrete) _
      (fun i t => Real.log (1 - p + p * Real.exp t)) (fun i => ?_) ?_
    · exact Eventually.of_forall fun t => Bernoulli.mgf_cast h0 h1 t
    · refine Eventually.of_forall fun t => ?_
      rw [Finset.sum_const, Finset.card_univ, Fintype.card_fin, nsmul_eq_mul]
      exact Binomial.mgf_cast h0 h1 t
  · intro k d d' h h'
    obtain ⟨⟨k0, k1⟩, rfl⟩ := Binomial.new_ok h'
    have h0 : 0 < p := lt_of_le_of_ne k0 (Ne.symm h0)
    have h1 : p < 1 := lt_of_le_of_ne k1 h1
    obtain rfl : d = fun i => ⟨k i, fin p⟩ := funext fun i => (Binomial.new_ok (h i)).2
    have hp : ∀ i, IsProbabilityMeasure (law Measure.count id (⟨k i, fin p⟩ : Binomial XReal).withBase) :=
      fun i => law_prob _ _ _ (Binomial.regular h0 h1)
    have hp' := law_prob _ _ _ (Binomial.regular (n := ∑ i, k i) h0 h1)
    refine sum_law_nat _ (fun _ i => i) (fun i => measurable_id) _
      (fun i t => k i * Real.log (1 - p + p * Real.exp t)) (fun i => ?_) ?_
    · exact Eventually.of_forall fun t => Binomial.mgf_cast h0 h1 t
    · refine Eventually.of_forall fun t => ?_
      rw [← Finset.sum_mul, ← Nat.cast_sum]
      exact Binomial.mgf_cast h0 h1 t

/-- **C125**, negative binomial: the number of failures before the `n`-th success, as the sum of the waiting
times of `n` geometric variables (which count the success), is negative binomial, and a sum of independent
negative binomial counts with a common probability is negative binomial with the summed number of successes. -/
theorem C125_negative_binomial {p : ℝ} {n : ℕ} :
    (∀ (d : Geometric XReal) (d' : NegativeBinomial XReal), Geometric.new (fin p) = .ok d →
      NegativeBinomial.new n (fin p) = .ok d' →
      (MeasureTheory.Measure.pi fun _ : Fin n => law Measure.count id d).map (fun v : Fin n → ℕ => ∑ i, (v i - 1))
        = law Measure.count id d'.withBase) ∧
    (∀ (r : Fin n → ℕ) (d : Fin n → NegativeBinomial XReal) (d' : NegativeBinomial XReal),
      (∀ i, NegativeBinomial.new (r i) (fin p) = .ok (d i)) → NegativeBinomial.new (∑ i, r i) (fin p) = .ok d' →
      (MeasureTheory.Measure.pi fun i => law Measure.count id (d i).withBase).map (fun v : Fin n → ℕ => ∑ i, v i)
        = law Measure.count id d'.withBase) := by
  have hpos : ∀ {p : ℝ}, 0 < p → p < 1 → 0 < - Real.log (1 - p) := by
    intro p h0 h1
    have := Real.log_neg (x := 1 - p) (by linarith) (by linarith)
    linarith
  refine ⟨?_, ?_⟩
  · intro d d' h h'
    obtain ⟨hr, ⟨h0, h1⟩, rfl⟩ := NegativeBinomial.new_ok h'
    have hp := law_prob _ _ _ (C122_regular.2.2.2.2.2.2.2.1 _ _ h h1.ne)
    obtain ⟨-, rfl⟩ := Geometric.new_ok h
    have hp' := law_prob _ _ _ (NegativeBinomial.regular hr h0 h1)
    refine sum_law_nat _ (fun _ k => k - 1) (fun i => measurable_from_top) _
      (fun i t => Real.log p - Real.log (1 - (1 - p) * Real.exp t)) (fun i => ?_) ?_
    · filter_upwards [gt_mem_nhds (hpos h0 h1)] with t ht using Geometric.mgf_pred h0 h1 ht
    · filter_upwards [gt_mem_nhds (hpos h0 h1)] with t ht
      rw [Finset.sum_const, Finset.card_univ, Fintype.card_fin, nsmul_eq_mul]
      exact NegativeBinomial.mgf_cast hr h0 h1 ht
  · intro r d d' h h'
    obtain ⟨hr, ⟨h0, h1⟩, rfl⟩ := NegativeBinomial.new_ok h'
    obtain rfl : d = fun i => ⟨r i, fin p⟩ := funext fun i => (NegativeBinomial.new_ok (h i)).2.2
    have hri : ∀ i, 0 < r i := fun i => (NegativeBinomial.new_ok (h i)).1
    have hp : ∀ i, IsProbabilityMeasure (law Measure.count id (⟨r i, fin p⟩ : NegativeBinomial XReal).withBase) :=
      fun i => law_prob _ _ _ (NegativeBinomial.regular (hri i) h0 h1)
    have hp' := law_prob _ _ _ (NegativeBinomial.regular hr h0 h1)
    refine sum_law_nat _ (fun _ k => k) (fun i => measurable_id) _
      (fun i t => r i * (Real.log p - Real.log (1 - (1 - p) * Real.exp t))) (fun i => ?_) ?_
    · filter_upwards [gt_mem_nhds (hpos h0 h1)] with t ht using NegativeBinomial.mgf_cast (hri i) h0 h1 ht
    · filter_upwards [gt_mem_nhds (hpos h0 h1)] with t ht
      rw [← Finset.sum_mul, ← Nat.cast_sum]
      exact NegativeBinomial.mgf_cast hr h0 h1 ht

example : Poisson.new (fin (∑ i : Fin 3, (2:ℝ))) = .ok ⟨fin (∑ i : Fin 3, (2:ℝ))⟩ := by simp [Poisson.new]
example : NegativeBinomial.new (∑ i : Fin 3, 2) (fin (1/2)) = .ok ⟨∑ i : Fin 3, 2, fin (1/2)⟩ := by
  have h : ((2 : ℝ)⁻¹) < 1 := by norm_num
  simp [NegativeBinomial.new, h]

end Verif
