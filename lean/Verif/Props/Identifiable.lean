import Verif.Props.SumsDiscrete
import Verif.Props.Moments
import Mathlib.Data.List.GetD

/-!
# C126: the parameters of a distribution are determined by its law
-/

namespace Verif
open FloatOps XReal Spec MeasureTheory ProbabilityTheory Filter Topology

theorem density_ae_eq_of_law {M N X α : Type} [MeasurableSpace α] [HasLogDensity M X XReal] [HasLogDensity N X XReal]
    (μ : MeasureTheory.Measure α) (emb : α → X) (m : M) (n : N) (hm : RegularLaw μ emb m) (hn : RegularLaw μ emb n)
    (h : law μ emb m = law μ emb n) :
    ∀ᵐ a ∂μ, density (logDensityWrtRoot m (emb a) : XReal) = density (logDensityWrtRoot n (emb a) : XReal) := by
  have h1 : (∫⁻ a, ENNReal.ofReal (density (logDensityWrtRoot m (emb a) : XReal)) ∂μ) = 1 := hm.mass_one
  have := (withDensity_eq_iff hm.measurable.ennreal_ofReal.aemeasurable hn.measurable.ennreal_ofReal.aemeasurable
    (by rw [h1]; exact ENNReal.one_ne_top)).1 h
  filter_upwards [this] with a ha
  exact (ENNReal.ofReal_eq_ofReal_iff (density_nonneg_of_proper (hm.proper a))
    (density_nonneg_of_proper (hn.proper a))).1 ha

theorem MomentsReal.unique {ld ld' : XReal → XReal} {m v m' v' : ℝ} (h : MomentsReal ld m v) (h' : MomentsReal ld' m' v')
    (he : ∀ᵐ x : ℝ, density (ld (fin x)) = density (ld' (fin x))) : m = m' ∧ v = v' := by
  have e1 : m = m' := by
    rw [← h.mean_eq, ← h'.mean_eq]
    refine integral_congr_ae ?_
    filter_upwards [he] with x hx
    rw [hx]
  refine ⟨e1, ?_⟩
  rw [← h.var_eq, ← h'.var_eq, e1]
  refine integral_congr_ae ?_
  filter_upwards [he] with x hx
  rw [hx]

theorem density_eq_of_law_count {M X α : Type} [MeasurableSpace α] [MeasurableSingletonClass α] [HasLogDensity M X XReal]
    (emb : α → X) (m n : M) (hm : RegularLaw Measure.count emb m) (hn : RegularLaw Measure.count emb n)
    (h : law Measure.count emb m = law Measure.count emb n) (a : α) :
    density (logDensityWrtRoot m (emb a) : XReal) = density (logDensityWrtRoot n (emb a) : XReal) := by
  have := density_ae_eq_of_law _ emb m n hm hn h
  rw [ae_iff, Measure.count_eq_zero_iff] at this
  by_contra hne
  have : a ∈ (∅ : Set α) := this ▸ hne
  exact this

/-- **C126** (continuous families): two distributions of one family with the same law are the same distribution. -/
theorem C126_continuous :
    (∀ (μ σ μ' σ' : ℝ) (d d' : Normal XReal), Normal.new (fin μ) (fin σ) = .ok d → Normal.new (fin μ') (fin σ') = .ok d' →
      (law volume fin d = law volume fin d' ↔ μ = μ' ∧ σ = σ')) ∧
    (∀ (r r' : ℝ) (d d' : Exponential XReal), Exponential.new (fin r) = .ok d → Exponential.new (fin r') = .ok d' →
      (law volume fin d = law volume fin d' ↔ r = r')) ∧
    (∀ (a b a' b' : ℝ) (d d' : Gamma XReal), Gamma.new (fin a) (fin b) = .ok d → Gamma.new (fin a') (fin b') = .ok d' →
      (law volume fin d = law volume fin d' ↔ a = a' ∧ b = b')) ∧
    (∀ (a b a' b' : ℝ) (d d' : Beta XReal), Beta.new (fin a) (fin b) = .ok d → Beta.new (fin a') (fin b') = .ok d' →
      (law volume fin d = law volume fin d' ↔ a = a' ∧ b = b')) ∧
    (∀ (k k' : ℝ) (d d' : ChiSquared XReal), ChiSquared.new (fin k) = .ok d → ChiSquared.new (fin k') = .ok d' →
      (law volume fin d = law volume fin d' ↔ k = k')) ∧
    (∀ (l s l' s' : ℝ) (d d' : Cauchy XReal), Cauchy.new (fin l) (fin s) = .ok d → Cauchy.new (fin l') (fin s') = .ok d' →
      (law volume fin d = law volume fin d' ↔ l = l' ∧ s = s')) ∧
    (∀ (ν ν' : ℝ) (d d' : StudentT XReal), StudentT.new (fin ν) = .ok d → StudentT.new (fin ν') = .ok d' →
      (law volume fin d = law volume fin d' ↔ ν = ν')) := by
  refine ⟨?_, ?_, ?_, ?_, ?_, ?_, ?_⟩
  · intro μ σ μ' σ' d d' h h'
    constructor
    · intro he
      obtain ⟨m, v, hm, hv, M⟩ := C27_continuous_moments.1 _ _ _ h
      obtain ⟨m', v', hm', hv', M'⟩ := C27_continuous_moments.1 _ _ _ h'
      obtain ⟨e1, e2⟩ := MomentsReal.unique M M' (density_ae_eq_of_law _ fin d d' (C122_regular.1 _ _ _ h)
        (C122_regular.1 _ _ _ h') he)
      obtain ⟨hs, rfl⟩ := Normal.new_ok h
      obtain ⟨hs', rfl⟩ := Normal.new_ok h'
      simp [Normal.variance] at hm hv hm' hv'
      subst hm hm' hv hv'
      exact ⟨e1, by nlinarith⟩
    · rintro ⟨rfl, rfl⟩
      rw [h] at h'; injection h' with h'; rw [h']
  · intro r r' d d' h h'
    constructor
    · intro he
      obtain ⟨m, v, hm, hv, M⟩ := C27_continuous_moments.2.1 _ _ h
      obtain ⟨m', v', hm', hv', M'⟩ := C27_continuous_moments.2.1 _ _ h'
      obtain ⟨e1, e2⟩ := MomentsReal.unique M M' (density_ae_eq_of_law _ fin d d' (C122_regular.2.1 _ _ h)
        (C122_regular.2.1 _ _ h') he)
      obtain ⟨hs, rfl⟩ := Exponential.new_ok h
      obtain ⟨hs', rfl⟩ := Exponential.new_ok h'
      have k : fin r⁻¹ = fin m := by rw [← hm]; simp [Exponential.mean, recip, f_div _ _ hs.ne']
      have k' : fin r'⁻¹ = fin m' := by rw [← hm']; simp [Exponential.mean, recip, f_div _ _ hs'.ne']
      injection k with k
      injection k' with k'
      exact inv_injective (by rw [k, k', e1])
    · rintro rfl
      rw [h] at h'; injection h' with h'; rw [h']
  · intro a b a' b' d d' h h'
    constructor
    · intro he
      obtain ⟨m, v, hm, hv, M⟩ := C27_continuous_moments.2.2.1 _ _ _ h
      obtain ⟨m', v', hm', hv', M'⟩ := C27_continuous_moments.2.2.1 _ _ _ h'
      obtain ⟨e1, e2⟩ := MomentsReal.unique M M' (density_ae_eq_of_law _ fin d d' (C122_regular.2.2.1 _ _ _ h)
        (C122_regular.2.2.1 _ _ _ h') he)
      obtain ⟨ha, hb, rfl⟩ := Gamma.new_ok h
      obtain ⟨ha', hb', rfl⟩ := Gamma.new_ok h'
      have hbb := mul_pos hb hb
      have hbb' := mul_pos hb' hb'
      simp [Gamma.mean, Gamma.variance, f_div _ _ hb.ne', f_div _ _ hb'.ne', f_div _ _ hbb.ne', f_div _ _ hbb'.ne'] at hm hv hm' hv'
      subst hm hm' hv hv'
      have e3 : b = b' := by
        rw [← div_div, ← div_div, e1] at e2
        have hp : 0 < a' / b' := div_pos ha' hb'
        rw [div_eq_div_iff hb.ne' hb'.ne'] at e2
        exact (mul_left_cancel₀ hp.ne' e2).symm
      subst e3
      refine ⟨?_, rfl⟩
      rw [div_eq_div_iff hb.ne' hb.ne'] at e1
      exact mul_right_cancel₀ hb.ne' e1
    · rintro ⟨rfl, rfl⟩
      rw [h] at h'; injection h' with h'; rw [h']
  · intro a b a' b' d d' h h'
    constructor
    · intro he
      obtain ⟨m, v, hm, hv, M⟩ := C27_continuous_moments.2.2.2.1 _ _ _ h
      obtain ⟨m', v', hm', hv', M'⟩ := C27_continuous_moments.2.2.2.1 _ _ _ h'
      obtain ⟨e1, e2⟩ := MomentsReal.unique M M' (density_ae_eq_of_law _ fin d d' (C122_regular.2.2.2.1 _ _ _ h)
        (C122_regular.2.2.2.1 _ _ _ h') he)
      obtain ⟨ha, hb, rfl⟩ := Beta.new_ok h
      obtain ⟨ha', hb', rfl⟩ := Beta.new_ok h'
      have hs : 0 < a + b := by linarith
      have hs' : 0 < a' + b' := by linarith
      have hq : 0 < (a + b) * (a + b) * (a + b + 1) := by positivity
      have hq' : 0 < (a' + b') * (a' + b') * (a' + b' + 1) := by positivity
      simp [Beta.mean, Beta.variance, f_div _ _ hs.ne', f_div _ _ hs'.ne', f_div _ _ hq.ne', f_div _ _ hq'.ne'] at hm hv hm' hv'
      subst hm hm' hv hv'
      have k1 : a * b / ((a + b) * (a + b) * (a + b + 1)) = a / (a + b) * (1 - a / (a + b)) / (a + b + 1) := by
        field_simp; ring
      have k2 : a' * b' / ((a' + b') * (a' + b') * (a' + b' + 1))
          = a' / (a' + b') * (1 - a' / (a' + b')) / (a' + b' + 1) := by
        field_simp; ring
      have hpos : 0 < a' / (a' + b') * (1 - a' / (a' + b')) := by
        have : 1 - a' / (a' + b') = b' / (a' + b') := by field_simp; ring
        rw [this]; positivity
      rw [k1, k2, e1, div_eq_div_iff (by positivity) (by positivity)] at e2
      have e3 := mul_left_cancel₀ hpos.ne' e2
      have e4 : a + b = a' + b' := by linarith
      rw [e4, div_left_inj' hs'.ne'] at e1
      exact ⟨e1, by linarith⟩
    · rintro ⟨rfl, rfl⟩
      rw [h] at h'; injection h' with h'; rw [h']
  · intro k k' d d' h h'
    constructor
    · intro he
      obtain ⟨m, v, hm, hv, M⟩ := C27_continuous_moments.2.2.2.2 _ _ h
      obtain ⟨m', v', hm', hv', M'⟩ := C27_continuous_moments.2.2.2.2 _ _ h'
      obtain ⟨e1, e2⟩ := MomentsReal.unique M M' (density_ae_eq_of_law _ fin d d' (C122_regular.2.2.2.2.1 _ _ h)
        (C122_regular.2.2.2.2.1 _ _ h') he)
      obtain ⟨hs, rfl⟩ := ChiSquared.new_ok h
      obtain ⟨hs', rfl⟩ := ChiSquared.new_ok h'
      simp [ChiSquared.mean] at hm hm'
      subst hm hm'
      exact e1
    · rintro rfl
      rw [h] at h'; injection h' with h'; rw [h']
  · intro l s l' s' d d' h h'
    constructor
    · intro he
      have hae := density_ae_eq_of_law _ fin d d' (C122_regular.2.2.2.2.2.1 _ _ _ h)
        (C122_regular.2.2.2.2.2.1 _ _ _ h') he
      obtain ⟨hs, rfl⟩ := Cauchy.new_ok h
      obtain ⟨hs', rfl⟩ := Cauchy.new_ok h'
      have key : ∀ x : ℝ, s * (s' ^ 2 + (x - l') ^ 2) = s' * (s ^ 2 + (x - l) ^ 2) := by
        have hc : Continuous fun x : ℝ => s * (s' ^ 2 + (x - l') ^ 2) := by fun_prop
        have hc' : Continuous fun x : ℝ => s' * (s ^ 2 + (x - l) ^ 2) := by fun_prop
        refine congrFun (Continuous.ae_eq_iff_eq volume hc hc' |>.1 ?_)
        filter_upwards [hae] with x hx
        rw [Cauchy.ld hs, Cauchy.ld hs'] at hx
        rw [show density (fin (-Real.log (1 + (x - l)/s * ((x - l)/s)) - Real.log s - Real.log Real.pi)) = Real.exp _ from rfl,
          show density (fin (-Real.log (1 + (x - l')/s' * ((x - l')/s')) - Real.log s' - Real.log Real.pi)) = Real.exp _ from rfl,
          Real.exp_eq_exp] at hx
        have p1 : 0 < 1 + (x - l)/s * ((x - l)/s) := by
          have := mul_self_nonneg ((x - l)/s)
          linarith
        have p2 : 0 < 1 + (x - l')/s' * ((x - l')/s') := by
          have := mul_self_nonneg ((x - l')/s')
          linarith
        have : Real.log ((1 + (x - l)/s * ((x - l)/s)) * s) = Real.log ((1 + (x - l')/s' * ((x - l')/s')) * s') := by
          rw [Real.log_mul p1.ne' hs.ne', Real.log_mul p2.ne' hs'.ne']; linarith
        have := Real.log_injOn_pos (Set.mem_Ioi.2 (mul_pos p1 hs)) (Set.mem_Ioi.2 (mul_pos p2 hs')) this
        field_simp at this
        linarith
      have k0 := key 0
      have k1 := key 1
      have k2 := key (-1)
      have e : s = s' := by linarith
      subst e
      have e' : s * l = s * l' := by linarith
      exact ⟨mul_left_cancel₀ hs.ne' e', rfl⟩
    · rintro ⟨rfl, rfl⟩
      rw [h] at h'; injection h' with h'; rw [h']
  · intro ν ν' d d' h h'
    constructor
    · intro he
      have hae := density_ae_eq_of_law _ fin d d' (C122_regular.2.2.2.2.2.2.1 _ _ h)
        (C122_regular.2.2.2.2.2.2.1 _ _ h') he
      obtain ⟨hs, rfl⟩ := StudentT.new_ok h
      obtain ⟨hs', rfl⟩ := StudentT.new_ok h'
      have hpos : ∀ {ν : ℝ}, 0 < ν → ∀ x : ℝ, 0 < 1 + x * x / ν := by
        intro ν hν x
        have := div_nonneg (mul_self_nonneg x) hν.le
        linarith
      set f : ℝ → ℝ → ℝ := fun ν x => Real.log (Real.Gamma ((ν + 1)/2)) - Real.log (Real.Gamma (ν/2))
        - 1/2 * Real.log (ν * Real.pi) + -((ν + 1)/2) * Real.log (1 + x * x / ν) with hf
      have hd : ∀ {ν : ℝ}, 0 < ν → ∀ x, HasDerivAt (f ν) (-((ν + 1)/2) * ((1 * x + x * 1) / ν / (1 + x * x / ν))) x := by
        intro ν hν x
        have := ((((hasDerivAt_id x).mul (hasDerivAt_id x)).div_const ν).const_add 1).log (hpos hν x).ne'
        exact (this.const_mul _).const_add _
      have hc : ∀ {ν : ℝ}, 0 < ν → Continuous (f ν) := fun {ν} hν =>
        continuous_iff_continuousAt.2 fun x => (hd hν x).continuousAt
      have key : f ν = f ν' := by
        refine Continuous.ae_eq_iff_eq volume (hc hs) (hc hs') |>.1 ?_
        filter_upwards [hae] with x hx
        rw [StudentT.ld hs, StudentT.ld hs'] at hx
        exact Real.exp_eq_exp.1 hx
      have k := (hd hs 2).unique (key ▸ hd hs' 2)
      have q1 := hpos hs 2
      have q2 := hpos hs' 2
      have r : ∀ {ν : ℝ}, 0 < ν → -((ν + 1)/2) * ((1 * 2 + 2 * 1) / ν / (1 + 2 * 2 / ν)) = -(2 * (ν + 1) / (ν + 4)) := by
        intro ν hν
        field_simp
        ring
      rw [r hs, r hs', neg_inj, div_eq_div_iff (by positivity) (by positivity)] at k
      linarith
    · rintro rfl
      rw [h] at h'; injection h' with h'; rw [h']

theorem law_count_singleton {M X α : Type} [MeasurableSpace α] [MeasurableSingletonClass α] [HasLogDensity M X XReal]
    (emb : α → X) (m : M) (a : α) :
    law Measure.count emb m {a} = ENNReal.ofReal (density (logDensityWrtRoot m (emb a) : XReal)) := by
  unfold law
  rw [withDensity_apply _ (measurableSet_singleton a), Measure.restrict_singleton, Measure.count_singleton, one_smul,
    lintegral_dirac]

theorem law_count_inj {M N X α : Type} [MeasurableSpace α] [MeasurableSingletonClass α] [HasLogDensity M X XReal]
    [HasLogDensity N X XReal] (emb : α → X) (m : M) (n : N)
    (hm : ∀ a, 0 ≤ density (logDensityWrtRoot m (emb a) : XReal))
    (hn : ∀ a, 0 ≤ density (logDensityWrtRoot n (emb a) : XReal)) :
    law Measure.count emb m = law Measure.count emb n ↔
      ∀ a, density (logDensityWrtRoot m (emb a) : XReal) = density (logDensityWrtRoot n (emb a) : XReal) := by
  constructor
  · intro h a
    have := congrArg (fun μ => μ {a}) h
    simp only [law_count_singleton] at this
    exact (ENNReal.ofReal_eq_ofReal_iff (hm a) (hn a)).1 this
  · intro h
    unfold law
    simp only [h]

theorem Categorical.density_getD {ps : List ℝ} {d : Categorical XReal} (h : Categorical.new (ps.map fin) = .ok d)
    (i : ℕ) : density (logDensityWrtRoot d i : XReal) = ps.getD i 0 := by
  obtain ⟨k1, k2, -⟩ := C19_categorical_pmf h
  rcases lt_or_ge i ps.length with hi | hi
  · rw [k1 i hi]; simp [hi]
  · rw [k2 i hi, List.getD_eq_default _ _ hi]; rfl

/-- **C126** (discrete families): two distributions of one family have the same law exactly when they have the
same parameters; for `n = 0` the success probability of a binomial distribution is not determined, and
categorical distributions are determined up to categories of probability zero at the end. -/
theorem C126_discrete :
    (∀ (p p' : ℝ) (d d' : Bernoulli XReal), Bernoulli.new (fin p) = .ok d → Bernoulli.new (fin p') = .ok d' →
      (law Measure.count byteOf d = law Measure.count byteOf d' ↔ p = p')) ∧
    (∀ (r r' : ℝ) (d d' : Poisson XReal), Poisson.new (fin r) = .ok d → Poisson.new (fin r') = .ok d' →
      (law Measure.count (id : ℕ → ℕ) d = law Measure.count id d' ↔ r = r')) ∧
    (∀ (p p' : ℝ) (d d' : Geometric XReal), Geometric.new (fin p) = .ok d → Geometric.new (fin p') = .ok d' →
      (law Measure.count (id : ℕ → ℕ) d = law Measure.count id d' ↔ p = p')) ∧
    (∀ (ps ps' : List ℝ) (d d' : Categorical XReal), Categorical.new (ps.map fin) = .ok d →
      Categorical.new (ps'.map fin) = .ok d' →
      (law Measure.count (id : ℕ → ℕ) d = law Measure.count id d' ↔ ∀ i : ℕ, ps.getD i 0 = ps'.getD i 0) ∧
      (ps.length = ps'.length ∨ (∀ p ∈ ps, p ≠ 0) ∧ (∀ p ∈ ps', p ≠ 0) →
        (law Measure.count (id : ℕ → ℕ) d = law Measure.count id d' ↔ ps = ps'))) ∧
    (∀ (n n' : ℕ) (p p' : ℝ) (d d' : Binomial XReal), Binomial.new n (fin p) = .ok d → Binomial.new n' (fin p') = .ok d' →
      p ≠ 0 → p ≠ 1 → p' ≠ 0 → p' ≠ 1 →
      (law Measure.count (id : ℕ → ℕ) d.withBase = law Measure.count id d'.withBase ↔ n = n' ∧ (n = 0 ∨ p = p'))) ∧
    (∀ (r r' : ℕ) (p p' : ℝ) (d d' : NegativeBinomial XReal), NegativeBinomial.new r (fin p) = .ok d →
      NegativeBinomial.new r' (fin p') = .ok d' →
      (law Measure.count (id : ℕ → ℕ) d.withBase = law Measure.count id d'.withBase ↔ r = r' ∧ p = p')) := by
  refine ⟨?_, ?_, ?_, ?_, ?_, ?_⟩
  · intro p p' d d' h h'
    have k := (C16_bernoulli_pmf h).1
    have k' := (C16_bernoulli_pmf h').1
    obtain ⟨⟨h0, h1⟩, rfl⟩ := Bernoulli.new_ok h
    obtain ⟨⟨h0', h1'⟩, rfl⟩ := Bernoulli.new_ok h'
    rw [law_count_inj]
    · simp only [k, k']
      constructor
      · intro h
        have := h 1
        simpa [show byteOf 1 = 1 from rfl] using this
      · rintro rfl a; rfl
    · intro a
      rw [k]; split_ifs <;> linarith
    · intro a
      rw [k']; split_ifs <;> linarith
  · intro r r' d d' h h'
    obtain ⟨h0, rfl⟩ := Poisson.new_ok h
    obtain ⟨h0', rfl⟩ := Poisson.new_ok h'
    rw [law_count_inj]
    · constructor
      · intro h
        have := h 0
        simp only [id] at this
        rw [Poisson.ld h0, Poisson.ld h0', density_fin, density_fin, Real.exp_eq_exp] at this
        simpa using this
      · rintro rfl a; rfl
    · intro a
      rw [id, Poisson.ld h0, density_fin]; positivity
    · intro a
      rw [id, Poisson.ld h0', density_fin]; positivity
  · intro p p' d d' h h'
    have key : ∀ (p : ℝ) (d : Geometric XReal), Geometric.new (fin p) = .ok d →
        0 < p ∧ p ≤ 1 ∧ law Measure.count (id : ℕ → ℕ) d {1} = ENNReal.ofReal (if p = 1 then 0 else p) := by
      intro p d h
      have h' := h
      obtain ⟨⟨h0, h1⟩, rfl⟩ := Geometric.new_ok h
      refine ⟨h0, h1, ?_⟩
      rw [law_count_singleton]
      split_ifs with hp
      · subst hp
        obtain ⟨d, hd, hn⟩ := C17_geometric_one_violated
        rw [h'] at hd
        injection hd with hd
        rw [← hd] at hn
        rw [id, hn, show density XReal.nan = -1 from rfl]
        simp
      · have := (C17_geometric_pmf_partial h' hp).1 1 le_rfl
        rw [id, this]; simp
    constructor
    · intro he
      obtain ⟨a1, a2, a3⟩ := key p d h
      obtain ⟨b1, b2, b3⟩ := key p' d' h'
      rw [he, b3, ENNReal.ofReal_eq_ofReal_iff (by split_ifs <;> linarith) (by split_ifs <;> linarith)] at a3
      split_ifs at a3 <;> linarith
    · rintro rfl
      rw [h] at h'; injection h' with h'; rw [h']
  · intro ps ps' d d' h h'
    have hp := (Categorical.new_ok h).2.1
    have hp' := (Categorical.new_ok h').2.1
    have nn : ∀ {ps : List ℝ}, (∀ p ∈ ps, 0 ≤ p) → ∀ i : ℕ, 0 ≤ ps.getD i 0 := by
      intro ps hp i
      rcases lt_or_ge i ps.length with hi | hi
      · rw [List.getD_eq_getElem _ _ hi]; exact hp _ (List.getElem_mem hi)
      · rw [List.getD_eq_default _ _ hi]
    have main : law Measure.count (id : ℕ → ℕ) d = law Measure.count id d' ↔ ∀ i : ℕ, ps.getD i 0 = ps'.getD i 0 := by
      rw [law_count_inj]
      · simp only [id, Categorical.density_getD h, Categorical.density_getD h']
      · intro a; rw [id, Categorical.density_getD h]; exact nn hp a
      · intro a; rw [id, Categorical.density_getD h']; exact nn hp' a
    refine ⟨main, fun hc => ?_⟩
    rw [main]
    constructor
    · intro he
      have hl : ps.length = ps'.length := by
        rcases hc with hc | ⟨c1, c2⟩
        · exact hc
        · have le : ∀ {ps ps' : List ℝ}, (∀ p ∈ ps, p ≠ 0) → (∀ i : ℕ, ps.getD i 0 = ps'.getD i 0) →
              ps.length ≤ ps'.length := by
            intro ps ps' c he
            by_contra hlt
            push Not at hlt
            have := he ps'.length
            rw [List.getD_eq_getElem _ _ hlt, List.getD_eq_default _ _ le_rfl] at this
            exact c _ (List.getElem_mem hlt) this
          exact le_antisymm (le c1 he) (le c2 fun i => (he i).symm)
      refine List.ext_getElem hl fun i h1 h2 => ?_
      have := he i
      rwa [List.getD_eq_getElem _ _ h1, List.getD_eq_getElem _ _ h2] at this
    · rintro rfl i; rfl
  · intro n n' p p' d d' h h' k0 k1 k0' k1'
    obtain ⟨⟨h0, h1⟩, rfl⟩ := Binomial.new_ok h
    obtain ⟨⟨h0', h1'⟩, rfl⟩ := Binomial.new_ok h'
    have h0 : 0 < p := lt_of_le_of_ne h0 (Ne.symm k0)
    have h1 : p < 1 := lt_of_le_of_ne h1 k1
    have h0' : 0 < p' := lt_of_le_of_ne h0' (Ne.symm k0')
    have h1' : p' < 1 := lt_of_le_of_ne h1' k1'
    rw [law_count_inj]
    · simp only [id]
      constructor
      · intro he
        have le : ∀ {n n' : ℕ} {p p' : ℝ}, 0 < p → p < 1 → 0 < p' → p' < 1 →
            (∀ a : ℕ, density (logDensityWrtRoot (⟨n, fin p⟩ : Binomial XReal).withBase a : XReal)
              = density (logDensityWrtRoot (⟨n', fin p'⟩ : Binomial XReal).withBase a : XReal)) → n ≤ n' := by
          intro n n' p p' h0 h1 h0' h1' he
          by_contra hlt
          push Not at hlt
          have := he n
          rw [(Binomial.withBase_ld h0 h1 n).1 le_rfl, (Binomial.withBase_ld h0' h1' n).2 hlt, density_fin,
            show density ninf = 0 from rfl] at this
          exact (Real.exp_pos _).ne' this
        have hn : n = n' := le_antisymm (le h0 h1 h0' h1' he) (le h0' h1' h0 h1 fun a => (he a).symm)
        subst hn
        refine ⟨rfl, ?_⟩
        rcases Nat.eq_zero_or_pos n with hz | hz
        · exact Or.inl hz
        · right
          have := he n
          rw [(Binomial.withBase_ld h0 h1 n).1 le_rfl, (Binomial.withBase_ld h0' h1' n).1 le_rfl, density_fin,
            density_fin, Real.exp_eq_exp] at this
          simp only [Nat.choose_self, sub_self, zero_mul, add_zero] at this
          have hn : (n : ℝ) ≠ 0 := by exact_mod_cast hz.ne'
          exact Real.log_injOn_pos (Set.mem_Ioi.2 h0) (Set.mem_Ioi.2 h0') (mul_left_cancel₀ hn (by linarith))
      · rintro ⟨rfl, rfl | rfl⟩ a
        · rcases Nat.eq_zero_or_pos a with rfl | ha
          · rw [(Binomial.withBase_ld h0 h1 0).1 le_rfl, (Binomial.withBase_ld h0' h1' 0).1 le_rfl]
            simp
          · rw [(Binomial.withBase_ld h0 h1 a).2 ha, (Binomial.withBase_ld h0' h1' a).2 ha]
        · rfl
    · exact fun a => density_nonneg_of_proper ((Binomial.regular h0 h1).proper a)
    · exact fun a => density_nonneg_of_proper ((Binomial.regular h0' h1').proper a)
  · intro r r' p p' d d' h h'
    obtain ⟨hr, ⟨h0, h1⟩, rfl⟩ := NegativeBinomial.new_ok h
    obtain ⟨hr', ⟨h0', h1'⟩, rfl⟩ := NegativeBinomial.new_ok h'
    rw [law_count_inj]
    · simp only [id]
      constructor
      · intro he
        have e0 := he 0
        have e1 := he 1
        have e2 := he 2
        rw [NegativeBinomial.withBase_ld hr h0 h1, NegativeBinomial.withBase_ld hr' h0' h1', density_fin, density_fin,
          Real.exp_eq_exp] at e0 e1 e2
        have c0 : ∀ {r : ℕ}, 0 < r → (0 + r - 1).choose 0 = 1 := by simp
        have c1 : ∀ {r : ℕ}, 0 < r → (1 + r - 1).choose 1 = r := by simp
        have c2 : ∀ {r : ℕ}, 0 < r → ((2 + r - 1).choose 2 : ℝ) = r * (r + 1) / 2 := by
          intro r hr
          rw [Nat.cast_choose_two, show 2 + r - 1 = r + 1 by omega]
          push_cast; ring
        have q : 0 < 1 - p := by linarith
        have q' : 0 < 1 - p' := by linarith
        have R : (0:ℝ) < r := by exact_mod_cast hr
        have R' : (0:ℝ) < r' := by exact_mod_cast hr'
        rw [c0 hr, c0 hr'] at e0
        rw [c1 hr, c1 hr'] at e1
        rw [c2 hr, c2 hr'] at e2
        simp only [Nat.cast_zero, Nat.cast_one, Real.log_one, zero_mul, add_zero, zero_add, one_mul, Nat.cast_ofNat] at e0 e1 e2
        have f1 : r * (1 - p) = r' * (1 - p') := by
          refine Real.log_injOn_pos (Set.mem_Ioi.2 (by positivity)) (Set.mem_Ioi.2 (by positivity)) ?_
          rw [Real.log_mul R.ne' q.ne', Real.log_mul R'.ne' q'.ne']; linarith
        have f2 : r * (r + 1) / 2 * (1 - p) ^ 2 = r' * (r' + 1) / 2 * (1 - p') ^ 2 := by
          refine Real.log_injOn_pos (Set.mem_Ioi.2 (by positivity)) (Set.mem_Ioi.2 (by positivity)) ?_
          rw [Real.log_mul (by positivity) (by positivity), Real.log_mul (by positivity) (by positivity), Real.log_pow,
            Real.log_pow]
          push_cast; linarith
        have f3 : (r + 1) * (1 - p) = (r' + 1) * (1 - p') := by
          have : r * (1 - p) * ((r + 1) * (1 - p)) = r * (1 - p) * ((r' + 1) * (1 - p')) := by
            calc r * (1 - p) * ((r + 1) * (1 - p)) = 2 * (r * (r + 1) / 2 * (1 - p) ^ 2) := by ring
              _ = r' * (1 - p') * ((r' + 1) * (1 - p')) := by rw [f2]; ring
              _ = _ := by rw [f1]
          exact mul_left_cancel₀ (by positivity) this
        have hp : p = p' := by linarith
        subst hp
        exact ⟨by exact_mod_cast mul_right_cancel₀ q.ne' f1, rfl⟩
      · rintro ⟨rfl, rfl⟩ a; rfl
    · exact fun a => density_nonneg_of_proper ((NegativeBinomial.regular hr h0 h1).proper a)
    · exact fun a => density_nonneg_of_proper ((NegativeBinomial.regular hr' h0' h1').proper a)

/-- Categories of probability zero at the end are not determined by the law. -/
theorem C126_categorical_violated :
    ∃ d d' : Categorical XReal, Categorical.new ([1].map fin) = .ok d ∧ Categorical.new ([1, 0].map fin) = .ok d' ∧
      law Measure.count (id : ℕ → ℕ) d = law Measure.count id d' ∧ d ≠ d' := by
  have n1 : Categorical.new (([1] : List ℝ).map fin) = .ok (⟨[1].map fin⟩ : Categorical XReal) := by
    unfold Categorical.new
    rw [f_sum]
    simp
  have n2 : Categorical.new (([1, 0] : List ℝ).map fin) = .ok (⟨[1, 0].map fin⟩ : Categorical XReal) := by
    unfold Categorical.new
    rw [f_sum]
    simp
  refine ⟨_, _, n1, n2, ((C126_discrete.2.2.2.1 _ _ _ _ n1 n2).1).2 fun i => ?_, by simp⟩
  rcases i with _ | _ | i <;> simp

/-- Two negative binomial distributions with the same mean are told apart. -/
example : ∃ d d' : NegativeBinomial XReal, NegativeBinomial.new 1 (fin (1/2)) = .ok d ∧
    NegativeBinomial.new 2 (fin (2/3)) = .ok d' ∧
    law Measure.count (id : ℕ → ℕ) d.withBase ≠ law Measure.count id d'.withBase := by
  have n1 : NegativeBinomial.new 1 (fin (1/2)) = .ok (⟨1, fin (1/2)⟩ : NegativeBinomial XReal) := by
    norm_num [NegativeBinomial.new]
  have n2 : NegativeBinomial.new 2 (fin (2/3)) = .ok (⟨2, fin (2/3)⟩ : NegativeBinomial XReal) := by
    norm_num [NegativeBinomial.new]
  refine ⟨_, _, n1, n2, fun h => ?_⟩
  have := (C126_discrete.2.2.2.2.2 _ _ _ _ _ _ n1 n2).1 h
  exact absurd this.1 (by norm_num)

/-- Student's t distributions with 1 and 2 degrees of freedom differ. -/
example : ∃ d d' : StudentT XReal, StudentT.new (fin 1) = .ok d ∧ StudentT.new (fin 2) = .ok d' ∧
    law volume fin d ≠ law volume fin d' := by
  have n1 : StudentT.new (fin 1) = .ok (⟨fin 1⟩ : StudentT XReal) := by norm_num [StudentT.new]
  have n2 : StudentT.new (fin 2) = .ok (⟨fin 2⟩ : StudentT XReal) := by norm_num [StudentT.new]
  refine ⟨_, _, n1, n2, fun h => ?_⟩
  have := (C126_continuous.2.2.2.2.2.2 _ _ _ _ n1 n2).1 h
  exact absurd this (by norm_num)

end Verif
