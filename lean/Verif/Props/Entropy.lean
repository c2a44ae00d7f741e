import Verif.Spec.Entropy
import Verif.Props.CumulantsDiscrete
import Verif.Props.Tails
import Mathlib.Analysis.SpecialFunctions.Integrals.LogTrigonometric
import Mathlib.Analysis.SpecialFunctions.BinaryEntropy
import Mathlib.MeasureTheory.Function.JacobianOneDim

/-!
# C136: entropy of the distributions, and the distributions of maximal entropy
-/

namespace Verif
open FloatOps XReal Spec MeasureTheory ProbabilityTheory ExponentialFamily Filter Topology

section
variable {M B X α : Type} [MeasurableSpace α]

/-- **C136**, Gibbs' inequality: describing draws of `m` by the log-density of another distribution `b` costs
at least the entropy of `m`, and strictly more unless the two laws agree. -/
theorem C136_gibbs [Measure M X] [Measure B X] [HasLogDensity M X XReal] [HasLogDensity B X XReal]
    (μ : MeasureTheory.Measure α) [SigmaFinite μ] (emb : α → X) (m : M) (b : B) (hm : RegularLaw μ emb m)
    (hb : RegularLaw μ emb b) (hd : Dominates emb b m) {h c : ℝ} (he : Entropy μ emb m h)
    (hc : CrossEntropy μ emb m b c) : h ≤ c ∧ (h = c ↔ law μ emb m = law μ emb b) := by
  obtain ⟨lay, hl⟩ : ∃ lay : LogDensity.Layout, lay.Apart := ⟨⟨0, 1, 1, 0, 0⟩, by simp [LogDensity.Layout.Apart]⟩
  obtain ⟨-, k2, k3⟩ := C122_divergence_partial μ lay hl 0 emb m b hm.proper hb.proper hd hm.measurable
    hb.measurable hm.mass_one hb.mass_one
  have hae : (fun a => (relLogDensity (F := XReal) lay 0 m b (emb a)).toReal) =ᵐ[law μ emb m]
      fun a => (logDensityWrtRoot m (emb a) : XReal).toReal - (logDensityWrtRoot b (emb a) : XReal).toReal := by
    filter_upwards [law_ae_fin μ emb m hm.proper hm.measurable] with a ha
    obtain ⟨s, hs⟩ := hd a ha
    obtain ⟨r, hr⟩ := ha
    rw [C01_relative_log_density_apart_partial _ hl, hr, hs, f_sub]
    rfl
  have hi := he.1.sub hc.1
  have e : ∫ a, (relLogDensity (F := XReal) lay 0 m b (emb a)).toReal ∂(law μ emb m) = c - h := by
    rw [integral_congr_ae hae, integral_sub he.1 hc.1, ← he.2, ← hc.2]; ring
  rw [e] at k2 k3
  refine ⟨by linarith, ?_⟩
  rw [← k3 (hi.congr hae.symm)]
  constructor <;> intro h <;> linarith

/-- From Gibbs' inequality: if `b` describes draws of `m` at no more than its own entropy, `m` has at most
that entropy. -/
theorem entropy_le_of_cross [Measure M X] [Measure B X] [HasLogDensity M X XReal] [HasLogDensity B X XReal]
    (μ : MeasureTheory.Measure α) [SigmaFinite μ] (emb : α → X) (m : M) (b : B) (hm : RegularLaw μ emb m)
    (hb : RegularLaw μ emb b) (hd : Dominates emb b m) {h c H : ℝ} (he : Entropy μ emb m h)
    (hc : CrossEntropy μ emb m b c) (hH : Entropy μ emb b H) (hcH : c ≤ H) :
    h ≤ H ∧ (h = H ↔ law μ emb m = law μ emb b) := by
  obtain ⟨k1, k2⟩ := C136_gibbs μ emb m b hm hb hd he hc
  refine ⟨by linarith, fun hh => k2.1 (by linarith), fun hh => ?_⟩
  rw [k2.2 hh, ← hc.2, ← hH.2, hh]

end

/-! ## Closed forms -/

theorem entropy_of {M X α : Type} [MeasurableSpace α] [HasLogDensity M X XReal] {μ : MeasureTheory.Measure α}
    {emb : α → X} {m : M} {t : ℝ}
    (h : Integrable (fun a => (logDensityWrtRoot m (emb a) : XReal).toReal) (law μ emb m) ∧
      ∫ a, (logDensityWrtRoot m (emb a) : XReal).toReal ∂(law μ emb m) = t) {H : ℝ} (ht : H = -t) :
    Entropy μ emb m H := ⟨h.1, by rw [h.2, ht]⟩

theorem Normal.entropy {μ σ : ℝ} {d : Normal XReal} (h : Normal.new (fin μ) (fin σ) = .ok d) :
    Entropy volume fin d (Real.log (σ * Real.sqrt (2 * Real.pi * Real.exp 1))) := by
  obtain ⟨m, v, hm, hv, hmo⟩ := C27_continuous_moments.1 μ σ d h
  have hr := C122_regular.1 μ σ d h
  obtain ⟨s, rfl⟩ := Normal.new_ok h
  obtain rfl : μ = m := by simpa [Normal.mean] using hm
  obtain rfl : σ * σ = v := by simpa [Normal.variance] using hv
  refine entropy_of (integral_law_quadratic _ hr hmo _ (-(1/2) * Real.log (2 * Real.pi) - Real.log σ) 0
    (-(1 / (2 * σ ^ 2))) (fun x _ => ?_)) ?_
  · rw [Normal.ld s, toReal_fin]
    field_simp
    ring
  · have hp := Real.pi_pos
    rw [Real.log_mul s.ne' (Real.sqrt_pos.2 (by positivity)).ne', Real.log_sqrt (by positivity),
      Real.log_mul (by positivity) (Real.exp_pos 1).ne', Real.log_exp]
    field_simp
    ring

theorem Exponential.entropy {r : ℝ} {d : Exponential XReal} (h : Exponential.new (fin r) = .ok d) :
    Entropy volume fin d (1 - Real.log r) := by
  obtain ⟨m, v, hm, -, hmo⟩ := C27_continuous_moments.2.1 r d h
  have hr := C122_regular.2.1 r d h
  obtain ⟨s, rfl⟩ := Exponential.new_ok h
  obtain rfl : 1 / r = m := by simpa [Exponential.mean, recip, f_div _ _ s.ne'] using hm
  refine entropy_of (integral_law_quadratic _ hr hmo _ (Real.log r) (-r) 0 (fun x hx => ?_)) ?_
  · have hx0 : 0 ≤ x := by
      by_contra hc
      rw [Exponential.ld_of_neg (not_le.mp hc)] at hx
      obtain ⟨_, h⟩ := hx
      cases h
    rw [Exponential.ld_of_nonneg s hx0, toReal_fin]
    ring
  · field_simp
    ring

theorem Geometric.entropy {p : ℝ} {d : Geometric XReal} (h : Geometric.new (fin p) = .ok d) (hp : p ≠ 1) :
    Entropy Measure.count (id : ℕ → ℕ) d (-Real.log p - (1 - p) / p * Real.log (1 - p)) := by
  obtain ⟨m, v, hm, -, hmo⟩ := C27_discrete_moments_partial.2.1 p d h hp
  obtain ⟨-, hz, hone⟩ := C17_geometric_pmf_partial h hp
  have hr := C122_regular.2.2.2.2.2.2.2.1 p d h hp
  obtain ⟨⟨p0, p1⟩, rfl⟩ := Geometric.new_ok h
  have p1' : p < 1 := lt_of_le_of_ne p1 hp
  obtain rfl : 1 / p = m := by simpa [Geometric.mean, recip, f_div _ _ p0.ne'] using hm
  refine entropy_of (integral_law_nat _ hr _ (t := Real.log (1 - p) * (1 / p)
    + (Real.log p - Real.log (1 - p)) * 1) ?_) ?_
  · have := (hmo.mean.mul_left (Real.log (1 - p))).add (hone.mul_left (Real.log p - Real.log (1 - p)))
    have e : (fun k : ℕ => density (logDensityWrtRoot (⟨fin p⟩ : Geometric XReal) k)
          * (logDensityWrtRoot (⟨fin p⟩ : Geometric XReal) (id k) : XReal).toReal)
        = fun k : ℕ => Real.log (1 - p) * ((k : ℝ) * density (logDensityWrtRoot (⟨fin p⟩ : Geometric XReal) k))
          + (Real.log p - Real.log (1 - p)) * density (logDensityWrtRoot (⟨fin p⟩ : Geometric XReal) k) := by
      funext k
      rcases Nat.eq_zero_or_pos k with rfl | hk
      · rw [hz]; simp
      · rw [id, Geometric.ld_of_pos p0 p1' hk, toReal_fin]
        ring
    rw [e]
    exact this
  · field_simp
    ring

theorem Categorical.entropy {ps : List ℝ} (hne : ps ≠ []) (hpos : ∀ p ∈ ps, 0 < p) (hsum : ps.sum = 1) :
    Entropy Measure.count (id : ℕ → ℕ) (⟨ps.map fin⟩ : Categorical XReal) (ps.map Real.negMulLog).sum := by
  obtain ⟨hn, hr⟩ := Categorical.regular hne hpos hsum
  obtain ⟨k1, k2, -⟩ := C19_categorical_pmf hn
  refine entropy_of (integral_law_nat _ hr _ (t := ∑ i ∈ Finset.range ps.length,
    density (logDensityWrtRoot (⟨ps.map fin⟩ : Categorical XReal) i)
      * (logDensityWrtRoot (⟨ps.map fin⟩ : Categorical XReal) (id i) : XReal).toReal) ?_) ?_
  · apply hasSum_sum_of_ne_finset_zero
    intro i hi
    rw [k2 i (by simpa using hi), density_ninf, zero_mul]
  · rw [Finset.sum_range, ← List.sum_ofFn, List.sum_neg, List.map_ofFn]
    congr 1
    apply List.ext_getElem (by simp)
    intro i h1 h2
    have hi : i < ps.length := by simpa using h1
    have hld : (logDensityWrtRoot (⟨ps.map fin⟩ : Categorical XReal) i : XReal) = fin (Real.log ps[i]) := by
      simp [logDensityWrtRoot, hi, f_ln _ (hpos _ (List.getElem_mem hi))]
    simp only [List.getElem_map, List.getElem_ofFn, Function.comp, id]
    rw [k1 i hi, hld, toReal_fin, Real.negMulLog]
    ring

theorem Bernoulli.entropy {p : ℝ} (h0 : 0 < p) (h1 : p < 1) :
    Entropy Measure.count byteOf (⟨fin p⟩ : Bernoulli XReal) (Real.binEntropy p) := by
  have hr := Bernoulli.regular h0 h1
  have hn : Bernoulli.new (fin p) = .ok (⟨fin p⟩ : Bernoulli XReal) := by
    simp [Bernoulli.new, h0.le, h1.le]
  obtain ⟨k1, -⟩ := C16_bernoulli_pmf hn
  have := law_prob _ _ _ hr
  refine ⟨Integrable.of_finite, ?_⟩
  rw [integral_fintype Integrable.of_finite, Finset.sum_eq_add_of_mem 0 1 (by simp) (by simp) (by decide)]
  · have b0 : byteOf 0 = 0 := rfl
    have b1 : byteOf 1 = 1 := rfl
    rw [Measure.real, Measure.real, law_count_singleton, law_count_singleton, k1, k1, b0, b1]
    simp only [logDensityWrtRoot, f_one, f_sub, f_ln _ h0, f_ln (1 - p) (by linarith)]
    rw [Real.binEntropy_eq_negMulLog_add_negMulLog_one_sub, Real.negMulLog, Real.negMulLog]
    simp [h0.le, h1.le]
    ring
  · intro i _ hi
    rw [Measure.real, law_count_singleton, k1, if_neg (fun h => hi.2 (byteOf_eq_one.1 h)),
      if_neg (fun h => hi.1 (byteOf_eq_zero.1 h))]
    simp

theorem cauchy_log_integral {l s : ℝ} (hs : 0 < s) :
    Integrable (fun x : ℝ => density (logDensityWrtRoot (⟨fin l, fin s⟩ : Cauchy XReal) (fin x))
      * Real.log (1 + (x - l) / s * ((x - l) / s))) ∧
    ∫ x : ℝ, density (logDensityWrtRoot (⟨fin l, fin s⟩ : Cauchy XReal) (fin x))
      * Real.log (1 + (x - l) / s * ((x - l) / s)) = 2 * Real.log 2 := by
  have hpi := Real.pi_pos
  set S : Set ℝ := Set.Ioo (-(Real.pi / 2)) (Real.pi / 2) with hS
  set g : ℝ → ℝ := fun x => density (logDensityWrtRoot (⟨fin l, fin s⟩ : Cauchy XReal) (fin x))
      * Real.log (1 + (x - l) / s * ((x - l) / s)) with hg
  have hcos : ∀ θ ∈ S, 0 < Real.cos θ := fun θ hθ => Real.cos_pos_of_mem_Ioo hθ
  have hd : ∀ θ ∈ S, HasDerivWithinAt (fun θ => l + s * Real.tan θ) (s * (1 / Real.cos θ ^ 2)) S θ :=
    fun θ hθ => (((Real.hasDerivAt_tan (hcos θ hθ).ne').const_mul s).const_add l).hasDerivWithinAt
  have hinj : Set.InjOn (fun θ => l + s * Real.tan θ) S := by
    intro a ha b hb hab
    have : Real.tan a = Real.tan b := mul_left_cancel₀ hs.ne' (by simpa using hab)
    exact Real.injOn_tan ha hb this
  have himg : (fun θ => l + s * Real.tan θ) '' S = Set.univ := by
    rw [Set.eq_univ_iff_forall]
    intro y
    refine ⟨Real.arctan ((y - l) / s), ⟨Real.neg_pi_div_two_lt_arctan _, Real.arctan_lt_pi_div_two _⟩, ?_⟩
    simp only [Real.tan_arctan]
    field_simp
    ring
  have key : ∀ θ ∈ S, |s * (1 / Real.cos θ ^ 2)| • g (l + s * Real.tan θ)
      = -(2 / Real.pi) * Real.log (Real.cos θ) := by
    intro θ hθ
    have hc := hcos θ hθ
    have e1 : (l + s * Real.tan θ - l) / s = Real.tan θ := by field_simp; ring
    have e2 : 1 + Real.tan θ * Real.tan θ = (Real.cos θ ^ 2)⁻¹ := by
      rw [← Real.inv_one_add_tan_sq hc.ne', inv_inv]; ring
    rw [abs_of_pos (by positivity), smul_eq_mul, hg]
    simp only
    rw [Cauchy.ld hs, density_fin, e1, e2, Real.log_inv, Real.log_pow, sub_eq_add_neg, sub_eq_add_neg,
      Real.exp_add, Real.exp_add, Real.exp_neg, Real.exp_neg (Real.log s), Real.exp_neg (Real.log Real.pi),
      Real.exp_log hs, Real.exp_log hpi, Real.exp_neg, inv_inv]
    rw [show ((2:ℕ):ℝ) * Real.log (Real.cos θ) = Real.log (Real.cos θ) + Real.log (Real.cos θ) by push_cast; ring,
      Real.exp_add, Real.exp_log hc]
    field_simp
    ring
  have hlog : IntervalIntegrable (fun θ => Real.log (Real.cos θ)) volume (-(Real.pi / 2)) (Real.pi / 2) :=
    intervalIntegrable_log_cos
  have hle : -(Real.pi / 2) ≤ Real.pi / 2 := by linarith
  have hion : IntegrableOn (fun θ => -(2 / Real.pi) * Real.log (Real.cos θ)) S :=
    (((intervalIntegrable_iff_integrableOn_Ioo_of_le hle).1 hlog).const_mul _)
  have hval : ∫ θ in S, -(2 / Real.pi) * Real.log (Real.cos θ) = 2 * Real.log 2 := by
    rw [integral_const_mul, hS, ← integral_Ioc_eq_integral_Ioo, ← intervalIntegral.integral_of_le hle]
    have e : ∫ θ in (-(Real.pi / 2))..(Real.pi / 2), Real.log (Real.cos θ) = -Real.log 2 * Real.pi := by
      rw [← integral_log_sin_zero_pi]
      have := intervalIntegral.integral_comp_sub_right (a := 0) (b := Real.pi)
        (fun θ => Real.log (Real.cos θ)) (Real.pi / 2)
      rw [show (0:ℝ) - Real.pi / 2 = -(Real.pi / 2) by ring,
        show Real.pi - Real.pi / 2 = Real.pi / 2 by ring] at this
      rw [← this]
      simp only [Real.cos_sub_pi_div_two]
    rw [e]
    field_simp
  constructor
  · have := (integrableOn_image_iff_integrableOn_abs_deriv_smul measurableSet_Ioo hd hinj g).2
      (hion.congr_fun (fun θ hθ => (key θ hθ).symm) measurableSet_Ioo)
    rwa [himg, integrableOn_univ] at this
  · have := integral_image_eq_integral_abs_deriv_smul measurableSet_Ioo hd hinj g
    rw [himg, setIntegral_univ, setIntegral_congr_fun measurableSet_Ioo key, hval] at this
    exact this

theorem Cauchy.entropy {l s : ℝ} {d : Cauchy XReal} (h : Cauchy.new (fin l) (fin s) = .ok d) :
    Entropy volume fin d (Real.log (4 * Real.pi * s)) := by
  have hr := C122_regular.2.2.2.2.2.1 l s d h
  obtain ⟨hs, rfl⟩ := Cauchy.new_ok h
  have hpi := Real.pi_pos
  obtain ⟨k1, k2⟩ := cauchy_log_integral (l := l) hs
  obtain ⟨o1, o2⟩ := integrable_density hr
  have mo := hr.measurable.ennreal_ofReal
  have e : (fun x : ℝ => (ENNReal.ofReal (density (logDensityWrtRoot (⟨fin l, fin s⟩ : Cauchy XReal) (fin x)))).toReal
      • (logDensityWrtRoot (⟨fin l, fin s⟩ : Cauchy XReal) (fin x) : XReal).toReal)
      = fun x => -(density (logDensityWrtRoot (⟨fin l, fin s⟩ : Cauchy XReal) (fin x))
          * Real.log (1 + (x - l) / s * ((x - l) / s)))
        + (-Real.log s - Real.log Real.pi)
          * density (logDensityWrtRoot (⟨fin l, fin s⟩ : Cauchy XReal) (fin x)) := by
    funext x
    rw [ENNReal.toReal_ofReal (density_nonneg_of_proper (hr.proper x)), smul_eq_mul]
    generalize hD : density (logDensityWrtRoot (⟨fin l, fin s⟩ : Cauchy XReal) (fin x)) = D
    rw [Cauchy.ld hs, toReal_fin]
    ring
  have i1 : Integrable fun x : ℝ => -(density (logDensityWrtRoot (⟨fin l, fin s⟩ : Cauchy XReal) (fin x))
      * Real.log (1 + (x - l) / s * ((x - l) / s))) := k1.neg
  have i2 := o1.const_mul (-Real.log s - Real.log Real.pi)
  constructor
  · unfold law
    rw [integrable_withDensity_iff_integrable_smul' mo (by simp), e]
    exact i1.add i2
  · unfold law
    rw [integral_withDensity_eq_integral_toReal_smul mo (by simp), e, integral_add i1 i2, integral_const_mul, o2,
      integral_neg, k2, Real.log_mul (by positivity) hs.ne', Real.log_mul (by norm_num) hpi.ne',
      show (4:ℝ) = 2 ^ 2 by norm_num, Real.log_pow]
    push_cast
    ring

/-- Entropy from the log-partition: `A(η) - d/ds A(η + sη)`, for a family with log-density `⟨η, T⟩ - A` on its
support. -/
theorem entropy_of_cumulants {D X α : Type} [MeasurableSpace α] [ExponentialFamily D X XReal]
    [HasLogDensity D X XReal] {μ : MeasureTheory.Measure α} {emb : α → X} {d : D} {η : List ℝ} {A A' : ℝ}
    (hr : RegularLaw μ emb d) (hc : Cumulants μ emb d η η)
    (hld : ∀ a, (logDensityWrtRoot d (emb a) : XReal).IsFin →
      (logDensityWrtRoot d (emb a) : XReal).toReal = statAlong d η (emb a) - A)
    (hA : HasDerivAt (fun s => logPartitionAt D (along η η s)) A' 0) : Entropy μ emb d (A - A') := by
  have := law_prob _ _ _ hr
  have hae : (fun a => (logDensityWrtRoot d (emb a) : XReal).toReal) =ᵐ[law μ emb d]
      fun a => statAlong d η (emb a) - A := by
    filter_upwards [law_ae_fin μ emb d hr.proper hr.measurable] with a ha using hld a ha
  have hi : Integrable (fun a => statAlong d η (emb a)) (law μ emb d) := hc.memLp.integrable (by norm_num)
  refine ⟨(hi.sub (integrable_const A)).congr hae.symm, ?_⟩
  rw [integral_congr_ae hae, integral_sub hi (integrable_const A), hc.mean.unique hA]
  simp

theorem hasDerivAt_logGamma {a : ℝ} (ha : 0 < a) :
    HasDerivAt (fun x => Real.log (Real.Gamma x)) (deriv (fun x => Real.log (Real.Gamma x)) a) a := by
  have h1 : DifferentiableAt ℝ Real.Gamma a := Real.differentiableAt_Gamma fun n => by
    have : (0:ℝ) ≤ n := n.cast_nonneg
    linarith
  exact (h1.log (Real.Gamma_pos_of_pos ha).ne').hasDerivAt

theorem hasDerivAt_logGamma_line {a : ℝ} (v : ℝ) (ha : 0 < a) :
    HasDerivAt (fun s : ℝ => Real.log (Real.Gamma (a + s * v)))
      (deriv (fun x => Real.log (Real.Gamma x)) a * v) 0 := by
  have hlin : HasDerivAt (fun s : ℝ => a + s * v) v 0 := by
    simpa using ((hasDerivAt_id (0:ℝ)).mul_const v).const_add a
  have h0 := hasDerivAt_logGamma ha
  have e : a = a + 0 * v := by ring
  rw [e] at h0
  have := HasDerivAt.comp (0:ℝ) h0 hlin
  rwa [← e] at this

theorem Gamma.entropy {a b : ℝ} {d : Gamma XReal} (h : Gamma.new (fin a) (fin b) = .ok d) :
    Entropy volume fin d (a - Real.log b + Real.log (Real.Gamma a)
      + (1 - a) * deriv (fun x => Real.log (Real.Gamma x)) a) := by
  obtain ⟨η, hη, hc⟩ := C123_continuous.2.1 a b d h
  have hr := C122_regular.2.2.1 a b d h
  obtain ⟨ha, hb, rfl⟩ := Gamma.new_ok h
  obtain rfl : η = [a - 1, -b] := by
    have : [a - 1, -b].map fin = η.map fin := by rw [← hη]; simp [toNatural, naturalAndLogPartition]
    exact (List.map_injective_iff.2 (fun x y h => XReal.fin.inj h) this).symm
  have hA : HasDerivAt (fun s : ℝ => Real.log (Real.Gamma (a + s * (a - 1)))
      - (a + s * (a - 1)) * (Real.log (1 + s) + Real.log b))
      (deriv (fun x => Real.log (Real.Gamma x)) a * (a - 1) - ((a - 1) * Real.log b + a)) 0 := by
    have hlin : HasDerivAt (fun s : ℝ => a + s * (a - 1)) (a - 1) 0 := by
      simpa using ((hasDerivAt_id (0:ℝ)).mul_const (a - 1)).const_add a
    have h1 := hasDerivAt_logGamma_line (a - 1) ha
    have h2 : HasDerivAt (fun s : ℝ => Real.log (1 + s) + Real.log b) 1 0 := by
      have := (((hasDerivAt_id (0:ℝ)).const_add 1).log (by simp)).add_const (Real.log b)
      simpa using this
    refine (h1.sub (hlin.mul h2)).congr_deriv ?_
    simp
  have := entropy_of_cumulants (A := Real.log (Real.Gamma a) - a * Real.log b) hr (hc _ rfl) (fun x hx => ?_)
    (hA.congr_of_eventuallyEq ?_)
  · convert this using 1
    ring
  · have hx0 : 0 < x := by
      by_contra hcn
      rw [Gamma.ld_of_nonpos (not_lt.mp hcn)] at hx
      obtain ⟨_, h⟩ := hx
      cases h
    rw [Gamma.ld_of_pos ha hb hx0, toReal_fin]
    simp [statAlong, sufficientStatistic, f_ln _ hx0]
    ring
  · have e1 : ∀ᶠ s : ℝ in 𝓝 0, 0 < a + s * (a - 1) := eventually_pos ha
    have e2 : ∀ᶠ s : ℝ in 𝓝 0, 0 < 1 + s * 1 := eventually_pos one_pos
    filter_upwards [e1, e2] with s h1 h2
    rw [mul_one] at h2
    have h1' : 0 < a - 1 + s * (a - 1) + 1 := by linarith
    have h3 : 0 < -(-b + s * -b) := by have := mul_pos h2 hb; nlinarith
    have h3' : -b + s * -b < 0 := by linarith
    have hf : (fromNatural ((along [a - 1, -b] [a - 1, -b] s).map fin) : Except Panic (Gamma XReal))
        = .ok ⟨fin (a - 1 + s * (a - 1) + 1), fin (-(-b + s * -b))⟩ := by
      simp only [along, List.zipWith_cons_cons, List.zipWith_nil_right, List.map_cons, List.map_nil, fromNatural,
        Gamma.new, f_add, f_one, f_neg]
      simp [h1']
      linarith
    rw [logPartitionAt, hf]
    simp only [logPartition, naturalAndLogPartition, f_lnGamma _ h1', f_ln _ h3, f_mul, f_sub, toReal_fin]
    rw [show a - 1 + s * (a - 1) + 1 = a + s * (a - 1) by ring, show -(-b + s * -b) = (1 + s) * b by ring,
      Real.log_mul h2.ne' hb.ne']

theorem Beta.entropy {a b : ℝ} {d : Beta XReal} (h : Beta.new (fin a) (fin b) = .ok d) :
    Entropy volume fin d (Real.log (Real.Gamma a) + Real.log (Real.Gamma b) - Real.log (Real.Gamma (a + b))
      - (a - 1) * deriv (fun x => Real.log (Real.Gamma x)) a
      - (b - 1) * deriv (fun x => Real.log (Real.Gamma x)) b
      + (a + b - 2) * deriv (fun x => Real.log (Real.Gamma x)) (a + b)) := by
  obtain ⟨η, hη, hc⟩ := C123_continuous.2.2 a b d h
  have hr := C122_regular.2.2.2.1 a b d h
  obtain ⟨ha, hb, rfl⟩ := Beta.new_ok h
  obtain rfl : η = [a - 1, b - 1] := by
    have : [a - 1, b - 1].map fin = η.map fin := by rw [← hη]; simp [toNatural, naturalAndLogPartition]
    exact (List.map_injective_iff.2 (fun x y h => XReal.fin.inj h) this).symm
  have hA := ((hasDerivAt_logGamma_line (a - 1) ha).add (hasDerivAt_logGamma_line (b - 1) hb)).sub
    (hasDerivAt_logGamma_line (a + b - 2) (add_pos ha hb))
  have := entropy_of_cumulants (A := Real.log (Real.Gamma a) + Real.log (Real.Gamma b)
    - Real.log (Real.Gamma (a + b))) hr (hc _ rfl) (fun x hx => ?_) (hA.congr_of_eventuallyEq ?_)
  · convert this using 1
    ring
  · have hx0 : 0 < x ∧ x < 1 := by
      by_contra hcn
      rw [Beta.ld_of_not_mem hcn] at hx
      obtain ⟨_, h⟩ := hx
      cases h
    rw [Beta.ld_of_mem ha hb hx0.1 hx0.2, toReal_fin]
    simp [statAlong, sufficientStatistic, f_ln _ hx0.1, f_ln (1 - x) (by linarith [hx0.2])]
    ring
  · have e1 : ∀ᶠ s : ℝ in 𝓝 0, 0 < a + s * (a - 1) := eventually_pos ha
    have e2 : ∀ᶠ s : ℝ in 𝓝 0, 0 < b + s * (b - 1) := eventually_pos hb
    filter_upwards [e1, e2] with s h1 h2
    have h1' : 0 < a - 1 + s * (a - 1) + 1 := by linarith
    have h2' : 0 < b - 1 + s * (b - 1) + 1 := by linarith
    have hf : (fromNatural ((along [a - 1, b - 1] [a - 1, b - 1] s).map fin) : Except Panic (Beta XReal))
        = .ok ⟨fin (a - 1 + s * (a - 1) + 1), fin (b - 1 + s * (b - 1) + 1)⟩ := by
      simp only [along, List.zipWith_cons_cons, List.zipWith_nil_right, List.map_cons, List.map_nil, fromNatural,
        Beta.new, f_add, f_one]
      simp [h1', h2']
    rw [logPartitionAt, hf]
    simp only [logPartition, naturalAndLogPartition, f_lnGamma _ h1', f_lnGamma _ h2', f_add,
      f_lnGamma _ (add_pos h1' h2'), f_sub, toReal_fin, Pi.sub_apply, Pi.add_apply]
    rw [show a - 1 + s * (a - 1) + 1 = a + s * (a - 1) by ring,
      show b - 1 + s * (b - 1) + 1 = b + s * (b - 1) by ring,
      show a + s * (a - 1) + (b + s * (b - 1)) = a + b + s * (a + b - 2) by ring]

theorem entropy_congr {M N X α : Type} [MeasurableSpace α] [HasLogDensity M X XReal] [HasLogDensity N X XReal]
    {μ : MeasureTheory.Measure α} {emb : α → X} {m : M} {n : N} {H : ℝ}
    (h : ∀ a, (logDensityWrtRoot m (emb a) : XReal) = logDensityWrtRoot n (emb a)) (hn : Entropy μ emb n H) :
    Entropy μ emb m H := by
  unfold Entropy CrossEntropy law at hn ⊢
  simp only [h]
  exact hn

theorem ChiSquared.entropy {k : ℝ} {d : ChiSquared XReal} (h : ChiSquared.new (fin k) = .ok d) :
    Entropy volume fin d (k / 2 + Real.log 2 + Real.log (Real.Gamma (k / 2))
      + (1 - k / 2) * deriv (fun x => Real.log (Real.Gamma x)) (k / 2)) := by
  obtain ⟨hk, rfl⟩ := ChiSquared.new_ok h
  have hk2 : 0 < k / 2 := by positivity
  have hg : Gamma.new (fin (k / 2)) (fin (1 / 2)) = .ok (⟨fin (k / 2), fin (1 / 2)⟩ : Gamma XReal) := by
    simp [Gamma.new, hk2]
  have := Gamma.entropy hg
  rw [show Real.log (1 / 2) = -Real.log 2 by rw [one_div, Real.log_inv], sub_neg_eq_add] at this
  refine entropy_congr (fun x => ?_) this
  rcases le_or_gt x 0 with hx | hx
  · rw [ChiSquared.ld_of_nonpos hx, Gamma.ld_of_nonpos hx]
  · rw [ChiSquared.ld_of_pos hk hx, Gamma.ld_of_pos hk2 (by norm_num) hx, one_div, Real.log_inv]
    congr 1
    ring

/-- **C136**, closed forms: the entropy of every accepted distribution, as the expectation of minus its
log-density, exists and has the textbook value (`ψ`, the derivative of `ln Γ`, appears for gamma, beta and
chi-squared). -/
theorem C136_closed_forms :
    (∀ (μ σ : ℝ) (d : Normal XReal), Normal.new (fin μ) (fin σ) = .ok d →
      Entropy volume fin d (Real.log (σ * Real.sqrt (2 * Real.pi * Real.exp 1)))) ∧
    (∀ (r : ℝ) (d : Exponential XReal), Exponential.new (fin r) = .ok d →
      Entropy volume fin d (1 - Real.log r)) ∧
    (∀ (l s : ℝ) (d : Cauchy XReal), Cauchy.new (fin l) (fin s) = .ok d →
      Entropy volume fin d (Real.log (4 * Real.pi * s))) ∧
    (∀ (a b : ℝ) (d : Gamma XReal), Gamma.new (fin a) (fin b) = .ok d →
      Entropy volume fin d (a - Real.log b + Real.log (Real.Gamma a)
        + (1 - a) * deriv (fun x => Real.log (Real.Gamma x)) a)) ∧
    (∀ (a b : ℝ) (d : Beta XReal), Beta.new (fin a) (fin b) = .ok d →
      Entropy volume fin d (Real.log (Real.Gamma a) + Real.log (Real.Gamma b) - Real.log (Real.Gamma (a + b))
        - (a - 1) * deriv (fun x => Real.log (Real.Gamma x)) a
        - (b - 1) * deriv (fun x => Real.log (Real.Gamma x)) b
        + (a + b - 2) * deriv (fun x => Real.log (Real.Gamma x)) (a + b))) ∧
    (∀ (k : ℝ) (d : ChiSquared XReal), ChiSquared.new (fin k) = .ok d →
      Entropy volume fin d (k / 2 + Real.log 2 + Real.log (Real.Gamma (k / 2))
        + (1 - k / 2) * deriv (fun x => Real.log (Real.Gamma x)) (k / 2))) ∧
    (∀ (p : ℝ) (d : Bernoulli XReal), Bernoulli.new (fin p) = .ok d → 0 < p → p < 1 →
      Entropy Measure.count byteOf d (Real.binEntropy p)) ∧
    (∀ (p : ℝ) (d : Geometric XReal), Geometric.new (fin p) = .ok d → p ≠ 1 →
      Entropy Measure.count (id : ℕ → ℕ) d (-Real.log p - (1 - p) / p * Real.log (1 - p))) ∧
    (∀ (ps : List ℝ), ps ≠ [] → (∀ p ∈ ps, 0 < p) → ps.sum = 1 →
      ∃ d : Categorical XReal, Categorical.new (ps.map fin) = .ok d ∧
        Entropy Measure.count (id : ℕ → ℕ) d (ps.map Real.negMulLog).sum) := by
  refine ⟨fun μ σ d h => Normal.entropy h, fun r d h => Exponential.entropy h, fun l s d h => Cauchy.entropy h,
    fun a b d h => Gamma.entropy h, fun a b d h => Beta.entropy h, fun k d h => ChiSquared.entropy h,
    fun p d h h0 h1 => ?_, fun p d h hp => Geometric.entropy h hp, fun ps hne hpos hsum => ?_⟩
  · obtain ⟨-, rfl⟩ := Bernoulli.new_ok h
    exact Bernoulli.entropy h0 h1
  · exact ⟨_, (Categorical.regular hne hpos hsum).1, Categorical.entropy hne hpos hsum⟩

example : Entropy volume fin (⟨fin 0, fin 1⟩ : Cauchy XReal) (Real.log (4 * Real.pi)) := by
  simpa using Cauchy.entropy (l := 0) (s := 1) (d := ⟨fin 0, fin 1⟩) (by simp [Cauchy.new])

/-! ## Distributions of maximal entropy -/

/-- **C136**, maximal entropy on the line: a distribution on the reals whose mean squared distance from `μ` is
at most `σ²` has at most the entropy of `Normal(μ, σ)`; one on the non-negative reals with mean at most `1/r`
has at most the entropy of `Exponential(r)`; one on the unit interval at most that of `Beta(1,1)`, which is 0.
Only these distributions themselves reach the bound. -/
theorem C136_maximal_real {M : Type} [Measure M XReal] [HasLogDensity M XReal XReal] (m : M)
    (hm : RegularLaw volume fin m) {h : ℝ} (he : Entropy volume fin m h) :
    (∀ (μ σ : ℝ) (d : Normal XReal), Normal.new (fin μ) (fin σ) = .ok d →
      Integrable (fun x : ℝ => (x - μ) ^ 2) (law volume fin m) →
      ∫ x : ℝ, (x - μ) ^ 2 ∂(law volume fin m) ≤ σ ^ 2 →
      h ≤ Real.log (σ * Real.sqrt (2 * Real.pi * Real.exp 1)) ∧
        (h = Real.log (σ * Real.sqrt (2 * Real.pi * Real.exp 1)) ↔ law volume fin m = law volume fin d)) ∧
    (∀ (r : ℝ) (d : Exponential XReal), Exponential.new (fin r) = .ok d →
      (∀ x : ℝ, x < 0 → (logDensityWrtRoot m (fin x) : XReal) = ninf) →
      Integrable (fun x : ℝ => x) (law volume fin m) → ∫ x : ℝ, x ∂(law volume fin m) ≤ 1 / r →
      h ≤ 1 - Real.log r ∧ (h = 1 - Real.log r ↔ law volume fin m = law volume fin d)) ∧
    (∀ d : Beta XReal, Beta.new (fin 1) (fin 1) = .ok d →
      (∀ x : ℝ, x ≤ 0 ∨ 1 ≤ x → (logDensityWrtRoot m (fin x) : XReal) = ninf) →
      h ≤ 0 ∧ (h = 0 ↔ law volume fin m = law volume fin d)) := by
  have hp := law_prob _ _ _ hm
  have hfin := law_ae_fin volume fin m hm.proper hm.measurable
  refine ⟨fun μ σ d hn hi hv => ?_, fun r d hn hs hi hv => ?_, fun d hn hs => ?_⟩
  · have hH := Normal.entropy hn
    have hb := C122_regular.1 μ σ d hn
    have hd := C122_dominating.1 m μ σ d hn
    obtain ⟨s, rfl⟩ := Normal.new_ok hn
    have e : (fun x : ℝ => (logDensityWrtRoot (⟨fin μ, fin σ⟩ : Normal XReal) (fin x) : XReal).toReal)
        = fun x => (-(1/2) * Real.log (2 * Real.pi) - Real.log σ) - 1 / (2 * σ ^ 2) * (x - μ) ^ 2 := by
      funext x
      rw [Normal.ld s, toReal_fin]
      field_simp
    have i2 := hi.const_mul (1 / (2 * σ ^ 2))
    have hc : CrossEntropy volume fin m (⟨fin μ, fin σ⟩ : Normal XReal)
        (1/2 * Real.log (2 * Real.pi) + Real.log σ
          + 1 / (2 * σ ^ 2) * ∫ x : ℝ, (x - μ) ^ 2 ∂(law volume fin m)) := by
      unfold CrossEntropy
      rw [e]
      refine ⟨(integrable_const _).sub i2, ?_⟩
      rw [integral_sub (integrable_const _) i2, integral_const_mul]
      simp
      ring
    refine entropy_le_of_cross volume fin m _ hm hb hd he hc hH ?_
    have hpi := Real.pi_pos
    rw [Real.log_mul s.ne' (Real.sqrt_pos.2 (by positivity)).ne', Real.log_sqrt (by positivity),
      Real.log_mul (by positivity) (Real.exp_pos 1).ne', Real.log_exp]
    have := mul_le_mul_of_nonneg_left hv (show 0 ≤ 1 / (2 * σ ^ 2) by positivity)
    rw [show 1 / (2 * σ ^ 2) * σ ^ 2 = 1/2 by field_simp] at this
    linarith
  · have hH := Exponential.entropy hn
    have hb := C122_regular.2.1 r d hn
    obtain ⟨hr, rfl⟩ := Exponential.new_ok hn
    have hpos : ∀ x : ℝ, (logDensityWrtRoot m (fin x) : XReal).IsFin → 0 ≤ x := by
      intro x hx
      by_contra hcn
      rw [hs x (not_le.mp hcn)] at hx
      obtain ⟨_, h⟩ := hx
      cases h
    have hd : Dominates fin (⟨fin r⟩ : Exponential XReal) m := fun x hx =>
      ⟨_, Exponential.ld_of_nonneg hr (hpos x hx)⟩
    have hae : (fun x : ℝ => (logDensityWrtRoot (⟨fin r⟩ : Exponential XReal) (fin x) : XReal).toReal)
        =ᵐ[law volume fin m] fun x => Real.log r - r * x := by
      filter_upwards [hfin] with x hx
      rw [Exponential.ld_of_nonneg hr (hpos x hx), toReal_fin]
    have i2 := hi.const_mul r
    have hc : CrossEntropy volume fin m (⟨fin r⟩ : Exponential XReal)
        (-Real.log r + r * ∫ x : ℝ, x ∂(law volume fin m)) := by
      refine ⟨((integrable_const _).sub i2).congr hae.symm, ?_⟩
      rw [integral_congr_ae hae, integral_sub (integrable_const _) i2, integral_const_mul]
      simp
      ring
    refine entropy_le_of_cross volume fin m _ hm hb hd he hc hH ?_
    have := mul_le_mul_of_nonneg_left hv hr.le
    rw [mul_one_div_cancel hr.ne'] at this
    linarith
  · have hb := C122_regular.2.2.2.1 1 1 d hn
    obtain ⟨-, -, rfl⟩ := Beta.new_ok hn
    have hpos : ∀ x : ℝ, (logDensityWrtRoot m (fin x) : XReal).IsFin → 0 < x ∧ x < 1 := by
      intro x hx
      by_contra hcn
      rw [hs x (by rw [not_and_or, not_lt, not_lt] at hcn; exact hcn)] at hx
      obtain ⟨_, h⟩ := hx
      cases h
    have hone : ∀ x : ℝ, 0 < x → x < 1 →
        (logDensityWrtRoot (⟨fin 1, fin 1⟩ : Beta XReal) (fin x) : XReal) = fin 0 := by
      intro x h0 h1
      rw [Beta.ld_of_mem one_pos one_pos h0 h1]
      norm_num [Real.Gamma_two, Real.Gamma_one]
    have hd : Dominates fin (⟨fin 1, fin 1⟩ : Beta XReal) m := fun x hx =>
      ⟨_, hone x (hpos x hx).1 (hpos x hx).2⟩
    have hae : ∀ {N : Type} [HasLogDensity N XReal XReal] (n : N), RegularLaw volume fin n →
        (∀ x : ℝ, (logDensityWrtRoot n (fin x) : XReal).IsFin → 0 < x ∧ x < 1) →
        CrossEntropy volume fin n (⟨fin 1, fin 1⟩ : Beta XReal) 0 := by
      intro N _ n hn hpos
      have hae : (fun x : ℝ => (logDensityWrtRoot (⟨fin 1, fin 1⟩ : Beta XReal) (fin x) : XReal).toReal)
          =ᵐ[law volume fin n] fun x => (0:ℝ) := by
        filter_upwards [law_ae_fin volume fin n hn.proper hn.measurable] with x hx
        rw [hone x (hpos x hx).1 (hpos x hx).2, toReal_fin]
      refine ⟨(integrable_zero _ _ _).congr hae.symm, ?_⟩
      rw [integral_congr_ae hae]
      simp
    refine entropy_le_of_cross volume fin m _ hm hb hd he (hae m hm hpos) (hae _ hb fun x hx => ?_) le_rfl
    by_contra hcn
    rw [Beta.ld_of_not_mem hcn] at hx
    obtain ⟨_, h⟩ := hx
    cases h

/-- A standard exponential meets the hypotheses for the normal with its mean and variance, and for itself. -/
example : (1:ℝ) ≤ Real.log (1 * Real.sqrt (2 * Real.pi * Real.exp 1)) := by
  have hn : Exponential.new (fin 1) = .ok (⟨fin 1⟩ : Exponential XReal) := by simp [Exponential.new]
  have hr := C122_regular.2.1 1 _ hn
  obtain ⟨m, v, hm, hv, hmo⟩ := C27_continuous_moments.2.1 1 _ hn
  obtain rfl : 1 = m := by simpa [Exponential.mean, recip, f_div _ _ (one_ne_zero (α := ℝ))] using hm
  obtain rfl : 1 = v := by simpa [Exponential.variance, recip, f_div _ _ (one_ne_zero (α := ℝ))] using hv
  obtain ⟨k1, k2⟩ := integral_law_quadratic _ hr hmo (fun x => (x - 1) ^ 2) 0 0 1 (fun x _ => by ring)
  have he := Exponential.entropy hn
  rw [Real.log_one, sub_zero] at he
  refine ((C136_maximal_real _ hr he).1 1 1 ⟨fin 1, fin 1⟩ (by simp [Normal.new]) k1 ?_).1
  rw [k2]
  norm_num

/-- **C136**, maximal entropy on counts: a distribution on `1, 2, …` with mean at most `1/p` has at most the
entropy of `Geometric(p)`; one on `0, …, n-1` has at most entropy `ln n`.  Only the geometric distribution and
the categorical distribution with equal probabilities reach the bounds. -/
theorem C136_maximal_counts {M : Type} [Measure M ℕ] [HasLogDensity M ℕ XReal] (m : M)
    (hm : RegularLaw Measure.count (id : ℕ → ℕ) m) {h : ℝ} (he : Entropy Measure.count (id : ℕ → ℕ) m h) :
    (∀ (p : ℝ) (d : Geometric XReal), Geometric.new (fin p) = .ok d → p ≠ 1 →
      (logDensityWrtRoot m 0 : XReal) = ninf →
      Integrable (fun k : ℕ => (k : ℝ)) (law Measure.count (id : ℕ → ℕ) m) →
      ∫ k : ℕ, (k : ℝ) ∂(law Measure.count (id : ℕ → ℕ) m) ≤ 1 / p →
      h ≤ -Real.log p - (1 - p) / p * Real.log (1 - p) ∧
        (h = -Real.log p - (1 - p) / p * Real.log (1 - p) ↔
          law Measure.count (id : ℕ → ℕ) m = law Measure.count (id : ℕ → ℕ) d)) ∧
    (∀ n : ℕ, 0 < n → (∀ k, n ≤ k → (logDensityWrtRoot m k : XReal) = ninf) →
      ∃ d : Categorical XReal, Categorical.new (List.replicate n (fin (1 / n))) = .ok d ∧
        h ≤ Real.log n ∧ (h = Real.log n ↔
          law Measure.count (id : ℕ → ℕ) m = law Measure.count (id : ℕ → ℕ) d)) := by
  have hp := law_prob _ _ _ hm
  have hfin := law_ae_fin Measure.count (id : ℕ → ℕ) m hm.proper hm.measurable
  refine ⟨fun p d hn hp1 hz hi hv => ?_, fun n hn hz => ?_⟩
  · have hH := Geometric.entropy hn hp1
    have hb := C122_regular.2.2.2.2.2.2.2.1 p d hn hp1
    obtain ⟨⟨p0, p1⟩, rfl⟩ := Geometric.new_ok hn
    have p1' : p < 1 := lt_of_le_of_ne p1 hp1
    have hpos : ∀ k : ℕ, (logDensityWrtRoot m (id k) : XReal).IsFin → 1 ≤ k := by
      intro k hk
      by_contra hcn
      obtain rfl : k = 0 := by omega
      rw [id, hz] at hk
      obtain ⟨_, h⟩ := hk
      cases h
    have hd : Dominates (id : ℕ → ℕ) (⟨fin p⟩ : Geometric XReal) m := fun k hk =>
      ⟨_, Geometric.ld_of_pos p0 p1' (hpos k hk)⟩
    have hae : (fun k : ℕ => (logDensityWrtRoot (⟨fin p⟩ : Geometric XReal) (id k) : XReal).toReal)
        =ᵐ[law Measure.count (id : ℕ → ℕ) m]
        fun k => (Real.log p - Real.log (1 - p)) + Real.log (1 - p) * (k : ℝ) := by
      filter_upwards [hfin] with k hk
      rw [id, Geometric.ld_of_pos p0 p1' (hpos k hk), toReal_fin]
      ring
    have i2 := hi.const_mul (Real.log (1 - p))
    have hc : CrossEntropy Measure.count (id : ℕ → ℕ) m (⟨fin p⟩ : Geometric XReal)
        (-(Real.log p - Real.log (1 - p)) - Real.log (1 - p) *
          ∫ k : ℕ, (k : ℝ) ∂(law Measure.count (id : ℕ → ℕ) m)) := by
      refine ⟨((integrable_const _).add i2).congr hae.symm, ?_⟩
      rw [integral_congr_ae hae, integral_add (integrable_const _) i2, integral_const_mul]
      simp
      ring
    refine entropy_le_of_cross Measure.count id m _ hm hb hd he hc hH ?_
    have hl : Real.log (1 - p) < 0 := Real.log_neg (by linarith) (by linarith)
    have := mul_le_mul_of_nonneg_left hv (show 0 ≤ -Real.log (1 - p) by linarith)
    have e : -Real.log (1 - p) * (1 / p) = -Real.log (1 - p) - (1 - p) / p * Real.log (1 - p) := by
      field_simp
      ring
    rw [e] at this
    linarith
  · have hn0 : (0:ℝ) < n := by exact_mod_cast hn
    have hne : List.replicate n (1 / (n:ℝ)) ≠ [] := by simp; omega
    have hpos : ∀ q ∈ List.replicate n (1 / (n:ℝ)), 0 < q := by
      intro q hq
      rw [List.eq_of_mem_replicate hq]
      positivity
    have hsum : (List.replicate n (1 / (n:ℝ))).sum = 1 := by
      rw [List.sum_replicate, nsmul_eq_mul, mul_one_div_cancel hn0.ne']
    obtain ⟨k1, hb⟩ := Categorical.regular hne hpos hsum
    have hH := Categorical.entropy hne hpos hsum
    rw [List.map_replicate] at k1 hb hH
    rw [List.map_replicate, List.sum_replicate, Real.negMulLog, one_div, Real.log_inv, nsmul_eq_mul,
      show (n:ℝ) * (-(n:ℝ)⁻¹ * -Real.log n) = Real.log n by field_simp] at hH
    refine ⟨_, k1, ?_⟩
    have hld : ∀ k : ℕ, k < n →
        (logDensityWrtRoot (⟨List.replicate n (fin (1 / (n:ℝ)))⟩ : Categorical XReal) k : XReal)
          = fin (-Real.log n) := by
      intro k hk
      have : (0:ℝ) < 1 / n := by positivity
      simp only [logDensityWrtRoot, List.getElem?_replicate, hk, if_true]
      have e := f_ln _ this
      rw [one_div, Real.log_inv] at e
      simpa using e
    have hlt : ∀ k : ℕ, (logDensityWrtRoot m (id k) : XReal).IsFin → k < n := by
      intro k hk
      by_contra hcn
      rw [id, hz k (not_lt.mp hcn)] at hk
      obtain ⟨_, h⟩ := hk
      cases h
    have hd : Dominates (id : ℕ → ℕ) (⟨List.replicate n (fin (1 / (n:ℝ)))⟩ : Categorical XReal) m := fun k hk =>
      ⟨_, hld k (hlt k hk)⟩
    have hae : (fun k : ℕ =>
        (logDensityWrtRoot (⟨List.replicate n (fin (1 / (n:ℝ)))⟩ : Categorical XReal) (id k) : XReal).toReal)
        =ᵐ[law Measure.count (id : ℕ → ℕ) m] fun k => -Real.log n := by
      filter_upwards [hfin] with k hk
      rw [id, hld k (hlt k hk), toReal_fin]
    have hc : CrossEntropy Measure.count (id : ℕ → ℕ) m
        (⟨List.replicate n (fin (1 / (n:ℝ)))⟩ : Categorical XReal) (Real.log n) := by
      refine ⟨(integrable_const _).congr hae.symm, ?_⟩
      rw [integral_congr_ae hae]
      simp
    rw [one_div] at *
    exact entropy_le_of_cross Measure.count id m _ hm hb hd he hc hH le_rfl

/-- The categorical distribution `(1/4, 3/4)` meets the hypotheses with `n = 2`. -/
example : ([1/4, 3/4].map Real.negMulLog).sum ≤ Real.log (2 : ℕ) := by
  have hne : ([1/4, 3/4] : List ℝ) ≠ [] := by simp
  have hpos : ∀ p ∈ ([1/4, 3/4] : List ℝ), 0 < p := by simp
  have hsum : ([1/4, 3/4] : List ℝ).sum = 1 := by norm_num
  obtain ⟨d, -, h, -⟩ := (C136_maximal_counts _ (Categorical.regular hne hpos hsum).2
    (Categorical.entropy hne hpos hsum)).2 2 (by norm_num) (fun k hk => by
      obtain ⟨j, rfl⟩ := Nat.exists_eq_add_of_le hk
      simp [logDensityWrtRoot, add_comm 2 j])
  exact h

/-! ## Products and affine maps -/

/-- **C136**, products: the entropy of a pair of independent draws is the sum of the entropies. -/
theorem C136_product {M1 M2 X1 X2 α β : Type} [MeasurableSpace α] [MeasurableSpace β]
    [HasLogDensity M1 X1 XReal] [HasLogDensity M2 X2 XReal]
    (μ : MeasureTheory.Measure α) (ν : MeasureTheory.Measure β) [SigmaFinite μ] [SigmaFinite ν]
    (e1 : α → X1) (e2 : β → X2) (m1 : M1) (m2 : M2) (r1 : RegularLaw μ e1 m1) (r2 : RegularLaw ν e2 m2)
    {h1 h2 : ℝ} (he1 : Entropy μ e1 m1 h1) (he2 : Entropy ν e2 m2 h2) :
    Entropy (μ.prod ν) (fun p : α × β => (e1 p.1, e2 p.2)) (⟨m1, m2⟩ : ProductMeasure M1 M2) (h1 + h2) := by
  have p1 := law_prob _ _ _ r1
  have p2 := law_prob _ _ _ r2
  have f1 := law_ae_fin μ e1 m1 r1.proper r1.measurable
  have f2 := law_ae_fin ν e2 m2 r2.proper r2.measurable
  have hae : (fun p : α × β =>
        (logDensityWrtRoot (⟨m1, m2⟩ : ProductMeasure M1 M2) (e1 p.1, e2 p.2) : XReal).toReal)
      =ᵐ[(law μ e1 m1).prod (law ν e2 m2)] fun p =>
        (logDensityWrtRoot m1 (e1 p.1) : XReal).toReal + (logDensityWrtRoot m2 (e2 p.2) : XReal).toReal := by
    filter_upwards [Measure.quasiMeasurePreserving_fst.ae f1, Measure.quasiMeasurePreserving_snd.ae f2]
      with p hp1 hp2
    obtain ⟨a, ha⟩ := hp1
    obtain ⟨b, hb⟩ := hp2
    show (logDensityWrtRoot m1 (e1 p.1) +. logDensityWrtRoot m2 (e2 p.2) : XReal).toReal = _
    rw [ha, hb, f_add]
    rfl
  have i1 := he1.1.comp_fst (law ν e2 m2)
  have i2 := he2.1.comp_snd (law μ e1 m1)
  unfold Entropy CrossEntropy
  rw [C124_product μ ν e1 e2 m1 m2 r1.proper r2.proper r1.measurable r2.measurable]
  refine ⟨(i1.add i2).congr hae.symm, ?_⟩
  rw [integral_congr_ae hae, integral_add i1 i2,
    integral_fun_fst (fun a => (logDensityWrtRoot m1 (e1 a) : XReal).toReal),
    integral_fun_snd (fun b => (logDensityWrtRoot m2 (e2 b) : XReal).toReal)]
  simp only [probReal_univ, one_smul]
  rw [← he1.2, ← he2.2]
  ring

/-- **C136**, affine maps: `x ↦ a x + b` adds `ln |a|` to the entropy, whatever the shift. -/
theorem C136_affine {M : Type} [HasLogDensity M XReal XReal] (m : M) (hm : RegularLaw volume fin m) {h : ℝ}
    (he : Entropy volume fin m h) (a b : ℝ) (ha : a ≠ 0) :
    Entropy volume fin (pushforward m (Transform.linearT (fin a) (fin b))) (h + Real.log |a|) := by
  have hp := law_prob _ _ _ hm
  have hfin := law_ae_fin volume fin m hm.proper hm.measurable
  have hmap := (C124_transforms_partial m hm.proper).2.2.1 a b ha
  have hemb : MeasurableEmbedding fun x : ℝ => a * x + b :=
    ((Homeomorph.mulLeft₀ a ha).trans (Homeomorph.addRight b)).measurableEmbedding
  have hae : (fun x : ℝ => (logDensityWrtRoot (pushforward m (Transform.linearT (fin a) (fin b)))
        (fin (a * x + b)) : XReal).toReal)
      =ᵐ[law volume fin m] fun x => (logDensityWrtRoot m (fin x) : XReal).toReal - Real.log |a| := by
    filter_upwards [hfin] with x hx
    obtain ⟨r, hr⟩ := hx
    have e : (logDensityWrtRoot (pushforward m (Transform.linearT (fin a) (fin b))) (fin (a * x + b)) : XReal)
        = logDensityWrtRoot m ((fin (a * x + b) -. fin b) /. fin a) +. FloatOps.neg (FloatOps.ln (FloatOps.abs (fin a))) :=
      rfl
    rw [e, f_sub, f_div _ _ ha, f_abs, f_ln _ (abs_pos.mpr ha), f_neg,
      show (a * x + b - b) / a = x by field_simp; ring, hr, f_add]
    simp [sub_eq_add_neg]
  unfold Entropy CrossEntropy
  rw [hmap, hemb.integrable_map_iff, hemb.integral_map]
  have hi := he.1.sub (integrable_const (Real.log |a|))
  refine ⟨hi.congr hae.symm, ?_⟩
  rw [integral_congr_ae hae, integral_sub he.1 (integrable_const _)]
  simp only [integral_const, probReal_univ, one_smul]
  rw [← he.2]
  ring

example (a b : ℝ) (ha : a ≠ 0) :
    Entropy volume fin (pushforward (⟨fin 1⟩ : Exponential XReal) (Transform.linearT (fin a) (fin b)))
      (1 - Real.log 1 + Real.log |a|) := by
  have hn : Exponential.new (fin 1) = .ok (⟨fin 1⟩ : Exponential XReal) := by simp [Exponential.new]
  exact C136_affine _ (C122_regular.2.1 1 _ hn) (Exponential.entropy hn) a b ha

end Verif
