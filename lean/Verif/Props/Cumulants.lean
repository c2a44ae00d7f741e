import Verif.Spec.Cumulants
import Verif.Props.RadonNikodymDist
import Verif.Props.RoundTrip
import Mathlib.Probability.Moments.MGFAnalytic

/-!
# C123: the derivatives of the log-partition are the moments of the sufficient statistic
-/

namespace Verif
open FloatOps XReal Spec MeasureTheory ProbabilityTheory ExponentialFamily Filter Topology

theorem cumulants_of {D X α : Type} [MeasurableSpace α] [ExponentialFamily D X XReal]
    [HasLogDensity D X XReal] (μ : MeasureTheory.Measure α) [SigmaFinite μ] (emb : α → X) (d : D)
    (hr : RegularLaw μ emb d) (η v : List ℝ) (A : ℝ → ℝ) (g : α → ℝ) (hg : Measurable g)
    (hT : ∀ a, (logDensityWrtRoot d (emb a) : XReal).IsFin → statAlong d v (emb a) = g a)
    (h : ∀ᶠ s in 𝓝 (0 : ℝ), ∃ d' : D, fromNatural ((along η v s).map fin) = .ok d' ∧
      (logPartition d' : XReal) = fin (A s) ∧ mass μ emb d' = 1 ∧
      ∀ a, ((logDensityWrtRoot d (emb a) : XReal) = ninf ∧ (logDensityWrtRoot d' (emb a) : XReal) = ninf) ∨
        ∃ l : ℝ, (logDensityWrtRoot d (emb a) : XReal) = fin l ∧
          (logDensityWrtRoot d' (emb a) : XReal) = fin (l + s * g a - A s + A 0)) :
    Cumulants μ emb d η v := by
  set ν := law μ emb d with hν
  have u1 : ν Set.univ = 1 := by
    rw [hν, law, withDensity_apply _ MeasurableSet.univ, Measure.restrict_univ]; exact hr.mass_one
  have hprob : IsProbabilityMeasure ν := ⟨u1⟩
  have hae : (fun a => statAlong d v (emb a)) =ᵐ[ν] g := by
    filter_upwards [law_ae_fin μ emb d hr.proper hr.measurable] with a ha
    exact hT a ha
  have hexp : ∀ᶠ s in 𝓝 (0 : ℝ), logPartitionAt D (along η v s) = A s ∧
      Integrable (fun a => Real.exp (s * g a)) ν ∧ mgf g ν s = Real.exp (A s - A 0) := by
    filter_upwards [h] with s hs
    obtain ⟨d', h1, h2, h3, h4⟩ := hs
    have e1 : ∫⁻ a, ENNReal.ofReal (Real.exp (s * g a - A s + A 0)) ∂ν = 1 := by
      rw [hν, law, lintegral_withDensity_eq_lintegral_mul_non_measurable _ hr.measurable.ennreal_ofReal
        (by simp), ← h3]
      unfold mass
      congr 1
      funext a
      rcases h4 a with ⟨k1, k2⟩ | ⟨l, k1, k2⟩
      · rw [Pi.mul_apply, k1, k2]; simp [density]
      · rw [Pi.mul_apply, k1, k2, density_fin, density_fin, ← ENNReal.ofReal_mul (Real.exp_pos _).le,
          ← Real.exp_add]
        congr 2; ring
    have m1 : Measurable fun a => Real.exp (s * g a - A s + A 0) := by fun_prop
    have i1 : Integrable (fun a => Real.exp (s * g a - A s + A 0)) ν := by
      refine ⟨m1.aestronglyMeasurable, ?_⟩
      rw [hasFiniteIntegral_iff_ofReal (Eventually.of_forall fun a => (Real.exp_pos _).le), e1]
      exact ENNReal.one_lt_top
    have i2 : ∫ a, Real.exp (s * g a - A s + A 0) ∂ν = 1 := by
      rw [integral_eq_lintegral_of_nonneg_ae (Eventually.of_forall fun a => (Real.exp_pos _).le)
        m1.aestronglyMeasurable, e1, ENNReal.toReal_one]
    have e2 : (fun a => Real.exp (s * g a))
        = fun a => Real.exp (A s - A 0) * Real.exp (s * g a - A s + A 0) := by
      funext a; rw [← Real.exp_add]; congr 1; ring
    refine ⟨?_, ?_, ?_⟩
    · simp only [logPartitionAt, h1, h2, toReal_fin]
    · rw [e2]; exact i1.const_mul _
    · rw [mgf]
      show ∫ a, Real.exp (s * g a) ∂ν = _
      rw [e2, integral_const_mul, i2, mul_one]
  have hint : (0 : ℝ) ∈ interior (integrableExpSet g ν) := by
    rw [mem_interior_iff_mem_nhds]
    filter_upwards [hexp] with s hs using hs.2.1
  have hcgf : (fun s => logPartitionAt D (along η v s)) =ᶠ[𝓝 0] fun s => cgf g ν s + A 0 := by
    filter_upwards [hexp] with s hs
    rw [hs.1, cgf, hs.2.2, Real.log_exp]; ring
  have hd1 : deriv (cgf g ν) 0 = ∫ a, g a ∂ν := by
    rw [deriv_cgf_zero hint, measureReal_def, u1]; simp
  have hmean : ∫ a, statAlong d v (emb a) ∂ν = ∫ a, g a ∂ν := integral_congr_ae hae
  have hmem : MemLp g 2 ν := by
    have := memLp_of_mem_interior_integrableExpSet hint 2
    simpa using this
  refine ⟨(memLp_congr_ae hae).2 hmem, ?_, ?_⟩
  · rw [hmean, ← hd1]
    have := ((analyticAt_cgf hint).differentiableAt.hasDerivAt).add_const (A 0)
    exact this.congr_of_eventuallyEq hcgf
  · rw [hcgf.iteratedDeriv_eq 2, variance_congr hae, variance_eq_integral hg.aemeasurable]
    have e : iteratedDeriv 2 (fun s => cgf g ν s + A 0) 0 = iteratedDeriv 2 (cgf g ν) 0 := by
      rw [iteratedDeriv_succ, iteratedDeriv_one, iteratedDeriv_succ, iteratedDeriv_one]
      congr 1
      funext s
      exact deriv_add_const _
    rw [e, iteratedDeriv_two_cgf_eq_integral hint, hd1]
    simp

theorem sum_zipWith_along (η v t : List ℝ) (s : ℝ) (h : v.length = η.length) :
    (List.zipWith (· * ·) (along η v s) t).sum
      = (List.zipWith (· * ·) η t).sum + s * (List.zipWith (· * ·) v t).sum := by
  induction η generalizing v t with
  | nil =>
    cases v with
    | nil => simp [along]
    | cons _ _ => simp at h
  | cons a η ih =>
    cases v with
    | nil => simp at h
    | cons b v =>
      cases t with
      | nil => simp
      | cons c t =>
        have := ih v t (by simpa using h)
        simp only [along, List.zipWith_cons_cons, List.sum_cons] at this ⊢
        rw [this]; ring

/-- A family given by its natural parameters `η ∈ Ω`, support `S`, statistics `T` and base `b`. -/
theorem cumulants_family {D X α : Type} [MeasurableSpace α] [ExponentialFamily D X XReal]
    [HasLogDensity D X XReal] (μ : MeasureTheory.Measure α) [SigmaFinite μ] (emb : α → X)
    (Ω : List ℝ → Prop) (S : α → Prop) (T : α → List ℝ) (b : α → ℝ)
    (H : ∀ η, Ω η → ∃ d' : D, fromNatural (η.map fin) = .ok d' ∧ RegularLaw μ emb d' ∧
      ∃ A : ℝ, (logPartition d' : XReal) = fin A ∧
        ∀ a, (S a → (logDensityWrtRoot d' (emb a) : XReal)
            = fin ((List.zipWith (· * ·) η (T a)).sum - A + b a)) ∧
          (¬ S a → (logDensityWrtRoot d' (emb a) : XReal) = ninf))
    (d : D) (η v : List ℝ) (h0 : Ω η) (hd : fromNatural (η.map fin) = .ok d) (hlen : v.length = η.length)
    (hT : ∀ a, S a → sufficientStatistic d (emb a) = (T a).map fin)
    (hmeas : Measurable fun a => (List.zipWith (· * ·) v (T a)).sum)
    (hopen : ∀ᶠ s in 𝓝 (0 : ℝ), Ω (along η v s)) :
    Cumulants μ emb d η v := by
  have hz : along η v 0 = η := by
    clear hT hmeas hopen H hd h0
    induction η generalizing v with
    | nil => simp [along]
    | cons a η ih =>
      cases v with
      | nil => simp at hlen
      | cons c v =>
        have := ih v (by simpa using hlen)
        simp only [along, List.zipWith_cons_cons, zero_mul, add_zero] at this ⊢
        rw [this]
  obtain ⟨d₀, k1, k2, A₀, k3, k4⟩ := H η h0
  obtain rfl : d₀ = d := by rw [hd] at k1; exact (Except.ok.inj k1).symm
  have hA0 : logPartitionAt D (along η v 0) = A₀ := by
    rw [hz]; simp only [logPartitionAt, hd, k3, toReal_fin]
  refine cumulants_of μ emb d₀ k2 η v (fun s => logPartitionAt D (along η v s))
    (fun a => (List.zipWith (· * ·) v (T a)).sum) hmeas ?_ ?_
  · intro a ha
    by_cases hS : S a
    · unfold statAlong
      rw [hT a hS, List.zipWith_map_right]
      simp only [toReal_fin]
    · rw [(k4 a).2 hS] at ha
      obtain ⟨_, h⟩ := ha
      cases h
  · filter_upwards [hopen] with s hs
    obtain ⟨d', j1, j2, A, j3, j4⟩ := H _ hs
    have hA : logPartitionAt D (along η v s) = A := by
      simp only [logPartitionAt, j1, j3, toReal_fin]
    refine ⟨d', j1, by rw [hA]; exact j3, j2.mass_one, fun a => ?_⟩
    by_cases hS : S a
    · refine Or.inr ⟨_, (k4 a).1 hS, ?_⟩
      rw [(j4 a).1 hS, sum_zipWith_along _ _ _ _ hlen, hA, hA0]
      congr 1; ring
    · exact Or.inl ⟨(k4 a).2 hS, (j4 a).2 hS⟩

theorem two_of_length {v : List ℝ} (h : v.length = 2) : ∃ a b, v = [a, b] := by
  match v, h with
  | [a, b], _ => exact ⟨a, b, rfl⟩

theorem one_of_length {v : List ℝ} (h : v.length = 1) : ∃ a, v = [a] := by
  match v, h with
  | [a], _ => exact ⟨a, rfl⟩

theorem eventually_pos {a v : ℝ} {c : ℝ} (h : c < a) : ∀ᶠ s in 𝓝 (0 : ℝ), c < a + s * v := by
  have : ContinuousAt (fun s : ℝ => a + s * v) 0 := by fun_prop
  exact this.eventually (lt_mem_nhds (by simpa using h))

theorem eventually_neg {a v : ℝ} (h : a < 0) : ∀ᶠ s in 𝓝 (0 : ℝ), a + s * v < 0 := by
  have : ContinuousAt (fun s : ℝ => a + s * v) 0 := by fun_prop
  exact this.eventually (gt_mem_nhds (by simpa using h))

theorem Normal.natural_form (a b : ℝ) (hb : b < 0) :
    ∃ d' : Normal XReal, fromNatural [fin a, fin b] = .ok d' ∧ RegularLaw volume fin d' ∧
      ∃ A : ℝ, (logPartition d' : XReal) = fin A ∧
        ∀ x : ℝ, (logDensityWrtRoot d' (fin x) : XReal) = fin (a * x + b * (x * x) - A) := by
  have h2b : (2:ℝ) * b ≠ 0 := by linarith
  have hv : 0 < -(1 / (2 * b)) := by
    rw [neg_pos]; exact div_neg_of_pos_of_neg one_pos (by linarith)
  have hs : 0 < Real.sqrt (-(1 / (2 * b))) := Real.sqrt_pos.mpr hv
  have hf : fromNatural [fin a, fin b]
      = .ok (⟨fin (a * -(1 / (2 * b))), fin (Real.sqrt (-(1 / (2 * b))))⟩ : Normal XReal) := by
    simp only [fromNatural, recip, f_ofRat, Rat.cast_ofNat, f_one, f_mul, f_div _ _ h2b, f_neg,
      f_sqrt _ hv.le]
    simp only [Normal.new, f_zero, f_gt, hs, decide_true, if_true]
  have hn : Normal.new (fin (a * -(1 / (2 * b)))) (fin (Real.sqrt (-(1 / (2 * b)))))
      = .ok (⟨fin (a * -(1 / (2 * b))), fin (Real.sqrt (-(1 / (2 * b))))⟩ : Normal XReal) := by
    simp only [Normal.new, f_zero, f_gt, hs, decide_true, if_true]
  have hp : 0 < 2 * Real.pi * (-(1 / (2 * b))) := by positivity
  refine ⟨_, hf, C122_regular.1 _ _ _ hn,
    Real.log (2 * Real.pi * (-(1 / (2 * b)))) * (1/2)
      + 1/2 * (a * -(1 / (2 * b)) * (a * -(1 / (2 * b)))) * (1 / (-(1 / (2 * b)))), ?_, fun x => ?_⟩
  · simp only [logPartition, naturalAndLogPartition, Normal.variance, f_mul, Real.mul_self_sqrt hv.le, recip,
      f_one, f_div _ _ hv.ne', f_ofRat, f_pi, Rat.cast_ofNat, f_ln _ hp, f_add]
    push_cast
    rfl
  · rw [Normal.ld hs]
    congr 1
    have e : Real.log (Real.sqrt (-(1 / (2 * b)))) = 1/2 * Real.log (-(1 / (2 * b))) := by
      rw [Real.log_sqrt hv.le]; ring
    have e2 : ∀ y : ℝ, 1/2 * (y / Real.sqrt (-(1 / (2 * b)))) * (y / Real.sqrt (-(1 / (2 * b))))
        = 1/2 * (y * y / (-(1 / (2 * b)))) := by
      intro y
      rw [mul_assoc, div_mul_div_comm, Real.mul_self_sqrt hv.le]
    rw [e, e2, Real.log_mul two_pi_pos'.ne' hv.ne']
    have hb' : b ≠ 0 := hb.ne
    field_simp
    ring

theorem Gamma.natural_form (a b : ℝ) (ha : -1 < a) (hb : b < 0) :
    ∃ d' : Gamma XReal, fromNatural [fin a, fin b] = .ok d' ∧ RegularLaw volume fin d' ∧
      ∃ A : ℝ, (logPartition d' : XReal) = fin A ∧
        ∀ x : ℝ, (0 < x → (logDensityWrtRoot d' (fin x) : XReal) = fin (a * Real.log x + b * x - A)) ∧
          (¬ 0 < x → (logDensityWrtRoot d' (fin x) : XReal) = ninf) := by
  have h1 : 0 < a + 1 := by linarith
  have h2 : 0 < -b := by linarith
  have hn : Gamma.new (fin (a + 1)) (fin (-b)) = .ok (⟨fin (a + 1), fin (-b)⟩ : Gamma XReal) := by
    simp [Gamma.new, hb, h1]
  refine ⟨⟨fin (a + 1), fin (-b)⟩, by simp [fromNatural, Gamma.new, hb, h1], C122_regular.2.2.1 _ _ _ hn,
    Real.log (Real.Gamma (a + 1)) - (a + 1) * Real.log (-b), ?_, fun x => ⟨fun hx => ?_, fun hx => ?_⟩⟩
  · simp only [logPartition, naturalAndLogPartition, f_lnGamma _ h1, f_ln _ h2, f_mul, f_sub]
  · rw [Gamma.ld_of_pos h1 h2 hx]
    congr 1; ring
  · exact Gamma.ld_of_nonpos (not_lt.mp hx)

theorem Beta.natural_form (a b : ℝ) (ha : -1 < a) (hb : -1 < b) :
    ∃ d' : Beta XReal, fromNatural [fin a, fin b] = .ok d' ∧ RegularLaw volume fin d' ∧
      ∃ A : ℝ, (logPartition d' : XReal) = fin A ∧
        ∀ x : ℝ, (0 < x ∧ x < 1 →
            (logDensityWrtRoot d' (fin x) : XReal) = fin (a * Real.log x + b * Real.log (1 - x) - A)) ∧
          (¬ (0 < x ∧ x < 1) → (logDensityWrtRoot d' (fin x) : XReal) = ninf) := by
  have h1 : 0 < a + 1 := by linarith
  have h2 : 0 < b + 1 := by linarith
  have hn : Beta.new (fin (a + 1)) (fin (b + 1)) = .ok (⟨fin (a + 1), fin (b + 1)⟩ : Beta XReal) := by
    simp [Beta.new, h1, h2]
  refine ⟨⟨fin (a + 1), fin (b + 1)⟩, by simp [fromNatural, Beta.new, h1, h2], C122_regular.2.2.2.1 _ _ _ hn,
    Real.log (Real.Gamma (a + 1)) + Real.log (Real.Gamma (b + 1)) - Real.log (Real.Gamma (a + 1 + (b + 1))),
    ?_, fun x => ⟨fun hx => ?_, fun hx => ?_⟩⟩
  · simp only [logPartition, naturalAndLogPartition, f_lnGamma _ h1, f_lnGamma _ h2, f_add,
      f_lnGamma _ (add_pos h1 h2), f_sub]
  · rw [Beta.ld_of_mem h1 h2 hx.1 hx.2]
    congr 1; ring
  · exact Beta.ld_of_not_mem hx

/-- **C123**, continuous families: for every accepted normal, gamma and beta distribution, with natural
parameter `η`, and every direction: the derivative of `from_natural(·).log_partition()` at `η` is the mean of
the sufficient statistic under the distribution, and the second derivative its variance; in particular the
log-partition is convex. -/
theorem C123_continuous :
    (∀ (μ σ : ℝ) (d : Normal XReal), Normal.new (fin μ) (fin σ) = .ok d →
      ∃ η : List ℝ, toNatural d = η.map fin ∧ ∀ v : List ℝ, v.length = 2 → Cumulants volume fin d η v) ∧
    (∀ (a b : ℝ) (d : Gamma XReal), Gamma.new (fin a) (fin b) = .ok d →
      ∃ η : List ℝ, toNatural d = η.map fin ∧ ∀ v : List ℝ, v.length = 2 → Cumulants volume fin d η v) ∧
    (∀ (a b : ℝ) (d : Beta XReal), Beta.new (fin a) (fin b) = .ok d →
      ∃ η : List ℝ, toNatural d = η.map fin ∧ ∀ v : List ℝ, v.length = 2 → Cumulants volume fin d η v) := by
  refine ⟨?_, ?_, ?_⟩
  · intro μ σ d h
    have hrt := C25_round_trip_partial.1 μ σ d h
    obtain ⟨hσ, rfl⟩ := Normal.new_ok h
    have hs : (0:ℝ) < σ * σ := mul_pos hσ hσ
    have hnat : toNatural (⟨fin μ, fin σ⟩ : Normal XReal) = [μ * (1 / (σ * σ)), -1/2 * (1 / (σ * σ))].map fin := by
      simp only [toNatural, naturalAndLogPartition, Normal.variance, recip, f_mul, f_one, f_div _ _ hs.ne',
        f_ofRat]
      push_cast
      rfl
    have hb : -1/2 * (1 / (σ * σ)) < 0 := by
      have : 0 < 1 / (σ * σ) := by positivity
      linarith
    refine ⟨_, hnat, fun v hv => ?_⟩
    obtain ⟨v1, v2, rfl⟩ := two_of_length hv
    refine cumulants_family volume fin (fun η => ∃ a b, η = [a, b] ∧ b < 0) (fun _ => True)
      (fun x => [x, x * x]) (fun _ => 0) ?_ _ _ _ ⟨_, _, rfl, hb⟩ (by rw [← hnat]; exact hrt) hv
      (fun x _ => rfl) ?_ ?_
    · rintro η ⟨a, b, rfl, hb⟩
      obtain ⟨d', k1, k2, A, k3, k4⟩ := Normal.natural_form a b hb
      refine ⟨d', k1, k2, A, k3, fun x => ⟨fun _ => ?_, fun hx => absurd trivial hx⟩⟩
      rw [k4]; simp
    · simp only [List.zipWith_cons_cons, List.zipWith_nil_right, List.sum_cons, List.sum_nil]
      fun_prop
    · filter_upwards [eventually_neg (v := v2) hb] with s hs
      exact ⟨_, _, rfl, hs⟩
  · intro a b d h
    have hrt := C25_round_trip_partial.2.2.1 a b d h
    obtain ⟨ha, hb, rfl⟩ := Gamma.new_ok h
    have hnat : toNatural (⟨fin a, fin b⟩ : Gamma XReal) = [a - 1, -b].map fin := by
      simp [toNatural, naturalAndLogPartition]
    have ha' : -1 < a - 1 := by linarith
    have hb' : -b < 0 := by linarith
    refine ⟨_, hnat, fun v hv => ?_⟩
    obtain ⟨v1, v2, rfl⟩ := two_of_length hv
    refine cumulants_family volume fin (fun η => ∃ a b, η = [a, b] ∧ -1 < a ∧ b < 0) (fun x => 0 < x)
      (fun x => [Real.log x, x]) (fun _ => 0) ?_ _ _ _ ⟨_, _, rfl, ha', hb'⟩ (by rw [← hnat]; exact hrt) hv
      (fun x hx => by simp [sufficientStatistic, f_ln _ hx]) ?_ ?_
    · rintro η ⟨a, b, rfl, ha, hb⟩
      obtain ⟨d', k1, k2, A, k3, k4⟩ := Gamma.natural_form a b ha hb
      refine ⟨d', k1, k2, A, k3, fun x => ⟨fun hx => ?_, (k4 x).2⟩⟩
      rw [(k4 x).1 hx]; simp
    · simp only [List.zipWith_cons_cons, List.zipWith_nil_right, List.sum_cons, List.sum_nil]
      fun_prop
    · filter_upwards [eventually_pos (v := v1) ha', eventually_neg (v := v2) hb'] with s hs1 hs2
      exact ⟨_, _, rfl, hs1, hs2⟩
  · intro a b d h
    have hrt := C25_round_trip_partial.2.2.2.1 a b d h
    obtain ⟨ha, hb, rfl⟩ := Beta.new_ok h
    have hnat : toNatural (⟨fin a, fin b⟩ : Beta XReal) = [a - 1, b - 1].map fin := by
      simp [toNatural, naturalAndLogPartition]
    have ha' : -1 < a - 1 := by linarith
    have hb' : -1 < b - 1 := by linarith
    refine ⟨_, hnat, fun v hv => ?_⟩
    obtain ⟨v1, v2, rfl⟩ := two_of_length hv
    refine cumulants_family volume fin (fun η => ∃ a b, η = [a, b] ∧ -1 < a ∧ -1 < b)
      (fun x => 0 < x ∧ x < 1)
      (fun x => [Real.log x, Real.log (1 - x)]) (fun _ => 0) ?_ _ _ _ ⟨_, _, rfl, ha', hb'⟩
      (by rw [← hnat]; exact hrt) hv
      (fun x hx => by simp [sufficientStatistic, f_ln _ hx.1, f_ln (1 - x) (by linarith [hx.2])]) ?_ ?_
    · rintro η ⟨a, b, rfl, ha, hb⟩
      obtain ⟨d', k1, k2, A, k3, k4⟩ := Beta.natural_form a b ha hb
      refine ⟨d', k1, k2, A, k3, fun x => ⟨fun hx => ?_, (k4 x).2⟩⟩
      rw [(k4 x).1 hx]; simp
    · simp only [List.zipWith_cons_cons, List.zipWith_nil_right, List.sum_cons, List.sum_nil]
      fun_prop
    · filter_upwards [eventually_pos (v := v1) ha', eventually_pos (v := v2) hb'] with s hs1 hs2
      exact ⟨_, _, rfl, hs1, hs2⟩

end Verif
