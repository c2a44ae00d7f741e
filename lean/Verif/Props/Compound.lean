import Verif.Spec.Compound
import Verif.Props.Bayes
import Verif.Props.Stability
import Verif.Props.Pushforward

/-!
# C138: two-stage draws
-/

namespace Verif
open FloatOps XReal Spec MeasureTheory

theorem compound_withDensity {P D Y X Θ : Type} [MeasurableSpace Θ] [HasLogDensity P Y XReal] [HasLogDensity D X XReal]
    {μ : MeasureTheory.Measure Θ} {emb : Θ → Y} {prior : P} (hm : MeasurableDensity emb prior)
    (hp : Proper emb prior) (model : Θ → D) (x : X) :
    ∫⁻ θ, ENNReal.ofReal (density (logDensityWrtRoot (model θ) x)) ∂(law μ emb prior)
      = ∫⁻ θ, ENNReal.ofReal (density (logDensityWrtRoot prior (emb θ)) * density (logDensityWrtRoot (model θ) x)) ∂μ := by
  unfold law
  rw [lintegral_withDensity_eq_lintegral_mul_non_measurable _ hm.ennreal_ofReal
    (Filter.Eventually.of_forall fun _ => ENNReal.ofReal_lt_top)]
  refine lintegral_congr fun θ => ?_
  rw [Pi.mul_apply, ENNReal.ofReal_mul (density_nonneg_of_proper (hp θ))]

theorem compound_evidence {P Q D X : Type} [HasLogDensity P XReal XReal] [HasLogDensity Q XReal XReal]
    [HasLogDensity D X XReal] {prior : P} {post : Q} {model : ℝ → D} {x : X} {Z : ℝ}
    (h : IsPosterior prior post (fun θ => logDensityWrtRoot (model θ) x) Z)
    (hp : RegularLaw volume fin prior) (hq : RegularLaw volume fin post) :
    ∫⁻ θ, ENNReal.ofReal (density (logDensityWrtRoot (model θ) x)) ∂(law volume fin prior) = ENNReal.ofReal Z := by
  rw [compound_withDensity hp.measurable hp.proper]
  have : ∀ θ : ℝ, ENNReal.ofReal (density (logDensityWrtRoot prior (fin θ)) * density (logDensityWrtRoot (model θ) x))
      = ENNReal.ofReal Z * ENNReal.ofReal (density (logDensityWrtRoot post (fin θ))) := by
    intro θ
    rw [h.bayes θ, ENNReal.ofReal_mul h.pos.le]
  rw [lintegral_congr this, lintegral_const_mul _ hq.measurable.ennreal_ofReal]
  have := hq.mass_one
  unfold mass at this
  rw [this, mul_one]

theorem compound_of_posterior {P Q D M X : Type} [HasLogDensity P XReal XReal] [HasLogDensity Q XReal XReal]
    [HasLogDensity D X XReal] [HasLogDensity M X XReal]
    {prior : P} {post : Q} {model : ℝ → D} {marg : M} {x : X} {Z : ℝ}
    (h : IsPosterior prior post (fun θ => logDensityWrtRoot (model θ) x) Z)
    (hp : RegularLaw volume fin prior) (hq : RegularLaw volume fin post)
    (hz : Z = density (logDensityWrtRoot marg x)) :
    AveragesTo volume fin prior model marg x := by
  unfold AveragesTo
  rw [compound_evidence h hp hq, hz]

theorem compound_gamma_ok {a b : ℝ} (ha : 0 < a) (hb : 0 < b) :
    Gamma.new (fin a) (fin b) = .ok (⟨fin a, fin b⟩ : Gamma XReal) := by simp [Gamma.new, ha, hb]

theorem compound_beta_ok {a b : ℝ} (ha : 0 < a) (hb : 0 < b) :
    Beta.new (fin a) (fin b) = .ok (⟨fin a, fin b⟩ : Beta XReal) := by simp [Beta.new, ha, hb]

theorem compound_normal_ok {m s : ℝ} (hs : 0 < s) :
    Normal.new (fin m) (fin s) = .ok (⟨fin m, fin s⟩ : Normal XReal) := by simp [Normal.new, hs]

/-- **C138**, counts with a random rate: a Poisson count whose rate is drawn from a Gamma distribution
with integer shape is negative binomial, and from an exponential distribution geometric (counted from
one). -/
theorem C138_poisson_gamma {model : ℝ → Poisson XReal} (hm : ∀ θ, 0 < θ → Poisson.new (fin θ) = .ok (model θ)) :
    (∀ (r : ℕ) (b : ℝ) (prior : Gamma XReal) (marg : NegativeBinomial XReal),
      Gamma.new (fin r) (fin b) = .ok prior → NegativeBinomial.new r (fin (b / (b + 1))) = .ok marg →
      ∀ k : ℕ, AveragesTo volume fin prior model marg.withBase k) ∧
    (∀ (b : ℝ) (prior : Exponential XReal) (marg : Geometric XReal),
      Exponential.new (fin b) = .ok prior → Geometric.new (fin (b / (b + 1))) = .ok marg →
      ∀ k : ℕ, ∫⁻ θ, ENNReal.ofReal (density (logDensityWrtRoot (model θ) k)) ∂(law volume fin prior)
        = ENNReal.ofReal (density (logDensityWrtRoot marg (k + 1)))) := by
  have upd : ∀ (a b : ℝ) (prior : Gamma XReal) (k : ℕ), Gamma.new (fin a) (fin b) = .ok prior →
      ∃ post : Gamma XReal, RegularLaw volume fin post ∧
      IsPosterior prior post (fun θ => logDensityWrtRoot (model θ) k)
        (1 / k.factorial * gammaConst a b / gammaConst (a + k) (b + 1)) := by
    intro a b prior k h
    obtain ⟨ha, hb, rfl⟩ := Gamma.new_ok h
    have hk : (0 : ℝ) < k.factorial := by exact_mod_cast k.factorial_pos
    have h' : Gamma.new (fin (a + k)) (fin (b + 1)) = .ok (⟨fin (a + k), fin (b + 1)⟩ : Gamma XReal) := by
      have : 0 < a + k := by positivity
      have : 0 < b + 1 := by positivity
      simp [Gamma.new, *]
    refine ⟨_, C122_regular.2.2.1 _ _ _ h', gamma_update (by positivity) h h' fun θ hθ => ?_⟩
    obtain ⟨-, e⟩ := Poisson.new_ok (hm θ hθ)
    rw [e, Poisson.ld hθ, one_div, Real.log_inv]
    congr 1; ring
  constructor
  · intro r b prior marg h hmarg k
    obtain ⟨post, hq, hpost⟩ := upd r b prior k h
    refine compound_of_posterior hpost (C122_regular.2.2.1 _ _ _ h) hq ?_
    obtain ⟨-, hb, -⟩ := Gamma.new_ok h
    obtain ⟨hr, ⟨h0, h1⟩, rfl⟩ := NegativeBinomial.new_ok hmarg
    have := NegativeBinomial.withBase_density hr h0 h1 k
    rw [id] at this
    rw [this]
    obtain ⟨s, rfl⟩ : ∃ s, r = s + 1 := ⟨r - 1, by omega⟩
    have e1 : Real.Gamma ((s + 1 : ℕ) : ℝ) = s.factorial := by
      rw [Nat.cast_add_one, Real.Gamma_nat_eq_factorial]
    have e2 : Real.Gamma (((s + 1 : ℕ) : ℝ) + k) = (k + s).factorial := by
      rw [show ((s + 1 : ℕ) : ℝ) + k = ((k + s : ℕ) : ℝ) + 1 by push_cast; ring, Real.Gamma_nat_eq_factorial]
    have e3 : k + (s + 1) - 1 = k + s := by omega
    have e4 : (1 - b / (b + 1)) = 1 / (b + 1) := by field_simp; ring
    have hk : (0 : ℝ) < k.factorial := by exact_mod_cast k.factorial_pos
    have hs : (0 : ℝ) < s.factorial := by exact_mod_cast s.factorial_pos
    have hks : (0 : ℝ) < (k + s).factorial := by exact_mod_cast (k + s).factorial_pos
    have e5 : ((k + s).choose k : ℝ) = (k + s).factorial / (k.factorial * s.factorial) := Nat.cast_add_choose ℝ
    unfold gammaConst
    rw [e1, e2, e3, e4, e5, ← Nat.cast_add, Real.rpow_natCast, Real.rpow_natCast, div_pow, div_pow, one_pow, pow_add]
    have hb1 : 0 < b + 1 := by positivity
    field_simp
    ring
  · intro b prior marg h hmarg k
    obtain ⟨hb, rfl⟩ := Exponential.new_ok h
    have hg : Gamma.new (fin 1) (fin b) = .ok (⟨fin 1, fin b⟩ : Gamma XReal) := by simp [Gamma.new, hb]
    have elaw : law volume fin (⟨fin b⟩ : Exponential XReal) = law volume fin (⟨fin 1, fin b⟩ : Gamma XReal) := by
      unfold law
      refine withDensity_congr_ae ?_
      have : ∀ᵐ x : ℝ, x ≠ 0 := by simp [ae_iff]
      filter_upwards [this] with x hx
      rcases lt_or_gt_of_ne hx with hx | hx
      · rw [Exponential.ld_of_neg hx, Gamma.ld_of_nonpos hx.le]
      · rw [Exponential.ld_of_nonneg hb hx.le, Gamma.ld_of_pos one_pos hb hx]
        simp
    rw [elaw]
    obtain ⟨post, hq, hpost⟩ := upd 1 b _ k hg
    obtain ⟨⟨h0, -⟩, rfl⟩ := Geometric.new_ok hmarg
    have hb1 : 0 < b + 1 := by positivity
    have h1 : b / (b + 1) < 1 := by rw [div_lt_one hb1]; linarith
    have hmg := (C17_geometric_pmf_partial hmarg h1.ne).1 (k + 1) (by omega)
    rw [compound_evidence hpost (C122_regular.2.2.1 _ _ _ hg) hq, hmg]
    have e2 : Real.Gamma (1 + (k : ℝ)) = k.factorial := by rw [add_comm, Real.Gamma_nat_eq_factorial]
    have e4 : (1 - b / (b + 1)) = 1 / (b + 1) := by field_simp; ring
    have hk : (0 : ℝ) < k.factorial := by exact_mod_cast k.factorial_pos
    congr 1
    unfold gammaConst
    rw [e2, e4, Real.rpow_one, Real.Gamma_one, add_comm (1 : ℝ) k, ← Nat.cast_add_one, Real.rpow_natCast,
      Nat.add_sub_cancel, div_pow, one_pow, pow_succ]
    field_simp

/-- **C138**, a normal variable with random precision: if the precision (one over the variance) is drawn
from Gamma(nu/2, nu/2), or from chi-squared with nu degrees of freedom and divided by nu, the variable has
Student's t distribution with nu degrees of freedom. -/
theorem C138_student_t {ν : ℝ} {marg : StudentT XReal} (hmarg : StudentT.new (fin ν) = .ok marg) :
    (∀ (prior : Gamma XReal) (model : ℝ → Normal XReal), Gamma.new (fin (ν / 2)) (fin (ν / 2)) = .ok prior →
      (∀ τ, 0 < τ → Normal.new (fin 0) (fin (1 / √τ)) = .ok (model τ)) →
      ∀ x : ℝ, AveragesTo volume fin prior model marg (fin x)) ∧
    (∀ (prior : ChiSquared XReal) (model : ℝ → Normal XReal), ChiSquared.new (fin ν) = .ok prior →
      (∀ v, 0 < v → Normal.new (fin 0) (fin √(ν / v)) = .ok (model v)) →
      ∀ x : ℝ, AveragesTo volume fin prior model marg (fin x)) := by
  obtain ⟨hν, rfl⟩ := StudentT.new_ok hmarg
  have h2 : 0 < ν / 2 := by positivity
  have hpi : (0 : ℝ) < 2 * Real.pi := by positivity
  constructor
  · intro prior model h hm x
    have hs : 0 < ν / 2 + 1 / 2 := by positivity
    have ht : 0 < ν / 2 + x ^ 2 / 2 := by positivity
    have h' : Gamma.new (fin (ν / 2 + 1 / 2)) (fin (ν / 2 + x ^ 2 / 2))
        = .ok (⟨fin (ν / 2 + 1 / 2), fin (ν / 2 + x ^ 2 / 2)⟩ : Gamma XReal) := compound_gamma_ok hs ht
    have hpost := gamma_update (c := 1 / √(2 * Real.pi)) (by positivity) h h'
      (lik := fun τ => logDensityWrtRoot (model τ) (fin x)) fun τ hτ => by
        obtain ⟨hσ, e⟩ := Normal.new_ok (hm τ hτ)
        have hq : 0 < √τ := Real.sqrt_pos.mpr hτ
        rw [e, Normal.ld hσ, one_div (√τ), Real.log_inv, one_div (√(2 * Real.pi)), Real.log_inv, Real.log_sqrt hτ.le, Real.log_sqrt hpi.le]
        congr 1
        have : (x - 0) / (√τ)⁻¹ * ((x - 0) / (√τ)⁻¹) = x ^ 2 * τ := by
          rw [sub_zero, div_inv_eq_mul, mul_mul_mul_comm, Real.mul_self_sqrt hτ.le]; ring
        linear_combination (-1 / 2 : ℝ) * this
    refine compound_of_posterior hpost (C122_regular.2.2.1 _ _ _ h) (C122_regular.2.2.1 _ _ _ h') ?_
    rw [StudentT.ld hν, density_fin]
    have hG := Real.Gamma_pos_of_pos h2
    have hG' := Real.Gamma_pos_of_pos hs
    have h1 : 0 < 1 + x * x / ν := by
      have := div_nonneg (mul_self_nonneg x) hν.le
      linarith
    have hc : 0 < gammaConst (ν / 2) (ν / 2) := gammaConst_pos h2 h2
    have hc' : 0 < gammaConst (ν / 2 + 1 / 2) (ν / 2 + x ^ 2 / 2) := gammaConst_pos hs ht
    rw [← Real.exp_log (show 0 < 1 / √(2 * Real.pi) * gammaConst (ν / 2) (ν / 2)
      / gammaConst (ν / 2 + 1 / 2) (ν / 2 + x ^ 2 / 2) by positivity)]
    congr 1
    rw [Real.log_div (by positivity) hc'.ne', Real.log_mul (by positivity) hc.ne']
    unfold gammaConst
    rw [Real.log_div (by positivity) hG.ne', Real.log_div (by positivity) hG'.ne', Real.log_rpow h2, Real.log_rpow ht,
      one_div, Real.log_inv, Real.log_sqrt hpi.le]
    have e1 : ν / 2 + x ^ 2 / 2 = ν / 2 * (1 + x * x / ν) := by field_simp
    have e2 : 2 * Real.pi * (ν / 2) = ν * Real.pi := by ring
    have e3 : (ν + 1) / 2 = ν / 2 + 1 / 2 := by ring
    rw [e1, Real.log_mul h2.ne' h1.ne', ← e2, Real.log_mul hpi.ne' h2.ne', e3]
    ring
  · intro prior model h hm x
    obtain ⟨-, rfl⟩ := ChiSquared.new_ok h
    have hhalf : (0 : ℝ) < 1 / 2 := by norm_num
    have hg : Gamma.new (fin (ν / 2)) (fin (1 / 2)) = .ok (⟨fin (ν / 2), fin (1 / 2)⟩ : Gamma XReal) := compound_gamma_ok h2 hhalf
    have elaw : law volume fin (⟨fin ν⟩ : ChiSquared XReal) = law volume fin (⟨fin (ν / 2), fin (1 / 2)⟩ : Gamma XReal) := by
      unfold law
      congr 1
      funext v
      rcases le_or_gt v 0 with hv | hv
      · rw [ChiSquared.ld_of_nonpos hv, Gamma.ld_of_nonpos hv]
      · rw [ChiSquared.ld_of_pos hν hv, Gamma.ld_of_pos h2 hhalf hv, one_div, Real.log_inv]
        congr 3
        ring
    unfold AveragesTo
    rw [elaw]
    have hs : 0 < ν / 2 + 1 / 2 := by positivity
    have ht : 0 < 1 / 2 + x ^ 2 / (2 * ν) := by positivity
    have h' : Gamma.new (fin (ν / 2 + 1 / 2)) (fin (1 / 2 + x ^ 2 / (2 * ν)))
        = .ok (⟨fin (ν / 2 + 1 / 2), fin (1 / 2 + x ^ 2 / (2 * ν))⟩ : Gamma XReal) := compound_gamma_ok hs ht
    have hc0 : 0 < 1 / √(2 * Real.pi * ν) := by positivity
    have hpost := gamma_update (c := 1 / √(2 * Real.pi * ν)) hc0 hg h'
      (lik := fun τ => logDensityWrtRoot (model τ) (fin x)) fun v hv => by
        obtain ⟨hσ, e⟩ := Normal.new_ok (hm v hv)
        have hd : 0 < ν / v := div_pos hν hv
        rw [e, Normal.ld hσ, one_div (√(2 * Real.pi * ν)), Real.log_inv, Real.log_sqrt hd.le, Real.log_sqrt (by positivity),
          Real.log_mul hpi.ne' hν.ne', Real.log_div hν.ne' hv.ne']
        congr 1
        have : (x - 0) / √(ν / v) * ((x - 0) / √(ν / v)) = x ^ 2 / ν * v := by
          rw [sub_zero, div_mul_div_comm, Real.mul_self_sqrt hd.le]; field_simp
        have e3 : x ^ 2 / (2 * ν) * -v = -(1 / 2) * (x ^ 2 / ν * v) := by field_simp
        rw [e3, ← this]
        ring
    rw [compound_evidence hpost (C122_regular.2.2.1 _ _ _ hg) (C122_regular.2.2.1 _ _ _ h'), StudentT.ld hν, density_fin]
    congr 1
    have hG := Real.Gamma_pos_of_pos h2
    have hG' := Real.Gamma_pos_of_pos hs
    have h1 : 0 < 1 + x * x / ν := by
      have := div_nonneg (mul_self_nonneg x) hν.le
      linarith
    have hc : 0 < gammaConst (ν / 2) (1 / 2) := gammaConst_pos h2 hhalf
    have hc' : 0 < gammaConst (ν / 2 + 1 / 2) (1 / 2 + x ^ 2 / (2 * ν)) := gammaConst_pos hs ht
    rw [← Real.exp_log (show 0 < 1 / √(2 * Real.pi * ν) * gammaConst (ν / 2) (1 / 2)
      / gammaConst (ν / 2 + 1 / 2) (1 / 2 + x ^ 2 / (2 * ν)) by positivity)]
    congr 1
    rw [Real.log_div (by positivity) hc'.ne', Real.log_mul (by positivity) hc.ne']
    unfold gammaConst
    rw [Real.log_div (by positivity) hG.ne', Real.log_div (by positivity) hG'.ne', Real.log_rpow hhalf, Real.log_rpow ht,
      one_div (√(2 * Real.pi * ν)), Real.log_inv, Real.log_sqrt (by positivity)]
    have e1 : 1 / 2 + x ^ 2 / (2 * ν) = 1 / 2 * (1 + x * x / ν) := by field_simp
    have e2 : 2 * Real.pi * ν = (ν * Real.pi) * 2 := by ring
    have e3 : (ν + 1) / 2 = ν / 2 + 1 / 2 := by ring
    have e4 : Real.log (1 / 2) = - Real.log 2 := by rw [one_div, Real.log_inv]
    rw [e1, Real.log_mul hhalf.ne' h1.ne', e2, Real.log_mul (by positivity) two_ne_zero, e3, e4]
    ring

/-- **C138**, a normal variable with a normal mean is normal, the variances adding; a Bernoulli variable
whose probability is drawn from a Beta distribution is Bernoulli with the mean probability. -/
theorem C138_normal_bernoulli :
    (∀ (m s t : ℝ) (prior marg : Normal XReal) (model : ℝ → Normal XReal),
      Normal.new (fin m) (fin s) = .ok prior → (∀ θ, Normal.new (fin θ) (fin t) = .ok (model θ)) →
      Normal.new (fin m) (fin √(s ^ 2 + t ^ 2)) = .ok marg →
      ∀ x : ℝ, AveragesTo volume fin prior model marg (fin x)) ∧
    (∀ (a b : ℝ) (prior : Beta XReal) (marg : Bernoulli XReal) (model : ℝ → Bernoulli XReal),
      Beta.new (fin a) (fin b) = .ok prior → (∀ θ, 0 < θ → θ < 1 → Bernoulli.new (fin θ) = .ok (model θ)) →
      Bernoulli.new (fin (a / (a + b))) = .ok marg →
      ∀ x : UInt8, x = 0 ∨ x = 1 → AveragesTo volume fin prior model marg x) := by
  constructor
  · intro m s t prior marg model h hm hmarg x
    have hs : 0 < s := (Normal.new_ok h).1
    have ht : 0 < t := (Normal.new_ok (hm 0)).1
    have hst : 0 < s ^ 2 + t ^ 2 := by positivity
    have hv : 0 < s ^ 2 - s ^ 2 / (s ^ 2 + t ^ 2) * s ^ 2 := by
      have : s ^ 2 - s ^ 2 / (s ^ 2 + t ^ 2) * s ^ 2 = s ^ 2 * t ^ 2 / (s ^ 2 + t ^ 2) := by field_simp; ring
      rw [this]; positivity
    have h' : Normal.new (fin ([x].foldl (Belief.update (t ^ 2)) ⟨m, s ^ 2⟩).mean)
        (fin √([x].foldl (Belief.update (t ^ 2)) ⟨m, s ^ 2⟩).var)
        = .ok (⟨fin ([x].foldl (Belief.update (t ^ 2)) ⟨m, s ^ 2⟩).mean,
          fin √([x].foldl (Belief.update (t ^ 2)) ⟨m, s ^ 2⟩).var⟩ : Normal XReal) := compound_normal_ok (Real.sqrt_pos.mpr hv)
    have hpost := (C131_normal_normal h h' hm).1
    have e : ∀ θ, (IID.ofDist (model θ)).iidLogDensityFallback ([x].map fin) = (logDensityWrtRoot (model θ) (fin x) : XReal) := by
      intro θ
      obtain ⟨-, e⟩ := Normal.new_ok (hm θ)
      show (fin 0 +. logDensityWrtRoot (model θ) (fin x) : XReal) = _
      rw [e, Normal.ld ht, f_add, zero_add]
    rw [funext e] at hpost
    refine compound_of_posterior hpost (C122_regular.1 _ _ _ h) (C122_regular.1 _ _ _ h') ?_
    rw [(C09_normal_density hmarg).1 x, Real.sq_sqrt hst.le]
    simp [Belief.evidence]
  · intro a b prior marg model h hm hmarg x hx
    obtain ⟨ha, hb, -⟩ := Beta.new_ok h
    have hab : 0 < a + b := by positivity
    have hB := betaFun_pos ha hb
    have hr := C122_regular.2.2.2.1 _ _ _ h
    rcases hx with rfl | rfl
    · have h' : Beta.new (fin (a + 0)) (fin (b + 1)) = .ok (⟨fin (a + 0), fin (b + 1)⟩ : Beta XReal) := compound_beta_ok (by linarith) (by linarith)
      have hpost := beta_update (c := 1) one_pos h h' (lik := fun θ => logDensityWrtRoot (model θ) (0 : UInt8))
        fun θ h0 h1 => by
          obtain ⟨-, e⟩ := Bernoulli.new_ok (hm θ h0 h1)
          rw [e]
          simp [logDensityWrtRoot, f_ln (1 - θ) (by linarith)]
      refine compound_of_posterior hpost hr (C122_regular.2.2.2.1 _ _ _ h') ?_
      rw [(C16_bernoulli_pmf hmarg).1 0, if_neg (by decide), if_pos rfl]
      unfold betaFun
      have hGa := Real.Gamma_pos_of_pos ha
      have hGb := Real.Gamma_pos_of_pos hb
      have hGab := Real.Gamma_pos_of_pos hab
      rw [add_zero, ← add_assoc, Real.Gamma_add_one hb.ne', Real.Gamma_add_one hab.ne']
      field_simp
      ring
    · have h' : Beta.new (fin (a + 1)) (fin (b + 0)) = .ok (⟨fin (a + 1), fin (b + 0)⟩ : Beta XReal) := compound_beta_ok (by linarith) (by linarith)
      have hpost := beta_update (c := 1) one_pos h h' (lik := fun θ => logDensityWrtRoot (model θ) (1 : UInt8))
        fun θ h0 h1 => by
          obtain ⟨-, e⟩ := Bernoulli.new_ok (hm θ h0 h1)
          rw [e]
          simp [logDensityWrtRoot, f_ln θ h0]
      refine compound_of_posterior hpost hr (C122_regular.2.2.2.1 _ _ _ h') ?_
      rw [(C16_bernoulli_pmf hmarg).1 1, if_pos rfl]
      unfold betaFun
      have hGa := Real.Gamma_pos_of_pos ha
      have hGb := Real.Gamma_pos_of_pos hb
      have hGab := Real.Gamma_pos_of_pos hab
      rw [add_zero, add_right_comm, Real.Gamma_add_one ha.ne', Real.Gamma_add_one hab.ne']
      field_simp

theorem compound_tsum_shift (f : ℕ → ENNReal) (k : ℕ) (h : ∀ n < k, f n = 0) : ∑' n, f n = ∑' j, f (j + k) := by
  have := (ENNReal.summable (f := fun n => f (n + k))).sum_add_tsum_nat_add'
  rw [← this, Finset.sum_eq_zero (fun n hn => h n (Finset.mem_range.mp hn)), zero_add]

/-- **C138**, splitting a Poisson count: two independent Poisson counts given their sum are binomial, so
keeping each of a Poisson number of items with probability `p` leaves a Poisson number of items. -/
theorem C138_poisson_split :
    (∀ (r s : ℝ) (d e f : Poisson XReal) (g : ℕ → Binomial XReal),
      Poisson.new (fin r) = .ok d → Poisson.new (fin s) = .ok e → Poisson.new (fin (r + s)) = .ok f →
      (∀ n, Binomial.new n (fin (r / (r + s))) = .ok (g n)) → ∀ k j : ℕ,
      density (logDensityWrtRoot d k) * density (logDensityWrtRoot e j)
        = density (logDensityWrtRoot f (k + j)) * density (logDensityWrtRoot (g (k + j)).withBase k)) ∧
    (∀ (r p : ℝ) (prior marg : Poisson XReal) (model : ℕ → Binomial XReal), 0 < p → p < 1 →
      Poisson.new (fin r) = .ok prior → (∀ n, Binomial.new n (fin p) = .ok (model n)) →
      Poisson.new (fin (p * r)) = .ok marg →
      ∀ k : ℕ, AveragesTo Measure.count id prior (fun n => (model n).withBase) marg k) := by
  have split : ∀ (r s : ℝ) (d e f : Poisson XReal) (g : ℕ → Binomial XReal),
      Poisson.new (fin r) = .ok d → Poisson.new (fin s) = .ok e → Poisson.new (fin (r + s)) = .ok f →
      (∀ n, Binomial.new n (fin (r / (r + s))) = .ok (g n)) → ∀ k j : ℕ,
      density (logDensityWrtRoot d k) * density (logDensityWrtRoot e j)
        = density (logDensityWrtRoot f (k + j)) * density (logDensityWrtRoot (g (k + j)).withBase k) := by
    intro r s d e f g hd he hf hg k j
    rw [(C18_poisson_pmf hd).1, (C18_poisson_pmf he).1, (C18_poisson_pmf hf).1]
    obtain ⟨hr, -⟩ := Poisson.new_ok hd
    obtain ⟨hs, -⟩ := Poisson.new_ok he
    have hrs : 0 < r + s := by positivity
    have h0 : 0 < r / (r + s) := by positivity
    have h1 : r / (r + s) < 1 := by rw [div_lt_one hrs]; linarith
    obtain ⟨-, e⟩ := Binomial.new_ok (hg (k + j))
    have := Binomial.withBase_density (n := k + j) h0 h1 k
    rw [id, if_pos (Nat.le_add_right k j), Nat.cast_add_choose ℝ, Nat.add_sub_cancel_left] at this
    rw [e, this]
    have hk : (0 : ℝ) < k.factorial := by exact_mod_cast k.factorial_pos
    have hj : (0 : ℝ) < j.factorial := by exact_mod_cast j.factorial_pos
    have hkj : (0 : ℝ) < (k + j).factorial := by exact_mod_cast (k + j).factorial_pos
    have e4 : (1 - r / (r + s)) = s / (r + s) := by field_simp; ring
    rw [e4, div_pow, div_pow, neg_add, Real.exp_add, pow_add]
    field_simp
  refine ⟨split, ?_⟩
  intro r p prior marg model h0 h1 h hm hmarg k
  obtain ⟨hr, -⟩ := Poisson.new_ok h
  have hq : 0 < (1 - p) * r := mul_pos (by linarith) hr
  have hrest : Poisson.new (fin ((1 - p) * r)) = .ok (⟨fin ((1 - p) * r)⟩ : Poisson XReal) := by
    simp only [Poisson.new]; simp [-sub_pos, hq]
  have hreg := C122_regular.2.2.2.2.2.2.2.2 _ _ h
  unfold AveragesTo
  rw [compound_withDensity hreg.measurable hreg.proper, lintegral_count]
  have hsum : p * r + (1 - p) * r = r := by ring
  have hp : p * r / (p * r + (1 - p) * r) = p := by rw [hsum]; field_simp
  have key := split (p * r) ((1 - p) * r) marg _ prior model hmarg hrest (by rw [hsum]; exact h)
    (by rw [hp]; exact hm) k
  have hzero : ∀ n < k, ENNReal.ofReal (density (logDensityWrtRoot prior (id n)) * density (logDensityWrtRoot (model n).withBase k)) = 0 := by
    intro n hn
    obtain ⟨-, e⟩ := Binomial.new_ok (hm n)
    rw [e, (Binomial.withBase_ld h0 h1 k).2 hn]
    simp
  have hnn : 0 ≤ density (logDensityWrtRoot marg k : XReal) := by
    rw [(C18_poisson_pmf hmarg).1 k]
    have := (Poisson.new_ok hmarg).1
    positivity
  rw [compound_tsum_shift _ k hzero]
  have hterm : ∀ j : ℕ, ENNReal.ofReal (density (logDensityWrtRoot prior (id (j + k)))
      * density (logDensityWrtRoot (model (j + k)).withBase k))
      = ENNReal.ofReal (density (logDensityWrtRoot marg k))
        * ENNReal.ofReal (density (logDensityWrtRoot (⟨fin ((1 - p) * r)⟩ : Poisson XReal) j)) := by
    intro j
    rw [id, add_comm j k, ← key j, ENNReal.ofReal_mul hnn]
  rw [tsum_congr hterm, ENNReal.tsum_mul_left]
  have hone := (C18_poisson_pmf hrest).2
  rw [← ENNReal.ofReal_tsum_of_nonneg (fun j => ?_) hone.summable, hone.tsum_eq, ENNReal.ofReal_one, mul_one]
  rw [(C18_poisson_pmf hrest).1 j]
  positivity

/-- **C138**, waiting through a geometric number of exponential waiting times is exponential. -/
theorem C138_geometric_sum {p r : ℝ} (hp1 : p ≠ 1) {prior : Geometric XReal} {marg : Exponential XReal}
    {model : ℕ → Gamma XReal} (h : Geometric.new (fin p) = .ok prior)
    (hm : ∀ k : ℕ, 1 ≤ k → Gamma.new (fin k) (fin r) = .ok (model k)) (hmarg : Exponential.new (fin (p * r)) = .ok marg) :
    ∀ x : ℝ, 0 < x → AveragesTo Measure.count id prior model marg (fin x) := by
  intro x hx
  obtain ⟨⟨h0, h1⟩, -⟩ := Geometric.new_ok h
  have hp : p < 1 := lt_of_le_of_ne h1 hp1
  have hr : 0 < r := (Gamma.new_ok (hm 1 le_rfl)).2.1
  have hreg := C122_regular.2.2.2.2.2.2.2.1 _ _ h hp1
  obtain ⟨hpmf, hz, -⟩ := C17_geometric_pmf_partial h hp1
  unfold AveragesTo
  rw [compound_withDensity hreg.measurable hreg.proper, lintegral_count, compound_tsum_shift _ 1 fun n hn => by
    rw [show n = 0 by omega, id, hz, show density ninf = 0 from rfl, zero_mul, ENNReal.ofReal_zero]]
  have hterm : ∀ j : ℕ, density (logDensityWrtRoot prior (j + 1)) * density (logDensityWrtRoot (model (j + 1)) (fin x))
      = p * r * Real.exp (-(r * x)) * (((1 - p) * r * x) ^ j / j.factorial) := by
    intro j
    obtain ⟨hj, -, e⟩ := Gamma.new_ok (hm (j + 1) (by omega))
    rw [hpmf (j + 1) (by omega), e, Gamma.ld_of_pos hj hr hx, density_fin, Nat.add_sub_cancel]
    have hG : Real.Gamma ((j + 1 : ℕ) : ℝ) = j.factorial := by rw [Nat.cast_add_one, Real.Gamma_nat_eq_factorial]
    have hjf : (0 : ℝ) < j.factorial := by exact_mod_cast j.factorial_pos
    rw [hG, sub_eq_add_neg _ (r * x), Real.exp_add, Real.exp_add, Real.exp_sub, Real.exp_log hjf,
      ← Real.log_pow, Real.exp_log (by positivity),
      show (((j + 1 : ℕ) : ℝ) - 1) * Real.log x = (j : ℝ) * Real.log x by push_cast; ring, ← Real.log_pow,
      Real.exp_log (by positivity), mul_pow, mul_pow, pow_succ r]
    ring
  have hnn : 0 ≤ (1 - p) * r * x := by
    have : 0 < 1 - p := by linarith
    positivity
  have hexp : HasSum (fun j : ℕ => p * r * Real.exp (-(r * x)) * (((1 - p) * r * x) ^ j / j.factorial))
      (p * r * Real.exp (-(r * x)) * Real.exp ((1 - p) * r * x)) := by
    rw [Real.exp_eq_exp_ℝ]
    exact (NormedSpace.expSeries_div_hasSum_exp ((1 - p) * r * x)).mul_left _
  simp only [id]
  rw [tsum_congr fun j => congrArg ENNReal.ofReal (hterm j)]
  rw [← ENNReal.ofReal_tsum_of_nonneg (fun j => by positivity) hexp.summable, hexp.tsum_eq]
  obtain ⟨hpr, rfl⟩ := Exponential.new_ok hmarg
  rw [Exponential.ld_of_nonneg hpr hx.le, density_fin, sub_eq_add_neg (Real.log _), Real.exp_add, Real.exp_log hpr,
    mul_assoc (p * r), ← Real.exp_add]
  congr 3
  ring

/-- **C138**, a Beta fraction of a Gamma amount: if the total is drawn from Gamma(a+b, r) and a fraction of it
drawn from Beta(a, b) is taken (the pushforward of the Beta distribution by multiplication with the total), the
part taken has the distribution Gamma(a, r). -/
theorem C138_beta_fraction {a b r : ℝ} {prior marg : Gamma XReal} {frac : Beta XReal}
    (h : Gamma.new (fin (a + b)) (fin r) = .ok prior) (hf : Beta.new (fin a) (fin b) = .ok frac)
    (hmarg : Gamma.new (fin a) (fin r) = .ok marg) :
    ∀ x : ℝ, 0 < x →
      AveragesTo volume fin prior (fun s => pushforward frac (Transform.linearT (fin s) (fin 0))) marg (fin x) := by
  intro x hx
  obtain ⟨ha, hb, rfl⟩ := Beta.new_ok hf
  obtain ⟨hab, hr, rfl⟩ := Gamma.new_ok h
  obtain ⟨-, -, rfl⟩ := Gamma.new_ok hmarg
  have hreg := C122_regular.2.2.1 _ _ _ h
  have hrest := C122_regular.2.2.1 _ _ _ (compound_gamma_ok hb hr)
  unfold AveragesTo
  rw [compound_withDensity hreg.measurable hreg.proper]
  have hterm : ∀ s : ℝ, ENNReal.ofReal (density (logDensityWrtRoot (⟨fin (a + b), fin r⟩ : Gamma XReal) (fin s))
      * density (logDensityWrtRoot (pushforward (⟨fin a, fin b⟩ : Beta XReal) (Transform.linearT (fin s) (fin 0))) (fin x)))
      = ENNReal.ofReal (density (logDensityWrtRoot (⟨fin a, fin r⟩ : Gamma XReal) (fin x)))
        * ENNReal.ofReal (density (logDensityWrtRoot (⟨fin b, fin r⟩ : Gamma XReal) (fin (s - x)))) := by
    intro s
    rw [← ENNReal.ofReal_mul (density_nonneg_of_proper (C122_regular.2.2.1 _ _ _ hmarg |>.proper x))]
    congr 1
    rcases le_or_gt s 0 with hs | hs
    · rw [Gamma.ld_of_nonpos hs, Gamma.ld_of_nonpos (x := s - x) (by linarith)]
      simp
    have e : (logDensityWrtRoot (pushforward (⟨fin a, fin b⟩ : Beta XReal) (Transform.linearT (fin s) (fin 0))) (fin x) : XReal)
        = logDensityWrtRoot (⟨fin a, fin b⟩ : Beta XReal) (fin (x / s)) +. fin (-Real.log s) := by
      show logDensityWrtRoot (⟨fin a, fin b⟩ : Beta XReal) ((fin x -. fin 0) /. fin s)
        +. FloatOps.neg (FloatOps.ln (FloatOps.abs (fin s))) = _
      rw [f_sub, f_div _ _ hs.ne', f_abs, abs_of_pos hs, f_ln _ hs, f_neg, sub_zero]
    rw [e]
    have hxs : 0 < x / s := by positivity
    rcases le_or_gt s x with hsx | hsx
    · rw [Beta.ld_of_not_mem (fun h => absurd h.2 (not_lt.mpr ((one_le_div hs).mpr hsx))),
        Gamma.ld_of_nonpos (x := s - x) (by linarith)]
      have : (ninf +. fin (-Real.log s) : XReal) = ninf := rfl
      simp [this]
    · have h1 : x / s < 1 := (div_lt_one hs).mpr hsx
      have hd : 0 < s - x := by linarith
      rw [Beta.ld_of_mem ha hb hxs h1, Gamma.ld_of_pos hab hr hs, Gamma.ld_of_pos ha hr hx, Gamma.ld_of_pos hb hr hd,
        f_add, density_fin, density_fin, density_fin, density_fin, ← Real.exp_add, ← Real.exp_add]
      congr 1
      have e1 : 1 - x / s = (s - x) / s := by field_simp
      rw [e1, Real.log_div hx.ne' hs.ne', Real.log_div hd.ne' hs.ne']
      ring
  rw [lintegral_congr hterm, lintegral_const_mul]
  · rw [lintegral_sub_right_eq_self
      (fun s : ℝ => ENNReal.ofReal (density (logDensityWrtRoot (⟨fin b, fin r⟩ : Gamma XReal) (fin s)))) x]
    have := hrest.mass_one
    unfold mass at this
    rw [this, mul_one]
  · exact hrest.measurable.ennreal_ofReal.comp (measurable_id.sub_const x)

/-- hypotheses: parameters for all the theorems of this file at once -/
example : ∃ (b : ℝ) (prior : Gamma XReal) (marg : NegativeBinomial XReal) (model : ℝ → Poisson XReal)
    (t : StudentT XReal) (p : Poisson XReal) (bin : ℕ → Binomial XReal) (frac : Beta XReal),
    Gamma.new (fin (2 : ℕ)) (fin b) = .ok prior ∧ NegativeBinomial.new 2 (fin (b / (b + 1))) = .ok marg ∧
    (∀ θ, 0 < θ → Poisson.new (fin θ) = .ok (model θ)) ∧ StudentT.new (fin 3) = .ok t ∧
    Poisson.new (fin (1/2 * 4)) = .ok p ∧ (∀ n, Binomial.new n (fin (1/2)) = .ok (bin n)) ∧
    Beta.new (fin 2) (fin 3) = .ok frac := by
  refine ⟨3, ⟨fin (2 : ℕ), fin 3⟩, ⟨2, fin (3 / (3 + 1))⟩, fun θ => ⟨fin θ⟩, ⟨fin 3⟩, ⟨fin (1/2 * 4)⟩,
    fun n => ⟨n, fin (1/2)⟩, ⟨fin 2, fin 3⟩, compound_gamma_ok (by norm_num) (by norm_num), ?_, ?_, ?_, ?_, ?_,
    compound_beta_ok (by norm_num) (by norm_num)⟩
  · simp [NegativeBinomial.new]; norm_num
  · intro θ hθ; simp [Poisson.new, hθ]
  · simp [StudentT.new]
  · simp [Poisson.new]
  · intro n; simp [Binomial.new]; norm_num

end Verif
