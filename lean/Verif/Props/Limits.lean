import Verif.Props.Stability
import Mathlib.Probability.Distributions.Poisson.PoissonLimitThm
import Mathlib.Analysis.SpecialFunctions.Gamma.BohrMollerup

/-!
# C129: the limit theorems that relate the families
-/

namespace Verif
open FloatOps XReal Spec MeasureTheory ProbabilityTheory Filter Topology

/-- **C129** (law of small numbers): if the expected number of successes converges to the rate, the binomial
distributions converge to the Poisson distribution, uniformly over all events. -/
theorem C129_binomial_poisson {r : ℝ} {d : Poisson XReal} (h : Poisson.new (fin r) = .ok d) {p : ℕ → ℝ}
    {b : ℕ → Binomial XReal} (hb : ∀ n, Binomial.new n (fin (p n)) = .ok (b n))
    (hp : Tendsto (fun n => n * p n) atTop (𝓝 r)) {ε : ℝ} (hε : 0 < ε) :
    ∃ N, ∀ n ≥ N, Close (law Measure.count (id : ℕ → ℕ) (b n).withBase) (law Measure.count id d) ε := by
  have hd := (C18_poisson_pmf h).1
  have hr := (Poisson.new_ok h).1
  have h0 : ∀ᶠ n in atTop, 0 < p n := by
    filter_upwards [hp.eventually_const_lt hr] with n hn
    exact (pos_iff_pos_of_mul_pos hn).mp (lt_of_le_of_ne n.cast_nonneg fun h => by simp [← h] at hn)
  have h1 : ∀ᶠ n in atTop, p n < 1 :=
    (tendsto_zero_of_tendsto_mul_atTop hp).eventually_lt_const one_pos
  have hb' : ∀ n, b n = ⟨n, fin (p n)⟩ := fun n => (Binomial.new_ok (hb n)).2
  rw [← eventually_atTop]
  refine law_close (C122_regular.2.2.2.2.2.2.2.2 _ _ h) ?_ (Eventually.of_forall fun k => ?_) hε
  · filter_upwards [h0, h1] with n h0 h1
    rw [hb']; exact Binomial.regular h0 h1
  · rw [id, hd k]
    have ht := tendsto_choose_mul_pow_of_tendsto_mul_atTop k hp
    rw [mul_comm (Real.exp (-r))] at ht
    refine ht.congr' ?_
    filter_upwards [h0, h1, eventually_ge_atTop k] with n h0 h1 hk
    rw [hb']
    exact ((Binomial.withBase_density h0 h1 k).trans (if_pos hk)).symm

/-- **C129** (negative binomial): if the expected number of failures converges to the rate while the number of
successes waited for grows, the negative binomial distributions converge to the Poisson distribution. -/
theorem C129_negative_binomial_poisson {r : ℝ} {d : Poisson XReal} (h : Poisson.new (fin r) = .ok d) {p : ℕ → ℝ}
    {b : ℕ → NegativeBinomial XReal} (hb : ∀ n, 1 ≤ n → NegativeBinomial.new n (fin (p n)) = .ok (b n))
    (hp : Tendsto (fun n => n * (1 - p n)) atTop (𝓝 r)) {ε : ℝ} (hε : 0 < ε) :
    ∃ N, ∀ n ≥ N, Close (law Measure.count (id : ℕ → ℕ) (b n).withBase) (law Measure.count id d) ε := by
  have hd := (C18_poisson_pmf h).1
  have hb' : ∀ n, 1 ≤ n → 0 < n ∧ (0 < p n ∧ p n < 1) ∧ b n = ⟨n, fin (p n)⟩ :=
    fun n hn => NegativeBinomial.new_ok (hb n hn)
  rw [← eventually_atTop]
  refine law_close (C122_regular.2.2.2.2.2.2.2.2 _ _ h) ?_ (Eventually.of_forall fun k => ?_) hε
  · filter_upwards [eventually_ge_atTop 1] with n hn
    obtain ⟨k1, ⟨k2, k3⟩, k4⟩ := hb' n hn
    rw [k4]; exact NegativeBinomial.regular k1 k2 k3
  · rw [id, hd k]
    have hq := tendsto_zero_of_tendsto_mul_atTop hp
    -- the coefficient, reindexed by the number of trials
    have hc : Tendsto (fun n : ℕ => ((k + n - 1).choose k : ℝ) * (1 - p n) ^ k) atTop (𝓝 (r ^ k / k.factorial)) := by
      have hs : Tendsto (fun m : ℕ => m * (1 - p (m + 1 - k))) atTop (𝓝 r) := by
        have hm : Tendsto (fun m : ℕ => m + 1 - k) atTop atTop :=
          tendsto_atTop_mono (fun m => (by omega : m - k ≤ m + 1 - k)) (tendsto_sub_atTop_nat k)
        have h1 := (hp.comp hm).add ((hq.comp hm).const_mul ((k : ℝ) - 1))
        rw [mul_zero, add_zero] at h1
        refine h1.congr' ?_
        filter_upwards [eventually_ge_atTop k] with m hk
        have : ((m + 1 - k : ℕ) : ℝ) = m + 1 - k := by push_cast [Nat.cast_sub (by omega : k ≤ m + 1)]; ring
        simp only [Function.comp, this]
        ring
      have hn : Tendsto (fun n : ℕ => k + n - 1) atTop atTop :=
        tendsto_atTop_mono (fun n => (by omega : n - 1 ≤ k + n - 1)) (tendsto_sub_atTop_nat 1)
      refine ((tendsto_choose_mul_pow_atTop k hs).comp hn).congr' ?_
      filter_upwards [eventually_ge_atTop 1] with n h1
      simp only [Function.comp]
      rw [show k + n - 1 + 1 - k = n by omega]
    have he : Tendsto (fun n : ℕ => p n ^ n) atTop (𝓝 (Real.exp (-r))) := by
      have := Real.tendsto_one_add_pow_exp_of_tendsto (g := fun n => -(1 - p n)) (t := -r)
        (hp.neg.congr fun n => by ring)
      refine this.congr fun n => ?_
      ring_nf
    have ht := hc.mul he
    rw [show r ^ k / (k.factorial : ℝ) * Real.exp (-r) = r ^ k * Real.exp (-r) / k.factorial by ring] at ht
    refine ht.congr' ?_
    filter_upwards [eventually_ge_atTop 1] with n hn
    obtain ⟨k1, ⟨k2, k3⟩, k4⟩ := hb' n hn
    rw [k4]
    refine Eq.trans ?_ (NegativeBinomial.withBase_density k1 k2 k3 k).symm
    ring

/-- `Γ(y + 1/2)` over `Γ(y)` grows like the square root. -/
theorem gamma_half_ratio : Tendsto (fun y : ℝ => Real.Gamma (y + 1/2) / (√y * Real.Gamma y)) atTop (𝓝 1) := by
  have hlow : Tendsto (fun y : ℝ => √(y / (y + 1/2))) atTop (𝓝 1) := by
    have h1 : Tendsto (fun y : ℝ => y / (y + 1/2)) atTop (𝓝 1) := by
      have h2 : Tendsto (fun y : ℝ => 1 - (1/2) / (y + 1/2)) atTop (𝓝 (1 - 0)) :=
        tendsto_const_nhds.sub ((tendsto_atTop_add_const_right _ _ tendsto_id).const_div_atTop _)
      rw [sub_zero] at h2
      refine h2.congr' ?_
      filter_upwards [eventually_gt_atTop 0] with y hy
      field_simp
      ring
    have := h1.sqrt
    rwa [Real.sqrt_one] at this
  refine tendsto_of_tendsto_of_tendsto_of_le_of_le' hlow tendsto_const_nhds ?_ ?_
  · filter_upwards [eventually_gt_atTop 0] with y hy
    have g0 := Real.Gamma_pos_of_pos hy
    have g1 := Real.Gamma_pos_of_pos (show 0 < y + 1/2 by linarith)
    have h := Real.Gamma_mul_add_mul_le_rpow_Gamma_mul_rpow_Gamma (s := y + 1/2) (t := y + 1/2 + 1) (a := 1/2) (b := 1/2)
      (by linarith) (by linarith) (by norm_num) (by norm_num) (by norm_num)
    rw [show 1/2 * (y + 1/2) + 1/2 * (y + 1/2 + 1) = y + 1 by ring, Real.Gamma_add_one hy.ne',
      Real.Gamma_add_one (show y + 1/2 ≠ 0 by positivity), ← Real.sqrt_eq_rpow, ← Real.sqrt_eq_rpow,
      Real.sqrt_mul (by linarith : (0 : ℝ) ≤ y + 1/2)] at h
    have h' : y * Real.Gamma y ≤ √(y + 1/2) * Real.Gamma (y + 1/2) := by
      calc _ ≤ _ := h
        _ = √(y + 1/2) * (√(Real.Gamma (y + 1/2)) * √(Real.Gamma (y + 1/2))) := by ring
        _ = _ := by rw [Real.mul_self_sqrt g1.le]
    have s0 := Real.sqrt_pos.mpr hy
    have s1 := Real.sqrt_pos.mpr (show 0 < y + 1/2 by linarith)
    rw [Real.sqrt_div hy.le, div_le_div_iff₀ s1 (by positivity)]
    calc √y * (√y * Real.Gamma y) = (√y * √y) * Real.Gamma y := by ring
      _ = y * Real.Gamma y := by rw [Real.mul_self_sqrt hy.le]
      _ ≤ _ := h'
      _ = _ := by ring
  · filter_upwards [eventually_gt_atTop 0] with y hy
    have g0 := Real.Gamma_pos_of_pos hy
    have h := Real.Gamma_mul_add_mul_le_rpow_Gamma_mul_rpow_Gamma (s := y) (t := y + 1) (a := 1/2) (b := 1/2)
      hy (by linarith) (by norm_num) (by norm_num) (by norm_num)
    rw [show 1/2 * y + 1/2 * (y + 1) = y + 1/2 by ring, Real.Gamma_add_one hy.ne', ← Real.sqrt_eq_rpow,
      ← Real.sqrt_eq_rpow, Real.sqrt_mul hy.le] at h
    have s0 := Real.sqrt_pos.mpr hy
    rw [div_le_one (by positivity)]
    calc _ ≤ _ := h
      _ = √y * (√(Real.Gamma y) * √(Real.Gamma y)) := by ring
      _ = _ := by rw [Real.mul_self_sqrt g0.le]

theorem student_density_tendsto (x : ℝ) :
    Tendsto (fun ν : ℝ => studentTPDFReal ν x) atTop (𝓝 (gaussianPDFReal 0 1 x)) := by
  have h1 : Tendsto (fun ν : ℝ => Real.Gamma (ν / 2 + 1/2) / (√(ν / 2) * Real.Gamma (ν / 2))) atTop (𝓝 1) :=
    gamma_half_ratio.comp (tendsto_id.atTop_div_const two_pos)
  have h2 : Tendsto (fun ν : ℝ => (1 + x ^ 2 / ν) ^ ν) atTop (𝓝 (Real.exp (x ^ 2))) :=
    Real.tendsto_one_add_div_rpow_exp _
  have h3 : Tendsto (fun ν : ℝ => 1 + x ^ 2 / ν) atTop (𝓝 (1 + 0)) :=
    tendsto_const_nhds.add (tendsto_id.const_div_atTop _)
  rw [add_zero] at h3
  have h4 : Tendsto (fun ν : ℝ => ((1 + x ^ 2 / ν) ^ ν) ^ (-(1/2) : ℝ)) atTop (𝓝 (Real.exp (x ^ 2) ^ (-(1/2) : ℝ))) :=
    h2.rpow_const (Or.inl (Real.exp_pos _).ne')
  have h5 : Tendsto (fun ν : ℝ => (1 + x ^ 2 / ν) ^ (-(1/2) : ℝ)) atTop (𝓝 ((1 : ℝ) ^ (-(1/2) : ℝ))) :=
    h3.rpow_const (Or.inl one_ne_zero)
  have ht := ((h1.const_mul (√(2 * Real.pi))⁻¹).mul (h4.mul h5))
  have e : (√(2 * Real.pi))⁻¹ * 1 * (Real.exp (x ^ 2) ^ (-(1/2) : ℝ) * (1 : ℝ) ^ (-(1/2) : ℝ)) = gaussianPDFReal 0 1 x := by
    rw [gaussianPDFReal, Real.one_rpow, ← Real.exp_mul]
    simp only [NNReal.coe_one, mul_one, sub_zero]
    congr 2
    ring
  rw [e] at ht
  refine ht.congr' ?_
  filter_upwards [eventually_gt_atTop 0] with ν hν
  have hb : 0 < 1 + x ^ 2 / ν := by positivity
  unfold studentTPDFReal
  rw [← Real.rpow_mul hb.le, ← Real.rpow_add hb, show (ν + 1) / 2 = ν / 2 + 1/2 by ring,
    show ν * -(1/2) + -(1/2) = -(ν / 2 + 1/2) by ring]
  congr 1
  have g0 := Real.Gamma_pos_of_pos (show 0 < ν / 2 by positivity)
  have e2 : √(ν * Real.pi) = √(2 * Real.pi) * √(ν / 2) := by
    rw [← Real.sqrt_mul (by positivity)]; congr 1; ring
  have s1 : √(2 * Real.pi) ≠ 0 := (Real.sqrt_pos.mpr (by positivity)).ne'
  have s2 : √(ν / 2) ≠ 0 := (Real.sqrt_pos.mpr (by positivity)).ne'
  rw [e2]
  field_simp

/-- **C129** (many degrees of freedom): Student's t distribution converges to the standard normal distribution,
uniformly over all events. -/
theorem C129_student_normal {n : Normal XReal} (h' : Normal.new (fin 0) (fin 1) = .ok n) {ε : ℝ} (hε : 0 < ε) :
    ∃ N : ℝ, ∀ ν ≥ N, ∀ d : StudentT XReal, StudentT.new (fin ν) = .ok d →
      Close (law volume fin d) (law volume fin n) ε := by
  have hn : ∀ q : ℝ, 0 < q → StudentT.new (fin q) = .ok (⟨fin q⟩ : StudentT XReal) := by
    intro q hq; simp [StudentT.new, hq]
  have hc : ∀ᶠ ν : ℝ in atTop, Close (law volume fin (⟨fin ν⟩ : StudentT XReal)) (law volume fin n) ε := by
    refine law_close (C122_regular.1 _ _ _ h') ?_ (Eventually.of_forall fun x => ?_) hε
    · filter_upwards [eventually_gt_atTop 0] with ν hν
      exact C122_regular.2.2.2.2.2.2.1 _ _ (hn ν hν)
    · rw [(C09_normal_density h').1 x]
      have : ((1 : ℝ) ^ 2).toNNReal = 1 := by simp
      rw [this]
      refine (student_density_tendsto x).congr' ?_
      filter_upwards [eventually_gt_atTop 0] with ν hν
      exact ((C15_student_t_density (hn ν hν)).1 x).symm
  obtain ⟨N, hN⟩ := eventually_atTop.mp hc
  refine ⟨N, fun ν hν d hd => ?_⟩
  obtain ⟨-, rfl⟩ := StudentT.new_ok hd
  exact hN ν hν

/-- **C129** (waiting times): if the success probability per step times the number of steps per unit of time
converges to the rate, the geometric waiting time, measured in units of time, has the distribution function of
the exponential distribution in the limit. -/
theorem C129_geometric_exponential {r : ℝ} {d : Exponential XReal} (h : Exponential.new (fin r) = .ok d) {p : ℕ → ℝ}
    {g : ℕ → Geometric XReal} (hg : ∀ n, 1 ≤ n → Geometric.new (fin (p n)) = .ok (g n))
    (hp : Tendsto (fun n => n * p n) atTop (𝓝 r)) (x : ℝ) :
    Tendsto (fun n : ℕ => (law Measure.count (id : ℕ → ℕ) (g n)).real {k : ℕ | (k : ℝ) ≤ n * x}) atTop
      (𝓝 ((law volume fin d).real (Set.Iic x))) := by
  have hr := (Exponential.new_ok h).1
  have hlim : (law volume fin d).real (Set.Iic x) = if 0 ≤ x then 1 - Real.exp (-(r * x)) else 0 := by
    rw [← cdf_expMeasure_eq hr, cdf_expMeasure_eq_lintegral hr, Measure.real, law, withDensity_apply _ measurableSet_Iic]
    refine congrArg ENNReal.toReal (lintegral_congr fun y => ?_)
    rw [(C10_exponential_density h).2.2.1 y]; rfl
  rw [hlim]
  have h1 : ∀ᶠ n in atTop, p n < 1 := (tendsto_zero_of_tendsto_mul_atTop hp).eventually_lt_const one_pos
  -- the distribution function of a geometric distribution
  have key : ∀ᶠ n : ℕ in atTop, (law Measure.count (id : ℕ → ℕ) (g n)).real {k : ℕ | (k : ℝ) ≤ n * x}
      = if 0 ≤ x then 1 - (1 - p n) ^ ⌊(n : ℝ) * x⌋₊ else 0 := by
    filter_upwards [h1, eventually_ge_atTop 1] with n h1 hn
    have hgn := hg n hn
    obtain ⟨⟨p0, -⟩, e⟩ := Geometric.new_ok hgn
    obtain ⟨k1, k2, -⟩ := C17_geometric_pmf_partial hgn h1.ne
    have hn0 : (0 : ℝ) < n := by exact_mod_cast hn
    have hd : ∀ k : ℕ, density (logDensityWrtRoot (g n) (id k) : XReal) = if k = 0 then 0 else (1 - p n) ^ (k - 1) * p n := by
      intro k
      rcases Nat.eq_zero_or_pos k with rfl | hk
      · rw [if_pos rfl, id, k2]; rfl
      · rw [if_neg hk.ne']; exact k1 k hk
    have hpos : ∀ k : ℕ, 0 ≤ density (logDensityWrtRoot (g n) (id k) : XReal) := by
      intro k; rw [hd]
      split_ifs
      · exact le_rfl
      · have : 0 < 1 - p n := by linarith
        positivity
    rw [law_real_tsum _ _ hpos (DiscreteMeasurableSpace.forall_measurableSet _)]
    split_ifs with hx
    · have hm : ∀ k : ℕ, k ∈ {k : ℕ | (k : ℝ) ≤ n * x} ↔ k < ⌊(n : ℝ) * x⌋₊ + 1 := by
        intro k
        rw [Set.mem_ofPred_eq, Nat.lt_succ_iff, Nat.le_floor_iff (by positivity)]
      rw [tsum_eq_sum (s := Finset.range (⌊(n : ℝ) * x⌋₊ + 1))]
      · have : ∀ m : ℕ, ∑ k ∈ Finset.range (m + 1), (if k = 0 then 0 else (1 - p n) ^ (k - 1) * p n) = 1 - (1 - p n) ^ m := by
          intro m
          induction m with
          | zero => simp
          | succ m ih => rw [Finset.sum_range_succ, ih]; simp; ring
        rw [← this]
        refine Finset.sum_congr rfl fun k hk => ?_
        rw [Set.indicator_of_mem ((hm k).mpr (Finset.mem_range.mp hk)), hd]
      · intro k hk
        exact Set.indicator_of_notMem (fun hk' => hk (Finset.mem_range.mpr ((hm k).mp hk'))) _
    · refine (tsum_congr fun k => Set.indicator_of_notMem ?_ _).trans tsum_zero
      rw [Set.mem_ofPred_eq, not_le]
      have : (n : ℝ) * x < 0 := mul_neg_of_pos_of_neg hn0 (not_le.mp hx)
      exact this.trans_le k.cast_nonneg
  refine Tendsto.congr' (EventuallyEq.symm key) ?_
  split_ifs with hx
  · refine tendsto_const_nhds.sub ?_
    have hfl : Tendsto (fun n : ℕ => (⌊(n : ℝ) * x⌋₊ : ℝ) / n) atTop (𝓝 x) := by
      have := (tendsto_nat_floor_mul_div_atTop (R := ℝ) hx).comp tendsto_natCast_atTop_atTop
      refine this.congr fun n => ?_
      simp only [Function.comp, mul_comm]
    have hlog : Tendsto (fun n : ℕ => n * Real.log (1 - p n)) atTop (𝓝 (-r)) := by
      have h2 := Real.tendsto_one_add_pow_exp_of_tendsto (g := fun n => -p n) (t := -r) (by simpa [mul_neg] using hp.neg)
      have h3 := (Real.continuousAt_log (Real.exp_pos (-r)).ne').tendsto.comp h2
      rw [Real.log_exp] at h3
      refine h3.congr fun n => ?_
      simp only [Function.comp, Real.log_pow, ← sub_eq_add_neg]
    have hprod := (hfl.mul hlog).rexp
    rw [show x * -r = -(r * x) by ring] at hprod
    refine hprod.congr' ?_
    filter_upwards [h1, eventually_ge_atTop 1] with n h1 hn
    have hn0 : (n : ℝ) ≠ 0 := by have : (0 : ℝ) < n := by exact_mod_cast hn
                                 exact this.ne'
    rw [show (⌊(n : ℝ) * x⌋₊ : ℝ) / n * (n * Real.log (1 - p n)) = ⌊(n : ℝ) * x⌋₊ * Real.log (1 - p n) by
      field_simp, Real.exp_nat_mul, Real.exp_log (by linarith)]
  · exact tendsto_const_nhds

/-! ## The hypotheses are satisfiable -/

/-- sequences of parameters with the limits asked for, for every rate: `p n = r / (n + r)` -/
example (r : ℝ) (hr : 0 < r) :
    (∃ b : ℕ → Binomial XReal, ∀ n : ℕ, Binomial.new n (fin (r / (n + r))) = .ok (b n)) ∧
    (∃ b : ℕ → NegativeBinomial XReal, ∀ n : ℕ, 1 ≤ n → NegativeBinomial.new n (fin (1 - r / (n + r))) = .ok (b n)) ∧
    Tendsto (fun n : ℕ => n * (r / (n + r))) atTop (𝓝 r) := by
  have hq : ∀ n : ℕ, 0 < r / (n + r) ∧ r / (n + r) ≤ 1 := fun n => by
    have : (0 : ℝ) ≤ n := n.cast_nonneg
    exact ⟨by positivity, (div_le_one (by positivity)).mpr (by linarith)⟩
  refine ⟨⟨fun n => ⟨n, fin (r / (n + r))⟩, fun n => ?_⟩, ⟨fun n => ⟨n, fin (1 - r / (n + r))⟩, fun n hn => ?_⟩, ?_⟩
  · simp [Binomial.new, (hq n).1.le, (hq n).2]
  · have hn0 : (0 : ℝ) < n := by exact_mod_cast hn
    have : r / (n + r) < 1 := (div_lt_one (by positivity)).mpr (by linarith)
    simp [NegativeBinomial.new, (hq n).1, this]
    omega
  · have h1 : Tendsto (fun n : ℕ => r * (1 - r / (n + r))) atTop (𝓝 (r * (1 - 0))) := by
      refine (tendsto_const_nhds.sub (Tendsto.const_div_atTop ?_ r)).const_mul r
      exact tendsto_atTop_add_const_right _ _ tendsto_natCast_atTop_atTop
    rw [sub_zero, mul_one] at h1
    refine h1.congr fun n => ?_
    have : (0 : ℝ) ≤ n := n.cast_nonneg
    field_simp
    ring

end Verif
