import Verif.Props.ExpFamAgree
import Verif.Spec.ExpFam

/-!
# C26: the log-partition function
-/

namespace Verif
open FloatOps XReal Spec ExponentialFamily

theorem add_fin_inv {p b : XReal} {A e : ℝ} (h : ((p -. fin A) +. b) = fin e) :
    (p +. b) = fin (e + A) := by
  rcases p with _ | _ | _ | p <;> rcases b with _ | _ | _ | b <;>
    first
    | (rw [f_sub, f_add] at h
       rw [f_add]
       have h := congrArg toReal h
       simp only [toReal_fin] at h
       congr 1
       linarith)
    | cases h

/-- a family whose exponential-family form agrees with a log-density of mass one has a correct
log-partition -/
theorem partition_of_agree {D : Type} [ExponentialFamily D XReal XReal] [Measure D XReal] (d : D)
    (ld : XReal → XReal) {A : ℝ} (hA : (logPartition d : XReal) = fin A)
    (hin : ∀ x : ℝ, Measure.inSupport d (fin x) = true → ∃ l : ℝ, ld (fin x) = fin l ∧
      ((dot (toNatural d) (sufficientStatistic d (fin x)) -. logPartition d) +. baseLogDensity d (fin x))
        = fin l)
    (hout : ∀ x : ℝ, Measure.inSupport d (fin x) = false → ld (fin x) = ninf)
    (hmass : massReal ld = 1) :
    partitionReal d = ENNReal.ofReal (Real.exp A) := by
  have : partitionReal d = ENNReal.ofReal (Real.exp A) * massReal ld := by
    unfold partitionReal massReal
    rw [← MeasureTheory.lintegral_const_mul' _ _ ENNReal.ofReal_ne_top]
    congr 1
    funext x
    cases hx : Measure.inSupport d (fin x) with
    | false => simp [hout x hx]
    | true =>
      obtain ⟨l, h1, h2⟩ := hin x hx
      rw [hA] at h2
      have h3 : unnormalised d (fin x) = fin (l + A) := add_fin_inv h2
      rw [h3, h1, density_fin, density_fin, ← ENNReal.ofReal_mul (Real.exp_pos _).le, ← Real.exp_add,
        if_pos rfl, add_comm]
  rw [this, hmass, mul_one]

/-- **C26**, continuous: for every accepted parameter of Normal, Gamma, Beta and ChiSquared, and for the
standard normal, `log_partition` is a finite number and its exponential is the integral over the support
of `h(x) e^{η·T(x)}`. -/
theorem C26_continuous :
    (∀ (μ σ : ℝ) (d : Normal XReal), Normal.new (fin μ) (fin σ) = .ok d →
      ∃ A : ℝ, (logPartition d : XReal) = fin A ∧ partitionReal d = ENNReal.ofReal (Real.exp A)) ∧
    (∀ (a b : ℝ) (d : Gamma XReal), Gamma.new (fin a) (fin b) = .ok d →
      ∃ A : ℝ, (logPartition d : XReal) = fin A ∧ partitionReal d = ENNReal.ofReal (Real.exp A)) ∧
    (∀ (a b : ℝ) (d : Beta XReal), Beta.new (fin a) (fin b) = .ok d →
      ∃ A : ℝ, (logPartition d : XReal) = fin A ∧ partitionReal d = ENNReal.ofReal (Real.exp A)) ∧
    (∀ (k : ℝ) (d : ChiSquared XReal), ChiSquared.new (fin k) = .ok d →
      ∃ A : ℝ, (logPartition d : XReal) = fin A ∧ partitionReal d = ENNReal.ofReal (Real.exp A)) ∧
    (∀ d : StdNormal XReal,
      ∃ A : ℝ, (logPartition d : XReal) = fin A ∧ partitionReal d = ENNReal.ofReal (Real.exp A)) := by
  refine ⟨?_, ?_, ?_, ?_, ?_⟩
  · intro μ σ d h
    have hm := (C09_normal_density h).2.2
    obtain ⟨hσ, rfl⟩ := Normal.new_ok h
    have hs : (0:ℝ) < σ * σ := mul_pos hσ hσ
    have h2 : 0 < 2 * Real.pi * (σ * σ) := by positivity
    have hA : ∃ A, (logPartition (⟨fin μ, fin σ⟩ : Normal XReal) : XReal) = fin A := by
      simp [logPartition, naturalAndLogPartition, Normal.variance, recip, f_div _ _ hs.ne', f_ln _ h2]
    obtain ⟨A, hA⟩ := hA
    exact ⟨A, hA, partition_of_agree _ _ hA (fun x _ => ⟨_, Normal.ld hσ, Normal.ef hσ⟩)
      (fun x hx => by cases hx) hm⟩
  · intro a b d h
    have hm := (C11_gamma_density h).2.2.2
    obtain ⟨ha, hb, rfl⟩ := Gamma.new_ok h
    have hA : ∃ A, (logPartition (⟨fin a, fin b⟩ : Gamma XReal) : XReal) = fin A := by
      simp [logPartition, naturalAndLogPartition, f_ln _ hb, f_lnGamma _ ha]
    obtain ⟨A, hA⟩ := hA
    refine ⟨A, hA, partition_of_agree _ _ hA (fun x hx => ?_) (fun x hx => ?_) hm⟩
    · have hx : 0 < x := by simpa [Measure.inSupport] using hx
      exact ⟨_, Gamma.ld_of_pos ha hb hx, Gamma.ef ha hb hx⟩
    · have hx : x ≤ 0 := by simpa [Measure.inSupport] using hx
      exact Gamma.ld_of_nonpos hx
  · intro a b d h
    have hm := (C12_beta_density h).2.2.2
    obtain ⟨ha, hb, rfl⟩ := Beta.new_ok h
    have hA : ∃ A, (logPartition (⟨fin a, fin b⟩ : Beta XReal) : XReal) = fin A := by
      simp [logPartition, naturalAndLogPartition, f_lnGamma _ ha, f_lnGamma _ hb,
        f_lnGamma _ (add_pos ha hb)]
    obtain ⟨A, hA⟩ := hA
    refine ⟨A, hA, partition_of_agree _ _ hA (fun x hx => ?_) (fun x hx => ?_) hm⟩
    · have hx : 0 < x ∧ x < 1 := by simpa [Measure.inSupport] using hx
      exact ⟨_, Beta.ld_of_mem ha hb hx.1 hx.2, Beta.ef ha hb hx.1 hx.2⟩
    · have hx : 0 < x → 1 ≤ x := by simpa [Measure.inSupport] using hx
      exact Beta.ld_of_not_mem (fun h => absurd (hx h.1) (not_le.mpr h.2))
  · intro k d h
    obtain ⟨hk, rfl⟩ := ChiSquared.new_ok h
    have hg : Gamma.new (fin (k/2)) (fin (1/2)) = .ok ⟨fin (k/2), fin (1/2)⟩ := by
      simp [Gamma.new, hk]
    have hm := (C13_chi_squared_is_gamma h hg).2.2
    have hA : ∃ A, (logPartition (⟨fin k⟩ : ChiSquared XReal) : XReal) = fin A := by
      simp [logPartition, naturalAndLogPartition, ChiSquared.shape,
        f_div _ _ (two_ne_zero (α := ℝ)), f_ln _ (two_pos (α := ℝ)), f_lnGamma (k/2) (by positivity)]
    obtain ⟨A, hA⟩ := hA
    refine ⟨A, hA, partition_of_agree _ _ hA (fun x hx => ?_) (fun x hx => ?_) hm⟩
    · have hx : 0 < x := by simpa [Measure.inSupport] using hx
      exact ⟨_, ChiSquared.ld_of_pos hk hx, ChiSquared.ef hk hx⟩
    · have hx : x ≤ 0 := by simpa [Measure.inSupport] using hx
      exact ChiSquared.ld_of_nonpos hx
  · intro d
    have hn : Normal.new (fin 0) (fin 1) = .ok ⟨fin 0, fin 1⟩ := by simp [Normal.new]
    have hm := (C09_normal_density hn).2.2
    have hA : ∃ A, (logPartition d : XReal) = fin A := by
      simp [logPartition, naturalAndLogPartition, f_ln _ two_pi_pos']
    obtain ⟨A, hA⟩ := hA
    refine ⟨A, hA, partition_of_agree _ _ hA (fun x _ => ⟨_, Normal.ld one_pos, ?_⟩)
      (fun x hx => by cases hx) hm⟩
    have := StdNormal.ef (x := x)
    simp only [sub_zero, div_one, Real.log_one]
    exact this

example : Gamma.new (fin 2) (fin 3) = .ok ⟨fin 2, fin 3⟩ := by simp [Gamma.new]

/-- **C26**, discrete: Bernoulli and Binomial for `0 < p < 1`, Categorical for positive vectors of any
length (whatever their sum), exactly; Poisson up to a relative error of `2e-12` coming from the
factorial table.  Missing from the full claim: Exponential, Geometric and NegativeBinomial, see
`C26_violated`. -/
theorem C26_discrete_partial :
    (∀ (p : ℝ) (d : Bernoulli XReal), Bernoulli.new (fin p) = .ok d → p ≠ 0 → p ≠ 1 →
      ∃ A : ℝ, (logPartition d : XReal) = fin A ∧
        ∑ k ∈ Finset.range 256, (if Measure.inSupport d (UInt8.ofNat k) then
          density (unnormalised d (UInt8.ofNat k)) else 0) = Real.exp A) ∧
    (∀ (n : ℕ) (p : ℝ) (d : Binomial XReal), Binomial.new n (fin p) = .ok d → p ≠ 0 → p ≠ 1 →
      ∃ A : ℝ, (logPartition d : XReal) = fin A ∧ PartitionNat d (Real.exp A)) ∧
    (∀ (ps : List ℝ) (d : Categorical XReal), Categorical.new (ps.map fin) = .ok d → (∀ p ∈ ps, p ≠ 0) →
      ∃ A : ℝ, (logPartition d : XReal) = fin A ∧ PartitionNat d (Real.exp A)) ∧
    (∀ (r : ℝ) (d : Poisson XReal), Poisson.new (fin r) = .ok d →
      ∃ A s : ℝ, (logPartition d : XReal) = fin A ∧ PartitionNat d s ∧
        |s - Real.exp A| ≤ 2/10^12 * Real.exp A) := by
  refine ⟨?_, ?_, ?_, ?_⟩
  · intro p d h hp0 hp1
    obtain ⟨⟨h0, h1⟩, rfl⟩ := Bernoulli.new_ok h
    have h0 : 0 < p := lt_of_le_of_ne h0 (Ne.symm hp0)
    have h1 : p < 1 := lt_of_le_of_ne h1 hp1
    have hq : 0 < 1 - p := by linarith
    have hA : (logPartition (⟨fin p⟩ : Bernoulli XReal) : XReal) = fin (-Real.log (1 - p)) := by
      simp only [logPartition, naturalAndLogPartition, Bernoulli.logOdds, f_one, f_sub,
        logOdds_fin h0 h1, f_exp, f_add, one_add_exp_logOdds h0 h1, f_ln (1 / (1 - p)) (by positivity)]
      rw [Real.log_div one_ne_zero hq.ne', Real.log_one, zero_sub]
    refine ⟨_, hA, ?_⟩
    have hu : ∀ x : UInt8, unnormalised (⟨fin p⟩ : Bernoulli XReal) x
        = fin (x.toNat * (Real.log p - Real.log (1 - p))) := by
      intro x
      have h2 := Bernoulli.ef h0 h1 x
      have h3 : ((dot (toNatural (⟨fin p⟩ : Bernoulli XReal))
          (sufficientStatistic (⟨fin p⟩ : Bernoulli XReal) x) -. logPartition (⟨fin p⟩ : Bernoulli XReal))
          +. baseLogDensity (⟨fin p⟩ : Bernoulli XReal) x)
            = fin (x.toNat * (Real.log p - Real.log (1 - p)) + Real.log (1 - p)) := h2
      rw [hA] at h3
      have := add_fin_inv h3
      rw [unnormalised, this]
      congr 1; ring
    rw [Finset.sum_eq_add_of_mem 0 1 (by simp) (by simp) (by simp)]
    · have s0 : Measure.inSupport (⟨fin p⟩ : Bernoulli XReal) (UInt8.ofNat 0) = true := rfl
      have s1 : Measure.inSupport (⟨fin p⟩ : Bernoulli XReal) (UInt8.ofNat 1) = true := rfl
      rw [if_pos s0, if_pos s1, hu, hu, density_fin, density_fin]
      simp only [UInt8.toNat_ofNat', Nat.zero_mod, Nat.one_mod]
      norm_num
      rw [one_add_exp_logOdds h0 h1, Real.exp_neg, Real.exp_log hq, one_div]
    · intro k hk hne
      have hk' : k < 256 := by simpa using hk
      have : Measure.inSupport (⟨fin p⟩ : Bernoulli XReal) (UInt8.ofNat k) = false := by
        have e0 : UInt8.ofNat k ≠ 0 := by
          intro h
          have h := congrArg UInt8.toNat h
          simp [Nat.mod_eq_of_lt hk'] at h
          exact hne.1 h
        have e1 : UInt8.ofNat k ≠ 1 := by
          intro h
          have h := congrArg UInt8.toNat h
          simp [Nat.mod_eq_of_lt hk'] at h
          exact hne.2 h
        simp [Measure.inSupport, e0, e1]
      simp [this]
  · intro n p d h hp0 hp1
    have hC20 := (C20_binomial_pmf_partial h hp0 hp1)
    obtain ⟨⟨h0, h1⟩, rfl⟩ := Binomial.new_ok h
    have h0 : 0 < p := lt_of_le_of_ne h0 (Ne.symm hp0)
    have h1 : p < 1 := lt_of_le_of_ne h1 hp1
    have hq : 0 < 1 - p := by linarith
    have hA : (logPartition (⟨n, fin p⟩ : Binomial XReal) : XReal) = fin (n * -Real.log (1 - p)) := by
      simp only [logPartition, naturalAndLogPartition, Binomial.logOdds, f_one, f_sub,
        logOdds_fin h0 h1, f_exp, f_add, one_add_exp_logOdds h0 h1, f_ln (1 / (1 - p)) (by positivity),
        f_ofNat, f_mul]
      rw [Real.log_div one_ne_zero hq.ne', Real.log_one, zero_sub]
    refine ⟨_, hA, ?_⟩
    have hs := hC20.2.2.mul_left (Real.exp (n * -Real.log (1 - p)))
    rw [mul_one] at hs
    refine hs.congr_fun ?_
    intro k
    by_cases hk : k ≤ n
    · have hsup : Measure.inSupport (⟨n, fin p⟩ : Binomial XReal) k = true := by
        simp [Measure.inSupport, hk]
      rw [if_pos hsup]
      have h2 := Binomial.ef (n := n) h0 h1 hk
      have h3 : ((dot (toNatural (⟨n, fin p⟩ : Binomial XReal))
          (sufficientStatistic (⟨n, fin p⟩ : Binomial XReal) k) -. logPartition (⟨n, fin p⟩ : Binomial XReal))
          +. baseLogDensity (⟨n, fin p⟩ : Binomial XReal) k)
            = fin (Real.log (n.choose k) + k * Real.log p + (n - k) * Real.log (1 - p)) := h2
      rw [hA] at h3
      have h4 := add_fin_inv h3
      have e : (logDensityWrtRoot (⟨n⟩ : BinomialCoefficientMeasure XReal) k : XReal)
          = fin (Real.log (n.choose k)) := by
        simp [logDensityWrtRoot, not_lt.mpr hk, logBinomialCoefficient_fin hk]
      rw [unnormalised, h4, Binomial.ld_of_le h0 h1 hk, e, f_add, density_fin, density_fin, ← Real.exp_add]
      congr 1
      ring
    · have hsup : Measure.inSupport (⟨n, fin p⟩ : Binomial XReal) k = false := by
        simp [Measure.inSupport, hk]
      have e : (logDensityWrtRoot (⟨n⟩ : BinomialCoefficientMeasure XReal) k : XReal) = ninf := by
        simp [logDensityWrtRoot, not_le.mp hk]
      rw [hsup, hC20.2.1 k (by omega), e]
      simp
  · intro ps d h hne
    have hC24 := fun i => C24_discrete_agree_partial.2.2 ps d h hne i
    have hC19 := C19_categorical_pmf h
    obtain ⟨hn, hpos, hsum, rfl⟩ := Categorical.new_ok h
    obtain rfl | ⟨ini, l, rfl⟩ := List.eq_nil_or_concat ps
    · exact absurd rfl hn
    rw [List.concat_eq_append] at *
    have hp : ∀ p ∈ ini ++ [l], 0 < p := fun p hp => lt_of_le_of_ne (hpos p hp) (Ne.symm (hne p hp))
    have hl : 0 < l := hp l (by simp)
    have hini : ∀ p ∈ ini, 0 < p := fun p h => hp p (by simp [h])
    have hs1 := abs_lt.mp hsum
    have hs : 0 < (ini ++ [l]).sum := by linarith [hs1.1, (by norm_num : (1:ℝ)/10^10 < 1)]
    have hnat := Categorical.natural_fin hl hini
    have hA : (logPartition (⟨(ini ++ [l]).map fin⟩ : Categorical XReal) : XReal)
        = fin (Real.log (ini ++ [l]).sum - Real.log l) := by
      show (Categorical.natural _).2 = _
      rw [hnat]
    refine ⟨_, hA, ?_⟩
    rw [Real.exp_sub, Real.exp_log hs, Real.exp_log hl]
    have hu : ∀ i (hi : i < (ini ++ [l]).length),
        unnormalised (⟨(ini ++ [l]).map fin⟩ : Categorical XReal) i = fin (Real.log ((ini ++ [l])[i] / l)) := by
      intro i hi
      have hsup : Measure.inSupport (⟨(ini ++ [l]).map fin⟩ : Categorical XReal) i = true := by
        show decide (i < ((ini ++ [l]).map fin).length) = true
        simpa using hi
      have h2 := Categorical.ef hl hini i
      rw [dif_pos hi] at h2
      simp only [expFamLogDensity, hsup, Bool.not_true, Bool.false_eq_true, if_false] at h2
      have h3 : ((dot (toNatural (⟨(ini ++ [l]).map fin⟩ : Categorical XReal))
          (sufficientStatistic (⟨(ini ++ [l]).map fin⟩ : Categorical XReal) i)
            -. logPartition (⟨(ini ++ [l]).map fin⟩ : Categorical XReal))
          +. baseLogDensity (⟨(ini ++ [l]).map fin⟩ : Categorical XReal) i)
            = fin (Real.log (ini ++ [l])[i] - Real.log (ini ++ [l]).sum) := h2
      rw [hA] at h3
      rw [unnormalised, add_fin_inv h3]
      congr 1
      rw [Real.log_div (hp _ (List.getElem_mem hi)).ne' hl.ne']
      ring
    have hval : ∀ i, (if Measure.inSupport (⟨(ini ++ [l]).map fin⟩ : Categorical XReal) i = true then
        density (unnormalised (⟨(ini ++ [l]).map fin⟩ : Categorical XReal) i) else 0)
        = if hi : i < (ini ++ [l]).length then (ini ++ [l])[i] / l else 0 := by
      intro i
      by_cases hi : i < (ini ++ [l]).length
      · have hsup : Measure.inSupport (⟨(ini ++ [l]).map fin⟩ : Categorical XReal) i = true := by
          show decide (i < ((ini ++ [l]).map fin).length) = true
          simpa using hi
        rw [if_pos hsup, dif_pos hi, hu i hi, density_fin,
          Real.exp_log (div_pos (hp _ (List.getElem_mem hi)) hl)]
      · have hsup : Measure.inSupport (⟨(ini ++ [l]).map fin⟩ : Categorical XReal) i = false := by
          show decide (i < ((ini ++ [l]).map fin).length) = false
          simpa using hi
        rw [dif_neg hi, hsup]
        simp
    unfold PartitionNat
    simp only [hval]
    have hsum' : (ini ++ [l]).sum / l = ∑ i ∈ Finset.range (ini ++ [l]).length,
        (if hi : i < (ini ++ [l]).length then (ini ++ [l])[i] / l else 0) := by
      rw [Finset.sum_range]
      simp only [Fin.is_lt, dite_true]
      rw [← Finset.sum_div]
      congr 1
      rw [← List.sum_ofFn]
      congr 1
      apply List.ext_getElem (by simp)
      intro i h1 h2
      rw [List.getElem_ofFn]
    rw [hsum']
    apply hasSum_sum_of_ne_finset_zero
    intro i hi
    rw [dif_neg (by simpa using hi)]
  · intro r d h
    obtain ⟨hr, rfl⟩ := Poisson.new_ok h
    have hA : (logPartition (⟨fin r⟩ : Poisson XReal) : XReal) = fin r := rfl
    have hu : ∀ k : ℕ, ∃ e : ℝ, |e| ≤ 1/10^12 ∧
        (if Measure.inSupport (⟨fin r⟩ : Poisson XReal) k = true then
          density (unnormalised (⟨fin r⟩ : Poisson XReal) k) else 0)
          = r ^ k / k.factorial * Real.exp e := by
      intro k
      obtain ⟨e, he, h2⟩ := Poisson.ef hr k
      have h3 : ((dot (toNatural (⟨fin r⟩ : Poisson XReal))
          (sufficientStatistic (⟨fin r⟩ : Poisson XReal) k) -. logPartition (⟨fin r⟩ : Poisson XReal))
          +. baseLogDensity (⟨fin r⟩ : Poisson XReal) k)
            = fin (k * Real.log r - r - Real.log (Nat.factorial k) + e) := h2
      rw [hA] at h3
      refine ⟨e, he, ?_⟩
      have hk : (0 : ℝ) < k.factorial := by exact_mod_cast k.factorial_pos
      have hsup : Measure.inSupport (⟨fin r⟩ : Poisson XReal) k = true := rfl
      rw [if_pos hsup, unnormalised, add_fin_inv h3, density_fin,
        show (k:ℝ) * Real.log r - r - Real.log (Nat.factorial k) + e + r
          = k * Real.log r - Real.log (Nat.factorial k) + e by ring, Real.exp_add, Real.exp_sub,
        Real.exp_log hk, exp_nat_mul_log hr]
    have hexp : HasSum (fun k : ℕ => r ^ k / k.factorial) (Real.exp r) := by
      rw [Real.exp_eq_exp_ℝ]
      exact NormedSpace.expSeries_div_hasSum_exp r
    have hbd : ∀ k : ℕ, (1 - 2/10^12) * (r ^ k / k.factorial) ≤
          (if Measure.inSupport (⟨fin r⟩ : Poisson XReal) k = true then
            density (unnormalised (⟨fin r⟩ : Poisson XReal) k) else 0) ∧
        (if Measure.inSupport (⟨fin r⟩ : Poisson XReal) k = true then
            density (unnormalised (⟨fin r⟩ : Poisson XReal) k) else 0)
          ≤ (1 + 2/10^12) * (r ^ k / k.factorial) := by
      intro k
      obtain ⟨e, he, h2⟩ := hu k
      rw [h2]
      have h3 := Real.abs_exp_sub_one_le (x := e) (he.trans (by norm_num))
      have h4 : |Real.exp e - 1| ≤ 2/10^12 := h3.trans (by linarith [(by norm_num : 2 * ((1:ℝ)/10^12) = 2/10^12)])
      have h5 := abs_le.mp h4
      have hpos : (0:ℝ) ≤ r ^ k / k.factorial := by positivity
      constructor <;> nlinarith [h5.1, h5.2]
    have hsm : Summable (fun k : ℕ => if Measure.inSupport (⟨fin r⟩ : Poisson XReal) k = true then
            density (unnormalised (⟨fin r⟩ : Poisson XReal) k) else 0) := by
      refine Summable.of_nonneg_of_le (fun k => ?_) (fun k => (hbd k).2) (hexp.summable.mul_left _)
      refine le_trans ?_ (hbd k).1
      have : (0:ℝ) ≤ 1 - 2/10^12 := by norm_num
      positivity
    obtain ⟨s, hs⟩ := hsm
    refine ⟨r, s, hA, hs, ?_⟩
    have h1 := hasSum_le (fun k => (hbd k).1) (hexp.mul_left _) hs
    have h2 := hasSum_le (fun k => (hbd k).2) hs (hexp.mul_left _)
    rw [abs_le]
    constructor <;> linarith

example : Binomial.new 4 (fin (1/2)) = .ok ⟨4, fin (1/2)⟩ ∧ (1/2 : ℝ) ≠ 0 ∧ (1/2 : ℝ) ≠ 1 := by
  have h : ((2 : ℝ)⁻¹) ≤ 1 := by norm_num
  refine ⟨by simp [Binomial.new, h], by norm_num, by norm_num⟩

/-- **C26** violated.  For every accepted rate the Exponential integral is `e^{-A}` instead of `e^A`; for
every accepted `p < 1` the Geometric sum over its support is `(1-p) e^A`; and for the accepted
NegativeBinomial `r = 1`, `p = 1/4` the sum is `3/2` while `e^A = 4/3`. -/
theorem C26_violated :
    (∀ (r : ℝ) (d : Exponential XReal), Exponential.new (fin r) = .ok d →
      (logPartition d : XReal) = fin (Real.log r) ∧
      partitionReal d = ENNReal.ofReal (Real.exp (-Real.log r))) ∧
    (∀ (p : ℝ) (d : Geometric XReal), Geometric.new (fin p) = .ok d → p ≠ 1 →
      ∃ A : ℝ, (logPartition d : XReal) = fin A ∧ PartitionNat d ((1 - p) * Real.exp A)) ∧
    (∃ d : NegativeBinomial XReal, NegativeBinomial.new 1 (fin (1/4)) = .ok d ∧
      ∃ A : ℝ, (logPartition d : XReal) = fin A ∧ Real.exp A = 4/3 ∧ PartitionNat d (3/2)) := by
  refine ⟨?_, ?_, ?_⟩
  · intro r d h
    have hm := (C10_exponential_density h).2.2.2
    obtain ⟨hr, rfl⟩ := Exponential.new_ok h
    have hA : (logPartition (⟨fin r⟩ : Exponential XReal) : XReal) = fin (Real.log r) := f_ln _ hr
    refine ⟨hA, ?_⟩
    have : partitionReal (⟨fin r⟩ : Exponential XReal) = ENNReal.ofReal (Real.exp (-Real.log r)) *
        massReal (fun x => logDensityWrtRoot (⟨fin r⟩ : Exponential XReal) x) := by
      unfold partitionReal massReal
      rw [← MeasureTheory.lintegral_const_mul' _ _ ENNReal.ofReal_ne_top]
      congr 1
      funext x
      cases hx : Measure.inSupport (⟨fin r⟩ : Exponential XReal) (fin x) with
      | false =>
        have hx : x < 0 := by simpa [Measure.inSupport] using hx
        simp [Exponential.ld_of_neg hx]
      | true =>
        have hx : 0 ≤ x := by simpa [Measure.inSupport] using hx
        have h3 : ((dot (toNatural (⟨fin r⟩ : Exponential XReal))
            (sufficientStatistic (⟨fin r⟩ : Exponential XReal) (fin x))
              -. logPartition (⟨fin r⟩ : Exponential XReal))
            +. baseLogDensity (⟨fin r⟩ : Exponential XReal) (fin x)) = fin (-Real.log r - r * x) :=
          Exponential.ef hr
        rw [hA] at h3
        rw [if_pos rfl, unnormalised, add_fin_inv h3]
        beta_reduce
        rw [Exponential.ld_of_nonneg hr hx, density_fin, density_fin, ← ENNReal.ofReal_mul (Real.exp_pos _).le, ← Real.exp_add]
        congr 2
        ring
    rw [this, hm, mul_one]
  · intro p d h hp
    have hs := (C17_geometric_pmf_partial h hp).2.2
    obtain ⟨⟨h0, h1⟩, rfl⟩ := Geometric.new_ok h
    have h1 : p < 1 := lt_of_le_of_ne h1 hp
    have hq : 0 < 1 - p := by linarith
    have hA : (logPartition (⟨fin p⟩ : Geometric XReal) : XReal) = fin (-Real.log p) := by
      simp [logPartition, naturalAndLogPartition, f_ln _ h0]
    refine ⟨_, hA, ?_⟩
    have hs := hs.mul_left ((1 - p) * Real.exp (-Real.log p))
    rw [mul_one] at hs
    refine hs.congr_fun ?_
    intro k
    by_cases hk : 1 ≤ k
    · have hsup : Measure.inSupport (⟨fin p⟩ : Geometric XReal) k = true := by
        simp [Measure.inSupport, hk]
      have h3 : ((dot (toNatural (⟨fin p⟩ : Geometric XReal))
            (sufficientStatistic (⟨fin p⟩ : Geometric XReal) k) -. logPartition (⟨fin p⟩ : Geometric XReal))
            +. baseLogDensity (⟨fin p⟩ : Geometric XReal) k) = fin (k * Real.log (1 - p) + Real.log p) :=
        Geometric.ef h0 h1 k
      rw [hA] at h3
      rw [if_pos hsup, unnormalised, add_fin_inv h3, Geometric.ld_of_pos h0 h1 hk, density_fin, density_fin]
      nth_rewrite 2 [← Real.exp_log hq]
      rw [← Real.exp_add, ← Real.exp_add]
      congr 1
      ring
    · have hk : k = 0 := by omega
      subst hk
      simp [Measure.inSupport, logDensityWrtRoot]
  · have h : ((4 : ℝ)⁻¹) < 1 := by norm_num
    have h0 : (0:ℝ) < 1/4 := by norm_num
    have h1 : (1/4:ℝ) < 1 := by norm_num
    have hA : (logPartition (⟨1, fin (1/4)⟩ : NegativeBinomial XReal) : XReal) = fin (-Real.log (3/4)) := by
      have e : Real.exp (Real.log (1/4) - Real.log (1 - 1/4)) / (1 / (1 - 1/4)) = 1/4 := by
        rw [Real.exp_sub, Real.exp_log h0, Real.exp_log (by norm_num)]
        norm_num
      simp only [logPartition, naturalAndLogPartition, NegativeBinomial.logOdds, f_one, f_sub,
        logOdds_fin h0 h1, f_exp, f_add, one_add_exp_logOdds h0 h1,
        f_div _ ((1:ℝ) / (1 - 1/4)) (by norm_num), e, f_ln ((1:ℝ) - 1/4) (by norm_num), f_ofNat, f_neg, f_mul]
      congr 1
      norm_num
    refine ⟨⟨1, fin (1/4)⟩, by simp [NegativeBinomial.new, h], _, hA, ?_, ?_⟩
    · rw [Real.exp_neg, Real.exp_log (by norm_num)]; norm_num
    · have hs := hasSum_geometric_of_lt_one (r := 1/3) (by norm_num) (by norm_num)
      rw [show ((1:ℝ) - 1/3)⁻¹ = 3/2 by norm_num] at hs
      refine hs.congr_fun ?_
      intro k
      have hsup : Measure.inSupport (⟨1, fin (1/4)⟩ : NegativeBinomial XReal) k = true := rfl
      have h3 : ((dot (toNatural (⟨1, fin (1/4)⟩ : NegativeBinomial XReal))
            (sufficientStatistic (⟨1, fin (1/4)⟩ : NegativeBinomial XReal) k)
              -. logPartition (⟨1, fin (1/4)⟩ : NegativeBinomial XReal))
            +. baseLogDensity (⟨1, fin (1/4)⟩ : NegativeBinomial XReal) k)
          = fin (Real.log ((k + 1 - 1).choose k) + k * (Real.log (1/4) - Real.log (1 - 1/4))
            + (1:ℕ) * Real.log (1 - 1/4)) :=
        NegativeBinomial.ef one_pos h0 h1 k
      rw [hA] at h3
      rw [if_pos hsup, unnormalised, add_fin_inv h3, density_fin]
      have e : (Real.log ((k + 1 - 1).choose k) + k * (Real.log (1/4) - Real.log (1 - 1/4))
            + (1:ℕ) * Real.log (1 - 1/4)) + -Real.log (3/4) = k * Real.log (1/3) := by
        rw [← Real.log_div (by norm_num) (by norm_num),
          show ((1:ℝ)/4) / (1 - 1/4) = 1/3 by norm_num, show (1:ℝ) - 1/4 = 3/4 by norm_num,
          Nat.add_sub_cancel, Nat.choose_self]
        simp
      rw [e, exp_nat_mul_log (by norm_num)]

end Verif
