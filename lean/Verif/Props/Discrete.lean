import Verif.Spec.Dist
import Verif.Lemmas.Dist
import Verif.Lemmas.Coeff

/-!
# C16–C21: discrete distributions
-/

namespace Verif
open FloatOps XReal ProbabilityTheory Spec

/-! ### accepted parameters -/

theorem Bernoulli.new_ok {p : ℝ} {d : Bernoulli XReal} (h : Bernoulli.new (fin p) = .ok d) :
    (0 ≤ p ∧ p ≤ 1) ∧ d = ⟨fin p⟩ := by
  unfold Bernoulli.new at h
  split_ifs at h with h1
  · exact ⟨by simpa using h1, by cases h; rfl⟩

theorem Binomial.new_ok {n : ℕ} {p : ℝ} {d : Binomial XReal} (h : Binomial.new n (fin p) = .ok d) :
    (0 ≤ p ∧ p ≤ 1) ∧ d = ⟨n, fin p⟩ := by
  unfold Binomial.new at h
  split_ifs at h with h1
  · exact ⟨by simpa using h1, by cases h; rfl⟩

theorem Geometric.new_ok {p : ℝ} {d : Geometric XReal} (h : Geometric.new (fin p) = .ok d) :
    (0 < p ∧ p ≤ 1) ∧ d = ⟨fin p⟩ := by
  unfold Geometric.new at h
  split_ifs at h with h1
  · exact ⟨by simpa using h1, by cases h; rfl⟩

theorem NegativeBinomial.new_ok {r : ℕ} {p : ℝ} {d : NegativeBinomial XReal}
    (h : NegativeBinomial.new r (fin p) = .ok d) :
    0 < r ∧ (0 < p ∧ p < 1) ∧ d = ⟨r, fin p⟩ := by
  unfold NegativeBinomial.new at h
  split_ifs at h with h1 h2
  · exact ⟨h1, by simpa using h2, by cases h; rfl⟩

theorem Poisson.new_ok {r : ℝ} {d : Poisson XReal} (h : Poisson.new (fin r) = .ok d) :
    0 < r ∧ d = ⟨fin r⟩ := by
  unfold Poisson.new at h
  split_ifs at h with h1
  · exact ⟨by simpa using h1, by cases h; rfl⟩

theorem Categorical.new_ok {ps : List ℝ} {d : Categorical XReal}
    (h : Categorical.new (ps.map fin) = .ok d) :
    ps ≠ [] ∧ (∀ p ∈ ps, 0 ≤ p) ∧ |ps.sum - 1| < 1/10^10 ∧ d = ⟨ps.map fin⟩ := by
  unfold Categorical.new at h
  split_ifs at h with h1 h2 h3
  rw [f_sum] at h3
  refine ⟨by simpa using h1, ?_, by simpa using h3, by cases h; rfl⟩
  simpa using h2

/-! ### C16 Bernoulli -/

theorem density_ln {p : ℝ} (hp : 0 ≤ p) : density (FloatOps.ln (fin p)) = p := by
  rcases hp.lt_or_eq with h | h
  · rw [f_ln _ h, density_fin, Real.exp_log h]
  · rw [← h, f_ln_zero, density_ninf]

/-- **C16**: for every accepted `p` (including 0 and 1) the mass function is `p` at 1, `1-p` at 0,
0 at every other `u8`, and sums to one over all `u8` values. -/
theorem C16_bernoulli_pmf {p : ℝ} {d : Bernoulli XReal} (h : Bernoulli.new (fin p) = .ok d) :
    (∀ x : UInt8, density (logDensityWrtRoot d x) = if x = 1 then p else if x = 0 then 1 - p else 0) ∧
    ∑ k ∈ Finset.range 256, density (logDensityWrtRoot d (UInt8.ofNat k)) = 1 := by
  obtain ⟨⟨h0, h1⟩, rfl⟩ := Bernoulli.new_ok h
  have key : ∀ x : UInt8, density (logDensityWrtRoot (⟨fin p⟩ : Bernoulli XReal) x)
      = if x = 1 then p else if x = 0 then 1 - p else 0 := by
    intro x
    by_cases hx0 : x = 0
    · subst hx0
      simp [logDensityWrtRoot, density_ln (sub_nonneg.mpr h1)]
    · by_cases hx1 : x = 1
      · subst hx1
        simp [logDensityWrtRoot, density_ln h0]
      · simp [logDensityWrtRoot, hx0, hx1]
  refine ⟨key, ?_⟩
  simp only [key]
  rw [Finset.sum_eq_add_of_mem 0 1 (by simp) (by simp) (by simp)]
  · simp
  · intro k hk hne
    have hk' : k < 256 := by simpa using hk
    have e0 : UInt8.ofNat k ≠ 0 := by
      intro h
      have h := congrArg UInt8.toNat h
      simp [Nat.mod_eq_of_lt hk'] at h
      exact hne.1 h
    have e1 : UInt8.ofNat k ≠ 1 := by
      intro h
      have h := congrArg UInt8.toNat h
      simp [Nat.mod_eq_of_lt hk'] at h
      exact hne.2 h
    simp [e0, e1]

example : Bernoulli.new (fin 0) = .ok ⟨fin 0⟩ := by simp [Bernoulli.new]
example : Bernoulli.new (fin (1/3)) = .ok ⟨fin (1/3)⟩ := by
  have h : ((3 : ℝ)⁻¹) ≤ 1 := by norm_num
  simp [Bernoulli.new, h]

/-! ### C17 Geometric -/

theorem exp_nat_mul_log {p : ℝ} (h : 0 < p) (k : ℕ) : Real.exp (k * Real.log p) = p ^ k := by
  rw [Real.exp_nat_mul, Real.exp_log h]

theorem hasSum_geom {p : ℝ} (h0 : 0 < p) (h1 : p < 1) : HasSum (fun n : ℕ => (1 - p) ^ n * p) 1 := by
  have h := (hasSum_geometric_of_lt_one (show 0 ≤ 1 - p by linarith) (by linarith)).mul_right p
  rwa [sub_sub_cancel, inv_mul_cancel₀ h0.ne'] at h

/-- **C17**, `p < 1`: mass function of the geometric distribution and its total mass.  Missing from
the full claim: `p = 1`, which the constructor accepts, see `C17_geometric_one_violated`. -/
theorem C17_geometric_pmf_partial {p : ℝ} {d : Geometric XReal} (h : Geometric.new (fin p) = .ok d)
    (hp : p ≠ 1) :
    (∀ k : ℕ, 1 ≤ k → density (logDensityWrtRoot d k) = (1 - p) ^ (k - 1) * p) ∧
    (logDensityWrtRoot d 0 : XReal) = ninf ∧
    HasSum (fun k : ℕ => density (logDensityWrtRoot d k)) 1 := by
  obtain ⟨⟨h0, h1⟩, rfl⟩ := Geometric.new_ok h
  have h1 : p < 1 := lt_of_le_of_ne h1 hp
  have hz : (logDensityWrtRoot (⟨fin p⟩ : Geometric XReal) 0 : XReal) = ninf := by
    simp [logDensityWrtRoot]
  have key : ∀ k : ℕ, 1 ≤ k → density (logDensityWrtRoot (⟨fin p⟩ : Geometric XReal) k)
      = (1 - p) ^ (k - 1) * p := by
    intro k hk
    rw [Geometric.ld_of_pos h0 h1 hk, density_fin, Real.exp_add, Real.exp_log h0]
    have : (k : ℝ) - 1 = ((k - 1 : ℕ) : ℝ) := by rw [Nat.cast_sub hk]; simp
    rw [this, exp_nat_mul_log (by linarith)]
  refine ⟨key, hz, ?_⟩
  rw [← hasSum_nat_add_iff' 1]
  simp only [Finset.range_one, Finset.sum_singleton, hz, density_ninf, sub_zero]
  have := hasSum_geom h0 h1
  refine this.congr_fun ?_
  intro k
  rw [key (k + 1) (by omega), Nat.add_sub_cancel]

example : Geometric.new (fin (1/2)) = .ok ⟨fin (1/2)⟩ := by
  have h : ((2 : ℝ)⁻¹) ≤ 1 := by norm_num
  simp [Geometric.new, h]

/-- **C17** violated at `p = 1`: the constructor accepts it, but the log-density at `k = 1`, whose
probability is 1, is NaN. -/
theorem C17_geometric_one_violated :
    ∃ d : Geometric XReal, Geometric.new (fin 1) = .ok d ∧ (logDensityWrtRoot d 1 : XReal) = XReal.nan := by
  refine ⟨⟨fin 1⟩, by simp [Geometric.new], ?_⟩
  have : (fin 0 *. ninf) = XReal.nan := by
    show XReal.mul (fin 0) ninf = XReal.nan
    simp [XReal.mul, infOf]
  simp [logDensityWrtRoot, this]

/-! ### C18 Poisson -/

/-- **C18**: mass function of the Poisson distribution and its total mass. -/
theorem C18_poisson_pmf {r : ℝ} {d : Poisson XReal} (h : Poisson.new (fin r) = .ok d) :
    (∀ k : ℕ, density (logDensityWrtRoot d k) = r ^ k * Real.exp (-r) / k.factorial) ∧
    HasSum (fun k : ℕ => density (logDensityWrtRoot d k)) 1 := by
  obtain ⟨hr, rfl⟩ := Poisson.new_ok h
  have key : ∀ k : ℕ, density (logDensityWrtRoot (⟨fin r⟩ : Poisson XReal) k)
      = r ^ k * Real.exp (-r) / k.factorial := by
    intro k
    have hk : (0 : ℝ) < k.factorial := by exact_mod_cast k.factorial_pos
    rw [Poisson.ld hr, density_fin, Real.exp_sub, Real.exp_log hk, sub_eq_add_neg, Real.exp_add,
      exp_nat_mul_log hr]
  refine ⟨key, ?_⟩
  have := hasSum_one_poissonMeasure r.toNNReal
  refine this.congr_fun ?_
  intro k
  rw [key, Real.coe_toNNReal _ hr.le, mul_comm]

example : Poisson.new (fin 3) = .ok ⟨fin 3⟩ := by simp [Poisson.new]

/-! ### C19 Categorical -/

/-- **C19**: for every accepted probability vector of any length (zero entries included), the mass at
`i` is entry `i`, it is 0 beyond the end, and the total is within `1e-10` of one. -/
theorem C19_categorical_pmf {ps : List ℝ} {d : Categorical XReal}
    (h : Categorical.new (ps.map fin) = .ok d) :
    (∀ i (hi : i < ps.length), density (logDensityWrtRoot d i) = ps[i]) ∧
    (∀ i, ps.length ≤ i → (logDensityWrtRoot d i : XReal) = ninf) ∧
    (∃ t, HasSum (fun i : ℕ => density (logDensityWrtRoot d i)) t ∧ |t - 1| < 1/10^10) := by
  obtain ⟨-, hpos, hsum, rfl⟩ := Categorical.new_ok h
  have key : ∀ i (hi : i < ps.length),
      density (logDensityWrtRoot (⟨ps.map fin⟩ : Categorical XReal) i) = ps[i] := by
    intro i hi
    simp [logDensityWrtRoot, hi, density_ln (hpos _ (List.getElem_mem hi))]
  have key2 : ∀ i, ps.length ≤ i →
      (logDensityWrtRoot (⟨ps.map fin⟩ : Categorical XReal) i : XReal) = ninf := by
    intro i hi
    have : ps[i]? = none := by simp [hi]
    simp [logDensityWrtRoot, this]
  refine ⟨key, key2, ps.sum, ?_, hsum⟩
  have hs : ps.sum = ∑ i ∈ Finset.range ps.length,
      density (logDensityWrtRoot (⟨ps.map fin⟩ : Categorical XReal) i) := by
    rw [Finset.sum_range, ← List.sum_ofFn]
    congr 1
    apply List.ext_getElem (by simp)
    intro i h1 h2
    simp [key i h1]
  rw [hs]
  apply hasSum_sum_of_ne_finset_zero
  intro i hi
  rw [key2 i (by simpa using hi), density_ninf]

example : Categorical.new ([1/2, 0, 1/2].map fin) = .ok ⟨[1/2, 0, 1/2].map fin⟩ := by
  unfold Categorical.new
  rw [f_sum]
  simp
  norm_num

/-! ### C20 Binomial -/

/-- **C19**: the number of categories is the number of probabilities, and the support consists of the
indices below it. -/
theorem C19_num_categories {ps : List ℝ} {d : Categorical XReal}
    (h : Categorical.new (ps.map fin) = .ok d) :
    d.numCategories = ps.length ∧
    ∀ i : ℕ, Measure.inSupport d i = true ↔ i < d.numCategories := by
  obtain ⟨-, -, -, rfl⟩ := Categorical.new_ok h
  exact ⟨by simp [Categorical.numCategories], fun i => by simp [Categorical.numCategories, Measure.inSupport]⟩

/-- **C20**, what holds: for accepted `0 < p < 1` the log-density is the one with respect to the
binomial-coefficient measure, so that adding that measure's log-density gives the binomial mass
function, which sums to one.  Missing: the claim is about the log-density with respect to the
counting measure, the root measure the distribution reports; see `C20_binomial_violated`. -/
theorem C20_binomial_pmf_partial {n : ℕ} {p : ℝ} {d : Binomial XReal}
    (h : Binomial.new n (fin p) = .ok d) (h0 : p ≠ 0) (h1 : p ≠ 1) :
    (∀ k ≤ n, density (logDensityWrtRoot d k +. logDensityWrtRoot (⟨n⟩ : BinomialCoefficientMeasure XReal) k)
      = n.choose k * p ^ k * (1 - p) ^ (n - k)) ∧
    (∀ k, n < k → (logDensityWrtRoot d k : XReal) = ninf) ∧
    HasSum (fun k => density (logDensityWrtRoot d k
      +. logDensityWrtRoot (⟨n⟩ : BinomialCoefficientMeasure XReal) k)) 1 := by
  obtain ⟨⟨h0', h1'⟩, rfl⟩ := Binomial.new_ok h
  have h0 : 0 < p := lt_of_le_of_ne h0' (Ne.symm h0)
  have h1 : p < 1 := lt_of_le_of_ne h1' h1
  have key : ∀ k ≤ n, density (logDensityWrtRoot (⟨n, fin p⟩ : Binomial XReal) k
        +. logDensityWrtRoot (⟨n⟩ : BinomialCoefficientMeasure XReal) k)
      = n.choose k * p ^ k * (1 - p) ^ (n - k) := by
    intro k hk
    have e : (logDensityWrtRoot (⟨n⟩ : BinomialCoefficientMeasure XReal) k : XReal)
        = fin (Real.log (n.choose k)) := by
      simp [logDensityWrtRoot, not_lt.mpr hk, logBinomialCoefficient_fin hk]
    have hc : (0 : ℝ) < n.choose k := by exact_mod_cast Nat.choose_pos hk
    rw [Binomial.ld_of_le h0 h1 hk, e, f_add, density_fin, Real.exp_add, Real.exp_add,
      Real.exp_log hc, exp_nat_mul_log h0, ← Nat.cast_sub hk, exp_nat_mul_log (by linarith)]
    ring
  have key2 : ∀ k, n < k → (logDensityWrtRoot (⟨n, fin p⟩ : Binomial XReal) k : XReal) = ninf := by
    intro k hk
    simp [logDensityWrtRoot, not_le.mpr hk]
  refine ⟨key, key2, ?_⟩
  have hs := add_pow p (1 - p) n
  rw [add_sub_cancel, one_pow] at hs
  rw [hs]
  have hf : ∀ k ∈ Finset.range (n + 1), p ^ k * (1 - p) ^ (n - k) * (n.choose k : ℝ)
      = density (logDensityWrtRoot (⟨n, fin p⟩ : Binomial XReal) k
        +. logDensityWrtRoot (⟨n⟩ : BinomialCoefficientMeasure XReal) k) := by
    intro k hk
    rw [key k (by simpa [Nat.lt_succ_iff] using hk)]; ring
  rw [Finset.sum_congr rfl hf]
  apply hasSum_sum_of_ne_finset_zero
  intro k hk
  have hk : n < k := by simpa using hk
  have e : (logDensityWrtRoot (⟨n⟩ : BinomialCoefficientMeasure XReal) k : XReal) = ninf := by
    simp [logDensityWrtRoot, hk]
  rw [key2 k hk, e]; rfl

example : Binomial.new 5 (fin (1/2)) = .ok ⟨5, fin (1/2)⟩ := by
  have h : ((2 : ℝ)⁻¹) ≤ 1 := by norm_num
  simp [Binomial.new, h]

/-- **C20** violated: the reported root measure of a binomial is the counting measure, but for
`n = 2`, `p = 1/2` the density at `k = 1` is `1/4` instead of `1/2`; and at the accepted `p = 1` the
log-density at `k = n` is NaN. -/
theorem C20_binomial_violated :
    (∃ d : Binomial XReal, Binomial.new 2 (fin (1/2)) = .ok d ∧
      density (logDensityWrtRoot d 1) = 1/4 ∧ ((Nat.choose 2 1 : ℝ) * (1/2) ^ 1 * (1 - 1/2) ^ (2 - 1)) = 1/2) ∧
    (∃ d : Binomial XReal, Binomial.new 2 (fin 1) = .ok d ∧ (logDensityWrtRoot d 2 : XReal) = XReal.nan) := by
  constructor
  · have h : ((2 : ℝ)⁻¹) ≤ 1 := by norm_num
    refine ⟨⟨2, fin (1/2)⟩, by simp [Binomial.new, h], ?_, by norm_num⟩
    rw [Binomial.ld_of_le (by norm_num) (by norm_num) (by norm_num), density_fin, Real.exp_add]
    norm_num
    rw [Real.exp_log (by norm_num)]
    norm_num
  · refine ⟨⟨2, fin 1⟩, by simp [Binomial.new], ?_⟩
    have : (fin 0 *. ninf) = XReal.nan := by
      show XReal.mul (fin 0) ninf = XReal.nan
      simp [XReal.mul, infOf]
    simp [logDensityWrtRoot, this]

/-! ### C21 Negative binomial -/

/-- **C21**, what holds: adding the coefficient measure's log-density gives the mass function of the
number `k` of failures before the `r`-th success, which sums to one; for `r = 1` the log-density is
already normalised.  Missing: normalisation with respect to the counting measure and agreement with
the exponential-family form, see `C21_negative_binomial_violated`. -/
theorem C21_negative_binomial_pmf_partial {r : ℕ} {p : ℝ} {d : NegativeBinomial XReal}
    (h : NegativeBinomial.new r (fin p) = .ok d) :
    (∀ k : ℕ, density (logDensityWrtRoot d k
        +. logDensityWrtRoot (⟨r⟩ : NegativeBinomialCoefficientMeasure XReal) k)
      = (k + r - 1).choose k * p ^ r * (1 - p) ^ k) ∧
    HasSum (fun k => density (logDensityWrtRoot d k
        +. logDensityWrtRoot (⟨r⟩ : NegativeBinomialCoefficientMeasure XReal) k)) 1 ∧
    (r = 1 → HasSum (fun k => density (logDensityWrtRoot d k)) 1) := by
  obtain ⟨hr, ⟨h0, h1⟩, rfl⟩ := NegativeBinomial.new_ok h
  have hq : 0 < 1 - p := by linarith
  have key0 : ∀ k : ℕ, density (logDensityWrtRoot (⟨r, fin p⟩ : NegativeBinomial XReal) k)
      = p ^ r * (1 - p) ^ k := by
    intro k
    rw [NegativeBinomial.ld h0 h1, density_fin, Real.exp_add, exp_nat_mul_log h0, exp_nat_mul_log hq]
  have key : ∀ k : ℕ, density (logDensityWrtRoot (⟨r, fin p⟩ : NegativeBinomial XReal) k
        +. logDensityWrtRoot (⟨r⟩ : NegativeBinomialCoefficientMeasure XReal) k)
      = (k + r - 1).choose k * p ^ r * (1 - p) ^ k := by
    intro k
    have e : (logDensityWrtRoot (⟨r⟩ : NegativeBinomialCoefficientMeasure XReal) k : XReal)
        = fin (Real.log ((k + r - 1).choose k)) := logNegativeBinomialCoefficient_fin hr
    have hc : (0 : ℝ) < (k + r - 1).choose k := by exact_mod_cast Nat.choose_pos (by omega)
    rw [e, NegativeBinomial.ld h0 h1, f_add, density_fin, Real.exp_add, Real.exp_add, Real.exp_log hc,
      exp_nat_mul_log h0, exp_nat_mul_log hq]
    ring
  refine ⟨key, ?_, ?_⟩
  · obtain ⟨s, rfl⟩ : ∃ s, r = s + 1 := ⟨r - 1, by omega⟩
    have hn : ‖1 - p‖ < 1 := by
      rw [Real.norm_eq_abs, abs_of_pos hq]; linarith
    have hs := (hasSum_choose_mul_geometric_of_norm_lt_one s hn).mul_left (p ^ (s + 1))
    rw [sub_sub_cancel, mul_one_div_cancel (by positivity)] at hs
    refine hs.congr_fun ?_
    intro k
    rw [key, show k + (s + 1) - 1 = k + s by omega, Nat.choose_symm_add]
    ring
  · rintro rfl
    have hs := hasSum_geom h0 h1
    refine hs.congr_fun ?_
    intro k
    rw [key0]; ring

example : NegativeBinomial.new 3 (fin (1/2)) = .ok ⟨3, fin (1/2)⟩ := by
  have h : ((2 : ℝ)⁻¹) < 1 := by norm_num
  simp [NegativeBinomial.new, h]

/-- **C21** violated: for every accepted `p` and every `r ≥ 2` the reported mass function sums to
`p^(r-1) < 1`, and the exponential-family evaluation disagrees with the log-density already at
`r = 1`, `p = 1/4`, `k = 0`. -/
theorem C21_negative_binomial_violated :
    (∀ (r : ℕ) (p : ℝ) (d : NegativeBinomial XReal), 2 ≤ r → NegativeBinomial.new r (fin p) = .ok d →
      HasSum (fun k => density (logDensityWrtRoot d k)) (p ^ (r - 1)) ∧ p ^ (r - 1) < 1) ∧
    (∃ d : NegativeBinomial XReal, NegativeBinomial.new 1 (fin (1/4)) = .ok d ∧
      density (logDensityWrtRoot d 0) = 1/4 ∧
      density (ExponentialFamily.expFamLogDensity d 0) = 3/4) := by
  constructor
  · intro r p d hr h
    obtain ⟨-, ⟨h0, h1⟩, rfl⟩ := NegativeBinomial.new_ok h
    have hq : 0 < 1 - p := by linarith
    refine ⟨?_, pow_lt_one₀ h0.le h1 (by omega)⟩
    have hs := (hasSum_geom h0 h1).mul_left (p ^ (r - 1))
    rw [mul_one] at hs
    refine hs.congr_fun ?_
    intro k
    rw [NegativeBinomial.ld h0 h1, density_fin, Real.exp_add, exp_nat_mul_log h0, exp_nat_mul_log hq]
    obtain ⟨s, rfl⟩ : ∃ s, r = s + 1 := ⟨r - 1, by omega⟩
    simp [pow_succ]; ring
  · have h : ((4 : ℝ)⁻¹) < 1 := by norm_num
    refine ⟨⟨1, fin (1/4)⟩, by simp [NegativeBinomial.new, h], ?_, ?_⟩
    · rw [NegativeBinomial.ld (by norm_num) (by norm_num), density_fin]
      norm_num
      rw [Real.exp_log (by norm_num)]
    · have e : (logNegativeBinomialCoefficient 1 0 : XReal) = fin 0 := by
        rw [logNegativeBinomialCoefficient_fin one_pos]; simp
      simp only [ExponentialFamily.expFamLogDensity, expFamLogDensityDefault, NegativeBinomial.logOdds,
        logDensityWrtRoot, e, f_one, f_sub, f_ofNat]
      rw [f_div _ _ (by norm_num), f_ln _ (by norm_num), f_exp, Real.exp_log (by norm_num), f_add,
        f_div _ _ (by norm_num), f_sub, f_ln _ (by norm_num)]
      simp
      rw [Real.exp_log] <;> norm_num

end Verif
