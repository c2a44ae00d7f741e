import Verif.Props.Continuous
import Verif.Props.Discrete
import Verif.Props.Derived

/-!
# C24: exponential-family form against log-density
-/

namespace Verif
open FloatOps XReal Spec ExponentialFamily

/-! ### closed forms of the exponential-family evaluation -/

theorem Normal.ef {μ σ x : ℝ} (hσ : 0 < σ) :
    (expFamLogDensity (⟨fin μ, fin σ⟩ : Normal XReal) (fin x) : XReal)
      = fin (-(1/2) * Real.log (2 * Real.pi) - Real.log σ - 1/2 * ((x - μ)/σ) * ((x - μ)/σ)) := by
  have h2 : 0 < 2 * Real.pi * (σ * σ) := by positivity
  simp only [expFamLogDensity, expFamLogDensityDefault, Normal.variance, recip, f_mul, f_one,
    f_div _ _ (mul_pos hσ hσ).ne', f_ofRat, f_pi, Rat.cast_ofNat, f_ln _ h2, logDensityWrtRoot, f_zero,
    dot_two_fin, f_add, f_sub]
  congr 1
  rw [show 2 * Real.pi * (σ * σ) = 2 * Real.pi * σ ^ 2 by ring,
    Real.log_mul two_pi_pos'.ne' (by positivity), Real.log_pow]
  push_cast
  field_simp
  ring

theorem StdNormal.ef {x : ℝ} :
    (expFamLogDensity ({} : StdNormal XReal) (fin x) : XReal)
      = fin (-(1/2) * Real.log (2 * Real.pi) - 1/2 * x * x) := by
  simp only [expFamLogDensity, expFamLogDensityDefault, f_mul, f_ofRat, f_pi, Rat.cast_ofNat,
    f_ln _ two_pi_pos', logDensityWrtRoot, f_zero, dot_two_fin, f_add, f_sub]
  congr 1
  push_cast
  ring

theorem Exponential.ef {r x : ℝ} (hr : 0 < r) :
    (expFamLogDensity (⟨fin r⟩ : Exponential XReal) (fin x) : XReal) = fin (-Real.log r - r * x) := by
  simp only [expFamLogDensity, expFamLogDensityDefault, f_neg, f_ln _ hr, logDensityWrtRoot, f_zero,
    dot_one_fin, f_add, f_sub]
  congr 1
  ring

theorem Gamma.ef {a b x : ℝ} (ha : 0 < a) (hb : 0 < b) (hx : 0 < x) :
    (expFamLogDensity (⟨fin a, fin b⟩ : Gamma XReal) (fin x) : XReal)
      = fin (a * Real.log b - Real.log (Real.Gamma a) + (a - 1) * Real.log x - b * x) := by
  simp only [expFamLogDensity, expFamLogDensityDefault, f_neg, f_one, f_ln _ hb, f_ln _ hx,
    f_lnGamma _ ha, logDensityWrtRoot, f_zero, f_sub, f_mul, dot_two_fin, f_add]
  congr 1
  ring

theorem Beta.ef {a b x : ℝ} (ha : 0 < a) (hb : 0 < b) (h0 : 0 < x) (h1 : x < 1) :
    (expFamLogDensity (⟨fin a, fin b⟩ : Beta XReal) (fin x) : XReal)
      = fin (Real.log (Real.Gamma (a + b)) - Real.log (Real.Gamma a) - Real.log (Real.Gamma b)
        + (a - 1) * Real.log x + (b - 1) * Real.log (1 - x)) := by
  simp only [expFamLogDensity, expFamLogDensityDefault, f_one, f_sub, f_ln _ h0, f_add,
    f_ln (1 - x) (by linarith), f_lnGamma _ ha, f_lnGamma _ hb, f_lnGamma _ (add_pos ha hb),
    logDensityWrtRoot, f_zero, dot_two_fin]
  congr 1
  ring

theorem ChiSquared.ef {k x : ℝ} (hk : 0 < k) (hx : 0 < x) :
    (expFamLogDensity (⟨fin k⟩ : ChiSquared XReal) (fin x) : XReal)
      = fin (-(k/2) * Real.log 2 - Real.log (Real.Gamma (k/2)) + (k/2 - 1) * Real.log x - x / 2) := by
  simp only [expFamLogDensity, expFamLogDensityDefault, ChiSquared.shape, ChiSquared.rate, f_ofRat,
    Rat.cast_ofNat, f_div _ _ (two_ne_zero (α := ℝ)), f_neg, f_one, f_sub,
    f_ln _ (two_pos (α := ℝ)), f_ln _ hx,
    f_lnGamma (k/2) (by positivity), logDensityWrtRoot, f_zero, f_mul, dot_two_fin, f_add]
  congr 1
  push_cast
  ring

theorem Geometric.ef {p : ℝ} (h0 : 0 < p) (h1 : p < 1) (k : ℕ) :
    (expFamLogDensity (⟨fin p⟩ : Geometric XReal) k : XReal)
      = fin (k * Real.log (1 - p) + Real.log p) := by
  simp only [expFamLogDensity, expFamLogDensityDefault, Geometric.failureProb, f_one, f_sub,
    f_ln _ h0, f_ln (1 - p) (by linarith), f_ofNat, f_neg, logDensityWrtRoot, f_zero, dot_one_fin, f_add]
  congr 1
  ring

theorem Poisson.ef {r : ℝ} (hr : 0 < r) (k : ℕ) :
    ∃ e : ℝ, |e| ≤ 1/10^12 ∧ (expFamLogDensity (⟨fin r⟩ : Poisson XReal) k : XReal)
      = fin (k * Real.log r - r - Real.log (Nat.factorial k) + e) := by
  obtain ⟨v, hv, hb⟩ := C38_log_factorial_accurate k
  refine ⟨Real.log (Nat.factorial k) - v, by rwa [abs_sub_comm], ?_⟩
  simp only [expFamLogDensity, expFamLogDensityDefault, f_ln _ hr, f_ofNat, logDensityWrtRoot, hv,
    f_neg, dot_one_fin, f_add, f_sub]
  congr 1
  ring

theorem logOdds_fin {p : ℝ} (h0 : 0 < p) (h1 : p < 1) :
    FloatOps.ln (fin p /. fin (1 - p)) = fin (Real.log p - Real.log (1 - p)) := by
  have hq : 0 < 1 - p := by linarith
  rw [f_div _ _ hq.ne', f_ln _ (by positivity), Real.log_div h0.ne' hq.ne']

theorem one_add_exp_logOdds {p : ℝ} (h0 : 0 < p) (h1 : p < 1) :
    1 + Real.exp (Real.log p - Real.log (1 - p)) = 1 / (1 - p) := by
  have hq : 0 < 1 - p := by linarith
  rw [Real.exp_sub, Real.exp_log h0, Real.exp_log hq]
  field_simp
  ring

theorem Bernoulli.ef {p : ℝ} (h0 : 0 < p) (h1 : p < 1) (x : UInt8) :
    (expFamLogDensity (⟨fin p⟩ : Bernoulli XReal) x : XReal)
      = fin (x.toNat * (Real.log p - Real.log (1 - p)) + Real.log (1 - p)) := by
  have hq : 0 < 1 - p := by linarith
  simp only [expFamLogDensity, expFamLogDensityDefault, Bernoulli.logOdds, f_one, f_sub,
    logOdds_fin h0 h1, f_exp, f_add, one_add_exp_logOdds h0 h1,
    f_ln (1 / (1 - p)) (by positivity), f_ofNat, logDensityWrtRoot, f_zero, dot_one_fin]
  congr 1
  rw [Real.log_div one_ne_zero hq.ne', Real.log_one]
  ring

theorem Binomial.ef {n : ℕ} {p : ℝ} (h0 : 0 < p) (h1 : p < 1) {k : ℕ} (hk : k ≤ n) :
    (expFamLogDensity (⟨n, fin p⟩ : Binomial XReal) k : XReal)
      = fin (Real.log (n.choose k) + k * Real.log p + (n - k) * Real.log (1 - p)) := by
  have hq : 0 < 1 - p := by linarith
  simp only [expFamLogDensity, expFamLogDensityDefault, Binomial.logOdds, f_one, f_sub,
    logOdds_fin h0 h1, f_exp, f_add, one_add_exp_logOdds h0 h1,
    f_ln (1 / (1 - p)) (by positivity), f_ofNat, logDensityWrtRoot, f_mul, dot_one_fin,
    show ¬ k > n by omega, if_false, logBinomialCoefficient_fin hk]
  congr 1
  rw [Real.log_div one_ne_zero hq.ne', Real.log_one]
  ring

theorem NegativeBinomial.ef {r : ℕ} {p : ℝ} (hr : 0 < r) (h0 : 0 < p) (h1 : p < 1) (k : ℕ) :
    (expFamLogDensity (⟨r, fin p⟩ : NegativeBinomial XReal) k : XReal)
      = fin (Real.log ((k + r - 1).choose k) + k * (Real.log p - Real.log (1 - p))
          + r * Real.log (1 - p)) := by
  have hq : 0 < 1 - p := by linarith
  have e : Real.exp (Real.log p - Real.log (1 - p)) / (1 / (1 - p)) = p := by
    rw [Real.exp_sub, Real.exp_log h0, Real.exp_log hq]
    field_simp
  simp only [expFamLogDensity, expFamLogDensityDefault, NegativeBinomial.logOdds, f_one, f_sub,
    logOdds_fin h0 h1, f_exp, f_add, one_add_exp_logOdds h0 h1, f_div _ (1 / (1 - p)) (by positivity), e,
    f_ln (1 - p) hq, f_ofNat, f_neg, logDensityWrtRoot, f_mul, dot_one_fin,
    logNegativeBinomialCoefficient_fin hr]
  congr 1
  ring

/-! ### Categorical -/

theorem dot_fin (as bs : List ℝ) :
    (dot (as.map fin) (bs.map fin) : XReal) = fin ((List.zipWith (· * ·) as bs).sum) := by
  have key : ∀ (as bs : List ℝ) (c : ℝ),
      ((as.map fin).zip (bs.map fin)).foldl (fun acc (p : XReal × XReal) => acc +. p.1 *. p.2) (fin c)
        = fin (c + (List.zipWith (· * ·) as bs).sum) := by
    intro as
    induction as with
    | nil => intro bs c; simp
    | cons a as ih =>
      intro bs c
      cases bs with
      | nil => simp
      | cons b bs => simp [ih, add_assoc]
  have := key as bs 0
  simpa [dot] using this

theorem zipWith_mul_replicate_zero (as : List ℝ) (n : ℕ) :
    (List.zipWith (· * ·) as (List.replicate n 0)).sum = 0 := by
  induction as generalizing n with
  | nil => simp
  | cons a as ih => cases n with
    | zero => simp
    | succ n => simp [List.replicate_succ, ih]

theorem zipWith_mul_unit (as : List ℝ) (i : ℕ) (h : i < as.length) :
    (List.zipWith (· * ·) as ((List.replicate as.length 0).set i 1)).sum = as[i] := by
  induction as generalizing i with
  | nil => simp at h
  | cons a as ih =>
    cases i with
    | zero => simp [List.replicate_succ, zipWith_mul_replicate_zero]
    | succ i => simpa [List.replicate_succ] using ih i (by simpa using h)

theorem Categorical.logOdds_fin {ini : List ℝ} {l : ℝ} (hl : 0 < l) (hpos : ∀ p ∈ ini, 0 < p) :
    (⟨(ini ++ [l]).map fin⟩ : Categorical XReal).logOdds = (ini.map (fun p => Real.log (p / l))).map fin := by
  simp only [Categorical.logOdds, List.map_append, List.map_cons, List.map_nil, List.dropLast_concat,
    List.map_map]
  have : (ini.map fin ++ [fin l]).getLastD (zero : XReal) = fin l := by simp [List.getLastD_eq_getLast?]
  rw [this]
  apply List.map_congr_left
  intro p hp
  have hp := hpos p hp
  simp only [Function.comp]
  rw [f_div _ _ hl.ne', f_ln _ (div_pos hp hl)]

theorem Categorical.natural_fin {ini : List ℝ} {l : ℝ} (hl : 0 < l) (hpos : ∀ p ∈ ini, 0 < p) :
    (⟨(ini ++ [l]).map fin⟩ : Categorical XReal).natural
      = ((ini.map (fun p => Real.log (p / l))).map fin, fin (Real.log ((ini ++ [l]).sum) - Real.log l)) := by
  have hs : 0 ≤ ini.sum := List.sum_nonneg (fun p hp => (hpos p hp).le)
  simp only [Categorical.natural, Categorical.logOdds_fin hl hpos]
  have e : List.map FloatOps.exp ((ini.map (fun p => Real.log (p / l))).map fin)
      = (ini.map (fun p => p / l)).map fin := by
    rw [List.map_map, List.map_map, List.map_map]
    apply List.map_congr_left
    intro p hp
    have hp := hpos p hp
    simp [Real.exp_log (div_pos hp hl)]
  have e2 : (ini.map (fun p => p / l)).sum = ini.sum / l := by
    have := sum_map_mul_real ini l⁻¹ id
    rw [List.map_id] at this
    simp only [id] at this
    rw [div_eq_inv_mul, ← this]
    congr 1
    apply List.map_congr_left
    intro p _
    rw [div_eq_inv_mul]
  rw [e, f_sum, e2, f_one, f_add, f_ln _ (by positivity)]
  congr 2
  rw [← Real.log_div (by simp; positivity) hl.ne']
  congr 1
  simp
  field_simp
  ring

theorem Categorical.ef {ini : List ℝ} {l : ℝ} (hl : 0 < l) (hpos : ∀ p ∈ ini, 0 < p) (i : ℕ) :
    (expFamLogDensity (⟨(ini ++ [l]).map fin⟩ : Categorical XReal) i : XReal)
      = if h : i < (ini ++ [l]).length then
          fin (Real.log ((ini ++ [l])[i]) - Real.log (ini ++ [l]).sum) else ninf := by
  by_cases h : i < (ini ++ [l]).length
  · rw [dif_pos h]
    have hsup : Measure.inSupport (⟨(ini ++ [l]).map fin⟩ : Categorical XReal) i = true := by
      show decide (i < ((ini ++ [l]).map fin).length) = true
      simpa using h
    simp only [expFamLogDensity, hsup, Bool.not_true, Bool.false_eq_true, if_false,
      Categorical.natural_fin hl hpos]
    have hstat : (⟨(ini ++ [l]).map fin⟩ : Categorical XReal).stat i
        = (if i < ini.length then (List.replicate ini.length (0:ℝ)).set i 1
            else List.replicate ini.length (0:ℝ)).map fin := by
      simp only [Categorical.stat, List.length_map, List.length_append, List.length_singleton,
        Nat.add_sub_cancel]
      split_ifs <;> simp [List.map_set]
    rw [hstat, dot_fin]
    show (_ +. (FloatOps.zero : XReal)) = _
    rw [f_zero, f_sub, f_add, add_zero]
    congr 1
    by_cases hi : i < ini.length
    · have := zipWith_mul_unit (ini.map (fun p => Real.log (p / l))) i (by simpa using hi)
      simp only [List.length_map] at this
      have hp := hpos _ (List.getElem_mem hi)
      rw [if_pos hi, this, List.getElem_map, List.getElem_append_left hi, Real.log_div hp.ne' hl.ne']
      ring
    · have hi' : i = ini.length := by simp at h; omega
      subst hi'
      rw [if_neg hi, zipWith_mul_replicate_zero]
      simp
  · rw [dif_neg h]
    have hsup : Measure.inSupport (⟨(ini ++ [l]).map fin⟩ : Categorical XReal) i = false := by
      show decide (i < ((ini ++ [l]).map fin).length) = false
      simpa using h
    simp only [expFamLogDensity, hsup, Bool.not_false, if_true]
    rfl

/-! ### C24 -/

/-- **C24**, continuous families where it holds: Normal at every real, Gamma and ChiSquared at every
positive real, Beta inside the unit interval, for every accepted parameter; StdNormal agrees with the
accepted `Normal(0, 1)`. -/
theorem C24_continuous_agree :
    (∀ (μ σ : ℝ) (d : Normal XReal), Normal.new (fin μ) (fin σ) = .ok d →
      ∀ x : ℝ, (expFamLogDensity d (fin x) : XReal) = logDensityWrtRoot d (fin x)) ∧
    (∀ (a b : ℝ) (d : Gamma XReal), Gamma.new (fin a) (fin b) = .ok d →
      ∀ x : ℝ, Measure.inSupport d (fin x) = true →
        (expFamLogDensity d (fin x) : XReal) = logDensityWrtRoot d (fin x)) ∧
    (∀ (a b : ℝ) (d : Beta XReal), Beta.new (fin a) (fin b) = .ok d →
      ∀ x : ℝ, Measure.inSupport d (fin x) = true →
        (expFamLogDensity d (fin x) : XReal) = logDensityWrtRoot d (fin x)) ∧
    (∀ (k : ℝ) (d : ChiSquared XReal), ChiSquared.new (fin k) = .ok d →
      ∀ x : ℝ, Measure.inSupport d (fin x) = true →
        (expFamLogDensity d (fin x) : XReal) = logDensityWrtRoot d (fin x)) ∧
    (∀ (d : Normal XReal), Normal.new (fin 0) (fin 1) = .ok d →
      ∀ x : ℝ, (expFamLogDensity ({} : StdNormal XReal) (fin x) : XReal) = logDensityWrtRoot d (fin x)) := by
  refine ⟨?_, ?_, ?_, ?_, ?_⟩
  · intro μ σ d h x
    obtain ⟨hσ, rfl⟩ := Normal.new_ok h
    rw [Normal.ef hσ, Normal.ld hσ]
  · intro a b d h x hx
    obtain ⟨ha, hb, rfl⟩ := Gamma.new_ok h
    have hx : 0 < x := by simpa [Measure.inSupport] using hx
    rw [Gamma.ef ha hb hx, Gamma.ld_of_pos ha hb hx]
  · intro a b d h x hx
    obtain ⟨ha, hb, rfl⟩ := Beta.new_ok h
    have hx : 0 < x ∧ x < 1 := by simpa [Measure.inSupport] using hx
    rw [Beta.ef ha hb hx.1 hx.2, Beta.ld_of_mem ha hb hx.1 hx.2]
  · intro k d h x hx
    obtain ⟨hk, rfl⟩ := ChiSquared.new_ok h
    have hx : 0 < x := by simpa [Measure.inSupport] using hx
    rw [ChiSquared.ef hk hx, ChiSquared.ld_of_pos hk hx]
  · intro d h x
    obtain ⟨hσ, rfl⟩ := Normal.new_ok h
    rw [StdNormal.ef, Normal.ld hσ]
    simp

example : ∃ d, Gamma.new (fin 2) (fin 3) = .ok d ∧ Measure.inSupport d (fin 5) = true :=
  ⟨⟨fin 2, fin 3⟩, by simp [Gamma.new], by simp [Measure.inSupport]⟩

/-- **C24**, discrete families where it holds: Bernoulli for `0 < p < 1` on its support; Poisson for
every rate and count up to the `1e-12` of the factorial table; Categorical for positive probability
vectors of any length, up to the logarithm of the sum of the vector (0 when it is exactly 1, below
`2e-10` for every accepted vector), and with the same `-∞` outside the support.  Missing from the full
claim: boundary probabilities and the families of `C24_violated`. -/
theorem C24_discrete_agree_partial :
    (∀ (p : ℝ) (d : Bernoulli XReal), Bernoulli.new (fin p) = .ok d → p ≠ 0 → p ≠ 1 →
      ∀ x : UInt8, Measure.inSupport d x = true →
        (expFamLogDensity d x : XReal) = logDensityWrtRoot d x) ∧
    (∀ (r : ℝ) (d : Poisson XReal), Poisson.new (fin r) = .ok d → ∀ k : ℕ,
      ∃ a b : ℝ, (expFamLogDensity d k : XReal) = fin a ∧ (logDensityWrtRoot d k : XReal) = fin b ∧
        |a - b| ≤ 1/10^12) ∧
    (∀ (ps : List ℝ) (d : Categorical XReal), Categorical.new (ps.map fin) = .ok d →
      (∀ p ∈ ps, p ≠ 0) → ∀ i : ℕ,
        (Measure.inSupport d i = true → ∃ a b : ℝ, (expFamLogDensity d i : XReal) = fin a ∧
          (logDensityWrtRoot d i : XReal) = fin b ∧ |a - b| ≤ 2/10^10 ∧ (ps.sum = 1 → a = b)) ∧
        (Measure.inSupport d i = false →
          (expFamLogDensity d i : XReal) = ninf ∧ (logDensityWrtRoot d i : XReal) = ninf)) := by
  refine ⟨?_, ?_, ?_⟩
  · intro p d h hp0 hp1 x hx
    obtain ⟨⟨h0, h1⟩, rfl⟩ := Bernoulli.new_ok h
    have h0 : 0 < p := lt_of_le_of_ne h0 (Ne.symm hp0)
    have h1 : p < 1 := lt_of_le_of_ne h1 hp1
    have hx : x = 0 ∨ x = 1 := by simpa [Measure.inSupport] using hx
    rw [Bernoulli.ef h0 h1]
    rcases hx with rfl | rfl
    · simp [logDensityWrtRoot, f_ln (1 - p) (by linarith)]
    · simp [logDensityWrtRoot, f_ln p h0]
  · intro r d h k
    obtain ⟨hr, rfl⟩ := Poisson.new_ok h
    obtain ⟨e, he, hef⟩ := Poisson.ef hr k
    exact ⟨_, _, hef, Poisson.ld hr k, by simpa using he⟩
  · intro ps d h hne i
    obtain ⟨hn, hpos, hsum, rfl⟩ := Categorical.new_ok h
    obtain rfl | ⟨ini, l, rfl⟩ := List.eq_nil_or_concat ps
    · exact absurd rfl hn
    rw [List.concat_eq_append] at *
    have hp : ∀ p ∈ ini ++ [l], 0 < p := fun p hp => lt_of_le_of_ne (hpos p hp) (Ne.symm (hne p hp))
    have hl : 0 < l := hp l (by simp)
    have hini : ∀ p ∈ ini, 0 < p := fun p h => hp p (by simp [h])
    constructor
    · intro hsup
      have hi : i < (ini ++ [l]).length := by
        have : decide (i < ((ini ++ [l]).map fin).length) = true := hsup
        simpa using this
      refine ⟨_, Real.log (ini ++ [l])[i], by rw [Categorical.ef hl hini, dif_pos hi], ?_, ?_, ?_⟩
      · have hpi := hp _ (List.getElem_mem hi)
        have : ((ini ++ [l]).map fin)[i]? = some (fin (ini ++ [l])[i]) := by
          rw [List.getElem?_map, List.getElem?_eq_getElem hi]; rfl
        simp only [logDensityWrtRoot, this]
        exact f_ln _ hpi
      · have hb : |(ini ++ [l]).sum - 1| < 1/10^10 := hsum
        have hs1 := abs_lt.mp hb
        have hs : 0 < (ini ++ [l]).sum := by linarith [hs1.1, (by norm_num : (1:ℝ)/10^10 < 1)]
        rw [sub_sub_cancel_left, abs_neg, abs_le]
        constructor
        · have := Real.one_sub_inv_le_log_of_pos hs
          refine le_trans ?_ this
          rw [neg_le_sub_iff_le_add, inv_le_comm₀ hs (by positivity), ← sub_nonneg]
          have h2 : (1 + 2/10^10 : ℝ)⁻¹ ≤ 1 - 1/10^10 := by norm_num
          linarith [hs1.1]
        · have := Real.log_le_sub_one_of_pos hs
          linarith [hs1.2, (by norm_num : (1:ℝ)/10^10 ≤ 2/10^10)]
      · intro he
        rw [he]; simp
    · intro hsup
      have hi : ¬ i < (ini ++ [l]).length := by
        have : decide (i < ((ini ++ [l]).map fin).length) = false := hsup
        simpa using this
      refine ⟨by rw [Categorical.ef hl hini, dif_neg hi], ?_⟩
      have : ((ini ++ [l]).map fin)[i]? = none := by
        rw [List.getElem?_eq_none]; simpa using hi
      simp only [logDensityWrtRoot, this]
      rfl

/-- **C24** violated.  For every accepted rate the two evaluations of Exponential differ by `2 ln rate`;
for every accepted `p < 1` those of Geometric differ by `ln(1-p)`; those of Binomial by the
coefficient; those of NegativeBinomial even for `r = 1`; and Bernoulli with the accepted `p = 0` gives
NaN instead of `0` at the certain outcome. -/
theorem C24_violated :
    (∀ (r : ℝ) (d : Exponential XReal), Exponential.new (fin r) = .ok d → ∀ x : ℝ, 0 ≤ x →
      ∃ a b : ℝ, (expFamLogDensity d (fin x) : XReal) = fin a ∧
        (logDensityWrtRoot d (fin x) : XReal) = fin b ∧ b - a = 2 * Real.log r) ∧
    (∀ (p : ℝ) (d : Geometric XReal), Geometric.new (fin p) = .ok d → p ≠ 1 → ∀ k : ℕ, 1 ≤ k →
      ∃ a b : ℝ, (expFamLogDensity d k : XReal) = fin a ∧ (logDensityWrtRoot d k : XReal) = fin b ∧
        a - b = Real.log (1 - p) ∧ a < b) ∧
    (∀ (n : ℕ) (p : ℝ) (d : Binomial XReal), Binomial.new n (fin p) = .ok d → p ≠ 0 → p ≠ 1 →
      ∀ k ≤ n, ∃ a b : ℝ, (expFamLogDensity d k : XReal) = fin a ∧
        (logDensityWrtRoot d k : XReal) = fin b ∧ a - b = Real.log (n.choose k)) ∧
    (∀ (p : ℝ) (d : NegativeBinomial XReal), NegativeBinomial.new 1 (fin p) = .ok d → ∀ k : ℕ,
      ∃ a b : ℝ, (expFamLogDensity d k : XReal) = fin a ∧ (logDensityWrtRoot d k : XReal) = fin b ∧
        b - a = (1 - k) * Real.log p + (2 * k - 1) * Real.log (1 - p)) ∧
    (∃ d : Bernoulli XReal, Bernoulli.new (fin 0) = .ok d ∧ Measure.inSupport d 0 = true ∧
      (logDensityWrtRoot d 0 : XReal) = fin 0 ∧ (expFamLogDensity d 0 : XReal) = XReal.nan) := by
  refine ⟨?_, ?_, ?_, ?_, ?_⟩
  · intro r d h x hx
    obtain ⟨hr, rfl⟩ := Exponential.new_ok h
    exact ⟨_, _, Exponential.ef hr, Exponential.ld_of_nonneg hr hx, by ring⟩
  · intro p d h hp k hk
    obtain ⟨⟨h0, h1⟩, rfl⟩ := Geometric.new_ok h
    have h1 : p < 1 := lt_of_le_of_ne h1 hp
    have := Real.log_neg (show 0 < 1 - p by linarith) (by linarith)
    exact ⟨_, _, Geometric.ef h0 h1 k, Geometric.ld_of_pos h0 h1 hk, by ring, by linarith⟩
  · intro n p d h hp0 hp1 k hk
    obtain ⟨⟨h0, h1⟩, rfl⟩ := Binomial.new_ok h
    have h0 : 0 < p := lt_of_le_of_ne h0 (Ne.symm hp0)
    have h1 : p < 1 := lt_of_le_of_ne h1 hp1
    exact ⟨_, _, Binomial.ef h0 h1 hk, Binomial.ld_of_le h0 h1 hk, by ring⟩
  · intro p d h k
    obtain ⟨hr, ⟨h0, h1⟩, rfl⟩ := NegativeBinomial.new_ok h
    refine ⟨_, _, NegativeBinomial.ef hr h0 h1 k, NegativeBinomial.ld h0 h1, ?_⟩
    simp
    ring
  · refine ⟨⟨fin 0⟩, by simp [Bernoulli.new], rfl, ?_, ?_⟩
    · simp [logDensityWrtRoot, f_ln _ one_pos]
    · have : (ninf *. fin 0) = XReal.nan := by
        show XReal.mul ninf (fin 0) = XReal.nan
        simp [XReal.mul, infOf]
      simp [expFamLogDensity, expFamLogDensityDefault, Bernoulli.logOdds, f_div _ _ one_ne_zero,
        dot_one, this]

end Verif
