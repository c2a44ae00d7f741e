import Verif.Lemmas.LogTable
import Verif.Lemmas.Coeff
import Verif.Lemmas.Dist
import Verif.Spec.Mass

/-!
# C38–C40: derived measures
-/

namespace Verif
open FloatOps XReal Spec

/-! ### C38 -/

theorem stirlingPrecise_fin {k : ℕ} (hk : 20 < k) :
    (stirlingLogFactorialPrecise k : XReal) =
      fin ((k:ℝ) * Real.log k - k + 1/2 * Real.log (2 * Real.pi * k) + StirlingAux.corr k) := by
  have h0 : (0:ℝ) < k := by exact_mod_cast (by omega : 0 < k)
  have h1 : (0:ℝ) < 2 * Real.pi * k := by positivity
  have h2 : ¬ k ≤ 1 := by omega
  simp only [stirlingLogFactorialPrecise, h2, if_false, f_ofNat, f_ofRat, f_pi, f_mul, f_ln _ h0,
    f_sub, f_add, f_div _ _ h0.ne', Rat.cast_ofNat, f_ln _ h1]
  congr 1
  simp only [StirlingAux.corr]
  push_cast
  field_simp

/-- **C38**: `log_factorial k` is a finite number within `1e-12` of `ln k!`, for every `k`: the 21
table entries (exact decimal values of the literals) and the Stirling series beyond them. -/
theorem C38_log_factorial_accurate (k : ℕ) :
    ∃ v : ℝ, (logFactorial k : XReal) = fin v ∧ |v - Real.log (Nat.factorial k)| ≤ 1/10^12 := by
  by_cases hk : k ≤ 20
  · have ht := table_bound
    obtain ⟨t0, t1, t2, t3, t4, t5, t6, t7, t8, t9, t10, t11, t12, t13, t14, t15, t16, t17, t18, t19,
      t20⟩ := ht
    have e : (logFactorial k : XReal) = (logFactorialTable (F := XReal)).getD k zero := by
      simp [logFactorial, hk]
    rw [e]
    interval_cases k
    all_goals refine ⟨_, rfl, ?_⟩
    · convert t0 using 3; norm_num
    · convert t1 using 3; norm_num
    · exact t2
    · convert t3 using 3; norm_num
    · convert t4 using 3; norm_num
    · convert t5 using 3; norm_num
    · convert t6 using 3; norm_num
    · convert t7 using 3; norm_num
    · convert t8 using 3; norm_num
    · convert t9 using 3; norm_num
    · convert t10 using 3; norm_num
    · convert t11 using 3; norm_num
    · convert t12 using 3; norm_num
    · convert t13 using 3; norm_num
    · convert t14 using 3; norm_num
    · convert t15 using 3; norm_num
    · convert t16 using 3; norm_num
    · convert t17 using 3; norm_num
    · convert t18 using 3; norm_num
    · convert t19 using 3; norm_num
    · convert t20 using 3; norm_num
  · refine ⟨_, by rw [logFactorial, if_neg hk]; exact stirlingPrecise_fin (by omega), ?_⟩
    exact StirlingAux.stirling_bound (by omega)

/-- **C38** for the measure: the factorial measure's density at `k` is `1/k!` up to a relative error of
`2e-12`. -/
theorem C38_factorial_measure_density (k : ℕ) :
    |density (logDensityWrtRoot ({} : FactorialMeasure XReal) k) * Nat.factorial k - 1| ≤ 2/10^12 := by
  obtain ⟨v, hv, hb⟩ := C38_log_factorial_accurate k
  have hf : (0:ℝ) < Nat.factorial k := by exact_mod_cast k.factorial_pos
  have e : density (logDensityWrtRoot ({} : FactorialMeasure XReal) k) * Nat.factorial k
      = Real.exp (Real.log (Nat.factorial k) - v) := by
    simp only [logDensityWrtRoot, hv, f_neg, density_fin]
    rw [sub_eq_add_neg, Real.exp_add, Real.exp_log hf, mul_comm]
  rw [e]
  have h1 : |Real.log (Nat.factorial k) - v| ≤ 1/10^12 := by rwa [abs_sub_comm]
  have h2 := Real.abs_exp_sub_one_le (x := Real.log (Nat.factorial k) - v) (h1.trans (by norm_num))
  calc _ ≤ 2 * |Real.log (Nat.factorial k) - v| := h2
    _ ≤ 2 * (1/10^12) := by gcongr
    _ = _ := by ring

/-! ### C39 -/

/-- **C39**: the binomial coefficient measure is `ln C(n,k)` for `k ≤ n`, `-∞` beyond, and symmetric. -/
theorem C39_binomial_coefficient (n k : ℕ) :
    (logBinomialCoefficient n k : XReal) = (if k ≤ n then fin (Real.log (n.choose k)) else ninf) ∧
    density (logDensityWrtRoot (⟨n⟩ : BinomialCoefficientMeasure XReal) k) = n.choose k ∧
    (k ≤ n → (logBinomialCoefficient n (n - k) : XReal) = logBinomialCoefficient n k) := by
  by_cases h : k ≤ n
  · have hc : (0 : ℝ) < n.choose k := by exact_mod_cast Nat.choose_pos h
    refine ⟨by rw [if_pos h, logBinomialCoefficient_fin h], ?_, fun _ => ?_⟩
    · simp [logDensityWrtRoot, not_lt.mpr h, logBinomialCoefficient_fin h, Real.exp_log hc]
    · rw [logBinomialCoefficient_fin h, logBinomialCoefficient_fin (Nat.sub_le n k),
        Nat.choose_symm h]
  · have h' : k > n := by omega
    refine ⟨by simp [logBinomialCoefficient, h', h], ?_, fun h2 => absurd h2 h⟩
    simp [logDensityWrtRoot, h', Nat.choose_eq_zero_of_lt h']

/-- **C39**: the density of the binomial coefficient measure satisfies Pascal's rule and has total
mass `2^n`. -/
theorem C39_binomial_mass (n : ℕ) :
    HasSum (fun k => density (logDensityWrtRoot (⟨n⟩ : BinomialCoefficientMeasure XReal) k)) (2 ^ n) := by
  simp only [(C39_binomial_coefficient n _).2.1]
  have h : (2:ℝ) ^ n = ∑ k ∈ Finset.range (n + 1), (n.choose k : ℝ) := by
    exact_mod_cast (Nat.sum_range_choose n).symm
  rw [h]
  apply hasSum_sum_of_ne_finset_zero
  intro k hk
  have hk : n < k := by simpa using hk
  simp [Nat.choose_eq_zero_of_lt hk]

/-- **C39**: the negative binomial coefficient measure is `ln C(x+r-1, x)` for every `r ≥ 1`. -/
theorem C39_negative_binomial_coefficient {r : ℕ} (hr : 0 < r) (x : ℕ) :
    (logDensityWrtRoot (⟨r⟩ : NegativeBinomialCoefficientMeasure XReal) x : XReal)
      = fin (Real.log ((x + r - 1).choose x)) :=
  logNegativeBinomialCoefficient_fin hr

example : (0:ℕ) < 3 ∧ (4 + 3 - 1).choose 4 = 15 := by decide

/-! ### C40 -/

/-- `n` weighted measures around a base measure. -/
def NestedWeighted (M F : Type) : ℕ → Type
  | 0 => M
  | n + 1 => WeightedMeasure (NestedWeighted M F n) F

/-- wrap a base measure in the given log-weights -/
def nestWeights {M F : Type} (m : M) : (ws : List F) → NestedWeighted M F ws.length
  | [] => m
  | w :: ws => (⟨nestWeights m ws, w⟩ : WeightedMeasure _ F)

instance nestedHas {M T F : Type} [FloatOps F] [HasLogDensity M T F] :
    (n : ℕ) → HasLogDensity (NestedWeighted M F n) T F
  | 0 => inferInstanceAs (HasLogDensity M T F)
  | n + 1 =>
    have := nestedHas (M := M) (T := T) (F := F) n
    inferInstanceAs (HasLogDensity (WeightedMeasure (NestedWeighted M F n) F) T F)

/-- **C40**: any number of nested weights multiply the density by the exponential of their sum,
wherever the base has a proper log-density. -/
theorem C40_nested_weights {M T : Type} [HasLogDensity M T XReal] (m : M) (ws : List ℝ) (x : T)
    (h : (logDensityWrtRoot m x : XReal).IsFin ∨ (logDensityWrtRoot m x : XReal) = ninf) :
    density (logDensityWrtRoot (nestWeights m (ws.map fin)) x : XReal)
      = Real.exp ws.sum * density (logDensityWrtRoot m x : XReal) := by
  have key : ∀ ws : List ℝ, (∃ a, (logDensityWrtRoot m x : XReal) = fin a ∧
        (logDensityWrtRoot (nestWeights m (ws.map fin)) x : XReal) = fin (ws.sum + a)) ∨
      ((logDensityWrtRoot m x : XReal) = ninf ∧
        (logDensityWrtRoot (nestWeights m (ws.map fin)) x : XReal) = ninf) := by
    intro ws
    induction ws with
    | nil =>
      rcases h with ⟨a, ha⟩ | h
      · exact Or.inl ⟨a, ha, by
          show (logDensityWrtRoot m x : XReal) = _
          simpa using ha⟩
      · exact Or.inr ⟨h, h⟩
    | cons w ws ih =>
      have step : (logDensityWrtRoot (nestWeights m ((w :: ws).map fin)) x : XReal)
          = (fin w +. logDensityWrtRoot (nestWeights m (ws.map fin)) x) := rfl
      rcases ih with ⟨a, ha, hb⟩ | ⟨ha, hb⟩
      · refine Or.inl ⟨a, ha, ?_⟩
        rw [step, hb, f_add, List.sum_cons, add_assoc]
      · exact Or.inr ⟨ha, by rw [step, hb]; rfl⟩
  rcases key ws with ⟨a, ha, hb⟩ | ⟨ha, hb⟩
  · rw [ha, hb, density_fin, density_fin, Real.exp_add]
  · rw [ha, hb]; simp

/-- **C40**: weighting scales the total mass by `e^w`, over any reference measure, and leaves the
support unchanged. -/
theorem C40_weighted_mass {M X α : Type} [MeasurableSpace α] [HasLogDensity M X XReal] [Measure M X]
    (μ : MeasureTheory.Measure α) (emb : α → X) (m : M) (w : ℝ) (hp : Proper emb m) :
    mass μ emb (⟨m, fin w⟩ : WeightedMeasure M XReal) = ENNReal.ofReal (Real.exp w) * mass μ emb m ∧
    ∀ x, Measure.inSupport (⟨m, fin w⟩ : WeightedMeasure M XReal) x = Measure.inSupport m x := by
  refine ⟨?_, fun x => rfl⟩
  unfold mass
  rw [← MeasureTheory.lintegral_const_mul' _ _ ENNReal.ofReal_ne_top]
  congr 1
  funext a
  have := C40_nested_weights m [w] (emb a) (hp a)
  simp only [List.sum_cons, List.sum_nil, add_zero] at this
  rw [← ENNReal.ofReal_mul (Real.exp_pos w).le, ← this]
  rfl

example : Proper (fun a : ℝ => fin a) ({} : LebesgueMeasure XReal) := fun _ => Or.inl ⟨0, rfl⟩

/-- **C40**: an integral measure multiplies the base density pointwise by `e^f`. -/
theorem C40_integral_density {M X : Type} [HasLogDensity M X XReal] [Measure M X] (m : M) (f : X → ℝ) (x : X)
    (h : (logDensityWrtRoot m x : XReal).IsFin ∨ (logDensityWrtRoot m x : XReal) = ninf) :
    density (logDensityWrtRoot (⟨m, fun x => fin (f x)⟩ : IntegralMeasure M X XReal) x : XReal)
      = Real.exp (f x) * density (logDensityWrtRoot m x : XReal) := by
  rcases h with ⟨a, ha⟩ | h
  · simp only [logDensityWrtRoot] at ha ⊢
    rw [ha, f_add, density_fin, density_fin, Real.exp_add]
  · simp only [logDensityWrtRoot] at h ⊢
    rw [h]; simp

/-- **C40**: an integral measure over an integral measure is the integral measure of the sum. -/
theorem C40_integral_compose {M X : Type} [HasLogDensity M X XReal] [Measure M X] (m : M) (f g : X → ℝ)
    (x : X) (h : (logDensityWrtRoot m x : XReal).IsFin ∨ (logDensityWrtRoot m x : XReal) = ninf) :
    (logDensityWrtRoot (⟨(⟨m, fun x => fin (f x)⟩ : IntegralMeasure M X XReal), fun x => fin (g x)⟩ :
        IntegralMeasure (IntegralMeasure M X XReal) X XReal) x : XReal)
      = logDensityWrtRoot (⟨m, fun x => fin (f x + g x)⟩ : IntegralMeasure M X XReal) x := by
  rcases h with ⟨a, ha⟩ | h
  · simp only [logDensityWrtRoot] at ha ⊢
    rw [ha, f_add, f_add, f_add]; congr 1; ring
  · simp only [logDensityWrtRoot] at h ⊢
    rw [h]; simp

/-- **C40**: primitive measures have density one and full support at every point, so their total mass is
that of the reference measure. -/
theorem C40_primitive {T α : Type} [MeasurableSpace α] (μ : MeasureTheory.Measure α) (emb : α → T) :
    mass μ emb ({} : LebesgueMeasure T) = μ Set.univ ∧ mass μ emb ({} : CountingMeasure T) = μ Set.univ ∧
    (∀ x, Measure.inSupport ({} : LebesgueMeasure T) x = true) ∧
    (∀ x, Measure.inSupport ({} : CountingMeasure T) x = true) := by
  refine ⟨?_, ?_, fun _ => rfl, fun _ => rfl⟩ <;> simp [mass, logDensityWrtRoot]

/-- **C40**: a point is in the support of a Dirac measure exactly when it equals the point mass. -/
theorem C40_dirac_support {T : Type} [BEq T] [LawfulBEq T] (p x : T) :
    Measure.inSupport (⟨p⟩ : Dirac T) x = true ↔ x = p := by
  show (x == p) = true ↔ _
  exact beq_iff_eq

end Verif
