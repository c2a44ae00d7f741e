import Verif.Props.Iid

/-!
# C31: generated closures
-/

namespace Verif
open FloatOps XReal Spec ExponentialFamily

/-- **C31**: in every arithmetic (IEEE floats included), for every parameter and point, the closure of
`zero_overhead_optimize` returns exactly the exponential-family log-density, for each family that does not
override the single-sample formula. -/
theorem C31_closure_is_exp_fam {F : Type} [FloatOps F] :
    (∀ (d : Normal F) (x : F), generateZeroOverheadExpFam d x = expFamLogDensity d x) ∧
    (∀ (d : StdNormal F) (x : F), generateZeroOverheadExpFam d x = expFamLogDensity d x) ∧
    (∀ (d : Exponential F) (x : F), generateZeroOverheadExpFam d x = expFamLogDensity d x) ∧
    (∀ (d : Gamma F) (x : F), generateZeroOverheadExpFam d x = expFamLogDensity d x) ∧
    (∀ (d : Beta F) (x : F), generateZeroOverheadExpFam d x = expFamLogDensity d x) ∧
    (∀ (d : ChiSquared F) (x : F), generateZeroOverheadExpFam d x = expFamLogDensity d x) ∧
    (∀ (d : Bernoulli F) (x : UInt8), generateZeroOverheadExpFam d x = expFamLogDensity d x) ∧
    (∀ (d : Binomial F) (x : ℕ), generateZeroOverheadExpFam d x = expFamLogDensity d x) ∧
    (∀ (d : Geometric F) (x : ℕ), generateZeroOverheadExpFam d x = expFamLogDensity d x) ∧
    (∀ (d : NegativeBinomial F) (x : ℕ), generateZeroOverheadExpFam d x = expFamLogDensity d x) ∧
    (∀ (d : Poisson F) (x : ℕ), generateZeroOverheadExpFam d x = expFamLogDensity d x) := by
  refine ⟨?_, ?_, ?_, ?_, ?_, ?_, ?_, ?_, ?_, ?_, ?_⟩ <;> exact fun _ _ => rfl

/-- **C31**: for the families whose two evaluations agree, the closure is the plain log-density at every
point of the support, for every accepted parameter; Poisson within `1e-12`.  Missing from the full
claim: the families of `C31_violated`. -/
theorem C31_closure_is_log_density_partial :
    (∀ (μ σ : ℝ) (d : Normal XReal), Normal.new (fin μ) (fin σ) = .ok d →
      ∀ x : ℝ, generateZeroOverheadExpFam d (fin x) = logDensityWrtRoot d (fin x)) ∧
    (∀ (a b : ℝ) (d : Gamma XReal), Gamma.new (fin a) (fin b) = .ok d →
      ∀ x : ℝ, Measure.inSupport d (fin x) = true →
        generateZeroOverheadExpFam d (fin x) = logDensityWrtRoot d (fin x)) ∧
    (∀ (a b : ℝ) (d : Beta XReal), Beta.new (fin a) (fin b) = .ok d →
      ∀ x : ℝ, Measure.inSupport d (fin x) = true →
        generateZeroOverheadExpFam d (fin x) = logDensityWrtRoot d (fin x)) ∧
    (∀ (k : ℝ) (d : ChiSquared XReal), ChiSquared.new (fin k) = .ok d →
      ∀ x : ℝ, Measure.inSupport d (fin x) = true →
        generateZeroOverheadExpFam d (fin x) = logDensityWrtRoot d (fin x)) ∧
    (∀ (p : ℝ) (d : Bernoulli XReal), Bernoulli.new (fin p) = .ok d → p ≠ 0 → p ≠ 1 →
      ∀ x : UInt8, Measure.inSupport d x = true →
        generateZeroOverheadExpFam d x = (logDensityWrtRoot d x : XReal)) ∧
    (∀ (r : ℝ) (d : Poisson XReal), Poisson.new (fin r) = .ok d → ∀ k : ℕ,
      ∃ a b : ℝ, generateZeroOverheadExpFam d k = fin a ∧ (logDensityWrtRoot d k : XReal) = fin b ∧
        |a - b| ≤ 1/10^12) :=
  ⟨C24_continuous_agree.1, C24_continuous_agree.2.1, C24_continuous_agree.2.2.1,
    C24_continuous_agree.2.2.2.1, C24_discrete_agree_partial.1, C24_discrete_agree_partial.2.1⟩

/-- **C31**, relative closure: for every base measure, in every arithmetic, `zero_overhead_optimize_wrt`
returns the value of the builder path `d.log_density().wrt(base).at(x)` at each point where the two
single-sample evaluations of `d` agree (all points of the support for the families of
`C31_closure_is_log_density_partial`) and the two fields of the builder are at different addresses (missing:
a zero-sized base sharing the address, see `C04_zero_sized_base_violated`). -/
theorem C31_closure_wrt_partial {F D B X : Type} [FloatOps F] [Measure D X] [Measure B X] [HasLogDensity D X F]
    [HasLogDensity B X F] [ExponentialFamily D X F] (d : D) (b : B) (x : X)
    (lay : LogDensity.Layout) (hl : lay.Apart) (addr : ℕ)
    (h : (expFamLogDensity d x : F) = logDensityWrtRoot d x) :
    generateZeroOverheadExpFamWrt d b x = (relLogDensity lay addr d b x : F) := by
  have hne : ¬ addr + lay.offMeasure = addr + lay.offBase := by
    intro h; exact hl (Nat.add_left_cancel h)
  unfold relLogDensity LogDensity.evalAt generateZeroOverheadExpFamWrt
  rw [if_neg hne, h]
  have : ∀ a c, LogDensity.dispatch (F := F) a c ((LogDensity.new d).wrt b).measure
      ((LogDensity.new d).wrt b).base x = (logDensityWrtRoot d x -. logDensityWrtRoot b x) := by
    intro a c
    cases a <;> cases c <;> rfl
  exact (this _ _).symm

example : ∃ d : Normal XReal, Normal.new (fin 1) (fin 2) = .ok d ∧
    (expFamLogDensity d (fin 3) : XReal) = logDensityWrtRoot d (fin 3) := by
  have h : Normal.new (fin 1) (fin 2) = .ok ⟨fin 1, fin 2⟩ := by simp [Normal.new]
  exact ⟨_, h, C24_continuous_agree.1 1 2 _ h 3⟩

/-- **C31**, static inline compiler: for every accepted parameter the compiled closures are the plain
log-densities of Normal and Exponential at every real (inside and outside the support). -/
theorem C31_static_inline :
    (∀ (μ σ : ℝ) (d : Normal XReal), Normal.new (fin μ) (fin σ) = .ok d →
      ∀ x : ℝ, compileNormal (fin μ) (fin σ) (fin x) = logDensityWrtRoot d (fin x)) ∧
    (∀ (r : ℝ) (d : Exponential XReal), Exponential.new (fin r) = .ok d →
      ∀ x : ℝ, compileExponential (fin r) (fin x) = logDensityWrtRoot d (fin x)) := by
  constructor
  · intro μ σ d h x
    obtain ⟨hσ, rfl⟩ := Normal.new_ok h
    have h1 : 2 * Real.pi * (σ * σ) > 0 := by positivity
    have h2 : 2 * (σ * σ) ≠ 0 := by positivity
    rw [Normal.ld hσ]
    simp only [compileNormal, f_mul, f_ofRat, f_pi, f_sub]
    push_cast
    rw [f_ln _ h1, f_div _ _ h2, f_mul, f_sub]
    congr 1
    rw [Real.log_mul (by positivity) (by positivity), Real.log_mul hσ.ne' hσ.ne']
    field_simp
    ring
  · intro r d h x
    obtain ⟨hr, rfl⟩ := Exponential.new_ok h
    rfl

/-- **C31** violated.  Exponential: for every accepted rate the closure is off by `2 ln rate`.
IID wrapper: on every sample the closure uses the log-partition of a single draw, so for `n` draws it is
off by `(n-1)` log-partitions (here Exponential, for every rate and any number of draws).  Categorical: outside
the support the direct evaluation is `-∞`, the closure's value is finite. -/
theorem C31_violated :
    (∀ (r : ℝ) (d : Exponential XReal), Exponential.new (fin r) = .ok d → ∀ x : ℝ, 0 ≤ x →
      ∃ a b : ℝ, generateZeroOverheadExpFam d (fin x) = fin a ∧
        (logDensityWrtRoot d (fin x) : XReal) = fin b ∧ b - a = 2 * Real.log r) ∧
    (∀ (r : ℝ) (d : Exponential XReal), Exponential.new (fin r) = .ok d → ∀ xs : List ℝ,
      ∃ a b : ℝ, generateZeroOverheadExpFam (IID.ofDist d) (xs.map fin) = fin a ∧
        expFamLogDensity (IID.ofDist d) (xs.map fin) = fin b ∧
        a - b = (xs.length - 1) * Real.log r) ∧
    (∃ d : Categorical XReal, Categorical.new [fin (1/2), fin (1/2)] = .ok d ∧
      (expFamLogDensity d 7 : XReal) = ninf ∧ (generateZeroOverheadExpFam d 7).IsFin) := by
  refine ⟨C24_violated.1, ?_, ?_⟩
  · intro r d h xs
    have hs := C28_iid_is_sum_partial.2.2.1 r d h
    obtain ⟨hr, rfl⟩ := Exponential.new_ok h
    refine ⟨-r * xs.sum - Real.log r, (xs.map (fun x => -Real.log r - r * x)).sum, ?_, ?_, ?_⟩
    · have hst : ∀ (l : List ℝ) (a : ℝ), (l.map (fun x => [fin x])).foldl
          (fun sum stat => List.zipWith FloatOps.add sum stat) [fin a] = [fin (a + l.sum)] := by
        intro l
        induction l with
        | nil => intro a; simp
        | cons b l ih => intro a; simp [ih, add_assoc]
      have hstat : sufficientStatistic (IID.ofDist (⟨fin r⟩ : Exponential XReal)) (xs.map fin)
          = [fin xs.sum] := by
        show sumSufficientStats 1 _ = _
        unfold sumSufficientStats
        rw [List.map_map]
        have := hst xs 0
        rw [zero_add] at this
        exact this
      have hb : baseLogDensity (IID.ofDist (⟨fin r⟩ : Exponential XReal)) (xs.map fin) = fin 0 := by
        show FloatOps.sum _ = _
        rw [List.map_map]
        have := XReal.sum_map_const xs 0
        rw [mul_zero] at this
        exact this
      have hnp : naturalAndLogPartition (IID.ofDist (⟨fin r⟩ : Exponential XReal))
          = ([fin (-r)], fin (Real.log r)) := by
        show ([FloatOps.neg (fin r)], FloatOps.ofRat 1 *. FloatOps.ln (fin r)) = _
        simp [f_ln r hr]
      show ((dot (naturalAndLogPartition (IID.ofDist (⟨fin r⟩ : Exponential XReal))).1
        (sufficientStatistic (IID.ofDist (⟨fin r⟩ : Exponential XReal)) (xs.map fin)) -.
        (naturalAndLogPartition (IID.ofDist (⟨fin r⟩ : Exponential XReal))).2) +.
        baseLogDensity (IID.ofDist (⟨fin r⟩ : Exponential XReal)) (xs.map fin)) = _
      rw [hstat, hb, hnp]
      simp
    · show (IID.ofDist (⟨fin r⟩ : Exponential XReal)).iidLogDensity _ = _
      rw [hs, ← f_sum, List.map_map, List.map_map]
      congr 1
      apply List.map_congr_left
      intro x _
      simp only [Function.comp]
      rw [Exponential.ef hr]
    · have : (xs.map (fun x => -Real.log r - r * x)).sum = -(xs.length * Real.log r) - r * xs.sum := by
        induction xs with
        | nil => simp
        | cons x xs ih => simp [ih]; ring
      rw [this]; ring
  · refine ⟨⟨[fin (1/2), fin (1/2)]⟩, ?_, ?_, ?_⟩
    · have e : (2 : ℝ)⁻¹ + 2⁻¹ = 1 := by norm_num
      simp [Categorical.new, FloatOps.sum, e]
    · rfl
    · have hnp := Categorical.natural_fin (ini := [1/2]) (l := 1/2) (by norm_num) (by norm_num)
      have e : ([1/2] ++ [1/2] : List ℝ).map fin = [fin (1/2), fin (1/2)] := rfl
      rw [e] at hnp
      have : generateZeroOverheadExpFam (⟨[fin (1/2), fin (1/2)]⟩ : Categorical XReal) 7
        = (dot (Categorical.natural ⟨[fin (1/2), fin (1/2)]⟩).1 [fin 0] -.
            (Categorical.natural ⟨[fin (1/2), fin (1/2)]⟩).2 +. fin 0) := rfl
      rw [this, hnp]
      simp

end Verif
