import Verif.Props.RadonNikodym
import Verif.Props.Moments

/-!
# C122 for the distributions of the library
-/

namespace Verif
open FloatOps XReal LogDensity Spec MeasureTheory ProbabilityTheory

theorem Gamma.measurable_density {a b : ℝ} (ha : 0 < a) (hb : 0 < b) :
    MeasurableDensity fin (⟨fin a, fin b⟩ : Gamma XReal) := by
  unfold MeasurableDensity
  have : (fun x : ℝ => density (logDensityWrtRoot (⟨fin a, fin b⟩ : Gamma XReal) (fin x)))
      = Set.indicator (Set.Ioi 0) (gammaPDFReal a b) := by
    funext x
    by_cases hx : 0 < x
    · rw [Set.indicator_of_mem (show x ∈ Set.Ioi 0 from hx), Gamma.density_eq ha hb hx.ne']
    · rw [Set.indicator_of_notMem (show x ∉ Set.Ioi 0 from hx), Gamma.ld_of_nonpos (not_lt.mp hx)]
      rfl
  rw [this]
  exact (measurable_gammaPDFReal a b).indicator measurableSet_Ioi

/-- **C122**: every continuous distribution the library constructs, and its geometric (`p < 1`) and Poisson
distributions, satisfy the conditions of the other theorems. -/
theorem C122_regular :
    (∀ (μ σ : ℝ) (d : Normal XReal), Normal.new (fin μ) (fin σ) = .ok d → RegularLaw volume fin d) ∧
    (∀ (r : ℝ) (d : Exponential XReal), Exponential.new (fin r) = .ok d → RegularLaw volume fin d) ∧
    (∀ (a b : ℝ) (d : Gamma XReal), Gamma.new (fin a) (fin b) = .ok d → RegularLaw volume fin d) ∧
    (∀ (a b : ℝ) (d : Beta XReal), Beta.new (fin a) (fin b) = .ok d → RegularLaw volume fin d) ∧
    (∀ (k : ℝ) (d : ChiSquared XReal), ChiSquared.new (fin k) = .ok d → RegularLaw volume fin d) ∧
    (∀ (l s : ℝ) (d : Cauchy XReal), Cauchy.new (fin l) (fin s) = .ok d → RegularLaw volume fin d) ∧
    (∀ (ν : ℝ) (d : StudentT XReal), StudentT.new (fin ν) = .ok d → RegularLaw volume fin d) ∧
    (∀ (p : ℝ) (d : Geometric XReal), Geometric.new (fin p) = .ok d → p ≠ 1 →
      RegularLaw Measure.count (id : ℕ → ℕ) d) ∧
    (∀ (r : ℝ) (d : Poisson XReal), Poisson.new (fin r) = .ok d →
      RegularLaw Measure.count (id : ℕ → ℕ) d) := by
  have hsum : ∀ f : ℕ → ℝ, (∀ k, 0 ≤ f k) → HasSum f 1 →
      ∫⁻ k, ENNReal.ofReal (f k) ∂(Measure.count : MeasureTheory.Measure ℕ) = 1 := by
    intro f h0 h
    rw [lintegral_count, ← ENNReal.ofReal_tsum_of_nonneg h0 h.summable, h.tsum_eq, ENNReal.ofReal_one]
  refine ⟨?_, ?_, ?_, ?_, ?_, ?_, ?_, ?_, ?_⟩
  · intro μ σ d h
    obtain ⟨h1, h2, h3⟩ := C09_normal_density h
    refine ⟨h2, ?_, h3⟩
    unfold MeasurableDensity
    rw [funext h1]
    exact measurable_gaussianPDFReal _ _
  · intro r d h
    obtain ⟨h0, h1, h2, h3⟩ := C10_exponential_density h
    refine ⟨fun x => ?_, ?_, h3⟩
    · rcases le_or_gt 0 x with hx | hx
      · exact Or.inl ⟨_, h0 x hx⟩
      · exact Or.inr (h1 x hx)
    · unfold MeasurableDensity
      rw [funext h2]
      exact measurable_gammaPDFReal _ _
  · intro a b d h
    obtain ⟨h0, h1, h2, h3⟩ := C11_gamma_density h
    obtain ⟨ha, hb, rfl⟩ := Gamma.new_ok h
    refine ⟨fun x => ?_, Gamma.measurable_density ha hb, h3⟩
    rcases le_or_gt x 0 with hx | hx
    · exact Or.inr (h1 x hx)
    · exact Or.inl (h2 x hx)
  · intro a b d h
    obtain ⟨h0, h1, h2, h3⟩ := C12_beta_density h
    refine ⟨fun x => ?_, ?_, h3⟩
    · by_cases hx : 0 < x ∧ x < 1
      · exact Or.inl (h2 x hx.1 hx.2)
      · exact Or.inr (h1 x hx)
    · unfold MeasurableDensity
      rw [funext h0]
      exact measurable_betaPDFReal _ _
  · intro k d h
    obtain ⟨hk, rfl⟩ := ChiSquared.new_ok h
    have hg : Gamma.new (fin (k/2)) (fin (1/2)) = .ok ⟨fin (k/2), fin (1/2)⟩ := by
      simp [Gamma.new, hk]
    obtain ⟨-, h1, h2⟩ := C13_chi_squared_is_gamma h hg
    have hm := Gamma.measurable_density (a := k/2) (b := 1/2) (by positivity) (by norm_num)
    refine ⟨fun x => ?_, ?_, h2⟩
    · rcases le_or_gt x 0 with hx | hx
      · exact Or.inr (ChiSquared.ld_of_nonpos hx)
      · exact Or.inl ⟨_, ChiSquared.ld_of_pos hk hx⟩
    · unfold MeasurableDensity at hm ⊢
      simp only [h1]
      exact hm
  · intro l s d h
    obtain ⟨h1, h2, h3⟩ := C14_cauchy_density h
    refine ⟨h2, ?_, h3⟩
    unfold MeasurableDensity
    rw [funext h1]
    exact measurable_cauchyPDFReal _ _
  · intro ν d h
    obtain ⟨h1, h2, -, h3⟩ := C15_student_t_density h
    refine ⟨h2, ?_, h3⟩
    unfold MeasurableDensity
    rw [funext h1]
    unfold studentTPDFReal
    fun_prop
  · intro p d h hp
    obtain ⟨h1, h2, h3⟩ := C17_geometric_pmf_partial h hp
    obtain ⟨⟨p0, p1⟩, rfl⟩ := Geometric.new_ok h
    have p1' : p < 1 := lt_of_le_of_ne p1 hp
    refine ⟨fun k => ?_, measurable_from_top, ?_⟩
    · rcases Nat.eq_zero_or_pos k with rfl | hk
      · exact Or.inr h2
      · exact Or.inl ⟨_, Geometric.ld_of_pos p0 p1' hk⟩
    · refine hsum _ (fun k => ?_) h3
      rcases Nat.eq_zero_or_pos k with rfl | hk
      · exact (congrArg density h2).ge
      · rw [id, Geometric.ld_of_pos p0 p1' hk]; exact (Real.exp_pos _).le
  · intro r d h
    obtain ⟨h1, h2⟩ := C18_poisson_pmf h
    obtain ⟨hr, rfl⟩ := Poisson.new_ok h
    refine ⟨fun k => Or.inl ⟨_, Poisson.ld hr k⟩, measurable_from_top, hsum _ (fun k => ?_) h2⟩
    rw [id, Poisson.ld hr]; exact (Real.exp_pos _).le

/-- Integral of a quadratic function under a law with known mean and variance. -/
theorem integral_law_quadratic {M : Type} [HasLogDensity M XReal XReal] (d : M) (hr : RegularLaw volume fin d)
    {m v : ℝ} (hm : MomentsReal (fun x => logDensityWrtRoot d x) m v) (f : ℝ → ℝ) (A B C : ℝ)
    (hf : ∀ x : ℝ, (logDensityWrtRoot d (fin x) : XReal).IsFin → f x = A + B * x + C * (x - m) ^ 2) :
    Integrable f (law volume fin d) ∧ ∫ x, f x ∂(law volume fin d) = A + B * m + C * v := by
  have hnn : ∀ x : ℝ, 0 ≤ density (logDensityWrtRoot d (fin x)) := by
    intro x
    rcases hr.proper x with ⟨r, h⟩ | h
    · rw [h]; exact (Real.exp_pos _).le
    · rw [h]; exact le_refl (0:ℝ)
  have hone := integral_of_lintegral hr.measurable hnn hr.mass_one
  have e : (fun x => (ENNReal.ofReal (density (logDensityWrtRoot d (fin x)))).toReal • f x)
      = fun x => A * density (logDensityWrtRoot d (fin x)) + B * (x * density (logDensityWrtRoot d (fin x)))
        + C * ((x - m) ^ 2 * density (logDensityWrtRoot d (fin x))) := by
    funext x
    rw [ENNReal.toReal_ofReal (hnn x), smul_eq_mul]
    rcases hr.proper x with h | h
    · rw [hf x h]; ring
    · rw [h]; simp [density]
  have mo := hr.measurable.ennreal_ofReal
  have i1 : Integrable fun x => A * density (logDensityWrtRoot d (fin x)) := hone.1.const_mul A
  have i2 : Integrable fun x : ℝ => B * (x * density (logDensityWrtRoot d (fin x))) :=
    hm.mean_integrable.const_mul B
  have i3 : Integrable fun x : ℝ => C * ((x - m) ^ 2 * density (logDensityWrtRoot d (fin x))) :=
    hm.var_integrable.const_mul C
  have i12 : Integrable fun x : ℝ => A * density (logDensityWrtRoot d (fin x))
      + B * (x * density (logDensityWrtRoot d (fin x))) := i1.add i2
  constructor
  · unfold law
    rw [integrable_withDensity_iff_integrable_smul' mo (by simp), e]
    exact i12.add i3
  · unfold law
    rw [integral_withDensity_eq_integral_toReal_smul mo (by simp), e, integral_add i12 i3,
      integral_add i1 i2, integral_const_mul, integral_const_mul, integral_const_mul, hone.2]
    rw [show ∫ x : ℝ, x * density (logDensityWrtRoot d (fin x)) = m from hm.mean_eq,
      show ∫ x : ℝ, (x - m) ^ 2 * density (logDensityWrtRoot d (fin x)) = v from hm.var_eq]
    ring

/-- **C122**, divergence of normal distributions: the expected relative log-density of two normal
distributions is `ln(σ₂/σ₁) + (σ₁² + (μ₁-μ₂)²)/(2σ₂²) - 1/2`. -/
theorem C122_normal_divergence_partial {μ₁ σ₁ μ₂ σ₂ : ℝ} {d₁ d₂ : Normal XReal}
    (h₁ : Normal.new (fin μ₁) (fin σ₁) = .ok d₁) (h₂ : Normal.new (fin μ₂) (fin σ₂) = .ok d₂)
    (lay : Layout) (hl : lay.Apart) (addr : ℕ) :
    Integrable (fun x : ℝ => (relLogDensity (F := XReal) lay addr d₁ d₂ (fin x)).toReal) (law volume fin d₁) ∧
    ∫ x : ℝ, (relLogDensity (F := XReal) lay addr d₁ d₂ (fin x)).toReal ∂(law volume fin d₁)
      = Real.log (σ₂ / σ₁) + (σ₁ ^ 2 + (μ₁ - μ₂) ^ 2) / (2 * σ₂ ^ 2) - 1/2 := by
  obtain ⟨m, v, hm, hv, hmo⟩ := C27_continuous_moments.1 μ₁ σ₁ d₁ h₁
  have hr := C122_regular.1 μ₁ σ₁ d₁ h₁
  obtain ⟨s₁, rfl⟩ := Normal.new_ok h₁
  obtain ⟨s₂, rfl⟩ := Normal.new_ok h₂
  obtain rfl : μ₁ = m := by simpa [Normal.mean] using hm
  obtain rfl : σ₁ * σ₁ = v := by simpa [Normal.variance] using hv
  have key := integral_law_quadratic _ hr hmo
    (fun x : ℝ => (relLogDensity (F := XReal) lay addr (⟨fin μ₁, fin σ₁⟩ : Normal XReal)
      (⟨fin μ₂, fin σ₂⟩ : Normal XReal) (fin x)).toReal)
    (Real.log σ₂ - Real.log σ₁ + (μ₂ ^ 2 - μ₁ ^ 2) / (2 * σ₂ ^ 2)) ((μ₁ - μ₂) / σ₂ ^ 2)
    (1 / (2 * σ₂ ^ 2) - 1 / (2 * σ₁ ^ 2)) (fun x _ => by
      rw [C01_relative_log_density_apart_partial lay hl, Normal.ld s₁, Normal.ld s₂, f_sub, toReal_fin]
      field_simp
      ring)
  refine ⟨key.1, key.2.trans ?_⟩
  rw [Real.log_div s₂.ne' s₁.ne']
  field_simp
  ring

/-- **C122**, divergence of exponential distributions: `ln(r₁/r₂) + r₂/r₁ - 1`. -/
theorem C122_exponential_divergence_partial {r₁ r₂ : ℝ} {d₁ d₂ : Exponential XReal}
    (h₁ : Exponential.new (fin r₁) = .ok d₁) (h₂ : Exponential.new (fin r₂) = .ok d₂)
    (lay : Layout) (hl : lay.Apart) (addr : ℕ) :
    Integrable (fun x : ℝ => (relLogDensity (F := XReal) lay addr d₁ d₂ (fin x)).toReal) (law volume fin d₁) ∧
    ∫ x : ℝ, (relLogDensity (F := XReal) lay addr d₁ d₂ (fin x)).toReal ∂(law volume fin d₁)
      = Real.log (r₁ / r₂) + r₂ / r₁ - 1 := by
  obtain ⟨m, v, hm, -, hmo⟩ := C27_continuous_moments.2.1 r₁ d₁ h₁
  have hr := C122_regular.2.1 r₁ d₁ h₁
  obtain ⟨s₁, rfl⟩ := Exponential.new_ok h₁
  obtain ⟨s₂, rfl⟩ := Exponential.new_ok h₂
  obtain rfl : 1 / r₁ = m := by simpa [Exponential.mean, recip, f_div _ _ s₁.ne'] using hm
  have key := integral_law_quadratic _ hr hmo
    (fun x : ℝ => (relLogDensity (F := XReal) lay addr (⟨fin r₁⟩ : Exponential XReal)
      (⟨fin r₂⟩ : Exponential XReal) (fin x)).toReal)
    (Real.log r₁ - Real.log r₂) (r₂ - r₁) 0 (fun x hx => by
      have hx0 : 0 ≤ x := by
        by_contra hc
        rw [Exponential.ld_of_neg (not_le.mp hc)] at hx
        obtain ⟨_, h⟩ := hx
        cases h
      rw [C01_relative_log_density_apart_partial lay hl, Exponential.ld_of_nonneg s₁ hx0,
        Exponential.ld_of_nonneg s₂ hx0, f_sub, toReal_fin]
      ring)
  refine ⟨key.1, key.2.trans ?_⟩
  rw [Real.log_div s₁.ne' s₂.ne']
  field_simp
  ring

/-- Integral under a law on the naturals is the sum weighted by the mass function. -/
theorem integral_law_nat {M : Type} [HasLogDensity M ℕ XReal] (d : M)
    (hr : RegularLaw Measure.count (id : ℕ → ℕ) d) (f : ℕ → ℝ) {t : ℝ}
    (hs : HasSum (fun k => density (logDensityWrtRoot d k) * f k) t) :
    Integrable f (law Measure.count (id : ℕ → ℕ) d) ∧ ∫ k, f k ∂(law Measure.count (id : ℕ → ℕ) d) = t := by
  have hnn : ∀ k : ℕ, 0 ≤ density (logDensityWrtRoot d k) := by
    intro k
    rcases hr.proper k with ⟨r, h⟩ | h
    · rw [id] at h; rw [h]; exact (Real.exp_pos _).le
    · rw [id] at h; rw [h]; exact le_refl (0:ℝ)
  have mo := hr.measurable.ennreal_ofReal
  have e : (fun k : ℕ => (ENNReal.ofReal (density (logDensityWrtRoot d (id k)))).toReal • f k)
      = fun k => density (logDensityWrtRoot d k) * f k := by
    funext k
    rw [id, ENNReal.toReal_ofReal (hnn k), smul_eq_mul]
  have hi : Integrable (fun k => density (logDensityWrtRoot d k) * f k) (Measure.count : MeasureTheory.Measure ℕ) :=
    integrable_count_iff.2 hs.summable.norm
  constructor
  · unfold law
    rw [integrable_withDensity_iff_integrable_smul' mo (by simp), e]
    exact hi
  · unfold law
    rw [integral_withDensity_eq_integral_toReal_smul mo (by simp), e, integral_countable hi]
    simp [measureReal_def, hs.tsum_eq]

theorem poisson_mean {r : ℝ} {d : Poisson XReal} (h : Poisson.new (fin r) = .ok d) :
    HasSum (fun k : ℕ => (k : ℝ) * density (logDensityWrtRoot d k)) r := by
  obtain ⟨h1, h2⟩ := C18_poisson_pmf h
  rw [← hasSum_nat_add_iff' 1]
  have e : (fun k : ℕ => ((k + 1 : ℕ) : ℝ) * density (logDensityWrtRoot d (k + 1)))
      = fun k => r * density (logDensityWrtRoot d k) := by
    funext k
    rw [h1, h1, Nat.factorial_succ]
    have hk : (0 : ℝ) < k.factorial := by exact_mod_cast k.factorial_pos
    push_cast
    field_simp
    ring
  rw [e]
  simpa using h2.mul_left r

/-- **C122**, divergence of Poisson distributions: `r₁ ln(r₁/r₂) + r₂ - r₁`. -/
theorem C122_poisson_divergence_partial {r₁ r₂ : ℝ} {d₁ d₂ : Poisson XReal}
    (h₁ : Poisson.new (fin r₁) = .ok d₁) (h₂ : Poisson.new (fin r₂) = .ok d₂)
    (lay : Layout) (hl : lay.Apart) (addr : ℕ) :
    Integrable (fun k : ℕ => (relLogDensity (F := XReal) lay addr d₁ d₂ k).toReal)
      (law Measure.count (id : ℕ → ℕ) d₁) ∧
    ∫ k : ℕ, (relLogDensity (F := XReal) lay addr d₁ d₂ k).toReal ∂(law Measure.count (id : ℕ → ℕ) d₁)
      = r₁ * Real.log (r₁ / r₂) + r₂ - r₁ := by
  have hr := C122_regular.2.2.2.2.2.2.2.2 r₁ d₁ h₁
  have hmean := poisson_mean h₁
  have hone := (C18_poisson_pmf h₁).2
  obtain ⟨s₁, rfl⟩ := Poisson.new_ok h₁
  obtain ⟨s₂, rfl⟩ := Poisson.new_ok h₂
  refine integral_law_nat _ hr _ ?_
  have := (hmean.mul_left (Real.log (r₁ / r₂))).add (hone.mul_left (r₂ - r₁))
  have e : (fun k : ℕ => density (logDensityWrtRoot (⟨fin r₁⟩ : Poisson XReal) k)
        * (relLogDensity (F := XReal) lay addr (⟨fin r₁⟩ : Poisson XReal) (⟨fin r₂⟩ : Poisson XReal) k).toReal)
      = fun k : ℕ => Real.log (r₁ / r₂) * ((k : ℝ) * density (logDensityWrtRoot (⟨fin r₁⟩ : Poisson XReal) k))
        + (r₂ - r₁) * density (logDensityWrtRoot (⟨fin r₁⟩ : Poisson XReal) k) := by
    funext k
    rw [C01_relative_log_density_apart_partial lay hl, Poisson.ld s₁, Poisson.ld s₂, f_sub, toReal_fin,
      Real.log_div s₁.ne' s₂.ne']
    ring
  rw [e]
  have e2 : r₁ * Real.log (r₁ / r₂) + r₂ - r₁ = Real.log (r₁ / r₂) * r₁ + (r₂ - r₁) * 1 := by ring
  rw [e2]
  exact this

/-- **C122**, which distributions dominate: normal, Cauchy and Student distributions are positive wherever
any measure on the reals is; exponential ones dominate gamma, chi-squared and beta distributions. -/
theorem C122_dominating :
    (∀ {M : Type} [HasLogDensity M XReal XReal] (m : M) (μ σ : ℝ) (d : Normal XReal),
      Normal.new (fin μ) (fin σ) = .ok d → Dominates fin d m) ∧
    (∀ {M : Type} [HasLogDensity M XReal XReal] (m : M) (l s : ℝ) (d : Cauchy XReal),
      Cauchy.new (fin l) (fin s) = .ok d → Dominates fin d m) ∧
    (∀ {M : Type} [HasLogDensity M XReal XReal] (m : M) (ν : ℝ) (d : StudentT XReal),
      StudentT.new (fin ν) = .ok d → Dominates fin d m) ∧
    (∀ (r : ℝ) (d : Exponential XReal), Exponential.new (fin r) = .ok d →
      (∀ m : Exponential XReal, Dominates fin d m) ∧
      (∀ (a b : ℝ) (m : Gamma XReal), Gamma.new (fin a) (fin b) = .ok m → Dominates fin d m) ∧
      (∀ (k : ℝ) (m : ChiSquared XReal), ChiSquared.new (fin k) = .ok m → Dominates fin d m) ∧
      (∀ (a b : ℝ) (m : Beta XReal), Beta.new (fin a) (fin b) = .ok m → Dominates fin d m)) := by
  refine ⟨?_, ?_, ?_, ?_⟩
  · intro M _ m μ σ d h x _
    obtain ⟨hσ, rfl⟩ := Normal.new_ok h
    exact ⟨_, Normal.ld hσ⟩
  · intro M _ m l s d h x _
    obtain ⟨hs, rfl⟩ := Cauchy.new_ok h
    exact ⟨_, Cauchy.ld hs⟩
  · intro M _ m ν d h x _
    obtain ⟨hν, rfl⟩ := StudentT.new_ok h
    exact ⟨_, StudentT.ld hν⟩
  · intro r d h
    obtain ⟨hr, rfl⟩ := Exponential.new_ok h
    have hn : ¬ (ninf : XReal).IsFin := by rintro ⟨_, h⟩; cases h
    have key : ∀ x : ℝ, 0 ≤ x → (logDensityWrtRoot (⟨fin r⟩ : Exponential XReal) (fin x) : XReal).IsFin :=
      fun x hx => ⟨_, Exponential.ld_of_nonneg hr hx⟩
    refine ⟨?_, ?_, ?_, ?_⟩
    · rintro ⟨s⟩ x hx
      refine key x ?_
      by_contra hc
      have : (logDensityWrtRoot (⟨s⟩ : Exponential XReal) (fin x) : XReal) = ninf := by
        simp [logDensityWrtRoot, hc]
      rw [this] at hx
      exact hn hx
    · intro a b m hm x hx
      obtain ⟨-, -, rfl⟩ := Gamma.new_ok hm
      refine key x ?_
      by_contra hc
      rw [Gamma.ld_of_nonpos (not_le.mp hc).le] at hx
      exact hn hx
    · intro k m hm x hx
      obtain ⟨-, rfl⟩ := ChiSquared.new_ok hm
      refine key x ?_
      by_contra hc
      rw [ChiSquared.ld_of_nonpos (not_le.mp hc).le] at hx
      exact hn hx
    · intro a b m hm x hx
      obtain ⟨-, -, rfl⟩ := Beta.new_ok hm
      refine key x ?_
      by_contra hc
      rw [Beta.ld_of_not_mem (fun h => hc h.1.le)] at hx
      exact hn hx

/-- The hypotheses of the general theorems are met by a beta distribution relative to an exponential one and
by a Student distribution relative to a normal one. -/
example (lay : Layout) (hl : lay.Apart) (addr : ℕ) :
    ∃ (b : Beta XReal) (e : Exponential XReal), Beta.new (fin 2) (fin 3) = .ok b ∧
      Exponential.new (fin 1) = .ok e ∧ law volume fin b ≪ law volume fin e ∧
      0 ≤ ∫ x, (relLogDensity (F := XReal) lay addr b e (fin x)).toReal ∂(law volume fin b) := by
  have hb : Beta.new (fin 2) (fin 3) = .ok (⟨fin 2, fin 3⟩ : Beta XReal) := by simp [Beta.new]
  have he : Exponential.new (fin 1) = .ok (⟨fin 1⟩ : Exponential XReal) := by simp [Exponential.new]
  have r1 := C122_regular.2.2.2.1 2 3 _ hb
  have r2 := C122_regular.2.1 1 _ he
  have hd := (C122_dominating.2.2.2 1 _ he).2.2.2 2 3 _ hb
  exact ⟨_, _, hb, he,
    (C122_radon_nikodym_partial volume lay hl addr fin _ _ r1.proper r2.proper hd r1.measurable r2.measurable).2.1,
    (C122_divergence_partial volume lay hl addr fin _ _ r1.proper r2.proper hd r1.measurable r2.measurable
      r1.mass_one r2.mass_one).2.1⟩

end Verif
