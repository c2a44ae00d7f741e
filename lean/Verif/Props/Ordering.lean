import Verif.Props.SumsDiscrete
import Verif.Props.RadonNikodymDist
import Verif.Props.Identifiable
import Verif.Spec.Ordering
import Mathlib.MeasureTheory.Integral.Layercake
import Mathlib.Analysis.Calculus.Deriv.MeanValue

/-!
# C134: monotone likelihood ratios and stochastic dominance
-/

namespace Verif
open FloatOps XReal Spec MeasureTheory LogDensity

/-- **C134**, dominance: in the likelihood-ratio order of two regular laws on a linear order, every upper set
is at least as likely under the higher one, every threshold is reached at least as often, and every nonnegative
increasing function has at least as large a mean. -/
theorem C134_dominance {M N X α : Type} [MeasurableSpace α] [LinearOrder α] [HasLogDensity M X XReal]
    [HasLogDensity N X XReal] (μ : MeasureTheory.Measure α) (e : α → X) (lo : M) (hi : N)
    (hl : RegularLaw μ e lo) (hh : RegularLaw μ e hi) (ho : LikelihoodOrder e lo hi) :
    (∀ U : Set α, IsUpperSet U → MeasurableSet U → law μ e lo U ≤ law μ e hi U) ∧
    (∀ f : α → ℝ, Monotone f → Measurable f → (∀ a, 0 ≤ f a) →
      ∫⁻ a, ENNReal.ofReal (f a) ∂(law μ e lo) ≤ ∫⁻ a, ENNReal.ofReal (f a) ∂(law μ e hi)) := by
  have pl := law_prob _ _ _ hl
  have ph := law_prob _ _ _ hh
  have hU : ∀ U : Set α, IsUpperSet U → MeasurableSet U → law μ e lo U ≤ law μ e hi U := by
    intro U hU hm
    have ml := hl.measurable.ennreal_ofReal
    have mh := hh.measurable.ennreal_ofReal
    have key : law μ e hi Uᶜ * law μ e lo U ≤ law μ e hi U * law μ e lo Uᶜ := by
      rw [law, law, withDensity_apply _ hm, withDensity_apply _ hm, withDensity_apply _ hm.compl,
        withDensity_apply _ hm.compl, ← lintegral_mul_const _ mh, mul_comm (lintegral _ _),
        ← lintegral_mul_const _ ml]
      refine setLIntegral_mono' hm.compl fun x hx => ?_
      rw [← lintegral_const_mul _ ml, ← lintegral_const_mul _ mh]
      refine setLIntegral_mono' hm fun y hy => ?_
      have hxy : x ≤ y := by
        by_contra hlt
        exact hx (hU (not_le.1 hlt).le hy)
      rw [← ENNReal.ofReal_mul (density_nonneg_of_proper (hh.proper x)),
        ← ENNReal.ofReal_mul (density_nonneg_of_proper (hl.proper x)), mul_comm (density (logDensityWrtRoot lo (e x)))]
      exact ENNReal.ofReal_le_ofReal (ho x y hxy)
    rw [prob_compl_eq_one_sub hm, prob_compl_eq_one_sub hm] at key
    have l1 : law μ e lo U ≤ 1 := prob_le_one
    have h1 : law μ e hi U ≤ 1 := prob_le_one
    lift law μ e lo U to NNReal using ne_top_of_le_ne_top ENNReal.one_ne_top l1 with a
    lift law μ e hi U to NNReal using ne_top_of_le_ne_top ENNReal.one_ne_top h1 with b
    have e1 : (1 - (b : ENNReal)) * a = ((1 - b : NNReal) * a : NNReal) := by push_cast; rfl
    have e2 : (b : ENNReal) * (1 - a) = (b * (1 - a) : NNReal) := by push_cast; rfl
    rw [e1, e2, ENNReal.coe_le_coe] at key
    replace l1 : a ≤ 1 := by exact_mod_cast l1
    replace h1 : b ≤ 1 := by exact_mod_cast h1
    rw [ENNReal.coe_le_coe]
    have key' : ((1 - b : NNReal) * a : ℝ) ≤ b * (1 - a : NNReal) := by exact_mod_cast key
    rw [NNReal.coe_sub h1, NNReal.coe_sub l1] at key'
    rw [← NNReal.coe_le_coe]
    push_cast at key'
    linarith
  refine ⟨hU, fun f hf hm h0 => ?_⟩
  rw [lintegral_eq_lintegral_meas_le _ (Filter.Eventually.of_forall h0) hm.aemeasurable,
    lintegral_eq_lintegral_meas_le _ (Filter.Eventually.of_forall h0) hm.aemeasurable]
  refine lintegral_mono fun t => hU _ ?_ (measurableSet_le measurable_const hm)
  intro a b hab (ha : t ≤ f a)
  exact ha.trans (hf hab)

/-- **C134**, thresholds on the line and on the counts. -/
theorem C134_thresholds {M N X α : Type} [MeasurableSpace α] [LinearOrder α] [TopologicalSpace α] [OrderClosedTopology α]
    [OpensMeasurableSpace α] [HasLogDensity M X XReal]
    [HasLogDensity N X XReal] (μ : MeasureTheory.Measure α) (e : α → X) (lo : M) (hi : N)
    (hl : RegularLaw μ e lo) (hh : RegularLaw μ e hi) (ho : LikelihoodOrder e lo hi) :
    StochasticOrder (law μ e lo) (law μ e hi) := fun c =>
  (C134_dominance μ e lo hi hl hh ho).1 _ (isUpperSet_Ici c) measurableSet_Ici

/-- **C134**, the API form: in the likelihood-ratio order `hi.log_density().wrt(lo).at(x)` increases with the point
wherever both log-densities are finite, and conversely. -/
theorem C134_relative {M N X α : Type} [LE α] [Measure M X] [Measure N X] [HasLogDensity M X XReal]
    [HasLogDensity N X XReal] (lay : Layout) (hap : lay.Apart) (addr : ℕ) (e : α → X) (lo : M) (hi : N)
    (hp : ∀ a, ((logDensityWrtRoot lo (e a) : XReal).IsFin ∧ (logDensityWrtRoot hi (e a) : XReal).IsFin) ∨
      ((logDensityWrtRoot lo (e a) : XReal) = ninf ∧ (logDensityWrtRoot hi (e a) : XReal) = ninf)) :
    LikelihoodOrder e lo hi ↔ ∀ x y : α, x ≤ y → (logDensityWrtRoot lo (e x) : XReal).IsFin →
      (logDensityWrtRoot lo (e y) : XReal).IsFin →
      (relLogDensity (F := XReal) lay addr hi lo (e x) ≤. relLogDensity (F := XReal) lay addr hi lo (e y)) = true := by
  constructor
  · intro h x y hxy fx fy
    have := h x y hxy
    rcases hp x with ⟨⟨a, ha⟩, b, hb⟩ | ⟨h1, -⟩
    · rcases hp y with ⟨⟨c, hc⟩, d, hd⟩ | ⟨h1, -⟩
      · rw [C01_relative_log_density_apart_partial lay hap, C01_relative_log_density_apart_partial lay hap]
        rw [ha, hb, hc, hd, density_fin, density_fin, density_fin, density_fin, ← Real.exp_add, ← Real.exp_add,
          Real.exp_le_exp] at this
        rw [ha, hb, hc, hd]
        simp only [f_sub, f_le, decide_eq_true_eq]
        linarith
      · rw [h1] at fy; obtain ⟨_, hf⟩ := fy; cases hf
    · rw [h1] at fx; obtain ⟨_, hf⟩ := fx; cases hf
  · intro h x y hxy
    rcases hp x with ⟨⟨a, ha⟩, b, hb⟩ | ⟨h1, h2⟩
    · rcases hp y with ⟨⟨c, hc⟩, d, hd⟩ | ⟨h1, h2⟩
      · have := h x y hxy ⟨a, ha⟩ ⟨c, hc⟩
        rw [C01_relative_log_density_apart_partial lay hap, C01_relative_log_density_apart_partial lay hap] at this
        rw [ha, hb, hc, hd, density_fin, density_fin, density_fin, density_fin, ← Real.exp_add, ← Real.exp_add,
          Real.exp_le_exp]
        rw [ha, hb, hc, hd] at this
        simp only [f_sub, f_le, decide_eq_true_eq] at this
        linarith
      · rw [h1, h2]; simp
    · rw [h1, h2]; simp

/-! ### the families -/

theorem likelihoodOrder_iff {M N X α : Type} [LE α] [HasLogDensity M X XReal] [HasLogDensity N X XReal] {e : α → X}
    {lo : M} {hi : N} {S : α → Prop} {u v : α → ℝ}
    (hu : ∀ x, S x → (logDensityWrtRoot lo (e x) : XReal) = fin (u x))
    (hv : ∀ x, S x → (logDensityWrtRoot hi (e x) : XReal) = fin (v x))
    (nu : ∀ x, ¬ S x → (logDensityWrtRoot lo (e x) : XReal) = ninf)
    (nv : ∀ x, ¬ S x → (logDensityWrtRoot hi (e x) : XReal) = ninf) :
    LikelihoodOrder e lo hi ↔ ∀ x y, S x → S y → x ≤ y → v x - u x ≤ v y - u y := by
  constructor
  · intro h x y hx hy hxy
    have := h x y hxy
    rw [hu x hx, hu y hy, hv x hx, hv y hy, density_fin, density_fin, density_fin, density_fin, ← Real.exp_add,
      ← Real.exp_add, Real.exp_le_exp] at this
    linarith
  · intro h x y hxy
    by_cases hx : S x
    · by_cases hy : S y
      · rw [hu x hx, hu y hy, hv x hx, hv y hy, density_fin, density_fin, density_fin, density_fin, ← Real.exp_add,
          ← Real.exp_add, Real.exp_le_exp]
        have := h x y hx hy hxy
        linarith
      · rw [nu y hy, nv y hy]; simp
    · rw [nu x hx, nv x hx]; simp

theorem deriv_nonneg_of_le {S : Set ℝ} (hS : IsOpen S) {f : ℝ → ℝ} (h : ∀ x y, x ∈ S → y ∈ S → x ≤ y → f x ≤ f y)
    {x d : ℝ} (hx : x ∈ S) (hd : HasDerivAt f d x) : 0 ≤ d := by
  have hm : MonotoneOn f S := fun a ha b hb hab => h a b ha hb hab
  have := hm.derivWithin_nonneg (x := x)
  rwa [hd.hasDerivWithinAt.derivWithin (hS.uniqueDiffWithinAt hx)] at this

/-- A line that is nonnegative on an interval starting or ending at a point is nonnegative there. -/
theorem line_nonneg {A B : ℝ} (h : ∀ x : ℝ, 0 < x → x < 1 → 0 ≤ A * (1 - x) + B * x) : 0 ≤ A ∧ 0 ≤ B := by
  constructor
  · by_contra hA
    have hA := not_le.1 hA
    rcases le_or_gt B 0 with hB | hB
    · have := h (1/2) (by norm_num) (by norm_num); linarith
    · have hd : 0 < B - A := by linarith
      have h1 : -A / (2 * (B - A)) < 1 := by rw [div_lt_one (by positivity)]; linarith
      have := h (-A / (2 * (B - A))) (div_pos (by linarith) (by positivity)) h1
      have e : A * (1 - -A / (2 * (B - A))) + B * (-A / (2 * (B - A))) = A / 2 := by field_simp; ring
      linarith
  · by_contra hB
    have hB := not_le.1 hB
    rcases le_or_gt A 0 with hA | hA
    · have := h (1/2) (by norm_num) (by norm_num); linarith
    · have hd : 0 < A - B := by linarith
      have h1 : -B / (2 * (A - B)) < 1 := by rw [div_lt_one (by positivity)]; linarith
      have h2 : 0 < -B / (2 * (A - B)) := div_pos (by linarith) (by positivity)
      have := h (1 - -B / (2 * (A - B))) (by linarith) (by linarith)
      have e : A * (1 - (1 - -B / (2 * (A - B)))) + B * (1 - -B / (2 * (A - B))) = B / 2 := by field_simp; ring
      linarith

theorem line_nonneg_pos {A B : ℝ} (h : ∀ x : ℝ, 0 < x → 0 ≤ A / x + B) : 0 ≤ A ∧ 0 ≤ B := by
  refine line_nonneg fun x h0 h1 => ?_
  have h1' : 0 < 1 - x := by linarith
  have := mul_nonneg h1'.le (h (x / (1 - x)) (div_pos h0 h1'))
  have e : (1 - x) * (A / (x / (1 - x)) + B) = ((1 - x) / x) * (A * (1 - x) + B * x) := by field_simp
  rw [e] at this
  exact nonneg_of_mul_nonneg_right this (div_pos h1' h0)

/-- **C134**, families on the line: the likelihood ratio of two accepted distributions increases exactly under the
stated order of the parameters; for Cauchy and Student only if the two are the same. -/
theorem C134_continuous :
    (∀ (μ₁ σ₁ μ₂ σ₂ : ℝ) (d₁ d₂ : Normal XReal), Normal.new (fin μ₁) (fin σ₁) = .ok d₁ →
      Normal.new (fin μ₂) (fin σ₂) = .ok d₂ → (LikelihoodOrder fin d₁ d₂ ↔ σ₁ = σ₂ ∧ μ₁ ≤ μ₂)) ∧
    (∀ (r₁ r₂ : ℝ) (d₁ d₂ : Exponential XReal), Exponential.new (fin r₁) = .ok d₁ → Exponential.new (fin r₂) = .ok d₂ →
      (LikelihoodOrder fin d₁ d₂ ↔ r₂ ≤ r₁)) ∧
    (∀ (a₁ b₁ a₂ b₂ : ℝ) (d₁ d₂ : Gamma XReal), Gamma.new (fin a₁) (fin b₁) = .ok d₁ →
      Gamma.new (fin a₂) (fin b₂) = .ok d₂ → (LikelihoodOrder fin d₁ d₂ ↔ a₁ ≤ a₂ ∧ b₂ ≤ b₁)) ∧
    (∀ (k₁ k₂ : ℝ) (d₁ d₂ : ChiSquared XReal), ChiSquared.new (fin k₁) = .ok d₁ → ChiSquared.new (fin k₂) = .ok d₂ →
      (LikelihoodOrder fin d₁ d₂ ↔ k₁ ≤ k₂)) ∧
    (∀ (a₁ b₁ a₂ b₂ : ℝ) (d₁ d₂ : Beta XReal), Beta.new (fin a₁) (fin b₁) = .ok d₁ →
      Beta.new (fin a₂) (fin b₂) = .ok d₂ → (LikelihoodOrder fin d₁ d₂ ↔ a₁ ≤ a₂ ∧ b₂ ≤ b₁)) ∧
    (∀ (l₁ s₁ l₂ s₂ : ℝ) (d₁ d₂ : Cauchy XReal), Cauchy.new (fin l₁) (fin s₁) = .ok d₁ →
      Cauchy.new (fin l₂) (fin s₂) = .ok d₂ → (LikelihoodOrder fin d₁ d₂ ↔ l₁ = l₂ ∧ s₁ = s₂)) ∧
    (∀ (ν₁ ν₂ : ℝ) (d₁ d₂ : StudentT XReal), StudentT.new (fin ν₁) = .ok d₁ → StudentT.new (fin ν₂) = .ok d₂ →
      (LikelihoodOrder fin d₁ d₂ ↔ ν₁ = ν₂)) := by
  refine ⟨?_, ?_, ?_, ?_, ?_, ?_, ?_⟩
  · intro μ₁ σ₁ μ₂ σ₂ d₁ d₂ h₁ h₂
    obtain ⟨s₁, rfl⟩ := Normal.new_ok h₁
    obtain ⟨s₂, rfl⟩ := Normal.new_ok h₂
    rw [likelihoodOrder_iff (S := fun _ => True) (fun x _ => Normal.ld s₁) (fun x _ => Normal.ld s₂)
      (fun x hx => absurd trivial hx) (fun x hx => absurd trivial hx)]
    constructor
    · intro h
      have hd : ∀ x : ℝ, 0 ≤ (x - μ₁) / σ₁ ^ 2 - (x - μ₂) / σ₂ ^ 2 := by
        intro x
        refine deriv_nonneg_of_le isOpen_univ (x := x) (fun a b _ _ => h a b trivial trivial) trivial ?_
        have e1 : HasDerivAt (fun x : ℝ => (x - μ₁) / σ₁) (1 / σ₁) x := ((hasDerivAt_id x).sub_const μ₁).div_const σ₁
        have e2 : HasDerivAt (fun x : ℝ => (x - μ₂) / σ₂) (1 / σ₂) x := ((hasDerivAt_id x).sub_const μ₂).div_const σ₂
        refine HasDerivAt.congr_deriv (((((e2.const_mul (1/2)).mul e2).const_sub _).sub
          (((e1.const_mul (1/2)).mul e1).const_sub _))) ?_
        field_simp; ring
      have hz : ∀ x : ℝ, 0 ≤ (x - μ₁) * σ₂ ^ 2 - (x - μ₂) * σ₁ ^ 2 := by
        intro x
        have := mul_nonneg (mul_pos (pow_pos s₁ 2) (pow_pos s₂ 2)).le (hd x)
        have e : σ₁ ^ 2 * σ₂ ^ 2 * ((x - μ₁) / σ₁ ^ 2 - (x - μ₂) / σ₂ ^ 2)
          = (x - μ₁) * σ₂ ^ 2 - (x - μ₂) * σ₁ ^ 2 := by field_simp
        linarith
      have hs : σ₁ ^ 2 = σ₂ ^ 2 := by
        by_contra hne
        have hne : σ₂ ^ 2 - σ₁ ^ 2 ≠ 0 := fun h => hne (by linarith)
        have := hz ((μ₁ * σ₂ ^ 2 - μ₂ * σ₁ ^ 2 - 1) / (σ₂ ^ 2 - σ₁ ^ 2))
        have e : ∀ z : ℝ, (z - μ₁) * σ₂ ^ 2 - (z - μ₂) * σ₁ ^ 2
          = z * (σ₂ ^ 2 - σ₁ ^ 2) - (μ₁ * σ₂ ^ 2 - μ₂ * σ₁ ^ 2) := fun z => by ring
        rw [e, div_mul_cancel₀ _ hne] at this
        linarith
      have hσ : σ₁ = σ₂ := (pow_left_inj₀ s₁.le s₂.le two_ne_zero).1 hs
      refine ⟨hσ, ?_⟩
      have := hz 0
      rw [← hs] at this
      have hp := pow_pos s₁ 2
      by_contra hlt
      have := mul_pos (sub_pos.2 (not_le.1 hlt)) hp
      linarith
    · rintro ⟨rfl, hμ⟩ x y _ _ hxy
      have e : ∀ z : ℝ, 1/2 * ((z - μ₁)/σ₁) * ((z - μ₁)/σ₁) - 1/2 * ((z - μ₂)/σ₁) * ((z - μ₂)/σ₁)
        = (μ₂ - μ₁) / σ₁ ^ 2 * z + (μ₁ ^ 2 - μ₂ ^ 2) / (2 * σ₁ ^ 2) := by intro z; field_simp; ring
      have := mul_le_mul_of_nonneg_left hxy (div_nonneg (sub_nonneg.2 hμ) (pow_pos s₁ 2).le)
      have := e x
      have := e y
      linarith
  · intro r₁ r₂ d₁ d₂ h₁ h₂
    obtain ⟨s₁, rfl⟩ := Exponential.new_ok h₁
    obtain ⟨s₂, rfl⟩ := Exponential.new_ok h₂
    rw [likelihoodOrder_iff (S := fun x => 0 ≤ x) (fun x hx => Exponential.ld_of_nonneg s₁ hx)
      (fun x hx => Exponential.ld_of_nonneg s₂ hx) (fun x hx => Exponential.ld_of_neg (not_le.1 hx))
      (fun x hx => Exponential.ld_of_neg (not_le.1 hx))]
    constructor
    · intro h
      have := h 0 1 le_rfl zero_le_one zero_le_one
      linarith
    · intro h x y _ _ hxy
      have := mul_le_mul_of_nonneg_left hxy (sub_nonneg.2 h)
      linarith
  · intro a₁ b₁ a₂ b₂ d₁ d₂ h₁ h₂
    obtain ⟨p₁, q₁, rfl⟩ := Gamma.new_ok h₁
    obtain ⟨p₂, q₂, rfl⟩ := Gamma.new_ok h₂
    rw [likelihoodOrder_iff (S := fun x => 0 < x) (fun x hx => Gamma.ld_of_pos p₁ q₁ hx)
      (fun x hx => Gamma.ld_of_pos p₂ q₂ hx) (fun x hx => Gamma.ld_of_nonpos (not_lt.1 hx))
      (fun x hx => Gamma.ld_of_nonpos (not_lt.1 hx))]
    constructor
    · intro h
      have := line_nonneg_pos (A := a₂ - a₁) (B := b₁ - b₂) fun x hx => by
        refine deriv_nonneg_of_le isOpen_Ioi (x := x) h hx ?_
        have el := Real.hasDerivAt_log (ne_of_gt hx)
        have ei := hasDerivAt_id x
        refine HasDerivAt.congr_deriv ((((el.const_mul (a₂ - 1)).const_add _).sub (ei.const_mul b₂)).sub
          (((el.const_mul (a₁ - 1)).const_add _).sub (ei.const_mul b₁))) ?_
        field_simp; ring
      constructor <;> linarith [this.1, this.2]
    · rintro ⟨ha, hb⟩ x y hx hy hxy
      have := mul_le_mul_of_nonneg_left hxy (sub_nonneg.2 hb)
      have := mul_le_mul_of_nonneg_left (Real.log_le_log hx hxy) (sub_nonneg.2 ha)
      linarith
  · intro k₁ k₂ d₁ d₂ h₁ h₂
    obtain ⟨p₁, rfl⟩ := ChiSquared.new_ok h₁
    obtain ⟨p₂, rfl⟩ := ChiSquared.new_ok h₂
    rw [likelihoodOrder_iff (S := fun x => 0 < x) (fun x hx => ChiSquared.ld_of_pos p₁ hx)
      (fun x hx => ChiSquared.ld_of_pos p₂ hx) (fun x hx => ChiSquared.ld_of_nonpos (not_lt.1 hx))
      (fun x hx => ChiSquared.ld_of_nonpos (not_lt.1 hx))]
    constructor
    · intro h
      have := h 1 2 one_pos two_pos one_le_two
      rw [Real.log_one] at this
      by_contra hlt
      have := mul_pos (sub_pos.2 (not_le.1 hlt)) (Real.log_pos one_lt_two)
      linarith
    · intro hk x y hx hy hxy
      have := mul_le_mul_of_nonneg_left (Real.log_le_log hx hxy) (sub_nonneg.2 hk)
      linarith
  · intro a₁ b₁ a₂ b₂ d₁ d₂ h₁ h₂
    obtain ⟨p₁, q₁, rfl⟩ := Beta.new_ok h₁
    obtain ⟨p₂, q₂, rfl⟩ := Beta.new_ok h₂
    rw [likelihoodOrder_iff (S := fun x => 0 < x ∧ x < 1) (fun x hx => Beta.ld_of_mem p₁ q₁ hx.1 hx.2)
      (fun x hx => Beta.ld_of_mem p₂ q₂ hx.1 hx.2) (fun x hx => Beta.ld_of_not_mem hx)
      (fun x hx => Beta.ld_of_not_mem hx)]
    constructor
    · intro h
      have := line_nonneg (A := a₂ - a₁) (B := b₁ - b₂) fun x h0 h1 => by
        have h1' : 0 < 1 - x := by linarith
        have hd := deriv_nonneg_of_le (S := Set.Ioo 0 1) isOpen_Ioo (x := x) h ⟨h0, h1⟩
          (d := (a₂ - a₁) / x + (b₁ - b₂) / (1 - x)) (by
            have el := Real.hasDerivAt_log (ne_of_gt h0)
            have er : HasDerivAt (fun x : ℝ => Real.log (1 - x)) (-1 / (1 - x)) x :=
              ((hasDerivAt_id x).const_sub 1).log h1'.ne'
            refine HasDerivAt.congr_deriv ((((el.const_mul (a₂ - 1)).const_add _).add (er.const_mul (b₂ - 1))).sub
              (((el.const_mul (a₁ - 1)).const_add _).add (er.const_mul (b₁ - 1)))) ?_
            field_simp; ring)
        have := mul_nonneg (mul_pos h0 h1').le hd
        have e : x * (1 - x) * ((a₂ - a₁) / x + (b₁ - b₂) / (1 - x)) = (a₂ - a₁) * (1 - x) + (b₁ - b₂) * x := by
          field_simp
        linarith
      constructor <;> linarith [this.1, this.2]
    · rintro ⟨ha, hb⟩ x y hx hy hxy
      have := mul_le_mul_of_nonneg_left (Real.log_le_log (sub_pos.2 hy.2) (by linarith : 1 - y ≤ 1 - x)) (sub_nonneg.2 hb)
      have := mul_le_mul_of_nonneg_left (Real.log_le_log hx.1 hxy) (sub_nonneg.2 ha)
      linarith
  · intro l₁ s₁ l₂ s₂ d₁ d₂ h₁ h₂
    obtain ⟨p₁, rfl⟩ := Cauchy.new_ok h₁
    obtain ⟨p₂, rfl⟩ := Cauchy.new_ok h₂
    rw [likelihoodOrder_iff (S := fun _ => True) (fun x _ => Cauchy.ld p₁) (fun x _ => Cauchy.ld p₂)
      (fun x hx => absurd trivial hx) (fun x hx => absurd trivial hx)]
    constructor
    · intro h
      have hd : ∀ x : ℝ, 0 ≤ (x - l₁) * (s₂ ^ 2 + (x - l₂) ^ 2) - (x - l₂) * (s₁ ^ 2 + (x - l₁) ^ 2) := by
        intro x
        have g : ∀ l s : ℝ, 0 < s → HasDerivAt (fun x : ℝ => Real.log (1 + (x - l)/s * ((x - l)/s)))
            (2 * (x - l) / (s ^ 2 + (x - l) ^ 2)) x := by
          intro l s hs
          have e1 : HasDerivAt (fun x : ℝ => (x - l) / s) (1 / s) x := ((hasDerivAt_id x).sub_const l).div_const s
          have hpos : 0 < 1 + (x - l)/s * ((x - l)/s) := by have := mul_self_nonneg ((x - l)/s); linarith
          refine HasDerivAt.congr_deriv (((e1.mul e1).const_add 1).log hpos.ne') ?_
          have hq : 0 < s ^ 2 + (x - l) ^ 2 := by positivity
          have e2 : 1 + (x - l)/s * ((x - l)/s) = (s ^ 2 + (x - l) ^ 2) / s ^ 2 := by field_simp
          simp only [Pi.mul_apply]
          rw [e2]
          field_simp; ring
        have hn := deriv_nonneg_of_le isOpen_univ (x := x) (fun a b _ _ => h a b trivial trivial) trivial
          ((((g l₂ s₂ p₂).neg.sub_const _).sub_const _).sub (((g l₁ s₁ p₁).neg.sub_const _).sub_const _))
        have q₁ : 0 < s₁ ^ 2 + (x - l₁) ^ 2 := by positivity
        have q₂ : 0 < s₂ ^ 2 + (x - l₂) ^ 2 := by positivity
        have := mul_nonneg (mul_pos q₁ q₂).le hn
        have e : (s₁ ^ 2 + (x - l₁) ^ 2) * (s₂ ^ 2 + (x - l₂) ^ 2) *
          (-(2 * (x - l₂) / (s₂ ^ 2 + (x - l₂) ^ 2)) - -(2 * (x - l₁) / (s₁ ^ 2 + (x - l₁) ^ 2)))
          = 2 * ((x - l₁) * (s₂ ^ 2 + (x - l₂) ^ 2) - (x - l₂) * (s₁ ^ 2 + (x - l₁) ^ 2)) := by
          field_simp; ring
        linarith
      have hle : l₁ ≤ l₂ := by
        have := hd l₁
        by_contra hlt
        have := mul_pos (sub_pos.2 (not_le.1 hlt)) (pow_pos p₁ 2)
        simp only [sub_self, zero_mul, zero_sub, ne_eq, OfNat.ofNat_ne_zero, not_false_eq_true, zero_pow, add_zero] at *
        linarith
      have hge : l₂ ≤ l₁ := by
        have k1 := hd (l₁ + 2 * s₁)
        have k2 := hd (l₁ - 2 * s₁)
        by_contra hlt
        have := mul_pos (sub_pos.2 (not_le.1 hlt)) (pow_pos p₁ 2)
        ring_nf at k1 k2 this
        linarith
      obtain rfl : l₁ = l₂ := le_antisymm hle hge
      refine ⟨rfl, ?_⟩
      have k1 := hd (l₁ + 1)
      have k2 := hd (l₁ - 1)
      have : s₁ ^ 2 = s₂ ^ 2 := by ring_nf at k1 k2; linarith
      exact (pow_left_inj₀ p₁.le p₂.le two_ne_zero).1 this
    · rintro ⟨rfl, rfl⟩ x y _ _ _
      simp
  · intro ν₁ ν₂ d₁ d₂ h₁ h₂
    obtain ⟨p₁, rfl⟩ := StudentT.new_ok h₁
    obtain ⟨p₂, rfl⟩ := StudentT.new_ok h₂
    rw [likelihoodOrder_iff (S := fun _ => True) (fun x _ => StudentT.ld p₁) (fun x _ => StudentT.ld p₂)
      (fun x hx => absurd trivial hx) (fun x hx => absurd trivial hx)]
    constructor
    · intro h
      have hd : ∀ x : ℝ, 0 ≤ x * ((ν₁ + 1) * (ν₂ + x ^ 2) - (ν₂ + 1) * (ν₁ + x ^ 2)) := by
        intro x
        have g : ∀ ν : ℝ, 0 < ν → HasDerivAt (fun x : ℝ => Real.log (1 + x * x / ν)) (2 * x / (ν + x ^ 2)) x := by
          intro ν hs
          have hpos : 0 < 1 + x * x / ν := by have := div_nonneg (mul_self_nonneg x) hs.le; linarith
          have ei := hasDerivAt_id x
          refine HasDerivAt.congr_deriv ((((ei.mul ei).div_const ν).const_add 1).log hpos.ne') ?_
          have hq : 0 < ν + x ^ 2 := by positivity
          have e2 : 1 + x * x / ν = (ν + x ^ 2) / ν := by field_simp
          simp only [id, Pi.mul_apply]
          rw [e2]
          field_simp; ring
        have hn := deriv_nonneg_of_le isOpen_univ (x := x) (fun a b _ _ => h a b trivial trivial) trivial
          ((((g ν₂ p₂).const_mul (-((ν₂ + 1)/2))).const_add _).sub (((g ν₁ p₁).const_mul (-((ν₁ + 1)/2))).const_add _))
        have q₁ : 0 < ν₁ + x ^ 2 := by positivity
        have q₂ : 0 < ν₂ + x ^ 2 := by positivity
        have := mul_nonneg (mul_pos q₁ q₂).le hn
        have e : (ν₁ + x ^ 2) * (ν₂ + x ^ 2) * (-((ν₂ + 1)/2) * (2 * x / (ν₂ + x ^ 2)) -
          -((ν₁ + 1)/2) * (2 * x / (ν₁ + x ^ 2)))
          = x * ((ν₁ + 1) * (ν₂ + x ^ 2) - (ν₂ + 1) * (ν₁ + x ^ 2)) := by
          field_simp; ring
        linarith
      have k1 := hd 2
      have k2 := hd (-2)
      linarith
    · rintro rfl x y _ _ _
      simp

/-- **C134**, counts. -/
theorem C134_counts :
    (∀ (p₁ p₂ : ℝ) (d₁ d₂ : Bernoulli XReal), Bernoulli.new (fin p₁) = .ok d₁ → Bernoulli.new (fin p₂) = .ok d₂ →
      (LikelihoodOrder byteOf d₁ d₂ ↔ p₁ ≤ p₂)) ∧
    (∀ (r₁ r₂ : ℝ) (d₁ d₂ : Poisson XReal), Poisson.new (fin r₁) = .ok d₁ → Poisson.new (fin r₂) = .ok d₂ →
      (LikelihoodOrder (id : ℕ → ℕ) d₁ d₂ ↔ r₁ ≤ r₂)) ∧
    (∀ (p₁ p₂ : ℝ) (d₁ d₂ : Geometric XReal), Geometric.new (fin p₁) = .ok d₁ → Geometric.new (fin p₂) = .ok d₂ →
      p₁ < 1 → p₂ < 1 → (LikelihoodOrder (id : ℕ → ℕ) d₁ d₂ ↔ p₂ ≤ p₁)) ∧
    (∀ (n : ℕ) (p₁ p₂ : ℝ) (d₁ d₂ : Binomial XReal), Binomial.new n (fin p₁) = .ok d₁ → Binomial.new n (fin p₂) = .ok d₂ →
      0 < p₁ → p₁ < 1 → 0 < p₂ → p₂ < 1 → 0 < n →
      (LikelihoodOrder (id : ℕ → ℕ) d₁.withBase d₂.withBase ↔ p₁ ≤ p₂)) ∧
    (∀ (r : ℕ) (p₁ p₂ : ℝ) (d₁ d₂ : NegativeBinomial XReal), NegativeBinomial.new r (fin p₁) = .ok d₁ →
      NegativeBinomial.new r (fin p₂) = .ok d₂ →
      (LikelihoodOrder (id : ℕ → ℕ) d₁.withBase d₂.withBase ↔ p₂ ≤ p₁)) := by
  refine ⟨?_, ?_, ?_, ?_, ?_⟩
  · intro p₁ p₂ d₁ d₂ h₁ h₂
    have k₁ := (C16_bernoulli_pmf h₁).1
    have k₂ := (C16_bernoulli_pmf h₂).1
    obtain ⟨⟨q₁, q₁'⟩, -⟩ := Bernoulli.new_ok h₁
    obtain ⟨⟨q₂, q₂'⟩, -⟩ := Bernoulli.new_ok h₂
    unfold LikelihoodOrder
    simp only [k₁, k₂]
    constructor
    · intro h
      have := h 0 1 (by decide)
      simp [show byteOf 1 = 1 from rfl, show byteOf 0 = 0 from rfl] at this
      linarith
    · intro h x y hxy
      simp only [byteOf_eq_zero, byteOf_eq_one]
      have h10 : ¬ (1 : Fin 256) = 0 := by decide
      by_cases hx : x = 1
      · subst hx
        by_cases hy : y = 1
        · subst hy; simp only [if_true]; linarith
        · have hy0 : y ≠ 0 := by rintro rfl; exact absurd hxy (by decide)
          simp [hy, hy0]
      · by_cases hx0 : x = 0
        · subst hx0
          by_cases hy : y = 1
          · subst hy; simp only [if_true, if_false, Ne.symm h10]; nlinarith
          · by_cases hy0 : y = 0
            · subst hy0; simp [Ne.symm h10, mul_comm]
            · simp [hy, hy0]
        · simp [hx, hx0]
  · intro r₁ r₂ d₁ d₂ h₁ h₂
    obtain ⟨p₁, rfl⟩ := Poisson.new_ok h₁
    obtain ⟨p₂, rfl⟩ := Poisson.new_ok h₂
    rw [likelihoodOrder_iff (e := id) (S := fun _ => True) (fun x _ => Poisson.ld p₁ x) (fun x _ => Poisson.ld p₂ x)
      (fun x hx => absurd trivial hx) (fun x hx => absurd trivial hx)]
    constructor
    · intro h
      have := h 0 1 trivial trivial zero_le_one
      simp at this
      exact (Real.log_le_log_iff p₁ p₂).1 (by linarith)
    · intro h x y _ _ hxy
      have hxy : (x : ℝ) ≤ y := by exact_mod_cast hxy
      have := mul_le_mul_of_nonneg_left hxy (sub_nonneg.2 (Real.log_le_log p₁ h))
      linarith
  · intro p₁ p₂ d₁ d₂ h₁ h₂ l₁ l₂
    obtain ⟨⟨q₁, -⟩, rfl⟩ := Geometric.new_ok h₁
    obtain ⟨⟨q₂, -⟩, rfl⟩ := Geometric.new_ok h₂
    rw [likelihoodOrder_iff (e := id) (S := fun k : ℕ => 1 ≤ k) (fun x hx => Geometric.ld_of_pos q₁ l₁ hx)
      (fun x hx => Geometric.ld_of_pos q₂ l₂ hx)
      (fun x hx => by obtain rfl : x = 0 := by omega
                      simp [logDensityWrtRoot])
      (fun x hx => by obtain rfl : x = 0 := by omega
                      simp [logDensityWrtRoot])]
    constructor
    · intro h
      have := h 1 2 le_rfl one_le_two one_le_two
      norm_num at this
      have := (Real.log_le_log_iff (sub_pos.2 l₁) (sub_pos.2 l₂)).1 (by linarith)
      linarith
    · intro h x y _ _ hxy
      have hxy : (x : ℝ) ≤ y := by exact_mod_cast hxy
      simp only [id]
      have := mul_le_mul_of_nonneg_left hxy (sub_nonneg.2 (Real.log_le_log (sub_pos.2 l₁) (by linarith : 1 - p₁ ≤ 1 - p₂)))
      linarith
  · intro n p₁ p₂ d₁ d₂ h₁ h₂ a₁ b₁ a₂ b₂ hn
    obtain ⟨-, rfl⟩ := Binomial.new_ok h₁
    obtain ⟨-, rfl⟩ := Binomial.new_ok h₂
    rw [likelihoodOrder_iff (e := id) (S := fun k : ℕ => k ≤ n) (fun x hx => (Binomial.withBase_ld a₁ b₁ x).1 hx)
      (fun x hx => (Binomial.withBase_ld a₂ b₂ x).1 hx) (fun x hx => (Binomial.withBase_ld a₁ b₁ x).2 (not_le.1 hx))
      (fun x hx => (Binomial.withBase_ld a₂ b₂ x).2 (not_le.1 hx))]
    constructor
    · intro h
      have := h 0 1 (Nat.zero_le _) hn zero_le_one
      push_cast at this
      by_contra hlt
      have hlt := not_le.1 hlt
      have := Real.log_lt_log a₂ hlt
      have := Real.log_lt_log (sub_pos.2 b₁) (by linarith : 1 - p₁ < 1 - p₂)
      linarith
    · intro h x y _ _ hxy
      have hxy : (x : ℝ) ≤ y := by exact_mod_cast hxy
      have := mul_le_mul_of_nonneg_left hxy (sub_nonneg.2 (Real.log_le_log a₁ h))
      have := mul_le_mul_of_nonneg_left hxy (sub_nonneg.2 (Real.log_le_log (sub_pos.2 b₂) (by linarith : 1 - p₂ ≤ 1 - p₁)))
      linarith
  · intro r p₁ p₂ d₁ d₂ h₁ h₂
    obtain ⟨hr, ⟨a₁, b₁⟩, rfl⟩ := NegativeBinomial.new_ok h₁
    obtain ⟨-, ⟨a₂, b₂⟩, rfl⟩ := NegativeBinomial.new_ok h₂
    rw [likelihoodOrder_iff (e := id) (S := fun _ => True) (fun x _ => NegativeBinomial.withBase_ld hr a₁ b₁ x)
      (fun x _ => NegativeBinomial.withBase_ld hr a₂ b₂ x) (fun x hx => absurd trivial hx)
      (fun x hx => absurd trivial hx)]
    constructor
    · intro h
      have := h 0 1 trivial trivial zero_le_one
      push_cast at this
      have := (Real.log_le_log_iff (sub_pos.2 b₁) (sub_pos.2 b₂)).1 (by linarith)
      linarith
    · intro h x y _ _ hxy
      have hxy : (x : ℝ) ≤ y := by exact_mod_cast hxy
      have := mul_le_mul_of_nonneg_left hxy (sub_nonneg.2 (Real.log_le_log (sub_pos.2 b₁) (by linarith : 1 - p₁ ≤ 1 - p₂)))
      linarith

/-- **C134**, location families: moving a normal or Cauchy distribution up raises the probability of reaching
any threshold (for Cauchy although its likelihood ratio is not monotone). -/
theorem C134_location :
    (∀ (μ₁ μ₂ σ : ℝ) (d₁ d₂ : Normal XReal), Normal.new (fin μ₁) (fin σ) = .ok d₁ →
      Normal.new (fin μ₂) (fin σ) = .ok d₂ →
      (StochasticOrder (law volume fin d₁) (law volume fin d₂) ↔ μ₁ ≤ μ₂)) ∧
    (∀ (l₁ l₂ s : ℝ) (d₁ d₂ : Cauchy XReal), Cauchy.new (fin l₁) (fin s) = .ok d₁ →
      Cauchy.new (fin l₂) (fin s) = .ok d₂ →
      (StochasticOrder (law volume fin d₁) (law volume fin d₂) ↔ l₁ ≤ l₂)) := by
  have main : ∀ {N : Type} [HasLogDensity N XReal XReal] (d₁ d₂ : N) (δ : ℝ), RegularLaw volume fin d₁ →
      (∀ x : ℝ, (logDensityWrtRoot d₂ (fin x) : XReal) = logDensityWrtRoot d₁ (fin (x - δ))) →
      (∀ x : ℝ, (logDensityWrtRoot d₁ (fin x) : XReal).IsFin) →
      (StochasticOrder (law volume fin d₁) (law volume fin d₂) ↔ 0 ≤ δ) := by
    intro N _ d₁ d₂ δ hr hs hf
    have hshift : ∀ c : ℝ, law volume fin d₂ (Set.Ici c) = law volume fin d₁ (Set.Ici (c - δ)) := by
      intro c
      rw [law, law, withDensity_apply _ measurableSet_Ici, withDensity_apply _ measurableSet_Ici,
        ← lintegral_indicator measurableSet_Ici, ← lintegral_indicator measurableSet_Ici,
        ← lintegral_sub_right_eq_self (fun x => (Set.Ici (c - δ)).indicator _ x) δ]
      congr 1
      funext x
      simp only [Set.indicator, Set.mem_Ici, sub_le_sub_iff_right, hs]
    constructor
    · intro h
      by_contra hlt
      have hlt := not_le.1 hlt
      have h0 := h 0
      rw [hshift] at h0
      have pr := law_prob _ _ _ hr
      have hun : Set.Ici (0:ℝ) = Set.Ico 0 (0 - δ) ∪ Set.Ici (0 - δ) := (Set.Ico_union_Ici_eq_Ici (by linarith)).symm
      rw [hun, measure_union (by
        rw [Set.disjoint_left]; rintro a ⟨_, ha⟩ hb; exact absurd ha (not_lt.2 hb)) measurableSet_Ici] at h0
      have hz : law volume fin d₁ (Set.Ico 0 (0 - δ)) = 0 := by
        have hne : law volume fin d₁ (Set.Ici (0 - δ)) ≠ ⊤ := measure_ne_top _ _
        have h0' : law volume fin d₁ (Set.Ico 0 (0 - δ)) + law volume fin d₁ (Set.Ici (0 - δ))
          ≤ 0 + law volume fin d₁ (Set.Ici (0 - δ)) := by rwa [zero_add]
        exact le_antisymm (ENNReal.le_of_add_le_add_right hne h0') zero_le
      rw [law, withDensity_apply _ measurableSet_Ico, lintegral_eq_zero_iff hr.measurable.ennreal_ofReal] at hz
      have hv : volume (Set.Ico (0:ℝ) (0 - δ)) = 0 := by
        rw [← Measure.restrict_apply_univ]
        refine measure_mono_null ?_ hz
        intro x _ hx
        obtain ⟨v, hv⟩ := hf x
        have hx : ENNReal.ofReal (density (logDensityWrtRoot d₁ (fin x) : XReal)) = 0 := hx
        rw [hv, density_fin, ENNReal.ofReal_eq_zero] at hx
        exact absurd hx (not_le.2 (Real.exp_pos _))
      rw [Real.volume_Ico, ENNReal.ofReal_eq_zero] at hv
      linarith
    · intro h c
      rw [hshift]
      exact measure_mono (Set.Ici_subset_Ici.2 (by linarith))
  constructor
  · intro μ₁ μ₂ σ d₁ d₂ h₁ h₂
    have hr := C122_regular.1 _ _ _ h₁
    obtain ⟨s₁, rfl⟩ := Normal.new_ok h₁
    obtain ⟨-, rfl⟩ := Normal.new_ok h₂
    rw [main _ _ (μ₂ - μ₁) hr, sub_nonneg]
    · intro x
      rw [Normal.ld s₁, Normal.ld s₁]
      congr 2
      have e : x - μ₂ = x - (μ₂ - μ₁) - μ₁ := by ring
      rw [e]
    · intro x; exact ⟨_, Normal.ld s₁⟩
  · intro l₁ l₂ s d₁ d₂ h₁ h₂
    have hr := C122_regular.2.2.2.2.2.1 _ _ _ h₁
    obtain ⟨s₁, rfl⟩ := Cauchy.new_ok h₁
    obtain ⟨-, rfl⟩ := Cauchy.new_ok h₂
    rw [main _ _ (l₂ - l₁) hr, sub_nonneg]
    · intro x
      rw [Cauchy.ld s₁, Cauchy.ld s₁]
      have e : x - l₂ = x - (l₂ - l₁) - l₁ := by ring
      rw [e]
    · intro x; exact ⟨_, Cauchy.ld s₁⟩

/-- The hypotheses are met: waiting times with the larger rate are stochastically shorter. -/
example : StochasticOrder (law volume fin (⟨fin 3⟩ : Exponential XReal)) (law volume fin (⟨fin 2⟩ : Exponential XReal)) := by
  have h3 : Exponential.new (fin 3) = .ok (⟨fin 3⟩ : Exponential XReal) := by simp [Exponential.new]
  have h2 : Exponential.new (fin 2) = .ok (⟨fin 2⟩ : Exponential XReal) := by simp [Exponential.new]
  exact C134_thresholds _ _ _ _ (C122_regular.2.1 _ _ h3) (C122_regular.2.1 _ _ h2)
    ((C134_continuous.2.1 3 2 _ _ h3 h2).2 (by norm_num))

/-- The hypotheses are met: accidents with the larger rate are stochastically more. -/
example : StochasticOrder (law Measure.count (id : ℕ → ℕ) (⟨fin 2⟩ : Poisson XReal))
    (law Measure.count (id : ℕ → ℕ) (⟨fin 3⟩ : Poisson XReal)) := by
  have h3 : Poisson.new (fin 3) = .ok (⟨fin 3⟩ : Poisson XReal) := by simp [Poisson.new]
  have h2 : Poisson.new (fin 2) = .ok (⟨fin 2⟩ : Poisson XReal) := by simp [Poisson.new]
  exact C134_thresholds _ _ _ _ (C122_regular.2.2.2.2.2.2.2.2 _ _ h2) (C122_regular.2.2.2.2.2.2.2.2 _ _ h3)
    ((C134_counts.2.1 2 3 _ _ h2 h3).2 (by norm_num))

end Verif
