import Verif.Model.Combinators
import Verif.Spec.Mass
import Verif.Props.Continuous
import Verif.Props.Discrete

/-!
# C32: product measures
-/

namespace Verif
open FloatOps XReal Spec MeasureTheory

/-- the value a proper log-density can take -/
theorem density_add {a b : XReal} (ha : a.IsFin ∨ a = ninf) (hb : b.IsFin ∨ b = ninf) :
    density (a +. b) = density a * density b ∧ ((a +. b).IsFin ∨ (a +. b) = ninf) := by
  rcases ha with ⟨x, rfl⟩ | rfl <;> rcases hb with ⟨y, rfl⟩ | rfl <;> simp [Real.exp_add]

theorem density_nonneg_of_proper {a : XReal} (ha : a.IsFin ∨ a = ninf) : 0 ≤ density a := by
  rcases ha with ⟨x, rfl⟩ | rfl
  · exact (Real.exp_pos x).le
  · exact le_refl _

/-- **C32**: for all factors with proper log-densities the product's density is the product of the
densities, hence again proper; and a pair is in the support iff both coordinates are. -/
theorem C32_product_density {M1 M2 X1 X2 : Type} [Measure M1 X1] [Measure M2 X2] [HasLogDensity M1 X1 XReal]
    [HasLogDensity M2 X2 XReal] (m1 : M1) (m2 : M2) (x1 : X1) (x2 : X2)
    (h1 : (logDensityWrtRoot m1 x1 : XReal).IsFin ∨ (logDensityWrtRoot m1 x1 : XReal) = ninf)
    (h2 : (logDensityWrtRoot m2 x2 : XReal).IsFin ∨ (logDensityWrtRoot m2 x2 : XReal) = ninf) :
    density (logDensityWrtRoot (⟨m1, m2⟩ : ProductMeasure M1 M2) (x1, x2) : XReal)
      = density (logDensityWrtRoot m1 x1 : XReal) * density (logDensityWrtRoot m2 x2 : XReal) ∧
    ((logDensityWrtRoot (⟨m1, m2⟩ : ProductMeasure M1 M2) (x1, x2) : XReal).IsFin ∨
      (logDensityWrtRoot (⟨m1, m2⟩ : ProductMeasure M1 M2) (x1, x2) : XReal) = ninf) ∧
    (Measure.inSupport (⟨m1, m2⟩ : ProductMeasure M1 M2) (x1, x2) = true ↔
      Measure.inSupport m1 x1 = true ∧ Measure.inSupport m2 x2 = true) :=
  ⟨(density_add h1 h2).1, (density_add h1 h2).2, by
    show (_ && _) = true ↔ _
    rw [Bool.and_eq_true]⟩

/-- **C32**: the total mass of a product is the product of the total masses, for all factors with proper
measurable densities on any two σ-finite reference spaces. -/
theorem C32_product_mass {M1 M2 X1 X2 α β : Type} [MeasurableSpace α] [MeasurableSpace β]
    [HasLogDensity M1 X1 XReal] [HasLogDensity M2 X2 XReal]
    (μ : MeasureTheory.Measure α) (ν : MeasureTheory.Measure β) [SFinite μ] [SFinite ν]
    (e1 : α → X1) (e2 : β → X2) (m1 : M1) (m2 : M2) (h1 : Proper e1 m1) (h2 : Proper e2 m2)
    (hm1 : Measurable (fun a => density (logDensityWrtRoot m1 (e1 a) : XReal)))
    (hm2 : Measurable (fun b => density (logDensityWrtRoot m2 (e2 b) : XReal))) :
    mass (μ.prod ν) (fun p => (e1 p.1, e2 p.2)) (⟨m1, m2⟩ : ProductMeasure M1 M2)
      = mass μ e1 m1 * mass ν e2 m2 := by
  unfold mass
  rw [← lintegral_prod_mul hm1.ennreal_ofReal.aemeasurable hm2.ennreal_ofReal.aemeasurable]
  refine lintegral_congr fun p => ?_
  have := (density_add (h1 p.1) (h2 p.2)).1
  show ENNReal.ofReal (density (logDensityWrtRoot m1 (e1 p.1) +. logDensityWrtRoot m2 (e2 p.2))) = _
  rw [this, ENNReal.ofReal_mul (density_nonneg_of_proper (h1 p.1))]

/-! ### nesting -/

/-- `n + 1` measures of the same type nested to the right, as `product_measure!` builds them. -/
def NestedProduct (M : Type) : ℕ → Type
  | 0 => M
  | n + 1 => ProductMeasure M (NestedProduct M n)

/-- the points of a nested product: right-nested pairs -/
def NestedPoint (X : Type) : ℕ → Type
  | 0 => X
  | n + 1 => X × NestedPoint X n

/-- the right-nested product of a non-empty family -/
def nestMeasures {M : Type} : (n : ℕ) → (Fin (n + 1) → M) → NestedProduct M n
  | 0, f => f 0
  | n + 1, f => (⟨f 0, nestMeasures n (fun i => f i.succ)⟩ : ProductMeasure M (NestedProduct M n))

/-- the right-nested tuple of a non-empty family -/
def nestPoints {X : Type} : (n : ℕ) → (Fin (n + 1) → X) → NestedPoint X n
  | 0, f => f 0
  | n + 1, f => (f 0, nestPoints n (fun i => f i.succ))

instance nestedProductHas {M X F : Type} [FloatOps F] [HasLogDensity M X F] :
    (n : ℕ) → HasLogDensity (NestedProduct M n) (NestedPoint X n) F
  | 0 => inferInstanceAs (HasLogDensity M X F)
  | n + 1 =>
    have := nestedProductHas (M := M) (X := X) (F := F) n
    inferInstanceAs (HasLogDensity (ProductMeasure M (NestedProduct M n)) (X × NestedPoint X n) F)

instance nestedProductMeasure {M X : Type} [Measure M X] :
    (n : ℕ) → Measure (NestedProduct M n) (NestedPoint X n)
  | 0 => inferInstanceAs (Measure M X)
  | n + 1 =>
    have := nestedProductMeasure (M := M) (X := X) n
    inferInstanceAs (Measure (ProductMeasure M (NestedProduct M n)) (X × NestedPoint X n))

/-- **C32**, any nesting depth: the density of a product of `n + 1` factors is the product of their
densities, and the tuple is in the support iff each coordinate is in its factor's. -/
theorem C32_nested_product {M X : Type} [Measure M X] [HasLogDensity M X XReal] (n : ℕ)
    (ms : Fin (n + 1) → M) (xs : Fin (n + 1) → X)
    (h : ∀ i, (logDensityWrtRoot (ms i) (xs i) : XReal).IsFin ∨
      (logDensityWrtRoot (ms i) (xs i) : XReal) = ninf) :
    density (logDensityWrtRoot (nestMeasures n ms) (nestPoints n xs) : XReal)
      = ∏ i, density (logDensityWrtRoot (ms i) (xs i) : XReal) ∧
    (Measure.inSupport (nestMeasures n ms) (nestPoints n xs) = true ↔
      ∀ i, Measure.inSupport (ms i) (xs i) = true) := by
  have key : density (logDensityWrtRoot (nestMeasures n ms) (nestPoints n xs) : XReal)
      = ∏ i, density (logDensityWrtRoot (ms i) (xs i) : XReal) ∧
      ((logDensityWrtRoot (nestMeasures n ms) (nestPoints n xs) : XReal).IsFin ∨
        (logDensityWrtRoot (nestMeasures n ms) (nestPoints n xs) : XReal) = ninf) := by
    induction n with
    | zero => exact ⟨by rw [Fin.prod_univ_one]; rfl, h 0⟩
    | succ n ih =>
      obtain ⟨i1, i2⟩ := ih (fun i => ms i.succ) (fun i => xs i.succ) (fun i => h i.succ)
      have := density_add (h 0) i2
      refine ⟨?_, this.2⟩
      rw [Fin.prod_univ_succ, ← i1]
      exact this.1
  refine ⟨key.1, ?_⟩
  clear key h
  induction n with
  | zero => exact ⟨fun h i => by rw [Fin.fin_one_eq_zero i]; exact h, fun h => h 0⟩
  | succ n ih =>
    rw [Fin.forall_fin_succ, ← ih (fun i => ms i.succ) (fun i => xs i.succ)]
    show (_ && _) = true ↔ _
    rw [Bool.and_eq_true]
    rfl

/-- **C32**, instance: a Normal times a Poisson, for all accepted parameters, is a probability measure on
the reals times the naturals. -/
theorem C32_normal_poisson_mass (μ σ r : ℝ) (d1 : Normal XReal) (d2 : Poisson XReal)
    (h1 : Normal.new (fin μ) (fin σ) = .ok d1) (h2 : Poisson.new (fin r) = .ok d2) :
    mass ((volume : MeasureTheory.Measure ℝ).prod (MeasureTheory.Measure.count : MeasureTheory.Measure ℕ))
      (fun p => (fin p.1, p.2)) (⟨d1, d2⟩ : ProductMeasure (Normal XReal) (Poisson XReal)) = 1 := by
  have hn := C09_normal_density h1
  have hp := C18_poisson_pmf h2
  obtain ⟨hσ, rfl⟩ := Normal.new_ok h1
  obtain ⟨hr, rfl⟩ := Poisson.new_ok h2
  have := C32_product_mass (volume : MeasureTheory.Measure ℝ)
    (MeasureTheory.Measure.count : MeasureTheory.Measure ℕ)
    (fun x => fin x) (fun k : ℕ => k) (⟨fin μ, fin σ⟩ : Normal XReal) (⟨fin r⟩ : Poisson XReal)
    (fun x => Or.inl ⟨_, Normal.ld hσ⟩) (fun k => Or.inl ⟨_, Poisson.ld hr k⟩) (by
      simp only [hn.1]; exact ProbabilityTheory.measurable_gaussianPDFReal _ _) (measurable_of_countable _)
  rw [this]
  have e1 : mass volume (fun x => fin x) (⟨fin μ, fin σ⟩ : Normal XReal) = 1 := hn.2.2
  have e2 : mass MeasureTheory.Measure.count (fun k : ℕ => k) (⟨fin r⟩ : Poisson XReal) = 1 := by
    unfold mass
    rw [lintegral_count, ← ENNReal.ofReal_tsum_of_nonneg _ hp.2.summable, hp.2.tsum_eq,
      ENNReal.ofReal_one]
    intro k
    exact density_nonneg_of_proper (Or.inl ⟨_, Poisson.ld hr k⟩)
  rw [e1, e2, mul_one]

example : Normal.new (fin 1) (fin 2) = .ok ⟨fin 1, fin 2⟩ ∧ Poisson.new (fin 3) = .ok ⟨fin 3⟩ := by
  simp [Normal.new, Poisson.new]

end Verif
