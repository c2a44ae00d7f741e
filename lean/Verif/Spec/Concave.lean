import Verif.Num.XReal
import Verif.Model.ExpFam

/-! # Log-likelihoods that are concave in the natural parameters -/

namespace Verif.Spec
open ExponentialFamily

/-- The point a fraction `t` of the way from `η₀` to `η₁`. -/
def between (t : ℝ) (η₀ η₁ : List ℝ) : List ℝ := List.zipWith (fun a b => (1 - t) * a + t * b) η₀ η₁

/-- `joint d xs` is the log-likelihood of the data `xs` under `d`.  On the way from one accepted distribution to
another, measured by the natural parameters the library reports, every point is an accepted distribution, and the
log-likelihood of every data set in the support lies on or above the chord; strictly above it, if the distributions
differ and there are data. -/
def ConcaveInNatural {D X Y : Type} [ExponentialFamily D X XReal] (accepted : D → Prop) (sample : Y → X)
    (support : Y → Prop) (joint : D → List X → XReal) : Prop :=
  ∀ d₀ d₁ : D, accepted d₀ → accepted d₁ → ∀ t : ℝ, 0 ≤ t → t ≤ 1 →
    ∃ (η₀ η₁ : List ℝ) (d : D), toNatural d₀ = η₀.map XReal.fin ∧ toNatural d₁ = η₁.map XReal.fin ∧
      accepted d ∧ toNatural d = (between t η₀ η₁).map XReal.fin ∧
      ∀ ys : List Y, (∀ y ∈ ys, support y) → ∃ v₀ v₁ v : ℝ,
        joint d₀ (ys.map sample) = XReal.fin v₀ ∧ joint d₁ (ys.map sample) = XReal.fin v₁ ∧
        joint d (ys.map sample) = XReal.fin v ∧ (1 - t) * v₀ + t * v₁ ≤ v ∧
        (d₀ ≠ d₁ → ys ≠ [] → 0 < t → t < 1 → (1 - t) * v₀ + t * v₁ < v)

end Verif.Spec
