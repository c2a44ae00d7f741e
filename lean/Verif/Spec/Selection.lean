import Verif.Spec.Consistency
import Verif.Spec.RadonNikodym

/-! # Recognising the distribution behind the data -/

namespace Verif.Spec
open MeasureTheory Filter FloatOps

/-- `J` and `J'` give the joint log-density of a list of observations under `d` and under another candidate.  Of
independent draws from `d`, the first `n` get a joint log-density under the other candidate that is not below the one
under `d` with probability at most `ρ ^ n` for some `ρ < 1`, and with probability one from some `n` on it is below. -/
def Recognised {M X α : Type} [MeasurableSpace α] [HasLogDensity M X XReal] (ν : MeasureTheory.Measure α) (e : α → X)
    (d : M) (J J' : List X → XReal) : Prop :=
  ∃ ρ : ℝ, 0 ≤ ρ ∧ ρ < 1 ∧ ∀ {Ω : Type} [MeasurableSpace Ω] (μ : MeasureTheory.Measure Ω) (x : ℕ → Ω → α),
    Draws μ x (law ν e d) →
    (∀ n, μ {ω | ¬ (J' (firstN (fun i => e (x i ω)) n) <. J (firstN (fun i => e (x i ω)) n)) = true}
      ≤ ENNReal.ofReal (ρ ^ n)) ∧
    ∀ᵐ ω ∂μ, ∀ᶠ n in atTop, (J' (firstN (fun i => e (x i ω)) n) <. J (firstN (fun i => e (x i ω)) n)) = true

end Verif.Spec
