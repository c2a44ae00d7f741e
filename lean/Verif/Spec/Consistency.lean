import Verif.Num.XReal
import Verif.Model.Core
import Mathlib.MeasureTheory.Integral.Bochner.Set
import Mathlib.MeasureTheory.Measure.Lebesgue.Basic
import Mathlib.Probability.Independence.Basic

/-! # Beliefs that settle at one parameter value -/

namespace Verif.Spec
open MeasureTheory Filter Topology

/-- The first `n` observations. -/
def firstN {α : Type} (x : ℕ → α) (n : ℕ) : List α := (List.range n).map x

/-- `lik n θ` is the log-likelihood of the first `n` observations at the parameter value `θ`.  Bayes' rule can be
applied after any number of observations, the probability it gives to parameter values at least `ε` away from `t`
tends to zero, and the mean of the belief tends to `t`. -/
structure SettlesAt {P : Type} [HasLogDensity P XReal XReal] (prior : P) (lik : ℕ → ℝ → XReal) (t : ℝ) : Prop where
  evidence : ∀ n, 0 < ∫ θ : ℝ, XReal.density (logDensityWrtRoot prior (XReal.fin θ)) * XReal.density (lik n θ)
  settles : ∀ ε > 0, Tendsto (fun n =>
    (∫ θ in {θ : ℝ | ε ≤ |θ - t|}, XReal.density (logDensityWrtRoot prior (XReal.fin θ)) * XReal.density (lik n θ)) /
      ∫ θ : ℝ, XReal.density (logDensityWrtRoot prior (XReal.fin θ)) * XReal.density (lik n θ)) atTop (𝓝 0)
  mean : Tendsto (fun n =>
    (∫ θ : ℝ, XReal.density (logDensityWrtRoot prior (XReal.fin θ)) * XReal.density (lik n θ) * θ) /
      ∫ θ : ℝ, XReal.density (logDensityWrtRoot prior (XReal.fin θ)) * XReal.density (lik n θ)) atTop (𝓝 t)

/-- An infinite sequence of independent draws from the distribution `P`. -/
structure Draws {Ω α : Type} [MeasurableSpace Ω] [MeasurableSpace α] (μ : MeasureTheory.Measure Ω) (X : ℕ → Ω → α)
    (P : MeasureTheory.Measure α) : Prop where
  measurable : ∀ i, Measurable (X i)
  law : ∀ i, μ.map (X i) = P
  independent : ProbabilityTheory.iIndepFun X μ

end Verif.Spec
