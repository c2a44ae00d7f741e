import Verif.Spec.RadonNikodym
import Mathlib.MeasureTheory.Integral.Bochner.Basic
import Mathlib.Analysis.SpecialFunctions.Gamma.Basic
import Mathlib.Analysis.SpecialFunctions.Pow.Real

/-! # Bayes' rule for beliefs described by log-densities -/

namespace Verif.Spec
open MeasureTheory

/-- Bayes' rule for an unknown number `θ`: `prior` and `post` are distributions of the library, `lik θ` is the
log-likelihood the library returns for the data at the parameter `θ`.  The density of `post` is that of `prior`
times the likelihood, divided by its integral (the evidence). -/
structure IsPosterior {P Q : Type} [HasLogDensity P XReal XReal] [HasLogDensity Q XReal XReal]
    (prior : P) (post : Q) (lik : ℝ → XReal) (evidence : ℝ) : Prop where
  pos : 0 < evidence
  total : ∫ θ : ℝ, XReal.density (logDensityWrtRoot prior (XReal.fin θ)) * XReal.density (lik θ) = evidence
  bayes : ∀ θ : ℝ, XReal.density (logDensityWrtRoot prior (XReal.fin θ)) * XReal.density (lik θ)
    = evidence * XReal.density (logDensityWrtRoot post (XReal.fin θ))

/-- The value `B(a, b)` of the beta function. -/
noncomputable def betaFun (a b : ℝ) : ℝ := Real.Gamma a * Real.Gamma b / Real.Gamma (a + b)

/-- The normalising constant `b^a / Γ(a)` of the gamma density. -/
noncomputable def gammaConst (a b : ℝ) : ℝ := b ^ a / Real.Gamma a

end Verif.Spec
