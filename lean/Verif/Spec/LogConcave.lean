import Verif.Num.XReal
import Verif.Model.Core
import Mathlib.Analysis.SpecialFunctions.Pow.Real

/-! # Log-concave densities -/

namespace Verif.Spec

/-- The density of a distribution on the line is log-concave: between any two points it is at least the weighted
geometric mean of its values there. -/
def LogConcave {M : Type} [HasLogDensity M XReal XReal] (m : M) : Prop :=
  ∀ x y t : ℝ, 0 ≤ t → t ≤ 1 →
    XReal.density (logDensityWrtRoot m (XReal.fin x)) ^ (1 - t) * XReal.density (logDensityWrtRoot m (XReal.fin y)) ^ t
      ≤ XReal.density (logDensityWrtRoot m (XReal.fin ((1 - t) * x + t * y)))

/-- The probabilities of a distribution of counts are log-concave: moving two counts towards each other does not
lower the product of their probabilities. -/
def LogConcaveCount {M : Type} [HasLogDensity M ℕ XReal] (m : M) : Prop :=
  ∀ i j : ℕ, i ≤ j → XReal.density (logDensityWrtRoot m i) * XReal.density (logDensityWrtRoot m (j + 2))
    ≤ XReal.density (logDensityWrtRoot m (i + 1)) * XReal.density (logDensityWrtRoot m (j + 1))

end Verif.Spec
