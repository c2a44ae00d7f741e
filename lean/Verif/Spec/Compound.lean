import Verif.Spec.RadonNikodym

/-!
# Specification: drawing a parameter and then a value

If `θ` is drawn from `prior` and then `x` from `model θ`, the distribution of `x` is the average of the
distributions `model θ`.
-/

namespace Verif.Spec
open XReal

/-- At the point `x`, the density of `model θ` averaged over draws of `θ` from `prior` is the density of
`marginal`. -/
def AveragesTo {P D M Θ Y X : Type} [MeasurableSpace Θ] [HasLogDensity P Y XReal] [HasLogDensity D X XReal]
    [HasLogDensity M X XReal] (μ : MeasureTheory.Measure Θ) (emb : Θ → Y) (prior : P) (model : Θ → D)
    (marginal : M) (x : X) : Prop :=
  ∫⁻ θ, ENNReal.ofReal (density (logDensityWrtRoot (model θ) x)) ∂(law μ emb prior)
    = ENNReal.ofReal (density (logDensityWrtRoot marginal x))

end Verif.Spec
