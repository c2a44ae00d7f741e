import Verif.Num.XReal
import Verif.Model.Core
import Mathlib.MeasureTheory.Measure.MeasureSpaceDef

/-! # Orders between distributions -/

namespace Verif.Spec

/-- Likelihood-ratio order: of two points the larger one speaks at least as much for `hi` against `lo` as the
smaller one does.  Written without division, so that it also covers points of density 0. -/
def LikelihoodOrder {M N X α : Type} [LE α] [HasLogDensity M X XReal] [HasLogDensity N X XReal] (emb : α → X)
    (lo : M) (hi : N) : Prop :=
  ∀ x y : α, x ≤ y →
    XReal.density (logDensityWrtRoot hi (emb x)) * XReal.density (logDensityWrtRoot lo (emb y))
      ≤ XReal.density (logDensityWrtRoot hi (emb y)) * XReal.density (logDensityWrtRoot lo (emb x))

/-- Stochastic order: every threshold is reached at least as often under `Q` as under `P`. -/
def StochasticOrder {α : Type} [Preorder α] [MeasurableSpace α] (P Q : MeasureTheory.Measure α) : Prop :=
  ∀ c : α, P (Set.Ici c) ≤ Q (Set.Ici c)

end Verif.Spec
