import Verif.Model.ExpFam
import Verif.Num.XReal

/-! # Specification vocabulary for independent samples -/

namespace Verif.Spec
open FloatOps ExponentialFamily

/-- The joint log-density of independent draws from `d` is the sum of their individual
log-densities. -/
def IidIsSum {D X : Type} [ExponentialFamily D X XReal] [ArrayStat D] (d : D) : Prop :=
  ∀ xs : List X, (IID.ofDist d).iidLogDensity xs = FloatOps.sum (xs.map (fun x => expFamLogDensity d x))

end Verif.Spec
