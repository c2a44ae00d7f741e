import Verif.Model.ExpFam
import Verif.Num.XReal
import Mathlib.Algebra.BigOperators.Group.List.Basic

/-! # Specification of sufficiency -/

namespace Verif.Spec
open FloatOps

/-- Fisher–Neyman factorisation.  The statistic `T` is sufficient for the family of members satisfying
`accepted` on samples in `support`: the joint log-density of a sample splits into a term that sees the
sample only through its length and the total of `T`, and a term that does not depend on the member. -/
def Sufficient {D X Y V : Type} [AddCommMonoid V] [ExponentialFamily D X XReal] [ArrayStat D]
    (accepted : D → Prop) (sample : Y → X) (support : Y → Prop) (T : Y → V) : Prop :=
  ∃ (g : D → ℕ → V → ℝ) (h : List Y → ℝ), ∀ d, accepted d → ∀ ys : List Y, (∀ y ∈ ys, support y) →
    (IID.ofDist d).iidLogDensity (ys.map sample) = XReal.fin (g d ys.length (ys.map T).sum + h ys)

end Verif.Spec
