import Verif.Model.ExpFam
import Verif.Spec.Mass
import Mathlib.MeasureTheory.Measure.Lebesgue.Basic

/-! # Partition function of an exponential family -/

namespace Verif.Spec
open ExponentialFamily FloatOps

/-- `log (h(x) · e^{η·T(x)})`, the unnormalised log-density of the family. -/
noncomputable def unnormalised {D X : Type} [ExponentialFamily D X XReal] (d : D) (x : X) : XReal :=
  dot (toNatural d) (sufficientStatistic d x) +. baseLogDensity d x

/-- `∫ h(x) e^{η·T(x)} dx` over the support of a family on the reals. -/
noncomputable def partitionReal {D : Type} [ExponentialFamily D XReal XReal] [Measure D XReal] (d : D) :
    ENNReal :=
  ∫⁻ x : ℝ, if Measure.inSupport d (.fin x) then ENNReal.ofReal (XReal.density (unnormalised d (.fin x)))
    else 0

/-- The sum over the support of `h(k) e^{η·T(k)}` converges to `s`, for a family on the naturals. -/
def PartitionNat {D : Type} [ExponentialFamily D ℕ XReal] [Measure D ℕ] (d : D) (s : ℝ) : Prop :=
  HasSum (fun k : ℕ => if Measure.inSupport d k then XReal.density (unnormalised d k) else 0) s

end Verif.Spec
