import Verif.Model.Core
import Verif.Num.XReal
import Mathlib.MeasureTheory.Integral.Lebesgue.Basic
import Mathlib.MeasureTheory.Measure.Prod

/-! # Total mass of a modelled measure -/

namespace Verif.Spec
open MeasureTheory

/-- Total mass of the measure `m` with respect to the reference measure `μ`: the points the code
evaluates at are `emb a`, `a` ranging over a measure space. -/
noncomputable def mass {M X α : Type} [MeasurableSpace α] [HasLogDensity M X XReal]
    (μ : MeasureTheory.Measure α) (emb : α → X) (m : M) : ENNReal :=
  ∫⁻ a, ENNReal.ofReal (XReal.density (logDensityWrtRoot m (emb a))) ∂μ

/-- The measure's log-density is never NaN or `+∞` at the given points. -/
def Proper {M X α : Type} [HasLogDensity M X XReal] (emb : α → X) (m : M) : Prop :=
  ∀ a, (logDensityWrtRoot m (emb a) : XReal).IsFin ∨ (logDensityWrtRoot m (emb a) : XReal) = .ninf

end Verif.Spec
