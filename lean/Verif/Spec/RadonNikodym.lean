import Verif.Spec.Core
import Verif.Spec.Mass

/-! # The law described by a measure of the library -/

namespace Verif.Spec
open MeasureTheory

/-- The measure (in the sense of measure theory) that the log-density of `m` describes: density `e^ld`
with respect to the reference measure `μ`.  The points the code evaluates at are `emb a`. -/
noncomputable def law {M X α : Type} [MeasurableSpace α] [HasLogDensity M X XReal]
    (μ : MeasureTheory.Measure α) (emb : α → X) (m : M) : MeasureTheory.Measure α :=
  μ.withDensity fun a => ENNReal.ofReal (XReal.density (logDensityWrtRoot m (emb a)))

/-- `b` is positive wherever `m` is. -/
def Dominates {M B X α : Type} [HasLogDensity M X XReal] [HasLogDensity B X XReal] (emb : α → X)
    (b : B) (m : M) : Prop :=
  ∀ a, (logDensityWrtRoot m (emb a) : XReal).IsFin → (logDensityWrtRoot b (emb a) : XReal).IsFin

/-- The density of `m` is a measurable function of the point. -/
def MeasurableDensity {M X α : Type} [MeasurableSpace α] [HasLogDensity M X XReal]
    (emb : α → X) (m : M) : Prop :=
  Measurable fun a => XReal.density (logDensityWrtRoot m (emb a))

/-- A probability distribution with a measurable density that is never NaN or `+∞`. -/
structure RegularLaw {M X α : Type} [MeasurableSpace α] [HasLogDensity M X XReal]
    (μ : MeasureTheory.Measure α) (emb : α → X) (m : M) : Prop where
  proper : Proper emb m
  measurable : MeasurableDensity emb m
  mass_one : mass μ emb m = 1

end Verif.Spec
