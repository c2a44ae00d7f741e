import Mathlib.MeasureTheory.Measure.Real

/-! # Distance between probability distributions -/

namespace Verif.Spec

/-- The two measures give every event probabilities that differ by at most `ε` (distance in total variation). -/
def Close {α : Type} [MeasurableSpace α] (P Q : MeasureTheory.Measure α) (ε : ℝ) : Prop :=
  ∀ A : Set α, MeasurableSet A → |P.real A - Q.real A| ≤ ε

end Verif.Spec
