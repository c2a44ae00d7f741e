import Mathlib.MeasureTheory.Integral.Bochner.Basic

/-! # Deciding between two distributions -/

namespace Verif.Spec
open MeasureTheory

/-- A rule for deciding between two hypotheses: `φ a` is the probability with which it decides for the first one when
`a` is observed.  A rule that does not use chance has `φ a` equal to 0 or 1. -/
structure DecisionRule {α : Type} [MeasurableSpace α] (φ : α → ℝ) : Prop where
  measurable : Measurable φ
  nonneg : ∀ a, 0 ≤ φ a
  le_one : ∀ a, φ a ≤ 1

/-- Deciding for `P` exactly on `R` is most powerful: a rule that wrongly decides for `P` no more often (when the
observation comes from `Q`) does not rightly decide for `P` more often (when it comes from `P`). -/
def MostPowerful {α : Type} [MeasurableSpace α] (P Q : MeasureTheory.Measure α) (R : Set α) : Prop :=
  MeasurableSet R ∧
  ∀ φ : α → ℝ, DecisionRule φ → ∫ a, φ a ∂Q ≤ Q.real R → ∫ a, φ a ∂P ≤ P.real R

/-- Deciding for `P` exactly on `R` has the least error: no rule has a smaller sum of `w` times the probability of
wrongly deciding for `P` and the probability of wrongly deciding for `Q`. -/
def LeastError {α : Type} [MeasurableSpace α] (w : ℝ) (P Q : MeasureTheory.Measure α) (R : Set α) : Prop :=
  MeasurableSet R ∧
  ∀ φ : α → ℝ, DecisionRule φ → w * Q.real R + P.real Rᶜ ≤ w * ∫ a, φ a ∂Q + ∫ a, (1 - φ a) ∂P

end Verif.Spec
