import Verif.Model.Combinators
import Verif.Num.XReal
import Mathlib.MeasureTheory.Measure.Lebesgue.Basic

/-! # What a change of variables must satisfy -/

namespace Verif.Spec
open MeasureTheory

/-- `forward` maps `dom` one-to-one onto `img` and `inverse` is its inverse. -/
def MutuallyInverse (t : Transform XReal) (dom img : Set ℝ) : Prop :=
  (∀ x ∈ dom, ∃ y ∈ img, t.forward (.fin x) = .fin y ∧ t.inverse (.fin y) = .fin x) ∧
  (∀ y ∈ img, ∃ x ∈ dom, t.inverse (.fin y) = .fin x ∧ t.forward (.fin x) = .fin y)

/-- The Jacobian term is `ln |d inverse / dy|` on `img`. -/
def JacobianCorrect (t : Transform XReal) (img : Set ℝ) : Prop :=
  ∀ y ∈ img, ∃ d : ℝ, d ≠ 0 ∧ HasDerivAt (fun z : ℝ => (t.inverse (.fin z)).toReal) d y ∧
    t.logAbsDetJacobian (.fin y) = .fin (Real.log |d|)

/-- The density reported for the pushforward gives to each measurable set of the image the mass the base
measure gives to its preimage in the domain. -/
def IsPushforward {M : Type} [HasLogDensity M XReal XReal] (base : M) (t : Transform XReal)
    (dom img : Set ℝ) : Prop :=
  ∀ A ⊆ img, MeasurableSet A →
    ∫⁻ y in A, ENNReal.ofReal (XReal.density (logDensityWrtRoot (pushforward base t) (.fin y)))
      = ∫⁻ x in {x | x ∈ dom ∧ ∃ y ∈ A, t.forward (.fin x) = .fin y},
          ENNReal.ofReal (XReal.density (logDensityWrtRoot base (.fin x)))

end Verif.Spec
