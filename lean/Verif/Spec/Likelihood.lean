import Verif.Model.ExpFam
import Verif.Num.XReal

/-! # Specification of maximum likelihood -/

namespace Verif.Spec

/-- Among the parameters in `range` that the constructor `mk` accepts, `best` is the unique one giving
the largest value of `value`. -/
def MaximisedAt {P D E : Type} (mk : P → Except E D) (range : P → Prop) (value : D → XReal) (best : P) : Prop :=
  ∃ d v, range best ∧ mk best = .ok d ∧ value d = XReal.fin v ∧
    ∀ p e, range p → mk p = .ok e → p ≠ best → ∃ u, value e = XReal.fin u ∧ u < v

/-- The sample mean. -/
noncomputable def sampleMean (xs : List ℝ) : ℝ := xs.sum / xs.length

/-- The mean squared distance from the sample mean. -/
noncomputable def sampleVar (xs : List ℝ) : ℝ := (xs.map (fun x => (x - sampleMean xs) ^ 2)).sum / xs.length

end Verif.Spec
