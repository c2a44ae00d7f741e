import Mathlib.Probability.Distributions.Gaussian.Real

/-! Textbook updating of a normal belief about an unknown mean. -/

namespace Verif.Spec

/-- A normal belief about the unknown mean. -/
structure Belief where
  mean : ℝ
  var : ℝ

/-- The belief after an observation `x` with noise variance `w`: the mean moves towards the observation
by the fraction `var / (var + w)`, and that part of the uncertainty is resolved. -/
noncomputable def Belief.update (w : ℝ) (b : Belief) (x : ℝ) : Belief :=
  ⟨b.mean + b.var / (b.var + w) * (x - b.mean), b.var - b.var / (b.var + w) * b.var⟩

/-- The probability density of the whole sequence of observations under the model: the product of the
predictive densities, each observation being predicted from those before it. -/
noncomputable def Belief.evidence (w : ℝ) : Belief → List ℝ → ℝ
  | _, [] => 1
  | b, x :: xs => ProbabilityTheory.gaussianPDFReal b.mean (b.var + w).toNNReal x * evidence w (b.update w x) xs

end Verif.Spec
