import Verif.Spec.RadonNikodym
import Mathlib.MeasureTheory.Integral.Bochner.Basic

/-! # Entropy of the law described by a log-density -/

namespace Verif.Spec
open MeasureTheory

/-- The expectation of minus the log-density of `b`, under the law of `m`, exists and is `h`: the expected
cost of describing draws of `m` by `b`.  (Points outside the support of `m` have probability zero.) -/
def CrossEntropy {M B X α : Type} [MeasurableSpace α] [HasLogDensity M X XReal] [HasLogDensity B X XReal]
    (μ : MeasureTheory.Measure α) (emb : α → X) (m : M) (b : B) (h : ℝ) : Prop :=
  Integrable (fun a => (logDensityWrtRoot b (emb a) : XReal).toReal) (law μ emb m) ∧
  -∫ a, (logDensityWrtRoot b (emb a) : XReal).toReal ∂(law μ emb m) = h

/-- The law of `m` has entropy `h` (differential entropy on the reals, Shannon entropy on counts; natural
logarithm). -/
def Entropy {M X α : Type} [MeasurableSpace α] [HasLogDensity M X XReal]
    (μ : MeasureTheory.Measure α) (emb : α → X) (m : M) (h : ℝ) : Prop := CrossEntropy μ emb m m h

end Verif.Spec
