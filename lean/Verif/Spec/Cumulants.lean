import Verif.Spec.RadonNikodym
import Verif.Model.ExpFam
import Mathlib.Probability.Moments.Variance
import Mathlib.Analysis.Calculus.IteratedDeriv.Defs

/-! # The log-partition as a function of the natural parameter -/

namespace Verif.Spec
open MeasureTheory ProbabilityTheory ExponentialFamily

/-- `D::from_natural(η).log_partition()` (0 if that panics). -/
noncomputable def logPartitionAt (D : Type) {X : Type} [ExponentialFamily D X XReal] (η : List ℝ) : ℝ :=
  match (fromNatural (η.map XReal.fin) : Except Panic D) with
  | .ok d => (logPartition d : XReal).toReal
  | .error _ => 0

/-- The natural parameter moved by `s` along the direction `v`. -/
def along (η v : List ℝ) (s : ℝ) : List ℝ := List.zipWith (fun a b => a + s * b) η v

/-- The combination `Σ vᵢ Tᵢ(x)` of the sufficient statistics. -/
noncomputable def statAlong {D X : Type} [ExponentialFamily D X XReal] (d : D) (v : List ℝ) (x : X) : ℝ :=
  (List.zipWith (fun a (t : XReal) => a * t.toReal) v (sufficientStatistic d x)).sum

/-- Derivatives of the log-partition at the natural parameter `η` of `d`, in the direction `v`: the first is
the mean and the second the variance of the sufficient statistic in that direction (for unit vectors `v` the
partial derivatives, for sums of two of them the mixed second derivatives). -/
structure Cumulants {D X α : Type} [MeasurableSpace α] [ExponentialFamily D X XReal]
    [HasLogDensity D X XReal] (μ : MeasureTheory.Measure α) (emb : α → X) (d : D) (η v : List ℝ) : Prop where
  memLp : MemLp (fun a => statAlong d v (emb a)) 2 (law μ emb d)
  mean : HasDerivAt (fun s => logPartitionAt D (along η v s))
    (∫ a, statAlong d v (emb a) ∂(law μ emb d)) 0
  variance : iteratedDeriv 2 (fun s => logPartitionAt D (along η v s)) 0
    = Var[fun a => statAlong d v (emb a); law μ emb d]

end Verif.Spec
