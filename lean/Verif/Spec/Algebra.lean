import Verif.Model.Combinators
import Verif.Model.Derived
import Verif.Num.XReal

/-!
# Specification: two expressions for the same measure

Two measures built from the combinators are the same at a point when their log-densities there are the
same value, be it a number or `-∞`.
-/

namespace Verif.Spec
open XReal

/-- The two measures have the same log-density at the point. -/
def SameAt {M N T : Type} [HasLogDensity M T XReal] [HasLogDensity N T XReal] (m : M) (n : N) (x : T) : Prop :=
  (logDensityWrtRoot m x : XReal) = logDensityWrtRoot n x

/-- A mixture given by its list of (component, weight) pairs. -/
def mix {M : Type} (l : List (M × ℝ)) : MixtureMeasure M XReal :=
  ⟨l.map Prod.fst, l.map fun p => fin p.2⟩

/-- Every weight is nonnegative and every component has a proper log-density at the point. -/
def MixableAt {M T : Type} [HasLogDensity M T XReal] (l : List (M × ℝ)) (x : T) : Prop :=
  ∀ p ∈ l, 0 ≤ p.2 ∧
    ((logDensityWrtRoot p.1 x : XReal).IsFin ∨ (logDensityWrtRoot p.1 x : XReal) = ninf)

end Verif.Spec
