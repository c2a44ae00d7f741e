import Verif.Spec.DoubleMixture
import Verif.Model.Core

/-!
# Specification for C142: the sizes of the terms of a joint log-density
-/

namespace Verif
namespace Spec

variable {f : Format} {L : Libm}

/-- The log-density of every observation is a number of the format. -/
def FiniteTerms (f : Format) (L : Libm) {D X : Type} [HasLogDensity D X (Flt f L)] (d : D) (xs : List X) : Prop :=
  ∀ x ∈ xs, ∃ q : ℚ, logDensityWrtRoot d x = Flt.fin (f := f) (L := L) q ∧ f.Representable q

/-- Sum of the absolute values of the log-densities. -/
noncomputable def totalSize (f : Format) (L : Libm) {D X : Type} [HasLogDensity D X (Flt f L)] (d : D) (xs : List X) : ℝ :=
  (xs.map fun x => |realOf (logDensityWrtRoot d x : Flt f L)|).sum

end Spec
end Verif
