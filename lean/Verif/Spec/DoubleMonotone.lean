import Verif.Spec.Double

/-! # Vocabulary: a library whose logarithm never decreases -/

namespace Verif

/-- `ln` of a larger number of the format is not smaller. -/
def Libm.LnMonotone (f : Format) (L : Libm) : Prop :=
  ∀ p q : ℚ, 0 < p → p ≤ q → f.Representable p → f.Representable q →
    Flt.le (L.ln p) (L.ln q) = true

end Verif
