import Verif.Model.ViaF64
import Verif.Model.ExpFam

/-!
# The exponential-family form of Beta for a number type other than `f64`
-/

namespace Verif
open FloatOps

/-- `continuous/beta.rs:35-38`; the same distribution as `Beta`, in the reading that keeps the conversions to `f64`
(`G`) of `natural_and_log_partition`. -/
structure BetaVia (F G : Type) where
  distribution : Beta F

/-- `beta.rs:89-127`: natural parameters in the number type itself, the log-partition in `f64` and converted back
(lines 116-123). The rest is as in `DistContinuous`. -/
instance {F G : Type} [FloatOps F] [FloatOps G] [ViaF64 F G] : ExponentialFamily (BetaVia F G) F F where
  Base := LebesgueMeasure F
  baseHas := inferInstance
  fromNatural η := match η with
    | [eta1, eta2] => (Beta.new (eta1 +. one) (eta2 +. one)).map BetaVia.mk
    | _ => .error ⟨"unreachable: the parameter is an array of length 2"⟩
  naturalAndLogPartition d :=
    ([d.distribution.alpha -. one, d.distribution.beta -. one], d.distribution.logPartitionVia G)
  sufficientStatistic _ x := [ln x, ln (one -. x)]
  baseMeasure _ := {}
instance {F G : Type} : ArrayStat (BetaVia F G) := ⟨2⟩

end Verif
