import Verif.Model.DistContinuous
import Verif.Model.Derived
import Verif.Num.Dual
import Verif.Num.Double

/-!
# Code that leaves the generic number type

Most of the library computes in the generic type `T: Float`.  A few functions convert to `f64`, compute
there and convert back.  For `T = f64` (and in exact arithmetic) the conversions do nothing, which is how
`DistContinuous` models them; here they are kept.
-/

namespace Verif
open FloatOps

/-- `T::to_f64().unwrap()` and `T::from(c).unwrap()`; `G` stands for `f64`. -/
class ViaF64 (F G : Type) where
  toF64 : F → G
  ofF64 : G → F

/-- `f64` to `f64` -/
instance viaSelf {G : Type} : ViaF64 G G := ⟨id, id⟩

/-- dual numbers over `f64` -/
instance viaDual {G : Type} [FloatOps G] : ViaF64 (Dual G) G := ⟨Dual.toF64, Dual.ofF64⟩

/-- `f32` to `f64` and back: widening is exact, narrowing rounds to nearest.  The two formats have their own
mathematical libraries. -/
instance viaWide {L M : Libm} : ViaF64 (Flt Format.f32 L) (Flt Format.f64 M) :=
  ⟨Format.f64.convert, Format.f32.convert⟩

/-- The library of `f32` arithmetic as the code sees it: elementary functions of `f32`, and log-gamma of `f64`
rounded (`gamma.rs:132-142`, `beta.rs:150-158`, `chi_squared.rs:193-201`). -/
def Libm.single (L M : Libm) : Libm :=
  { L with lnGamma := fun v => Format.f32.convert (M.lnGamma (Format.f64.convert v)) }

/-- `derived/binomial_coefficient.rs:61-80`: computed in `f64` -/
def logBinomialCoefficientVia {F : Type} [FloatOps F] (G : Type) [FloatOps G] [ViaF64 F G] (n k : ℕ) : F :=
  if k > n then negInf
  else
    let nf : G := FloatOps.ofNat n
    let kf : G := FloatOps.ofNat k
    ViaF64.ofF64 (lnGamma (nf +. one) -. lnGamma (kf +. one) -. lnGamma (nf -. kf +. one))

/-- `derived/negative_binomial_coefficient.rs:60-75`: computed in `f64` -/
def logNegativeBinomialCoefficientVia {F : Type} (G : Type) [FloatOps G] [ViaF64 F G] (r x : ℕ) : F :=
  let rf : G := FloatOps.ofNat r
  let xf : G := FloatOps.ofNat x
  ViaF64.ofF64 (lnGamma (xf +. rf) -. lnGamma (xf +. one) -. lnGamma rf)

namespace StudentT
variable {F G : Type} [FloatOps G] [ViaF64 F G]

/-- `student_t.rs:70-89`, with the conversions of lines 75, 76 and 88 -/
def logPdfVia (G : Type) [FloatOps G] [ViaF64 F G] (d : StudentT F) (x : F) : F :=
  let nu : G := ViaF64.toF64 d.nu
  let x : G := ViaF64.toF64 x
  let logNormalization := lnGamma (midpoint nu one) -. lnGamma (nu /. ofRat 2)
    -. ofRat (1/2) *. ln (nu *. pi)
  let logKernel := neg (midpoint nu one) *. ln (one +. x *. x /. nu)
  ViaF64.ofF64 (logNormalization +. logKernel)

/-- `student_t.rs:130-161`, with the conversions of lines 138, 144, 151, 152 and 155 -/
def decompositionVia (G : Type) [FloatOps G] [ViaF64 F G] (_ : StudentT F) : Decomposition F F F :=
  Decomposition.new
    |>.addParamTerm (fun nu =>
        let nu : G := ViaF64.toF64 nu
        ViaF64.ofF64 (lnGamma (midpoint nu one) -. lnGamma (nu /. ofRat 2)
          -. ofRat (1/2) *. ln (nu *. pi)))
    |>.addMixedTerm (fun x nu =>
        let nu : G := ViaF64.toF64 nu
        let x : G := ViaF64.toF64 x
        ViaF64.ofF64 (neg (midpoint nu one) *. ln (one +. x *. x /. nu)))

/-- `student_t.rs:94-100` -/
def logDensityIidVia (G : Type) [FloatOps G] [ViaF64 F G] [FloatOps F] (d : StudentT F)
    (samples : List F) : F :=
  (d.decompositionVia G).evaluateIid samples d.params

end StudentT

/-- `beta.rs:112-127`: the log-partition function is computed in `f64` -/
def Beta.logPartitionVia {F : Type} (G : Type) [FloatOps G] [ViaF64 F G] (d : Beta F) : F :=
  let alpha : G := ViaF64.toF64 d.alpha
  let beta : G := ViaF64.toF64 d.beta
  ViaF64.ofF64 (lnGamma alpha +. lnGamma beta -. lnGamma (alpha +. beta))

end Verif
