import Verif.Num.FloatOps

/-!
# Dual numbers

Forward-mode automatic differentiation: a number together with a derivative.  The crate documentation
(`/repo/src/lib.rs:8-9`, `/repo/DESIGN_NOTES.md:101-113, 243-281`) offers dual numbers as one of the numeric
types at which the generic code is used; the number type itself is an external crate
(`dual::Dual64`, `ad_trait`) and is modelled here by the usual differentiation rules.

* Comparisons look at the value only.
* Constants, `from(f64)` and integer conversions have derivative zero.
* Everything that goes through `to_f64` and back keeps the value and has derivative zero.  In the code
  this is `ln_gamma` (`gamma.rs:132-142`, `beta.rs:150-158`, `chi_squared.rs:136-144, 193-201`).
-/

namespace Verif
open FloatOps

/-- a value and a derivative -/
structure Dual (G : Type) where
  val : G
  der : G

namespace Dual
variable {G : Type} [FloatOps G]

/-- a number that does not vary; `Dual::from(c)` -/
def const (c : G) : Dual G := ⟨c, zero⟩

/-- `to_f64` -/
def toF64 (a : Dual G) : G := a.val
/-- `T::from(f64)` -/
def ofF64 (c : G) : Dual G := const c

/-- product rule -/
protected def mul (a b : Dual G) : Dual G := ⟨a.val *. b.val, a.der *. b.val +. a.val *. b.der⟩
/-- quotient rule -/
protected def div (a b : Dual G) : Dual G :=
  ⟨a.val /. b.val, (a.der *. b.val -. a.val *. b.der) /. (b.val *. b.val)⟩
/-- `|a|`; the derivative is that of `-a` for negative values -/
protected def abs (a : Dual G) : Dual G := ⟨FloatOps.abs a.val, if a.val <. zero then neg a.der else a.der⟩
/-- `a^b`: the power rule if the exponent does not vary, else the rule for `exp (b * ln a)` -/
protected def powf (a b : Dual G) : Dual G :=
  ⟨FloatOps.powf a.val b.val,
   if b.der ==. zero then b.val *. FloatOps.powf a.val (b.val -. one) *. a.der
   else FloatOps.powf a.val b.val *. (b.der *. FloatOps.ln a.val +. b.val *. a.der /. a.val)⟩

instance : FloatOps (Dual G) where
  zero := const zero
  one := const one
  ofRat q := const (ofRat q)
  pi := const pi
  ln2 := const ln2
  inf := const inf
  negInf := const negInf
  nan := const nan
  add a b := ⟨a.val +. b.val, a.der +. b.der⟩
  sub a b := ⟨a.val -. b.val, a.der -. b.der⟩
  mul := Dual.mul
  div := Dual.div
  neg a := ⟨neg a.val, neg a.der⟩
  abs := Dual.abs
  ln a := ⟨FloatOps.ln a.val, a.der /. a.val⟩
  exp a := ⟨FloatOps.exp a.val, FloatOps.exp a.val *. a.der⟩
  sqrt a := ⟨FloatOps.sqrt a.val, a.der /. (ofRat 2 *. FloatOps.sqrt a.val)⟩
  sin a := ⟨FloatOps.sin a.val, FloatOps.cos a.val *. a.der⟩
  cos a := ⟨FloatOps.cos a.val, neg (FloatOps.sin a.val *. a.der)⟩
  floor a := const (FloatOps.floor a.val)
  powf := Dual.powf
  lnGamma a := ofF64 (FloatOps.lnGamma a.toF64)
  beq a b := a.val ==. b.val
  lt a b := a.val <. b.val
  le a b := a.val ≤. b.val
  isInf a := FloatOps.isInf a.val
  isNan a := FloatOps.isNan a.val

end Dual
end Verif
