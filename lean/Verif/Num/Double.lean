import Verif.Num.Ieee
import Verif.Num.FloatOps

/-!
# Floating-point arithmetic

`Flt f L` is the type of floating-point numbers of the format `f` (`f64`, `f32`) as an instance of
the numeric interface `FloatOps` of the model: addition, subtraction, multiplication and division
are the exact operations rounded to nearest, ties to even, with overflow to an infinity and the
IEEE rules for infinities and NaN; literals are rounded.  The elementary functions of the platform's
mathematical library are a parameter `L`; `Verif.Spec.Double` says what is assumed of them.

Every function of the model that takes `F` with `[FloatOps F]` can therefore be run with
`F := Flt Format.f64 L`, which is the function as the Rust code computes it with `f64`.

Simplification: `-0` and `+0` are the same value; dividing a nonzero number by zero uses the sign of
the dividend.
-/

namespace Verif

/-- The elementary functions of the mathematical library on finite numbers in their domain (positive
numbers for `ln`, non-negative ones for `sqrt`). -/
structure Libm where
  ln : ℚ → FVal
  exp : ℚ → FVal
  sqrt : ℚ → FVal
  sin : ℚ → FVal
  cos : ℚ → FVal
  /-- `special::Gamma::ln_gamma(x).0` -/
  lnGamma : FVal → FVal
  powf : FVal → FVal → FVal

/-- Numbers of format `f` with the library `L`. -/
def Flt (_ : Format) (_ : Libm) : Type := FVal

namespace Flt

/-- A finite floating-point number. -/
abbrev fin {f : Format} {L : Libm} (q : ℚ) : Flt f L := FVal.fin q
/-- `+∞` -/
abbrev posInf {f : Format} {L : Libm} : Flt f L := FVal.inf false
/-- `-∞` -/
abbrev negInf {f : Format} {L : Libm} : Flt f L := FVal.inf true
/-- NaN -/
abbrev nan {f : Format} {L : Libm} : Flt f L := FVal.nan

variable (f : Format)

/-- `x / 0` -/
def infOf (q : ℚ) : FVal := if 0 < q then .inf false else if q < 0 then .inf true else .nan

protected def add : FVal → FVal → FVal
  | .nan, _ => .nan
  | _, .nan => .nan
  | .inf a, .inf b => if a = b then .inf a else .nan
  | .inf a, .fin _ => .inf a
  | .fin _, .inf b => .inf b
  | .fin a, .fin b => f.round (a + b)

protected def neg : FVal → FVal
  | .nan => .nan
  | .inf a => .inf (!a)
  | .fin a => .fin (-a)

protected def sub (a b : FVal) : FVal := Flt.add f a (Flt.neg b)

protected def mul : FVal → FVal → FVal
  | .nan, _ => .nan
  | _, .nan => .nan
  | .inf a, .inf b => .inf (xor a b)
  | .inf a, .fin b => if b = 0 then .nan else .inf (xor a (decide (b < 0)))
  | .fin a, .inf b => if a = 0 then .nan else .inf (xor (decide (a < 0)) b)
  | .fin a, .fin b => f.round (a * b)

protected def div : FVal → FVal → FVal
  | .nan, _ => .nan
  | _, .nan => .nan
  | .inf _, .inf _ => .nan
  | .inf a, .fin b => .inf (xor a (decide (b < 0)))
  | .fin _, .inf _ => .fin 0
  | .fin a, .fin b => if b = 0 then infOf a else f.round (a / b)

protected def abs : FVal → FVal
  | .nan => .nan
  | .inf _ => .inf false
  | .fin a => .fin |a|

protected def ln (L : Libm) : FVal → FVal
  | .nan => .nan
  | .inf a => if a then .nan else .inf false
  | .fin a => if 0 < a then L.ln a else if a = 0 then .inf true else .nan

protected def exp (L : Libm) : FVal → FVal
  | .nan => .nan
  | .inf a => if a then .fin 0 else .inf false
  | .fin a => L.exp a

protected def sqrt (L : Libm) : FVal → FVal
  | .nan => .nan
  | .inf a => if a then .nan else .inf false
  | .fin a => if 0 ≤ a then L.sqrt a else .nan

protected def trig (g : ℚ → FVal) : FVal → FVal
  | .fin a => g a
  | _ => .nan

protected def floor : FVal → FVal
  | .fin a => .fin (⌊a⌋ : ℤ)
  | x => x

protected def beq : FVal → FVal → Bool
  | .nan, _ => false
  | .inf a, .inf b => a == b
  | .fin a, .fin b => decide (a = b)
  | _, _ => false

protected def lt : FVal → FVal → Bool
  | .nan, _ => false
  | _, .nan => false
  | .inf a, .inf b => a && !b
  | .inf a, .fin _ => a
  | .fin _, .inf b => !b
  | .fin a, .fin b => decide (a < b)

protected def le : FVal → FVal → Bool
  | .nan, _ => false
  | _, .nan => false
  | .inf a, .inf b => a || !b
  | .inf a, .fin _ => a
  | .fin _, .inf b => !b
  | .fin a, .fin b => decide (a ≤ b)

/-- `std::f64::consts::PI`, as written in the standard library -/
def piLit : ℚ := 3.14159265358979323846264338327950288
/-- `std::f64::consts::LN_2` -/
def ln2Lit : ℚ := 0.693147180559945309417232121458176568

instance (f : Format) (L : Libm) : FloatOps (Flt f L) where
  zero := FVal.fin 0
  one := FVal.fin 1
  ofRat q := f.round q
  pi := f.round piLit
  ln2 := f.round ln2Lit
  inf := FVal.inf false
  negInf := FVal.inf true
  nan := FVal.nan
  add := Flt.add f
  sub := Flt.sub f
  mul := Flt.mul f
  div := Flt.div f
  neg := Flt.neg
  abs := Flt.abs
  ln := Flt.ln L
  exp := Flt.exp L
  sqrt := Flt.sqrt L
  sin := Flt.trig L.sin
  cos := Flt.trig L.cos
  floor := Flt.floor
  powf := L.powf
  lnGamma := L.lnGamma
  beq := Flt.beq
  lt := Flt.lt
  le := Flt.le
  isInf x := match x with | .inf _ => true | _ => false
  isNan x := match x with | .nan => true | _ => false

end Flt
end Verif
