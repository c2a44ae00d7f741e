import Mathlib.Data.Rat.Defs

/-!
# The numeric interface used by the Rust code

`FloatOps F` lists the operations of `num_traits::Float` / `f64` (and `special::Gamma::ln_gamma`)
that the modelled functions call.  It carries no laws: a theorem stated for every `F` with
`FloatOps F` holds for IEEE floats as well as for exact arithmetic.

Models: the trait bounds `F: Float`, `F: Float + FloatConst`, and `f64` throughout `/repo`
(e.g. `measures-core/src/core/utils.rs:1-74`,
`measures-distributions/src/distributions/continuous/gamma.rs:1-30`).
Simplification: decimal literals are given as rationals (`ofRat`).
-/

namespace Verif

class FloatOps (F : Type) where
  /-- `F::zero()` / `0.0` -/
  zero : F
  /-- `F::one()` / `1.0` -/
  one : F
  /-- literals and `float_constant::<F>(c)` / `F::from(n).unwrap()` -/
  ofRat : ℚ → F
  /-- `F::PI()` / `std::f64::consts::PI` -/
  pi : F
  /-- `F::LN_2()` / `std::f64::consts::LN_2` -/
  ln2 : F
  /-- `F::infinity()` -/
  inf : F
  /-- `F::neg_infinity()` -/
  negInf : F
  /-- `F::nan()` -/
  nan : F
  add : F → F → F
  sub : F → F → F
  mul : F → F → F
  div : F → F → F
  neg : F → F
  abs : F → F
  ln : F → F
  exp : F → F
  sqrt : F → F
  sin : F → F
  cos : F → F
  floor : F → F
  powf : F → F → F
  /-- `special::Gamma::ln_gamma(x).0` -/
  lnGamma : F → F
  /-- `==` -/
  beq : F → F → Bool
  /-- `<` -/
  lt : F → F → Bool
  /-- `<=` -/
  le : F → F → Bool
  isInf : F → Bool
  isNan : F → Bool

namespace FloatOps

scoped infixl:65 " +. " => FloatOps.add
scoped infixl:65 " -. " => FloatOps.sub
scoped infixl:70 " *. " => FloatOps.mul
scoped infixl:70 " /. " => FloatOps.div
scoped infix:50 " ==. " => FloatOps.beq
scoped infix:50 " <. " => FloatOps.lt
scoped infix:50 " ≤. " => FloatOps.le

variable {F : Type} [FloatOps F]

/-- `a > b` of Rust is `b < a`. -/
def gt (a b : F) : Bool := b <. a
/-- `a >= b` of Rust is `b <= a`. -/
def ge (a b : F) : Bool := b ≤. a

/-- integer to float, `F::from(n).unwrap()` / `n as f64` -/
def ofNat (n : ℕ) : F := ofRat (n : ℚ)

/-- `fold(F::zero(), |acc, w| acc + w)` and `Iterator::sum` -/
def sum (xs : List F) : F := xs.foldl FloatOps.add FloatOps.zero

/-- `x.powi(2)` written `x * x` -/
def sq (x : F) : F := x *. x

end FloatOps
end Verif
