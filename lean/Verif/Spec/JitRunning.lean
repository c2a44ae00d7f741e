import Verif.Spec.DoubleRunning
import Verif.Spec.IeeeDouble

/-!
# Propagation of errors through compiled code

As in `Spec.DoubleRunning`, but with the approximations that generated code uses for `ln`, `exp`, `sin`,
`cos` and powers in the place of library functions.
-/

namespace Verif
open Expr

variable {L : Libm}

/-- The exponent, if it is written as a number. -/
def numericExponent : Expr (Flt Format.f64 L) → Option ℚ
  | const (.fin q) => some q
  | _ => none

/-- The error of a product of `x` and `y` that are known up to `s` and `t`. -/
noncomputable def productError (x y s t : ℝ) : ℝ :=
  rounded Format.f64 (x * y) (|x| * t + |y| * s + s * t)

/-- What remains in a sine of an error `s`, and the error of the approximation at a number of
magnitude at most `X`. -/
noncomputable def sineError (X s : ℝ) : ℝ :=
  s + (X ^ 7 / 5040 + 3.41e-12 * (X ^ 3 + X ^ 5) + 3e-16 * X + 1e-33)

/-- The same for a cosine. -/
noncomputable def cosineError (X s : ℝ) : ℝ :=
  s + (X ^ 6 / 720 + 3.41e-12 * X ^ 4 + 3e-16 * (1 + X ^ 2))

/-- The error of a logarithm of `x`, known up to `s`: twice the relative error of `x`, and the error of
the approximation. -/
noncomputable def logError (x s : ℝ) : ℝ :=
  2 * s / x + (3.72e-12 + 5e-16 * (|Real.log x| + 2 * s / x))

/-- The error of an exponential of `x`, known up to `s`. -/
noncomputable def expError (x s : ℝ) : ℝ :=
  Real.exp x * (Real.exp s - 1) + (2.9e-12 + 3e-15 * (|x| + s)) * Real.exp (x + s)

/-- The error of a power, computed as `exp (y ln x)`. -/
noncomputable def powerError (x y s t : ℝ) : ℝ :=
  powError x y s t + (7e-12 + 4e-12 * (|y| + t)) * (x ^ y + powError x y s t)

/-- The error of the value computed by generated code. -/
noncomputable def jitErrorBound (ρ : String → ℝ) : Expr (Flt Format.f64 L) → ℝ
  | const _ => 0
  | var _ => 0
  | add l r => rounded Format.f64 (realValue ρ l + realValue ρ r) (jitErrorBound ρ l + jitErrorBound ρ r)
  | sub l r => rounded Format.f64 (realValue ρ l - realValue ρ r) (jitErrorBound ρ l + jitErrorBound ρ r)
  | mul l r => productError (realValue ρ l) (realValue ρ r) (jitErrorBound ρ l) (jitErrorBound ρ r)
  | div l r => rounded Format.f64 (realValue ρ l / realValue ρ r)
      ((jitErrorBound ρ l + |realValue ρ l / realValue ρ r| * jitErrorBound ρ r) /
        (|realValue ρ r| - jitErrorBound ρ r))
  | pow l r =>
    let x := realValue ρ l
    let s := jitErrorBound ρ l
    if numericExponent r = some 2 then productError x x s s
    else if numericExponent r = some 3 then productError (x * x) x (productError x x s s) s
    else if numericExponent r = some 4 then
      productError (x * x) (x * x) (productError x x s s) (productError x x s s)
    else if numericExponent r = some (1/2) then rounded Format.f64 (√x) (s / √x)
    else if numericExponent r = some 1 then s
    else if numericExponent r = some 0 then 0
    else powerError x (realValue ρ r) s (jitErrorBound ρ r)
  | ln e => logError (realValue ρ e) (jitErrorBound ρ e)
  | exp e => expError (realValue ρ e) (jitErrorBound ρ e)
  | sqrt e => rounded Format.f64 (√(realValue ρ e)) (jitErrorBound ρ e / √(realValue ρ e))
  | sin e => sineError (|realValue ρ e| + jitErrorBound ρ e) (jitErrorBound ρ e)
  | cos e => cosineError (|realValue ρ e| + jitErrorBound ρ e) (jitErrorBound ρ e)
  | neg e => jitErrorBound ρ e

/-- `x`, known up to `s`, is certainly a positive normal number. -/
def CertainlyPositive (x s : ℝ) : Prop := 2 * s ≤ x ∧ 2 ^ (-1022 : ℤ) ≤ x - s

/-- No operation overflows, divisors are certainly not zero, arguments are certainly in the range in
which the approximations are good. -/
def JitConditioned (ρ : String → ℝ) : Expr (Flt Format.f64 L) → Prop
  | const c => ∃ q : ℚ, c = Flt.fin q ∧ Format.f64.Representable q
  | var _ => True
  | add l r => JitConditioned ρ l ∧ JitConditioned ρ r ∧
      |realValue ρ l + realValue ρ r| + (jitErrorBound ρ l + jitErrorBound ρ r) < 2 ^ (1023 : ℤ)
  | sub l r => JitConditioned ρ l ∧ JitConditioned ρ r ∧
      |realValue ρ l - realValue ρ r| + (jitErrorBound ρ l + jitErrorBound ρ r) < 2 ^ (1023 : ℤ)
  | mul l r => JitConditioned ρ l ∧ JitConditioned ρ r ∧
      (|realValue ρ l| + jitErrorBound ρ l) * (|realValue ρ r| + jitErrorBound ρ r) < 2 ^ (1023 : ℤ)
  | div l r => JitConditioned ρ l ∧ JitConditioned ρ r ∧ jitErrorBound ρ r < |realValue ρ r| ∧
      (|realValue ρ l| + jitErrorBound ρ l) / (|realValue ρ r| - jitErrorBound ρ r) < 2 ^ (1023 : ℤ)
  | pow l r =>
    let x := realValue ρ l
    let s := jitErrorBound ρ l
    let sq := productError x x s s
    JitConditioned ρ l ∧ JitConditioned ρ r ∧
    if numericExponent r = some 2 then (|x| + s) * (|x| + s) < 2 ^ (1023 : ℤ)
    else if numericExponent r = some 3 then
      (|x| + s) * (|x| + s) < 2 ^ (1023 : ℤ) ∧ (|x * x| + sq) * (|x| + s) < 2 ^ (1023 : ℤ)
    else if numericExponent r = some 4 then
      (|x| + s) * (|x| + s) < 2 ^ (1023 : ℤ) ∧ (|x * x| + sq) * (|x * x| + sq) < 2 ^ (1023 : ℤ)
    else if numericExponent r = some (1/2) then s ≤ x
    else if numericExponent r = some 1 then True
    else if numericExponent r = some 0 then True
    else
      let y := realValue ρ r
      let t := jitErrorBound ρ r
      CertainlyPositive x s ∧ |y| + t ≤ 10 ^ 10 ∧
        |y * Real.log x| + ((|y| + t) * (2 * s / x) + t * |Real.log x|) ≤ 700
  | ln e => JitConditioned ρ e ∧ CertainlyPositive (realValue ρ e) (jitErrorBound ρ e)
  | exp e => JitConditioned ρ e ∧ -707 ≤ realValue ρ e - jitErrorBound ρ e ∧
      realValue ρ e + jitErrorBound ρ e ≤ 709
  | sqrt e => JitConditioned ρ e ∧ jitErrorBound ρ e ≤ realValue ρ e
  | sin e => JitConditioned ρ e ∧ |realValue ρ e| + jitErrorBound ρ e ≤ 10
  | cos e => JitConditioned ρ e ∧ |realValue ρ e| + jitErrorBound ρ e ≤ 10
  | neg e => JitConditioned ρ e

end Verif
