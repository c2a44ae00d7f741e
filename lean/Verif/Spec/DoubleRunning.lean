import Verif.Spec.DoubleExpr
import Verif.Spec.DoubleNatural
import Mathlib.Analysis.SpecialFunctions.Pow.Real
import Mathlib.Analysis.SpecialFunctions.Trigonometric.Basic

/-!
# Propagation of errors through an expression

The textbook rules: every operation passes on the errors of its operands and adds the error of one
rounding.
-/

namespace Verif
open Expr

variable {f : Format} {L : Libm}

/-- All functions an expression can use are computed with at most twice the error of correct rounding;
results below the normal range may be off by the least positive number.  `powf` is required for
positive bases, and for arbitrary bases when the exponent is a natural number. -/
structure Libm.AllAccurate (f : Format) (L : Libm) : Prop extends L.Accurate f where
  sqrt : L.SqrtAccurate f
  sin : ∀ q : ℚ, f.Representable q → ∃ r : ℚ, L.sin q = .fin r ∧ f.Representable r ∧
    |(r : ℝ) - Real.sin q| ≤ 2 * f.u * |Real.sin q| + 2 ^ f.emin
  cos : ∀ q : ℚ, f.Representable q → ∃ r : ℚ, L.cos q = .fin r ∧ f.Representable r ∧
    |(r : ℝ) - Real.cos q| ≤ 2 * f.u * |Real.cos q| + 2 ^ f.emin
  pow : ∀ q p : ℚ, f.Representable q → f.Representable p → (0 < q ∨ ∃ n : ℕ, p = n) →
    (∃ r : ℚ, L.powf (.fin q) (.fin p) = .fin r ∧ f.Representable r ∧
      |(r : ℝ) - (q : ℝ) ^ (p : ℝ)| ≤ 2 * f.u * |(q : ℝ) ^ (p : ℝ)| + 2 ^ f.emin) ∨
    ((2 : ℝ) ^ (f.emax - 1) ≤ |(q : ℝ) ^ (p : ℝ)| ∧ ∃ s, L.powf (.fin q) (.fin p) = .inf s)

/-- The value in exact arithmetic. -/
noncomputable def realValue (ρ : String → ℝ) : Expr (Flt f L) → ℝ
  | const c => realOf c
  | var n => ρ n
  | add l r => realValue ρ l + realValue ρ r
  | sub l r => realValue ρ l - realValue ρ r
  | mul l r => realValue ρ l * realValue ρ r
  | div l r => realValue ρ l / realValue ρ r
  | pow l r => realValue ρ l ^ realValue ρ r
  | ln e => Real.log (realValue ρ e)
  | exp e => Real.exp (realValue ρ e)
  | sqrt e => √(realValue ρ e)
  | sin e => Real.sin (realValue ρ e)
  | cos e => Real.cos (realValue ρ e)
  | neg e => -realValue ρ e

/-- An error `t` passed on by the operands, and the rounding of a result near `x`. -/
noncomputable def rounded (f : Format) (x t : ℝ) : ℝ := t + (2 * f.u * (|x| + t) + 2 ^ f.emin)

/-- The exponent, if it is written as a natural number. -/
def literalExponent : Expr (Flt f L) → Option ℕ
  | const (.fin q) => if q.den = 1 ∧ 0 ≤ q.num then some q.num.toNat else none
  | _ => none

/-- What remains of the errors `a` and `b` of `x` and `y` in `x ^ y`, for a positive base. -/
noncomputable def powError (x y a b : ℝ) : ℝ :=
  x ^ y * (Real.exp ((|y| + b) * (2 * a / x) + b * |Real.log x|) - 1)

/-- The error of the computed value: by the mean value theorem, an operation multiplies the errors of
its operands by its derivatives; one rounding is added per operation. -/
noncomputable def errorBound (ρ : String → ℝ) : Expr (Flt f L) → ℝ
  | const _ => 0
  | var _ => 0
  | add l r => rounded f (realValue ρ l + realValue ρ r) (errorBound ρ l + errorBound ρ r)
  | sub l r => rounded f (realValue ρ l - realValue ρ r) (errorBound ρ l + errorBound ρ r)
  | mul l r => rounded f (realValue ρ l * realValue ρ r)
      (|realValue ρ l| * errorBound ρ r + |realValue ρ r| * errorBound ρ l +
        errorBound ρ l * errorBound ρ r)
  | div l r => rounded f (realValue ρ l / realValue ρ r)
      ((errorBound ρ l + |realValue ρ l / realValue ρ r| * errorBound ρ r) /
        (|realValue ρ r| - errorBound ρ r))
  | pow l r => match literalExponent r with
    | some n => rounded f (realValue ρ l ^ n)
        ((|realValue ρ l| + errorBound ρ l) ^ n - |realValue ρ l| ^ n)
    | none => rounded f (realValue ρ l ^ realValue ρ r)
        (powError (realValue ρ l) (realValue ρ r) (errorBound ρ l) (errorBound ρ r))
  | ln e => rounded f (Real.log (realValue ρ e)) (2 * errorBound ρ e / realValue ρ e)
  | exp e => rounded f (Real.exp (realValue ρ e))
      (Real.exp (realValue ρ e) * (Real.exp (errorBound ρ e) - 1))
  | sqrt e => rounded f (√(realValue ρ e)) (errorBound ρ e / √(realValue ρ e))
  | sin e => rounded f (Real.sin (realValue ρ e)) (errorBound ρ e)
  | cos e => rounded f (Real.cos (realValue ρ e)) (errorBound ρ e)
  | neg e => errorBound ρ e

/-- Constants are numbers of the format; no operation overflows; divisors and arguments of logarithms,
roots and powers are further from the boundary of the domain than their errors. -/
def WellConditioned (ρ : String → ℝ) : Expr (Flt f L) → Prop
  | const c => ∃ q : ℚ, c = Flt.fin q ∧ f.Representable q
  | var _ => True
  | add l r => WellConditioned ρ l ∧ WellConditioned ρ r ∧
      |realValue ρ l + realValue ρ r| + (errorBound ρ l + errorBound ρ r) < 2 ^ (f.emax - 1)
  | sub l r => WellConditioned ρ l ∧ WellConditioned ρ r ∧
      |realValue ρ l - realValue ρ r| + (errorBound ρ l + errorBound ρ r) < 2 ^ (f.emax - 1)
  | mul l r => WellConditioned ρ l ∧ WellConditioned ρ r ∧
      (|realValue ρ l| + errorBound ρ l) * (|realValue ρ r| + errorBound ρ r) < 2 ^ (f.emax - 1)
  | div l r => WellConditioned ρ l ∧ WellConditioned ρ r ∧ errorBound ρ r < |realValue ρ r| ∧
      (|realValue ρ l| + errorBound ρ l) / (|realValue ρ r| - errorBound ρ r) < 2 ^ (f.emax - 1)
  | pow l r => WellConditioned ρ l ∧ WellConditioned ρ r ∧ match literalExponent r with
    | some n => (|realValue ρ l| + errorBound ρ l) ^ n < 2 ^ (f.emax - 1)
    | none => 0 < realValue ρ l ∧ 2 * errorBound ρ l ≤ realValue ρ l ∧
        realValue ρ l ^ realValue ρ r +
          powError (realValue ρ l) (realValue ρ r) (errorBound ρ l) (errorBound ρ r) < 2 ^ (f.emax - 1)
  | ln e => WellConditioned ρ e ∧ 0 < realValue ρ e ∧ 2 * errorBound ρ e ≤ realValue ρ e
  | exp e => WellConditioned ρ e ∧ Real.exp (realValue ρ e + errorBound ρ e) < 2 ^ (f.emax - 1)
  | sqrt e => WellConditioned ρ e ∧ errorBound ρ e ≤ realValue ρ e
  | sin e => WellConditioned ρ e
  | cos e => WellConditioned ρ e
  | neg e => WellConditioned ρ e

end Verif
