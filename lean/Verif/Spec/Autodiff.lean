import Verif.Num.Dual
import Verif.Num.XReal
import Mathlib.Analysis.Calculus.Deriv.Basic
import Verif.Spec.Tagless

/-!
# What it means for a dual number to carry a derivative
-/

namespace Verif.Spec
open XReal

/-- The dual number `d` describes the function `g` at the point `t`: its value is `g t` and its derivative is
the derivative of `g` at `t`.

With `g` the identity this is the usual seed `(t, 1)`; with `g` constant it is `(c, 0)`; an arbitrary
differentiable `g` is the result of an earlier differentiable computation. -/
def Tracks (g : ℝ → ℝ) (t : ℝ) (d : Dual XReal) : Prop :=
  ∃ g' : ℝ, d = ⟨fin (g t), fin g'⟩ ∧ HasDerivAt g g' t

/-- The function computed by a recorded program whose inputs are the functions `ρ n`. -/
noncomputable def curveValue (ρ : String → ℝ → ℝ) : JitRepr (Dual XReal) → ℝ → ℝ
  | .constant c, _ => toReal c.val
  | .named n, s => ρ n s
  | .add l r, s => curveValue ρ l s + curveValue ρ r s
  | .sub l r, s => curveValue ρ l s - curveValue ρ r s
  | .mul l r, s => curveValue ρ l s * curveValue ρ r s
  | .div l r, s => curveValue ρ l s / curveValue ρ r s
  | .pow l r, s => curveValue ρ l s ^ curveValue ρ r s
  | .neg e, s => -curveValue ρ e s
  | .ln e, s => Real.log (curveValue ρ e s)
  | .exp e, s => Real.exp (curveValue ρ e s)
  | .sqrt e, s => √(curveValue ρ e s)
  | .sin e, s => Real.sin (curveValue ρ e s)
  | .cos e, s => Real.cos (curveValue ρ e s)

/-- The formula is differentiable at `t` for the elementary reasons: no division by zero, logarithms and
roots of positive numbers, powers of positive numbers or with a positive whole number as exponent; and its
literals are numbers. -/
def SmoothAt (ρ : String → ℝ → ℝ) (t : ℝ) : JitRepr (Dual XReal) → Prop
  | .constant c => ∃ r, c = Dual.const (fin r)
  | .named _ => True
  | .add l r | .sub l r | .mul l r => SmoothAt ρ t l ∧ SmoothAt ρ t r
  | .div l r => SmoothAt ρ t l ∧ SmoothAt ρ t r ∧ curveValue ρ r t ≠ 0
  | .pow l r => SmoothAt ρ t l ∧ SmoothAt ρ t r ∧
      (0 < curveValue ρ l t ∨ ∃ n : ℕ, 1 ≤ n ∧ r = .constant (Dual.const (fin n)))
  | .neg e | .exp e | .sin e | .cos e => SmoothAt ρ t e
  | .ln e | .sqrt e => SmoothAt ρ t e ∧ 0 < curveValue ρ e t

end Verif.Spec
