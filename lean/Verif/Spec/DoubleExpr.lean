import Verif.Model.Symbolic
import Verif.Spec.Double
import Verif.Spec.DoubleMixture

/-!
# Vocabulary for statements about expressions in floating point
-/

namespace Verif
open Expr

variable {f : Format} {L : Libm}

/-- Expressions of constants, variables, `+`, `-`, `*` and negation; the constants are numbers of the
format. -/
def Arithmetic : Expr (Flt f L) → Prop
  | const c => ∃ q : ℚ, c = Flt.fin q ∧ f.Representable q
  | var _ => True
  | add l r => Arithmetic l ∧ Arithmetic r
  | sub l r => Arithmetic l ∧ Arithmetic r
  | mul l r => Arithmetic l ∧ Arithmetic r
  | neg e => Arithmetic e
  | _ => False

/-- The value in exact arithmetic (of an arithmetic expression). -/
noncomputable def exactValue (ρ : String → ℝ) : Expr (Flt f L) → ℝ
  | const c => realOf c
  | var n => ρ n
  | add l r => exactValue ρ l + exactValue ρ r
  | sub l r => exactValue ρ l - exactValue ρ r
  | mul l r => exactValue ρ l * exactValue ρ r
  | neg e => -exactValue ρ e
  | _ => 0

/-- The size of an expression: its value with every operand made positive.  Products count at least
the bound of the normal range (`2^-1021` for doubles), below which precision is lost. -/
noncomputable def magnitude (ρ : String → ℝ) : Expr (Flt f L) → ℝ
  | const c => |realOf c|
  | var n => |ρ n|
  | add l r => magnitude ρ l + magnitude ρ r
  | sub l r => magnitude ρ l + magnitude ρ r
  | mul l r => magnitude ρ l * magnitude ρ r + 2 ^ f.emin / f.u
  | neg e => magnitude ρ e
  | _ => 0

/-- The number of operations that may round. -/
def operations : Expr (Flt f L) → ℕ
  | add l r => operations l + operations r + 1
  | sub l r => operations l + operations r + 1
  | mul l r => operations l + operations r + 1
  | neg e => operations e
  | _ => 0

/-- Every subexpression has size at most `B`. -/
def SizeAtMost (ρ : String → ℝ) (B : ℝ) : Expr (Flt f L) → Prop
  | add l r => magnitude ρ l + magnitude ρ r ≤ B ∧ SizeAtMost ρ B l ∧ SizeAtMost ρ B r
  | sub l r => magnitude ρ l + magnitude ρ r ≤ B ∧ SizeAtMost ρ B l ∧ SizeAtMost ρ B r
  | mul l r => magnitude ρ (mul l r) ≤ B ∧ SizeAtMost ρ B l ∧ SizeAtMost ρ B r
  | neg e => SizeAtMost ρ B e
  | _ => True

end Verif
