import Verif.Model.Symbolic

/-! # Counting in an expression -/

namespace Verif.Spec
variable {F : Type}

/-- The number of operators and functions in an expression. -/
def operations : Expr F → ℕ
  | .const _ | .var _ => 0
  | .add l r | .sub l r | .mul l r | .div l r | .pow l r => operations l + operations r + 1
  | .ln e | .exp e | .sqrt e | .sin e | .cos e | .neg e => operations e + 1

/-- The number of applications of `ln`, `exp`, `sqrt`, `sin` and `cos`. -/
def functionCalls : Expr F → ℕ
  | .const _ | .var _ => 0
  | .add l r | .sub l r | .mul l r | .div l r | .pow l r => functionCalls l + functionCalls r
  | .ln e | .exp e | .sqrt e | .sin e | .cos e => functionCalls e + 1
  | .neg e => functionCalls e

/-- The number of places where a variable is mentioned. -/
def mentions : Expr F → ℕ
  | .const _ => 0
  | .var _ => 1
  | .add l r | .sub l r | .mul l r | .div l r | .pow l r => mentions l + mentions r
  | .ln e | .exp e | .sqrt e | .sin e | .cos e | .neg e => mentions e

end Verif.Spec
