import Verif.Num.Double
import Verif.Model.Symbolic
import Verif.Lemmas.Rounding

/-! # Evaluation in floating point, operation by operation -/

namespace Verif.Spec
open Format Expr

variable (f : Format) (L : Libm)

/-- `q` is what comes out when every operation of the expression is carried out in floating point, none is left
out, every intermediate result is a finite number of the format and no operand is outside the domain of its
function. -/
inductive Steps (vars : FMap String (Flt f L)) : Expr (Flt f L) → ℚ → Prop
  | const {q : ℚ} : f.Representable q → Steps vars (.const (Flt.fin q)) q
  | var {n : String} {q : ℚ} : vars.get n = some (Flt.fin q) → f.Representable q → Steps vars (.var n) q
  | add {l r : Expr (Flt f L)} {a b c : ℚ} : Steps vars l a → Steps vars r b →
      f.round (a + b) = .fin c → Steps vars (.add l r) c
  | sub {l r : Expr (Flt f L)} {a b c : ℚ} : Steps vars l a → Steps vars r b →
      f.round (a - b) = .fin c → Steps vars (.sub l r) c
  | mul {l r : Expr (Flt f L)} {a b c : ℚ} : Steps vars l a → Steps vars r b →
      f.round (a * b) = .fin c → Steps vars (.mul l r) c
  | div {l r : Expr (Flt f L)} {a b c : ℚ} : Steps vars l a → Steps vars r b → b ≠ 0 →
      f.round (a / b) = .fin c → Steps vars (.div l r) c
  | pow {l r : Expr (Flt f L)} {a b c : ℚ} : Steps vars l a → Steps vars r b →
      L.powf (.fin a) (.fin b) = .fin c → f.Representable c → Steps vars (.pow l r) c
  | ln {e : Expr (Flt f L)} {a c : ℚ} : Steps vars e a → 0 < a → L.ln a = .fin c → f.Representable c →
      Steps vars (.ln e) c
  | exp {e : Expr (Flt f L)} {a c : ℚ} : Steps vars e a → L.exp a = .fin c → f.Representable c →
      Steps vars (.exp e) c
  | sqrt {e : Expr (Flt f L)} {a c : ℚ} : Steps vars e a → 0 ≤ a → L.sqrt a = .fin c → f.Representable c →
      Steps vars (.sqrt e) c
  | sin {e : Expr (Flt f L)} {a c : ℚ} : Steps vars e a → L.sin a = .fin c → f.Representable c →
      Steps vars (.sin e) c
  | cos {e : Expr (Flt f L)} {a c : ℚ} : Steps vars e a → L.cos a = .fin c → f.Representable c →
      Steps vars (.cos e) c
  | neg {e : Expr (Flt f L)} {a : ℚ} : Steps vars e a → Steps vars (.neg e) (-a)

/-- The cases in which library functions are exact: `e^0`, `sin 0`, `cos 0`, and squares, which are rounded like
the product of the number with itself. -/
structure Libm.ExactCases : Prop where
  exp_zero : L.exp 0 = .fin 1
  sin_zero : L.sin 0 = .fin 0
  cos_zero : L.cos 0 = .fin 1
  square : ∀ q : ℚ, f.Representable q → L.powf (.fin q) (.fin 2) = f.round (q * q)

/-- Expressions without powers, logarithms and square roots. -/
def NoPowers {F : Type} : Expr F → Prop
  | .const _ => True
  | .var _ => True
  | .add l r => NoPowers l ∧ NoPowers r
  | .sub l r => NoPowers l ∧ NoPowers r
  | .mul l r => NoPowers l ∧ NoPowers r
  | .div l r => NoPowers l ∧ NoPowers r
  | .pow _ _ => False
  | .ln _ => False
  | .exp e => NoPowers e
  | .sqrt _ => False
  | .sin e => NoPowers e
  | .cos e => NoPowers e
  | .neg e => NoPowers e

end Verif.Spec
