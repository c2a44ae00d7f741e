import Verif.Lemmas.Symbolic
import Verif.Lemmas.SymbolicVars

/-! Helper lemmas about `simplify`. -/

namespace Verif
open FloatOps

namespace Expr
variable {F : Type} [FloatOps F]

/-- The `Pow` arm of `simplify` on simplified operands (`expr.rs:492-503`). -/
def simplifyPow (b x : Expr F) : Expr F :=
  match bothConst b x with
  | some (a, c) => const (powf a c)
  | none =>
    if isConst zero x then const one
    else if isConst one x then b
    else if isConst one b then const one
    else match asPow b with
      | some (ib, ie) => pow ib (simplify (mul ie x))
      | none => pow b x

@[simp] theorem simplify_const (c : F) : simplify (const c) = const c := by
  simp [simplify, simplifyWithBound]
@[simp] theorem simplify_var (n : String) : simplify (var n : Expr F) = var n := by
  simp [simplify, simplifyWithBound]
theorem simplify_add (l r : Expr F) :
    simplify (add l r) = simplifyAdd (simplify l) (simplify r) := by
  simp [simplify, simplifyWithBound]
theorem simplify_sub (l r : Expr F) :
    simplify (sub l r) = simplifySub (simplify l) (simplify r) := by
  simp [simplify, simplifyWithBound]
theorem simplify_mul (l r : Expr F) :
    simplify (mul l r) = simplifyMul (simplify l) (simplify r) := by
  simp [simplify, simplifyWithBound]
theorem simplify_div (l r : Expr F) :
    simplify (div l r) = simplifyDiv (simplify l) (simplify r) := by
  simp [simplify, simplifyWithBound]
theorem simplify_ln (e : Expr F) : simplify (ln e) = simplifyLn (simplify e) := by
  simp [simplify, simplifyWithBound]
theorem simplify_exp (e : Expr F) : simplify (exp e) = simplifyExp (simplify e) := by
  simp [simplify, simplifyWithBound]
theorem simplify_sqrt (e : Expr F) : simplify (sqrt e) = simplifySqrt (simplify e) := by
  simp [simplify, simplifyWithBound]
theorem simplify_sin (e : Expr F) : simplify (sin e) = simplifySin (simplify e) := by
  simp [simplify, simplifyWithBound]
theorem simplify_cos (e : Expr F) : simplify (cos e) = simplifyCos (simplify e) := by
  simp [simplify, simplifyWithBound]
theorem simplify_neg (e : Expr F) : simplify (neg e) = simplifyNeg (simplify e) := by
  simp [simplify, simplifyWithBound]
theorem simplify_pow (b x : Expr F) :
    simplify (pow b x) = simplifyPow (simplify b) (simplify x) := by
  rw [simplify, simplifyWithBound, simplifyPow]
  simp only [simplify]
  split
  · rename_i h; simp only [h]
  · rename_i h
    simp only [h]
    split_ifs with h1 h2 h3
    · simp only [h1, if_true]
    · simp only [h1, h2, if_true]; rfl
    · simp only [h1, h2, h3, if_true]; rfl
    · simp only [h1, h2, h3]
      split
      · rename_i h4; simp only [h4]; rfl
      · rename_i h4; simp only [h4]; rfl

theorem complexity_simplify (e : Expr F) : (simplify e).complexity ≤ e.complexity :=
  (simplifyWithBound e).2

omit [FloatOps F] in
/-- Induction over the recursion of `simplify`: besides the direct sub-expressions, a power may use
the claim for every expression of smaller complexity. -/
theorem complexity_induction {P : Expr F → Prop}
    (h : ∀ e, (∀ e', e'.complexity < e.complexity → P e') → P e) (e : Expr F) : P e := by
  induction hn : e.complexity using Nat.strong_induction_on generalizing e with
  | _ n ih => subst hn; exact h e (fun e' he' => ih _ he' e' rfl)

end Expr
end Verif
