import Verif.Model.Tagless

/-!
# Specification vocabulary for final-tagless programs
-/

namespace Verif.Spec
variable {F R S : Type}

/-- A generic function `fn p<E: MathExpr>(args) -> E::Repr<F>`: it is given an interpreter and the
named inputs built with that interpreter. -/
def Program (F : Type) : Type 1 := (R : Type) → MathExpr F R → (String → R) → R

/-- Two interpreters do corresponding things under `rel`.  `var` is left out: a program that obeys
this uses its arguments, not `E::var`. -/
structure Related (rel : R → S → Prop) (E : MathExpr F R) (E' : MathExpr F S) : Prop where
  constant : ∀ c, rel (E.constant c) (E'.constant c)
  add : ∀ a a' b b', rel a a' → rel b b' → rel (E.add a b) (E'.add a' b')
  sub : ∀ a a' b b', rel a a' → rel b b' → rel (E.sub a b) (E'.sub a' b')
  mul : ∀ a a' b b', rel a a' → rel b b' → rel (E.mul a b) (E'.mul a' b')
  div : ∀ a a' b b', rel a a' → rel b b' → rel (E.div a b) (E'.div a' b')
  pow : ∀ a a' b b', rel a a' → rel b b' → rel (E.pow a b) (E'.pow a' b')
  neg : ∀ a a', rel a a' → rel (E.neg a) (E'.neg a')
  ln : ∀ a a', rel a a' → rel (E.ln a) (E'.ln a')
  exp : ∀ a a', rel a a' → rel (E.exp a) (E'.exp a')
  sqrt : ∀ a a', rel a a' → rel (E.sqrt a) (E'.sqrt a')
  sin : ∀ a a', rel a a' → rel (E.sin a) (E'.sin a')
  cos : ∀ a a', rel a a' → rel (E.cos a) (E'.cos a')

/-- The program uses the interpreter only through its operations.  A Rust function generic in
`E: MathExpr` has no other way to produce a value of the abstract type `E::Repr<F>`. -/
def Parametric (p : Program F) : Prop :=
  ∀ (R S : Type) (rel : R → S → Prop) (E : MathExpr F R) (E' : MathExpr F S)
    (a : String → R) (b : String → S), Related rel E E' → (∀ n, rel (a n) (b n)) →
    rel (p R E a) (p S E' b)

/-- The number a recorded computation stands for. -/
def graphValue [FloatOps F] (ρ : String → F) : JitRepr F → F
  | .constant c => c
  | .named n => ρ n
  | .add l r => FloatOps.add (graphValue ρ l) (graphValue ρ r)
  | .sub l r => FloatOps.sub (graphValue ρ l) (graphValue ρ r)
  | .mul l r => FloatOps.mul (graphValue ρ l) (graphValue ρ r)
  | .div l r => FloatOps.div (graphValue ρ l) (graphValue ρ r)
  | .pow l r => FloatOps.powf (graphValue ρ l) (graphValue ρ r)
  | .neg e => FloatOps.neg (graphValue ρ e)
  | .ln e => FloatOps.ln (graphValue ρ e)
  | .exp e => FloatOps.exp (graphValue ρ e)
  | .sqrt e => FloatOps.sqrt (graphValue ρ e)
  | .sin e => FloatOps.sin (graphValue ρ e)
  | .cos e => FloatOps.cos (graphValue ρ e)

/-- How many multiplications a recorded computation performs. -/
def multiplications : JitRepr F → ℕ
  | .constant _ => 0
  | .named _ => 0
  | .add l r => multiplications l + multiplications r
  | .sub l r => multiplications l + multiplications r
  | .mul l r => multiplications l + multiplications r + 1
  | .div l r => multiplications l + multiplications r
  | .pow l r => multiplications l + multiplications r
  | .neg e => multiplications e
  | .ln e => multiplications e
  | .exp e => multiplications e
  | .sqrt e => multiplications e
  | .sin e => multiplications e
  | .cos e => multiplications e

/-- The symbolic expression with the same tree. -/
def graphTree : JitRepr F → Expr F
  | .constant c => .const c
  | .named n => .var n
  | .add l r => .add (graphTree l) (graphTree r)
  | .sub l r => .sub (graphTree l) (graphTree r)
  | .mul l r => .mul (graphTree l) (graphTree r)
  | .div l r => .div (graphTree l) (graphTree r)
  | .pow l r => .pow (graphTree l) (graphTree r)
  | .neg e => .neg (graphTree e)
  | .ln e => .ln (graphTree e)
  | .exp e => .exp (graphTree e)
  | .sqrt e => .sqrt (graphTree e)
  | .sin e => .sin (graphTree e)
  | .cos e => .cos (graphTree e)

/-- Fully parenthesised text of a recorded computation, numbers printed by `num`. -/
def graphText (num : F → List Char) : JitRepr F → List Char
  | .constant c => num c
  | .named n => n.toList
  | .add l r => ['('] ++ graphText num l ++ [' ', '+', ' '] ++ graphText num r ++ [')']
  | .sub l r => ['('] ++ graphText num l ++ [' ', '-', ' '] ++ graphText num r ++ [')']
  | .mul l r => ['('] ++ graphText num l ++ [' ', '*', ' '] ++ graphText num r ++ [')']
  | .div l r => ['('] ++ graphText num l ++ [' ', '/', ' '] ++ graphText num r ++ [')']
  | .pow l r => ['('] ++ graphText num l ++ [' ', '^', ' '] ++ graphText num r ++ [')']
  | .neg e => ['(', '-'] ++ graphText num e ++ [')']
  | .ln e => ['l', 'n', '('] ++ graphText num e ++ [')']
  | .exp e => ['e', 'x', 'p', '('] ++ graphText num e ++ [')']
  | .sqrt e => ['s', 'q', 'r', 't', '('] ++ graphText num e ++ [')']
  | .sin e => ['s', 'i', 'n', '('] ++ graphText num e ++ [')']
  | .cos e => ['c', 'o', 's', '('] ++ graphText num e ++ [')']

/-- The constants of an expression, left to right. -/
def constantLeaves : Expr F → List F
  | .const c => [c]
  | .var _ => []
  | .add l r | .sub l r | .mul l r | .div l r | .pow l r => constantLeaves l ++ constantLeaves r
  | .ln e | .exp e | .sqrt e | .sin e | .cos e | .neg e => constantLeaves e

end Verif.Spec
