import Verif.Num.XReal
import Verif.Model.Symbolic

/-!
# What a symbolic expression means

Reference semantics, written without reference to any evaluator of the code: the real number an
expression denotes, or nothing when some operation in it is undefined in real arithmetic.
-/

namespace Verif.Spec
open Verif XReal Classical

/-- Real powers: `a^b` for `a > 0`; `0^0 = 1`, `0^b = 0` for `b > 0`; integer powers of negative
numbers; undefined otherwise. -/
noncomputable def realPow (a b : ℝ) : Option ℝ :=
  if 0 < a then some (a ^ b)
  else if a = 0 then (if b = 0 then some 1 else if 0 < b then some 0 else none)
  else if ∃ n : ℤ, b = n then some (a ^ b) else none

/-- The real number denoted by an expression under a partial assignment of real numbers. -/
noncomputable def value (ρ : String → Option ℝ) : Expr XReal → Option ℝ
  | .const (fin c) => some c
  | .const _ => none
  | .var n => ρ n
  | .add l r => do let a ← value ρ l; let b ← value ρ r; some (a + b)
  | .sub l r => do let a ← value ρ l; let b ← value ρ r; some (a - b)
  | .mul l r => do let a ← value ρ l; let b ← value ρ r; some (a * b)
  | .div l r => do
    let a ← value ρ l
    let b ← value ρ r
    if b = 0 then none else some (a / b)
  | .pow l r => do let a ← value ρ l; let b ← value ρ r; realPow a b
  | .ln e => do
    let a ← value ρ e
    if 0 < a then some (Real.log a) else none
  | .exp e => do let a ← value ρ e; some (Real.exp a)
  | .sqrt e => do
    let a ← value ρ e
    if 0 ≤ a then some (Real.sqrt a) else none
  | .sin e => do let a ← value ρ e; some (Real.sin a)
  | .cos e => do let a ← value ρ e; some (Real.cos a)
  | .neg e => do let a ← value ρ e; some (-a)

/-- The assignment of finite numbers as the `HashMap<String, f64>` passed to the code. -/
def env (ρ : String → Option ℝ) : FMap String XReal := ⟨fun n => (ρ n).map fin⟩

/-- The assignment that binds one name. -/
def single (v : String) (x : ℝ) : String → Option ℝ := fun n => if n = v then some x else none

/-- The map with one entry. -/
def singleMap {F : Type} (v : String) (x : F) : FMap String F := FMap.empty.insert v x

/-- The name `n` occurs in the expression. -/
inductive Occurs {F : Type} (n : String) : Expr F → Prop
  | var : Occurs n (.var n)
  | addL {l r} : Occurs n l → Occurs n (.add l r)
  | addR {l r} : Occurs n r → Occurs n (.add l r)
  | subL {l r} : Occurs n l → Occurs n (.sub l r)
  | subR {l r} : Occurs n r → Occurs n (.sub l r)
  | mulL {l r} : Occurs n l → Occurs n (.mul l r)
  | mulR {l r} : Occurs n r → Occurs n (.mul l r)
  | divL {l r} : Occurs n l → Occurs n (.div l r)
  | divR {l r} : Occurs n r → Occurs n (.div l r)
  | powL {l r} : Occurs n l → Occurs n (.pow l r)
  | powR {l r} : Occurs n r → Occurs n (.pow l r)
  | ln {e} : Occurs n e → Occurs n (.ln e)
  | exp {e} : Occurs n e → Occurs n (.exp e)
  | sqrt {e} : Occurs n e → Occurs n (.sqrt e)
  | sin {e} : Occurs n e → Occurs n (.sin e)
  | cos {e} : Occurs n e → Occurs n (.cos e)
  | neg {e} : Occurs n e → Occurs n (.neg e)

/-- The direct sub-expressions. -/
def children {F : Type} : Expr F → List (Expr F)
  | .const _ => []
  | .var _ => []
  | .add l r => [l, r]
  | .sub l r => [l, r]
  | .mul l r => [l, r]
  | .div l r => [l, r]
  | .pow l r => [l, r]
  | .ln e => [e]
  | .exp e => [e]
  | .sqrt e => [e]
  | .sin e => [e]
  | .cos e => [e]
  | .neg e => [e]

/-- `Sub s e`: `s` is a (not necessarily proper) sub-expression of `e`. -/
inductive Sub {F : Type} (s : Expr F) : Expr F → Prop
  | refl : Sub s s
  | step {c e} : c ∈ children e → Sub s c → Sub s e

/-- Every literal in the expression is a finite number. -/
def FiniteConsts (e : Expr XReal) : Prop := ∀ c, Sub (.const c) e → c.IsFin

/-- No multiplication in the expression has a literal zero as a factor. -/
def NoZeroFactor (e : Expr XReal) : Prop :=
  ∀ l r, Sub (.mul l r) e → l ≠ .const (fin 0) ∧ r ≠ .const (fin 0)

/-- Every power in the expression has a natural number literal as exponent. -/
def NatPowers (e : Expr XReal) : Prop :=
  ∀ b x, Sub (.pow b x) e → ∃ n : ℕ, x = .const (fin n)

/-- What each evaluation error claims about the expression: the named variable occurs and is not
bound, or some sub-expression has an operand that evaluates to an illegal value. -/
def ErrorJustified {F : Type} [FloatOps F] (vars : FMap String F) (e : Expr F) :
    EvalError F → Prop
  | .undefinedVariable n => Occurs n e ∧ vars.get n = none
  | .divisionByZero => ∃ l r v, Sub (.div l r) e ∧ r.evaluate vars = .ok v ∧
      FloatOps.beq v FloatOps.zero
  | .invalidLogarithm v => ∃ s, Sub (.ln s) e ∧ s.evaluate vars = .ok v ∧
      FloatOps.le v FloatOps.zero
  | .invalidSquareRoot v => ∃ s, Sub (.sqrt s) e ∧ s.evaluate vars = .ok v ∧
      FloatOps.lt v FloatOps.zero

/-- Entry-by-entry application with failure: `ys` lists the results for `xs` in order. -/
def AllOk {α β ε : Type} (f : α → Except ε β) (xs : List α) (ys : List β) : Prop :=
  List.Forall₂ (fun x y => f x = .ok y) xs ys

/-- `err` is the error of the first element of `xs` on which `f` fails. -/
def FirstError {α β ε : Type} (f : α → Except ε β) (xs : List α) (err : ε) : Prop :=
  ∃ pre x post, xs = pre ++ x :: post ∧ (∀ a ∈ pre, ∃ b, f a = .ok b) ∧ f x = .error err

/-- A batch result is pointwise: all entries in order, or the first error. -/
def IsPointwise {α β ε : Type} (f : α → Except ε β) (xs : List α) (r : Except ε (List β)) : Prop :=
  (∀ ys, r = .ok ys ↔ AllOk f xs ys) ∧ (∀ err, r = .error err ↔ FirstError f xs err)

/-- Sign-regular expressions.  `Regular ρ true e`: `e` is built so that it can only denote a
positive number.  `Regular ρ false e`: the argument of every logarithm and square root in `e` and
the base of every power is such an expression, except that a power with an integer literal as
exponent may have any regular base.  All literals are finite. -/
def Regular (ρ : String → Option ℝ) : Bool → Expr XReal → Prop
  | true, .const c => ∃ r : ℝ, 0 < r ∧ c = fin r
  | false, .const c => c.IsFin
  | true, .var n => ∃ x, ρ n = some x ∧ 0 < x
  | false, .var _ => True
  | b, .add l r => Regular ρ b l ∧ Regular ρ b r
  | b, .mul l r => Regular ρ b l ∧ Regular ρ b r
  | b, .div l r => Regular ρ b l ∧ Regular ρ b r
  | true, .sub _ _ => False
  | false, .sub l r => Regular ρ false l ∧ Regular ρ false r
  | true, .pow l r => Regular ρ true l ∧ Regular ρ false r
  | false, .pow l r =>
    (Regular ρ true l ∧ Regular ρ false r) ∨ (Regular ρ false l ∧ ∃ n : ℤ, r = .const (fin n))
  | true, .ln _ => False
  | false, .ln e => Regular ρ true e
  | _, .exp e => Regular ρ false e
  | _, .sqrt e => Regular ρ true e
  | true, .sin _ => False
  | false, .sin e => Regular ρ false e
  | true, .cos _ => False
  | false, .cos e => Regular ρ false e
  | true, .neg _ => False
  | false, .neg e => Regular ρ false e

/-- The number of nodes of an expression. -/
def nodes {F : Type} : Verif.Expr F → ℕ
  | .const _ => 1
  | .var _ => 1
  | .add l r => 1 + nodes l + nodes r
  | .sub l r => 1 + nodes l + nodes r
  | .mul l r => 1 + nodes l + nodes r
  | .div l r => 1 + nodes l + nodes r
  | .pow l r => 1 + nodes l + nodes r
  | .ln e => 1 + nodes e
  | .exp e => 1 + nodes e
  | .sqrt e => 1 + nodes e
  | .sin e => 1 + nodes e
  | .cos e => 1 + nodes e
  | .neg e => 1 + nodes e


/-- The expression denotes `v`, and the code's evaluator returns `v`. -/
def Denotes (ρ : String → Option ℝ) (e : Expr XReal) (v : ℝ) : Prop :=
  value ρ e = some v ∧ e.evaluate (env ρ) = .ok (fin v)

end Verif.Spec
