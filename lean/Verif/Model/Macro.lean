import Verif.Model.Symbolic

/-!
# Model of the `expr!` macro, `symbolic-math/src/lib.rs:97-222`

A macro call is a list of Rust token trees; a call that does not compile is `none`.
-/

namespace Verif
open FloatOps

/-- The tokens `+ - * / ^` that the arms of `symbolic-math/src/lib.rs:148-170` and `:196-199`
mention. -/
inductive Punct where
  | plus | minus | star | slash | caret
  deriving DecidableEq

/-- A Rust token tree (`tt`) in a call of `expr!` (`symbolic-math/src/lib.rs:130-200`).  A numeric
literal is given by its value as `f64`; a parenthesised group is one token tree; every other token
(other delimiters, strings, operators such as `+=`) is `other`. -/
inductive TokenTree (F : Type) where
  | ident (n : String)
  | lit (c : F)
  | punct (p : Punct)
  | group (ts : List (TokenTree F))
  | other (n : String)

namespace Expr
variable {F : Type}

/-- The five binary arms, `symbolic-math/src/lib.rs:148-170`; the operators build the corresponding
node (`symbolic-math/src/expr.rs:800-830`). -/
def macroBinary : Punct → Expr F → Expr F → Expr F
  | .plus => .add
  | .minus => .sub
  | .star => .mul
  | .slash => .div
  | .caret => .pow

/-- The names of the five function arms, `symbolic-math/src/lib.rs:172-195`. -/
def macroFunction (n : String) : Option (Expr F → Expr F) :=
  if n = "ln" then some .ln
  else if n = "exp" then some .exp
  else if n = "sqrt" then some .sqrt
  else if n = "sin" then some .sin
  else if n = "cos" then some .cos
  else none

/-- `expr!` on a single token tree: the arms of `symbolic-math/src/lib.rs:131-146`. -/
def macroTree : TokenTree F → Option (Expr F)
  | .ident n => some (.var n)
  | .lit c => some (.const c)
  | .group [t] => macroTree t
  | _ => none

/-- `expr!`, `symbolic-math/src/lib.rs:130-200`.  The fragment `$val:literal` also matches a literal
with a minus sign in front, and is tried before the negation arm.  The arms with two or three token
trees are disjoint; no arm matches a longer list. -/
def macroExpr [FloatOps F] : List (TokenTree F) → Option (Expr F)
  | [t] => macroTree t
  | [.punct .minus, .lit c] => some (.const (FloatOps.neg c))
  | [.punct .minus, t] => (macroTree t).map .neg
  | [.ident n, .group [t]] => (macroFunction n).bind fun f => (macroTree t).map f
  | [l, .punct p, r] => (macroTree l).bind fun a => (macroTree r).map (macroBinary p a)
  | _ => none

end Expr

end Verif
