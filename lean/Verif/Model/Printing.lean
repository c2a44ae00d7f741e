import Verif.Model.Symbolic

/-!
# Text forms of expressions

`symbolic-math/src/expr.rs`: `Display for Expr`, `to_latex`, `to_python`.  Text is a list of
characters.  How a number is printed (`format!("{value}")` of an `f64`) is a parameter `num`.
-/

namespace Verif
namespace Expr
variable {F : Type}

/-- `(l op r)` as printed by `write!(f, "({left} op {right})")`, `expr.rs:724-728` -/
def binText (l op r : List Char) : List Char := '(' :: l ++ op ++ r ++ [')']

/-- `name(e)` as printed by `write!(f, "name({expr})")`, `expr.rs:729-733` -/
def callText (name e : List Char) : List Char := name ++ '(' :: e ++ [')']

/-- `impl Display for Expr`, `symbolic-math/src/expr.rs:719-737`; also `display::fmt` of
`symbolic-math/src/lib.rs:294-296`.  The other wrappers, `symbolic-math/src/lib.rs:301-315` (`latex`,
`python`, `equation`), are the functions below. -/
def display (num : F → List Char) : Expr F → List Char
  | const c => num c
  | var n => n.toList
  | add l r => binText (display num l) [' ', '+', ' '] (display num r)
  | sub l r => binText (display num l) [' ', '-', ' '] (display num r)
  | mul l r => binText (display num l) [' ', '*', ' '] (display num r)
  | div l r => binText (display num l) [' ', '/', ' '] (display num r)
  | pow l r => binText (display num l) ['^'] (display num r)
  | ln e => callText ['l', 'n'] (display num e)
  | exp e => callText ['e', 'x', 'p'] (display num e)
  | sqrt e => callText ['s', 'q', 'r', 't'] (display num e)
  | sin e => callText ['s', 'i', 'n'] (display num e)
  | cos e => callText ['c', 'o', 's'] (display num e)
  | neg e => ['(', '-'] ++ display num e ++ [')']

/-- `Expr::to_python`, `symbolic-math/src/expr.rs:778-797` -/
def toPython (num : F → List Char) : Expr F → List Char
  | const c => num c
  | var n => n.toList
  | add l r => binText (toPython num l) [' ', '+', ' '] (toPython num r)
  | sub l r => binText (toPython num l) [' ', '-', ' '] (toPython num r)
  | mul l r => binText (toPython num l) [' ', '*', ' '] (toPython num r)
  | div l r => binText (toPython num l) [' ', '/', ' '] (toPython num r)
  | pow l r => binText (toPython num l) [' ', '*', '*', ' '] (toPython num r)
  | ln e => callText ['m', 'a', 't', 'h', '.', 'l', 'o', 'g'] (toPython num e)
  | exp e => callText ['m', 'a', 't', 'h', '.', 'e', 'x', 'p'] (toPython num e)
  | sqrt e => callText ['m', 'a', 't', 'h', '.', 's', 'q', 'r', 't'] (toPython num e)
  | sin e => callText ['m', 'a', 't', 'h', '.', 's', 'i', 'n'] (toPython num e)
  | cos e => callText ['m', 'a', 't', 'h', '.', 'c', 'o', 's'] (toPython num e)
  | neg e => callText ['-'] (toPython num e)

/-- The guarded arms of `Expr::to_latex` for a product, `symbolic-math/src/expr.rs:754-761`. -/
def latexMul [FloatOps F] (l r : Expr F) (lt rt : List Char) : List Char :=
  if isConst FloatOps.one l then rt
  else if isConst (FloatOps.ofRat (-1)) l then '-' :: rt
  else match l, r with
    | const _, var _ => lt ++ rt
    | _, _ => lt ++ [' ', '\\', 'c', 'd', 'o', 't', ' '] ++ rt

/-- `Expr::to_latex`, `symbolic-math/src/expr.rs:742-773`; `num` is the text of a literal
(`expr.rs:744-750`, an integer below `1e10` as integer, any other number as `{value}`). -/
def toLatex [FloatOps F] (num : F → List Char) : Expr F → List Char
  | const c => num c
  | var n => n.toList
  | add l r => toLatex num l ++ [' ', '+', ' '] ++ toLatex num r
  | sub l r => toLatex num l ++ [' ', '-', ' '] ++ toLatex num r
  | mul l r => latexMul l r (toLatex num l) (toLatex num r)
  | div l r => ['\\', 'f', 'r', 'a', 'c', '{'] ++ toLatex num l ++ ['}', '{'] ++ toLatex num r ++ ['}']
  | pow l r => toLatex num l ++ ['^', '{'] ++ toLatex num r ++ ['}']
  | ln e => ['\\', 'l', 'n', '('] ++ toLatex num e ++ [')']
  | exp e => ['e', '^', '{'] ++ toLatex num e ++ ['}']
  | sqrt e => ['\\', 's', 'q', 'r', 't', '{'] ++ toLatex num e ++ ['}']
  | sin e => ['\\', 's', 'i', 'n', '('] ++ toLatex num e ++ [')']
  | cos e => ['\\', 'c', 'o', 's', '('] ++ toLatex num e ++ [')']
  | neg e => ['-', '('] ++ toLatex num e ++ [')']

end Expr
end Verif
