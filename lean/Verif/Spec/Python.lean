import Verif.Spec.Symbolic
import Verif.Spec.Printing

/-!
# How Python reads an arithmetic expression

The part of Python's lexical structure and expression grammar ("6.17. Operator precedence": `**` binds
tighter than a sign on its left and looser than a sign on its right, and groups from right to left)
that concerns names, decimal numbers, `+ - * / **`, parentheses and one-argument calls `math.f(…)`.
Nothing here mentions the printer of the code.
-/

namespace Verif.Spec.Python
open Verif

/-- Text as a list of characters. -/
abbrev Text := List Char

inductive Tok where
  | name (w : Text)
  | keyword (w : Text)
  | number (w : Text)
  | lpar | rpar | dot | plus | minus | star | slash | dstar

/-- The reserved words of Python 3. -/
def keywords : List Text := [
  ['F','a','l','s','e'], ['N','o','n','e'], ['T','r','u','e'], ['a','n','d'], ['a','s'],
  ['a','s','s','e','r','t'], ['a','s','y','n','c'], ['a','w','a','i','t'], ['b','r','e','a','k'],
  ['c','l','a','s','s'], ['c','o','n','t','i','n','u','e'], ['d','e','f'], ['d','e','l'],
  ['e','l','i','f'], ['e','l','s','e'], ['e','x','c','e','p','t'], ['f','i','n','a','l','l','y'],
  ['f','o','r'], ['f','r','o','m'], ['g','l','o','b','a','l'], ['i','f'], ['i','m','p','o','r','t'],
  ['i','n'], ['i','s'], ['l','a','m','b','d','a'], ['n','o','n','l','o','c','a','l'], ['n','o','t'],
  ['o','r'], ['p','a','s','s'], ['r','a','i','s','e'], ['r','e','t','u','r','n'], ['t','r','y'],
  ['w','h','i','l','e'], ['w','i','t','h'], ['y','i','e','l','d']]

/-- Characters of names. -/
def wordChar (c : Char) : Bool := c.isAlphanum || c == '_'

/-- A name or reserved word. -/
def IsWord (w : Text) : Prop := ∃ c cs, w = c :: cs ∧ (c.isAlpha = true ∨ c = '_') ∧
  ∀ d ∈ cs, wordChar d = true

/-- A decimal number: digits, or digits, a point and digits. -/
def IsNumber (w : Text) : Prop :=
  (w ≠ [] ∧ ∀ c ∈ w, c.isDigit = true) ∨
  ∃ a b, w = a ++ '.' :: b ∧ (a ≠ [] ∧ ∀ c ∈ a, c.isDigit = true) ∧
    (b ≠ [] ∧ ∀ c ∈ b, c.isDigit = true)

/-- The text does not go on with a character of the kind `p`. -/
def Ends (p : Char → Bool) (s : Text) : Prop := ∀ c r, s = c :: r → p c = false

open Classical in
/-- Splitting a text into tokens, each as long as possible. -/
inductive Lexes : Text → List Tok → Prop
  | nil : Lexes [] []
  | space {s ts} : Lexes s ts → Lexes (' ' :: s) ts
  | lpar {s ts} : Lexes s ts → Lexes ('(' :: s) (.lpar :: ts)
  | rpar {s ts} : Lexes s ts → Lexes (')' :: s) (.rpar :: ts)
  | dot {s ts} : Ends Char.isDigit s → Lexes s ts → Lexes ('.' :: s) (.dot :: ts)
  | plus {s ts} : Lexes s ts → Lexes ('+' :: s) (.plus :: ts)
  | minus {s ts} : Lexes s ts → Lexes ('-' :: s) (.minus :: ts)
  | slash {s ts} : Ends (· == '/') s → Lexes s ts → Lexes ('/' :: s) (.slash :: ts)
  | star {s ts} : Ends (· == '*') s → Lexes s ts → Lexes ('*' :: s) (.star :: ts)
  | dstar {s ts} : Lexes s ts → Lexes ('*' :: '*' :: s) (.dstar :: ts)
  | word {w s ts} : IsWord w → Ends wordChar s → Lexes s ts →
      Lexes (w ++ s) ((if w ∈ keywords then .keyword w else .name w) :: ts)
  | number {w s ts} : IsNumber w → Ends (fun c => wordChar c || c == '.') s → Lexes s ts →
      Lexes (w ++ s) (.number w :: ts)

variable {F : Type}

/-- The functions of the module `math` that are used. -/
def mathFunction (f : Text) : Option (Expr F → Expr F) :=
  if f = ['l', 'o', 'g'] then some .ln
  else if f = ['e', 'x', 'p'] then some .exp
  else if f = ['s', 'q', 'r', 't'] then some .sqrt
  else if f = ['s', 'i', 'n'] then some .sin
  else if f = ['c', 'o', 's'] then some .cos
  else none

/-- The word `math`. -/
def mathWord : Text := ['m', 'a', 't', 'h']

/-- Nonterminals of the grammar: `sum`, `term`, `factor`, `power`, `primary`. -/
inductive Level where
  | sum | term | factor | power | primary

/-- Python's grammar.  `lit` reads decimal numbers. -/
inductive Parses (lit : Text → Option F) : Level → List Tok → Expr F → Prop
  | add {s t a b} : Parses lit .sum s a → Parses lit .term t b →
      Parses lit .sum (s ++ .plus :: t) (.add a b)
  | sub {s t a b} : Parses lit .sum s a → Parses lit .term t b →
      Parses lit .sum (s ++ .minus :: t) (.sub a b)
  | sum {s a} : Parses lit .term s a → Parses lit .sum s a
  | mul {s t a b} : Parses lit .term s a → Parses lit .factor t b →
      Parses lit .term (s ++ .star :: t) (.mul a b)
  | div {s t a b} : Parses lit .term s a → Parses lit .factor t b →
      Parses lit .term (s ++ .slash :: t) (.div a b)
  | term {s a} : Parses lit .factor s a → Parses lit .term s a
  | neg {s a} : Parses lit .factor s a → Parses lit .factor (.minus :: s) (.neg a)
  | pos {s a} : Parses lit .factor s a → Parses lit .factor (.plus :: s) a
  | factor {s a} : Parses lit .power s a → Parses lit .factor s a
  | pow {s t a b} : Parses lit .primary s a → Parses lit .factor t b →
      Parses lit .power (s ++ .dstar :: t) (.pow a b)
  | power {s a} : Parses lit .primary s a → Parses lit .power s a
  | paren {s a} : Parses lit .sum s a → Parses lit .primary (.lpar :: s ++ [.rpar]) a
  | name {w} : Parses lit .primary [.name w] (.var (String.ofList w))
  | number {w c} : lit w = some c → Parses lit .primary [.number w] (.const c)
  | call {s a f g} : mathFunction f = some g → Parses lit .sum s a →
      Parses lit .primary (.name mathWord :: .dot :: .name f :: .lpar :: s ++ [.rpar]) (g a)

/-- Python reads the text as the expression. -/
def Reads (lit : Text → Option F) (s : Text) (e : Expr F) : Prop :=
  ∃ ts, Lexes s ts ∧ Parses lit .sum ts e

/-- A name that can be used in Python: an identifier, not a reserved word, and not `math`, which is
the module. -/
def PythonName (n : String) : Prop :=
  Identifier n ∧ n.toList ∉ keywords ∧ n.toList ≠ mathWord

/-- The text `num c` of the finite number `c` is decimal, with a minus sign exactly for negative
numbers, and Python reads it as that number. -/
def Decimal (num : XReal → Text) (lit : Text → Option XReal) (c : XReal) : Prop :=
  ∃ x : ℝ, c = .fin x ∧
    ((0 ≤ x ∧ IsNumber (num c) ∧ lit (num c) = some (.fin x)) ∨
     (x < 0 ∧ ∃ w, num c = '-' :: w ∧ IsNumber w ∧ lit w = some (.fin (-x))))

/-- The expression can be given to Python: its names are usable and its literals decimal. -/
def Usable (num : XReal → Text) (lit : Text → Option XReal) (e : Expr XReal) : Prop :=
  (∀ n, Occurs n e → PythonName n) ∧ ∀ c, Sub (.const c) e → Decimal num lit c

open Classical in
/-- A negative literal is a sign and a positive literal. -/
noncomputable def signLit : XReal → Expr XReal
  | .fin x => if x < 0 then .neg (.const (.fin (-x))) else .const (.fin x)
  | c => .const c

/-- A negation or a negative literal: the expressions whose text begins with a sign. -/
def Signed : Expr XReal → Prop
  | .neg _ => True
  | .const (.fin x) => x < 0
  | _ => False

/-- No power in the expression has a base whose text begins with a sign. -/
def UnsignedBases (e : Expr XReal) : Prop := ∀ b x, Sub (.pow b x) e → ¬ Signed b

/-- The expression with every negative literal written as a sign and a positive literal. -/
noncomputable def signLits : Expr XReal → Expr XReal
  | .const c => signLit c
  | .var n => .var n
  | .add l r => .add (signLits l) (signLits r)
  | .sub l r => .sub (signLits l) (signLits r)
  | .mul l r => .mul (signLits l) (signLits r)
  | .div l r => .div (signLits l) (signLits r)
  | .pow l r => .pow (signLits l) (signLits r)
  | .ln e => .ln (signLits e)
  | .exp e => .exp (signLits e)
  | .sqrt e => .sqrt (signLits e)
  | .sin e => .sin (signLits e)
  | .cos e => .cos (signLits e)
  | .neg e => .neg (signLits e)

/-- A power, with a sign in front of the base moved in front of the power. -/
def powSign (b x : Expr XReal) : Expr XReal :=
  match b with
  | .neg b' => .neg (.pow b' x)
  | b => .pow b x

/-- What Python reads: in addition the sign of a base is moved in front of the power. -/
noncomputable def asRead : Expr XReal → Expr XReal
  | .const c => signLit c
  | .var n => .var n
  | .add l r => .add (asRead l) (asRead r)
  | .sub l r => .sub (asRead l) (asRead r)
  | .mul l r => .mul (asRead l) (asRead r)
  | .div l r => .div (asRead l) (asRead r)
  | .pow l r => match l with
    | .neg b => .neg (.pow (asRead b) (asRead r))
    | .const c => powSign (signLit c) (asRead r)
    | l => .pow (asRead l) (asRead r)
  | .ln e => .ln (asRead e)
  | .exp e => .exp (asRead e)
  | .sqrt e => .sqrt (asRead e)
  | .sin e => .sin (asRead e)
  | .cos e => .cos (asRead e)
  | .neg e => .neg (asRead e)

end Verif.Spec.Python
