import Verif.Spec.Python

/-!
# How a mathematical formula written in LaTeX is read

Letters are variables, except `e`, which is Euler's number and is read with an exponent only; a
multiplication sign between a term and a following letter, function or bracket may be left out; an
exponent belongs to the single symbol, number, bracket, root, fraction or function value in front of
it, and a second exponent on the same base is an error ("double superscript"); a sign binds looser
than an exponent; sums and products group from the left.  Nothing here mentions the printer of the
code.
-/

namespace Verif.Spec.Latex

open Python (Text IsNumber Ends Decimal)

inductive Tok where
  | letter (c : Char)
  | number (w : Text)
  | command (w : Text)
  | lpar | rpar | lbrace | rbrace | caret | plus | minus

/-- Characters that continue a number. -/
def numberChar (c : Char) : Bool := c.isDigit || c == '.'

/-- Splitting a text into tokens: a command is a backslash and as many letters as follow, a number
is as long as possible, any other letter stands for itself. -/
inductive Lexes : Text → List Tok → Prop
  | nil : Lexes [] []
  | space {s ts} : Lexes s ts → Lexes (' ' :: s) ts
  | lpar {s ts} : Lexes s ts → Lexes ('(' :: s) (.lpar :: ts)
  | rpar {s ts} : Lexes s ts → Lexes (')' :: s) (.rpar :: ts)
  | lbrace {s ts} : Lexes s ts → Lexes ('{' :: s) (.lbrace :: ts)
  | rbrace {s ts} : Lexes s ts → Lexes ('}' :: s) (.rbrace :: ts)
  | caret {s ts} : Lexes s ts → Lexes ('^' :: s) (.caret :: ts)
  | plus {s ts} : Lexes s ts → Lexes ('+' :: s) (.plus :: ts)
  | minus {s ts} : Lexes s ts → Lexes ('-' :: s) (.minus :: ts)
  | letter {c s ts} : c.isAlpha = true → Lexes s ts → Lexes (c :: s) (.letter c :: ts)
  | command {w s ts} : w ≠ [] → (∀ c ∈ w, c.isAlpha = true) → Ends Char.isAlpha s → Lexes s ts →
      Lexes ('\\' :: w ++ s) (.command w :: ts)
  | number {w s ts} : IsNumber w → Ends numberChar s → Lexes s ts →
      Lexes (w ++ s) (.number w :: ts)

/-- `\cdot` -/
def cdot : Tok := .command ['c', 'd', 'o', 't']

variable {F : Type}

/-- The functions written with their argument in parentheses. -/
def function (f : Text) : Option (Expr F → Expr F) :=
  if f = ['l', 'n'] then some .ln
  else if f = ['s', 'i', 'n'] then some .sin
  else if f = ['c', 'o', 's'] then some .cos
  else none

/-- Levels of the grammar, from the loosest to the tightest. -/
inductive Level where
  | sum | term | factor | power | primary

/-- The grammar.  `lit` reads decimal numbers. -/
inductive Parses (lit : Text → Option F) : Level → List Tok → Expr F → Prop
  | add {s t a b} : Parses lit .sum s a → Parses lit .term t b →
      Parses lit .sum (s ++ .plus :: t) (.add a b)
  | sub {s t a b} : Parses lit .sum s a → Parses lit .term t b →
      Parses lit .sum (s ++ .minus :: t) (.sub a b)
  | sum {s a} : Parses lit .term s a → Parses lit .sum s a
  | mul {s t a b} : Parses lit .term s a → Parses lit .factor t b →
      Parses lit .term (s ++ cdot :: t) (.mul a b)
  | juxtapose {s t a b} : Parses lit .term s a → Parses lit .power t b →
      (∀ w t', t ≠ .number w :: t') → Parses lit .term (s ++ t) (.mul a b)
  | term {s a} : Parses lit .factor s a → Parses lit .term s a
  | neg {s a} : Parses lit .factor s a → Parses lit .factor (.minus :: s) (.neg a)
  | factor {s a} : Parses lit .power s a → Parses lit .factor s a
  | pow {s t a b} : Parses lit .primary s a → Parses lit .sum t b →
      Parses lit .power (s ++ .caret :: .lbrace :: (t ++ [.rbrace])) (.pow a b)
  | exp {t b} : Parses lit .sum t b →
      Parses lit .power (.letter 'e' :: .caret :: .lbrace :: (t ++ [.rbrace])) (.exp b)
  | power {s a} : Parses lit .primary s a → Parses lit .power s a
  | paren {s a} : Parses lit .sum s a → Parses lit .primary (.lpar :: (s ++ [.rpar])) a
  | letter {c} : c ≠ 'e' → Parses lit .primary [.letter c] (.var (String.ofList [c]))
  | number {w c} : lit w = some c → Parses lit .primary [.number w] (.const c)
  | call {s a f g} : function f = some g → Parses lit .sum s a →
      Parses lit .primary (.command f :: .lpar :: (s ++ [.rpar])) (g a)
  | sqrt {s a} : Parses lit .sum s a →
      Parses lit .primary (.command ['s', 'q', 'r', 't'] :: .lbrace :: (s ++ [.rbrace])) (.sqrt a)
  | frac {s t a b} : Parses lit .sum s a → Parses lit .sum t b →
      Parses lit .primary (.command ['f', 'r', 'a', 'c'] :: .lbrace ::
        (s ++ .rbrace :: .lbrace :: (t ++ [.rbrace]))) (.div a b)

/-- The text is read as the expression. -/
def Reads (lit : Text → Option F) (s : Text) (e : Expr F) : Prop :=
  ∃ ts, Lexes s ts ∧ Parses lit .sum ts e

/-- A variable of a formula: one letter other than `e`. -/
def Letter (n : String) : Prop := ∃ c : Char, n = String.ofList [c] ∧ c.isAlpha = true ∧ c ≠ 'e'

/-- The names are single letters and the literals decimal. -/
def Usable (num : XReal → Text) (lit : Text → Option XReal) (e : Expr XReal) : Prop :=
  (∀ n, Occurs n e → Letter n) ∧ ∀ c, Sub (.const c) e → Decimal num lit c

/-- Sums and differences; `1` times such an expression counts too, because a factor `1` is
customarily not written. -/
inductive SumLike : Expr XReal → Prop
  | add {l r} : SumLike (.add l r)
  | sub {l r} : SumLike (.sub l r)
  | one {r} : SumLike r → SumLike (.mul (.const (.fin 1)) r)

/-- What can carry an exponent without brackets; a factor `1` is again not written. -/
inductive Atomic : Expr XReal → Prop
  | var {n} : Atomic (.var n)
  | const {x : ℝ} : 0 ≤ x → Atomic (.const (.fin x))
  | div {l r} : Atomic (.div l r)
  | ln {e} : Atomic (.ln e)
  | sqrt {e} : Atomic (.sqrt e)
  | sin {e} : Atomic (.sin e)
  | cos {e} : Atomic (.cos e)
  | one {r} : Atomic r → Atomic (.mul (.const (.fin 1)) r)

/-- No part of the expression needs brackets: no sum is subtracted, none is a factor of a product
(a factor `1` aside), and every base of a power is atomic. -/
def BracketFree (e : Expr XReal) : Prop :=
  (∀ l r, Sub (.sub l r) e → ¬ SumLike r) ∧
  (∀ l r, Sub (.mul l r) e → l = .const (.fin 1) ∨ (¬ SumLike l ∧ ¬ SumLike r)) ∧
  ∀ b x, Sub (.pow b x) e → Atomic b

end Verif.Spec.Latex
