import Verif.Model.Macro

/-!
# How a formula written with Rust tokens is read

The usual precedence of mathematics: sums and differences, then products and quotients, both
grouping from the left; then a sign; then powers, whose exponent may itself carry a sign or be a
power; a function name in front of parentheses applies the function.  Nothing here mentions the arms
of the macro.
-/

namespace Verif.Spec.Notation

variable {F : Type}

/-- Levels of the grammar, from the loosest to the tightest. -/
inductive Level where
  | sum | term | factor | power | primary

/-- The functions of the notation. -/
inductive IsFunction : String → (Expr F → Expr F) → Prop
  | ln : IsFunction "ln" .ln
  | exp : IsFunction "exp" .exp
  | sqrt : IsFunction "sqrt" .sqrt
  | sin : IsFunction "sin" .sin
  | cos : IsFunction "cos" .cos

/-- The grammar. -/
inductive Parses : Level → List (TokenTree F) → Expr F → Prop
  | add {s t a b} : Parses .sum s a → Parses .term t b →
      Parses .sum (s ++ .punct .plus :: t) (.add a b)
  | sub {s t a b} : Parses .sum s a → Parses .term t b →
      Parses .sum (s ++ .punct .minus :: t) (.sub a b)
  | sum {s a} : Parses .term s a → Parses .sum s a
  | mul {s t a b} : Parses .term s a → Parses .factor t b →
      Parses .term (s ++ .punct .star :: t) (.mul a b)
  | div {s t a b} : Parses .term s a → Parses .factor t b →
      Parses .term (s ++ .punct .slash :: t) (.div a b)
  | term {s a} : Parses .factor s a → Parses .term s a
  | neg {s a} : Parses .factor s a → Parses .factor (.punct .minus :: s) (.neg a)
  | factor {s a} : Parses .power s a → Parses .factor s a
  | pow {s t a b} : Parses .primary s a → Parses .factor t b →
      Parses .power (s ++ .punct .caret :: t) (.pow a b)
  | power {s a} : Parses .primary s a → Parses .power s a
  | ident {n} : Parses .primary [.ident n] (.var n)
  | number {c} : Parses .primary [.lit c] (.const c)
  | paren {s a} : Parses .sum s a → Parses .primary [.group s] a
  | call {s a n f} : IsFunction n f → Parses .sum s a →
      Parses .primary [.ident n, .group s] (f a)

/-- The tokens are read as the expression. -/
abbrev Reads (ts : List (TokenTree F)) (e : Expr F) : Prop := Parses .sum ts e

/-- A name or a number, possibly in parentheses. -/
inductive Atom : TokenTree F → Prop
  | ident {n} : Atom (.ident n)
  | number {c} : Atom (.lit c)
  | paren {t} : Atom t → Atom (.group [t])

/-- At most one operation, applied to names and numbers. -/
inductive OneOperation : List (TokenTree F) → Prop
  | atom {t} : Atom t → OneOperation [t]
  | neg {t} : Atom t → OneOperation [.punct .minus, t]
  | binary {l p r} : Atom l → Atom r → OneOperation [l, .punct p, r]
  | call {n f t} : IsFunction n (F := F) f → Atom t → OneOperation [.ident n, .group [t]]

end Verif.Spec.Notation
