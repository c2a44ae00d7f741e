import Verif.Spec.Symbolic
import Verif.Model.Printing

/-! What is assumed of printed numbers and names. -/

namespace Verif.Spec

/-- What the standard library guarantees about `format!("{value}")` of an `f64`: distinct numbers
have distinct texts (NaN counts as one number), and a text is `inf`, `-inf`, `NaN` or a nonempty
string of digits, signs and points (there is no exponent form). -/
structure RustDisplay {F : Type} (num : F → List Char) : Prop where
  injective : ∀ a b, num a = num b → a = b
  shape : ∀ a, num a = ['i', 'n', 'f'] ∨ num a = ['-', 'i', 'n', 'f'] ∨ num a = ['N', 'a', 'N'] ∨
    (num a ≠ [] ∧ ∀ c ∈ num a, c.isDigit = true ∨ c = '-' ∨ c = '.')

/-- Identifiers: a letter or underscore followed by letters, digits and underscores. -/
def Identifier (n : String) : Prop :=
  ∃ c cs, n.toList = c :: cs ∧ (c.isAlpha = true ∨ c = '_') ∧
    ∀ d ∈ cs, d.isAlphanum = true ∨ d = '_'

/-- All names in the expression are identifiers other than `inf` and `NaN`. -/
def WellNamed {F : Type} (e : Expr F) : Prop :=
  ∀ n, Occurs n e → Identifier n ∧ n ≠ "inf" ∧ n ≠ "NaN"

end Verif.Spec
