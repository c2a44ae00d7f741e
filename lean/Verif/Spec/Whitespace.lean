import Mathlib.Data.List.Basic

/-!
# White space (specification of C145)

The characters with the Unicode property `White_Space`: the ones Rust's `char::is_whitespace` and `str::trim` go by.
-/

namespace Verif

/-- The code points with the property `White_Space`, as listed in the Unicode file `PropList.txt`. -/
def unicodeWhiteSpace : List ℕ :=
  [0x0009, 0x000A, 0x000B, 0x000C, 0x000D, 0x0020, 0x0085, 0x00A0, 0x1680,
   0x2000, 0x2001, 0x2002, 0x2003, 0x2004, 0x2005, 0x2006, 0x2007, 0x2008, 0x2009, 0x200A,
   0x2028, 0x2029, 0x202F, 0x205F, 0x3000]

/-- A text of white space only. -/
def Blank (s : List Char) : Prop := ∀ c ∈ s, c.toNat ∈ unicodeWhiteSpace

end Verif
