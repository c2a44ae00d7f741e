import Verif.Num.XReal

/-! # Parameter constraints in words of the documentation -/

namespace Verif.Spec
open XReal

/-- a positive number (`+∞` is one; NaN is not) -/
def Pos (x : XReal) : Prop := x = pinf ∨ ∃ a : ℝ, 0 < a ∧ x = fin a
/-- a number in `[0, 1]` -/
def InUnit (x : XReal) : Prop := ∃ a : ℝ, 0 ≤ a ∧ a ≤ 1 ∧ x = fin a
/-- a number in `(0, 1]` -/
def InUnitPos (x : XReal) : Prop := ∃ a : ℝ, 0 < a ∧ a ≤ 1 ∧ x = fin a
/-- a number in `(0, 1)` -/
def InUnitOpen (x : XReal) : Prop := ∃ a : ℝ, 0 < a ∧ a < 1 ∧ x = fin a

/-- a probability vector up to the documented tolerance -/
def ProbVec (ps : List XReal) : Prop :=
  ∃ rs : List ℝ, ps = rs.map fin ∧ rs ≠ [] ∧ (∀ r ∈ rs, 0 ≤ r) ∧ |rs.sum - 1| < 1 / 10 ^ 10

end Verif.Spec
