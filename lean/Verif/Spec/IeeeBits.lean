import Verif.Num.XReal
import Verif.Num.FloatBits

/-!
# IEEE-754 binary64 bit patterns

`decode` is the value of a bit pattern; `Faithful` says that the conversions used by generated code
agree with it.  Arithmetic itself is exact in this reading.
-/

namespace Verif.Spec.Ieee
open XReal

/-- The sign bit. -/
def signBit (b : BitVec 64) : Bool := decide (2 ^ 63 ≤ b.toNat)

/-- The exponent field: bits 52 to 62. -/
def exponentField (b : BitVec 64) : ℕ := b.toNat / 2 ^ 52 % 2 ^ 11

/-- The fraction field: bits 0 to 51. -/
def fractionField (b : BitVec 64) : ℕ := b.toNat % 2 ^ 52

/-- The value of a bit pattern. -/
noncomputable def decode (b : BitVec 64) : XReal :=
  let s : ℝ := if signBit b then -1 else 1
  if exponentField b = 2047 then
    if fractionField b = 0 then (if signBit b then ninf else pinf) else nan
  else if exponentField b = 0 then fin (s * (fractionField b * 2 ^ (-1074 : ℤ)))
  else fin (s * ((2 ^ 52 + fractionField b) * 2 ^ ((exponentField b : ℤ) - 1075)))

/-- A finite double. -/
def IsDouble (a : ℝ) : Prop := ∃ b, decode b = fin a

/-- The conversions used by generated code mean what IEEE-754 and Cranelift say they mean:
`bitcast` from bits is `decode`; `bitcast` to bits gives a pattern of the number, if it is a double,
and otherwise (exact arithmetic may produce other reals) a pattern of a double within half a unit in
the last place; conversions with integers are exact or trap. -/
structure Faithful (B : FloatBits XReal) : Prop where
  ofBits : ∀ b, B.ofBits b = decode b
  toBits_double : ∀ a, IsDouble a → decode (B.toBits (fin a)) = fin a
  toBits_near : ∀ a, 2 ^ (-1022 : ℤ) ≤ |a| → |a| ≤ 2 ^ (1023 : ℤ) →
    ∃ a', decode (B.toBits (fin a)) = fin a' ∧ |a' - a| ≤ 2 ^ (-53 : ℤ) * |a|
  ofInt64 : ∀ b : BitVec 64, |b.toInt| ≤ 2 ^ 53 → B.ofInt64 b = fin b.toInt
  toInt32 : ∀ n : ℤ, B.toInt32 (fin n) =
    if -2 ^ 31 ≤ n ∧ n < 2 ^ 31 then some (BitVec.ofInt 32 n) else none
  toInt32_nan : B.toInt32 nan = none
  toInt32_pinf : B.toInt32 pinf = none
  toInt32_ninf : B.toInt32 ninf = none

end Verif.Spec.Ieee
