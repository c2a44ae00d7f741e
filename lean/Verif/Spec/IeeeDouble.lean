import Verif.Num.Double
import Verif.Num.FloatBits
import Verif.Spec.IeeeBits

/-!
# IEEE-754 binary64 bit patterns with rounded arithmetic

`pattern` is the number a bit pattern stands for, as a value of the rounded arithmetic `Flt f64 L`;
`FaithfulDouble` says that the conversions used by generated code agree with it.
-/

namespace Verif.Spec.Ieee

/-- The number a bit pattern stands for (both zeros are `0`). -/
def pattern (b : BitVec 64) : FVal :=
  let s : ℚ := if signBit b then -1 else 1
  if exponentField b = 2047 then
    if fractionField b = 0 then .inf (signBit b) else .nan
  else if exponentField b = 0 then .fin (s * (fractionField b * 2 ^ (-1074 : ℤ)))
  else .fin (s * ((2 ^ 52 + fractionField b) * 2 ^ ((exponentField b : ℤ) - 1075)))

/-- The conversions used by generated code mean what IEEE-754 and Cranelift say they mean:
`bitcast` from bits is `pattern` and `bitcast` to bits is a pattern of the number; integers up to
`2^53` are converted exactly; the conversion of an integral float to 32 bits is exact or traps. -/
structure FaithfulDouble {L : Libm} (B : FloatBits (Flt Format.f64 L)) : Prop where
  ofBits : ∀ b, B.ofBits b = pattern b
  toBits : ∀ q, Format.f64.Representable q → pattern (B.toBits (Flt.fin q)) = .fin q
  ofInt64 : ∀ b : BitVec 64, |b.toInt| ≤ 2 ^ 53 → B.ofInt64 b = Flt.fin b.toInt
  toInt32 : ∀ n : ℤ, B.toInt32 (Flt.fin n) =
    if -2 ^ 31 ≤ n ∧ n < 2 ^ 31 then some (BitVec.ofInt 32 n) else none
  toInt32_nan : B.toInt32 Flt.nan = none
  toInt32_inf : ∀ s, B.toInt32 (FVal.inf s : Flt Format.f64 L) = none

end Verif.Spec.Ieee
