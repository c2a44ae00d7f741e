import Verif.Num.FloatOps

/-!
# Bit-level operations on floats used by generated code

No laws are assumed here; `Verif.Spec.Jit` states what it means for an instance to be faithful to
IEEE-754 binary64.
-/

namespace Verif

/-- The conversions between `f64` and integers that the generated code uses (Cranelift `bitcast`,
`fcvt_from_sint`, `fcvt_to_sint`). -/
class FloatBits (F : Type) where
  /-- `bitcast.i64` -/
  toBits : F → BitVec 64
  /-- `bitcast.f64` -/
  ofBits : BitVec 64 → F
  /-- `fcvt_from_sint.f64` of an `i64` -/
  ofInt64 : BitVec 64 → F
  /-- `fcvt_to_sint.i32`; `none` when the instruction traps (NaN, infinities, out of range) -/
  toInt32 : F → Option (BitVec 32)

end Verif
