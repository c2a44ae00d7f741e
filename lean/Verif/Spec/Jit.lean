import Verif.Model.Jit

/-!
# What JIT-compiled code is expected to compute

`value` gives the function that the compiled machine code should compute, with the inline
approximations of `ln`, `exp`, `sin`, `cos` written as formulas, independently of the instruction
stream.
-/

namespace Verif.Spec.Jit
open FloatOps Verif.Jit

section
variable {F : Type} [FloatOps F]

/-- The rational function that approximates `ln` on [1, 2]. -/
def lnRational (m : F) : F :=
  let m2 := m *. m
  let m3 := m2 *. m
  let m4 := m2 *. m2
  (ofRat (-3.757488530222454) +. ofRat (-11.05491670172403) *. m +. ofRat 11.288438153376154 *. m2
    +. ofRat 4.139561514484466 *. m3 +. ofRat (-0.722936179175468) *. m4
    +. ofRat 0.12040216214642954 *. (m4 *. m) +. ofRat (-0.013833868987268428) *. (m4 *. m2)
    +. ofRat 0.0007734501810761601 *. (m4 *. m3)) /.
  (ofRat 1 +. ofRat 9.97772102587755 *. m +. ofRat 10.595600174718957 *. m2)

/-- The rational function that approximates `exp` on [0, ln 2]. -/
def expRational (r : F) : F :=
  let r2 := r *. r
  let r3 := r2 *. r
  let r4 := r3 *. r
  (ofRat 0.9999999999972777 +. ofRat 0.726006320449981 *. r +. ofRat 0.24755708160005133 *. r2
    +. ofRat 0.05122075349435326 *. r3 +. ofRat 0.006775629189039916 *. r4
    +. ofRat 0.0005110519523480795 *. (r4 *. r)) /.
  (ofRat 1 +. ofRat (-0.2739936800272977) *. r +. ofRat 0.021550775407834573 *. r2)

/-- Truncated sine series. -/
def jitSin (x : F) : F :=
  let x2 := x *. x
  let x3 := x2 *. x
  x +. x3 *. ofRat (-0.16666666667) +. (x3 *. x2) *. ofRat 0.00833333333

/-- Truncated cosine series. -/
def jitCos (x : F) : F :=
  let x2 := x *. x
  one +. x2 *. ofRat (-0.5) +. (x2 *. x2) *. ofRat 0.04166666667

variable [FloatBits F]

/-- The unbiased exponent field of a float, as a float. -/
def exponentOf (x : F) : F :=
  FloatBits.ofInt64 (((FloatBits.toBits x &&& 0x7FF0000000000000#64) >>> 52) - 1023#64)

/-- The float with the mantissa field of `x` and exponent 0. -/
def mantissaOf (x : F) : F :=
  FloatBits.ofBits ((FloatBits.toBits x &&& 0x000FFFFFFFFFFFFF#64) ||| 0x3FF0000000000000#64)

/-- The inline logarithm. -/
def jitLn (x : F) : F :=
  if x ==. one then zero else exponentOf x *. ln2 +. lnRational (mantissaOf x)

/-- Multiply by `2^k` by adding `k` to the exponent field. -/
def scaleBits (y : F) (k : BitVec 32) : F :=
  FloatBits.ofBits (FloatBits.toBits y + (k.signExtend 64 <<< 52))

/-- The number of halvings in the inline exponential. -/
def expIndex (x : F) : F := FloatOps.floor (x *. (one /. ln2))

/-- The inline exponential; `none` when the conversion of the exponent to an integer traps. -/
def jitExp (x : F) : Option F :=
  let kf := expIndex x
  let y := expRational (x -. kf *. ln2)
  match FloatBits.toInt32 kf with
  | none => none
  | some k =>
    some (if k = -1#32 then y *. ofRat (1/2)
      else if k = 1#32 then y *. ofRat 2
      else if k = 0#32 then y
      else scaleBits y k)

/-- The value of a power with a literal exponent. -/
def powSpecialValue (b : F) : PowSpecial → F
  | .square => b *. b
  | .cube => b *. b *. b
  | .fourth => (b *. b) *. (b *. b)
  | .root => FloatOps.sqrt b
  | .self => b
  | .one => ofRat 1

/-- The value of the compiled expression where variables have the values `σ`; `none` if the
execution traps or a variable has no value. -/
def value (σ : String → Option F) : Expr F → Option F
  | .const c => some c
  | .var n => σ n
  | .add l r => do return (← value σ l) +. (← value σ r)
  | .sub l r => do return (← value σ l) -. (← value σ r)
  | .mul l r => do return (← value σ l) *. (← value σ r)
  | .div l r => do return (← value σ l) /. (← value σ r)
  | .pow l r =>
    match exprPowSpecial r with
    | some s => do return powSpecialValue (← value σ l) s
    | none => do
      let b ← value σ l
      let e ← value σ r
      jitExp (e *. jitLn b)
  | .ln e => do return jitLn (← value σ e)
  | .exp e => do jitExp (← value σ e)
  | .sqrt e => do return FloatOps.sqrt (← value σ e)
  | .sin e => do return jitSin (← value σ e)
  | .cos e => do return jitCos (← value σ e)
  | .neg e => do return FloatOps.neg (← value σ e)

/-- The same for a recorded computation. -/
def reprValue (σ : String → Option F) : JitRepr F → Option F
  | .constant c => some c
  | .named n => σ n
  | .add l r => do return (← reprValue σ l) +. (← reprValue σ r)
  | .sub l r => do return (← reprValue σ l) -. (← reprValue σ r)
  | .mul l r => do return (← reprValue σ l) *. (← reprValue σ r)
  | .div l r => do return (← reprValue σ l) /. (← reprValue σ r)
  | .pow l r =>
    match reprPowSpecial r with
    | some s => do return powSpecialValue (← reprValue σ l) s
    | none => do
      let b ← reprValue σ l
      let e ← reprValue σ r
      jitExp (e *. jitLn b)
  | .ln e => do return jitLn (← reprValue σ e)
  | .exp e => do jitExp (← reprValue σ e)
  | .sqrt e => do return FloatOps.sqrt (← reprValue σ e)
  | .sin e => do return jitSin (← reprValue σ e)
  | .cos e => do return jitCos (← reprValue σ e)
  | .neg e => do return FloatOps.neg (← reprValue σ e)

/-- Result of running a compiled function on floats. -/
inductive Result (F : Type) where
  | value (x : F)
  | trap
  | undefined

/-- Run a compiled function on as many floats as it has parameters. -/
def run (f : Compiled F) (args : List F) : Result F :=
  match exec (args.map Val.f64) f.code with
  | .ok ρ =>
    match getF ρ f.ret with
    | some x => .value x
    | none => .undefined
  | .trap => .trap
  | .stuck => .undefined

/-- A value or a trap. -/
def Result.ofOption : Option F → Result F
  | some x => .value x
  | none => .trap

end

/-- The position-wise reading of the argument list: the value of the *last* listed name equal to
`n`. -/
def lookupArgs {F : Type} : List String → List F → String → Option F
  | m :: ms, x :: xs, n =>
    match lookupArgs ms xs n with
    | some y => some y
    | none => if m = n then some x else none
  | _, _, _ => none

end Verif.Spec.Jit
