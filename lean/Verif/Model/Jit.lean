import Verif.Num.FloatBits
import Verif.Model.Symbolic
import Verif.Model.Tagless

/-!
# Model of the JIT compiler, `symbolic-math/src/jit.rs`

The Cranelift `FunctionBuilder` becomes a builder that appends instructions to straight-line SSA
code; the k-th value of a function is its k-th parameter or the result of an instruction.  The code
emitted by `/repo` consists of one block without branches, so this is the whole instruction stream.

Not modelled: Cranelift itself (verification, register allocation, machine code emission), which is
assumed to execute the instruction stream with the documented meaning of each instruction; its
failures (`declare_function`, `define_function`, `finalize_definitions`) do not occur here; the
elapsed time and the source text stored in the result.
-/

namespace Verif.Jit
open FloatOps

/-- `JITError`, `symbolic-math/src/jit.rs:35-44` -/
inductive JitError where
  | compilationError (msg : String)
  | unsupportedExpression (msg : String)
  | memoryError (msg : String)
  | moduleError (msg : String)
deriving DecidableEq, Repr

/-- The SSA value number (`cranelift_codegen::ir::Value`). -/
abbrev Reg := ℕ

/-- A runtime value; the result of a comparison is a truth value. -/
inductive Val (F : Type) where
  | f64 (x : F)
  | i64 (b : BitVec 64)
  | i32 (b : BitVec 32)
  | i8 (b : Bool)

/-- The Cranelift instructions used by the code generator. -/
inductive Inst (F : Type) where
  | f64const (c : F)
  | iconst64 (c : BitVec 64)
  | iconst32 (c : BitVec 32)
  | fadd (a b : Reg)
  | fsub (a b : Reg)
  | fmul (a b : Reg)
  | fdiv (a b : Reg)
  | fneg (a : Reg)
  | sqrt (a : Reg)
  | floor (a : Reg)
  | fcmpEq (a b : Reg)
  | icmpEq (a b : Reg)
  | select (c a b : Reg)
  | bitcastI64 (a : Reg)
  | bitcastF64 (a : Reg)
  | band (a b : Reg)
  | bor (a b : Reg)
  | isub (a b : Reg)
  | iadd (a b : Reg)
  | ushrImm (a : Reg) (n : ℕ)
  | ishlImm (a : Reg) (n : ℕ)
  | sextend (a : Reg)
  | fcvtFromSint (a : Reg)
  | fcvtToSint (a : Reg)

/-- Result of executing code: a value, a hardware trap, or no meaning at all (an operand that is not
defined or has the wrong type). -/
inductive Outcome (α : Type) where
  | ok (a : α)
  | trap
  | stuck

section Exec
variable {F : Type}

/-- The float in a register. -/
def getF (ρ : List (Val F)) (r : Reg) : Option F :=
  match ρ[r]? with
  | some (.f64 x) => some x
  | _ => none

/-- The 64-bit integer in a register. -/
def getI64 (ρ : List (Val F)) (r : Reg) : Option (BitVec 64) :=
  match ρ[r]? with
  | some (.i64 x) => some x
  | _ => none

/-- The 32-bit integer in a register. -/
def getI32 (ρ : List (Val F)) (r : Reg) : Option (BitVec 32) :=
  match ρ[r]? with
  | some (.i32 x) => some x
  | _ => none

/-- The comparison result in a register. -/
def getB (ρ : List (Val F)) (r : Reg) : Option Bool :=
  match ρ[r]? with
  | some (.i8 x) => some x
  | _ => none

/-- Execute a one-operand instruction. -/
def un {α : Type} (a : Option α) (f : α → Val F) : Outcome (Val F) :=
  match a with
  | some x => .ok (f x)
  | none => .stuck

/-- Execute a two-operand instruction. -/
def bin {α : Type} (a b : Option α) (f : α → α → Val F) : Outcome (Val F) :=
  match a, b with
  | some x, some y => .ok (f x y)
  | _, _ => .stuck

variable [FloatOps F] [FloatBits F]

/-- Meaning of one instruction (Cranelift 0.120 reference: `fcvt_to_sint` traps on NaN and on values
out of range; integer arithmetic wraps; `ushr` shifts in zeros). -/
def Inst.eval (ρ : List (Val F)) : Inst F → Outcome (Val F)
  | .f64const c => .ok (.f64 c)
  | .iconst64 c => .ok (.i64 c)
  | .iconst32 c => .ok (.i32 c)
  | .fadd a b => bin (getF ρ a) (getF ρ b) fun x y => .f64 (x +. y)
  | .fsub a b => bin (getF ρ a) (getF ρ b) fun x y => .f64 (x -. y)
  | .fmul a b => bin (getF ρ a) (getF ρ b) fun x y => .f64 (x *. y)
  | .fdiv a b => bin (getF ρ a) (getF ρ b) fun x y => .f64 (x /. y)
  | .fneg a => un (getF ρ a) fun x => .f64 (FloatOps.neg x)
  | .sqrt a => un (getF ρ a) fun x => .f64 (FloatOps.sqrt x)
  | .floor a => un (getF ρ a) fun x => .f64 (FloatOps.floor x)
  | .fcmpEq a b => bin (getF ρ a) (getF ρ b) fun x y => .i8 (x ==. y)
  | .icmpEq a b => bin (getI32 ρ a) (getI32 ρ b) fun x y => .i8 (x == y)
  | .select c a b =>
    match getB ρ c, getF ρ a, getF ρ b with
    | some c, some x, some y => .ok (.f64 (if c then x else y))
    | _, _, _ => .stuck
  | .bitcastI64 a => un (getF ρ a) fun x => .i64 (FloatBits.toBits x)
  | .bitcastF64 a => un (getI64 ρ a) fun x => .f64 (FloatBits.ofBits x)
  | .band a b => bin (getI64 ρ a) (getI64 ρ b) fun x y => .i64 (x &&& y)
  | .bor a b => bin (getI64 ρ a) (getI64 ρ b) fun x y => .i64 (x ||| y)
  | .isub a b => bin (getI64 ρ a) (getI64 ρ b) fun x y => .i64 (x - y)
  | .iadd a b => bin (getI64 ρ a) (getI64 ρ b) fun x y => .i64 (x + y)
  | .ushrImm a n => un (getI64 ρ a) fun x => .i64 (x >>> n)
  | .ishlImm a n => un (getI64 ρ a) fun x => .i64 (x <<< n)
  | .sextend a => un (getI32 ρ a) fun x => .i64 (x.signExtend 64)
  | .fcvtFromSint a => un (getI64 ρ a) fun x => .f64 (FloatBits.ofInt64 x)
  | .fcvtToSint a =>
    match getF ρ a with
    | some x =>
      match FloatBits.toInt32 x with
      | some k => .ok (.i32 k)
      | none => .trap
    | none => .stuck

/-- Execute straight-line code; every instruction defines the next register. -/
def exec (ρ : List (Val F)) : List (Inst F) → Outcome (List (Val F))
  | [] => .ok ρ
  | i :: is =>
    match i.eval ρ with
    | .ok v => exec (ρ ++ [v]) is
    | .trap => .trap
    | .stuck => .stuck

end Exec

/-! ### Code generation -/

/-- `FunctionBuilder` after `append_block_params_for_function_params`. -/
structure Builder (F : Type) where
  next : Reg
  code : List (Inst F)

/-- A generator: may fail with a `JITError`, otherwise returns a value and appends code. -/
def Gen (F α : Type) := Builder F → Except JitError (α × Builder F)

namespace Gen
variable {F : Type}

instance : Monad (Gen F) where
  pure a := fun b => .ok (a, b)
  bind g k := fun b =>
    match g b with
    | .ok (a, b') => k a b'
    | .error e => .error e

/-- `Err(e)` with `?` -/
def fail {α : Type} (e : JitError) : Gen F α := fun _ => .error e

/-- `builder.ins().<inst>(…)` -/
def emit (i : Inst F) : Gen F Reg := fun b => .ok (b.next, ⟨b.next + 1, b.code ++ [i]⟩)

end Gen

open Gen

section Generators
variable {F : Type} [FloatOps F]

/-- `generate_accurate_ln_call`, `symbolic-math/src/jit.rs:686-780` -/
def genLn (val : Reg) : Gen F Reg := do
  let rOne ← emit (.f64const one)
  let rZero ← emit (.f64const zero)
  let isOne ← emit (.fcmpEq val rOne)
  let xBits ← emit (.bitcastI64 val)
  let exponentMask ← emit (.iconst64 0x7FF0000000000000#64)
  let exponentBits ← emit (.band xBits exponentMask)
  let exponentShifted ← emit (.ushrImm exponentBits 52)
  let bias ← emit (.iconst64 1023#64)
  let kI64 ← emit (.isub exponentShifted bias)
  let k ← emit (.fcvtFromSint kI64)
  let mantissaMask ← emit (.iconst64 0x000FFFFFFFFFFFFF#64)
  let mantissaBits ← emit (.band xBits mantissaMask)
  let normalizedExp ← emit (.iconst64 0x3FF0000000000000#64)
  let mBits ← emit (.bor mantissaBits normalizedExp)
  let m ← emit (.bitcastF64 mBits)
  let n0 ← emit (.f64const (ofRat (-3.757488530222454)))
  let n1 ← emit (.f64const (ofRat (-11.05491670172403)))
  let n2 ← emit (.f64const (ofRat 11.288438153376154))
  let n3 ← emit (.f64const (ofRat 4.139561514484466))
  let n4 ← emit (.f64const (ofRat (-0.722936179175468)))
  let n5 ← emit (.f64const (ofRat 0.12040216214642954))
  let n6 ← emit (.f64const (ofRat (-0.013833868987268428)))
  let n7 ← emit (.f64const (ofRat 0.0007734501810761601))
  let d0 ← emit (.f64const (ofRat 1))
  let d1 ← emit (.f64const (ofRat 9.97772102587755))
  let d2 ← emit (.f64const (ofRat 10.595600174718957))
  let m2 ← emit (.fmul m m)
  let m3 ← emit (.fmul m2 m)
  let m4 ← emit (.fmul m2 m2)
  let m5 ← emit (.fmul m4 m)
  let m6 ← emit (.fmul m4 m2)
  let m7 ← emit (.fmul m4 m3)
  let t1 ← emit (.fmul n1 m)
  let t2 ← emit (.fmul n2 m2)
  let t3 ← emit (.fmul n3 m3)
  let t4 ← emit (.fmul n4 m4)
  let t5 ← emit (.fmul n5 m5)
  let t6 ← emit (.fmul n6 m6)
  let t7 ← emit (.fmul n7 m7)
  let p1 ← emit (.fadd n0 t1)
  let p2 ← emit (.fadd p1 t2)
  let p3 ← emit (.fadd p2 t3)
  let p4 ← emit (.fadd p3 t4)
  let p5 ← emit (.fadd p4 t5)
  let p6 ← emit (.fadd p5 t6)
  let numerator ← emit (.fadd p6 t7)
  let dt1 ← emit (.fmul d1 m)
  let dt2 ← emit (.fmul d2 m2)
  let dp1 ← emit (.fadd d0 dt1)
  let denominator ← emit (.fadd dp1 dt2)
  let lnM ← emit (.fdiv numerator denominator)
  let ln2r ← emit (.f64const ln2)
  let kLn2 ← emit (.fmul k ln2r)
  let lnX ← emit (.fadd kLn2 lnM)
  emit (.select isOne rZero lnX)

/-- `generate_exp_call`, `jit.rs:785-902` -/
def genExp (val : Reg) : Gen F Reg := do
  let ln2r ← emit (.f64const ln2)
  let ln2Inv ← emit (.f64const (one /. ln2))
  let xOverLn2 ← emit (.fmul val ln2Inv)
  let kFloat ← emit (.floor xOverLn2)
  let kLn2 ← emit (.fmul kFloat ln2r)
  let r ← emit (.fsub val kLn2)
  let n0 ← emit (.f64const (ofRat 0.9999999999972777))
  let n1 ← emit (.f64const (ofRat 0.726006320449981))
  let n2 ← emit (.f64const (ofRat 0.24755708160005133))
  let n3 ← emit (.f64const (ofRat 0.05122075349435326))
  let n4 ← emit (.f64const (ofRat 0.006775629189039916))
  let n5 ← emit (.f64const (ofRat 0.0005110519523480795))
  let d0 ← emit (.f64const (ofRat 1))
  let d1 ← emit (.f64const (ofRat (-0.2739936800272977)))
  let d2 ← emit (.f64const (ofRat 0.021550775407834573))
  let r2 ← emit (.fmul r r)
  let r3 ← emit (.fmul r2 r)
  let r4 ← emit (.fmul r3 r)
  let r5 ← emit (.fmul r4 r)
  let t1 ← emit (.fmul n1 r)
  let t2 ← emit (.fmul n2 r2)
  let t3 ← emit (.fmul n3 r3)
  let t4 ← emit (.fmul n4 r4)
  let t5 ← emit (.fmul n5 r5)
  let p1 ← emit (.fadd n0 t1)
  let p2 ← emit (.fadd p1 t2)
  let p3 ← emit (.fadd p2 t3)
  let p4 ← emit (.fadd p3 t4)
  let numerator ← emit (.fadd p4 t5)
  let dt1 ← emit (.fmul d1 r)
  let dt2 ← emit (.fmul d2 r2)
  let dp1 ← emit (.fadd d0 dt1)
  let denominator ← emit (.fadd dp1 dt2)
  let expR ← emit (.fdiv numerator denominator)
  let kInt ← emit (.fcvtToSint kFloat)
  let rZero ← emit (.iconst32 0#32)
  let oneI32 ← emit (.iconst32 1#32)
  let negOneI32 ← emit (.iconst32 (-1#32))
  let two ← emit (.f64const (ofRat 2))
  let half ← emit (.f64const (ofRat (1/2)))
  let isKZero ← emit (.icmpEq kInt rZero)
  let isKOne ← emit (.icmpEq kInt oneI32)
  let resultKOne ← emit (.fmul expR two)
  let isKNegOne ← emit (.icmpEq kInt negOneI32)
  let resultKNegOne ← emit (.fmul expR half)
  let expRBits ← emit (.bitcastI64 expR)
  let k64 ← emit (.sextend kInt)
  let exponentShift ← emit (.ishlImm k64 52)
  let resultBits ← emit (.iadd expRBits exponentShift)
  let resultGeneral ← emit (.bitcastF64 resultBits)
  let tempResult ← emit (.select isKZero expR resultGeneral)
  let tempResult2 ← emit (.select isKOne resultKOne tempResult)
  emit (.select isKNegOne resultKNegOne tempResult2)

/-- `generate_sin_call`, `jit.rs:906-925` -/
def genSin (val : Reg) : Gen F Reg := do
  let x2 ← emit (.fmul val val)
  let x3 ← emit (.fmul x2 val)
  let x5 ← emit (.fmul x3 x2)
  let coeff2 ← emit (.f64const (ofRat (-0.16666666667)))
  let coeff3 ← emit (.f64const (ofRat 0.00833333333))
  let term2 ← emit (.fmul x3 coeff2)
  let term3 ← emit (.fmul x5 coeff3)
  let sum1 ← emit (.fadd val term2)
  emit (.fadd sum1 term3)

/-- `generate_cos_call`, `jit.rs:929-948` -/
def genCos (val : Reg) : Gen F Reg := do
  let rOne ← emit (.f64const one)
  let x2 ← emit (.fmul val val)
  let x4 ← emit (.fmul x2 x2)
  let coeff2 ← emit (.f64const (ofRat (-0.5)))
  let coeff3 ← emit (.f64const (ofRat 0.04166666667))
  let term2 ← emit (.fmul x2 coeff2)
  let term3 ← emit (.fmul x4 coeff3)
  let sum1 ← emit (.fadd rOne term2)
  emit (.fadd sum1 term3)

omit [FloatOps F] in
/-- `generate_sqrt_call`, `jit.rs:952-956` -/
def genSqrt (val : Reg) : Gen F Reg := emit (.sqrt val)

/-- `generate_pow_call`, `jit.rs:672-681` -/
def genPow (base exponent : Reg) : Gen F Reg := do
  let lnBase ← genLn base
  let product ← emit (.fmul exponent lnBase)
  genExp product

/-- The literal exponents with their own code, `jit.rs:623-649`. -/
inductive PowSpecial where
  | square | cube | fourth | root | self | one
deriving DecidableEq, Repr

/-- The `match exp.as_ref()` on literal exponents; a float pattern matches by `==`. -/
def powSpecial (c : F) : Option PowSpecial :=
  if c ==. ofRat 2 then some .square
  else if c ==. ofRat 3 then some .cube
  else if c ==. ofRat 4 then some .fourth
  else if c ==. ofRat (1/2) then some .root
  else if c ==. ofRat 1 then some .self
  else if c ==. ofRat 0 then some .one
  else none

/-- The code for the special exponents, `jit.rs:624-648`. -/
def genPowSpecial (base : Reg) : PowSpecial → Gen F Reg
  | .square => emit (.fmul base base)
  | .cube => do
    let sq ← emit (.fmul base base)
    emit (.fmul sq base)
  | .fourth => do
    let sq ← emit (.fmul base base)
    emit (.fmul sq sq)
  | .root => emit (.sqrt base)
  | .self => pure base
  | .one => emit (.f64const (ofRat 1))

/-- The special exponent of a power expression, if its exponent is such a literal. -/
def exprPowSpecial : Expr F → Option PowSpecial
  | .const c => powSpecial c
  | _ => none

/-- `generate_clif_from_expr_with_vars`, `jit.rs:565-668` -/
def genExpr (varMap : FMap String Reg) (constants : FMap String F) : Expr F → Gen F Reg
  | .const c => emit (.f64const c)
  | .var name =>
    match varMap.get name with
    | some r => pure r
    | none =>
      match constants.get name with
      | some c => emit (.f64const c)
      | none => fail (.unsupportedExpression ("Unknown variable: " ++ name))
  | .add l r => do
    let a ← genExpr varMap constants l
    let b ← genExpr varMap constants r
    emit (.fadd a b)
  | .sub l r => do
    let a ← genExpr varMap constants l
    let b ← genExpr varMap constants r
    emit (.fsub a b)
  | .mul l r => do
    let a ← genExpr varMap constants l
    let b ← genExpr varMap constants r
    emit (.fmul a b)
  | .div l r => do
    let a ← genExpr varMap constants l
    let b ← genExpr varMap constants r
    emit (.fdiv a b)
  | .ln e => do
    let a ← genExpr varMap constants e
    genLn a
  | .exp e => do
    let a ← genExpr varMap constants e
    genExp a
  | .pow l r => do
    let a ← genExpr varMap constants l
    match exprPowSpecial r with
    | some s => genPowSpecial a s
    | none => do
      let b ← genExpr varMap constants r
      genPow a b
  | .sqrt e => do
    let a ← genExpr varMap constants e
    genSqrt a
  | .sin e => do
    let a ← genExpr varMap constants e
    genSin a
  | .cos e => do
    let a ← genExpr varMap constants e
    genCos a
  | .neg e => do
    let a ← genExpr varMap constants e
    emit (.fneg a)

/-- The special exponent of a recorded power, `symbolic-math/src/final_tagless.rs:847-876`. -/
def reprPowSpecial : JitRepr F → Option PowSpecial
  | .constant c => powSpecial c
  | _ => none

/-- `JITRepr::generate_ir`, `symbolic-math/src/final_tagless.rs:806-905` -/
def generateIr (varMap : FMap String Reg) : JitRepr F → Gen F Reg
  | .constant c => emit (.f64const c)
  | .named name =>
    match varMap.get name with
    | some r => pure r
    | none => fail (.compilationError ("Unknown variable: " ++ name))
  | .add l r => do
    let a ← generateIr varMap l
    let b ← generateIr varMap r
    emit (.fadd a b)
  | .sub l r => do
    let a ← generateIr varMap l
    let b ← generateIr varMap r
    emit (.fsub a b)
  | .mul l r => do
    let a ← generateIr varMap l
    let b ← generateIr varMap r
    emit (.fmul a b)
  | .div l r => do
    let a ← generateIr varMap l
    let b ← generateIr varMap r
    emit (.fdiv a b)
  | .pow l r => do
    let a ← generateIr varMap l
    match reprPowSpecial r with
    | some s => genPowSpecial a s
    | none => do
      let b ← generateIr varMap r
      genPow a b
  | .neg e => do
    let a ← generateIr varMap e
    emit (.fneg a)
  | .ln e => do
    let a ← generateIr varMap e
    genLn a
  | .exp e => do
    let a ← generateIr varMap e
    genExp a
  | .sqrt e => do
    let a ← generateIr varMap e
    emit (.sqrt a)
  | .sin e => do
    let a ← generateIr varMap e
    genSin a
  | .cos e => do
    let a ← generateIr varMap e
    genCos a

end Generators

/-! ### Compilation -/

/-- `JITSignature`, `jit.rs:74-97`; the `Custom` variant is never built. -/
inductive JitSignature where
  | singleInput
  | dataAndParameter
  | dataAndParameters (n : ℕ)
  | multipleDataAndParameters (dataDims paramDims : ℕ)
deriving DecidableEq, Repr

/-- `CompilationStats`, `jit.rs:216-228`, without the elapsed time. -/
structure CompilationStats (F : Type) where
  codeSizeBytes : ℕ
  clifInstructions : ℕ
  embeddedConstants : ℕ
  estimatedSpeedup : F

/-- `GeneralJITFunction`, `jit.rs:59-73`: the machine function (number of `f64` parameters, code and
returned register) stands for the code pointer. -/
structure Compiled (F : Type) where
  params : ℕ
  code : List (Inst F)
  ret : Reg
  signature : JitSignature
  stats : CompilationStats F

section Compile
variable {F : Type} [FloatOps F]

/-- The loops mapping variable names to block parameters, `jit.rs:297-304`: data variable `i` is
parameter `i`, parameter variable `i` is parameter `data_vars.len() + i`; a later insertion of the
same name wins. -/
def bindParams (m : FMap String Reg) (first : Reg) : List String → FMap String Reg
  | [] => m
  | n :: ns => bindParams (m.insert n first) (first + 1) ns

/-- The variable map built by `compile_expression`, `jit.rs:294-304`. -/
def varMapOf (dataVars paramVars : List String) : FMap String Reg :=
  bindParams (bindParams FMap.empty 0 dataVars) dataVars.length paramVars

/-- The signature chosen from the variable counts, `jit.rs:336-347` and `531-542`. -/
def signatureOf (dataVars paramVars : List String) : JitSignature :=
  if dataVars.length == 1 && paramVars.isEmpty then .singleInput
  else if dataVars.length == 1 && paramVars.length == 1 then .dataAndParameter
  else if dataVars.length == 1 && decide (1 < paramVars.length) then
    .dataAndParameters paramVars.length
  else .multipleDataAndParameters dataVars.length paramVars.length

/-- `estimate_expr_instructions`, `jit.rs:1045-1065` -/
def estimateExprInstructions : Expr F → ℕ
  | .const _ => 1
  | .var _ => 0
  | .add l r => 1 + estimateExprInstructions l + estimateExprInstructions r
  | .sub l r => 1 + estimateExprInstructions l + estimateExprInstructions r
  | .mul l r => 1 + estimateExprInstructions l + estimateExprInstructions r
  | .div l r => 1 + estimateExprInstructions l + estimateExprInstructions r
  | .pow l r => 1 + estimateExprInstructions l + estimateExprInstructions r
  | .ln e => 3 + estimateExprInstructions e
  | .exp e => 3 + estimateExprInstructions e
  | .sqrt e => 3 + estimateExprInstructions e
  | .sin e => 3 + estimateExprInstructions e
  | .cos e => 3 + estimateExprInstructions e
  | .neg e => 3 + estimateExprInstructions e

/-- `estimate_clif_instructions`, `jit.rs:1037-1041` -/
def estimateClifInstructions (e : Expr F) (dataVars paramVars : ℕ) : ℕ :=
  (dataVars + paramVars + 2) + estimateExprInstructions e

/-- `f64::min` with a literal, as used by `estimate_speedup` (NaN does not occur there). -/
def minF (a b : F) : F := if a <. b then a else b

/-- `estimate_speedup`, `jit.rs:1069-1075` -/
def estimateSpeedup (complexity : ℕ) : F :=
  minF (ofRat 15 +. FloatOps.sqrt (ofNat complexity) *. ofRat 2) (ofRat 100)

/-- Run a generator in a fresh function with `n` parameters and return its result,
`jit.rs:283-312`. -/
def build (n : ℕ) (g : Gen F Reg) : Except JitError (ℕ × List (Inst F) × Reg) :=
  match g ⟨n, []⟩ with
  | .ok (r, b) => .ok (n, b.code, r)
  | .error e => .error e

/-- `compile_expression`, `jit.rs:255-365`.  `constants` is a finite map; its size is passed
separately for the statistics. -/
def compileExpression (e : Expr F) (dataVars paramVars : List String) (constants : FMap String F)
    (nConstants : ℕ) : Except JitError (Compiled F) :=
  match build (dataVars.length + paramVars.length)
      (genExpr (varMapOf dataVars paramVars) constants e) with
  | .ok (n, code, r) =>
    .ok { params := n, code := code, ret := r, signature := signatureOf dataVars paramVars
          stats := ⟨128, estimateClifInstructions e dataVars.length paramVars.length, nConstants,
            estimateSpeedup e.complexity⟩ }
  | .error err => .error err

/-- `CustomSymbolicLogDensity`, `jit.rs:960-968` -/
structure CustomSymbolicLogDensity (F : Type) where
  expression : Expr F
  parameters : FMap String F
  variableNames : List String

namespace CustomSymbolicLogDensity

/-- `new`, `jit.rs:973-980` -/
def new (expression : Expr F) (parameters : FMap String F) : CustomSymbolicLogDensity F :=
  ⟨expression, parameters, expression.variableNames⟩

/-- `evaluate`, `jit.rs:983-990` -/
def evaluate (d : CustomSymbolicLogDensity F) (vars : FMap String F) : Except (EvalError F) F :=
  d.expression.evaluate (d.parameters.extend vars)

/-- `evaluate_single`, `jit.rs:993-1001` -/
def evaluateSingle (d : CustomSymbolicLogDensity F) (varName : String) (value : F) :
    Except (EvalError F) F :=
  d.expression.evaluate (d.parameters.insert varName value)

/-- `simplify`, `jit.rs:1004-1008` -/
def simplify (d : CustomSymbolicLogDensity F) : CustomSymbolicLogDensity F :=
  { d with expression := d.expression.simplify }

end CustomSymbolicLogDensity

/-- The variable map of `generate_custom_log_density`, `jit.rs:1019-1024`. -/
def customVarMap (d : CustomSymbolicLogDensity F) : FMap String Reg :=
  match d.variableNames with
  | v :: _ => FMap.empty.insert v 0
  | [] => FMap.empty

/-- `compile_custom_expression`, `jit.rs:369-441`, with `generate_custom_log_density`,
`jit.rs:1013-1033`. -/
def compileCustomExpression (d : CustomSymbolicLogDensity F) (nParameters : ℕ) :
    Except JitError (Compiled F) :=
  match build 1 (genExpr (customVarMap d) d.parameters d.expression) with
  | .ok (n, code, r) =>
    .ok { params := n, code := code, ret := r, signature := .singleInput
          stats := ⟨64, 8, nParameters, ofRat 25⟩ }
  | .error err => .error err

/-- The loop inserting constants into the variable map, `jit.rs:496-500`.  The code iterates over a
`HashMap`; the list is its entries in some order. -/
def bindConstants (m : FMap String Reg) : List (String × F) → Gen F (FMap String Reg)
  | [] => pure m
  | (name, value) :: rest => do
    let r ← emit (.f64const value)
    bindConstants (m.insert name r) rest

/-- `compile_final_tagless`, `jit.rs:444-560` -/
def compileFinalTagless (e : JitRepr F) (dataVars paramVars : List String)
    (constants : List (String × F)) : Except JitError (Compiled F) :=
  match build (dataVars.length + paramVars.length) (do
      let m ← bindConstants (varMapOf dataVars paramVars) constants
      generateIr m e) with
  | .ok (n, code, r) =>
    .ok { params := n, code := code, ret := r, signature := signatureOf dataVars paramVars
          stats := ⟨128, e.estimateComplexity, constants.length,
            estimateSpeedup e.estimateComplexity⟩ }
  | .error err => .error err

end Compile
end Verif.Jit
