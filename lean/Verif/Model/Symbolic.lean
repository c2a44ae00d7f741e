import Verif.Model.Core
import Mathlib.Data.String.Basic

/-!
# Model of `symbolic-math/src/expr.rs`

`f64` is an arbitrary `F` with `FloatOps F`; `Box` is dropped; a Rust pattern `Expr::Const(0.0)`
compares with `==`, so it is written `isConst zero`.
-/

namespace Verif
open FloatOps

/-- `symbolic-math/src/expr.rs:80-108`; the functions `Expr::constant`, `Expr::variable`, `Expr::add`,
…, `Expr::neg` of `symbolic-math/src/expr.rs:113-174` are the constructors. -/
inductive Expr (F : Type) where
  | const (c : F)
  | var (n : String)
  | add (l r : Expr F)
  | sub (l r : Expr F)
  | mul (l r : Expr F)
  | div (l r : Expr F)
  | pow (b x : Expr F)
  | ln (e : Expr F)
  | exp (e : Expr F)
  | sqrt (e : Expr F)
  | sin (e : Expr F)
  | cos (e : Expr F)
  | neg (e : Expr F)

/-- `symbolic-math/src/expr.rs:990-999` -/
inductive EvalError (F : Type) where
  | undefinedVariable (n : String)
  | divisionByZero
  | invalidLogarithm (v : F)
  | invalidSquareRoot (v : F)

namespace Expr
variable {F : Type}

/-- the pattern pair `(Expr::Const(a), Expr::Const(b))` (e.g. `expr.rs:191`) -/
def bothConst : Expr F → Expr F → Option (F × F)
  | const a, const b => some (a, b)
  | _, _ => none

/-- the pattern `Expr::Pow(inner_base, inner_exp)` (`expr.rs:498`) -/
def asPow : Expr F → Option (Expr F × Expr F)
  | pow b x => some (b, x)
  | _ => none

/-- `symbolic-math/src/expr.rs:647-662` -/
def complexity : Expr F → ℕ
  | const _ => 0
  | var _ => 0
  | add l r => 1 + complexity l + complexity r
  | sub l r => 1 + complexity l + complexity r
  | mul l r => 1 + complexity l + complexity r
  | div l r => 1 + complexity l + complexity r
  | pow l r => 1 + complexity l + complexity r
  | ln e => 1 + complexity e
  | exp e => 1 + complexity e
  | sqrt e => 1 + complexity e
  | sin e => 1 + complexity e
  | cos e => 1 + complexity e
  | neg e => 1 + complexity e

/-- `symbolic-math/src/expr.rs:624-643`: the names pushed onto the vector, in order. -/
def collectVariables : Expr F → List String
  | const _ => []
  | var n => [n]
  | add l r => collectVariables l ++ collectVariables r
  | sub l r => collectVariables l ++ collectVariables r
  | mul l r => collectVariables l ++ collectVariables r
  | div l r => collectVariables l ++ collectVariables r
  | pow l r => collectVariables l ++ collectVariables r
  | ln e => collectVariables e
  | exp e => collectVariables e
  | sqrt e => collectVariables e
  | sin e => collectVariables e
  | cos e => collectVariables e
  | neg e => collectVariables e

/-- `Vec::dedup`: drop an element equal to the previously kept one. -/
def vecDedup : List String → List String
  | [] => []
  | [a] => [a]
  | a :: b :: l => if a = b then vecDedup (b :: l) else a :: vecDedup (b :: l)

/-- `symbolic-math/src/expr.rs:616-622`.  `String`'s `Ord` (byte-wise on UTF-8) is the code-point
order of Lean's `String`. -/
def variableNames (e : Expr F) : List String :=
  vecDedup (e.collectVariables.mergeSort (fun a b => decide (a ≤ b)))

variable [FloatOps F]

/-- the pattern `Expr::Const(c)` for a literal `c` (e.g. `expr.rs:192`) -/
def isConst (c : F) : Expr F → Bool
  | const a => a ==. c
  | _ => false

/-- derived `PartialEq` of `Expr`, `symbolic-math/src/expr.rs:80` -/
def beq : Expr F → Expr F → Bool
  | const a, const b => a ==. b
  | var a, var b => decide (a = b)
  | add a b, add c d => beq a c && beq b d
  | sub a b, sub c d => beq a c && beq b d
  | mul a b, mul c d => beq a c && beq b d
  | div a b, div c d => beq a c && beq b d
  | pow a b, pow c d => beq a c && beq b d
  | ln a, ln b => beq a b
  | exp a, exp b => beq a b
  | sqrt a, sqrt b => beq a b
  | sin a, sin b => beq a b
  | cos a, cos b => beq a b
  | neg a, neg b => beq a b
  | _, _ => false

/-- `symbolic-math/src/expr.rs:177-237` -/
def evaluate (vars : FMap String F) : Expr F → Except (EvalError F) F
  | const v => .ok v
  | var n => match vars.get n with
    | some v => .ok v
    | none => .error (.undefinedVariable n)
  | add l r => match bothConst l r with
    | some (a, b) => .ok (a +. b)
    | none =>
      if isConst zero l then evaluate vars r
      else if isConst zero r then evaluate vars l
      else do
        let a ← evaluate vars l
        let b ← evaluate vars r
        .ok (a +. b)
  | mul l r => match bothConst l r with
    | some (a, b) => .ok (a *. b)
    | none =>
      if isConst zero l || isConst zero r then .ok zero
      else if isConst one l then evaluate vars r
      else if isConst one r then evaluate vars l
      else do
        let a ← evaluate vars l
        let b ← evaluate vars r
        .ok (a *. b)
  | sub l r => do
    let a ← evaluate vars l
    let b ← evaluate vars r
    .ok (a -. b)
  | div l r => do
    let d ← evaluate vars r
    if d ==. zero then .error .divisionByZero
    else do
      let a ← evaluate vars l
      .ok (a /. d)
  | pow b x => do
    let a ← evaluate vars b
    let c ← evaluate vars x
    .ok (powf a c)
  | ln e => do
    let v ← evaluate vars e
    if v ≤. zero then .error (.invalidLogarithm v) else .ok (FloatOps.ln v)
  | exp e => do
    let v ← evaluate vars e
    .ok (FloatOps.exp v)
  | sqrt e => do
    let v ← evaluate vars e
    if v <. zero then .error (.invalidSquareRoot v) else .ok (FloatOps.sqrt v)
  | sin e => do
    let v ← evaluate vars e
    .ok (FloatOps.sin v)
  | cos e => do
    let v ← evaluate vars e
    .ok (FloatOps.cos v)
  | neg e => do
    let v ← evaluate vars e
    .ok (FloatOps.neg v)

/-- `symbolic-math/src/expr.rs:241-289` -/
def evaluateSingleVar (varName : String) (value : F) : Expr F → Except (EvalError F) F
  | const c => .ok c
  | var n => if n = varName then .ok value else .error (.undefinedVariable n)
  | add l r => do
    let a ← evaluateSingleVar varName value l
    let b ← evaluateSingleVar varName value r
    .ok (a +. b)
  | sub l r => do
    let a ← evaluateSingleVar varName value l
    let b ← evaluateSingleVar varName value r
    .ok (a -. b)
  | mul l r => do
    let a ← evaluateSingleVar varName value l
    let b ← evaluateSingleVar varName value r
    .ok (a *. b)
  | div l r => do
    let d ← evaluateSingleVar varName value r
    if d ==. zero then .error .divisionByZero
    else do
      let a ← evaluateSingleVar varName value l
      .ok (a /. d)
  | pow b x => do
    let a ← evaluateSingleVar varName value b
    let c ← evaluateSingleVar varName value x
    .ok (powf a c)
  | ln e => do
    let v ← evaluateSingleVar varName value e
    if v ≤. zero then .error (.invalidLogarithm v) else .ok (FloatOps.ln v)
  | exp e => do
    let v ← evaluateSingleVar varName value e
    .ok (FloatOps.exp v)
  | sqrt e => do
    let v ← evaluateSingleVar varName value e
    if v <. zero then .error (.invalidSquareRoot v) else .ok (FloatOps.sqrt v)
  | sin e => do
    let v ← evaluateSingleVar varName value e
    .ok (FloatOps.sin v)
  | cos e => do
    let v ← evaluateSingleVar varName value e
    .ok (FloatOps.cos v)
  | neg e => do
    let v ← evaluateSingleVar varName value e
    .ok (FloatOps.neg v)

/-- `symbolic-math/src/expr.rs:666-676`: the loop, with the map `vars` reused between points. -/
def evaluateBatchFrom (e : Expr F) (varName : String) :
    FMap String F → List F → Except (EvalError F) (List F)
  | _, [] => .ok []
  | vars, x :: xs => do
    let vars' := vars.insert varName x
    let v ← e.evaluate vars'
    let rest ← evaluateBatchFrom e varName vars' xs
    .ok (v :: rest)

/-- `symbolic-math/src/expr.rs:666-676` -/
def evaluateBatch (e : Expr F) (varName : String) (values : List F) :
    Except (EvalError F) (List F) :=
  evaluateBatchFrom e varName FMap.empty values

/-- `symbolic-math/src/expr.rs:679-690` -/
def evaluateBatchVars (e : Expr F) : List (FMap String F) → Except (EvalError F) (List F)
  | [] => .ok []
  | vars :: rest => do
    let v ← e.evaluate vars
    let vs ← evaluateBatchVars e rest
    .ok (v :: vs)

/-- `symbolic-math/src/expr.rs:707-710`: the inner loop of `evaluate_grid`; also returns the map. -/
def evaluateGridRow (e : Expr F) (xName : String) :
    FMap String F → List F → Except (EvalError F) (List F × FMap String F)
  | vars, [] => .ok ([], vars)
  | vars, x :: xs => do
    let vars' := vars.insert xName x
    let v ← e.evaluate vars'
    let (vs, vars'') ← evaluateGridRow e xName vars' xs
    .ok (v :: vs, vars'')

/-- `symbolic-math/src/expr.rs:703-715`: the outer loop; the map is reused between rows. -/
def evaluateGridFrom (e : Expr F) (xName : String) (xValues : List F) (yName : String) :
    FMap String F → List F → Except (EvalError F) (List (List F))
  | _, [] => .ok []
  | vars, y :: ys => do
    let (row, vars') ← evaluateGridRow e xName (vars.insert yName y) xValues
    let rows ← evaluateGridFrom e xName xValues yName vars' ys
    .ok (row :: rows)

/-- `symbolic-math/src/expr.rs:693-716` -/
def evaluateGrid (e : Expr F) (xName : String) (xValues : List F) (yName : String)
    (yValues : List F) : Except (EvalError F) (List (List F)) :=
  evaluateGridFrom e xName xValues yName FMap.empty yValues

/-- `symbolic-math/src/expr.rs:304-306`: the fast loop of `evaluate_batch_optimized` -/
def evaluateSingleVarAll (e : Expr F) (varName : String) :
    List F → Except (EvalError F) (List F)
  | [] => .ok []
  | x :: xs => do
    let v ← e.evaluateSingleVar varName x
    let vs ← evaluateSingleVarAll e varName xs
    .ok (v :: vs)

/-- `symbolic-math/src/expr.rs:292-325` -/
def evaluateBatchOptimized (e : Expr F) (varName : String) (values : List F) :
    Except (EvalError F) (List F) :=
  let vars := e.variableNames
  if vars = [varName] then evaluateSingleVarAll e varName values
  else
    let varMap := vars.foldl
      (fun m v => if v ≠ varName then FMap.insert m v zero else m) FMap.empty
    evaluateBatchFrom e varName varMap values

/-- `symbolic-math/src/expr.rs:330-377` -/
def evaluatePolynomial (varName : String) (value : F) : Expr F → Option F
  | const c => some c
  | var n => if n = varName then some value else none
  | mul (const a) (var n) => if n = varName then some (a *. value) else none
  | mul (var n) (const a) => if n = varName then some (a *. value) else none
  | pow (var n) (const k) => if n = varName then some (powf value k) else none
  | add l r => match evaluatePolynomial varName value l, evaluatePolynomial varName value r with
    | some a, some b => some (a +. b)
    | _, _ => none
  | sub l r => match evaluatePolynomial varName value l, evaluatePolynomial varName value r with
    | some a, some b => some (a -. b)
    | _, _ => none
  | _ => none

/-- `symbolic-math/src/expr.rs:382-423` -/
def extractLinearCoefficients (varName : String) : Expr F → Option (F × F)
  | const b => some (zero, b)
  | var n => if n = varName then some (one, zero) else none
  | mul (const a) (var n) => if n = varName then some (a, zero) else none
  | mul (var n) (const a) => if n = varName then some (a, zero) else none
  | add l r => match extractLinearCoefficients varName l, extractLinearCoefficients varName r with
    | some (a1, b1), some (a2, b2) => some (a1 +. a2, b1 +. b2)
    | _, _ => none
  | sub l r => match extractLinearCoefficients varName l, extractLinearCoefficients varName r with
    | some (a1, b1), some (a2, b2) => some (a1 -. a2, b1 -. b2)
    | _, _ => none
  | _ => none

/-- `symbolic-math/src/expr.rs:427-433` -/
def evaluateLinear (e : Expr F) (varName : String) (value : F) : Option F :=
  match e.extractLinearCoefficients varName with
  | some (a, b) => some (a *. value +. b)
  | none => none

/-- `symbolic-math/src/expr.rs:436-449` -/
def evaluateSmart (e : Expr F) (varName : String) (value : F) : Except (EvalError F) F :=
  match e.evaluateLinear varName value with
  | some r => .ok r
  | none => match e.evaluatePolynomial varName value with
    | some r => .ok r
    | none => e.evaluateSingleVar varName value

/-! ### `simplify`

Each arm of the Rust `match` is a function of the already simplified operands, so that the
recursion below stays readable. -/

/-- `symbolic-math/src/expr.rs:456-464` -/
def simplifyAdd (l r : Expr F) : Expr F :=
  match bothConst l r with
  | some (a, b) => const (a +. b)
  | none =>
    if isConst zero l then r
    else if isConst zero r then l
    else if beq l r then mul (const (ofRat 2)) l
    else add l r

/-- `symbolic-math/src/expr.rs:465-472` -/
def simplifySub (l r : Expr F) : Expr F :=
  match bothConst l r with
  | some (a, b) => const (a -. b)
  | none =>
    if isConst zero r then l
    else if isConst zero l then neg r
    else if beq l r then const zero
    else sub l r

/-- `symbolic-math/src/expr.rs:473-483` -/
def simplifyMul (l r : Expr F) : Expr F :=
  match bothConst l r with
  | some (a, b) => const (a *. b)
  | none =>
    if isConst zero l || isConst zero r then const zero
    else if isConst one l then r
    else if isConst one r then l
    else if isConst (ofRat (-1)) l then neg r
    else if isConst (ofRat (-1)) r then neg l
    else if beq l r then pow l (const (ofRat 2))
    else mul l r

/-- the guarded arm `(Const(a), Const(b)) if b != 0.0`, `expr.rs:485` -/
def foldDiv : Expr F → Expr F → Option F
  | const a, const b => if b ==. zero then none else some (a /. b)
  | _, _ => none

/-- `symbolic-math/src/expr.rs:484-491` -/
def simplifyDiv (l r : Expr F) : Expr F :=
  match foldDiv l r with
  | some q => const q
  | none =>
    if isConst one r then l
    else if isConst zero l then const zero
    else if beq l r then const one
    else div l r

/-- `symbolic-math/src/expr.rs:504-511` -/
def simplifyLn : Expr F → Expr F
  | const a =>
    if gt a zero then const (FloatOps.ln a)
    else if a ==. one then const zero
    else ln (const a)
  | exp inner => inner
  | pow b x => mul x (ln b)
  | e => ln e

/-- `symbolic-math/src/expr.rs:512-522` -/
def simplifyExp : Expr F → Expr F
  | const a => if a ==. zero then const one else const (FloatOps.exp a)
  | ln inner => inner
  | mul c (ln b) => pow b c
  | e => exp e

/-- `symbolic-math/src/expr.rs:523-533` -/
def simplifySqrt : Expr F → Expr F
  | const a =>
    if ge a zero then const (FloatOps.sqrt a)
    else if a ==. zero then const zero
    else if a ==. one then const one
    else sqrt (const a)
  | pow b x => if isConst (ofRat 2) x then b else sqrt (pow b x)
  | e => sqrt e

/-- `symbolic-math/src/expr.rs:534-538` -/
def simplifySin : Expr F → Expr F
  | const a => if a ==. zero then const zero else const (FloatOps.sin a)
  | e => sin e

/-- `symbolic-math/src/expr.rs:539-543` -/
def simplifyCos : Expr F → Expr F
  | const a => if a ==. zero then const one else const (FloatOps.cos a)
  | e => cos e

/-- `symbolic-math/src/expr.rs:544-548` -/
def simplifyNeg : Expr F → Expr F
  | const a => const (FloatOps.neg a)
  | neg inner => inner
  | e => neg e

omit [FloatOps F] in
theorem bothConst_eq_some {l r : Expr F} {a b : F} (h : bothConst l r = some (a, b)) :
    l = const a ∧ r = const b := by
  cases l <;> cases r <;> simp [bothConst] at h
  obtain ⟨rfl, rfl⟩ := h; exact ⟨rfl, rfl⟩

theorem complexity_simplifyAdd (l r : Expr F) :
    (simplifyAdd l r).complexity ≤ 1 + l.complexity + r.complexity := by
  unfold simplifyAdd
  split
  · simp [complexity]
  · split_ifs <;> (try simp only [complexity]) <;> omega

theorem complexity_simplifySub (l r : Expr F) :
    (simplifySub l r).complexity ≤ 1 + l.complexity + r.complexity := by
  unfold simplifySub
  split
  · simp [complexity]
  · split_ifs <;> (try simp only [complexity]) <;> omega

theorem complexity_simplifyMul (l r : Expr F) :
    (simplifyMul l r).complexity ≤ 1 + l.complexity + r.complexity := by
  unfold simplifyMul
  split
  · simp [complexity]
  · split_ifs <;> (try simp only [complexity]) <;> omega

theorem complexity_simplifyDiv (l r : Expr F) :
    (simplifyDiv l r).complexity ≤ 1 + l.complexity + r.complexity := by
  unfold simplifyDiv
  split
  · simp [complexity]
  · split_ifs <;> (try simp only [complexity]) <;> omega

theorem complexity_simplifyLn (e : Expr F) : (simplifyLn e).complexity ≤ 1 + e.complexity := by
  unfold simplifyLn
  split
  · split_ifs <;> (try simp only [complexity]) <;> omega
  all_goals simp only [complexity]; omega

theorem complexity_simplifyExp (e : Expr F) : (simplifyExp e).complexity ≤ 1 + e.complexity := by
  unfold simplifyExp
  split
  · split_ifs <;> (try simp only [complexity]) <;> omega
  all_goals simp only [complexity]; omega

theorem complexity_simplifySqrt (e : Expr F) : (simplifySqrt e).complexity ≤ 1 + e.complexity := by
  unfold simplifySqrt
  split
  · split_ifs <;> (try simp only [complexity]) <;> omega
  · split_ifs <;> (try simp only [complexity]) <;> omega
  all_goals simp only [complexity]; omega

theorem complexity_simplifySin (e : Expr F) : (simplifySin e).complexity ≤ 1 + e.complexity := by
  unfold simplifySin
  split
  · split_ifs <;> (try simp only [complexity]) <;> omega
  all_goals simp only [complexity]; omega

theorem complexity_simplifyCos (e : Expr F) : (simplifyCos e).complexity ≤ 1 + e.complexity := by
  unfold simplifyCos
  split
  · split_ifs <;> (try simp only [complexity]) <;> omega
  all_goals simp only [complexity]; omega

theorem complexity_simplifyNeg (e : Expr F) : (simplifyNeg e).complexity ≤ 1 + e.complexity := by
  unfold simplifyNeg
  split
  all_goals simp only [complexity]; omega

omit [FloatOps F] in
theorem complexity_asPow {e ib ie : Expr F} (h : asPow e = some (ib, ie)) :
    e.complexity = 1 + ib.complexity + ie.complexity := by
  cases e <;> simp [asPow] at h
  obtain ⟨rfl, rfl⟩ := h; rfl

/-- `symbolic-math/src/expr.rs:453-551`.  The `Pow` arm (492-503) simplifies the product of the
two exponents again; that this recursion ends needs the complexity bound carried in the result
type. -/
def simplifyWithBound : (e : Expr F) → {s : Expr F // s.complexity ≤ e.complexity}
  | const c => ⟨const c, le_refl _⟩
  | var n => ⟨var n, le_refl _⟩
  | add l r =>
    let l' := simplifyWithBound l
    let r' := simplifyWithBound r
    ⟨simplifyAdd l'.1 r'.1, by
      have := complexity_simplifyAdd l'.1 r'.1; have := l'.2; have := r'.2
      simp only [complexity]; omega⟩
  | sub l r =>
    let l' := simplifyWithBound l
    let r' := simplifyWithBound r
    ⟨simplifySub l'.1 r'.1, by
      have := complexity_simplifySub l'.1 r'.1; have := l'.2; have := r'.2
      simp only [complexity]; omega⟩
  | mul l r =>
    let l' := simplifyWithBound l
    let r' := simplifyWithBound r
    ⟨simplifyMul l'.1 r'.1, by
      have := complexity_simplifyMul l'.1 r'.1; have := l'.2; have := r'.2
      simp only [complexity]; omega⟩
  | div l r =>
    let l' := simplifyWithBound l
    let r' := simplifyWithBound r
    ⟨simplifyDiv l'.1 r'.1, by
      have := complexity_simplifyDiv l'.1 r'.1; have := l'.2; have := r'.2
      simp only [complexity]; omega⟩
  | pow b x =>
    let b' := simplifyWithBound b
    let x' := simplifyWithBound x
    match bothConst b'.1 x'.1 with
    | some (a, c) => ⟨const (powf a c), by simp [complexity]⟩
    | none =>
      if isConst zero x'.1 then ⟨const one, by simp [complexity]⟩
      else if isConst one x'.1 then ⟨b'.1, by have := b'.2; simp only [complexity]; omega⟩
      else if isConst one b'.1 then ⟨const one, by simp [complexity]⟩
      else match h : asPow b'.1 with
        | some (ib, ie) =>
          let c := simplifyWithBound (mul ie x'.1)
          ⟨pow ib c.1, by
            have h1 := c.2; have h2 := x'.2; have h3 := b'.2; have h4 := complexity_asPow h
            simp only [complexity] at h1 h2 h3 h4 ⊢; omega⟩
        | none => ⟨pow b'.1 x'.1, by
            have h2 := x'.2; have h3 := b'.2
            simp only [complexity]; omega⟩
  | ln e =>
    let e' := simplifyWithBound e
    ⟨simplifyLn e'.1, by
      have := complexity_simplifyLn e'.1; have := e'.2; simp only [complexity]; omega⟩
  | exp e =>
    let e' := simplifyWithBound e
    ⟨simplifyExp e'.1, by
      have := complexity_simplifyExp e'.1; have := e'.2; simp only [complexity]; omega⟩
  | sqrt e =>
    let e' := simplifyWithBound e
    ⟨simplifySqrt e'.1, by
      have := complexity_simplifySqrt e'.1; have := e'.2; simp only [complexity]; omega⟩
  | sin e =>
    let e' := simplifyWithBound e
    ⟨simplifySin e'.1, by
      have := complexity_simplifySin e'.1; have := e'.2; simp only [complexity]; omega⟩
  | cos e =>
    let e' := simplifyWithBound e
    ⟨simplifyCos e'.1, by
      have := complexity_simplifyCos e'.1; have := e'.2; simp only [complexity]; omega⟩
  | neg e =>
    let e' := simplifyWithBound e
    ⟨simplifyNeg e'.1, by
      have := complexity_simplifyNeg e'.1; have := e'.2; simp only [complexity]; omega⟩
termination_by e => e.complexity
decreasing_by
  all_goals simp only [complexity]
  all_goals first
    | omega
    | (have _h2 := x'.2; have _h3 := b'.2; have _h4 := complexity_asPow h
       have h5 : 1 + ie.complexity + x'.1.complexity < 1 + b.complexity + x.complexity := by omega
       exact h5)

/-- `symbolic-math/src/expr.rs:453-551` -/
def simplify (e : Expr F) : Expr F := (simplifyWithBound e).1

end Expr

/-- `symbolic-math/src/expr.rs:1061-1068` -/
structure SymbolicLogDensity (F : Type) where
  expression : Expr F
  parameters : FMap String F
  variableNames : List String

namespace SymbolicLogDensity
variable {F : Type}

/-- `symbolic-math/src/expr.rs:1073-1080` -/
def new (expression : Expr F) (parameters : FMap String F) : SymbolicLogDensity F :=
  ⟨expression, parameters, expression.variableNames⟩

/-- `symbolic-math/src/expr.rs:1110-1147` -/
def substituteExpr (params : FMap String F) : Expr F → Expr F
  | .const c => .const c
  | .var n => match params.get n with
    | some v => .const v
    | none => .var n
  | .add l r => .add (substituteExpr params l) (substituteExpr params r)
  | .sub l r => .sub (substituteExpr params l) (substituteExpr params r)
  | .mul l r => .mul (substituteExpr params l) (substituteExpr params r)
  | .div l r => .div (substituteExpr params l) (substituteExpr params r)
  | .pow l r => .pow (substituteExpr params l) (substituteExpr params r)
  | .ln e => .ln (substituteExpr params e)
  | .exp e => .exp (substituteExpr params e)
  | .sqrt e => .sqrt (substituteExpr params e)
  | .sin e => .sin (substituteExpr params e)
  | .cos e => .cos (substituteExpr params e)
  | .neg e => .neg (substituteExpr params e)

/-- `symbolic-math/src/expr.rs:1105-1108`; the recorded variable names are left unchanged. -/
def substituteParameters (d : SymbolicLogDensity F) : SymbolicLogDensity F :=
  { d with expression := substituteExpr d.parameters d.expression }

variable [FloatOps F]

/-- `symbolic-math/src/expr.rs:1083-1087` -/
def evaluate (d : SymbolicLogDensity F) (vars : FMap String F) : Except (EvalError F) F :=
  d.expression.evaluate (d.parameters.extend vars)

/-- `symbolic-math/src/expr.rs:1090-1094` -/
def evaluateSingle (d : SymbolicLogDensity F) (varName : String) (value : F) :
    Except (EvalError F) F :=
  d.expression.evaluate (d.parameters.insert varName value)

/-- `symbolic-math/src/expr.rs:1098-1101` -/
def simplify (d : SymbolicLogDensity F) : SymbolicLogDensity F :=
  { d with expression := d.expression.simplify }

end SymbolicLogDensity

/-! ### builders -/

namespace Builders
variable {F : Type} [FloatOps F]
open Expr

/-- `symbolic-math/src/expr.rs:1156-1166` -/
def quadraticTerm (x : String) (mu sigma : F) : Expr F :=
  neg (mul (const (ofRat (1/2)))
    (div (pow (sub (var x) (const mu)) (const (ofRat 2))) (const (sigma *. sigma))))

/-- `symbolic-math/src/expr.rs:1170-1172` -/
def linearTerm (x : String) (coeff : F) : Expr F := mul (const coeff) (var x)

/-- `symbolic-math/src/expr.rs:1176-1185` -/
def logNormalConstant (sigma : F) : Expr F :=
  sub (neg (mul (const (ofRat (1/2))) (ln (const (ofRat 2 *. pi))))) (ln (const sigma))

/-- `symbolic-math/src/lib.rs:222-235`; operator precedence as in Rust: `-half * q / s` is
`((-half) * q) / s`. -/
def normalLogPdf (x mu sigma : Expr F) : Expr F :=
  add (neg (add (mul (const (ofRat (1/2))) (ln (const (ofRat 2 *. pi)))) (ln sigma)))
    (div (mul (neg (const (ofRat (1/2)))) (pow (sub x mu) (const (ofRat 2))))
      (pow sigma (const (ofRat 2))))

/-- One pass of the loop of `polynomial`, `symbolic-math/src/lib.rs:242-251`. -/
def polynomialStep (x : Expr F) (result : Expr F) (i : ℕ) (coeff : F) : Expr F :=
  add result (if i = 0 then const coeff
    else if i = 1 then mul (const coeff) x
    else mul (const coeff) (pow x (const (ofNat i))))

/-- The loop of `polynomial` from index `i` on, `symbolic-math/src/lib.rs:242-251`. -/
def polynomialFrom (x : Expr F) (result : Expr F) (i : ℕ) : List F → Expr F
  | [] => result
  | c :: cs => polynomialFrom x (polynomialStep x result i c) (i + 1) cs

/-- `symbolic-math/src/lib.rs:238-254` -/
def polynomial (x : Expr F) (coefficients : List F) : Expr F :=
  polynomialFrom x (const zero) 0 coefficients

/-- `symbolic-math/src/lib.rs:257-270` -/
def gaussianKernel (x mu sigma : Expr F) : Expr F :=
  exp (div (mul (neg (const (ofRat (1/2)))) (pow (sub x mu) (const (ofRat 2))))
    (pow sigma (const (ofRat 2))))

/-- `symbolic-math/src/lib.rs:273-276` -/
def logistic (x : Expr F) : Expr F := div (const one) (add (const one) (exp (neg x)))

/-- `symbolic-math/src/lib.rs:279-282` -/
def softplus (x : Expr F) : Expr F := ln (add (const one) (exp x))

end Builders
end Verif
