import Verif.Model.Printing

/-!
# Final-tagless expressions

The trait `MathExpr` and its interpreters (`symbolic-math/src/final_tagless.rs`, and the copy in
`mathjit/src/final_tagless.rs`), the polynomial helpers of `mathjit`, the exponential-family
helpers and the distribution patterns.

A trait implementation is a record of operations `MathExpr F R`, `R` being `E::Repr<F>`; a generic
function `fn f<E: MathExpr>(..)` is a function taking such a record.  The separate type parameters
`L`, `R`, `Output` of the arithmetic operations are all instantiated at the one numeric type `F`.
-/

namespace Verif

/-- `trait MathExpr`, `symbolic-math/src/final_tagless.rs:157-216`,
`mathjit/src/final_tagless.rs:129-187` -/
structure MathExpr (F R : Type) where
  constant : F → R
  var : String → R
  add : R → R → R
  sub : R → R → R
  mul : R → R → R
  div : R → R → R
  pow : R → R → R
  neg : R → R
  ln : R → R
  exp : R → R
  sqrt : R → R
  sin : R → R
  cos : R → R

/-- `JITRepr`, `symbolic-math/src/final_tagless.rs:698-725` -/
inductive JitRepr (F : Type) where
  | constant (c : F)
  | named (n : String)
  | add (l r : JitRepr F)
  | sub (l r : JitRepr F)
  | mul (l r : JitRepr F)
  | div (l r : JitRepr F)
  | pow (l r : JitRepr F)
  | neg (e : JitRepr F)
  | ln (e : JitRepr F)
  | exp (e : JitRepr F)
  | sqrt (e : JitRepr F)
  | sin (e : JitRepr F)
  | cos (e : JitRepr F)

section Interpreters
variable {F : Type}

/-- `impl MathExpr for DirectEval`, `symbolic-math/src/final_tagless.rs:313-387`,
`mathjit/src/final_tagless.rs:464-538`.  The trait's `var` returns `T::default()`; values of
variables are passed as arguments (`DirectEval::var(name, value)`). -/
def directEval [FloatOps F] : MathExpr F F where
  constant v := v
  var _ := FloatOps.zero
  add := FloatOps.add
  sub := FloatOps.sub
  mul := FloatOps.mul
  div := FloatOps.div
  pow := FloatOps.powf
  neg := FloatOps.neg
  ln := FloatOps.ln
  exp := FloatOps.exp
  sqrt := FloatOps.sqrt
  sin := FloatOps.sin
  cos := FloatOps.cos

/-- `impl MathExpr for PrettyPrint`, `symbolic-math/src/final_tagless.rs:499-573`,
`mathjit/src/final_tagless.rs:650-724`; `num` is `format!("{value}")`. -/
def prettyPrint (num : F → List Char) : MathExpr F (List Char) where
  constant v := num v
  var n := n.toList
  add l r := Expr.binText l [' ', '+', ' '] r
  sub l r := Expr.binText l [' ', '-', ' '] r
  mul l r := Expr.binText l [' ', '*', ' '] r
  div l r := Expr.binText l [' ', '/', ' '] r
  pow l r := Expr.binText l [' ', '^', ' '] r
  neg e := ['(', '-'] ++ e ++ [')']
  ln e := Expr.callText ['l', 'n'] e
  exp e := Expr.callText ['e', 'x', 'p'] e
  sqrt e := Expr.callText ['s', 'q', 'r', 't'] e
  sin e := Expr.callText ['s', 'i', 'n'] e
  cos e := Expr.callText ['c', 'o', 's'] e

/-- `impl MathExpr for JITEval`, `symbolic-math/src/final_tagless.rs:911-990`.  A constant passes
through `format!("{value}").parse::<f64>()`; for `f64` this is the identity (Rust prints the
shortest text that reads back as the same number), and that is what is modelled. -/
def jitEval : MathExpr F (JitRepr F) where
  constant := .constant
  var := .named
  add := .add
  sub := .sub
  mul := .mul
  div := .div
  pow := .pow
  neg := .neg
  ln := .ln
  exp := .exp
  sqrt := .sqrt
  sin := .sin
  cos := .cos

end Interpreters

namespace JitRepr
variable {F : Type}

/-- `JITRepr::collect_variables`, `symbolic-math/src/final_tagless.rs:731-760`; the hash set is the
list of insertions. -/
def collectVariables : JitRepr F → List String
  | constant _ => []
  | named n => [n]
  | add l r => collectVariables l ++ collectVariables r
  | sub l r => collectVariables l ++ collectVariables r
  | mul l r => collectVariables l ++ collectVariables r
  | div l r => collectVariables l ++ collectVariables r
  | pow l r => collectVariables l ++ collectVariables r
  | neg e => collectVariables e
  | ln e => collectVariables e
  | exp e => collectVariables e
  | sqrt e => collectVariables e
  | sin e => collectVariables e
  | cos e => collectVariables e

/-- `JITRepr::estimate_complexity`, `symbolic-math/src/final_tagless.rs:764-783` -/
def estimateComplexity : JitRepr F → ℕ
  | constant _ => 1
  | named _ => 1
  | add l r => 1 + estimateComplexity l + estimateComplexity r
  | sub l r => 1 + estimateComplexity l + estimateComplexity r
  | mul l r => 1 + estimateComplexity l + estimateComplexity r
  | div l r => 1 + estimateComplexity l + estimateComplexity r
  | pow l r => 1 + estimateComplexity l + estimateComplexity r
  | neg e => 1 + estimateComplexity e
  | ln e => 3 + estimateComplexity e
  | exp e => 3 + estimateComplexity e
  | sqrt e => 3 + estimateComplexity e
  | sin e => 3 + estimateComplexity e
  | cos e => 3 + estimateComplexity e

/-- `JITRepr::count_constants`, `symbolic-math/src/final_tagless.rs:787-803` -/
def countConstants : JitRepr F → ℕ
  | constant _ => 1
  | named _ => 0
  | add l r => countConstants l + countConstants r
  | sub l r => countConstants l + countConstants r
  | mul l r => countConstants l + countConstants r
  | div l r => countConstants l + countConstants r
  | pow l r => countConstants l + countConstants r
  | neg e => countConstants e
  | ln e => countConstants e
  | exp e => countConstants e
  | sqrt e => countConstants e
  | sin e => countConstants e
  | cos e => countConstants e

end JitRepr

namespace Tagless
variable {F R : Type}

/-! ### `StatisticalExpr` -/

/-- `logistic`, `symbolic-math/src/final_tagless.rs:392-398`, `mathjit/src/final_tagless.rs:543-549`,
`measures-exponential-family/src/exponential_family/final_tagless.rs:166-171` -/
def logistic [FloatOps F] (E : MathExpr F R) (x : R) : R :=
  let one := E.constant FloatOps.one
  let negX := E.neg x
  let expNegX := E.exp negX
  let denominator := E.add one expNegX
  E.div (E.constant FloatOps.one) denominator

/-- `softplus`, `symbolic-math/src/final_tagless.rs:401-406`, `mathjit/src/final_tagless.rs:552-557`,
`measures-exponential-family/src/exponential_family/final_tagless.rs:176-178` -/
def softplus [FloatOps F] (E : MathExpr F R) (x : R) : R :=
  let one := E.constant FloatOps.one
  let expX := E.exp x
  let onePlusExpX := E.add one expX
  E.ln onePlusExpX

/-- `sigmoid`, `symbolic-math/src/final_tagless.rs:409-411`, `mathjit/src/final_tagless.rs:560-562` -/
def sigmoid [FloatOps F] (E : MathExpr F R) (x : R) : R := logistic E x

/-! ### polynomials (`mathjit/src/final_tagless.rs:195-367`) -/

/-- the loop of `horner_expr`, `mathjit/src/final_tagless.rs:287-289`: `coeffs` in the order visited -/
def hornerExprLoop (E : MathExpr F R) (x : R) (result : R) (coeffs : List R) : R :=
  coeffs.foldl (fun result coeff => E.add (E.mul result x) coeff) result

/-- `horner_expr`, `mathjit/src/final_tagless.rs:270-292` -/
def hornerExpr [FloatOps F] (E : MathExpr F R) (coeffs : List R) (x : R) : R :=
  match coeffs with
  | [] => E.constant FloatOps.zero
  | [c] => c
  | c :: d :: cs =>
    hornerExprLoop E x ((c :: d :: cs).getLast (List.cons_ne_nil _ _))
      ((c :: d :: cs).reverse.drop 1)

/-- `horner`, `mathjit/src/final_tagless.rs:226-248` -/
def horner [FloatOps F] (E : MathExpr F R) (coeffs : List F) (x : R) : R :=
  match coeffs with
  | [] => E.constant FloatOps.zero
  | [c] => E.constant c
  | c :: d :: cs =>
    ((c :: d :: cs).reverse.drop 1).foldl
      (fun result coeff => E.add (E.mul result x) (E.constant coeff))
      (E.constant ((c :: d :: cs).getLast (List.cons_ne_nil _ _)))

/-- `from_roots`, `mathjit/src/final_tagless.rs:311-328` -/
def fromRoots [FloatOps F] (E : MathExpr F R) (roots : List F) (x : R) : R :=
  match roots with
  | [] => E.constant FloatOps.one
  | r :: rs =>
    rs.foldl (fun result root => E.mul result (E.sub x (E.constant root)))
      (E.sub x (E.constant r))

/-- `horner_derivative`, `mathjit/src/final_tagless.rs:348-366`; `from_usize` succeeds for floats. -/
def hornerDerivative [FloatOps F] (E : MathExpr F R) (coeffs : List F) (x : R) : R :=
  if coeffs.length ≤ 1 then E.constant FloatOps.zero
  else
    horner E ((coeffs.zipIdx.drop 1).map fun p => FloatOps.mul p.1 (FloatOps.ofNat p.2)) x

/-! ### exponential families
(`measures-exponential-family/src/exponential_family/final_tagless.rs`) -/

/-- slice indexing `v[i]` -/
def index {α : Type} (v : List α) (i : ℕ) : Except Panic α :=
  match v[i]? with
  | some a => .ok a
  | none => .error ⟨"index out of bounds"⟩

/-- the loop of `dot_product`, lines 91-94 -/
def dotLoop (E : MathExpr F R) (ps ss : List R) (result : R) (is : List ℕ) : Except Panic R :=
  is.foldlM (fun result i => do
    let p ← index ps i
    let s ← index ss i
    .ok (E.add result (E.mul p s))) result

/-- `dot_product`, `measures-exponential-family/src/exponential_family/final_tagless.rs:73-96` -/
def dotProduct [FloatOps F] (E : MathExpr F R) (ps ss : List R) : Except Panic R :=
  if ps.length ≠ ss.length then
    .error ⟨"Natural parameters and sufficient statistics must have same length"⟩
  else if ps.isEmpty then .ok (E.constant FloatOps.zero)
  else do
    let p ← index ps 0
    let s ← index ss 0
    dotLoop E ps ss (E.mul p s) (List.range' 1 (ps.length - 1))

/-- `sum_sufficient_stats`,
`measures-exponential-family/src/exponential_family/final_tagless.rs:101-122` -/
def sumSufficientStats (E : MathExpr F R) : List (List R) → Except Panic (List R)
  | [] => .ok []
  | first :: rest =>
    (List.range first.length).mapM fun j => do
      let s ← index first j
      rest.foldlM (fun sum row => do
        let v ← index row j
        .ok (E.add sum v)) s

/-- `exp_fam_log_density`,
`measures-exponential-family/src/exponential_family/final_tagless.rs:129-140` -/
def expFamLogDensity [FloatOps F] (E : MathExpr F R) (ps ss : List R) (logPartition logBase : R) :
    Except Panic R := do
  let d ← dotProduct E ps ss
  .ok (E.add (E.sub d logPartition) logBase)

/-- `iid_exp_fam_log_density`,
`measures-exponential-family/src/exponential_family/final_tagless.rs:145-161` -/
def iidExpFamLogDensity [FloatOps F] (E : MathExpr F R) (ps ss : List R)
    (logPartition nSamples sumLogBase : R) : Except Panic R := do
  let d ← dotProduct E ps ss
  .ok (E.add (E.sub d (E.mul nSamples logPartition)) sumLogBase)

/-- `log_sum_exp`, `measures-exponential-family/src/exponential_family/final_tagless.rs:183-202` -/
def logSumExp [FloatOps F] (E : MathExpr F R) (values : List R) : R :=
  match values with
  | [] => E.constant FloatOps.negInf
  | [v] => v
  | v :: w :: vs =>
    E.ln ((w :: vs).foldl (fun sum x => E.add sum (E.exp x)) (E.exp v))

/-- `ExpFamEval::dot_product_array`,
`measures-exponential-family/src/exponential_family/final_tagless.rs:223-225` -/
def dotProductArray [FloatOps F] (ps ss : List F) : F :=
  FloatOps.sum ((ps.zip ss).map fun p => FloatOps.mul p.1 p.2)

/-- one row of the loop of `sum_stats_array`, lines 238-240: `result[i] += stat` -/
def addRow [FloatOps F] (result row : List F) : Except Panic (List F) :=
  row.zipIdx.foldlM (fun result p => do
    let old ← index result p.2
    .ok (result.set p.2 (FloatOps.add old p.1))) result

/-- `ExpFamEval::sum_stats_array`,
`measures-exponential-family/src/exponential_family/final_tagless.rs:229-243` -/
def sumStatsArray [FloatOps F] : List (List F) → Except Panic (List F)
  | [] => .ok []
  | first :: rest =>
    (first :: rest).foldlM addRow (List.replicate first.length FloatOps.zero)

/-! ### distribution patterns -/

/-- `standard_normal_log_density`,
`measures-exponential-family/src/exponential_family/final_tagless.rs:338-351`,
`measures-distributions/src/distributions/final_tagless.rs:415-428` -/
def standardNormalLogDensity [FloatOps F] (E : MathExpr F R) (x : R) : R :=
  let half := E.constant (FloatOps.ofRat (1/2))
  let twoPi := E.constant (FloatOps.mul (FloatOps.ofRat 2) FloatOps.pi)
  let xSquared := E.mul x x
  E.sub (E.neg (E.mul half (E.ln twoPi))) (E.mul half xSquared)

/-- `normal_log_density`,
`measures-exponential-family/src/exponential_family/final_tagless.rs:355-374`,
`measures-distributions/src/distributions/final_tagless.rs:392-411` -/
def normalLogDensity [FloatOps F] (E : MathExpr F R) (x mu sigma : R) : R :=
  let half := E.constant (FloatOps.ofRat (1/2))
  let twoPi := E.constant (FloatOps.mul (FloatOps.ofRat 2) FloatOps.pi)
  let diff := E.sub x mu
  let standardized := E.div diff sigma
  let squared := E.mul standardized standardized
  E.sub (E.sub (E.neg (E.mul half (E.ln twoPi))) (E.ln sigma)) (E.mul half squared)

/-- `poisson_log_density`,
`measures-exponential-family/src/exponential_family/final_tagless.rs:378-391` -/
def poissonLogDensity (E : MathExpr F R) (x lambda : R) : R :=
  E.sub (E.sub (E.mul x (E.ln lambda)) lambda) (E.ln x)

/-- `exponential_log_density`,
`measures-exponential-family/src/exponential_family/final_tagless.rs:396-404`,
`measures-distributions/src/distributions/final_tagless.rs:432-440` -/
def exponentialLogDensity (E : MathExpr F R) (x rate : R) : R :=
  E.sub (E.ln rate) (E.mul rate x)

/-- `cauchy_log_density`, `measures-distributions/src/distributions/final_tagless.rs:490-511` -/
def cauchyLogDensity [FloatOps F] (E : MathExpr F R) (x location scale : R) : R :=
  let one := E.constant FloatOps.one
  let pi := E.constant FloatOps.pi
  let diff := E.sub x location
  let standardized := E.div diff scale
  let squared := E.mul standardized standardized
  let onePlusSquared := E.add one squared
  E.sub (E.sub (E.neg (E.ln pi)) (E.ln scale)) (E.ln onePlusSquared)

/-- `gamma_function` of the blanket `DistributionMathExpr`,
`measures-distributions/src/distributions/final_tagless.rs:598-600` -/
def gammaFunction {R : Type} (_x : R) : Except Panic R :=
  .error ⟨"gamma_function not implemented for this interpreter"⟩

/-- `log_gamma_function`, `measures-distributions/src/distributions/final_tagless.rs:553-555`, for an
interpreter whose `gamma_function` is `gam` -/
def logGammaFunction (E : MathExpr F R) (gam : R → Except Panic R) (x : R) : Except Panic R := do
  let g ← gam x
  .ok (E.ln g)

/-- `log_beta`, `measures-distributions/src/distributions/final_tagless.rs:573-585` -/
def logBeta (E : MathExpr F R) (gam : R → Except Panic R) (alpha beta : R) : Except Panic R := do
  let a ← logGammaFunction E gam alpha
  let b ← logGammaFunction E gam beta
  let c ← logGammaFunction E gam (E.add alpha beta)
  .ok (E.sub (E.add a b) c)

/-- `gamma_log_density`, `measures-distributions/src/distributions/final_tagless.rs:445-463` -/
def gammaLogDensity [FloatOps F] (E : MathExpr F R) (gam : R → Except Panic R)
    (x shape rate : R) : Except Panic R := do
  let one := E.constant FloatOps.one
  let shapeMinusOne := E.sub shape one
  let g ← gam shape
  .ok (E.add (E.add (E.mul shape (E.ln rate)) (E.neg (E.ln g)))
    (E.sub (E.mul shapeMinusOne (E.ln x)) (E.mul rate x)))

/-- `beta_log_density`, `measures-distributions/src/distributions/final_tagless.rs:468-485` -/
def betaLogDensity [FloatOps F] (E : MathExpr F R) (gam : R → Except Panic R)
    (x alpha beta : R) : Except Panic R := do
  let one := E.constant FloatOps.one
  let alphaMinusOne := E.sub alpha one
  let betaMinusOne := E.sub beta one
  let oneMinusX := E.sub one x
  let lb ← logBeta E gam alpha beta
  .ok (E.add (E.add lb (E.mul alphaMinusOne (E.ln x))) (E.mul betaMinusOne (E.ln oneMinusX)))

/-- `student_t_log_density`, `measures-distributions/src/distributions/final_tagless.rs:514-545` -/
def studentTLogDensity [FloatOps F] (E : MathExpr F R) (gam : R → Except Panic R)
    (x nu : R) : Except Panic R := do
  let one := E.constant FloatOps.one
  let two := E.constant (FloatOps.ofRat 2)
  let half := E.constant (FloatOps.ofRat (1/2))
  let pi := E.constant FloatOps.pi
  let nuPlusOne := E.add nu one
  let nuPlusOneHalf := E.div nuPlusOne two
  let nuHalf := E.div nu two
  let nuPi := E.mul nu pi
  let xSquared := E.mul x x
  let xSquaredOverNu := E.div xSquared nu
  let onePlusRatio := E.add one xSquaredOverNu
  let g1 ← gam nuPlusOneHalf
  let g2 ← gam nuHalf
  .ok (E.sub (E.sub (E.sub (E.ln g1) (E.ln g2)) (E.mul half (E.ln nuPi)))
    (E.mul (E.div nuPlusOne two) (E.ln onePlusRatio)))

end Tagless

/-! ### `DistributionEval` -/

namespace DistributionEval
variable {F : Type} [FloatOps F]
open FloatOps

/-- `DistributionEval::normal_log_density`,
`measures-distributions/src/distributions/final_tagless.rs:270-274` -/
def normalLogDensity (x mu sigma : F) : F :=
  let twoPi := ofRat 2 *. pi
  let standardized := (x -. mu) /. sigma
  ofRat (-1/2) *. FloatOps.ln twoPi -. FloatOps.ln sigma -. ofRat (1/2) *. standardized *. standardized

/-- `DistributionEval::exponential_log_density`, `…/final_tagless.rs:278-284` -/
def exponentialLogDensity (x rate : F) : F :=
  if ge x zero then FloatOps.ln rate -. rate *. x else negInf

/-- `DistributionEval::log_gamma`, `…/final_tagless.rs:298-306` -/
def logGamma (x : F) : F :=
  if gt x (ofRat 12) then
    (x -. ofRat (1/2)) *. FloatOps.ln x -. x +. ofRat (1/2) *. FloatOps.ln (ofRat 2 *. pi)
  else lnGamma x

/-- `DistributionEval::gamma_log_density`, `…/final_tagless.rs:288-294` -/
def gammaLogDensity (x shape rate : F) : F :=
  if gt x zero then
    shape *. FloatOps.ln rate -. logGamma shape +. (shape -. one) *. FloatOps.ln x -. rate *. x
  else negInf

end DistributionEval
end Verif
