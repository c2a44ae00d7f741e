import Verif.Model.Symbolic

/-!
# Model of `measures-bayesian` (expressions) and of the operator overloads of `Expr`

The JIT slots of `BayesianJITOptimizer` are in `Verif.Model.JitCall`.
-/

namespace Verif
open FloatOps

/-! ### Operator overloads and fluent methods, `symbolic-math/src/expr.rs:800-986` -/

namespace ExprOps
variable {F : Type} [FloatOps F]

/-- `impl Add for Expr`, `expr.rs:800-806` -/
def plus (a b : Expr F) : Expr F := .add a b
/-- `impl Sub for Expr`, `expr.rs:808-814` -/
def minus (a b : Expr F) : Expr F := .sub a b
/-- `impl Mul for Expr`, `expr.rs:816-822` -/
def times (a b : Expr F) : Expr F := .mul a b
/-- `impl Div for Expr`, `expr.rs:824-830` -/
def over (a b : Expr F) : Expr F := .div a b
/-- `impl Neg for Expr`, `expr.rs:832-838` -/
def negate (a : Expr F) : Expr F := .neg a
/-- `impl From<f64> for Expr`, `expr.rs:841-845` -/
def ofF64 (c : F) : Expr F := .const c
/-- `impl From<i32> for Expr`, `expr.rs:847-851`; every `i32` is an exact double. -/
def ofI32 (c : ℤ) : Expr F := .const (ofRat c)
/-- `impl From<&str>`/`From<String> for Expr`, `expr.rs:853-863` -/
def ofName (n : String) : Expr F := .var n
/-- `impl Add<f64> for Expr`, `expr.rs:866-872` -/
def plusF (a : Expr F) (c : F) : Expr F := plus a (ofF64 c)
/-- `impl Add<Expr> for f64`, `expr.rs:874-880` -/
def fPlus (c : F) (a : Expr F) : Expr F := plus (ofF64 c) a
/-- `impl Sub<f64> for Expr`, `expr.rs:882-888` -/
def minusF (a : Expr F) (c : F) : Expr F := minus a (ofF64 c)
/-- `impl Sub<Expr> for f64`, `expr.rs:890-896` -/
def fMinus (c : F) (a : Expr F) : Expr F := minus (ofF64 c) a
/-- `impl Mul<f64> for Expr`, `expr.rs:898-904` -/
def timesF (a : Expr F) (c : F) : Expr F := times a (ofF64 c)
/-- `impl Mul<Expr> for f64`, `expr.rs:906-912` -/
def fTimes (c : F) (a : Expr F) : Expr F := times (ofF64 c) a
/-- `impl Div<f64> for Expr`, `expr.rs:914-920` -/
def overF (a : Expr F) (c : F) : Expr F := over a (ofF64 c)
/-- `impl Div<Expr> for f64`, `expr.rs:922-928` -/
def fOver (c : F) (a : Expr F) : Expr F := over (ofF64 c) a
/-- `powf`, `expr.rs:934-936` -/
def powf (a b : Expr F) : Expr F := .pow a b
/-- `natural_log`, `expr.rs:940-942` -/
def naturalLog (a : Expr F) : Expr F := .ln a
/-- `exponential`, `expr.rs:946-948` -/
def exponential (a : Expr F) : Expr F := .exp a
/-- `square_root`, `expr.rs:952-954` -/
def squareRoot (a : Expr F) : Expr F := .sqrt a
/-- `square`, `expr.rs:970-972` -/
def square (a : Expr F) : Expr F := times a a
/-- `cube`, `expr.rs:976-979`: `x.clone() * x.clone() * x`, left associated. -/
def cube (a : Expr F) : Expr F := times (times a a) a
/-- `abs`, `expr.rs:983-985` -/
def abs (a : Expr F) : Expr F := squareRoot (square a)

end ExprOps

/-! ### `measures-bayesian/src/bayesian/mod.rs` -/

namespace Bayes
variable {F : Type} [FloatOps F]
open Builders

/-- `normal_likelihood`, `measures-bayesian/src/bayesian/mod.rs:47-53` -/
def normalLikelihood (xVar muVar sigmaVar : String) : Expr F :=
  normalLogPdf (.var xVar) (.var muVar) (.var sigmaVar)

/-- `normal_prior`, `mod.rs:58-64` -/
def normalPrior (paramVar : String) (priorMean priorStd : F) : Expr F :=
  normalLogPdf (.var paramVar) (.const priorMean) (.const priorStd)

/-- `posterior_log_density`, `mod.rs:69-71` -/
def posteriorLogDensity (likelihood prior : Expr F) : Expr F := .add likelihood prior

/-- `hierarchical_normal`, `mod.rs:76-88` -/
def hierarchicalNormal (xVar muVar sigmaVar tauVar : String) (muPriorMean tauPriorScale : F) :
    Expr F :=
  let likelihood := normalLikelihood xVar muVar sigmaVar
  let muPrior := normalPrior muVar muPriorMean tauPriorScale
  let tauPrior := normalPrior tauVar zero tauPriorScale
  ExprOps.plus (ExprOps.plus likelihood muPrior) tauPrior

/-- The loop of `mixture_likelihood_old`, `mod.rs:98-103`. -/
def mixtureOldFrom (logSumExp : Expr F) : List (F × Expr F) → Expr F
  | [] => logSumExp
  | (weight, component) :: rest =>
    let weighted := ExprOps.plus (.const (ln weight)) component
    mixtureOldFrom (ExprOps.plus logSumExp (.exp weighted)) rest

/-- `mixture_likelihood_old`, `mod.rs:93-106` -/
def mixtureLikelihoodOld (components : List (F × Expr F)) : Expr F :=
  if components.isEmpty then .const negInf
  else .ln (mixtureOldFrom (.const zero) components)

/-- The loop of `mixture_likelihood`, `mod.rs:119-129`.  The code indexes the three slices by
`i = 0..weights.len()`; here they are consumed in step (the asserts before the loop make the
lengths equal, so both visit the same triples). -/
def mixtureFrom (xVar : String) (logSumExp : Expr F) : List F → List F → List F → Expr F
  | w :: ws, m :: ms, s :: ss =>
    let component := normalLogPdf (.var xVar) (.const m) (.const s)
    let weighted := ExprOps.plus (.const (ln w)) component
    mixtureFrom xVar (ExprOps.plus logSumExp (.exp weighted)) ws ms ss
  | _, _, _ => logSumExp

/-- `mixture_likelihood`, `mod.rs:111-132`; the two `assert_eq!` are panics. -/
def mixtureLikelihood (xVar : String) (weights means stds : List F) : Except Panic (Expr F) :=
  if weights.length ≠ means.length then
    .error ⟨"assertion `left == right` failed"⟩
  else if means.length ≠ stds.length then
    .error ⟨"assertion `left == right` failed"⟩
  else if weights.isEmpty then .ok (.const negInf)
  else .ok (.ln (mixtureFrom xVar (.const zero) weights means stds))

end Bayes
end Verif
