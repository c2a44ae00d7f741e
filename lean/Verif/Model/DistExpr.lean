import Verif.Model.Tagless
import Verif.Model.JitCall
import Verif.Model.DistContinuous
import Verif.Model.DistDiscrete

/-!
# Model of the specialised interpreters, of `DistributionExpr`, and of `compile_jit`

A value of the carrier `Except Panic F` is a computation: it returns a number or panics.  Operands
are evaluated from left to right.
-/

namespace Verif
open FloatOps

section Interpreters
variable {F : Type} [FloatOps F]

/-- An operator call: both operands are evaluated, left first. -/
def strict2 (f : F → F → F) (a b : Except Panic F) : Except Panic F := do
  let x ← a
  let y ← b
  .ok (f x y)

/-- A function call. -/
def strict1 (f : F → F) (a : Except Panic F) : Except Panic F := do
  let x ← a
  .ok (f x)

/-- `impl MathExpr for DistributionEval`,
`measures-distributions/src/distributions/final_tagless.rs:309-383` -/
def distributionEval : MathExpr F (Except Panic F) where
  constant v := .ok v
  var _ := .error ⟨"Use DistributionEval::var(name, value) for direct evaluation"⟩
  add := strict2 FloatOps.add
  sub := strict2 FloatOps.sub
  mul := strict2 FloatOps.mul
  div := strict2 FloatOps.div
  pow := strict2 FloatOps.powf
  neg := strict1 FloatOps.neg
  ln := strict1 FloatOps.ln
  exp := strict1 FloatOps.exp
  sqrt := strict1 FloatOps.sqrt
  sin := strict1 FloatOps.sin
  cos := strict1 FloatOps.cos

/-- `impl MathExpr for ExpFamEval`,
`measures-exponential-family/src/exponential_family/final_tagless.rs:246-320` -/
def expFamEval : MathExpr F (Except Panic F) where
  constant v := .ok v
  var _ := .error ⟨"Use ExpFamEval::var(name, value) for direct evaluation"⟩
  add := strict2 FloatOps.add
  sub := strict2 FloatOps.sub
  mul := strict2 FloatOps.mul
  div := strict2 FloatOps.div
  pow := strict2 FloatOps.powf
  neg := strict1 FloatOps.neg
  ln := strict1 FloatOps.ln
  exp := strict1 FloatOps.exp
  sqrt := strict1 FloatOps.sqrt
  sin := strict1 FloatOps.sin
  cos := strict1 FloatOps.cos

omit [FloatOps F] in
/-- The inherent `DistributionEval::var(name, value)`,
`measures-distributions/src/distributions/final_tagless.rs:262-266`, and `ExpFamEval::var`,
`measures-exponential-family/src/exponential_family/final_tagless.rs:215-219`; also
`DirectEval::var`, `symbolic-math/src/final_tagless.rs:306-310` and
`mathjit/src/final_tagless.rs:457-461`: the name is ignored. -/
def evalVar (_name : String) (value : F) : Except Panic F := .ok value

end Interpreters

/-! ### `DistributionExpr` and `DistributionMathExpr` -/

namespace Tagless
variable {F R : Type}

/-- `DistributionExpr::survival`,
`measures-distributions/src/distributions/final_tagless.rs:69-74`, for an implementation whose
distribution function is `cdf` -/
def survival [FloatOps F] (E : MathExpr F R) (cdf : R → List R → Except Panic R) (x : R)
    (params : List R) : Except Panic R := do
  let c ← cdf x params
  .ok (E.sub (E.constant one) c)

/-- `DistributionExpr::log_cdf`, `…/final_tagless.rs:79-84` -/
def logCdf (E : MathExpr F R) (cdf : R → List R → Except Panic R) (x : R) (params : List R) :
    Except Panic R := do
  let c ← cdf x params
  .ok (E.ln c)

/-- `DistributionExpr::log_survival`, `…/final_tagless.rs:89-97` -/
def logSurvival [FloatOps F] (E : MathExpr F R) (cdf : R → List R → Except Panic R) (x : R)
    (params : List R) : Except Panic R := do
  let s ← survival E cdf x params
  .ok (E.ln s)

/-- `DistributionMathExpr::beta_function`, `…/final_tagless.rs:558-571` -/
def betaFunction (E : MathExpr F R) (gam : R → Except Panic R) (alpha beta : R) :
    Except Panic R := do
  let a ← gam alpha
  let b ← gam beta
  let c ← gam (E.add alpha beta)
  .ok (E.div (E.mul a b) c)

/-- `DistributionMathExpr::erfc`, `…/final_tagless.rs:591-593` -/
def erfc [FloatOps F] (E : MathExpr F R) (erf : R → Except Panic R) (x : R) : Except Panic R := do
  let e ← erf x
  .ok (E.sub (E.constant one) e)

/-- `erf` of the blanket `DistributionMathExpr`, `…/final_tagless.rs:602-604` -/
def blanketErf (_x : R) : Except Panic R := .error ⟨"erf not implemented for this interpreter"⟩

/-- `log_density` of the blanket `DistributionExpr`, `…/final_tagless.rs:164-172`.  The blanket
implementation covers every `MathExpr`, so no interpreter has another one. -/
def blanketLogDensity (_x : R) (_params : List R) : Except Panic R :=
  .error ⟨"log_density not implemented for this distribution"⟩
/-- `cdf`, `…/final_tagless.rs:174-179` -/
def blanketCdf (_x : R) (_params : List R) : Except Panic R :=
  .error ⟨"cdf not implemented for this distribution"⟩
/-- `mgf`, `…/final_tagless.rs:181-186` -/
def blanketMgf (_t : R) (_params : List R) : Except Panic R :=
  .error ⟨"mgf not implemented for this distribution"⟩
/-- `characteristic`, `…/final_tagless.rs:188-196` -/
def blanketCharacteristic (_t : R) (_params : List R) : Except Panic R :=
  .error ⟨"characteristic not implemented for this distribution"⟩
/-- `raw_moment`, `…/final_tagless.rs:198-206` -/
def blanketRawMoment (_k : R) (_params : List R) : Except Panic R :=
  .error ⟨"raw_moment not implemented for this distribution"⟩
/-- `central_moment`, `…/final_tagless.rs:208-216` -/
def blanketCentralMoment (_k : R) (_params : List R) : Except Panic R :=
  .error ⟨"central_moment not implemented for this distribution"⟩
/-- `standardized_moment`, `…/final_tagless.rs:218-226` -/
def blanketStandardizedMoment (_k : R) (_params : List R) : Except Panic R :=
  .error ⟨"standardized_moment not implemented for this distribution"⟩
/-- `entropy`, `…/final_tagless.rs:228-233` -/
def blanketEntropy (_params : List R) : Except Panic R :=
  .error ⟨"entropy not implemented for this distribution"⟩
/-- `kl_divergence`, `…/final_tagless.rs:235-243` -/
def blanketKlDivergence (_p _q : List R) : Except Panic R :=
  .error ⟨"kl_divergence not implemented for this distribution"⟩
/-- `fisher_information`, `…/final_tagless.rs:245-252` -/
def blanketFisherInformation (_params : List R) : Except Panic (List (List R)) :=
  .error ⟨"fisher_information not implemented for this distribution"⟩

/-- The functions of `DistributionExpr` and `DistributionMathExpr` that a user can call on an
interpreter and that return one number, `…/final_tagless.rs:48-158` and `548-594`. -/
inductive DistFn where
  | logDensity | cdf | survival | logCdf | logSurvival | mgf | characteristic | rawMoment
  | centralMoment | standardizedMoment | entropy | klDivergence | gammaFunction | logGamma
  | betaFunction | logBeta | erf | erfc
deriving DecidableEq, Repr

/-- A call of such a function as shipped; `x`, `y` are its scalar arguments and `p`, `q` its
parameter slices (each function uses those it has). -/
def DistFn.call [FloatOps F] (E : MathExpr F R) (x y : R) (p q : List R) : DistFn → Except Panic R
  | .logDensity => blanketLogDensity x p
  | .cdf => blanketCdf x p
  | .survival => Tagless.survival E blanketCdf x p
  | .logCdf => Tagless.logCdf E blanketCdf x p
  | .logSurvival => Tagless.logSurvival E blanketCdf x p
  | .mgf => blanketMgf x p
  | .characteristic => blanketCharacteristic x p
  | .rawMoment => blanketRawMoment x p
  | .centralMoment => blanketCentralMoment x p
  | .standardizedMoment => blanketStandardizedMoment x p
  | .entropy => blanketEntropy p
  | .klDivergence => blanketKlDivergence p q
  | .gammaFunction => Tagless.gammaFunction x
  | .logGamma => logGammaFunction E Tagless.gammaFunction x
  | .betaFunction => Tagless.betaFunction E Tagless.gammaFunction x y
  | .logBeta => Tagless.logBeta E Tagless.gammaFunction x y
  | .erf => blanketErf x
  | .erfc => Tagless.erfc E blanketErf x

end Tagless

/-! ### `JITOptimizer` and `CustomJITOptimizer` -/

namespace Jit
variable {F : Type}

/-- The distributions with a `compile_jit`. -/
inductive JitDistribution (F : Type) where
  | chiSquared (d : ChiSquared F)
  | exponential (d : Exponential F)
  | gamma (d : Gamma F)
  | beta (d : Beta F)
  | bernoulli (d : Bernoulli F)
  | binomial (d : Binomial F)
  | categorical (d : Categorical F)
  | geometric (d : Geometric F)
  | negativeBinomial (d : NegativeBinomial F)

/-- `JITOptimizer::compile_jit`, `measures-distributions/src/distributions/continuous/chi_squared.rs:152-169`,
`continuous/exponential.rs:129-140`, `continuous/gamma.rs:150-165`, `continuous/beta.rs:166-188`,
`discrete/bernoulli.rs:131-149`, `discrete/binomial.rs:126-142`, `discrete/categorical.rs:217-234`,
`discrete/geometric.rs:133-149`, `discrete/negative_binomial.rs:135-157`.  The unused local numbers
are dropped; for `f64` their conversions succeed. -/
def compileJit : JitDistribution F → Except JitError (Compiled F)
  | .chiSquared _ =>
    .error (.unsupportedExpression "ChiSquared distribution JIT compilation not yet implemented")
  | .exponential _ =>
    .error (.unsupportedExpression
      "JIT compilation for Exponential distribution not yet implemented")
  | .gamma _ =>
    .error (.unsupportedExpression "Gamma distribution JIT compilation not yet implemented")
  | .beta _ =>
    .error (.unsupportedExpression "Beta distribution JIT compilation not yet implemented")
  | .bernoulli _ =>
    .error (.unsupportedExpression "Bernoulli distribution JIT compilation not yet implemented")
  | .binomial _ =>
    .error (.unsupportedExpression "Binomial distribution JIT compilation not yet implemented")
  | .categorical _ =>
    .error (.unsupportedExpression "Categorical distribution JIT compilation not yet implemented")
  | .geometric _ =>
    .error (.unsupportedExpression "Geometric distribution JIT compilation not yet implemented")
  | .negativeBinomial _ =>
    .error (.unsupportedExpression
      "NegativeBinomial distribution JIT compilation not yet implemented")

/-- `CustomJITOptimizer::compile_custom_jit` (the default),
`measures-exponential-family/src/exponential_family/jit.rs:93-99`; `symbolic` is what the
implementation's `custom_symbolic_log_density` returns. -/
def compileCustomJit [FloatOps F] (symbolic : CustomSymbolicLogDensity F) (nParameters : ℕ) :
    Except JitError (Compiled F) :=
  compileCustomExpression symbolic nParameters

end Jit
end Verif
