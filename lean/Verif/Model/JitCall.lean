import Verif.Model.Jit

/-!
# Calling compiled functions; compiled Bayesian models; automatic JIT; static inline functions
-/

namespace Verif.Jit
open FloatOps

section Calls
variable {F : Type} [FloatOps F] [FloatBits F]

/-- A machine argument: a float, or a pointer / `usize` word. -/
inductive MachineArg (F : Type) where
  | f64 (x : F)
  | word

/-- What a call does: returns, panics, stops on a hardware trap, or has no defined behaviour. -/
inductive CallOutcome (F : Type) where
  | returns (x : F)
  | panics (msg : String)
  | traps
  | undefined

/-- The floats in a machine argument list, if there are only floats. -/
def floatArgs : List (MachineArg F) → Option (List F)
  | [] => some []
  | .f64 x :: rest => (floatArgs rest).map (x :: ·)
  | .word :: _ => none

/-- Calling the code pointer through a transmuted function type.  The compiled function takes
`f.params` floats and returns a float; a call with any other argument types is undefined behaviour
(`std::mem::transmute` of function pointers, Rust reference "calling a function with the wrong call
ABI"). -/
def Compiled.invoke (f : Compiled F) (args : List (MachineArg F)) : CallOutcome F :=
  match floatArgs args with
  | some xs =>
    if xs.length = f.params then
      match exec (xs.map Val.f64) f.code with
      | .ok ρ =>
        match getF ρ f.ret with
        | some x => .returns x
        | none => .undefined
      | .trap => .traps
      | .stuck => .undefined
    else .undefined
  | none => .undefined

/-- `call_single`, `symbolic-math/src/jit.rs:116-132` -/
def Compiled.callSingle (f : Compiled F) (x : F) : CallOutcome F :=
  match f.signature with
  | .singleInput => f.invoke [.f64 x]
  | _ => .panics "Function signature mismatch: expected single input"

/-- `call_data_param`, `jit.rs:135-152` -/
def Compiled.callDataParam (f : Compiled F) (x theta : F) : CallOutcome F :=
  match f.signature with
  | .dataAndParameter => f.invoke [.f64 x, .f64 theta]
  | _ => .panics "Function signature mismatch: expected data and parameter"

/-- `call_data_params`, `jit.rs:155-185` -/
def Compiled.callDataParams (f : Compiled F) (x : F) (params : List F) : CallOutcome F :=
  match f.signature with
  | .dataAndParameters n =>
    if params.length = n then
      match n, params with
      | 2, [a, b] => f.invoke [.f64 x, .f64 a, .f64 b]
      | 3, [a, b, c] => f.invoke [.f64 x, .f64 a, .f64 b, .f64 c]
      | _, _ => .panics ("Unsupported parameter count: " ++ toString n)
    else .panics "Parameter count mismatch"
  | _ => .panics "Function signature mismatch: expected data and parameters"

/-- `call_batch`, `jit.rs:188-212`: the function pointer is called with
`(data.as_ptr(), data.len(), params.as_ptr(), params.len())`. -/
def Compiled.callBatch (f : Compiled F) (data params : List F) : CallOutcome F :=
  match f.signature with
  | .multipleDataAndParameters dataDims paramDims =>
    if data.length = dataDims then
      if params.length = paramDims then f.invoke [.word, .word, .word, .word]
      else .panics "Parameter dimension mismatch"
    else .panics "Data dimension mismatch"
  | _ => .panics "Function signature mismatch: expected batch data and parameters"

end Calls

/-! ### `JITEval` entry points -/

section JitEvalCompile
variable {F : Type} [FloatOps F]

/-- `JITEval::compile`, `symbolic-math/src/final_tagless.rs:995-1001`.  The variables come out of a
`HashSet` in unspecified order: `order` is that order. -/
def compileAuto (e : JitRepr F) (order : List String) : Except JitError (Compiled F) :=
  compileFinalTagless e order [] []

/-- `JITEval::compile_with_signature`, `final_tagless.rs:1004-1011` -/
def compileWithSignature (e : JitRepr F) (ds ps : List String) : Except JitError (Compiled F) :=
  compileFinalTagless e ds ps []

/-- `JITEval::compile_single_var`, `final_tagless.rs:1014-1020` -/
def compileSingleVar (e : JitRepr F) (v : String) : Except JitError (Compiled F) :=
  compileFinalTagless e [v] [] []

/-- `JITEval::compile_data_param`, `final_tagless.rs:1023-1035` -/
def compileDataParam (e : JitRepr F) (d p : String) : Except JitError (Compiled F) :=
  compileFinalTagless e [d] [p] []

/-- `JITEval::compile_data_params`, `final_tagless.rs:1038-1045` -/
def compileDataParams (e : JitRepr F) (d : String) (ps : List String) :
    Except JitError (Compiled F) :=
  compileFinalTagless e [d] ps []

/-- `JITEval::compile_with_constants`, `final_tagless.rs:1048-1056` -/
def compileWithConstants (e : JitRepr F) (ds ps : List String) (cs : List (String × F)) :
    Except JitError (Compiled F) :=
  compileFinalTagless e ds ps cs

end JitEvalCompile

/-! ### `BayesianJITOptimizer`, `measures-bayesian/src/bayesian/mod.rs:134-219` -/

/-- `measures-bayesian/src/bayesian/mod.rs:136-143` -/
structure BayesianOptimizer (F : Type) where
  posteriorFn : Option (Compiled F)
  likelihoodFn : Option (Compiled F)
  priorFn : Option (Compiled F)

namespace BayesianOptimizer
variable {F : Type}

/-- `new`, `mod.rs:149-155` -/
def new : BayesianOptimizer F := ⟨none, none, none⟩

section
variable [FloatOps F]

/-- `compile_posterior_jit`, `mod.rs:158-170` -/
def compilePosterior (o : BayesianOptimizer F) (e : Expr F) (ds ps : List String)
    (cs : FMap String F) (k : ℕ) : Except JitError Unit × BayesianOptimizer F :=
  match compileExpression e ds ps cs k with
  | .ok f => (.ok (), { o with posteriorFn := some f })
  | .error err => (.error err, o)

/-- `compile_likelihood_jit`, `mod.rs:173-185` -/
def compileLikelihood (o : BayesianOptimizer F) (e : Expr F) (ds ps : List String)
    (cs : FMap String F) (k : ℕ) : Except JitError Unit × BayesianOptimizer F :=
  match compileExpression e ds ps cs k with
  | .ok f => (.ok (), { o with likelihoodFn := some f })
  | .error err => (.error err, o)

/-- `compile_prior_jit`, `mod.rs:188-198` -/
def compilePrior (o : BayesianOptimizer F) (e : Expr F) (ps : List String)
    (cs : FMap String F) (k : ℕ) : Except JitError Unit × BayesianOptimizer F :=
  match compileExpression e [] ps cs k with
  | .ok f => (.ok (), { o with priorFn := some f })
  | .error err => (.error err, o)

variable [FloatBits F]

/-- `evaluate_posterior`, `mod.rs:201-205` -/
def evaluatePosterior (o : BayesianOptimizer F) (data params : List F) : Option (CallOutcome F) :=
  o.posteriorFn.map fun f => f.callBatch data params

/-- `evaluate_likelihood`, `mod.rs:208-212` -/
def evaluateLikelihood (o : BayesianOptimizer F) (data params : List F) : Option (CallOutcome F) :=
  o.likelihoodFn.map fun f => f.callBatch data params

/-- `evaluate_prior`, `mod.rs:215-217` -/
def evaluatePrior (o : BayesianOptimizer F) (params : List F) : Option (CallOutcome F) :=
  o.priorFn.map fun f => f.callBatch [] params

end
end BayesianOptimizer

/-! ### Automatic JIT, `measures-exponential-family/src/exponential_family/auto_jit.rs` -/

/-- `AutoJITPattern`, `auto_jit.rs:50-56`: the only method of a pattern, from a value of any type
(`A` stands for `dyn Any`). -/
def AutoPattern (A F : Type) := A → Except JitError (SymbolicLogDensity F)

/-- `AutoJITRegistry`, `auto_jit.rs:14-16`; `T` is `TypeId`. -/
structure AutoRegistry (T A F : Type) where
  patterns : FMap T (AutoPattern A F)

namespace AutoRegistry
variable {T A F : Type}

/-- `new`, `auto_jit.rs:21-30` -/
def new : AutoRegistry T A F := ⟨FMap.empty⟩

/-- `register_pattern`, `auto_jit.rs:33-35` -/
def registerPattern [DecidableEq T] (r : AutoRegistry T A F) (t : T) (p : AutoPattern A F) :
    AutoRegistry T A F :=
  ⟨r.patterns.insert t p⟩

/-- `get_pattern`, `auto_jit.rs:39-41` -/
def getPattern (r : AutoRegistry T A F) (t : T) : Option (AutoPattern A F) := r.patterns.get t

end AutoRegistry

/-- `AutoJITOptimizer`, `auto_jit.rs:59-61`; the registry is private and only `new` builds one. -/
structure AutoOptimizer (T A F : Type) where
  registry : AutoRegistry T A F

namespace AutoOptimizer
variable {T A F : Type}

/-- `new`, `auto_jit.rs:66-70` -/
def new : AutoOptimizer T A F := ⟨AutoRegistry.new⟩

/-- `generate_symbolic`, `auto_jit.rs:73-83`; `showType` is the `Debug` text of `TypeId`. -/
def generateSymbolic (showType : T → String) (o : AutoOptimizer T A F) (t : T) (d : A) :
    Except JitError (SymbolicLogDensity F) :=
  match o.registry.getPattern t with
  | some p => p d
  | none => .error (.compilationError ("No pattern registered for type " ++ showType t))

/-- `compile_jit`, `auto_jit.rs:86-101`; `size` counts the entries of the parameter table. -/
def compileJit [FloatOps F] (showType : T → String) (size : FMap String F → ℕ)
    (o : AutoOptimizer T A F) (t : T) (d : A) : Except JitError (Compiled F) :=
  match o.generateSymbolic showType t d with
  | .ok s => compileCustomExpression ⟨s.expression, s.parameters, s.variableNames⟩ (size s.parameters)
  | .error e => .error e

end AutoOptimizer

/-- `AutoJITExt::auto_jit` for every type, `auto_jit.rs:123-126` -/
def autoJit {T A F : Type} [FloatOps F] (showType : T → String) (size : FMap String F → ℕ) (t : T)
    (d : A) : Except JitError (Compiled F) :=
  (AutoOptimizer.new : AutoOptimizer T A F).compileJit showType size t d

/-- `AutoJITExt::auto_symbolic` for every type, `auto_jit.rs:128-131` -/
def autoSymbolic {T A F : Type} (showType : T → String) (t : T) (d : A) :
    Except JitError (SymbolicLogDensity F) :=
  (AutoOptimizer.new : AutoOptimizer T A F).generateSymbolic showType t d

/-! ### Static inline functions, `measures-exponential-family/src/exponential_family/jit.rs` -/

section StaticInline
variable {F : Type} [FloatOps F]

/-- `StaticInlineJITCompiler::compile_normal`, `jit.rs:225-238`: the function called by `call`. -/
def staticNormal (mu sigma : F) : F → F :=
  let sigmaSq := sigma *. sigma
  let twoSigmaSq := ofRat 2 *. sigmaSq
  let logNorm := ofRat (-1/2) *. FloatOps.ln (ofRat 2 *. pi *. sigmaSq)
  fun x =>
    let diff := x -. mu
    logNorm -. (diff *. diff) /. twoSigmaSq

/-- `StaticInlineJITCompiler::compile_exponential`, `jit.rs:257-269` -/
def staticExponential (lambda : F) : F → F :=
  let logLambda := FloatOps.ln lambda
  fun x => if FloatOps.ge x zero then logLambda -. lambda *. x else negInf

end StaticInline

end Verif.Jit
