import Verif.Props.Jit
import Verif.Props.Continuous
import Verif.Model.JitCall

/-! C63: arity of compiled calls; C64: custom log-densities; C74: compiled Bayesian models;
C75: automatic JIT; C80: static inline functions. -/

namespace Verif
open Classical Jit Spec.Jit FloatOps

/-- The number of machine arguments that a signature describes. -/
def Spec.Jit.arity : JitSignature → ℕ
  | .singleInput => 1
  | .dataAndParameter => 2
  | .dataAndParameters n => 1 + n
  | .multipleDataAndParameters d p => d + p

section C63
variable {F : Type} [FloatOps F] [FloatBits F]

omit [FloatBits F] in
theorem Jit.signatureOf_arity (ds ps : List String) :
    arity (signatureOf ds ps) = ds.length + ps.length := by
  unfold signatureOf
  split_ifs with h1 h2 h3
  · simp only [Bool.and_eq_true, beq_iff_eq, List.isEmpty_iff] at h1
    simp [arity, h1]
  · simp only [Bool.and_eq_true, beq_iff_eq] at h2
    simp [arity, h2]
  · simp only [Bool.and_eq_true, beq_iff_eq] at h3
    simp [arity, h3]
  · simp [arity]

omit [FloatBits F] in
theorem Jit.compile_shape {e : Expr F} {ds ps : List String} {cs : FMap String F} {k : ℕ}
    {f : Compiled F} (hf : compileExpression e ds ps cs k = .ok f) :
    f.params = ds.length + ps.length ∧ f.signature = signatureOf ds ps := by
  simp only [compileExpression] at hf
  split at hf
  · rename_i n code r hb
    have hn : n = ds.length + ps.length := by
      simp only [build] at hb
      split at hb <;> simp_all
    simp only [Except.ok.injEq] at hf
    subst hf
    exact ⟨hn, rfl⟩
  · cases hf

omit [FloatBits F] in
theorem Jit.compileTagless_shape {e : JitRepr F} {ds ps : List String} {cs : List (String × F)}
    {f : Compiled F} (hf : compileFinalTagless e ds ps cs = .ok f) :
    f.params = ds.length + ps.length ∧ f.signature = signatureOf ds ps := by
  simp only [compileFinalTagless] at hf
  split at hf
  · rename_i n code r hb
    have hn : n = ds.length + ps.length := by
      simp only [build] at hb
      split at hb <;> simp_all
    simp only [Except.ok.injEq] at hf
    subst hf
    exact ⟨hn, rfl⟩
  · cases hf

omit [FloatBits F] in
theorem Jit.compileCustom_shape {d : CustomSymbolicLogDensity F} {k : ℕ} {f : Compiled F}
    (hf : compileCustomExpression d k = .ok f) : f.params = 1 ∧ f.signature = .singleInput := by
  simp only [compileCustomExpression] at hf
  split at hf
  · rename_i n code r hb
    have hn : n = 1 := by
      simp only [build] at hb
      split at hb <;> simp_all
    simp only [Except.ok.injEq] at hf
    subst hf
    exact ⟨hn, rfl⟩
  · cases hf

/-- A function that one of the three compilers returned. -/
inductive Spec.Jit.IsCompiled : Compiled F → Prop
  | expression {e : Expr F} {ds ps : List String} {cs : FMap String F} {k : ℕ} {f : Compiled F} :
      compileExpression e ds ps cs k = .ok f → IsCompiled f
  | custom {d : CustomSymbolicLogDensity F} {k : ℕ} {f : Compiled F} :
      compileCustomExpression d k = .ok f → IsCompiled f
  | tagless {e : JitRepr F} {ds ps : List String} {cs : List (String × F)} {f : Compiled F} :
      compileFinalTagless e ds ps cs = .ok f → IsCompiled f

omit [FloatBits F] in
/-- The recorded signature always describes as many arguments as the machine function takes. -/
theorem C63_signature_arity {f : Compiled F} (hf : IsCompiled f) : arity f.signature = f.params := by
  cases hf with
  | expression h => obtain ⟨h1, h2⟩ := Jit.compile_shape h; rw [h1, h2, Jit.signatureOf_arity]
  | custom h => obtain ⟨h1, h2⟩ := Jit.compileCustom_shape h; rw [h1, h2]; rfl
  | tagless h => obtain ⟨h1, h2⟩ := Jit.compileTagless_shape h; rw [h1, h2, Jit.signatureOf_arity]

/-- The result of running the machine function on floats, as the outcome of a call. -/
def Spec.Jit.outcome (f : Compiled F) (args : List F) : CallOutcome F :=
  match run f args with
  | .value x => .returns x
  | .trap => .traps
  | .undefined => .undefined

theorem Jit.invoke_floats (f : Compiled F) (xs : List F) (h : xs.length = f.params) :
    f.invoke (xs.map .f64) = outcome f xs := by
  have hx : ∀ xs : List F, floatArgs (xs.map .f64) = some xs := by
    intro xs
    induction xs with
    | nil => rfl
    | cons x xs ih => simp [floatArgs, ih]
  simp only [Compiled.invoke, hx, h, if_true, outcome, run]
  cases exec (xs.map Val.f64) f.code with
  | ok ρ =>
    dsimp only
    cases getF ρ f.ret <;> rfl
  | trap => rfl
  | stuck => rfl

/-- `call_single`, `call_data_param` and `call_data_params` pass exactly the arguments the machine
function takes, or panic. -/
theorem C63_scalar_calls {f : Compiled F} (hf : IsCompiled f) (x t : F) (ps : List F) :
    (f.callSingle x = outcome f [x] ∧ f.params = 1 ∨ ∃ m, f.callSingle x = .panics m) ∧
    (f.callDataParam x t = outcome f [x, t] ∧ f.params = 2 ∨ ∃ m, f.callDataParam x t = .panics m) ∧
    (f.callDataParams x ps = outcome f (x :: ps) ∧ f.params = 1 + ps.length ∨
      ∃ m, f.callDataParams x ps = .panics m) := by
  have ha := C63_signature_arity hf
  refine ⟨?_, ?_, ?_⟩
  · unfold Compiled.callSingle
    split
    · rename_i hs
      rw [hs] at ha
      exact .inl ⟨Jit.invoke_floats f [x] ha, ha.symm⟩
    · exact .inr ⟨_, rfl⟩
  · unfold Compiled.callDataParam
    split
    · rename_i hs
      rw [hs] at ha
      exact .inl ⟨Jit.invoke_floats f [x, t] ha, ha.symm⟩
    · exact .inr ⟨_, rfl⟩
  · unfold Compiled.callDataParams
    split
    · rename_i n hs
      rw [hs] at ha
      split_ifs with hl
      · split
        · exact .inl ⟨Jit.invoke_floats f [x, _, _] ha, by rw [← ha]; rfl⟩
        · exact .inl ⟨Jit.invoke_floats f [x, _, _, _] ha, by rw [← ha]; rfl⟩
        · exact .inr ⟨_, rfl⟩
      · exact .inr ⟨_, rfl⟩
    · exact .inr ⟨_, rfl⟩

/-- `call_single` works exactly on functions of one variable and no parameter, `call_data_param` on
one variable and one parameter, `call_data_params` on one variable and two or three parameters given
as many values: there they run the machine function, everywhere else they panic. -/
theorem C63_call_domains {e : Expr F} {ds ps : List String} {cs : FMap String F} {k : ℕ}
    {f : Compiled F} (hf : compileExpression e ds ps cs k = .ok f) (x t : F) (vs : List F) :
    (if ds.length = 1 ∧ ps.length = 0 then f.callSingle x = outcome f [x]
      else ∃ m, f.callSingle x = .panics m) ∧
    (if ds.length = 1 ∧ ps.length = 1 then f.callDataParam x t = outcome f [x, t]
      else ∃ m, f.callDataParam x t = .panics m) ∧
    (if ds.length = 1 ∧ (ps.length = 2 ∨ ps.length = 3) ∧ vs.length = ps.length then
        f.callDataParams x vs = outcome f (x :: vs)
      else ∃ m, f.callDataParams x vs = .panics m) := by
  obtain ⟨hp, hs⟩ := Jit.compile_shape hf
  have hsig : f.signature =
      if ds.length = 1 then
        if ps.length = 0 then .singleInput
        else if ps.length = 1 then .dataAndParameter
        else .dataAndParameters ps.length
      else .multipleDataAndParameters ds.length ps.length := by
    rw [hs]
    unfold signatureOf
    by_cases h1 : ds.length = 1
    · rcases Nat.lt_trichotomy ps.length 1 with h | h | h
      · have h0 : ps.length = 0 := by omega
        simp [h1, List.length_eq_zero_iff.mp h0]
      · have : ps ≠ [] := by rintro rfl; simp at h
        simp [h1, h, this]
      · have : ps ≠ [] := by rintro rfl; simp at h
        simp [h1, h, this, show ps.length ≠ 1 by omega]
    · simp [h1]
  refine ⟨?_, ?_, ?_⟩
  · split_ifs with h
    · have : f.signature = .singleInput := by rw [hsig]; simp [h.1, h.2]
      simp only [Compiled.callSingle, this]
      exact Jit.invoke_floats f [x] (by rw [hp]; simp [h.1, h.2])
    · simp only [Compiled.callSingle]
      split
      · rename_i hs'
        rw [hsig] at hs'
        split_ifs at hs' with a b c
        exact absurd ⟨a, b⟩ h
      · exact ⟨_, rfl⟩
  · split_ifs with h
    · have : f.signature = .dataAndParameter := by rw [hsig]; simp [h.1, h.2]
      simp only [Compiled.callDataParam, this]
      exact Jit.invoke_floats f [x, t] (by rw [hp]; simp [h.1, h.2])
    · simp only [Compiled.callDataParam]
      split
      · rename_i hs'
        rw [hsig] at hs'
        split_ifs at hs' with a b c
        exact absurd ⟨a, c⟩ h
      · exact ⟨_, rfl⟩
  · split_ifs with h
    · obtain ⟨h1, h2, h3⟩ := h
      have : f.signature = .dataAndParameters ps.length := by
        rw [hsig]; rcases h2 with h2 | h2 <;> simp [h1, h2]
      simp only [Compiled.callDataParams, this, h3, if_true]
      rcases h2 with h2 | h2
      · rw [h2] at h3 ⊢
        obtain ⟨a, b, rfl⟩ := List.length_eq_two.mp h3
        exact Jit.invoke_floats f [x, a, b] (by rw [hp]; simp [h1, h2])
      · rw [h2] at h3 ⊢
        obtain ⟨a, b, c, rfl⟩ := List.length_eq_three.mp h3
        exact Jit.invoke_floats f [x, a, b, c] (by rw [hp]; simp [h1, h2])
    · simp only [Compiled.callDataParams]
      split
      · rename_i n hs'
        rw [hsig] at hs'
        split_ifs at hs' with a b c
        simp only [JitSignature.dataAndParameters.injEq] at hs'
        subst hs'
        split_ifs with hl
        · split
          · exact absurd ⟨a, .inl (by assumption), hl⟩ h
          · exact absurd ⟨a, .inr (by assumption), hl⟩ h
          · exact ⟨_, rfl⟩
        · exact ⟨_, rfl⟩
      · exact ⟨_, rfl⟩

/-- `call_batch` never returns a number: it passes two pointers and two lengths to a machine function
that takes floats, or panics. -/
theorem C63_call_batch_violated {f : Compiled F} (data ps : List F) :
    f.callBatch data ps = .undefined ∨ ∃ m, f.callBatch data ps = .panics m := by
  unfold Compiled.callBatch
  split
  · split_ifs
    · exact .inl rfl
    · exact .inr ⟨_, rfl⟩
    · exact .inr ⟨_, rfl⟩
  · exact .inr ⟨_, rfl⟩

/-- The undefined case is reached by every function with two data variables and matching slices. -/
theorem C63_call_batch_undefined {e : Expr F} {ds ps : List String} {cs : FMap String F} {k : ℕ}
    {f : Compiled F} (hf : compileExpression e ds ps cs k = .ok f) (hd : ds.length ≠ 1)
    (data vs : List F) (h1 : data.length = ds.length) (h2 : vs.length = ps.length) :
    f.callBatch data vs = .undefined := by
  obtain ⟨-, hs⟩ := Jit.compile_shape hf
  have : f.signature = .multipleDataAndParameters ds.length ps.length := by
    rw [hs]; simp [signatureOf, hd]
  simp [Compiled.callBatch, this, h1, h2, Compiled.invoke, floatArgs]

/-- Exactly when `call_batch` gets past its checks: several data variables (or none) and slices of
the declared lengths.  Everywhere else it panics. -/
theorem C63_call_batch_domains {e : Expr F} {ds ps : List String} {cs : FMap String F} {k : ℕ}
    {f : Compiled F} (hf : compileExpression e ds ps cs k = .ok f) (data vs : List F) :
    if ds.length ≠ 1 ∧ data.length = ds.length ∧ vs.length = ps.length then
      f.callBatch data vs = .undefined
    else ∃ m, f.callBatch data vs = .panics m := by
  split_ifs with h
  · exact C63_call_batch_undefined hf h.1 data vs h.2.1 h.2.2
  · obtain ⟨-, hs⟩ := Jit.compile_shape hf
    by_cases hd : ds.length = 1
    · have : ∀ a b, f.signature ≠ .multipleDataAndParameters a b := by
        intro a b
        rw [hs]
        unfold signatureOf
        rw [hd]
        by_cases hp : ps = []
        · simp [hp]
        · have : 0 < ps.length := List.length_pos_of_ne_nil hp
          by_cases hp1 : ps.length = 1
          · simp [hp, hp1]
          · simp [hp, hp1, show 1 < ps.length by omega]
      unfold Compiled.callBatch
      split
      · rename_i a b hab; exact absurd hab (this a b)
      · exact ⟨_, rfl⟩
    · have hsig : f.signature = .multipleDataAndParameters ds.length ps.length := by
        rw [hs]; simp [signatureOf, hd]
      simp only [Compiled.callBatch, hsig]
      split_ifs with h1 h2
      · exact absurd ⟨hd, h1, h2⟩ h
      · exact ⟨_, rfl⟩
      · exact ⟨_, rfl⟩

example : ∃ f : Compiled F, compileExpression (.add (.var "x") (.var "y")) ["x", "y"] [] FMap.empty 0
    = .ok f ∧ IsCompiled f := by
  obtain ⟨f, hf⟩ := (C59_compiles_iff (F := F) (.add (.var "x") (.var "y")) ["x", "y"] []
    FMap.empty 0).mpr (by
      intro n hn
      cases hn with
      | addL h => cases h; simp
      | addR h => cases h; simp)
  exact ⟨f, hf, .expression hf⟩

end C63

section C64
variable {F : Type} [FloatOps F] [FloatBits F]

/-- Compiling a custom log-density whose only free name (not in the parameter table) is `v`. -/
theorem C64_custom_partial (d : CustomSymbolicLogDensity F) (k : ℕ) (v : String)
    (hv : d.variableNames.head? = some v)
    (hocc : ∀ n, Spec.Occurs n d.expression → n = v ∨ d.parameters.get n ≠ none) :
    ∃ f, compileCustomExpression d k = .ok f ∧ ∀ x,
      f.callSingle x = outcome f [x] ∧
      run f [x] = Result.ofOption (value (d.parameters.insert v x).get d.expression) := by
  obtain ⟨l, hl⟩ : ∃ l, d.variableNames = v :: l := by
    cases h : d.variableNames with
    | nil => simp [h] at hv
    | cons a l => simp [h] at hv; exact ⟨l, by rw [hv]⟩
  have hm : customVarMap d = FMap.empty.insert v 0 := by simp [customVarMap, hl]
  have hk : ∀ n ∈ d.expression.collectVariables, Known (customVarMap d) d.parameters n := by
    intro n hn
    rw [hm]
    rcases hocc n ((Expr.mem_collectVariables _ n).mp hn) with rfl | h
    · left; simp [FMap.insert]
    · exact .inr h
  obtain ⟨r, b', h1, -⟩ := genExpr_appends d.expression hk ⟨1, []⟩
  have hb : build 1 (genExpr (customVarMap d) d.parameters d.expression) = .ok (1, b'.code, r) := by
    simp only [build, h1]
  refine ⟨⟨1, b'.code, r, .singleInput, ⟨64, 8, k, ofRat 25⟩⟩, ?_, fun x => ⟨?_, ?_⟩⟩
  · simp only [compileCustomExpression, hb]
  · exact Jit.invoke_floats ⟨1, b'.code, r, .singleInput, ⟨64, 8, k, ofRat 25⟩⟩ [x] rfl
  · refine run_of_yields hb rfl (entry_ok [x]) (genExpr_yields d.expression hk ?_)
    intro n
    rw [hm]
    by_cases hn : n = v
    · subst hn
      simp only [FMap.insert, if_true]
      exact ⟨x, rfl, mem_entryFacts (by simp)⟩
    · simp [FMap.insert, hn, FMap.empty]

omit [FloatBits F] in
/-- With a parameter whose name sorts before the data variable, the parameter is taken as the input
and the data variable is unknown: the documented use (expression in `x` with a table of
parameters) fails to compile. -/
theorem C64_violated (μ : F) :
    let d := CustomSymbolicLogDensity.new (.sub (.var "x") (.var "mu"))
      ((FMap.empty : FMap String F).insert "mu" μ)
    d.variableNames = ["mu", "x"] ∧
    compileCustomExpression d 1 = .error (.unsupportedExpression "Unknown variable: x") := by
  have h : (Expr.sub (.var "x") (.var "mu") : Expr F).variableNames = ["mu", "x"] := by
    simp only [Expr.variableNames, Expr.collectVariables, List.cons_append, List.nil_append]
    simp [List.mergeSort, List.MergeSort.Internal.splitInTwo, Expr.vecDedup]
  refine ⟨h, ?_⟩
  have hm : customVarMap (CustomSymbolicLogDensity.new (.sub (.var "x") (.var "mu"))
      ((FMap.empty : FMap String F).insert "mu" μ)) = FMap.empty.insert "mu" 0 := by
    simp [customVarMap, CustomSymbolicLogDensity.new, h]
  have := genExpr_error (varMap := (FMap.empty.insert "mu" 0 : FMap String Reg))
    (constants := ((FMap.empty : FMap String F).insert "mu" μ))
    (.sub (.var "x") (.var "mu")) (n := "x") (pre := []) (post := ["mu"]) rfl (by simp)
    (by simp [Known, FMap.insert, FMap.empty]) ⟨1, []⟩
  simp only [compileCustomExpression, hm, build]
  rw [show (CustomSymbolicLogDensity.new (.sub (.var "x") (.var "mu"))
      ((FMap.empty : FMap String F).insert "mu" μ)).expression = .sub (.var "x") (.var "mu") from rfl,
    show (CustomSymbolicLogDensity.new (.sub (.var "x") (.var "mu"))
      ((FMap.empty : FMap String F).insert "mu" μ)).parameters = FMap.empty.insert "mu" μ from rfl,
    this]
  rfl

omit [FloatBits F] in
/-- `evaluate` and `evaluate_single` of a custom log-density use the given variables first and the
parameters for the remaining names. -/
theorem C64_evaluate (d : CustomSymbolicLogDensity F) (vars m : FMap String F)
    (hm : ∀ n, m.get n = (vars.get n).or (d.parameters.get n)) :
    d.evaluate vars = d.expression.evaluate m ∧
    ∀ v x, (∀ n, vars.get n = if n = v then some x else none) →
      d.evaluateSingle v x = d.expression.evaluate m := by
  have h1 : d.parameters.extend vars = m := by
    cases m with | mk g =>
    simp only [FMap.extend, FMap.mk.injEq]
    funext n
    rw [show g n = _ from hm n]
    cases vars.get n <;> rfl
  refine ⟨by rw [CustomSymbolicLogDensity.evaluate, h1], fun v x hv => ?_⟩
  have h2 : d.parameters.insert v x = m := by
    cases m with | mk g =>
    simp only [FMap.insert, FMap.mk.injEq]
    funext n
    rw [show g n = _ from hm n, hv n]
    by_cases h : n = v <;> simp [h]
  rw [CustomSymbolicLogDensity.evaluateSingle, h2]

/-- When the expression has a parameter only, the machine argument replaces the parameter's value. -/
theorem C64_parameter_overridden (c : F) (k : ℕ) :
    ∃ f, compileCustomExpression (CustomSymbolicLogDensity.new (.var "mu")
      ((FMap.empty : FMap String F).insert "mu" c)) k = .ok f ∧ ∀ x, run f [x] = .value x := by
  have h : (Expr.var "mu" : Expr F).variableNames = ["mu"] := by
    simp only [Expr.variableNames, Expr.collectVariables]
    simp [Expr.vecDedup]
  obtain ⟨f, hf, hr⟩ := C64_custom_partial (CustomSymbolicLogDensity.new (.var "mu")
    ((FMap.empty : FMap String F).insert "mu" c)) k "mu" (by simp [CustomSymbolicLogDensity.new, h])
    (by intro n hn; cases hn; exact .inl rfl)
  refine ⟨f, hf, fun x => ?_⟩
  rw [(hr x).2]
  simp [CustomSymbolicLogDensity.new, value, FMap.insert, Result.ofOption]

/-- The hypotheses of `C64_custom_partial` hold for `x - z` with parameter `z`. -/
example (c : F) : (CustomSymbolicLogDensity.new (.sub (.var "x") (.var "z"))
      ((FMap.empty : FMap String F).insert "z" c)).variableNames.head? = some "x" := by
  simp only [CustomSymbolicLogDensity.new, Expr.variableNames, Expr.collectVariables,
    List.cons_append, List.nil_append]
  simp [List.mergeSort, List.MergeSort.Internal.splitInTwo, Expr.vecDedup]

end C64

section C74
variable {F : Type} [FloatOps F] [FloatBits F]

/-- A call of one of the three compile methods. -/
inductive Spec.Jit.CompileOp (F : Type) where
  | posterior (e : Expr F) (ds ps : List String) (cs : FMap String F) (k : ℕ)
  | likelihood (e : Expr F) (ds ps : List String) (cs : FMap String F) (k : ℕ)
  | prior (e : Expr F) (ps : List String) (cs : FMap String F) (k : ℕ)

/-- The optimiser after one call. -/
def Spec.Jit.CompileOp.apply (o : BayesianOptimizer F) : CompileOp F → BayesianOptimizer F
  | .posterior e ds ps cs k => (o.compilePosterior e ds ps cs k).2
  | .likelihood e ds ps cs k => (o.compileLikelihood e ds ps cs k).2
  | .prior e ps cs k => (o.compilePrior e ps cs k).2

/-- The function compiled by a successful `compile_posterior_jit` call; nothing for other calls. -/
def Spec.Jit.CompileOp.posterior? : CompileOp F → Option (Compiled F)
  | .posterior e ds ps cs k => (compileExpression e ds ps cs k).toOption
  | _ => none

/-- The function compiled by a successful `compile_likelihood_jit` call. -/
def Spec.Jit.CompileOp.likelihood? : CompileOp F → Option (Compiled F)
  | .likelihood e ds ps cs k => (compileExpression e ds ps cs k).toOption
  | _ => none

/-- The function compiled by a successful `compile_prior_jit` call (no data variables). -/
def Spec.Jit.CompileOp.prior? : CompileOp F → Option (Compiled F)
  | .prior e ps cs k => (compileExpression e [] ps cs k).toOption
  | _ => none

/-- After any history of calls, each evaluation method uses the most recent successful compilation of
its own kind and returns `None` when there was none. -/
theorem C74_history (ops : List (CompileOp F)) (data ps : List F) :
    let o := ops.foldl CompileOp.apply BayesianOptimizer.new
    o.evaluatePosterior data ps =
        (ops.reverse.findSome? CompileOp.posterior?).map (·.callBatch data ps) ∧
    o.evaluateLikelihood data ps =
        (ops.reverse.findSome? CompileOp.likelihood?).map (·.callBatch data ps) ∧
    o.evaluatePrior ps = (ops.reverse.findSome? CompileOp.prior?).map (·.callBatch [] ps) := by
  have key : ∀ (ops : List (CompileOp F)),
      (ops.foldl CompileOp.apply BayesianOptimizer.new).posteriorFn =
        ops.reverse.findSome? CompileOp.posterior? ∧
      (ops.foldl CompileOp.apply BayesianOptimizer.new).likelihoodFn =
        ops.reverse.findSome? CompileOp.likelihood? ∧
      (ops.foldl CompileOp.apply BayesianOptimizer.new).priorFn =
        ops.reverse.findSome? CompileOp.prior? := by
    intro ops
    induction ops using List.reverseRecOn with
    | nil => simp [BayesianOptimizer.new]
    | append_singleton ops op ih =>
      obtain ⟨h1, h2, h3⟩ := ih
      simp only [List.foldl_append, List.foldl_cons, List.foldl_nil, List.reverse_append,
        List.reverse_cons, List.reverse_nil, List.nil_append, List.cons_append, List.findSome?_cons]
      cases op with
      | posterior e ds ps cs k =>
        simp only [CompileOp.apply, BayesianOptimizer.compilePosterior, CompileOp.posterior?,
          CompileOp.likelihood?, CompileOp.prior?]
        cases compileExpression e ds ps cs k <;> simp [h1, h2, h3, Except.toOption]
      | likelihood e ds ps cs k =>
        simp only [CompileOp.apply, BayesianOptimizer.compileLikelihood, CompileOp.posterior?,
          CompileOp.likelihood?, CompileOp.prior?]
        cases compileExpression e ds ps cs k <;> simp [h1, h2, h3, Except.toOption]
      | prior e ps cs k =>
        simp only [CompileOp.apply, BayesianOptimizer.compilePrior, CompileOp.posterior?,
          CompileOp.likelihood?, CompileOp.prior?]
        cases compileExpression e [] ps cs k <;> simp [h1, h2, h3, Except.toOption]
  obtain ⟨h1, h2, h3⟩ := key ops
  simp only [BayesianOptimizer.evaluatePosterior, BayesianOptimizer.evaluateLikelihood,
    BayesianOptimizer.evaluatePrior, h1, h2, h3, and_self]

omit [FloatBits F] in
/-- A compile method reports the compiler's error and then leaves every slot as it was. -/
theorem C74_failed_compile (o : BayesianOptimizer F) (e : Expr F) (ds ps : List String)
    (cs : FMap String F) (k : ℕ) {err : JitError} :
    (compileExpression e ds ps cs k = .error err →
      o.compilePosterior e ds ps cs k = (.error err, o) ∧
      o.compileLikelihood e ds ps cs k = (.error err, o)) ∧
    (compileExpression e [] ps cs k = .error err → o.compilePrior e ps cs k = (.error err, o)) := by
  refine ⟨fun h => ?_, fun h => ?_⟩
  · simp [BayesianOptimizer.compilePosterior, BayesianOptimizer.compileLikelihood, h]
  · simp [BayesianOptimizer.compilePrior, h]

/-- No evaluation method ever returns a number, whatever was compiled: they all go through
`call_batch`. -/
theorem C74_never_returns_violated (ops : List (CompileOp F)) (data ps : List F) (y : F) :
    let o := ops.foldl CompileOp.apply BayesianOptimizer.new
    o.evaluatePosterior data ps ≠ some (.returns y) ∧
    o.evaluateLikelihood data ps ≠ some (.returns y) ∧
    o.evaluatePrior ps ≠ some (.returns y) := by
  have h : ∀ (f : Compiled F) data ps, f.callBatch data ps ≠ .returns y := by
    intro f data ps
    rcases C63_call_batch_violated (f := f) data ps with h | ⟨m, h⟩ <;> rw [h] <;> simp
  refine ⟨?_, ?_, ?_⟩
  · simp only [BayesianOptimizer.evaluatePosterior]
    intro hc
    obtain ⟨f, -, hf⟩ := Option.map_eq_some_iff.mp hc
    exact h f _ _ hf
  · simp only [BayesianOptimizer.evaluateLikelihood]
    intro hc
    obtain ⟨f, -, hf⟩ := Option.map_eq_some_iff.mp hc
    exact h f _ _ hf
  · simp only [BayesianOptimizer.evaluatePrior]
    intro hc
    obtain ⟨f, -, hf⟩ := Option.map_eq_some_iff.mp hc
    exact h f _ _ hf

/-- A history with a failed and two successful compilations. -/
example : ∃ f g : Compiled F,
    [CompileOp.prior (F := F) (.var "t") ["t"] FMap.empty 0, .prior (.var "u") ["t"] FMap.empty 0,
      .posterior (.var "x") ["x"] ["t"] FMap.empty 0].reverse.findSome? CompileOp.prior? = some f ∧
    [CompileOp.prior (F := F) (.var "t") ["t"] FMap.empty 0, .prior (.var "u") ["t"] FMap.empty 0,
      .posterior (.var "x") ["x"] ["t"] FMap.empty 0].reverse.findSome? CompileOp.posterior?
      = some g :=
  ⟨_, _, rfl, rfl⟩

end C74

section C75
variable {F T A : Type}

/-- The registry answers with the most recent registration for a type. -/
theorem C75_last_registration_wins [DecidableEq T] (regs : List (T × AutoPattern A F)) (t : T) :
    (regs.foldl (fun r p => r.registerPattern p.1 p.2) AutoRegistry.new).getPattern t =
      regs.reverse.findSome? (fun p => if p.1 = t then some p.2 else none) := by
  induction regs using List.reverseRecOn with
  | nil => rfl
  | append_singleton regs p ih =>
    simp only [List.foldl_append, List.foldl_cons, List.foldl_nil, List.reverse_append,
      List.reverse_cons, List.reverse_nil, List.nil_append, List.cons_append, List.findSome?_cons,
      ← ih, AutoRegistry.registerPattern, AutoRegistry.getPattern, FMap.insert]
    by_cases h : t = p.1
    · simp [h]
    · simp [h, Ne.symm h]

/-- An optimiser over a registry with a pattern uses it; the compiled function comes from the
pattern's expression. -/
theorem C75_registered_pattern_used [FloatOps F] (showType : T → String) (size : FMap String F → ℕ)
    (o : AutoOptimizer T A F) (t : T) (d : A) (p : AutoPattern A F)
    (hp : o.registry.getPattern t = some p) :
    o.generateSymbolic showType t d = p d ∧
    ∀ s, p d = .ok s → o.compileJit showType size t d =
      compileCustomExpression ⟨s.expression, s.parameters, s.variableNames⟩ (size s.parameters) := by
  refine ⟨by simp [AutoOptimizer.generateSymbolic, hp], fun s hs => ?_⟩
  simp [AutoOptimizer.compileJit, AutoOptimizer.generateSymbolic, hp, hs]

/-- `auto_jit` and `auto_symbolic` fail for every value of every type: they always use a new
optimiser, whose registry is empty. -/
theorem C75_auto_always_fails_violated [FloatOps F] (showType : T → String)
    (size : FMap String F → ℕ) (t : T) (d : A) :
    (autoJit showType size t d : Except JitError (Compiled F)) =
      .error (.compilationError ("No pattern registered for type " ++ showType t)) ∧
    (autoSymbolic showType t d : Except JitError (SymbolicLogDensity F)) =
      .error (.compilationError ("No pattern registered for type " ++ showType t)) :=
  ⟨rfl, rfl⟩

example (p q : AutoPattern A F) :
    ([(1, p), (2, p), (1, q)].foldl (fun r p => r.registerPattern p.1 p.2)
      (AutoRegistry.new : AutoRegistry ℕ A F)).getPattern 1 = some q := by
  rw [C75_last_registration_wins]; rfl

end C75

section C80
open XReal ProbabilityTheory

/-- The static inline Normal function is the library's Normal log-density. -/
theorem C80_static_normal {μ σ : ℝ} {d : Normal XReal} (h : Normal.new (fin μ) (fin σ) = .ok d)
    (x : ℝ) : staticNormal (fin μ) (fin σ) (fin x) = logDensityWrtRoot d (fin x) ∧
      density (staticNormal (fin μ) (fin σ) (fin x)) = gaussianPDFReal μ (σ ^ 2).toNNReal x := by
  have key : staticNormal (fin μ) (fin σ) (fin x) = logDensityWrtRoot d (fin x) := by
    obtain ⟨hσ, rfl⟩ := Normal.new_ok h
    rw [Normal.ld hσ]
    have h2 : (0 : ℝ) < 2 * Real.pi * (σ * σ) := by positivity
    have h3 : (2 : ℝ) * (σ * σ) ≠ 0 := by positivity
    simp only [staticNormal, f_ofRat, f_pi, f_mul, f_sub]
    push_cast
    rw [f_ln _ h2, f_div _ _ h3]
    simp only [f_mul, f_sub, fin.injEq]
    rw [Real.log_mul (by positivity) (by positivity), Real.log_mul hσ.ne' hσ.ne']
    field_simp
    ring
  refine ⟨key, ?_⟩
  rw [key]
  exact (C09_normal_density h).1 x

/-- The static inline Exponential function is the library's Exponential log-density on all of ℝ. -/
theorem C80_static_exponential {r : ℝ} {d : Exponential XReal} (h : Exponential.new (fin r) = .ok d)
    (x : ℝ) : staticExponential (fin r) (fin x) = logDensityWrtRoot d (fin x) ∧
      density (staticExponential (fin r) (fin x)) = exponentialPDFReal r x := by
  obtain ⟨h1, h2, h3, -⟩ := C10_exponential_density h
  have key : staticExponential (fin r) (fin x) = logDensityWrtRoot d (fin x) := by
    obtain ⟨hr, rfl⟩ := Exponential.new_ok h
    rcases le_or_gt 0 x with hx | hx
    · rw [h1 x hx]
      simp [staticExponential, hx, f_ln _ hr]
    · rw [h2 x hx]
      simp [staticExponential, not_le.mpr hx]
  exact ⟨key, by rw [key]; exact h3 x⟩

/-- Nothing is validated: a negative rate or a zero scale gives NaN instead of an error. -/
theorem C80_unchecked (μ x r : ℝ) (hx : 0 ≤ x) (hr : r < 0) :
    staticExponential (fin r) (fin x) = nan ∧ staticNormal (fin μ) (fin 0) (fin x) = nan := by
  constructor
  · simp [staticExponential, hx, f_ln_neg _ hr]
  · have h : (fin (-1/2) *. ninf : XReal) = pinf := by
      show infOf _ = _; simp [infOf]; norm_num
    simp only [staticNormal, f_ofRat, f_pi, f_mul, f_sub, mul_zero, f_ln_zero, f_div_zero]
    push_cast
    rw [h]
    by_cases hd : x = μ
    · subst hd; simp [infOf]
    · have : 0 < (x - μ) * (x - μ) := mul_self_pos.mpr (sub_ne_zero.mpr hd)
      simp only [infOf, this, if_true]; rfl

end C80

section C81
variable {F : Type} [FloatOps F] [FloatBits F]

/-- `order` lists the variables of a recorded computation once each: what iterating over its set of
variables can produce. -/
def Spec.Jit.IsVariableOrder (e : JitRepr F) (order : List String) : Prop :=
  order.Nodup ∧ ∀ n, n ∈ order ↔ n ∈ e.collectVariables

omit [FloatBits F] in
/-- Automatic compilation always succeeds, in whatever order the variables come. -/
theorem C81_auto_compiles (e : JitRepr F) (order : List String) (ho : IsVariableOrder e order) :
    ∃ f, compileAuto e order = .ok f :=
  (C59_tagless_compiles_iff e order [] []).mpr fun n hn => .inl ((ho.2 n).mpr hn)

/-- With exactly one variable the result does not depend on anything else and `call_single` evaluates
the computation at its argument. -/
theorem C81_auto_single_partial (e : JitRepr F) (order : List String) (ho : IsVariableOrder e order)
    {f : Compiled F} (hf : compileAuto e order = .ok f) (v : String)
    (hv : ∀ n, n ∈ e.collectVariables ↔ n = v) (x : F) :
    order = [v] ∧ f.callSingle x = outcome f [x] ∧
      run f [x] = Result.ofOption (reprValue (fun n => if n = v then some x else none) e) := by
  have h1 : order = [v] := by
    obtain ⟨hn, hm⟩ := ho
    cases order with
    | nil => exact absurd ((hm v).mpr ((hv v).mpr rfl)) (by simp)
    | cons a l =>
      have ha : a = v := (hv a).mp ((hm a).mp (by simp))
      subst ha
      cases l with
      | nil => rfl
      | cons b l =>
        have hb : b = a := (hv b).mp ((hm b).mp (by simp))
        subst hb
        simp at hn
  subst h1
  refine ⟨rfl, ?_, ?_⟩
  · obtain ⟨hp, hs⟩ := Jit.compileTagless_shape hf
    have : f.signature = .singleInput := by rw [hs]; rfl
    simp only [Compiled.callSingle, this]
    exact Jit.invoke_floats f [x] hp.symm
  · rw [C59_tagless_computes e [v] [] [] hf [x] rfl]
    congr 2
    funext n
    simp [taglessBindings, lookupArgs, eq_comm]

/-- With no variable, or two or more, no call method ever returns a number. -/
theorem C81_auto_unusable_violated (e : JitRepr F) (order : List String) {f : Compiled F}
    (hf : compileAuto e order = .ok f) (hl : order.length ≠ 1) (x t y : F) (vs ws : List F) :
    f.callSingle x ≠ .returns y ∧ f.callDataParam x t ≠ .returns y ∧
    f.callDataParams x vs ≠ .returns y ∧ f.callBatch vs ws ≠ .returns y := by
  obtain ⟨-, hs⟩ := Jit.compileTagless_shape hf
  have hs : f.signature = .multipleDataAndParameters order.length 0 := by
    rw [hs]; simp [signatureOf, hl]
  refine ⟨?_, ?_, ?_, ?_⟩
  · simp [Compiled.callSingle, hs]
  · simp [Compiled.callDataParam, hs]
  · simp [Compiled.callDataParams, hs]
  · rcases C63_call_batch_violated (f := f) vs ws with h | ⟨m, h⟩ <;> rw [h] <;> simp

/-- Two runs that see the variables in different orders build functions whose arguments are
swapped. -/
theorem C81_auto_order_violated (a b : F) :
    let e : JitRepr F := .sub (.named "x") (.named "y")
    IsVariableOrder e ["x", "y"] ∧ IsVariableOrder e ["y", "x"] ∧
    ∃ f g, compileAuto e ["x", "y"] = .ok f ∧ compileAuto e ["y", "x"] = .ok g ∧
      run f [a, b] = .value (a -. b) ∧ run g [a, b] = .value (b -. a) := by
  have h1 : IsVariableOrder (.sub (.named "x") (.named "y") : JitRepr F) ["x", "y"] :=
    ⟨by decide, by simp [JitRepr.collectVariables]⟩
  have h2 : IsVariableOrder (.sub (.named "x") (.named "y") : JitRepr F) ["y", "x"] :=
    ⟨by decide, by simp [JitRepr.collectVariables, or_comm]⟩
  obtain ⟨f, hf⟩ := C81_auto_compiles _ _ h1
  obtain ⟨g, hg⟩ := C81_auto_compiles _ _ h2
  refine ⟨h1, h2, f, g, hf, hg, ?_, ?_⟩
  · rw [C59_tagless_computes _ _ _ _ hf [a, b] rfl]
    simp [reprValue, taglessBindings, lookupArgs, Result.ofOption]
  · rw [C59_tagless_computes _ _ _ _ hg [a, b] rfl]
    simp [reprValue, taglessBindings, lookupArgs, Result.ofOption]

/-- The explicit entry points bind names to positions as documented. -/
theorem C81_explicit_entry_points (e : JitRepr F) (d p : String) (hd : d ≠ p) (x t : F) :
    (∀ f, compileSingleVar e d = .ok f → f.callSingle x = outcome f [x] ∧
      run f [x] = Result.ofOption (reprValue (fun n => if n = d then some x else none) e)) ∧
    (∀ f, compileDataParam e d p = .ok f → f.callDataParam x t = outcome f [x, t] ∧
      run f [x, t] = Result.ofOption (reprValue
        (fun n => if n = d then some x else if n = p then some t else none) e)) := by
  refine ⟨fun f hf => ⟨?_, ?_⟩, fun f hf => ⟨?_, ?_⟩⟩
  · obtain ⟨hp, hs⟩ := Jit.compileTagless_shape hf
    have : f.signature = .singleInput := by rw [hs]; rfl
    simp only [Compiled.callSingle, this]
    exact Jit.invoke_floats f [x] hp.symm
  · rw [C59_tagless_computes e [d] [] [] hf [x] rfl]
    congr 2
    funext n
    simp [taglessBindings, lookupArgs, eq_comm]
  · obtain ⟨hp, hs⟩ := Jit.compileTagless_shape hf
    have : f.signature = .dataAndParameter := by rw [hs]; rfl
    simp only [Compiled.callDataParam, this]
    exact Jit.invoke_floats f [x, t] hp.symm
  · rw [C59_tagless_computes e [d] [p] [] hf [x, t] rfl]
    congr 2
    funext n
    by_cases h1 : p = n
    · subst h1; simp [taglessBindings, lookupArgs, Ne.symm hd]
    · simp [taglessBindings, lookupArgs, h1, Ne.symm h1, eq_comm]

example : IsVariableOrder (.add (.named "x") (.exp (.named "x")) : JitRepr F) ["x"] :=
  ⟨by decide, by simp [JitRepr.collectVariables]⟩

end C81
end Verif
