import Verif.Spec.Tagless
import Verif.Model.DistExpr
import Verif.Props.Tagless
import Verif.Lemmas.Num
import Mathlib.Analysis.SpecialFunctions.Gaussian.GaussianIntegral
import Mathlib.Probability.Distributions.Beta

/-!
# C82, C83, C86: specialised interpreters, distribution functions, `compile_jit`
-/

namespace Verif
open XReal Spec Tagless

/-! ### C82 -/
section C82
variable {F : Type} [FloatOps F]

/-- **C82**, `DistributionEval`: every program gives exactly what `DirectEval` gives. -/
theorem C82_distribution_eval (p : Program F) (hp : Parametric p) (ρ : String → F) :
    p (Except Panic F) distributionEval (fun n => evalVar n (ρ n)) = .ok (p F directEval ρ) := by
  refine hp (Except Panic F) F (fun a b => a = .ok b) distributionEval directEval _ ρ ?_
    (fun _ => rfl)
  constructor <;> intros <;> simp_all [directEval, distributionEval, strict1, strict2] <;> rfl

/-- **C82**, `ExpFamEval`. -/
theorem C82_exp_fam_eval (p : Program F) (hp : Parametric p) (ρ : String → F) :
    p (Except Panic F) expFamEval (fun n => evalVar n (ρ n)) = .ok (p F directEval ρ) := by
  refine hp (Except Panic F) F (fun a b => a = .ok b) expFamEval directEval _ ρ ?_
    (fun _ => rfl)
  constructor <;> intros <;> simp_all [directEval, expFamEval, strict1, strict2] <;> rfl

/-- What a program built with the trait's own `var` gives: a panic as soon as it has a variable. -/
def traitVarOutcome (msg : String) (ρ : String → F) (g : JitRepr F) : Except Panic F :=
  if g.collectVariables = [] then .ok (graphValue ρ g) else .error ⟨msg⟩

/-- **C82**: a program that takes its variables from the trait (`E::var(name)`) panics in these two
interpreters exactly if it has a variable, whatever else it does; otherwise it gives its value. -/
theorem C82_trait_var (p : Program F) (hp : Parametric p) (ρ : String → F) :
    p (Except Panic F) distributionEval distributionEval.var =
      traitVarOutcome "Use DistributionEval::var(name, value) for direct evaluation" ρ
        (p (JitRepr F) jitEval .named) ∧
    p (Except Panic F) expFamEval expFamEval.var =
      traitVarOutcome "Use ExpFamEval::var(name, value) for direct evaluation" ρ
        (p (JitRepr F) jitEval .named) := by
  constructor
  · refine hp (Except Panic F) (JitRepr F) (fun a g => a = traitVarOutcome _ ρ g) distributionEval
      jitEval _ .named ?_ (fun n => by simp [traitVarOutcome, distributionEval,
        JitRepr.collectVariables])
    constructor <;> intros <;> subst_vars <;>
      simp only [distributionEval, jitEval, traitVarOutcome, JitRepr.collectVariables, graphValue,
        List.append_eq_nil_iff, strict1, strict2] <;>
      (try split_ifs) <;> (try simp_all) <;> rfl
  · refine hp (Except Panic F) (JitRepr F) (fun a g => a = traitVarOutcome _ ρ g) expFamEval
      jitEval _ .named ?_ (fun n => by simp [traitVarOutcome, expFamEval,
        JitRepr.collectVariables])
    constructor <;> intros <;> subst_vars <;>
      simp only [expFamEval, jitEval, traitVarOutcome, JitRepr.collectVariables, graphValue,
        List.append_eq_nil_iff, strict1, strict2] <;>
      (try split_ifs) <;> (try simp_all) <;> rfl

/-- By contrast `DirectEval` goes on with the number zero for every variable taken from the trait. -/
theorem C82_direct_var_is_zero (p : Program F) (hp : Parametric p) :
    p F directEval directEval.var =
      graphValue (fun _ => FloatOps.zero) (p (JitRepr F) jitEval .named) := by
  refine hp F (JitRepr F) (fun v g => v = graphValue (fun _ => FloatOps.zero) g) directEval jitEval
    _ .named ?_ (fun _ => rfl)
  constructor <;> intros <;> simp_all [directEval, jitEval, graphValue]

end C82

/-- the normal log-density pattern is a program that meets the hypotheses of C82 -/
example : Parametric (F := XReal)
    (fun _ E a => normalLogDensity E (a "x") (a "mu") (a "sigma")) := by
  intro R S rel E E' a b h hab
  exact h.sub _ _ _ _ (h.sub _ _ _ _ (h.neg _ _ (h.mul _ _ _ _ (h.constant _) (h.ln _ _
    (h.constant _)))) (h.ln _ _ (hab _))) (h.mul _ _ _ _ (h.constant _) (h.mul _ _ _ _
    (h.div _ _ _ _ (h.sub _ _ _ _ (hab _) (hab _)) (hab _))
    (h.div _ _ _ _ (h.sub _ _ _ _ (hab _) (hab _)) (hab _))))

/-- a program with a variable panics when it takes it from the trait -/
example : expFamEval.add (expFamEval.constant (fin 1)) (expFamEval.var "x") =
    .error ⟨"Use ExpFamEval::var(name, value) for direct evaluation"⟩ := rfl

/-! ### C83 -/

/-- **C83**: given a distribution function with value `P ∈ [0, 1]`, the survival function is
`1 − P` and the two logarithms are those of `P` and of `1 − P`, minus infinity at probability
zero. -/
theorem C83_survival_partial (cdf : XReal → List XReal → Except Panic XReal) (x : XReal)
    (ps : List XReal) (P : ℝ) (hP0 : 0 ≤ P) (hP1 : P ≤ 1) (h : cdf x ps = .ok (fin P)) :
    survival directEval cdf x ps = .ok (fin (1 - P)) ∧
    logCdf (F := XReal) directEval cdf x ps = .ok (if P = 0 then .ninf else fin (Real.log P)) ∧
    logSurvival directEval cdf x ps =
      .ok (if P = 1 then .ninf else fin (Real.log (1 - P))) := by
  have hs : survival directEval cdf x ps = .ok (fin (1 - P)) := by
    simp [survival, h, directEval, bind, Except.bind]
  have hln : ∀ a : ℝ, 0 ≤ a →
      FloatOps.ln (fin a) = if a = 0 then XReal.ninf else fin (Real.log a) := by
    intro a ha
    rcases ha.eq_or_lt with rfl | ha
    · simp
    · rw [f_ln _ ha, if_neg ha.ne']
  refine ⟨hs, ?_, ?_⟩
  · have : (directEval (F := XReal)).ln (fin P) = FloatOps.ln (fin P) := rfl
    simp [logCdf, h, bind, Except.bind, this, hln P hP0]
  · have : (directEval (F := XReal)).ln (fin (1 - P)) = FloatOps.ln (fin (1 - P)) := rfl
    simp only [logSurvival, hs, bind, Except.bind, this, hln _ (sub_nonneg.mpr hP1)]
    by_cases h1 : P = 1
    · simp [h1]
    · rw [if_neg h1, if_neg (by intro h2; exact h1 (by linarith))]

/-- **C83**: given a correct Gamma function, `beta_function` is Euler's integral
`∫₀¹ tᵅ⁻¹ (1 − t)ᵝ⁻¹ dt`. -/
theorem C83_beta_partial (gam : XReal → Except Panic XReal)
    (hg : ∀ a : ℝ, 0 < a → gam (fin a) = .ok (fin (Real.Gamma a))) (α β : ℝ) (hα : 0 < α)
    (hβ : 0 < β) :
    betaFunction (F := XReal) directEval gam (fin α) (fin β) =
      .ok (fin (ProbabilityTheory.beta α β)) := by
  have hsum : (directEval (F := XReal)).add (fin α) (fin β) = fin (α + β) := by
    simp [directEval]
  have h0 : Real.Gamma (α + β) ≠ 0 := (Real.Gamma_pos_of_pos (by linarith)).ne'
  simp [betaFunction, hg _ hα, hg _ hβ, hsum, hg _ (by linarith : 0 < α + β), bind, Except.bind]
  simp [directEval, f_div _ _ h0, ProbabilityTheory.beta]

/-- **C83**: given the error function, `erfc` is its complement. -/
theorem C83_erfc_partial (erf : XReal → Except Panic XReal) (x : XReal) (e : ℝ)
    (h : erf x = .ok (fin e)) : erfc directEval erf x = .ok (fin (1 - e)) := by
  simp [erfc, h, directEval, bind, Except.bind]

/-- **C83**: as shipped, none of these functions returns: each of them panics on every interpreter
and every argument, and so does the Fisher information. -/
theorem C83_all_panic_violated {F R : Type} [FloatOps F] (E : MathExpr F R) (f : DistFn) (x y : R)
    (p q : List R) :
    (∃ m, f.call E x y p q = .error m) ∧ ∃ m, blanketFisherInformation p = .error m := by
  refine ⟨?_, _, rfl⟩
  cases f <;> exact ⟨_, rfl⟩

/-- the hypotheses of C83 are met: a fair coin seen at zero, and the true Gamma function -/
example : survival directEval (fun _ _ => .ok (fin (1/2))) (fin 0) [] = .ok (fin (1 - 1/2)) ∧
    betaFunction (F := XReal) directEval
      (fun a => match a with | .fin r => .ok (fin (Real.Gamma r)) | _ => .error ⟨""⟩)
      (fin 2) (fin 3) = .ok (fin (ProbabilityTheory.beta 2 3)) :=
  ⟨(C83_survival_partial _ _ _ (1/2) (by norm_num) (by norm_num) rfl).1,
    C83_beta_partial _ (fun _ _ => rfl) 2 3 (by norm_num) (by norm_num)⟩

/-! ### C86 -/

/-- **C86**: `compile_jit` never gives a compiled function, for any distribution and parameters: it
returns the error "unsupported expression" with a text that names the distribution. -/
theorem C86_compile_jit_violated {F : Type} (d : Jit.JitDistribution F) :
    ∃ text, Jit.compileJit d = .error (.unsupportedExpression text) ∧ text ≠ "" := by
  cases d <;> exact ⟨_, rfl, by decide⟩

/-- Different kinds of distributions are told apart by their error. -/
theorem C86_error_names_kind {F : Type} (d e : Jit.JitDistribution F)
    (h : Jit.compileJit d = Jit.compileJit e) : d.ctorIdx = e.ctorIdx := by
  cases d <;> cases e <;> first
    | rfl
    | (simp only [Jit.compileJit, Except.error.injEq, Jit.JitError.unsupportedExpression.injEq] at h
       exact absurd h (by decide))

end Verif
