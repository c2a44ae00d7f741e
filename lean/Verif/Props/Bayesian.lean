import Verif.Props.Builders
import Verif.Model.Bayesian
import Mathlib.Probability.Distributions.Gaussian.Real

/-! C71, C72, C73: Bayesian model expressions; C79: operator overloads. -/

namespace Verif
open Classical Spec XReal ProbabilityTheory Bayes

/-- The Gaussian density with mean `m` and standard deviation `s`. -/
noncomputable def Spec.gauss (m s x : ℝ) : ℝ := gaussianPDFReal m (s ^ 2).toNNReal x

section C71
variable {ρ : String → Option ℝ}

/-- `normal_likelihood` denotes the log-density of the observation given mean and scale, whatever
the three names are (they may coincide). -/
theorem C71_normal_likelihood (xv mv sv : String) {x m s : ℝ} (hx : ρ xv = some x)
    (hm : ρ mv = some m) (hs : ρ sv = some s) (h0 : 0 < s) :
    Denotes ρ (normalLikelihood xv mv sv) (Real.log (gauss m s x)) :=
  C55_normal_log_pdf _ _ _ hx hm hs h0

/-- A scale variable bound to a number that is not positive is reported. -/
theorem C71_bad_scale (xv mv sv : String) {s : ℝ} (hs : ρ sv = some s) (h0 : s ≤ 0) :
    (normalLikelihood xv mv sv : Expr XReal).evaluate (env ρ) =
      .error (.invalidLogarithm (fin s)) :=
  C55_normal_log_pdf_bad_scale _ _ _ hs h0

/-- `normal_prior` denotes the log-density of the parameter under the stated prior. -/
theorem C71_normal_prior (pv : String) (m s : ℝ) {p : ℝ} (hp : ρ pv = some p) (h0 : 0 < s) :
    Denotes ρ (normalPrior pv (fin m) (fin s)) (Real.log (gauss m s p)) :=
  C55_normal_log_pdf _ _ _ hp (value_const m) (value_const s) h0

/-- `posterior_log_density` denotes the sum of the two log-densities, for arbitrary expressions. -/
theorem C71_posterior (l p : Expr XReal) {a b : ℝ} (hl : value ρ l = some a)
    (hp : value ρ p = some b) : Denotes ρ (posteriorLogDensity l p) (a + b) :=
  denotes_of_value (value_add.mpr ⟨_, hl, _, hp, rfl⟩)

/-- It fails exactly when one of the two fails: with the likelihood's error first. -/
theorem C71_posterior_errors (l p : Expr XReal) (vars : FMap String XReal) :
    (posteriorLogDensity l p).evaluate vars =
      match l.evaluate vars, p.evaluate vars with
      | .ok a, .ok b => .ok (FloatOps.add a b)
      | .error e, _ => .error e
      | .ok _, .error e => .error e := by
  rw [posteriorLogDensity, Expr.evaluate_add]
  cases l.evaluate vars <;> cases p.evaluate vars <;> rfl

/-- Likelihood and prior combined: the logarithm of the product of the densities. -/
theorem C71_normal_normal_posterior (xv mv sv : String) (m₀ s₀ : ℝ) {x m s : ℝ}
    (hx : ρ xv = some x) (hm : ρ mv = some m) (hs : ρ sv = some s) (h0 : 0 < s) (h1 : 0 < s₀) :
    Denotes ρ (posteriorLogDensity (normalLikelihood xv mv sv) (normalPrior mv (fin m₀) (fin s₀)))
      (Real.log (gauss m s x * gauss m₀ s₀ m)) := by
  have p1 : gauss m s x ≠ 0 := (gaussianPDFReal_pos _ _ _ (by simp [h0.ne'])).ne'
  have p2 : gauss m₀ s₀ m ≠ 0 := (gaussianPDFReal_pos _ _ _ (by simp [h1.ne'])).ne'
  rw [Real.log_mul p1 p2]
  exact C71_posterior _ _ (C71_normal_likelihood xv mv sv hx hm hs h0).1
    (C71_normal_prior mv m₀ s₀ hm h1).1

example : ∃ ρ : String → Option ℝ, ρ "x" = some 1.5 ∧ ρ "mu" = some (-2) ∧ ρ "sigma" = some 3 :=
  ⟨fun n => if n = "x" then some 1.5 else if n = "mu" then some (-2) else some 3, by simp⟩

end C71

section C73
variable {ρ : String → Option ℝ}

/-- `hierarchical_normal` denotes the logarithm of likelihood × prior of `mu` × prior of `tau`;
both priors have the scale `tau_prior_scale`. -/
theorem C73_hierarchical_normal (xv mv sv tv : String) (m₀ s₀ : ℝ) {x m s t : ℝ}
    (hx : ρ xv = some x) (hm : ρ mv = some m) (hs : ρ sv = some s) (ht : ρ tv = some t)
    (h0 : 0 < s) (h1 : 0 < s₀) :
    Denotes ρ (hierarchicalNormal xv mv sv tv (fin m₀) (fin s₀))
      (Real.log (gauss m s x * gauss m₀ s₀ m * gauss 0 s₀ t)) := by
  have p1 : gauss m s x ≠ 0 := (gaussianPDFReal_pos _ _ _ (by simp [h0.ne'])).ne'
  have p2 : gauss m₀ s₀ m ≠ 0 := (gaussianPDFReal_pos _ _ _ (by simp [h1.ne'])).ne'
  have p3 : gauss 0 s₀ t ≠ 0 := (gaussianPDFReal_pos _ _ _ (by simp [h1.ne'])).ne'
  rw [Real.log_mul (mul_ne_zero p1 p2) p3, Real.log_mul p1 p2]
  exact denotes_of_value (value_add.mpr ⟨_, value_add.mpr
    ⟨_, (C71_normal_likelihood xv mv sv hx hm hs h0).1, _, (C71_normal_prior mv m₀ s₀ hm h1).1, rfl⟩,
    _, (C71_normal_prior tv 0 s₀ ht h1).1, rfl⟩)

/-- The value of `tau` never enters the prior of `mu`: changing it shifts the log-density by an
amount that does not depend on `x`, `mu` or `sigma`. -/
theorem C73_tau_separates (xv mv sv tv : String) (m₀ s₀ : ℝ) (h1 : 0 < s₀) (t t' : ℝ)
    (htx : tv ≠ xv) (htm : tv ≠ mv) (hts : tv ≠ sv) :
    ∃ d : ℝ, ∀ x m s : ℝ, 0 < s → ∀ ρ ρ' : String → Option ℝ,
      ρ xv = some x → ρ mv = some m → ρ sv = some s → ρ tv = some t →
      ρ' = Function.update ρ tv (some t') →
      ∃ v, Denotes ρ (hierarchicalNormal xv mv sv tv (fin m₀) (fin s₀)) v ∧
        Denotes ρ' (hierarchicalNormal xv mv sv tv (fin m₀) (fin s₀)) (v + d) := by
  refine ⟨Real.log (gauss 0 s₀ t') - Real.log (gauss 0 s₀ t), ?_⟩
  rintro x m s h0 ρ ρ' hx hm hs ht rfl
  refine ⟨_, C73_hierarchical_normal xv mv sv tv m₀ s₀ hx hm hs ht h0 h1, ?_⟩
  have := C73_hierarchical_normal (ρ := Function.update ρ tv (some t')) xv mv sv tv m₀ s₀
    (x := x) (m := m) (s := s) (t := t') (by simpa [Function.update_of_ne htx.symm] using hx)
    (by simpa [Function.update_of_ne htm.symm] using hm)
    (by simpa [Function.update_of_ne hts.symm] using hs) (by simp) h0 h1
  have p1 : gauss m s x ≠ 0 := (gaussianPDFReal_pos _ _ _ (by simp [h0.ne'])).ne'
  have p2 : gauss m₀ s₀ m ≠ 0 := (gaussianPDFReal_pos _ _ _ (by simp [h1.ne'])).ne'
  have p3 : ∀ t, gauss 0 s₀ t ≠ 0 := fun t => (gaussianPDFReal_pos _ _ _ (by simp [h1.ne'])).ne'
  rw [Real.log_mul (mul_ne_zero p1 p2) (p3 _)] at this ⊢
  convert this using 1
  ring

example : ∃ ρ : String → Option ℝ, ρ "x" = some 1.5 ∧ ρ "mu" = some (-2) ∧ ρ "sigma" = some 3 ∧
    ρ "tau" = some 0.5 :=
  ⟨fun n => if n = "x" then some 1.5 else if n = "mu" then some (-2) else
    if n = "sigma" then some 3 else some 0.5, by simp⟩

end C73

section C72
variable {ρ : String → Option ℝ}

theorem bind_ok {ε α β : Type} (a : α) (f : α → Except ε β) : (Except.ok a >>= f) = f a := rfl

theorem evaluate_weighted (vars : FMap String XReal) (acc comp : Expr XReal) {a v w : ℝ}
    (ha : acc.evaluate vars = .ok (fin a)) (hc : comp.evaluate vars = .ok (fin v)) (hw : 0 ≤ w) :
    (ExprOps.plus acc (.exp (ExprOps.plus (.const (FloatOps.ln (fin w))) comp))).evaluate vars =
      .ok (fin (a + w * Real.exp v)) := by
  rw [ExprOps.plus, Expr.evaluate_add, ha, bind_ok, Expr.evaluate, ExprOps.plus, Expr.evaluate_add, hc]
  rcases hw.eq_or_lt with rfl | hw
  · simp [Expr.evaluate, bind_ok, f_ln_zero, f_exp_ninf]
  · simp [Expr.evaluate, bind_ok, f_ln _ hw, Real.exp_add, Real.exp_log hw]

theorem evaluate_ln_pos (vars : FMap String XReal) (e : Expr XReal) {a : ℝ}
    (h : e.evaluate vars = .ok (fin a)) (ha : 0 < a) :
    (Expr.ln e).evaluate vars = .ok (fin (Real.log a)) := by
  simp [Expr.evaluate, h, bind_ok, f_ln _ ha, not_le.mpr ha]

theorem evaluate_ln_nonpos (vars : FMap String XReal) (e : Expr XReal) {a : ℝ}
    (h : e.evaluate vars = .ok (fin a)) (ha : a ≤ 0) :
    (Expr.ln e).evaluate vars = .error (.invalidLogarithm (fin a)) := by
  simp [Expr.evaluate, h, bind_ok, ha]

/-- A mixture component: weight, mean, scale. -/
structure Spec.Component where
  weight : ℝ
  mean : ℝ
  scale : ℝ

/-- The mixture density `Σ wᵢ N(x; mᵢ, sᵢ)`. -/
noncomputable def Spec.mixtureDensity (cs : List Component) (x : ℝ) : ℝ :=
  (cs.map fun c => c.weight * gauss c.mean c.scale x).sum

/-- `mixture_likelihood` called with the three columns of a list of components. -/
noncomputable def Spec.mixtureCall (xv : String) (cs : List Component) : Except Panic (Expr XReal) :=
  mixtureLikelihood xv (cs.map fun c => fin c.weight) (cs.map fun c => fin c.mean)
    (cs.map fun c => fin c.scale)

/-- `mixture_likelihood` panics exactly when the three slices do not have one common length. -/
theorem C72_panics_iff {F : Type} [FloatOps F] (xv : String) (ws ms ss : List F) :
    (∃ p, mixtureLikelihood xv ws ms ss = .error p) ↔
      ¬ (ws.length = ms.length ∧ ms.length = ss.length) := by
  unfold mixtureLikelihood
  split_ifs <;> simp_all

theorem mixtureFrom_value (xv : String) {x : ℝ} (hx : ρ xv = some x) (cs : List Component)
    (hw : ∀ c ∈ cs, 0 ≤ c.weight) (hs : ∀ c ∈ cs, 0 < c.scale) (acc : Expr XReal) (a : ℝ)
    (ha : acc.evaluate (env ρ) = .ok (fin a)) :
    (mixtureFrom xv acc (cs.map fun c => fin c.weight) (cs.map fun c => fin c.mean)
      (cs.map fun c => fin c.scale)).evaluate (env ρ) = .ok (fin (a + mixtureDensity cs x)) := by
  induction cs generalizing acc a with
  | nil => simpa [mixtureFrom, mixtureDensity] using ha
  | cons c cs ih =>
    simp only [List.map_cons, mixtureFrom]
    have hc := (C55_normal_log_pdf (ρ := ρ) (.var xv) (.const (fin c.mean)) (.const (fin c.scale))
      (a := x) hx (value_const _) (value_const _) (hs c (by simp))).2
    have hstep := evaluate_weighted (env ρ) acc _ ha hc (hw c (by simp))
    have hpos : 0 < gauss c.mean c.scale x :=
      gaussianPDFReal_pos _ _ _ (by simp [(hs c (by simp)).ne'])
    rw [ih (fun c h => hw c (by simp [h])) (fun c h => hs c (by simp [h])) _ _ hstep]
    have he : Real.exp (Real.log (gaussianPDFReal c.mean (c.scale ^ 2).toNNReal x)) =
      gauss c.mean c.scale x := Real.exp_log hpos
    rw [he]
    simp [mixtureDensity, add_assoc]

theorem mixtureDensity_pos (cs : List Component) (hw : ∀ c ∈ cs, 0 ≤ c.weight)
    (hs : ∀ c ∈ cs, 0 < c.scale) (hp : ∃ c ∈ cs, 0 < c.weight) (x : ℝ) :
    0 < mixtureDensity cs x := by
  obtain ⟨c, hc, hcw⟩ := hp
  have h0 : ∀ c ∈ cs, 0 ≤ c.weight * gauss c.mean c.scale x := fun c h =>
    mul_nonneg (hw c h) (gaussianPDFReal_nonneg _ _ _)
  have h1 : c.weight * gauss c.mean c.scale x ≤ mixtureDensity cs x :=
    List.single_le_sum (by simpa using h0) _ (List.mem_map_of_mem hc)
  have h2 : 0 < gauss c.mean c.scale x :=
    gaussianPDFReal_pos _ _ _ (by simp [(hs c hc).ne'])
  exact lt_of_lt_of_le (mul_pos hcw h2) h1

/-- For any number of components with nonnegative weights (zero included), one of them positive,
and positive scales, `mixture_likelihood` evaluates to the logarithm of the mixture density. -/
theorem C72_mixture_value (xv : String) {x : ℝ} (hx : ρ xv = some x) (cs : List Component)
    (hw : ∀ c ∈ cs, 0 ≤ c.weight) (hs : ∀ c ∈ cs, 0 < c.scale) (hp : ∃ c ∈ cs, 0 < c.weight) :
    ∃ e, mixtureCall xv cs = .ok e ∧
      e.evaluate (env ρ) = .ok (fin (Real.log (mixtureDensity cs x))) := by
  have hne : cs ≠ [] := by rintro rfl; simp at hp
  refine ⟨.ln (mixtureFrom xv (.const FloatOps.zero) (cs.map fun c => fin c.weight)
    (cs.map fun c => fin c.mean) (cs.map fun c => fin c.scale)),
    by simp [mixtureCall, mixtureLikelihood, hne], ?_⟩
  have hpos := mixtureDensity_pos cs hw hs hp x
  have := mixtureFrom_value xv hx cs hw hs (.const FloatOps.zero) 0 rfl
  rw [zero_add] at this
  exact evaluate_ln_pos _ _ this hpos

/-- With no component the expression is the constant `−∞`. -/
theorem C72_empty (xv : String) :
    mixtureLikelihood (F := XReal) xv [] [] [] = .ok (.const ninf) := rfl

/-- If all weights are zero evaluation reports the logarithm of zero. -/
theorem C72_all_weights_zero (xv : String) {x : ℝ} (hx : ρ xv = some x) (cs : List Component)
    (hne : cs ≠ []) (hw : ∀ c ∈ cs, c.weight = 0) (hs : ∀ c ∈ cs, 0 < c.scale) :
    ∃ e, mixtureCall xv cs = .ok e ∧
      e.evaluate (env ρ) = .error (.invalidLogarithm (fin 0)) := by
  refine ⟨.ln (mixtureFrom xv (.const FloatOps.zero) (cs.map fun c => fin c.weight)
    (cs.map fun c => fin c.mean) (cs.map fun c => fin c.scale)),
    by simp [mixtureCall, mixtureLikelihood, hne], ?_⟩
  have := mixtureFrom_value xv hx cs (fun c h => (hw c h).ge) hs (.const FloatOps.zero) 0 rfl
  have h0 : mixtureDensity cs x = 0 := by
    unfold mixtureDensity
    apply List.sum_eq_zero
    intro y hy
    obtain ⟨c, hc, rfl⟩ := List.mem_map.mp hy
    rw [hw c hc, zero_mul]
  rw [zero_add, h0] at this
  exact evaluate_ln_nonpos _ _ this le_rfl

theorem mixtureDensity_integral (cs : List Component) (hs : ∀ c ∈ cs, 0 < c.scale)
    (h1 : (cs.map (·.weight)).sum = 1) : ∫ x, mixtureDensity cs x = 1 := by
  have key : ∀ cs : List Component, (∀ c ∈ cs, 0 < c.scale) →
      MeasureTheory.Integrable (mixtureDensity cs) ∧
        ∫ x, mixtureDensity cs x = (cs.map (·.weight)).sum := by
    intro cs
    induction cs with
    | nil => intro _; simp [mixtureDensity]; exact MeasureTheory.integrable_zero _ _ _
    | cons c cs ih =>
      intro hs
      obtain ⟨hi, hv⟩ := ih (fun c h => hs c (by simp [h]))
      have hc : MeasureTheory.Integrable (fun x => c.weight * gauss c.mean c.scale x) :=
        (integrable_gaussianPDFReal _ _).const_mul _
      have hfun : mixtureDensity (c :: cs) =
          fun x => c.weight * gauss c.mean c.scale x + mixtureDensity cs x := by
        funext x; simp [mixtureDensity]
      rw [hfun]
      refine ⟨hc.add hi, ?_⟩
      rw [MeasureTheory.integral_add hc hi, hv, MeasureTheory.integral_const_mul]
      have : ∫ x, gauss c.mean c.scale x = 1 :=
        integral_gaussianPDFReal_eq_one _ (by simp [(hs c (by simp)).ne'])
      rw [this]; simp
  rw [(key cs hs).2, h1]

/-- The density an evaluation result stands for (−1 for an error, which no density is). -/
noncomputable def Spec.resultDensity : Except (EvalError XReal) XReal → ℝ
  | .ok v => v.density
  | .error _ => -1

/-- The mixture whose weights sum to one is a probability density: what the expression evaluates
to, exponentiated, integrates to one over the data variable. -/
theorem C72_mixture_normalised (xv : String) (cs : List Component) (hw : ∀ c ∈ cs, 0 ≤ c.weight)
    (hs : ∀ c ∈ cs, 0 < c.scale) (h1 : (cs.map (·.weight)).sum = 1) :
    ∃ e, mixtureCall xv cs = .ok e ∧
      ∫ x, resultDensity (e.evaluate (env (single xv x))) = 1 := by
  have hp : ∃ c ∈ cs, 0 < c.weight := by
    by_contra hc
    push Not at hc
    have : (cs.map (·.weight)).sum = 0 := List.sum_eq_zero (by
      intro y hy
      obtain ⟨c, h, rfl⟩ := List.mem_map.mp hy
      exact le_antisymm (hc c h) (hw c h))
    linarith
  obtain ⟨e, he, -⟩ := C72_mixture_value (ρ := single xv 0) xv (x := 0) (by simp [single]) cs hw hs hp
  refine ⟨e, he, ?_⟩
  rw [← mixtureDensity_integral cs hs h1]
  congr 1
  funext x
  obtain ⟨e', he', hv⟩ := C72_mixture_value (ρ := single xv x) xv (x := x) (by simp [single]) cs hw
    hs hp
  obtain rfl : e' = e := by rw [he] at he'; exact (Except.ok.inj he').symm
  rw [hv]
  exact Real.exp_log (mixtureDensity_pos cs hw hs hp x)

/-- The older entry point takes arbitrary component expressions: it evaluates to
`ln Σ wᵢ exp(lᵢ)` where `lᵢ` is what the i-th component evaluates to. -/
theorem C72_mixture_old (cs : List (ℝ × Expr XReal × ℝ)) (hw : ∀ c ∈ cs, 0 ≤ c.1)
    (hv : ∀ c ∈ cs, value ρ c.2.1 = some c.2.2) (hp : ∃ c ∈ cs, 0 < c.1) :
    (mixtureLikelihoodOld (cs.map fun c => (fin c.1, c.2.1))).evaluate (env ρ) =
      .ok (fin (Real.log (cs.map fun c => c.1 * Real.exp c.2.2).sum)) := by
  have key : ∀ (cs : List (ℝ × Expr XReal × ℝ)), (∀ c ∈ cs, 0 ≤ c.1) →
      (∀ c ∈ cs, value ρ c.2.1 = some c.2.2) → ∀ (acc : Expr XReal) (a : ℝ),
      acc.evaluate (env ρ) = .ok (fin a) →
      (mixtureOldFrom acc (cs.map fun c => (fin c.1, c.2.1))).evaluate (env ρ) =
        .ok (fin (a + (cs.map fun c => c.1 * Real.exp c.2.2).sum)) := by
    intro cs
    induction cs with
    | nil => intro _ _ acc a ha; simpa [mixtureOldFrom] using ha
    | cons c cs ih =>
      intro hw hv acc a ha
      simp only [List.map_cons, mixtureOldFrom, List.sum_cons, ← add_assoc]
      exact ih (fun c h => hw c (by simp [h])) (fun c h => hv c (by simp [h])) _ _
        (evaluate_weighted _ _ _ ha (evaluate_of_value ρ _ _ (hv c (by simp))) (hw c (by simp)))
  have hne : cs ≠ [] := by rintro rfl; simp at hp
  have hpos : 0 < (cs.map fun c => c.1 * Real.exp c.2.2).sum := by
    obtain ⟨c, hc, hcw⟩ := hp
    have h0 : ∀ c ∈ cs, 0 ≤ c.1 * Real.exp c.2.2 := fun c h =>
      mul_nonneg (hw c h) (Real.exp_nonneg _)
    exact lt_of_lt_of_le (mul_pos hcw (Real.exp_pos _))
      (List.single_le_sum (by
        intro y hy
        obtain ⟨c, hc, rfl⟩ := List.mem_map.mp hy
        exact h0 c hc) _ (List.mem_map_of_mem (f := fun c => c.1 * Real.exp c.2.2) hc))
  have := key cs hw hv (.const FloatOps.zero) 0 rfl
  rw [zero_add] at this
  simpa [mixtureLikelihoodOld, hne] using evaluate_ln_pos _ _ this hpos

/-- Both entry points build the same expression from the same components. -/
theorem C72_entry_points_agree {F : Type} [FloatOps F] (xv : String) (cs : List (F × F × F)) :
    mixtureLikelihood xv (cs.map (·.1)) (cs.map (·.2.1)) (cs.map (·.2.2)) =
      .ok (mixtureLikelihoodOld (cs.map fun c =>
        (c.1, Builders.normalLogPdf (.var xv) (.const c.2.1) (.const c.2.2)))) := by
  have key : ∀ (cs : List (F × F × F)) (acc : Expr F),
      mixtureFrom xv acc (cs.map (·.1)) (cs.map (·.2.1)) (cs.map (·.2.2)) =
        mixtureOldFrom acc (cs.map fun c =>
          (c.1, Builders.normalLogPdf (.var xv) (.const c.2.1) (.const c.2.2))) := by
    intro cs
    induction cs with
    | nil => intro acc; rfl
    | cons c cs ih => intro acc; simp only [List.map_cons, mixtureFrom, mixtureOldFrom, ih]
  unfold mixtureLikelihood mixtureLikelihoodOld
  by_cases h : cs = []
  · subst h; rfl
  · simp [h, key]

/-- A two-component mixture with one zero weight meets the hypotheses. -/
example : ∃ cs : List Component, (∀ c ∈ cs, 0 ≤ c.weight) ∧ (∀ c ∈ cs, 0 < c.scale) ∧
    (∃ c ∈ cs, 0 < c.weight) ∧ (∃ c ∈ cs, c.weight = 0) ∧ (cs.map (·.weight)).sum = 1 :=
  ⟨[⟨1, 0, 2⟩, ⟨0, -1, 3⟩], by simp⟩

end C72

section C79
variable {ρ : String → Option ℝ}

/-- The overloaded operators denote the arithmetic they are written as, with numbers on either
side. -/
theorem C79_operators (a b : Expr XReal) (c : ℝ) {x y : ℝ} (ha : value ρ a = some x)
    (hb : value ρ b = some y) :
    Denotes ρ (ExprOps.plus a b) (x + y) ∧ Denotes ρ (ExprOps.minus a b) (x - y) ∧
    Denotes ρ (ExprOps.times a b) (x * y) ∧ (y ≠ 0 → Denotes ρ (ExprOps.over a b) (x / y)) ∧
    Denotes ρ (ExprOps.negate a) (-x) ∧
    Denotes ρ (ExprOps.plusF a (fin c)) (x + c) ∧ Denotes ρ (ExprOps.fPlus (fin c) a) (c + x) ∧
    Denotes ρ (ExprOps.minusF a (fin c)) (x - c) ∧ Denotes ρ (ExprOps.fMinus (fin c) a) (c - x) ∧
    Denotes ρ (ExprOps.timesF a (fin c)) (x * c) ∧ Denotes ρ (ExprOps.fTimes (fin c) a) (c * x) ∧
    (c ≠ 0 → Denotes ρ (ExprOps.overF a (fin c)) (x / c)) ∧
    (x ≠ 0 → Denotes ρ (ExprOps.fOver (fin c) a) (c / x)) := by
  refine ⟨?_, ?_, ?_, fun h => ?_, ?_, ?_, ?_, ?_, ?_, ?_, ?_, fun h => ?_, fun h => ?_⟩ <;>
    apply denotes_of_value
  · exact value_add.mpr ⟨_, ha, _, hb, rfl⟩
  · exact value_sub.mpr ⟨_, ha, _, hb, rfl⟩
  · exact value_mul.mpr ⟨_, ha, _, hb, rfl⟩
  · exact value_div.mpr ⟨_, ha, _, hb, h, rfl⟩
  · exact value_neg.mpr ⟨_, ha, rfl⟩
  · exact value_add.mpr ⟨_, ha, _, value_const c, rfl⟩
  · exact value_add.mpr ⟨_, value_const c, _, ha, rfl⟩
  · exact value_sub.mpr ⟨_, ha, _, value_const c, rfl⟩
  · exact value_sub.mpr ⟨_, value_const c, _, ha, rfl⟩
  · exact value_mul.mpr ⟨_, ha, _, value_const c, rfl⟩
  · exact value_mul.mpr ⟨_, value_const c, _, ha, rfl⟩
  · exact value_div.mpr ⟨_, ha, _, value_const c, h, rfl⟩
  · exact value_div.mpr ⟨_, value_const c, _, ha, h, rfl⟩

/-- `square`, `cube` and `abs` denote `x²`, `x³` and `|x|` for every real value, and `powf`,
`natural_log`, `exponential`, `square_root` the functions of the same name (`powf` also for integer
exponents of any base and for base zero). -/
theorem C79_methods (a b : Expr XReal) {x y : ℝ} (ha : value ρ a = some x)
    (hb : value ρ b = some y) :
    Denotes ρ (ExprOps.square a) (x ^ 2) ∧ Denotes ρ (ExprOps.cube a) (x ^ 3) ∧
    Denotes ρ (ExprOps.abs a) |x| ∧
    (0 < x → Denotes ρ (ExprOps.powf a b) (x ^ y)) ∧
    (∀ n : ℤ, y = n → x ≠ 0 ∨ 0 ≤ n → Denotes ρ (ExprOps.powf a b) (x ^ n)) ∧
    (x = 0 → 0 < y → Denotes ρ (ExprOps.powf a b) 0) ∧
    (0 < x → Denotes ρ (ExprOps.naturalLog a) (Real.log x)) ∧
    Denotes ρ (ExprOps.exponential a) (Real.exp x) ∧
    (0 ≤ x → Denotes ρ (ExprOps.squareRoot a) (Real.sqrt x)) := by
  have hsq : value ρ (ExprOps.square a) = some (x ^ 2) :=
    value_mul.mpr ⟨_, ha, _, ha, (sq x).symm⟩
  refine ⟨denotes_of_value hsq, denotes_of_value ?_, denotes_of_value ?_, fun h => denotes_of_value ?_,
    fun n hn h => denotes_of_value ?_, fun h0 hy => denotes_of_value ?_,
    fun h => denotes_of_value ?_, denotes_of_value ?_, fun h => denotes_of_value ?_⟩
  · exact value_mul.mpr ⟨_, hsq, _, ha, by ring⟩
  · exact value_sqrt.mpr ⟨_, hsq, sq_nonneg x, Real.sqrt_sq_eq_abs x⟩
  · exact value_pow.mpr ⟨_, ha, _, hb, by simp [realPow, h]⟩
  · refine value_pow.mpr ⟨_, ha, _, hb, ?_⟩
    rw [hn]
    exact realPow_int x n h
  · exact value_pow.mpr ⟨_, ha, _, hb, by simp [realPow, h0, hy, hy.ne']⟩
  · exact value_ln.mpr ⟨_, ha, h, rfl⟩
  · exact value_exp.mpr ⟨_, ha, rfl⟩
  · exact value_sqrt.mpr ⟨_, ha, h, rfl⟩

/-- Integers and names convert to the constant and the variable they stand for. -/
theorem C79_conversions (k : ℤ) (n : String) :
    Denotes ρ (ExprOps.ofI32 k) k ∧ value ρ (ExprOps.ofName n) = ρ n := by
  refine ⟨denotes_of_value ?_, rfl⟩
  simp [ExprOps.ofI32, value]

example : value (fun _ => some (-2 : ℝ)) (ExprOps.ofName "x" : Expr XReal) = some (-2) := rfl

end C79
end Verif
