import Verif.Lemmas.SymbolicVars
import Verif.Props.SymbolicEval

/-! C53: log-densities with parameters. -/

namespace Verif
open Classical Spec XReal

section generic
variable {F : Type}
open SymbolicLogDensity

/-- After substitution exactly the variables that are not parameters are left. -/
theorem C53_no_parameter_left (d : SymbolicLogDensity F) (n : String) :
    n ∈ d.substituteParameters.expression.variableNames ↔
      n ∈ d.expression.variableNames ∧ d.parameters.get n = none := by
  rw [Expr.mem_variableNames, Expr.mem_variableNames]
  show Occurs n (substituteExpr d.parameters d.expression) ↔ _
  generalize d.expression = e
  induction e with
  | const c => simp only [substituteExpr]; constructor
               · intro h; cases h
               · rintro ⟨h, _⟩; cases h
  | var m =>
    simp only [substituteExpr]
    split
    · rename_i v hv
      constructor
      · intro h; cases h
      · rintro ⟨h, h0⟩; cases h; rw [hv] at h0; cases h0
    · rename_i hv
      constructor
      · intro h; cases h; exact ⟨.var, hv⟩
      · rintro ⟨h, _⟩; exact h
  | add l r il ir =>
    simp only [substituteExpr]
    constructor
    · intro h; cases h with
      | addL h => exact ⟨.addL (il.mp h).1, (il.mp h).2⟩
      | addR h => exact ⟨.addR (ir.mp h).1, (ir.mp h).2⟩
    · rintro ⟨h, h0⟩; cases h with
      | addL h => exact .addL (il.mpr ⟨h, h0⟩)
      | addR h => exact .addR (ir.mpr ⟨h, h0⟩)
  | sub l r il ir =>
    simp only [substituteExpr]
    constructor
    · intro h; cases h with
      | subL h => exact ⟨.subL (il.mp h).1, (il.mp h).2⟩
      | subR h => exact ⟨.subR (ir.mp h).1, (ir.mp h).2⟩
    · rintro ⟨h, h0⟩; cases h with
      | subL h => exact .subL (il.mpr ⟨h, h0⟩)
      | subR h => exact .subR (ir.mpr ⟨h, h0⟩)
  | mul l r il ir =>
    simp only [substituteExpr]
    constructor
    · intro h; cases h with
      | mulL h => exact ⟨.mulL (il.mp h).1, (il.mp h).2⟩
      | mulR h => exact ⟨.mulR (ir.mp h).1, (ir.mp h).2⟩
    · rintro ⟨h, h0⟩; cases h with
      | mulL h => exact .mulL (il.mpr ⟨h, h0⟩)
      | mulR h => exact .mulR (ir.mpr ⟨h, h0⟩)
  | div l r il ir =>
    simp only [substituteExpr]
    constructor
    · intro h; cases h with
      | divL h => exact ⟨.divL (il.mp h).1, (il.mp h).2⟩
      | divR h => exact ⟨.divR (ir.mp h).1, (ir.mp h).2⟩
    · rintro ⟨h, h0⟩; cases h with
      | divL h => exact .divL (il.mpr ⟨h, h0⟩)
      | divR h => exact .divR (ir.mpr ⟨h, h0⟩)
  | pow l r il ir =>
    simp only [substituteExpr]
    constructor
    · intro h; cases h with
      | powL h => exact ⟨.powL (il.mp h).1, (il.mp h).2⟩
      | powR h => exact ⟨.powR (ir.mp h).1, (ir.mp h).2⟩
    · rintro ⟨h, h0⟩; cases h with
      | powL h => exact .powL (il.mpr ⟨h, h0⟩)
      | powR h => exact .powR (ir.mpr ⟨h, h0⟩)
  | ln e ih =>
    simp only [substituteExpr]
    exact ⟨fun h => by cases h with | ln h => exact ⟨.ln (ih.mp h).1, (ih.mp h).2⟩,
      fun ⟨h, h0⟩ => by cases h with | ln h => exact .ln (ih.mpr ⟨h, h0⟩)⟩
  | exp e ih =>
    simp only [substituteExpr]
    exact ⟨fun h => by cases h with | exp h => exact ⟨.exp (ih.mp h).1, (ih.mp h).2⟩,
      fun ⟨h, h0⟩ => by cases h with | exp h => exact .exp (ih.mpr ⟨h, h0⟩)⟩
  | sqrt e ih =>
    simp only [substituteExpr]
    exact ⟨fun h => by cases h with | sqrt h => exact ⟨.sqrt (ih.mp h).1, (ih.mp h).2⟩,
      fun ⟨h, h0⟩ => by cases h with | sqrt h => exact .sqrt (ih.mpr ⟨h, h0⟩)⟩
  | sin e ih =>
    simp only [substituteExpr]
    exact ⟨fun h => by cases h with | sin h => exact ⟨.sin (ih.mp h).1, (ih.mp h).2⟩,
      fun ⟨h, h0⟩ => by cases h with | sin h => exact .sin (ih.mpr ⟨h, h0⟩)⟩
  | cos e ih =>
    simp only [substituteExpr]
    exact ⟨fun h => by cases h with | cos h => exact ⟨.cos (ih.mp h).1, (ih.mp h).2⟩,
      fun ⟨h, h0⟩ => by cases h with | cos h => exact .cos (ih.mpr ⟨h, h0⟩)⟩
  | neg e ih =>
    simp only [substituteExpr]
    exact ⟨fun h => by cases h with | neg h => exact ⟨.neg (ih.mp h).1, (ih.mp h).2⟩,
      fun ⟨h, h0⟩ => by cases h with | neg h => exact .neg (ih.mpr ⟨h, h0⟩)⟩

variable [FloatOps F]

/-- `evaluate` uses the given variables first and the parameters for the remaining names. -/
theorem C53_variables_override (d : SymbolicLogDensity F) (vars m : FMap String F)
    (hm : ∀ n, m.get n = (vars.get n).or (d.parameters.get n)) :
    d.evaluate vars = d.expression.evaluate m := by
  have : d.parameters.extend vars = m := by
    cases m with | mk g =>
    simp only [FMap.extend, FMap.mk.injEq]
    funext n
    rw [show g n = _ from hm n]
    cases vars.get n <;> rfl
  rw [SymbolicLogDensity.evaluate, this]

/-- `evaluate_single` uses the given value for its variable and the parameters for other names. -/
theorem C53_single_overrides (d : SymbolicLogDensity F) (v : String) (x : F) (m : FMap String F)
    (hm : ∀ n, m.get n = if n = v then some x else d.parameters.get n) :
    d.evaluateSingle v x = d.expression.evaluate m := by
  have : d.parameters.insert v x = m := by
    cases m with | mk g =>
    simp only [FMap.insert, FMap.mk.injEq]
    funext n
    exact (hm n).symm
  rw [SymbolicLogDensity.evaluateSingle, this]

end generic

section exact
open Expr SymbolicLogDensity

theorem value_substitute (π σ : String → Option ℝ) (hσ : ∀ n x, π n = some x → σ n = some x)
    (e : Expr XReal) : value σ (substituteExpr (env π) e) = value σ e := by
  induction e with
  | const c => rfl
  | var n =>
    simp only [substituteExpr, env]
    cases h : π n with
    | none => simp [value]
    | some x => simp [value, hσ n x h]
  | add l r il ir => simp only [substituteExpr, value, il, ir]
  | sub l r il ir => simp only [substituteExpr, value, il, ir]
  | mul l r il ir => simp only [substituteExpr, value, il, ir]
  | div l r il ir => simp only [substituteExpr, value, il, ir]
  | pow l r il ir => simp only [substituteExpr, value, il, ir]
  | ln e ih => simp only [substituteExpr, value, ih]
  | exp e ih => simp only [substituteExpr, value, ih]
  | sqrt e ih => simp only [substituteExpr, value, ih]
  | sin e ih => simp only [substituteExpr, value, ih]
  | cos e ih => simp only [substituteExpr, value, ih]
  | neg e ih => simp only [substituteExpr, value, ih]

theorem value_of_occurs (ρ σ : String → Option ℝ) (e : Expr XReal)
    (h : ∀ n, Occurs n e → ρ n = σ n) : value ρ e = value σ e := by
  induction e with
  | const c => cases c <;> rfl
  | var n => exact h n .var
  | add l r il ir => simp only [value, il fun n h' => h n (.addL h'), ir fun n h' => h n (.addR h')]
  | sub l r il ir => simp only [value, il fun n h' => h n (.subL h'), ir fun n h' => h n (.subR h')]
  | mul l r il ir => simp only [value, il fun n h' => h n (.mulL h'), ir fun n h' => h n (.mulR h')]
  | div l r il ir => simp only [value, il fun n h' => h n (.divL h'), ir fun n h' => h n (.divR h')]
  | pow l r il ir => simp only [value, il fun n h' => h n (.powL h'), ir fun n h' => h n (.powR h')]
  | ln e ih => simp only [value, ih fun n h' => h n (.ln h')]
  | exp e ih => simp only [value, ih fun n h' => h n (.exp h')]
  | sqrt e ih => simp only [value, ih fun n h' => h n (.sqrt h')]
  | sin e ih => simp only [value, ih fun n h' => h n (.sin h')]
  | cos e ih => simp only [value, ih fun n h' => h n (.cos h')]
  | neg e ih => simp only [value, ih fun n h' => h n (.neg h')]

/-- Whenever the density has a value under finite parameters `π` and an assignment `ρ` of other
names, evaluation before and after substitution both return it, and the substituted expression has
it under `ρ` alone. -/
theorem C53_substitute_value (expr : Expr XReal) (π ρ : String → Option ℝ)
    (hd : ∀ n x, ρ n = some x → π n = none) (v : ℝ)
    (hv : value (fun n => (ρ n).or (π n)) expr = some v) :
    let d := SymbolicLogDensity.new expr (env π)
    d.evaluate (env ρ) = .ok (fin v) ∧
    d.substituteParameters.evaluate (env ρ) = .ok (fin v) ∧
    d.substituteParameters.expression.evaluate (env ρ) = .ok (fin v) := by
  intro d
  have hover : ∀ n x, π n = some x → (ρ n).or (π n) = some x := by
    intro n x h
    cases h' : ρ n with
    | none => simpa using h
    | some y => rw [hd n y h'] at h; cases h
  have hm : ∀ n, (env fun n => (ρ n).or (π n)).get n = ((env ρ).get n).or ((env π).get n) := by
    intro n; simp only [env]; cases ρ n <;> simp
  have hs := value_substitute π _ hover expr
  refine ⟨?_, ?_, ?_⟩
  · rw [C53_variables_override d (env ρ) _ hm]
    exact evaluate_of_value _ _ _ hv
  · rw [C53_variables_override d.substituteParameters (env ρ) _ hm]
    exact evaluate_of_value _ _ _ (hs.trans hv)
  · refine evaluate_of_value _ _ _ ?_
    rw [value_of_occurs ρ (fun n => (ρ n).or (π n))]
    · exact hs.trans hv
    · intro n hn
      have := (C53_no_parameter_left d n).mp ((Expr.mem_variableNames _ n).mpr hn)
      have : π n = none := by simpa [d, SymbolicLogDensity.new, env] using this.2
      simp [this]

theorem substitute_ne_zero {params : FMap String XReal}
    (hp : ∀ n c, params.get n = some c → c.IsFin ∧ c ≠ fin 0) {e : Expr XReal}
    (h : e ≠ const (fin 0)) : substituteExpr params e ≠ const (fin 0) := by
  cases e with
  | const c => exact h
  | var n =>
    simp only [substituteExpr]
    split
    · rename_i v hv
      intro h'; cases h'
      exact (hp n _ hv).2 rfl
    · simp
  | _ => simp [substituteExpr]

theorem substitute_const {params : FMap String XReal}
    (hp : ∀ n c, params.get n = some c → c.IsFin ∧ c ≠ fin 0) {e : Expr XReal}
    (h : ∀ c, e ≠ const c) : ∀ c, substituteExpr params e = const c → c.IsFin := by
  cases e with
  | const c => exact absurd rfl (h c)
  | var n =>
    simp only [substituteExpr]
    split
    · rename_i v hv
      intro c hc; cases hc
      exact (hp n _ hv).1
    · intro c hc; cases hc
  | _ => intro c hc; simp [substituteExpr] at hc

theorem evaluate_mul_substitute {params m : FMap String XReal}
    (hp : ∀ n c, params.get n = some c → c.IsFin ∧ c ≠ fin 0) {l r : Expr XReal}
    (il : (substituteExpr params l).evaluate m = l.evaluate m)
    (ir : (substituteExpr params r).evaluate m = r.evaluate m) :
    (substituteExpr params (mul l r)).evaluate m = (mul l r).evaluate m := by
  simp only [substituteExpr]
  by_cases hcl : ∃ c, l = const c
  · by_cases hcr : ∃ c, r = const c
    · obtain ⟨a, rfl⟩ := hcl
      obtain ⟨b, rfl⟩ := hcr
      rfl
    · push Not at hcr
      by_cases hl : l = const (fin 0)
      · subst hl
        rw [evaluate_mul_zero _ (const (fin 0)) r (.inl ⟨rfl, fun c hc => absurd hc (hcr c)⟩)]
        exact evaluate_mul_zero _ _ _ (.inl ⟨rfl, substitute_const hp hcr⟩)
      · have hr : r ≠ const (fin 0) := hcr _
        rw [evaluate_mul _ _ _ hl hr, evaluate_mul _ _ _ (substitute_ne_zero hp hl)
          (substitute_ne_zero hp hr), il, ir]
  · push Not at hcl
    have hl : l ≠ const (fin 0) := hcl _
    by_cases hr : r = const (fin 0)
    · subst hr
      rw [evaluate_mul_zero _ l (const (fin 0)) (.inr ⟨rfl, fun c hc => absurd hc (hcl c)⟩)]
      exact evaluate_mul_zero _ _ _ (.inr ⟨rfl, substitute_const hp hcl⟩)
    · rw [evaluate_mul _ _ _ hl hr, evaluate_mul _ _ _ (substitute_ne_zero hp hl)
        (substitute_ne_zero hp hr), il, ir]

/-- With finite nonzero parameters, evaluation before and after substitution agrees for every
assignment not naming a parameter, errors and special values included.  Missing for the full claim:
zero or non-finite parameters, where the two differ (`C53_zero_parameter_violated`). -/
theorem C53_substitute_evaluate_partial (d : SymbolicLogDensity XReal) (vars : FMap String XReal)
    (hp : ∀ n c, d.parameters.get n = some c → c.IsFin ∧ c ≠ fin 0)
    (hd : ∀ n c, d.parameters.get n = some c → vars.get n = none) :
    d.substituteParameters.evaluate vars = d.evaluate vars := by
  show (substituteExpr d.parameters d.expression).evaluate (d.parameters.extend vars) =
    d.expression.evaluate (d.parameters.extend vars)
  generalize d.expression = e
  induction e with
  | const c => rfl
  | var n =>
    simp only [substituteExpr]
    split
    · rename_i v hv
      simp [Expr.evaluate, FMap.extend, hd n v hv, hv]
    · rfl
  | add l r il ir => simp only [substituteExpr]; rw [evaluate_add, evaluate_add, il, ir]
  | sub l r il ir => simp only [substituteExpr, Expr.evaluate, il, ir]
  | mul l r il ir => exact evaluate_mul_substitute hp il ir
  | div l r il ir => simp only [substituteExpr, Expr.evaluate, il, ir]
  | pow l r il ir => simp only [substituteExpr, Expr.evaluate, il, ir]
  | ln e ih => simp only [substituteExpr, Expr.evaluate, ih]
  | exp e ih => simp only [substituteExpr, Expr.evaluate, ih]
  | sqrt e ih => simp only [substituteExpr, Expr.evaluate, ih]
  | sin e ih => simp only [substituteExpr, Expr.evaluate, ih]
  | cos e ih => simp only [substituteExpr, Expr.evaluate, ih]
  | neg e ih => simp only [substituteExpr, Expr.evaluate, ih]

/-- `a·ln(x)` with parameter `a = 2`, variable `x`. -/
example : ∃ (d : SymbolicLogDensity XReal) (vars : FMap String XReal),
    (∀ n c, d.parameters.get n = some c → c.IsFin ∧ c ≠ fin 0) ∧
    (∀ n c, d.parameters.get n = some c → vars.get n = none) ∧
    d.evaluate vars = .ok (fin 0) := by
  refine ⟨.new (mul (var "a") (ln (var "x"))) (singleMap "a" (fin 2)), singleMap "x" (fin 1),
    ?_, ?_, ?_⟩
  · intro n c h
    simp only [SymbolicLogDensity.new, singleMap, FMap.insert, FMap.empty] at h
    split_ifs at h
    cases h; simp
  · intro n c h
    simp only [SymbolicLogDensity.new, singleMap, FMap.insert, FMap.empty] at h ⊢
    split_ifs at h with h1
    subst h1; simp
  · simp [SymbolicLogDensity.new, SymbolicLogDensity.evaluate, singleMap, FMap.insert, FMap.empty,
      FMap.extend, Expr.evaluate, bothConst, isConst, bind, Except.bind, f_ln,
      show ¬ ((1 : ℝ) ≤ 0) by norm_num]

/-- A parameter equal to zero hides errors after substitution: `a·ln(x)` with `a = 0` at `x = −1` is
an error before substitution and `0` after it. -/
theorem C53_zero_parameter_violated :
    ∃ (d : SymbolicLogDensity XReal) (vars : FMap String XReal),
      (∀ n c, d.parameters.get n = some c → vars.get n = none) ∧
      d.evaluate vars = .error (.invalidLogarithm (fin (-1))) ∧
      d.substituteParameters.evaluate vars = .ok (fin 0) := by
  refine ⟨.new (mul (var "a") (ln (var "x"))) (singleMap "a" (fin 0)), singleMap "x" (fin (-1)),
    ?_, ?_, ?_⟩
  · intro n c h
    simp only [SymbolicLogDensity.new, singleMap, FMap.insert, FMap.empty] at h ⊢
    split_ifs at h with h1
    subst h1; simp
  · simp [SymbolicLogDensity.new, SymbolicLogDensity.evaluate, singleMap, FMap.insert, FMap.empty,
      FMap.extend, Expr.evaluate, bothConst, isConst, bind, Except.bind]
  · simp [SymbolicLogDensity.new, SymbolicLogDensity.evaluate, substituteParameters, substituteExpr,
      singleMap, FMap.insert, FMap.empty,
      FMap.extend, Expr.evaluate, bothConst, isConst]

end exact
end Verif
