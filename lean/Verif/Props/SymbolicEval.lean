import Verif.Lemmas.Symbolic
import Verif.Lemmas.SymbolicVars

/-! C41–C46, C53: evaluation of symbolic expressions. -/

namespace Verif
open FloatOps XReal Classical Spec

/-! ## C41 -/

/-- Whenever the expression denotes a real number, `evaluate` returns it. -/
theorem C41_evaluate_value (ρ : String → Option ℝ) (e : Expr XReal) (v : ℝ)
    (h : value ρ e = some v) : e.evaluate (env ρ) = .ok (fin v) :=
  evaluate_of_value ρ e v h

/-- `0 * x + ln 2 / y` at `x = 3, y = 2`: the hypothesis is met through both fast paths. -/
example : value (fun n => if n = "x" then some 3 else if n = "y" then some 2 else none)
    (.add (.mul (.const (fin 0)) (.var "x")) (.div (.ln (.const (fin 2))) (.var "y")))
    = some (Real.log 2 / 2) := by
  simp [value]

/-- Conversely, over finite literals, natural powers and no literal zero factor, a successful
evaluation is a finite number and it is the denoted value. -/
theorem C41_evaluate_only_value (ρ : String → Option ℝ) (e : Expr XReal)
    (hc : FiniteConsts e) (hz : NoZeroFactor e) (hp : NatPowers e) (x : XReal)
    (h : e.evaluate (env ρ) = .ok x) : ∃ v, x = fin v ∧ value ρ e = some v := by
  induction e generalizing x with
  | const c =>
    obtain ⟨a, rfl⟩ := hc c .refl
    cases h; exact ⟨a, rfl, rfl⟩
  | var n =>
    simp only [Expr.evaluate, env] at h
    cases hn : ρ n with
    | none => simp [hn] at h
    | some a => simp [hn] at h; exact ⟨a, h.symm, hn⟩
  | add l r il ir =>
    rw [Expr.evaluate_add] at h
    cases hl : l.evaluate (env ρ) with
    | error _ => simp [hl, bind, Except.bind] at h
    | ok a =>
      cases hr : r.evaluate (env ρ) with
      | error _ => simp [hl, hr, bind, Except.bind] at h
      | ok b =>
        obtain ⟨va, rfl, ha⟩ := il (hc.child (by simp [children])) (hz.child (by simp [children]))
          (hp.child (by simp [children])) a hl
        obtain ⟨vb, rfl, hb⟩ := ir (hc.child (by simp [children])) (hz.child (by simp [children]))
          (hp.child (by simp [children])) b hr
        simp [hl, hr, bind, Except.bind] at h
        exact ⟨_, h.symm, value_add.mpr ⟨va, ha, vb, hb, rfl⟩⟩
  | sub l r il ir =>
    rw [Expr.evaluate] at h
    cases hl : l.evaluate (env ρ) with
    | error _ => simp [hl, bind, Except.bind] at h
    | ok a =>
      cases hr : r.evaluate (env ρ) with
      | error _ => simp [hl, hr, bind, Except.bind] at h
      | ok b =>
        obtain ⟨va, rfl, ha⟩ := il (hc.child (by simp [children])) (hz.child (by simp [children]))
          (hp.child (by simp [children])) a hl
        obtain ⟨vb, rfl, hb⟩ := ir (hc.child (by simp [children])) (hz.child (by simp [children]))
          (hp.child (by simp [children])) b hr
        simp [hl, hr, bind, Except.bind] at h
        exact ⟨_, h.symm, value_sub.mpr ⟨va, ha, vb, hb, rfl⟩⟩
  | mul l r il ir =>
    obtain ⟨h1, h2⟩ := hz l r .refl
    rw [Expr.evaluate_mul _ _ _ h1 h2] at h
    cases hl : l.evaluate (env ρ) with
    | error _ => simp [hl, bind, Except.bind] at h
    | ok a =>
      cases hr : r.evaluate (env ρ) with
      | error _ => simp [hl, hr, bind, Except.bind] at h
      | ok b =>
        obtain ⟨va, rfl, ha⟩ := il (hc.child (by simp [children])) (hz.child (by simp [children]))
          (hp.child (by simp [children])) a hl
        obtain ⟨vb, rfl, hb⟩ := ir (hc.child (by simp [children])) (hz.child (by simp [children]))
          (hp.child (by simp [children])) b hr
        simp [hl, hr, bind, Except.bind] at h
        exact ⟨_, h.symm, value_mul.mpr ⟨va, ha, vb, hb, rfl⟩⟩
  | div l r il ir =>
    rw [Expr.evaluate] at h
    cases hr : r.evaluate (env ρ) with
    | error _ => simp [hr, bind, Except.bind] at h
    | ok b =>
      obtain ⟨vb, rfl, hb⟩ := ir (hc.child (by simp [children])) (hz.child (by simp [children]))
        (hp.child (by simp [children])) b hr
      cases hl : l.evaluate (env ρ) with
      | error _ =>
        by_cases h0 : vb = 0 <;> simp [hl, hr, bind, Except.bind, h0] at h
      | ok a =>
        obtain ⟨va, rfl, ha⟩ := il (hc.child (by simp [children])) (hz.child (by simp [children]))
          (hp.child (by simp [children])) a hl
        by_cases h0 : vb = 0
        · simp [hr, bind, Except.bind, h0] at h
        · simp [hl, hr, bind, Except.bind, h0, f_div] at h
          exact ⟨_, h.symm, value_div.mpr ⟨va, ha, vb, hb, h0, rfl⟩⟩
  | pow l r il ir =>
    obtain ⟨n, rfl⟩ := hp l r .refl
    rw [Expr.evaluate] at h
    cases hl : l.evaluate (env ρ) with
    | error _ => simp [hl, bind, Except.bind] at h
    | ok a =>
      obtain ⟨va, rfl, ha⟩ := il (hc.child (by simp [children])) (hz.child (by simp [children]))
        (hp.child (by simp [children])) a hl
      simp only [hl, bind, Except.bind, Expr.evaluate, f_powf_nat, Except.ok.injEq] at h
      refine ⟨_, h.symm, value_pow.mpr ⟨va, ha, n, rfl, ?_⟩⟩
      rw [← powf_iff_realPow, f_powf_nat]
  | ln e ih =>
    rw [Expr.evaluate] at h
    cases he : e.evaluate (env ρ) with
    | error _ => simp [he, bind, Except.bind] at h
    | ok a =>
      obtain ⟨va, rfl, ha⟩ := ih (hc.child (by simp [children])) (hz.child (by simp [children]))
        (hp.child (by simp [children])) a he
      by_cases h0 : va ≤ 0
      · simp [he, bind, Except.bind, h0] at h
      · simp [he, bind, Except.bind, h0, f_ln _ (not_le.mp h0)] at h
        exact ⟨_, h.symm, value_ln.mpr ⟨va, ha, not_le.mp h0, rfl⟩⟩
  | exp e ih =>
    rw [Expr.evaluate] at h
    cases he : e.evaluate (env ρ) with
    | error _ => simp [he, bind, Except.bind] at h
    | ok a =>
      obtain ⟨va, rfl, ha⟩ := ih (hc.child (by simp [children])) (hz.child (by simp [children]))
        (hp.child (by simp [children])) a he
      simp [he, bind, Except.bind] at h
      exact ⟨_, h.symm, value_exp.mpr ⟨va, ha, rfl⟩⟩
  | sqrt e ih =>
    rw [Expr.evaluate] at h
    cases he : e.evaluate (env ρ) with
    | error _ => simp [he, bind, Except.bind] at h
    | ok a =>
      obtain ⟨va, rfl, ha⟩ := ih (hc.child (by simp [children])) (hz.child (by simp [children]))
        (hp.child (by simp [children])) a he
      by_cases h0 : va < 0
      · simp [he, bind, Except.bind, h0] at h
      · simp [he, bind, Except.bind, h0, f_sqrt _ (not_lt.mp h0)] at h
        exact ⟨_, h.symm, value_sqrt.mpr ⟨va, ha, not_lt.mp h0, rfl⟩⟩
  | sin e ih =>
    rw [Expr.evaluate] at h
    cases he : e.evaluate (env ρ) with
    | error _ => simp [he, bind, Except.bind] at h
    | ok a =>
      obtain ⟨va, rfl, ha⟩ := ih (hc.child (by simp [children])) (hz.child (by simp [children]))
        (hp.child (by simp [children])) a he
      simp [he, bind, Except.bind] at h
      exact ⟨_, h.symm, value_sin.mpr ⟨va, ha, rfl⟩⟩
  | cos e ih =>
    rw [Expr.evaluate] at h
    cases he : e.evaluate (env ρ) with
    | error _ => simp [he, bind, Except.bind] at h
    | ok a =>
      obtain ⟨va, rfl, ha⟩ := ih (hc.child (by simp [children])) (hz.child (by simp [children]))
        (hp.child (by simp [children])) a he
      simp [he, bind, Except.bind] at h
      exact ⟨_, h.symm, value_cos.mpr ⟨va, ha, rfl⟩⟩
  | neg e ih =>
    rw [Expr.evaluate] at h
    cases he : e.evaluate (env ρ) with
    | error _ => simp [he, bind, Except.bind] at h
    | ok a =>
      obtain ⟨va, rfl, ha⟩ := ih (hc.child (by simp [children])) (hz.child (by simp [children]))
        (hp.child (by simp [children])) a he
      simp [he, bind, Except.bind] at h
      exact ⟨_, h.symm, value_neg.mpr ⟨va, ha, rfl⟩⟩

/-- On the same class of expressions, `evaluate` reports an error exactly when the expression does
not denote a real number. -/
theorem C41_error_iff_undefined (ρ : String → Option ℝ) (e : Expr XReal)
    (hc : FiniteConsts e) (hz : NoZeroFactor e) (hp : NatPowers e) :
    (∃ err, e.evaluate (env ρ) = .error err) ↔ value ρ e = none := by
  constructor
  · rintro ⟨err, h⟩
    cases hv : value ρ e with
    | none => rfl
    | some v => rw [C41_evaluate_value ρ e v hv] at h; cases h
  · intro h
    cases he : e.evaluate (env ρ) with
    | error err => exact ⟨err, rfl⟩
    | ok x =>
      obtain ⟨v, -, hv⟩ := C41_evaluate_only_value ρ e hc hz hp x he
      rw [h] at hv; cases hv

/-- `ln (x^2 - 1)` is in the class and is undefined at `x = 0`. -/
example :
    let e : Expr XReal := .ln (.sub (.pow (.var "x") (.const (fin (2 : ℕ)))) (.const (fin 1)))
    FiniteConsts e ∧ NoZeroFactor e ∧ NatPowers e ∧ value (single "x" 0) e = none := by
  refine ⟨?_, ?_, ?_, ?_⟩
  · intro c h
    cases h with
    | step h1 h2 =>
      simp only [children, List.mem_singleton] at h1; subst h1
      cases h2 with
      | step h1 h2 =>
        simp only [children, List.mem_cons, List.not_mem_nil, or_false] at h1
        rcases h1 with rfl | rfl
        · cases h2 with
          | step h1 h2 =>
            simp only [children, List.mem_cons, List.not_mem_nil, or_false] at h1
            rcases h1 with rfl | rfl
            · cases h2 with | step h1 _ => simp [children] at h1
            · cases h2 with
              | refl => simp
              | step h1 _ => simp [children] at h1
        · cases h2 with
          | refl => simp
          | step h1 _ => simp [children] at h1
  · intro l r h
    cases h with
    | step h1 h2 =>
      simp only [children, List.mem_singleton] at h1; subst h1
      cases h2 with
      | step h1 h2 =>
        simp only [children, List.mem_cons, List.not_mem_nil, or_false] at h1
        rcases h1 with rfl | rfl
        · cases h2 with
          | step h1 h2 =>
            simp only [children, List.mem_cons, List.not_mem_nil, or_false] at h1
            rcases h1 with rfl | rfl
            · cases h2 with | step h1 _ => simp [children] at h1
            · cases h2 with | step h1 _ => simp [children] at h1
        · cases h2 with | step h1 _ => simp [children] at h1
  · intro b x h
    cases h with
    | step h1 h2 =>
      simp only [children, List.mem_singleton] at h1; subst h1
      cases h2 with
      | step h1 h2 =>
        simp only [children, List.mem_cons, List.not_mem_nil, or_false] at h1
        rcases h1 with rfl | rfl
        · cases h2 with
          | refl => exact ⟨2, rfl⟩
          | step h1 h2 =>
            simp only [children, List.mem_cons, List.not_mem_nil, or_false] at h1
            rcases h1 with rfl | rfl
            · cases h2 with | step h1 _ => simp [children] at h1
            · cases h2 with | step h1 _ => simp [children] at h1
        · cases h2 with | step h1 _ => simp [children] at h1
  · simp only [value, single, if_true, bind, Option.bind]
    have : realPow 0 ((2 : ℕ) : ℝ) = some 0 := by
      rw [← powf_iff_realPow, f_powf_nat]; simp
    rw [this]; norm_num

/-- Why the converse excludes a literal zero factor: `0 * ln(0)` denotes nothing but evaluates to
`0`. -/
theorem C41_zero_factor_hides (vars : FMap String XReal) :
    (Expr.mul (.const (fin 0)) (.ln (.const (fin 0)))).evaluate vars = .ok (fin 0) ∧
    ∀ ρ, value ρ (Expr.mul (.const (fin 0)) (.ln (.const (fin 0)))) = none := by
  constructor
  · exact Expr.evaluate_mul_zero _ _ _ (.inl ⟨rfl, fun c h => by cases h⟩)
  · intro ρ; simp [value]

/-- Every error is truthful: an undefined variable occurs in the expression and is not bound; the
other errors name a sub-expression whose operand evaluates to an illegal value. -/
theorem C41_errors_truthful {F : Type} [FloatOps F] (vars : FMap String F) (e : Expr F)
    (err : EvalError F) (h : e.evaluate vars = .error err) :
    ErrorJustified vars e err := by
  have lift : ∀ (c e : Expr F), c ∈ children e →
      ErrorJustified vars c err → ErrorJustified vars e err := by
    intro c e hc hm
    cases err with
    | undefinedVariable n => exact ⟨hm.1.child hc, hm.2⟩
    | divisionByZero =>
      obtain ⟨l, r, v, h1, h2⟩ := hm; exact ⟨l, r, v, .step hc h1, h2⟩
    | invalidLogarithm v => obtain ⟨s, h1, h2⟩ := hm; exact ⟨s, .step hc h1, h2⟩
    | invalidSquareRoot v => obtain ⟨s, h1, h2⟩ := hm; exact ⟨s, .step hc h1, h2⟩
  have two : ∀ (l r : Expr F) (f : F → F → F),
      (do let a ← l.evaluate vars; let b ← r.evaluate vars; .ok (f a b) : Except (EvalError F) F)
        = .error err → l.evaluate vars = .error err ∨ r.evaluate vars = .error err := by
    intro l r f h
    cases hl : l.evaluate vars with
    | error x => simp [hl, bind, Except.bind] at h; exact .inl (by rw [h])
    | ok a =>
      cases hr : r.evaluate vars with
      | error x => simp [hl, hr, bind, Except.bind] at h; exact .inr (by rw [h])
      | ok b => simp [hl, hr, bind, Except.bind] at h
  have onef : ∀ (s : Expr F) (f : F → F),
      (do let a ← s.evaluate vars; .ok (f a) : Except (EvalError F) F)
        = .error err → s.evaluate vars = .error err := by
    intro l f h
    cases hl : l.evaluate vars with
    | error x => simp [hl, bind, Except.bind] at h; rw [h]
    | ok a => simp [hl, bind, Except.bind] at h
  induction e with
  | const c => cases h
  | var n =>
    simp only [Expr.evaluate] at h
    cases hn : vars.get n with
    | none => simp only [hn, Except.error.injEq] at h; subst h; exact ⟨.var, hn⟩
    | some a => simp [hn] at h
  | add l r il ir =>
    rw [Expr.evaluate] at h
    split at h
    · cases h
    · split_ifs at h
      · exact lift r _ (by simp [children]) (ir h)
      · exact lift l _ (by simp [children]) (il h)
      · rcases two _ _ _ h with h | h
        · exact lift l _ (by simp [children]) (il h)
        · exact lift r _ (by simp [children]) (ir h)
  | sub l r il ir =>
    rw [Expr.evaluate] at h
    rcases two _ _ _ h with h | h
    · exact lift l _ (by simp [children]) (il h)
    · exact lift r _ (by simp [children]) (ir h)
  | mul l r il ir =>
    rw [Expr.evaluate] at h
    split at h
    · cases h
    · split_ifs at h
      · exact lift r _ (by simp [children]) (ir h)
      · exact lift l _ (by simp [children]) (il h)
      · rcases two _ _ _ h with h | h
        · exact lift l _ (by simp [children]) (il h)
        · exact lift r _ (by simp [children]) (ir h)
  | div l r il ir =>
    rw [Expr.evaluate] at h
    cases hr : r.evaluate vars with
    | error x =>
      simp only [hr, bind, Except.bind, Except.error.injEq] at h; subst h
      exact lift r _ (by simp [children]) (ir hr)
    | ok d =>
      simp only [hr, bind, Except.bind] at h
      split_ifs at h with hd
      · cases h; exact ⟨l, r, d, .refl, hr, hd⟩
      · cases hl : l.evaluate vars with
        | error x =>
          simp only [hl, Except.error.injEq] at h; subst h
          exact lift l _ (by simp [children]) (il hl)
        | ok a => simp [hl] at h
  | pow l r il ir =>
    rw [Expr.evaluate] at h
    rcases two _ _ _ h with h | h
    · exact lift l _ (by simp [children]) (il h)
    · exact lift r _ (by simp [children]) (ir h)
  | ln e ih =>
    rw [Expr.evaluate] at h
    cases hr : e.evaluate vars with
    | error x =>
      simp only [hr, bind, Except.bind, Except.error.injEq] at h; subst h
      exact lift e _ (by simp [children]) (ih hr)
    | ok d =>
      simp only [hr, bind, Except.bind] at h
      split_ifs at h with hd
      cases h; exact ⟨e, .refl, hr, hd⟩
  | exp e ih => rw [Expr.evaluate] at h; exact lift e _ (by simp [children]) (ih (onef _ _ h))
  | sqrt e ih =>
    rw [Expr.evaluate] at h
    cases hr : e.evaluate vars with
    | error x =>
      simp only [hr, bind, Except.bind, Except.error.injEq] at h; subst h
      exact lift e _ (by simp [children]) (ih hr)
    | ok d =>
      simp only [hr, bind, Except.bind] at h
      split_ifs at h with hd
      cases h; exact ⟨e, .refl, hr, hd⟩
  | sin e ih => rw [Expr.evaluate] at h; exact lift e _ (by simp [children]) (ih (onef _ _ h))
  | cos e ih => rw [Expr.evaluate] at h; exact lift e _ (by simp [children]) (ih (onef _ _ h))
  | neg e ih => rw [Expr.evaluate] at h; exact lift e _ (by simp [children]) (ih (onef _ _ h))

end Verif
