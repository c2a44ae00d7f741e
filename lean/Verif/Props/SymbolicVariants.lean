import Verif.Lemmas.Symbolic
import Verif.Lemmas.SymbolicVars
import Verif.Props.SymbolicEval
import Verif.Lemmas.XSum

/-! C42–C46: variables, single-variable, linear, polynomial, smart, batch and grid evaluation. -/

namespace Verif
open FloatOps XReal Classical Spec

/-! ## C42 -/

/-- `variables()` is strictly increasing (hence sorted and duplicate free) and lists exactly the
names that occur. -/
theorem C42_variables {F : Type} (e : Expr F) :
    e.variableNames.Pairwise (· < ·) ∧ e.variableNames.Nodup ∧
    ∀ n, n ∈ e.variableNames ↔ Occurs n e := by
  refine ⟨Expr.variableNames_sorted e, ?_, Expr.mem_variableNames e⟩
  exact (Expr.variableNames_sorted e).imp (fun h => ne_of_lt h)

/-- Assignments that agree on the variables of an expression give the same result, whatever the
number type (rounding included). -/
theorem C42_evaluate_depends_on_variables {F : Type} [FloatOps F] (e : Expr F)
    (v₁ v₂ : FMap String F) (h : ∀ n ∈ e.variableNames, v₁.get n = v₂.get n) :
    e.evaluate v₁ = e.evaluate v₂ := by
  have h' : ∀ n, Occurs n e → v₁.get n = v₂.get n := fun n hn =>
    h n ((Expr.mem_variableNames e n).mpr hn)
  clear h
  induction e with
  | const c => rfl
  | var n => simp only [Expr.evaluate, h' n .var]
  | add l r il ir =>
    have hl := il (fun n hn => h' n (.addL hn))
    have hr := ir (fun n hn => h' n (.addR hn))
    simp only [Expr.evaluate, hl, hr]
  | sub l r il ir =>
    have hl := il (fun n hn => h' n (.subL hn))
    have hr := ir (fun n hn => h' n (.subR hn))
    simp only [Expr.evaluate, hl, hr]
  | mul l r il ir =>
    have hl := il (fun n hn => h' n (.mulL hn))
    have hr := ir (fun n hn => h' n (.mulR hn))
    simp only [Expr.evaluate, hl, hr]
  | div l r il ir =>
    have hl := il (fun n hn => h' n (.divL hn))
    have hr := ir (fun n hn => h' n (.divR hn))
    simp only [Expr.evaluate, hl, hr]
  | pow l r il ir =>
    have hl := il (fun n hn => h' n (.powL hn))
    have hr := ir (fun n hn => h' n (.powR hn))
    simp only [Expr.evaluate, hl, hr]
  | ln e ih => have := ih (fun n hn => h' n (.ln hn)); simp only [Expr.evaluate, this]
  | exp e ih => have := ih (fun n hn => h' n (.exp hn)); simp only [Expr.evaluate, this]
  | sqrt e ih => have := ih (fun n hn => h' n (.sqrt hn)); simp only [Expr.evaluate, this]
  | sin e ih => have := ih (fun n hn => h' n (.sin hn)); simp only [Expr.evaluate, this]
  | cos e ih => have := ih (fun n hn => h' n (.cos hn)); simp only [Expr.evaluate, this]
  | neg e ih => have := ih (fun n hn => h' n (.neg hn)); simp only [Expr.evaluate, this]

/-- Two different assignments that agree on the variables of `x * x`. -/
example : ∀ n ∈ (Expr.mul (.var "x") (.var "x") : Expr XReal).variableNames,
    (singleMap "x" (fin 2)).get n = ((singleMap "x" (fin 2)).insert "y" (fin 1)).get n := by
  intro n hn
  rw [(C42_variables _).2.2] at hn
  cases hn <;> rename_i h <;> cases h <;> simp [singleMap, FMap.insert]

/-! ## C43 -/

/-- Without literal zero factors, single-variable evaluation is map evaluation, errors and special
values included. -/
theorem C43_single_var_agrees_partial (e : Expr XReal) (hz : NoZeroFactor e) (v : String)
    (x : XReal) : e.evaluateSingleVar v x = e.evaluate (singleMap v x) := by
  induction e with
  | const c => rfl
  | var n =>
    by_cases h : n = v <;>
      simp [Expr.evaluateSingleVar, Expr.evaluate, singleMap, FMap.insert, FMap.empty, h]
  | add l r il ir =>
    rw [Expr.evaluate_add, Expr.evaluateSingleVar, il (hz.child (by simp [children])),
      ir (hz.child (by simp [children]))]
  | sub l r il ir =>
    rw [Expr.evaluate, Expr.evaluateSingleVar, il (hz.child (by simp [children])),
      ir (hz.child (by simp [children]))]
  | mul l r il ir =>
    obtain ⟨h1, h2⟩ := hz l r .refl
    rw [Expr.evaluate_mul _ _ _ h1 h2, Expr.evaluateSingleVar, il (hz.child (by simp [children])),
      ir (hz.child (by simp [children]))]
  | div l r il ir =>
    rw [Expr.evaluate, Expr.evaluateSingleVar, il (hz.child (by simp [children])),
      ir (hz.child (by simp [children]))]
  | pow l r il ir =>
    rw [Expr.evaluate, Expr.evaluateSingleVar, il (hz.child (by simp [children])),
      ir (hz.child (by simp [children]))]
  | ln e ih => rw [Expr.evaluate, Expr.evaluateSingleVar, ih (hz.child (by simp [children]))]
  | exp e ih => rw [Expr.evaluate, Expr.evaluateSingleVar, ih (hz.child (by simp [children]))]
  | sqrt e ih => rw [Expr.evaluate, Expr.evaluateSingleVar, ih (hz.child (by simp [children]))]
  | sin e ih => rw [Expr.evaluate, Expr.evaluateSingleVar, ih (hz.child (by simp [children]))]
  | cos e ih => rw [Expr.evaluate, Expr.evaluateSingleVar, ih (hz.child (by simp [children]))]
  | neg e ih => rw [Expr.evaluate, Expr.evaluateSingleVar, ih (hz.child (by simp [children]))]

theorem env_single (v : String) (x : ℝ) : env (single v x) = singleMap v (fin x) := by
  simp only [env, singleMap, FMap.insert, FMap.empty, single, FMap.mk.injEq]
  funext n
  by_cases h : n = v <;> simp [h]

/-- The reference value is what single-variable evaluation returns. -/
theorem C43_single_var_value (e : Expr XReal) (v : String) (x r : ℝ)
    (h : value (single v x) e = some r) : e.evaluateSingleVar v (fin x) = .ok (fin r) := by
  induction e generalizing r with
  | const c => rw [value_eq_const] at h; subst h; rfl
  | var n =>
    simp only [value, single] at h
    split_ifs at h with h0
    cases h; simp [Expr.evaluateSingleVar, h0]
  | add l r il ir =>
    obtain ⟨a, ha, b, hb, rfl⟩ := value_add.mp h
    simp [Expr.evaluateSingleVar, il a ha, ir b hb, bind, Except.bind]
  | sub l r il ir =>
    obtain ⟨a, ha, b, hb, rfl⟩ := value_sub.mp h
    simp [Expr.evaluateSingleVar, il a ha, ir b hb, bind, Except.bind]
  | mul l r il ir =>
    obtain ⟨a, ha, b, hb, rfl⟩ := value_mul.mp h
    simp [Expr.evaluateSingleVar, il a ha, ir b hb, bind, Except.bind]
  | div l r il ir =>
    obtain ⟨a, ha, b, hb, h0, rfl⟩ := value_div.mp h
    simp [Expr.evaluateSingleVar, il a ha, ir b hb, bind, Except.bind, h0, f_div]
  | pow l r il ir =>
    obtain ⟨a, ha, b, hb, hp⟩ := value_pow.mp h
    rw [← powf_iff_realPow] at hp
    simp [Expr.evaluateSingleVar, il a ha, ir b hb, bind, Except.bind, hp]
  | ln e ih =>
    obtain ⟨a, ha, h0, rfl⟩ := value_ln.mp h
    simp [Expr.evaluateSingleVar, ih a ha, bind, Except.bind, f_ln, h0]
  | exp e ih =>
    obtain ⟨a, ha, rfl⟩ := value_exp.mp h
    simp [Expr.evaluateSingleVar, ih a ha, bind, Except.bind]
  | sqrt e ih =>
    obtain ⟨a, ha, h0, rfl⟩ := value_sqrt.mp h
    simp [Expr.evaluateSingleVar, ih a ha, bind, Except.bind, f_sqrt, h0]
  | sin e ih =>
    obtain ⟨a, ha, rfl⟩ := value_sin.mp h
    simp [Expr.evaluateSingleVar, ih a ha, bind, Except.bind]
  | cos e ih =>
    obtain ⟨a, ha, rfl⟩ := value_cos.mp h
    simp [Expr.evaluateSingleVar, ih a ha, bind, Except.bind]
  | neg e ih =>
    obtain ⟨a, ha, rfl⟩ := value_neg.mp h
    simp [Expr.evaluateSingleVar, ih a ha, bind, Except.bind]

/-- Over finite literals, natural powers and a finite argument (literal zero factors allowed): a
successful single-variable evaluation is the value of map evaluation. -/
theorem C43_single_var_success (e : Expr XReal) (hc : FiniteConsts e) (hp : NatPowers e)
    (v : String) (x : ℝ) (res : XReal) (h : e.evaluateSingleVar v (fin x) = .ok res) :
    e.evaluate (singleMap v (fin x)) = .ok res := by
  suffices hv : ∃ a, res = fin a ∧ value (single v x) e = some a by
    obtain ⟨a, rfl, ha⟩ := hv
    rw [← env_single]; exact C41_evaluate_value _ _ _ ha
  induction e generalizing res with
  | const c =>
    obtain ⟨a, rfl⟩ := hc c .refl
    cases h; exact ⟨a, rfl, rfl⟩
  | var n =>
    simp only [Expr.evaluateSingleVar] at h
    split_ifs at h with h0
    cases h; exact ⟨x, rfl, by simp [value, single, h0]⟩
  | add l r il ir =>
    rw [Expr.evaluateSingleVar] at h
    cases hl : l.evaluateSingleVar v (fin x) with
    | error _ => simp [hl, bind, Except.bind] at h
    | ok a =>
      cases hr : r.evaluateSingleVar v (fin x) with
      | error _ => simp [hl, hr, bind, Except.bind] at h
      | ok b =>
        obtain ⟨va, rfl, ha⟩ := il (hc.child (by simp [children])) (hp.child (by simp [children]))
          a hl
        obtain ⟨vb, rfl, hb⟩ := ir (hc.child (by simp [children])) (hp.child (by simp [children]))
          b hr
        simp [hl, hr, bind, Except.bind] at h
        exact ⟨_, h.symm, value_add.mpr ⟨va, ha, vb, hb, rfl⟩⟩
  | sub l r il ir =>
    rw [Expr.evaluateSingleVar] at h
    cases hl : l.evaluateSingleVar v (fin x) with
    | error _ => simp [hl, bind, Except.bind] at h
    | ok a =>
      cases hr : r.evaluateSingleVar v (fin x) with
      | error _ => simp [hl, hr, bind, Except.bind] at h
      | ok b =>
        obtain ⟨va, rfl, ha⟩ := il (hc.child (by simp [children])) (hp.child (by simp [children]))
          a hl
        obtain ⟨vb, rfl, hb⟩ := ir (hc.child (by simp [children])) (hp.child (by simp [children]))
          b hr
        simp [hl, hr, bind, Except.bind] at h
        exact ⟨_, h.symm, value_sub.mpr ⟨va, ha, vb, hb, rfl⟩⟩
  | mul l r il ir =>
    rw [Expr.evaluateSingleVar] at h
    cases hl : l.evaluateSingleVar v (fin x) with
    | error _ => simp [hl, bind, Except.bind] at h
    | ok a =>
      cases hr : r.evaluateSingleVar v (fin x) with
      | error _ => simp [hl, hr, bind, Except.bind] at h
      | ok b =>
        obtain ⟨va, rfl, ha⟩ := il (hc.child (by simp [children])) (hp.child (by simp [children]))
          a hl
        obtain ⟨vb, rfl, hb⟩ := ir (hc.child (by simp [children])) (hp.child (by simp [children]))
          b hr
        simp [hl, hr, bind, Except.bind] at h
        exact ⟨_, h.symm, value_mul.mpr ⟨va, ha, vb, hb, rfl⟩⟩
  | div l r il ir =>
    rw [Expr.evaluateSingleVar] at h
    cases hr : r.evaluateSingleVar v (fin x) with
    | error _ => simp [hr, bind, Except.bind] at h
    | ok b =>
      obtain ⟨vb, rfl, hb⟩ := ir (hc.child (by simp [children])) (hp.child (by simp [children]))
        b hr
      by_cases h0 : vb = 0
      · simp [hr, bind, Except.bind, h0] at h
      · cases hl : l.evaluateSingleVar v (fin x) with
        | error _ => simp [hl, hr, bind, Except.bind, h0] at h
        | ok a =>
          obtain ⟨va, rfl, ha⟩ := il (hc.child (by simp [children]))
            (hp.child (by simp [children])) a hl
          simp [hl, hr, bind, Except.bind, h0, f_div] at h
          exact ⟨_, h.symm, value_div.mpr ⟨va, ha, vb, hb, h0, rfl⟩⟩
  | pow l r il ir =>
    obtain ⟨n, rfl⟩ := hp l r .refl
    rw [Expr.evaluateSingleVar] at h
    cases hl : l.evaluateSingleVar v (fin x) with
    | error _ => simp [hl, bind, Except.bind] at h
    | ok a =>
      obtain ⟨va, rfl, ha⟩ := il (hc.child (by simp [children])) (hp.child (by simp [children]))
        a hl
      simp only [hl, bind, Except.bind, Expr.evaluateSingleVar, f_powf_nat, Except.ok.injEq] at h
      refine ⟨_, h.symm, value_pow.mpr ⟨va, ha, n, rfl, ?_⟩⟩
      rw [← powf_iff_realPow, f_powf_nat]
  | ln e ih =>
    rw [Expr.evaluateSingleVar] at h
    cases he : e.evaluateSingleVar v (fin x) with
    | error _ => simp [he, bind, Except.bind] at h
    | ok a =>
      obtain ⟨va, rfl, ha⟩ := ih (hc.child (by simp [children])) (hp.child (by simp [children]))
        a he
      by_cases h0 : va ≤ 0
      · simp [he, bind, Except.bind, h0] at h
      · simp [he, bind, Except.bind, h0, f_ln _ (not_le.mp h0)] at h
        exact ⟨_, h.symm, value_ln.mpr ⟨va, ha, not_le.mp h0, rfl⟩⟩
  | exp e ih =>
    rw [Expr.evaluateSingleVar] at h
    cases he : e.evaluateSingleVar v (fin x) with
    | error _ => simp [he, bind, Except.bind] at h
    | ok a =>
      obtain ⟨va, rfl, ha⟩ := ih (hc.child (by simp [children])) (hp.child (by simp [children]))
        a he
      simp [he, bind, Except.bind] at h
      exact ⟨_, h.symm, value_exp.mpr ⟨va, ha, rfl⟩⟩
  | sqrt e ih =>
    rw [Expr.evaluateSingleVar] at h
    cases he : e.evaluateSingleVar v (fin x) with
    | error _ => simp [he, bind, Except.bind] at h
    | ok a =>
      obtain ⟨va, rfl, ha⟩ := ih (hc.child (by simp [children])) (hp.child (by simp [children]))
        a he
      by_cases h0 : va < 0
      · simp [he, bind, Except.bind, h0] at h
      · simp [he, bind, Except.bind, h0, f_sqrt _ (not_lt.mp h0)] at h
        exact ⟨_, h.symm, value_sqrt.mpr ⟨va, ha, not_lt.mp h0, rfl⟩⟩
  | sin e ih =>
    rw [Expr.evaluateSingleVar] at h
    cases he : e.evaluateSingleVar v (fin x) with
    | error _ => simp [he, bind, Except.bind] at h
    | ok a =>
      obtain ⟨va, rfl, ha⟩ := ih (hc.child (by simp [children])) (hp.child (by simp [children]))
        a he
      simp [he, bind, Except.bind] at h
      exact ⟨_, h.symm, value_sin.mpr ⟨va, ha, rfl⟩⟩
  | cos e ih =>
    rw [Expr.evaluateSingleVar] at h
    cases he : e.evaluateSingleVar v (fin x) with
    | error _ => simp [he, bind, Except.bind] at h
    | ok a =>
      obtain ⟨va, rfl, ha⟩ := ih (hc.child (by simp [children])) (hp.child (by simp [children]))
        a he
      simp [he, bind, Except.bind] at h
      exact ⟨_, h.symm, value_cos.mpr ⟨va, ha, rfl⟩⟩
  | neg e ih =>
    rw [Expr.evaluateSingleVar] at h
    cases he : e.evaluateSingleVar v (fin x) with
    | error _ => simp [he, bind, Except.bind] at h
    | ok a =>
      obtain ⟨va, rfl, ha⟩ := ih (hc.child (by simp [children])) (hp.child (by simp [children]))
        a he
      simp [he, bind, Except.bind] at h
      exact ⟨_, h.symm, value_neg.mpr ⟨va, ha, rfl⟩⟩

/-- With a literal zero factor the two evaluators disagree: `0 * ln(x)` at `x = 0` is an error for
one and `0` for the other; `0 * x` at `x = +∞` is NaN for one and `0` for the other. -/
theorem C43_zero_factor_violated (v : String) :
    ((Expr.mul (.const (fin 0)) (.ln (.var v))).evaluateSingleVar v (fin 0)
        = .error (.invalidLogarithm (fin 0)) ∧
      (Expr.mul (.const (fin 0)) (.ln (.var v))).evaluate (singleMap v (fin 0)) = .ok (fin 0)) ∧
    ((Expr.mul (.const (fin 0)) (.var v)).evaluateSingleVar v pinf = .ok XReal.nan ∧
      (Expr.mul (.const (fin 0)) (.var v)).evaluate (singleMap v pinf) = .ok (fin 0)) := by
  refine ⟨⟨?_, ?_⟩, ?_, ?_⟩
  · simp [Expr.evaluateSingleVar, bind, Except.bind]
  · exact Expr.evaluate_mul_zero _ _ _ (.inl ⟨rfl, fun c h => by cases h⟩)
  · simp [Expr.evaluateSingleVar, bind, Except.bind, FloatOps.mul, XReal.mul, infOf]
  · exact Expr.evaluate_mul_zero _ _ _ (.inl ⟨rfl, fun c h => by cases h⟩)

/-! ## C44 -/

/-- Linear evaluation over finite literals returns the denoted value. -/
theorem C44_linear (e : Expr XReal) (hc : FiniteConsts e) (v : String) (x : ℝ) (r : XReal)
    (h : e.evaluateLinear v (fin x) = some r) :
    ∃ a, r = fin a ∧ value (single v x) e = some a := by
  have key : ∀ (e : Expr XReal), FiniteConsts e → ∀ A B,
      e.extractLinearCoefficients v = some (A, B) →
      ∃ a b, A = fin a ∧ B = fin b ∧ value (single v x) e = some (a * x + b) := by
    intro e
    induction e using @Expr.extractLinearCoefficients.induct XReal inferInstance v with
    | case1 c =>
      intro hc A B h
      obtain ⟨b, rfl⟩ := hc c .refl
      simp [Expr.extractLinearCoefficients] at h
      exact ⟨0, b, h.1.symm, h.2.symm, by simp [value]⟩
    | case2 =>
      intro hc A B h
      simp [Expr.extractLinearCoefficients] at h
      exact ⟨1, 0, h.1.symm, h.2.symm, by simp [value, single]⟩
    | case3 n h0 => intro _ A B h; simp [Expr.extractLinearCoefficients, h0] at h
    | case4 c =>
      intro hc A B h
      obtain ⟨a, rfl⟩ := hc c (.step (by simp [children]) .refl)
      simp [Expr.extractLinearCoefficients] at h
      exact ⟨a, 0, h.1.symm, h.2.symm, by simp [value, single]⟩
    | case5 c n h0 => intro _ A B h; simp [Expr.extractLinearCoefficients, h0] at h
    | case6 c =>
      intro hc A B h
      obtain ⟨a, rfl⟩ := hc c (.step (by simp [children]) .refl)
      simp [Expr.extractLinearCoefficients] at h
      exact ⟨a, 0, h.1.symm, h.2.symm, by simp [value, single, mul_comm]⟩
    | case7 n c h0 => intro _ A B h; simp [Expr.extractLinearCoefficients, h0] at h
    | case8 l r a1 b1 a2 b2 hr hl il ir =>
      intro hc A B h
      obtain ⟨x1, y1, rfl, rfl, h1⟩ := il (hc.child (by simp [children])) _ _ hl
      obtain ⟨x2, y2, rfl, rfl, h2⟩ := ir (hc.child (by simp [children])) _ _ hr
      simp [Expr.extractLinearCoefficients, hl, hr] at h
      exact ⟨_, _, h.1.symm, h.2.symm, value_add.mpr ⟨_, h1, _, h2, by ring⟩⟩
    | case9 l r hn il ir =>
      intro _ A B h
      exfalso
      cases hl : l.extractLinearCoefficients v with
      | none => simp [Expr.extractLinearCoefficients, hl] at h
      | some a =>
        cases hr : r.extractLinearCoefficients v with
        | none => simp [Expr.extractLinearCoefficients, hl, hr] at h
        | some b => exact hn a.1 a.2 b.1 b.2 hl hr
    | case10 l r a1 b1 a2 b2 hr hl il ir =>
      intro hc A B h
      obtain ⟨x1, y1, rfl, rfl, h1⟩ := il (hc.child (by simp [children])) _ _ hl
      obtain ⟨x2, y2, rfl, rfl, h2⟩ := ir (hc.child (by simp [children])) _ _ hr
      simp [Expr.extractLinearCoefficients, hl, hr] at h
      exact ⟨_, _, h.1.symm, h.2.symm, value_sub.mpr ⟨_, h1, _, h2, by ring⟩⟩
    | case11 l r hn il ir =>
      intro _ A B h
      exfalso
      cases hl : l.extractLinearCoefficients v with
      | none => simp [Expr.extractLinearCoefficients, hl] at h
      | some a =>
        cases hr : r.extractLinearCoefficients v with
        | none => simp [Expr.extractLinearCoefficients, hl, hr] at h
        | some b => exact hn a.1 a.2 b.1 b.2 hl hr
    | case12 e h1 h2 h3 h4 h5 h6 =>
      intro _ A B h
      rw [Expr.extractLinearCoefficients] at h
      · cases h
      all_goals assumption
  simp only [Expr.evaluateLinear] at h
  split at h
  · rename_i A B hab
    obtain ⟨a, b, rfl, rfl, hv⟩ := key e hc _ _ hab
    simp at h
    exact ⟨_, h.symm, hv⟩
  · cases h

/-- `(2 x + 3) - x` is linear and evaluates to `x + 3`. -/
example : (Expr.sub (.add (.mul (.const (fin 2)) (.var "x")) (.const (fin 3))) (.var "x")).evaluateLinear
    "x" (fin 5) = some (fin 8) := by
  simp [Expr.evaluateLinear, Expr.extractLinearCoefficients]; norm_num

/-- Polynomial evaluation at a finite point returns what map evaluation returns (literals may be
infinite or NaN). -/
theorem C44_polynomial (e : Expr XReal) (v : String) (x : ℝ) (res : XReal)
    (h : e.evaluatePolynomial v (fin x) = some res) :
    e.evaluate (singleMap v (fin x)) = .ok res := by
  have hvar : (singleMap v (fin x)).get v = some (fin x) := by simp [singleMap, FMap.insert]
  have mulc : ∀ a : XReal, (Expr.mul (.const a) (.var v)).evaluate (singleMap v (fin x))
      = .ok (a *. fin x) := by
    intro a
    by_cases ha : a = fin 0
    · subst ha
      rw [Expr.evaluate_mul_zero _ _ _ (.inl ⟨rfl, fun c h => by cases h⟩)]; simp
    · rw [Expr.evaluate_mul _ _ _ (by simpa using ha) (by simp)]
      simp [Expr.evaluate, hvar, bind, Except.bind]
  have cmul : ∀ a : XReal, (Expr.mul (.var v) (.const a)).evaluate (singleMap v (fin x))
      = .ok (a *. fin x) := by
    intro a
    by_cases ha : a = fin 0
    · subst ha
      rw [Expr.evaluate_mul_zero _ _ _ (.inr ⟨rfl, fun c h => by cases h⟩)]; simp
    · rw [Expr.evaluate_mul _ _ _ (by simp) (by simpa using ha)]
      simp only [Expr.evaluate, hvar, bind, Except.bind, Except.ok.injEq]
      cases a <;> simp [FloatOps.mul, XReal.mul, mul_comm]
  induction e using Expr.evaluatePolynomial.induct (varName := v) (value := fin x)
    generalizing res with
  | case1 c => simp [Expr.evaluatePolynomial] at h; subst h; rfl
  | case2 => simp [Expr.evaluatePolynomial] at h; subst h; simp [Expr.evaluate, hvar]
  | case3 n h0 => simp [Expr.evaluatePolynomial, h0] at h
  | case4 a => simp only [Expr.evaluatePolynomial, if_true, Option.some.injEq] at h
               subst h; exact mulc a
  | case5 a n h0 => simp [Expr.evaluatePolynomial, h0] at h
  | case6 a => simp only [Expr.evaluatePolynomial, if_true, Option.some.injEq] at h
               subst h; exact cmul a
  | case7 n a h0 => simp [Expr.evaluatePolynomial, h0] at h
  | case8 k =>
    simp only [Expr.evaluatePolynomial, if_true, Option.some.injEq] at h
    subst h; simp [Expr.evaluate, hvar, bind, Except.bind]
  | case9 n k h0 => simp [Expr.evaluatePolynomial, h0] at h
  | case10 l r a b hr hl il ir =>
    simp [Expr.evaluatePolynomial, hl, hr] at h
    subst h
    rw [Expr.evaluate_add, il _ hl, ir _ hr]; rfl
  | case11 l r hn il ir =>
    exfalso
    cases hl : l.evaluatePolynomial v (fin x) with
    | none => simp [Expr.evaluatePolynomial, hl] at h
    | some a =>
      cases hr : r.evaluatePolynomial v (fin x) with
      | none => simp [Expr.evaluatePolynomial, hl, hr] at h
      | some b => exact hn a b hl hr
  | case12 l r a b hr hl il ir =>
    simp [Expr.evaluatePolynomial, hl, hr] at h
    subst h
    simp [Expr.evaluate, il _ hl, ir _ hr, bind, Except.bind]
  | case13 l r hn il ir =>
    exfalso
    cases hl : l.evaluatePolynomial v (fin x) with
    | none => simp [Expr.evaluatePolynomial, hl] at h
    | some a =>
      cases hr : r.evaluatePolynomial v (fin x) with
      | none => simp [Expr.evaluatePolynomial, hl, hr] at h
      | some b => exact hn a b hl hr
  | case14 e h1 h2 h3 h4 h5 h6 h7 =>
    rw [Expr.evaluatePolynomial] at h
    · cases h
    all_goals assumption

/-- `x^3 - 2 x` at `x = 2`. -/
example : (Expr.sub (.pow (.var "x") (.const (fin (3 : ℕ)))) (.mul (.const (fin 2)) (.var "x"))).evaluatePolynomial
    "x" (fin 2) = some (fin 4) := by
  have := f_powf_nat 2 3
  simp only [Expr.evaluatePolynomial, if_true, this]; norm_num

/-- Smart evaluation returns the denoted value whenever there is one. -/
theorem C44_smart_value (e : Expr XReal) (hc : FiniteConsts e) (v : String) (x r : ℝ)
    (h : value (single v x) e = some r) : e.evaluateSmart v (fin x) = .ok (fin r) := by
  unfold Expr.evaluateSmart
  split
  · rename_i q hq
    obtain ⟨a, rfl, ha⟩ := C44_linear e hc v x q hq
    rw [h] at ha; cases ha; rfl
  · split
    · rename_i q hq
      have h1 := C44_polynomial e v x q hq
      rw [← env_single, C41_evaluate_value _ _ _ h] at h1
      exact h1.symm
    · exact C43_single_var_value e v x r h

/-- Without literal zero factors smart evaluation equals map evaluation, errors included. -/
theorem C44_smart_agrees_partial (e : Expr XReal) (hc : FiniteConsts e) (hz : NoZeroFactor e)
    (v : String) (x : ℝ) : e.evaluateSmart v (fin x) = e.evaluate (singleMap v (fin x)) := by
  unfold Expr.evaluateSmart
  split
  · rename_i q hq
    obtain ⟨a, rfl, ha⟩ := C44_linear e hc v x q hq
    rw [← env_single, C41_evaluate_value _ _ _ ha]
  · split
    · rename_i q hq
      exact (C44_polynomial e v x q hq).symm
    · exact C43_single_var_agrees_partial e hz v (fin x)

/-- At an infinite argument linear evaluation is wrong: the constant `1` becomes NaN. -/
theorem C44_infinite_argument_violated (v : String) :
    (Expr.const (fin 1)).evaluateSmart v pinf = .ok XReal.nan ∧
    (Expr.const (fin 1)).evaluate (singleMap v pinf) = .ok (fin 1) := by
  constructor
  · simp [Expr.evaluateSmart, Expr.evaluateLinear, Expr.extractLinearCoefficients, FloatOps.mul,
      XReal.mul, infOf]
  · rfl

/-! ## C45 -/

section
variable {F : Type} [FloatOps F]

theorem isPointwise_nil {α β ε : Type} (f : α → Except ε β) : IsPointwise f [] (.ok []) := by
  constructor
  · intro ys
    simp only [AllOk, List.forall₂_nil_left_iff, Except.ok.injEq]
    exact eq_comm
  · intro err
    constructor
    · intro h; cases h
    · rintro ⟨pre, x, post, h, -⟩; simp at h

theorem isPointwise_cons {α β ε : Type} (f : α → Except ε β) (x : α) (xs : List α)
    (r : Except ε (List β)) (h : IsPointwise f xs r) :
    IsPointwise f (x :: xs) (do let v ← f x; let vs ← r; .ok (v :: vs)) := by
  obtain ⟨hok, herr⟩ := h
  cases hx : f x with
  | error e0 =>
    simp only [bind, Except.bind]
    constructor
    · intro ys
      constructor
      · intro h; cases h
      · intro h; cases h; rename_i h1 _; rw [hx] at h1; cases h1
    · intro err
      constructor
      · intro h; cases h; exact ⟨[], x, xs, rfl, by simp, hx⟩
      · rintro ⟨pre, a, post, h1, h2, h3⟩
        cases pre with
        | nil => simp at h1; obtain ⟨rfl, rfl⟩ := h1; rw [hx] at h3; cases h3; rfl
        | cons p pre =>
          simp at h1; obtain ⟨rfl, rfl⟩ := h1
          obtain ⟨b, hb⟩ := h2 x (by simp); rw [hx] at hb; cases hb
  | ok v =>
    cases r with
    | error e0 =>
      simp only [bind, Except.bind]
      constructor
      · intro ys
        constructor
        · intro h; cases h
        · intro h
          cases h with
          | cons h1 h2 => have := (hok _).mpr h2; cases this
      · intro err
        constructor
        · intro h
          cases h
          obtain ⟨pre, a, post, rfl, h2, h3⟩ := (herr e0).mp rfl
          refine ⟨x :: pre, a, post, rfl, ?_, h3⟩
          intro b hb
          rcases List.mem_cons.mp hb with rfl | hb
          · exact ⟨v, hx⟩
          · exact h2 b hb
        · rintro ⟨pre, a, post, h1, h2, h3⟩
          cases pre with
          | nil => simp at h1; obtain ⟨rfl, rfl⟩ := h1; rw [hx] at h3; cases h3
          | cons p pre =>
            simp at h1; obtain ⟨rfl, rfl⟩ := h1
            have := (herr err).mpr ⟨pre, a, post, rfl, fun b hb => h2 b (by simp [hb]), h3⟩
            exact this
    | ok vs =>
      simp only [bind, Except.bind]
      constructor
      · intro ys
        constructor
        · intro h; cases h; exact List.Forall₂.cons hx ((hok vs).mp rfl)
        · intro h
          cases h with
          | cons h1 h2 =>
            rw [hx] at h1; cases h1
            have := (hok _).mpr h2; cases this; rfl
      · intro err
        constructor
        · intro h; cases h
        · rintro ⟨pre, a, post, h1, h2, h3⟩
          cases pre with
          | nil => simp at h1; obtain ⟨rfl, rfl⟩ := h1; rw [hx] at h3; cases h3
          | cons p pre =>
            simp at h1; obtain ⟨rfl, rfl⟩ := h1
            have := (herr err).mpr ⟨pre, a, post, rfl, fun b hb => h2 b (by simp [hb]), h3⟩
            cases this

omit [FloatOps F] in
theorem insert_insert (m : FMap String F) (k : String) (a b : F) :
    (m.insert k a).insert k b = m.insert k b := by
  simp only [FMap.insert, FMap.mk.injEq]
  funext n
  by_cases h : n = k <;> simp [h]

theorem batchFrom_pointwise (e : Expr F) (v : String) (m : FMap String F) (xs : List F) :
    IsPointwise (fun x => e.evaluate (m.insert v x)) xs (e.evaluateBatchFrom v m xs) := by
  induction xs generalizing m with
  | nil => exact isPointwise_nil _
  | cons x xs ih =>
    have := ih (m.insert v x)
    simp only [insert_insert] at this
    exact isPointwise_cons (fun x => e.evaluate (m.insert v x)) x xs _ this

/-- `evaluate_batch` returns, in order, what `evaluate` returns at each point, or the error of the
first failing point. -/
theorem C45_batch (e : Expr F) (v : String) (xs : List F) :
    IsPointwise (fun x => e.evaluate (singleMap v x)) xs (e.evaluateBatch v xs) :=
  batchFrom_pointwise e v FMap.empty xs

/-- `evaluate_batch_vars` likewise for arbitrary assignments. -/
theorem C45_batch_vars (e : Expr F) (sets : List (FMap String F)) :
    IsPointwise (fun m => e.evaluate m) sets (e.evaluateBatchVars sets) := by
  induction sets with
  | nil => exact isPointwise_nil _
  | cons m sets ih => exact isPointwise_cons (fun m => e.evaluate m) m sets _ ih

theorem gridRow_map (e : Expr F) (xn : String) (m : FMap String F) (xs : List F) :
    (∀ vs, (∃ m', e.evaluateGridRow xn m xs = .ok (vs, m')) ↔ e.evaluateBatchFrom xn m xs = .ok vs) ∧
    (∀ err, e.evaluateGridRow xn m xs = .error err ↔ e.evaluateBatchFrom xn m xs = .error err) ∧
    (∀ vs m', e.evaluateGridRow xn m xs = .ok (vs, m') → ∀ n, n ≠ xn → m'.get n = m.get n) := by
  induction xs generalizing m with
  | nil => simp [Expr.evaluateGridRow, Expr.evaluateBatchFrom]
  | cons x xs ih =>
    obtain ⟨h1, h2, h3⟩ := ih (m.insert xn x)
    simp only [Expr.evaluateGridRow, Expr.evaluateBatchFrom, bind, Except.bind]
    cases hx : e.evaluate (m.insert xn x) with
    | error e0 => simp
    | ok v =>
      simp only
      cases hr : e.evaluateGridRow xn (m.insert xn x) xs with
      | error e0 =>
        rw [(h2 e0).mp hr]; simp
      | ok p =>
        obtain ⟨vs, m'⟩ := p
        rw [(h1 vs).mp ⟨m', hr⟩]
        simp only [Except.ok.injEq, Prod.mk.injEq]
        refine ⟨?_, by simp, ?_⟩
        · intro ws
          constructor
          · rintro ⟨_, h, _⟩; exact h
          · intro h; exact ⟨m', h, rfl⟩
        · rintro _ _ ⟨-, rfl⟩ n hn
          rw [h3 vs m' hr n hn]
          simp [FMap.insert, hn]

/-- The row of the grid at `y`: `evaluate_batch`-like evaluation with `y` bound first and `x`
(overriding it when the two names coincide) bound second. -/
def gridCell (e : Expr F) (xn yn : String) (y x : F) : Except (EvalError F) F :=
  e.evaluate ((singleMap yn y).insert xn x)

/-- `evaluate_grid`: a successful result has one row per `y` and in each row one entry per `x`, the
value at `(x, y)`; a failure is the error of the first failing cell in row order. -/
theorem C45_grid (e : Expr F) (xn : String) (xs : List F) (yn : String) (ys : List F) :
    (∀ rows, e.evaluateGrid xn xs yn ys = .ok rows ↔
      List.Forall₂ (fun y row => AllOk (gridCell e xn yn y) xs row) ys rows) ∧
    (∀ err, e.evaluateGrid xn xs yn ys = .error err ↔
      ∃ pre y post, ys = pre ++ y :: post ∧ (∀ p ∈ pre, ∃ row, AllOk (gridCell e xn yn p) xs row) ∧
        FirstError (gridCell e xn yn y) xs err) := by
  have key : ∀ (ys : List F) (m : FMap String F), (∀ n, n ≠ xn → n ≠ yn → m.get n = none) →
      IsPointwise (fun y => e.evaluateBatchFrom xn (singleMap yn y) xs) ys
        (e.evaluateGridFrom xn xs yn m ys) := by
    intro ys
    induction ys with
    | nil => intro m _; exact isPointwise_nil _
    | cons y ys ih =>
      intro m hm
      have same : ∀ x, (m.insert yn y).insert xn x = (singleMap yn y).insert xn x := by
        intro x
        simp only [FMap.insert, singleMap, FMap.empty, FMap.mk.injEq]
        funext n
        by_cases h1 : n = xn
        · simp [h1]
        · by_cases h2 : n = yn
          · simp [h2]
          · simp [h1, h2, hm n h1 h2]
      have samerow : e.evaluateBatchFrom xn (m.insert yn y) xs
          = e.evaluateBatchFrom xn (singleMap yn y) xs := by
        cases xs with
        | nil => rfl
        | cons x xs => simp only [Expr.evaluateBatchFrom, same]
      obtain ⟨h1, h2, h3⟩ := gridRow_map e xn (m.insert yn y) xs
      simp only [Expr.evaluateGridFrom, bind, Except.bind]
      cases hr : e.evaluateGridRow xn (m.insert yn y) xs with
      | error e0 =>
        have := (h2 e0).mp hr
        have h := isPointwise_cons (fun y => e.evaluateBatchFrom xn (singleMap yn y) xs) y ys _
          (ih m hm)
        rw [← samerow, this] at h
        exact h
      | ok p =>
        obtain ⟨row, m'⟩ := p
        have := (h1 row).mp ⟨m', hr⟩
        have h := isPointwise_cons (fun y => e.evaluateBatchFrom xn (singleMap yn y) xs) y ys _
          (ih m' (by
            intro n hn1 hn2
            rw [h3 row m' hr n hn1]
            simp [FMap.insert, hn2, hm n hn1 hn2]))
        rw [← samerow, this] at h
        exact h
  obtain ⟨hok, herr⟩ := key ys FMap.empty (by intros; rfl)
  have row : ∀ y, IsPointwise (gridCell e xn yn y) xs
      (e.evaluateBatchFrom xn (singleMap yn y) xs) := fun y => batchFrom_pointwise e xn _ xs
  constructor
  · intro rows
    rw [Expr.evaluateGrid, hok, AllOk]
    constructor
    · intro h; exact h.imp (fun y r hr => ((row y).1 r).mp hr)
    · intro h; exact h.imp (fun y r hr => ((row y).1 r).mpr hr)
  · intro err
    rw [Expr.evaluateGrid, herr, FirstError]
    constructor
    · rintro ⟨pre, y, post, h1, h2, h3⟩
      refine ⟨pre, y, post, h1, ?_, ((row y).2 err).mp h3⟩
      intro p hp
      obtain ⟨r, hr⟩ := h2 p hp
      exact ⟨r, ((row p).1 r).mp hr⟩
    · rintro ⟨pre, y, post, h1, h2, h3⟩
      refine ⟨pre, y, post, h1, ?_, ((row y).2 err).mpr h3⟩
      intro p hp
      obtain ⟨r, hr⟩ := h2 p hp
      exact ⟨r, ((row p).1 r).mpr hr⟩

end

/-- `1/x` over `[2, 0, 1]`: the batch fails with the error of its second point. -/
example : (Expr.div (.const (fin 1)) (.var "x")).evaluateBatch "x" [fin 2, fin 0, fin 1]
    = .error .divisionByZero := by
  simp [Expr.evaluateBatch, Expr.evaluateBatchFrom, Expr.evaluate, FMap.insert, bind, Except.bind,
    f_div]

/-! ## C46 -/

/-- When no variable other than the batch variable occurs, and there is no literal zero factor, the
optimised batch equals the plain batch (errors included). -/
theorem C46_optimized_agrees_partial (e : Expr XReal) (v : String) (xs : List XReal)
    (hv : ∀ n, Occurs n e → n = v) (hz : NoZeroFactor e) :
    e.evaluateBatchOptimized v xs = e.evaluateBatch v xs := by
  have hall : e.evaluateSingleVarAll v xs = e.evaluateBatch v xs := by
    have : ∀ (m : FMap String XReal), (∀ x, m.insert v x = singleMap v x) →
        e.evaluateSingleVarAll v xs = e.evaluateBatchFrom v m xs := by
      induction xs with
      | nil => intros; rfl
      | cons x xs ih =>
        intro m hm
        rw [Expr.evaluateSingleVarAll, Expr.evaluateBatchFrom, C43_single_var_agrees_partial e hz]
        simp only [hm]
        rw [ih (singleMap v x) (by intro y; simp only [singleMap, insert_insert])]
    exact this FMap.empty (fun x => rfl)
  unfold Expr.evaluateBatchOptimized
  simp only
  split_ifs with h
  · exact hall
  · have hempty : e.variableNames = [] := by
      cases hn : e.variableNames with
      | nil => rfl
      | cons a l =>
        exfalso
        have ha : a = v := hv a ((C42_variables e).2.2 a |>.mp (by simp [hn]))
        cases l with
        | nil => exact h (by rw [hn, ha])
        | cons b l =>
          have hb : b = v := hv b ((C42_variables e).2.2 b |>.mp (by simp [hn]))
          have := (C42_variables e).2.1
          rw [hn, ha, hb] at this
          simp at this
    rw [hempty]; rfl

/-- In general the optimised batch treats every other variable as `0.0`. -/
theorem C46_other_variables_are_zero {F : Type} [FloatOps F] (e : Expr F) (v : String)
    (xs : List F) (hv : e.variableNames ≠ [v]) :
    IsPointwise (fun x => e.evaluate
      ⟨fun n => if n = v then some x else if n ∈ e.variableNames then some zero else none⟩) xs
      (e.evaluateBatchOptimized v xs) := by
  have hm : ∀ (l : List String) (m : FMap String F) (n : String), n ≠ v →
      (l.foldl (fun m w => if w ≠ v then FMap.insert m w zero else m) m).get n
        = if n ∈ l then some zero else m.get n := by
    intro l
    induction l with
    | nil => intros; simp
    | cons w l ih =>
      intro m n hn
      rw [List.foldl_cons, ih _ n hn]
      by_cases h1 : n ∈ l
      · simp [h1]
      · by_cases h2 : n = w
        · subst h2; simp [hn, FMap.insert, h1]
        · by_cases h3 : w = v <;> simp [h1, h2, h3, hn, FMap.insert]
  unfold Expr.evaluateBatchOptimized
  simp only [if_neg hv]
  have := batchFrom_pointwise e v (e.variableNames.foldl
      (fun m w => if w ≠ v then FMap.insert m w zero else m) FMap.empty) xs
  convert this using 3 with x
  congr 1
  simp only [FMap.insert, FMap.mk.injEq]
  funext n
  by_cases h : n = v
  · simp [h]
  · rw [if_neg h, if_neg h]
    have := hm e.variableNames FMap.empty n h
    simp only [FMap.insert, ne_eq, ite_not] at this ⊢
    rw [this]; simp [FMap.empty]

/-- Hence the two disagree when a second variable occurs: `x + y` over `[3]` gives `[3]` instead of
an undefined-variable error. -/
theorem C46_violated :
    let e : Expr XReal := .add (.var "x") (.var "y")
    e.evaluateBatchOptimized "x" [fin 3] = .ok [fin 3] ∧
    e.evaluateBatch "x" [fin 3] = .error (.undefinedVariable "y") := by
  intro e
  have hx : "x" ∈ e.variableNames := (Expr.mem_variableNames _ _).mpr (.addL .var)
  have hy : "y" ∈ e.variableNames := (Expr.mem_variableNames _ _).mpr (.addR .var)
  have hne : e.variableNames ≠ ["x"] := by
    intro h; rw [h] at hy; simp at hy
  constructor
  · apply ((C46_other_variables_are_zero e "x" [fin 3] hne).1 _).mpr
    refine .cons ?_ .nil
    have hy' : "y" ∈ ((Expr.var "x").add (Expr.var "y") : Expr XReal).variableNames := hy
    show (Expr.add (.var "x") (.var "y")).evaluate _ = _
    rw [Expr.evaluate_add]
    simp [Expr.evaluate, hy', bind, Except.bind, e]
  · apply ((C45_batch e "x" [fin 3]).2 _).mpr
    refine ⟨[], fin 3, [], rfl, by simp, ?_⟩
    show (Expr.add (.var "x") (.var "y")).evaluate _ = _
    rw [Expr.evaluate_add]
    simp [Expr.evaluate, singleMap, FMap.insert, FMap.empty, bind, Except.bind]

end Verif
