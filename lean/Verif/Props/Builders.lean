import Verif.Props.SimplifyValue
import Mathlib.Probability.Distributions.Gaussian.Real
import Mathlib.Analysis.SpecialFunctions.Sigmoid

/-! C55: expression builders. -/

namespace Verif
open Classical Spec XReal ProbabilityTheory

section C55
open Expr
variable {ρ : String → Option ℝ}

theorem denotes_of_value {e : Expr XReal} {v : ℝ} (h : value ρ e = some v) : Denotes ρ e v :=
  ⟨h, evaluate_of_value ρ e v h⟩

theorem value_const (c : ℝ) : value ρ (const (fin c)) = some c := rfl

theorem realPow_two (a : ℝ) : realPow a 2 = some (a ^ 2) := by
  have := realPow_int a 2 (.inr (by norm_num))
  norm_cast at this ⊢

theorem realPow_natCast (a : ℝ) (n : ℕ) : realPow a n = some (a ^ n) := by
  have := realPow_int a n (.inr (by positivity))
  norm_cast at this ⊢

theorem value_sq {e : Expr XReal} {a : ℝ} (h : value ρ e = some a) :
    value ρ (pow e (const (fin ((2 : ℚ) : ℝ)))) = some (a ^ 2) :=
  value_pow.mpr ⟨_, h, _, value_const _, by push_cast; exact realPow_two a⟩

/-- The Gaussian log-density in the documented form. -/
theorem log_gaussian {m s a : ℝ} (hs : 0 < s) :
    Real.log (gaussianPDFReal m (s ^ 2).toNNReal a) =
      -(1/2) * Real.log (2 * Real.pi) - Real.log s - 1/2 * (a - m) ^ 2 / s ^ 2 := by
  have hpi := Real.pi_pos
  rw [gaussianPDFReal, Real.coe_toNNReal _ (sq_nonneg s), Real.log_mul (by positivity)
    (Real.exp_ne_zero _), Real.log_exp, Real.log_inv, Real.log_sqrt (by positivity),
    Real.log_mul (by positivity) (by positivity), Real.log_pow]
  field_simp
  push_cast
  ring

/-- `normal_log_pdf` denotes the logarithm of the Gaussian density, for arbitrary argument
expressions. -/
theorem C55_normal_log_pdf (x mu sigma : Expr XReal) {a m s : ℝ} (hx : value ρ x = some a)
    (hm : value ρ mu = some m) (hs : value ρ sigma = some s) (h0 : 0 < s) :
    Denotes ρ (Builders.normalLogPdf x mu sigma)
      (Real.log (gaussianPDFReal m (s ^ 2).toNNReal a)) := by
  apply denotes_of_value
  have hpi : 0 < 2 * Real.pi := by have := Real.pi_pos; positivity
  rw [log_gaussian h0]
  simp only [Builders.normalLogPdf, f_ofRat, f_pi, f_mul]
  refine value_add.mpr ⟨_, value_neg.mpr ⟨_, value_add.mpr ⟨_, value_mul.mpr ⟨_, value_const _, _,
      value_ln.mpr ⟨_, value_const _, ?_, rfl⟩, rfl⟩, _, value_ln.mpr ⟨_, hs, h0, rfl⟩, rfl⟩, rfl⟩,
    _, value_div.mpr ⟨_, value_mul.mpr ⟨_, value_neg.mpr ⟨_, value_const _, rfl⟩, _,
      value_sq (value_sub.mpr ⟨_, hx, _, hm, rfl⟩), rfl⟩, _,
      value_sq hs, ?_, rfl⟩, ?_⟩
  · push_cast; exact hpi
  · positivity
  · push_cast; ring

/-- With a scale that is not positive `normal_log_pdf` reports an illegal logarithm instead of a
number. -/
theorem C55_normal_log_pdf_bad_scale (x mu sigma : Expr XReal) {s : ℝ}
    (hs : value ρ sigma = some s) (h0 : s ≤ 0) :
    (Builders.normalLogPdf x mu sigma).evaluate (env ρ) = .error (.invalidLogarithm (fin s)) := by
  have hpi : ¬ (2 * Real.pi ≤ 0) := by have := Real.pi_pos; push Not; positivity
  have h1 := evaluate_of_value ρ sigma s hs
  simp only [Builders.normalLogPdf]
  rw [evaluate_add]
  have : (neg (add (mul (const (FloatOps.ofRat (1/2))) (ln (const (FloatOps.mul (FloatOps.ofRat 2) FloatOps.pi))))
      (ln sigma)) : Expr XReal).evaluate (env ρ) = .error (.invalidLogarithm (fin s)) := by
    rw [Expr.evaluate, evaluate_add, evaluate_mul _ _ _ (by simp) (by simp)]
    simp [Expr.evaluate, h1, h0, bind, Except.bind, hpi]
  rw [this]; rfl

/-- `polynomial` denotes `Σ aᵢ xⁱ` for coefficient lists of every length. -/
theorem C55_polynomial (x : Expr XReal) {a : ℝ} (hx : value ρ x = some a) (cs : List ℝ) :
    Denotes ρ (Builders.polynomial x (cs.map fin))
      (∑ i : Fin cs.length, cs[i] * a ^ (i : ℕ)) := by
  apply denotes_of_value
  suffices ∀ (cs : List ℝ) (acc : Expr XReal) (i : ℕ) (s : ℝ), value ρ acc = some s →
      value ρ (Builders.polynomialFrom x acc i (cs.map fin)) =
        some (s + ∑ j : Fin cs.length, cs[j] * a ^ (i + j : ℕ)) by
    have := this cs (const FloatOps.zero) 0 0 rfl
    simpa [Builders.polynomial] using this
  intro cs
  induction cs with
  | nil => intro acc i s hs; simpa [Builders.polynomialFrom] using hs
  | cons c cs ih =>
    intro acc i s hs
    have hstep : value ρ (Builders.polynomialStep x acc i (fin c)) = some (s + c * a ^ i) := by
      unfold Builders.polynomialStep
      refine value_add.mpr ⟨_, hs, c * a ^ i, ?_, rfl⟩
      split_ifs with h0 h1
      · subst h0; simp [value]
      · subst h1; exact value_mul.mpr ⟨_, value_const _, _, hx, by simp⟩
      · rw [f_ofNat]
        exact value_mul.mpr ⟨_, value_const _, _,
          value_pow.mpr ⟨_, hx, _, value_const _, realPow_natCast a i⟩, rfl⟩
    simp only [List.map_cons, Builders.polynomialFrom]
    rw [ih _ (i + 1) _ hstep, Option.some.injEq]
    have hsum : ∑ j : Fin (c :: cs).length, (c :: cs)[j] * a ^ (i + j : ℕ) =
        c * a ^ i + ∑ j : Fin cs.length, cs[j] * a ^ (i + 1 + j : ℕ) := by
      rw [show ∑ j : Fin (c :: cs).length, (c :: cs)[j] * a ^ (i + j : ℕ) =
        ∑ j : Fin (cs.length + 1), (c :: cs)[j] * a ^ (i + j : ℕ) from rfl, Fin.sum_univ_succ]
      simp [add_assoc, add_comm 1]
    rw [hsum]; ring

/-- `gaussian_kernel` denotes `exp(−½(x−μ)²/σ²)`, for every nonzero scale. -/
theorem C55_gaussian_kernel (x mu sigma : Expr XReal) {a m s : ℝ} (hx : value ρ x = some a)
    (hm : value ρ mu = some m) (hs : value ρ sigma = some s) (h0 : s ≠ 0) :
    Denotes ρ (Builders.gaussianKernel x mu sigma) (Real.exp (-(1/2) * (a - m) ^ 2 / s ^ 2)) := by
  apply denotes_of_value
  simp only [Builders.gaussianKernel, f_ofRat]
  refine value_exp.mpr ⟨_, value_div.mpr ⟨_, value_mul.mpr ⟨_, value_neg.mpr ⟨_, value_const _, rfl⟩,
      _, value_sq (value_sub.mpr ⟨_, hx, _, hm, rfl⟩), rfl⟩, _,
      value_sq hs, ?_, rfl⟩, ?_⟩
  · positivity
  · push_cast; rfl

/-- `logistic` denotes the sigmoid function. -/
theorem C55_logistic (x : Expr XReal) {a : ℝ} (hx : value ρ x = some a) :
    Denotes ρ (Builders.logistic x) (Real.sigmoid a) := by
  apply denotes_of_value
  have h0 : 1 + Real.exp (-a) ≠ 0 := by positivity
  exact value_div.mpr ⟨_, value_const _, _, value_add.mpr ⟨_, value_const _, _,
    value_exp.mpr ⟨_, value_neg.mpr ⟨_, hx, rfl⟩, rfl⟩, rfl⟩, h0, by
      rw [Real.sigmoid_def, one_div]⟩

/-- `softplus` denotes `ln(1 + eˣ)`. -/
theorem C55_softplus (x : Expr XReal) {a : ℝ} (hx : value ρ x = some a) :
    Denotes ρ (Builders.softplus x) (Real.log (1 + Real.exp a)) := by
  apply denotes_of_value
  have h0 : 0 < 1 + Real.exp a := by positivity
  exact value_ln.mpr ⟨_, value_add.mpr ⟨_, value_const _, _, value_exp.mpr ⟨_, hx, rfl⟩, rfl⟩,
    h0, rfl⟩

/-- `quadratic_term` denotes `−½(x−μ)²/σ²`. -/
theorem C55_quadratic_term (n : String) (m s : ℝ) {a : ℝ} (hx : ρ n = some a) (h0 : s ≠ 0) :
    Denotes ρ (Builders.quadraticTerm n (fin m) (fin s)) (-(1/2) * (a - m) ^ 2 / s ^ 2) := by
  apply denotes_of_value
  simp only [Builders.quadraticTerm, f_ofRat, f_mul]
  refine value_neg.mpr ⟨_, value_mul.mpr ⟨_, value_const _, _, value_div.mpr ⟨_,
    value_sq (value_sub.mpr ⟨_, hx, _, value_const _, rfl⟩), _,
    value_const _, ?_, rfl⟩, rfl⟩, ?_⟩
  · positivity
  · push_cast; ring

/-- `linear_term` denotes `c·x`. -/
theorem C55_linear_term (n : String) (c : ℝ) {a : ℝ} (hx : ρ n = some a) :
    Denotes ρ (Builders.linearTerm n (fin c)) (c * a) :=
  denotes_of_value (value_mul.mpr ⟨_, value_const _, _, hx, rfl⟩)

/-- `log_normal_constant` denotes `−½ ln(2π) − ln σ`, under every assignment. -/
theorem C55_log_normal_constant (s : ℝ) (h0 : 0 < s) :
    Denotes ρ (Builders.logNormalConstant (fin s))
      (-(1/2) * Real.log (2 * Real.pi) - Real.log s) := by
  apply denotes_of_value
  have hpi : 0 < 2 * Real.pi := by have := Real.pi_pos; positivity
  simp only [Builders.logNormalConstant, f_ofRat, f_pi, f_mul]
  refine value_sub.mpr ⟨_, value_neg.mpr ⟨_, value_mul.mpr ⟨_, value_const _, _,
    value_ln.mpr ⟨_, value_const _, ?_, rfl⟩, rfl⟩, rfl⟩, _,
    value_ln.mpr ⟨_, value_const _, h0, rfl⟩, ?_⟩
  · push_cast; exact hpi
  · push_cast; ring

/-- `quadratic_term + log_normal_constant` is the Gaussian log-density. -/
theorem C55_quadratic_and_constant (n : String) (m s : ℝ) {a : ℝ} (hx : ρ n = some a) (h0 : 0 < s) :
    Denotes ρ (add (Builders.quadraticTerm n (fin m) (fin s)) (Builders.logNormalConstant (fin s)))
      (Real.log (gaussianPDFReal m (s ^ 2).toNNReal a)) := by
  apply denotes_of_value
  rw [log_gaussian h0]
  exact value_add.mpr ⟨_, (C55_quadratic_term n m s hx h0.ne').1, _,
    (C55_log_normal_constant s h0).1, by ring⟩

/-- The hypotheses are met, e.g. by three variables bound to numbers. -/
example : ∃ ρ : String → Option ℝ, value ρ (var "x") = some 1 ∧ value ρ (var "mu") = some (-2) ∧
    value ρ (var "sigma") = some 3 ∧ (0 : ℝ) < 3 :=
  ⟨fun n => if n = "x" then some 1 else if n = "mu" then some (-2) else some 3,
    by simp [value], by simp [value], by simp [value], by norm_num⟩

end C55
end Verif
