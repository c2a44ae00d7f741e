import Verif.Model.Combinators
import Verif.Lemmas.Num
import Mathlib.LinearAlgebra.Matrix.Determinant.Basic
import Mathlib.LinearAlgebra.Matrix.Notation
import Mathlib.Analysis.Calculus.FDeriv.Pi
import Mathlib.Analysis.Calculus.Deriv.Add
import Mathlib.Analysis.Calculus.Deriv.Comp
import Mathlib.LinearAlgebra.Determinant
import Mathlib.Topology.Algebra.Module.Determinant

/-!
# C37: differentiable transforms
-/

namespace Verif
open FloatOps XReal

/-- The `n × m` matrix stored row-major in a list. -/
def rowMajor (n m : ℕ) (l : List ℝ) : Matrix (Fin n) (Fin m) ℝ := fun i j => l.getD (i * m + j) 0

theorem getD_map_fin (l : List ℝ) (i : ℕ) : (l.map fin).getD i (fin 0) = fin (l.getD i 0) := by
  rw [List.getD_eq_getElem?_getD, List.getD_eq_getElem?_getD, List.getElem?_map]
  cases l[i]? <;> rfl

theorem foldl_lin (l : List ℕ) (f : ℕ → ℝ) (a : ℝ) :
    l.foldl (fun sum j => sum +. fin (f j)) (fin a) = fin (a + (l.map f).sum) := by
  induction l generalizing a with
  | nil => simp
  | cons j l ih => simp [ih, add_assoc]

/-- **C37**, constructor and map: for every matrix and offset of matching sizes the constructor succeeds,
and applying the transform to any vector of the right length gives `A x + b`; wrong sizes panic. -/
theorem C37_linear_map (n m : ℕ) (A b x : List ℝ) :
    (A.length = m * n → b.length = n → x.length = m →
      ∃ t, LinearTransform.new (A.map fin) (b.map fin) m n = .ok t ∧
        t.transform (x.map fin) = .ok (List.ofFn (fun i : Fin n =>
          fin ((rowMajor n m A).mulVec (fun j => x.getD j 0) i + b.getD i 0)))) ∧
    (A.length ≠ m * n ∨ b.length ≠ n → ∃ p, LinearTransform.new (A.map fin) (b.map fin) m n = .error p) := by
  constructor
  · intro hA hb hx
    refine ⟨⟨A.map fin, b.map fin, m, n, fin 1⟩, ?_, ?_⟩
    · simp [LinearTransform.new, hA, hb]
    · unfold LinearTransform.transform
      simp only [List.length_map, hx, ne_eq, not_true_eq_false, if_false, f_zero]
      congr 1
      apply List.ext_getElem
      · simp
      intro i h1 h2
      have hi : i < n := by simpa using h1
      rw [List.getElem_map, List.getElem_ofFn, List.getElem_range]
      simp only [getD_map_fin, f_mul]
      rw [foldl_lin (List.range m) (fun j => A.getD (i * m + j) 0 * x.getD j 0), add_comm]
      congr 2
      unfold Matrix.mulVec dotProduct
      rw [← List.sum_ofFn]
      congr 1
      apply List.ext_getElem
      · simp
      · intro j h3 h4
        simp [rowMajor]
  · intro h
    unfold LinearTransform.new
    simp only [List.length_map]
    by_cases hA : A.length = m * n
    · have hb : b.length ≠ n := by
        rcases h with h | h
        · exact absurd hA h
        · exact h
      exact ⟨_, by rw [if_neg (by simpa using hA), if_pos hb]⟩
    · exact ⟨_, by rw [if_pos hA]⟩

/-- **C37**, where it holds: for every square matrix, the reported log-Jacobian is `0`; this is the right
value exactly for the matrices of determinant `1` or `-1` (among the invertible ones).  Missing from the
full claim: every other matrix, see `C37_violated`. -/
theorem C37_linear_jacobian_partial (n : ℕ) (A b : List ℝ) (t : LinearTransform XReal)
    (h : LinearTransform.new (A.map fin) (b.map fin) n n = .ok t) (x : XReal)
    (hdet : (rowMajor n n A).det ≠ 0) :
    t.logAbsDetJacobian x = fin 0 ∧
    (t.logAbsDetJacobian x = fin (Real.log |(rowMajor n n A).det|) ↔ |(rowMajor n n A).det| = 1) := by
  have h0 : t.logAbsDetJacobian x = fin 0 := by
    unfold LinearTransform.new at h
    split_ifs at h
    cases h
    simp [LinearTransform.logAbsDetJacobian, f_ln 1 one_pos]
  refine ⟨h0, ?_⟩
  rw [h0]
  have hp : 0 < |(rowMajor n n A).det| := abs_pos.mpr hdet
  constructor
  · intro e
    have e := XReal.fin.inj e
    have := Real.exp_log hp
    rw [← e, Real.exp_zero] at this
    exact this.symm
  · intro e
    rw [e, Real.log_one]

example : ∃ t, LinearTransform.new ([0, 1, -1, 0].map fin) ([5, 6].map fin) 2 2 = .ok t ∧
    (rowMajor 2 2 [0, 1, -1, 0]).det = 1 := by
  refine ⟨_, by simp [LinearTransform.new]; rfl, ?_⟩
  rw [Matrix.det_fin_two]
  simp [rowMajor]

/-- **C37**, componentwise transforms: the function is applied to every component, and a vector of the
wrong length panics. -/
theorem C37_componentwise_map (n : ℕ) (f : XReal → XReal) (g : ℝ → ℝ) (hf : ∀ a, f (fin a) = fin (g a))
    (x : List ℝ) :
    (x.length = n →
      (⟨f, n⟩ : ComponentwiseTransform XReal).transform (x.map fin) = .ok ((x.map g).map fin)) ∧
    (x.length ≠ n → ∃ p, (⟨f, n⟩ : ComponentwiseTransform XReal).transform (x.map fin) = .error p) := by
  constructor
  · intro h
    simp [ComponentwiseTransform.transform, h, hf, Function.comp_def]
  · intro h
    exact ⟨_, by rw [ComponentwiseTransform.transform, if_pos (by simpa using h)]⟩

/-- The determinant of the derivative of a componentwise map is the product of the derivatives. -/
theorem componentwise_det {n : ℕ} (g : ℝ → ℝ) (x : Fin n → ℝ) (hg : ∀ i, DifferentiableAt ℝ g (x i)) :
    (fderiv ℝ (fun (v : Fin n → ℝ) (i : Fin n) => g (v i)) x).det = ∏ i, deriv g (x i) := by
  have hd : HasFDerivAt (fun (v : Fin n → ℝ) (i : Fin n) => g (v i))
      (ContinuousLinearMap.pi fun i =>
        deriv g (x i) • (ContinuousLinearMap.proj i : (Fin n → ℝ) →L[ℝ] ℝ)) x := by
    rw [hasFDerivAt_pi]
    intro i
    have h1 := (hg i).hasDerivAt
    have h2 : HasFDerivAt (fun v : Fin n → ℝ => v i) (ContinuousLinearMap.proj i : (Fin n → ℝ) →L[ℝ] ℝ) x :=
      hasFDerivAt_apply i x
    exact h1.comp_hasFDerivAt x h2
  rw [hd.fderiv]
  have : ((ContinuousLinearMap.pi fun i =>
      deriv g (x i) • (ContinuousLinearMap.proj i : (Fin n → ℝ) →L[ℝ] ℝ)) : (Fin n → ℝ) →ₗ[ℝ] (Fin n → ℝ)) =
      Matrix.toLin' (Matrix.diagonal fun i => deriv g (x i)) := by
    ext i j
    by_cases h : j = i
    · subst h; simp
    · simp [h]
  rw [ContinuousLinearMap.det, this, LinearMap.det_toLin', Matrix.det_diagonal]

/-- **C37**, componentwise transforms, where it holds: the reported log-Jacobian is `0` whatever the
function and the point; where the function is differentiable with non-zero derivatives this is the
logarithm of the absolute determinant of the derivative exactly if that determinant is `1` or `-1`.
Missing from the full claim: every other function and point, see `C37_violated`. -/
theorem C37_componentwise_jacobian_partial (n : ℕ) (f : XReal → XReal) (g : ℝ → ℝ) (y : XReal)
    (x : Fin n → ℝ) (hg : ∀ i, DifferentiableAt ℝ g (x i)) (hne : ∀ i, deriv g (x i) ≠ 0) :
    (⟨f, n⟩ : ComponentwiseTransform XReal).logAbsDetJacobian y = fin 0 ∧
    ((⟨f, n⟩ : ComponentwiseTransform XReal).logAbsDetJacobian y =
        fin (Real.log |(fderiv ℝ (fun (v : Fin n → ℝ) (i : Fin n) => g (v i)) x).det|) ↔
      |∏ i, deriv g (x i)| = 1) := by
  rw [componentwise_det g x hg]
  have h0 : (⟨f, n⟩ : ComponentwiseTransform XReal).logAbsDetJacobian y = fin 0 := by
    simp [ComponentwiseTransform.logAbsDetJacobian]
  refine ⟨h0, ?_⟩
  rw [h0]
  have hp : 0 < |∏ i, deriv g (x i)| := abs_pos.mpr (Finset.prod_ne_zero_iff.2 fun i _ => hne i)
  constructor
  · intro e
    have e := XReal.fin.inj e
    have := Real.exp_log hp
    rw [← e, Real.exp_zero] at this
    exact this.symm
  · intro e
    rw [e, Real.log_one]

/-- reflection on two coordinates meets the hypotheses, with determinant `1` -/
example : (∀ i, DifferentiableAt ℝ (fun a : ℝ => 3 - a) (![1, 2] i)) ∧
    (∀ i : Fin 2, deriv (fun a : ℝ => 3 - a) (![1, 2] i) ≠ 0) ∧
    |∏ i : Fin 2, deriv (fun a : ℝ => 3 - a) (![1, 2] i)| = 1 := by
  refine ⟨fun i => by fun_prop, fun i => ?_, ?_⟩ <;> simp

/-- **C37** violated: doubling (the `1 × 1` matrix `2`) reports log-Jacobian `0` instead of `ln 2`; and a
componentwise transform reports `0` whatever the function, here doubling on three coordinates, whose
derivative matrix has determinant `8`. -/
theorem C37_violated :
    (∃ t, LinearTransform.new [fin 2] [fin 0] 1 1 = .ok t ∧
      t.transform [fin 3] = .ok [fin 6] ∧
      (∀ x, t.logAbsDetJacobian x = fin 0) ∧ Real.log |(rowMajor 1 1 [2]).det| ≠ 0) ∧
    (∃ c : ComponentwiseTransform XReal, c.dim = 3 ∧
      (∀ a b d : ℝ, c.transform [fin a, fin b, fin d] = .ok [fin (2 * a), fin (2 * b), fin (2 * d)]) ∧
      (∀ x, c.logAbsDetJacobian x = fin 0) ∧
      Real.log |(Matrix.diagonal (fun _ : Fin 3 => (2 : ℝ))).det| ≠ 0) := by
  have hlog : ∀ x : ℝ, 1 < x → Real.log |x| ≠ 0 := by
    intro x hx
    rw [abs_of_pos (by linarith)]
    exact (Real.log_pos hx).ne'
  constructor
  · refine ⟨⟨[fin 2], [fin 0], 1, 1, fin 1⟩, by simp [LinearTransform.new], ?_, ?_, ?_⟩
    · simp [LinearTransform.transform]
      norm_num
    · intro x
      simp [LinearTransform.logAbsDetJacobian, f_ln 1 one_pos]
    · rw [Matrix.det_fin_one]
      exact hlog _ (by simp [rowMajor])
  · refine ⟨⟨fun x => fin 2 *. x, 3⟩, rfl, ?_, ?_, ?_⟩
    · intro a b d
      simp [ComponentwiseTransform.transform]
    · intro x
      simp [ComponentwiseTransform.logAbsDetJacobian]
    · rw [Matrix.det_diagonal]
      apply hlog
      norm_num [Finset.prod_const]

end Verif
