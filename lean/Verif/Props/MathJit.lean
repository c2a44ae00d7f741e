import Verif.Spec.Tagless
import Verif.Lemmas.Num
import Mathlib.Analysis.Calculus.Deriv.Pow
import Mathlib.Analysis.Calculus.Deriv.Add
import Mathlib.Analysis.Calculus.Deriv.Mul
import Mathlib.Algebra.BigOperators.Fin
import Mathlib.Algebra.BigOperators.Ring.List

/-!
# C68–C70: the polynomial helpers
-/

namespace Verif
open XReal Spec Tagless

section
variable {F R : Type} [FloatOps F]

/-- The generic Horner recursion, most significant coefficient last. -/
theorem hornerExpr_cons (E : MathExpr F R) (c d : R) (cs : List R) (x : R) :
    hornerExpr E (c :: d :: cs) x = E.add (E.mul (hornerExpr E (d :: cs) x) x) c := by
  have key : ∀ (l : List R) (a : R) (h : l ++ [a] ≠ []), hornerExprLoop E x ((l ++ [a]).getLast h)
      ((l ++ [a]).reverse.drop 1) = hornerExprLoop E x a l.reverse := by
    intro l a h; simp
  have hsnoc : ∀ (l : List R) (h : l ≠ []), ∃ m a, l = m ++ [a] := fun l h =>
    ⟨l.dropLast, l.getLast h, (List.dropLast_append_getLast h).symm⟩
  rcases cs with _ | ⟨e, cs⟩
  · rfl
  · obtain ⟨m, a, hm⟩ := hsnoc (d :: e :: cs) (by simp)
    have h1 : hornerExpr E (d :: e :: cs) x = hornerExprLoop E x a m.reverse := by
      have := key m a (by simp)
      simp only [← hm] at this
      exact this
    have h2 : hornerExpr E (c :: d :: e :: cs) x = hornerExprLoop E x a (c :: m).reverse := by
      have := key (c :: m) a (by simp)
      simp only [List.cons_append, ← hm] at this
      exact this
    rw [h1, h2]
    simp [hornerExprLoop]

/-- The two Horner functions agree under every interpreter. -/
theorem C68_expression_variant_agrees (E : MathExpr F R) (cs : List F) (x : R) :
    hornerExpr E (cs.map E.constant) x = horner E cs x := by
  match cs with
  | [] => rfl
  | [c] => rfl
  | c :: d :: cs =>
    have key : ∀ (l : List F) (h : l ≠ []) (h' : l.map E.constant ≠ []),
        hornerExprLoop E x ((l.map E.constant).getLast h') ((l.map E.constant).reverse.drop 1) =
        (l.reverse.drop 1).foldl (fun result coeff => E.add (E.mul result x) (E.constant coeff))
          (E.constant (l.getLast h)) := by
      intro l h h'
      rw [List.getLast_map, ← List.map_reverse, ← List.map_drop, hornerExprLoop, List.foldl_map]
    exact key (c :: d :: cs) (by simp) (by simp)

end

/-- `Σ cs[i] xⁱ` by the Horner recursion. -/
theorem sum_cons (c : ℝ) (cs : List ℝ) (x : ℝ) :
    ∑ i : Fin (c :: cs).length, (c :: cs)[i] * x ^ (i : ℕ) =
      c + x * ∑ i : Fin cs.length, cs[i] * x ^ (i : ℕ) := by
  rw [show ∑ i : Fin (c :: cs).length, (c :: cs)[i] * x ^ (i : ℕ) =
    ∑ i : Fin (cs.length + 1), (c :: cs)[i] * x ^ (i : ℕ) from rfl, Fin.sum_univ_succ,
    Finset.mul_sum]
  simp [pow_succ]
  exact Finset.sum_congr rfl fun i _ => by ring

/-- **C68** for coefficient expressions. -/
theorem C68_horner_expr (cs : List ℝ) (x : ℝ) :
    hornerExpr directEval (cs.map fin) (fin x) =
      fin (∑ i : Fin cs.length, cs[i] * x ^ (i : ℕ)) := by
  induction cs with
  | nil => simp [hornerExpr, directEval]
  | cons c cs ih =>
    rcases cs with _ | ⟨d, cs⟩
    · simp [hornerExpr]
    · rw [List.map_cons, List.map_cons, hornerExpr_cons, ← List.map_cons, ih, sum_cons c]
      simp only [directEval, f_mul, f_add]
      congr 1; ring

/-- **C68**: Horner evaluation is polynomial evaluation, for coefficient lists of every length. -/
theorem C68_horner (cs : List ℝ) (x : ℝ) :
    horner directEval (cs.map fin) (fin x) =
      fin (∑ i : Fin cs.length, cs[i] * x ^ (i : ℕ)) := by
  rw [← C68_horner_expr, ← C68_expression_variant_agrees]
  congr 1
  rw [List.map_map]
  rfl

/-- Horner's method performs one multiplication per coefficient after the first (for an atomic
argument). -/
theorem C68_multiplications {F : Type} [FloatOps F] (cs : List F) (n : String) :
    multiplications (horner jitEval cs (.named n)) = cs.length - 1 := by
  rw [← C68_expression_variant_agrees]
  induction cs with
  | nil => rfl
  | cons c cs ih =>
    rcases cs with _ | ⟨d, cs⟩
    · rfl
    · rw [List.map_cons, List.map_cons, hornerExpr_cons, ← List.map_cons]
      simp only [jitEval, multiplications] at ih ⊢
      rw [ih]
      simp

example : horner directEval [fin 1, fin 3, fin 2] (fin 2) = fin 15 := by
  have := C68_horner [1, 3, 2] 2
  simp only [List.map] at this
  rw [this]
  simp [Fin.sum_univ_succ]; norm_num

/-- The derivative of a polynomial given by its coefficients. -/
theorem hasDerivAt_poly (cs : List ℝ) (x : ℝ) :
    HasDerivAt (fun t => ∑ i : Fin cs.length, cs[i] * t ^ (i : ℕ))
      (∑ i : Fin cs.length, cs[i] * ((i : ℕ) * x ^ ((i : ℕ) - 1))) x := by
  apply HasDerivAt.fun_sum
  intro i _
  exact (hasDerivAt_pow _ _).const_mul _

/-- **C69**: the Horner derivative is the derivative of the Horner polynomial. -/
theorem C69_horner_derivative (cs : List ℝ) (x : ℝ) :
    ∃ d, hornerDerivative directEval (cs.map fin) (fin x) = fin d ∧
      HasDerivAt (fun t => (horner directEval (cs.map fin) (fin t)).toReal) d x := by
  simp only [C68_horner, toReal_fin]
  refine ⟨_, ?_, hasDerivAt_poly cs x⟩
  rcases cs with _ | ⟨c, cs⟩
  · simp [hornerDerivative, directEval]
  · have hsum : ∑ i : Fin (c :: cs).length, (c :: cs)[i] * ((i : ℕ) * x ^ ((i : ℕ) - 1)) =
        ∑ i : Fin cs.length, (cs[i] * ((i : ℕ) + 1)) * x ^ (i : ℕ) := by
      rw [show ∑ i : Fin (c :: cs).length, (c :: cs)[i] * ((i : ℕ) * x ^ ((i : ℕ) - 1)) =
        ∑ i : Fin (cs.length + 1), (c :: cs)[i] * ((i : ℕ) * x ^ ((i : ℕ) - 1)) from rfl,
        Fin.sum_univ_succ]
      simp [mul_assoc]
    rw [hsum]
    have hlist : (((c :: cs).map fin).zipIdx.drop 1).map
        (fun p => FloatOps.mul p.1 (FloatOps.ofNat p.2)) =
        (cs.zipIdx 1).map (fun p => fin (p.1 * p.2)) := by
      rw [List.map_cons, List.zipIdx_cons, List.drop_one, List.tail_cons, List.zipIdx_map,
        List.map_map]
      apply List.map_congr_left
      rintro ⟨a, n⟩ _
      simp
    unfold hornerDerivative
    split_ifs with hlen
    · have : cs = [] := by simpa using hlen
      subst this
      simp [directEval]
    · rw [hlist]
      have : (cs.zipIdx 1).map (fun p => fin (p.1 * p.2)) =
          ((cs.zipIdx 1).map (fun p => p.1 * (p.2 : ℝ))).map fin := by simp
      rw [this, C68_horner]
      congr 1
      have hlen' : ((cs.zipIdx 1).map (fun p => p.1 * (p.2 : ℝ))).length = cs.length := by simp
      rw [← Fin.sum_congr' (fun i : Fin cs.length => cs[i] * (((i : ℕ) : ℝ) + 1) * x ^ (i : ℕ)) hlen']
      refine Finset.sum_congr rfl fun i _ => ?_
      simp [add_comm]

example : ∃ d, hornerDerivative directEval [fin 1, fin 3, fin 2] (fin 2) = fin d :=
  (C69_horner_derivative [1, 3, 2] 2).imp fun _ h => h.1

/-- **C70**: `from_roots` is the product of the linear factors … -/
theorem C70_from_roots_value (rs : List ℝ) (x : ℝ) :
    fromRoots directEval (rs.map fin) (fin x) = fin ((rs.map fun r => x - r).prod) := by
  rcases rs with _ | ⟨r, rs⟩
  · simp [fromRoots, directEval]
  · have key : ∀ (l : List ℝ) (a : ℝ), (l.map fin).foldl
        (fun result root => FloatOps.mul result (FloatOps.sub (fin x) root)) (fin a) =
        fin (a * (l.map fun r => x - r).prod) := by
      intro l
      induction l with
      | nil => intro a; simp
      | cons b l ih => intro a; simp [ih, mul_assoc]
    simp only [fromRoots, directEval, List.map_cons, f_sub]
    rw [key]; simp

/-- … and so it is zero exactly at the roots. -/
theorem C70_from_roots_zero_iff (rs : List ℝ) (x : ℝ) :
    fromRoots directEval (rs.map fin) (fin x) = fin 0 ↔ x ∈ rs := by
  rw [C70_from_roots_value, XReal.fin.injEq, List.prod_eq_zero_iff]
  simp [sub_eq_zero]

example : fromRoots directEval [fin 1, fin 2] (fin 2) = fin 0 :=
  (C70_from_roots_zero_iff [1, 2] 2).2 (by simp)

end Verif
