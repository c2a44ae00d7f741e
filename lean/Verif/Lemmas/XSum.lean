import Verif.Lemmas.Num
import Verif.Model.ExpFam
import Mathlib.Algebra.BigOperators.Group.List.Lemmas

/-! `XReal` addition is a commutative monoid (NaN absorbing, `∞ - ∞ = NaN`), and multiplication by a
finite number distributes over it. -/

namespace Verif
open FloatOps XReal

theorem XReal.add_comm' (a b : XReal) : (a +. b) = (b +. a) := by
  cases a <;> cases b <;> first | rfl | (simp; ring)

theorem XReal.add_assoc' (a b c : XReal) : (a +. b +. c) = (a +. (b +. c)) := by
  cases a <;> cases b <;> cases c <;> first | rfl | (simp; ring)

theorem XReal.zero_add' (a : XReal) : (fin 0 +. a) = a := by
  cases a <;> first | rfl | simp

theorem XReal.add_zero' (a : XReal) : (a +. fin 0) = a := by
  cases a <;> first | rfl | simp

theorem XReal.sub_zero' (a : XReal) : (a -. fin 0) = a := by
  cases a <;> first | rfl | simp

theorem XReal.sub_eq (a b : XReal) : (a -. b) = (a +. FloatOps.neg b) := rfl

theorem XReal.mul_fin_add (c : ℝ) (a b : XReal) :
    (fin c *. (a +. b)) = (fin c *. a +. fin c *. b) := by
  have h1 : ∀ x : XReal, (fin c *. pinf) = infOf c := fun _ => rfl
  have h2 : ∀ x : XReal, (fin c *. ninf) = infOf (-c) := fun _ => rfl
  rcases lt_trichotomy c 0 with hc | hc | hc
  · have e1 : (fin c *. pinf) = ninf := by
      show infOf c = _; simp [infOf, hc, not_lt.mpr hc.le]
    have e2 : (fin c *. ninf) = pinf := by
      show infOf (-c) = _; simp [infOf, hc]
    cases a <;> cases b <;> simp only [nan_add, add_nan, mul_nan, e1, e2, f_mul, f_add, mul_add] <;>
      first | rfl | exact e1 | exact e2
  · subst hc
    have e1 : (fin 0 *. pinf) = XReal.nan := by
      show infOf 0 = _; simp [infOf]
    have e2 : (fin 0 *. ninf) = XReal.nan := by
      show infOf (-0) = _; simp [infOf]
    cases a <;> cases b <;> simp only [nan_add, add_nan, mul_nan, e1, e2, f_mul, f_add, mul_add] <;>
      first | rfl | exact e1 | exact e2
  · have e1 : (fin c *. pinf) = pinf := by
      show infOf c = _; simp [infOf, hc]
    have e2 : (fin c *. ninf) = ninf := by
      show infOf (-c) = _; simp [infOf, hc, not_lt.mpr hc.le]
    cases a <;> cases b <;> simp only [nan_add, add_nan, mul_nan, e1, e2, f_mul, f_add, mul_add] <;>
      first | rfl | exact e1 | exact e2

noncomputable instance : Add XReal := ⟨XReal.add⟩
noncomputable instance : Zero XReal := ⟨fin 0⟩

noncomputable instance : AddCommMonoid XReal where
  add_assoc := XReal.add_assoc'
  add_comm := XReal.add_comm'
  zero_add := XReal.zero_add'
  add_zero := XReal.add_zero'
  nsmul := nsmulRec

theorem XReal.add_def (a b : XReal) : (a +. b) = a + b := rfl
theorem XReal.zero_def : (fin 0 : XReal) = 0 := rfl

theorem XReal.sum_eq (l : List XReal) : FloatOps.sum l = l.sum := by
  unfold FloatOps.sum
  rw [List.sum_eq_foldl]
  rfl

theorem XReal.sum_append (l m : List XReal) : FloatOps.sum (l ++ m) = (FloatOps.sum l +. FloatOps.sum m) := by
  rw [XReal.sum_eq, XReal.sum_eq, XReal.sum_eq, List.sum_append]; rfl

theorem XReal.sum_perm {l m : List XReal} (h : l.Perm m) : FloatOps.sum l = FloatOps.sum m := by
  rw [XReal.sum_eq, XReal.sum_eq, h.sum_eq]

@[simp] theorem XReal.sum_cons (a : XReal) (l : List XReal) : FloatOps.sum (a :: l) = (a +. FloatOps.sum l) := by
  rw [XReal.sum_eq, XReal.sum_eq, List.sum_cons]; rfl

@[simp] theorem XReal.sum_nil : FloatOps.sum ([] : List XReal) = fin 0 := rfl

theorem XReal.sum_map_add {α : Type} (l : List α) (f g : α → XReal) :
    FloatOps.sum (l.map (fun a => f a +. g a)) = (FloatOps.sum (l.map f) +. FloatOps.sum (l.map g)) := by
  rw [XReal.sum_eq, XReal.sum_eq, XReal.sum_eq]
  exact List.sum_map_add

theorem XReal.sum_map_const {α : Type} (l : List α) (c : ℝ) :
    FloatOps.sum (l.map (fun _ => fin c)) = fin (l.length * c) := by
  have : l.map (fun _ => fin c) = (l.map (fun _ => c)).map fin := by simp
  rw [this, f_sum, sum_map_const_real]

/-! ### dot products and statistic sums -/

theorem foldl_dot (l : List (XReal × XReal)) (a : XReal) :
    l.foldl (fun acc p => acc +. p.1 *. p.2) a = (a +. FloatOps.sum (l.map (fun p => p.1 *. p.2))) := by
  induction l generalizing a with
  | nil => simp [XReal.add_zero']
  | cons p l ih => rw [List.foldl_cons, ih, List.map_cons, XReal.sum_cons, XReal.add_assoc']

theorem dot_eq_sum (a b : List XReal) :
    dot a b = FloatOps.sum (List.zipWith FloatOps.mul a b) := by
  unfold dot
  rw [f_zero, foldl_dot, XReal.zero_add']
  congr 1
  rw [List.zip_eq_zipWith, List.map_zipWith]

theorem dot_cons (a b : XReal) (as bs : List XReal) :
    dot (a :: as) (b :: bs) = (a *. b +. dot as bs) := by
  rw [dot_eq_sum, dot_eq_sum, List.zipWith_cons_cons, XReal.sum_cons]

theorem dot_zipWith_add (η : List ℝ) (s t : List XReal) (hs : s.length = η.length)
    (ht : t.length = η.length) :
    dot (η.map fin) (List.zipWith FloatOps.add s t) = (dot (η.map fin) s +. dot (η.map fin) t) := by
  induction η generalizing s t with
  | nil => simp [dot, f_zero]
  | cons c η ih =>
    obtain _ | ⟨a, s⟩ := s
    · simp at hs
    obtain _ | ⟨b, t⟩ := t
    · simp at ht
    rw [List.zipWith_cons_cons, List.map_cons, dot_cons, dot_cons, dot_cons,
      ih s t (by simpa using hs) (by simpa using ht), XReal.mul_fin_add]
    simp only [XReal.add_def]
    abel

theorem dot_zeros (η : List ℝ) (n : ℕ) : dot (η.map fin) (List.replicate n (fin 0)) = fin 0 := by
  induction η generalizing n with
  | nil => rfl
  | cons c η ih =>
    cases n with
    | zero => rfl
    | succ n => rw [List.replicate_succ, List.map_cons, dot_cons, ih]; simp

theorem zipWith_add_length (n : ℕ) (s t : List XReal) (hs : s.length = n) (ht : t.length = n) :
    (List.zipWith FloatOps.add s t).length = n := by simp [hs, ht]

theorem foldl_zipWith_length (n : ℕ) (stats : List (List XReal)) (h : ∀ t ∈ stats, t.length = n)
    (s : List XReal) (hs : s.length = n) :
    (stats.foldl (fun sum stat => List.zipWith FloatOps.add sum stat) s).length = n := by
  induction stats generalizing s with
  | nil => exact hs
  | cons t l ih =>
    exact ih (fun u hu => h u (by simp [hu])) _ (zipWith_add_length n s t hs (h t (by simp)))

theorem dot_foldl (η : List ℝ) (stats : List (List XReal)) (h : ∀ t ∈ stats, t.length = η.length)
    (s : List XReal) (hs : s.length = η.length) :
    dot (η.map fin) (stats.foldl (fun sum stat => List.zipWith FloatOps.add sum stat) s)
      = (dot (η.map fin) s +. FloatOps.sum (stats.map (fun t => dot (η.map fin) t))) := by
  induction stats generalizing s with
  | nil => simp [XReal.add_zero']
  | cons t l ih =>
    rw [List.foldl_cons, ih (fun u hu => h u (by simp [hu])) _
      (zipWith_add_length _ s t hs (h t (by simp))), dot_zipWith_add η s t hs (h t (by simp)),
      List.map_cons, XReal.sum_cons, XReal.add_assoc']

theorem dot_sumSufficientStats (η : List ℝ) (stats : List (List XReal))
    (h : ∀ t ∈ stats, t.length = η.length) :
    dot (η.map fin) (sumSufficientStats η.length stats)
      = FloatOps.sum (stats.map (fun t => dot (η.map fin) t)) := by
  unfold sumSufficientStats
  rw [dot_foldl η stats h _ (by simp), f_zero, dot_zeros, XReal.zero_add']

end Verif
