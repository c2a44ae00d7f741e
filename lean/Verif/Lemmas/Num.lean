import Verif.Num.XReal
import Verif.Model.Core
import Mathlib.Tactic.Positivity
import Mathlib.Tactic.FieldSimp
import Mathlib.Tactic.Ring
import Mathlib.Tactic.Linarith

/-! Helper lemmas about sums and finiteness in `XReal`. -/

namespace Verif
open FloatOps XReal

theorem XReal.IsFin.eq {x : XReal} (h : x.IsFin) : x = fin x.toReal := by
  obtain ⟨a, rfl⟩ := h; rfl

theorem sum_isFin {α : Type} (l : List α) (f : α → XReal) (h : ∀ a ∈ l, (f a).IsFin) :
    FloatOps.sum (l.map f) = fin ((l.map (fun a => (f a).toReal)).sum) := by
  have : l.map f = (l.map (fun a => (f a).toReal)).map fin := by
    rw [List.map_map]
    apply List.map_congr_left
    intro a ha
    exact (h a ha).eq
  rw [this, f_sum]

theorem sum_isFin' (l : List XReal) (h : ∀ a ∈ l, a.IsFin) :
    FloatOps.sum l = fin ((l.map XReal.toReal).sum) := by
  have := sum_isFin l id h
  simpa using this

theorem sum_foldl_fin (l : List ℝ) (a : ℝ) :
    (l.map fin).foldl FloatOps.add (fin a) = fin (a + l.sum) := by
  induction l generalizing a with
  | nil => simp
  | cons b l ih => simp [ih, add_assoc]

theorem sum_map_add_real {α : Type} (l : List α) (f g : α → ℝ) :
    (l.map (fun a => f a + g a)).sum = (l.map f).sum + (l.map g).sum := by
  induction l with
  | nil => simp
  | cons a l ih => simp [ih]; ring

theorem sum_map_const_real {α : Type} (l : List α) (c : ℝ) :
    (l.map (fun _ => c)).sum = l.length * c := by
  induction l with
  | nil => simp
  | cons a l ih => simp; ring

theorem sum_map_mul_real {α : Type} (l : List α) (c : ℝ) (f : α → ℝ) :
    (l.map (fun a => c * f a)).sum = c * (l.map f).sum := by
  induction l with
  | nil => simp
  | cons a l ih => simp [ih]; ring

theorem two_pi_pos' : (0 : ℝ) < 2 * Real.pi := by positivity

@[simp] theorem dot_nil_left (b : List XReal) : dot [] b = fin 0 := rfl

theorem dot_one (a b : XReal) : dot [a] [b] = (fin 0 +. a *. b) := rfl
theorem dot_two (a b c d : XReal) : dot [a, b] [c, d] = (fin 0 +. a *. c +. b *. d) := rfl

@[simp] theorem dot_one_fin (a b : ℝ) : dot [fin a] [fin b] = fin (a * b) := by
  simp [dot_one]
@[simp] theorem dot_two_fin (a b c d : ℝ) :
    dot [fin a, fin b] [fin c, fin d] = fin (a * c + b * d) := by
  simp [dot_two]

end Verif
