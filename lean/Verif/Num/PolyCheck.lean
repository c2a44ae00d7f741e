import Mathlib.Data.Real.Basic
import Mathlib.Tactic.Ring
import Mathlib.Tactic.FieldSimp
import Mathlib.Tactic.Linarith
import Mathlib.Tactic.Positivity

/-!
# Nonnegativity of integer polynomials on [0, 1]

A checker for polynomials with integer coefficients and its soundness: if `check` accepts, the
polynomial is nonnegative at every real in [0, 1].  Used to bound the error of the rational
approximations in the generated code.
-/

namespace Verif.Poly

/-- A polynomial, constant term first. -/
abbrev P := List ℤ

/-- Its value. -/
def ev : P → ℝ → ℝ
  | [], _ => 0
  | a :: p, x => a + x * ev p x

def add : P → P → P
  | [], q => q
  | p, [] => p
  | a :: p, b :: q => (a + b) :: add p q

def smul (c : ℤ) : P → P
  | [] => []
  | a :: p => (c * a) :: smul c p

def mul : P → P → P
  | [], _ => []
  | a :: p, q => add (smul a q) (0 :: mul p q)

def pow (p : P) : ℕ → P
  | 0 => [1]
  | n + 1 => mul p (pow p n)

/-- `Σ cᵢ aⁱ b^(n-i)` for the coefficients `c₀ … cₙ`. -/
def homog (a b : P) : P → P
  | [] => []
  | c :: cs => add (smul c (pow b cs.length)) (mul a (homog a b cs))

@[simp] theorem ev_add (p q : P) (x : ℝ) : ev (add p q) x = ev p x + ev q x := by
  induction p generalizing q with
  | nil => simp [add, ev]
  | cons a p ih =>
    cases q with
    | nil => simp [add, ev]
    | cons b q => simp only [add, ev, ih]; push_cast; ring

@[simp] theorem ev_smul (c : ℤ) (p : P) (x : ℝ) : ev (smul c p) x = c * ev p x := by
  induction p with
  | nil => simp [smul, ev]
  | cons a p ih => simp only [smul, ev, ih]; push_cast; ring

@[simp] theorem ev_mul (p q : P) (x : ℝ) : ev (mul p q) x = ev p x * ev q x := by
  induction p with
  | nil => simp [mul, ev]
  | cons a p ih => simp only [mul, ev_add, ev_smul, ev, ih]; push_cast; ring

@[simp] theorem ev_pow (p : P) (n : ℕ) (x : ℝ) : ev (pow p n) x = ev p x ^ n := by
  induction n with
  | zero => simp [pow, ev]
  | succ n ih => simp only [pow, ev_mul, ih]; ring

/-- `homog` clears the denominators of `cs` at `a / b`. -/
theorem ev_homog (a b : P) (cs : P) (x : ℝ) (hb : ev b x ≠ 0) :
    ev (homog a b cs) x * ev b x = ev b x ^ cs.length * ev cs (ev a x / ev b x) := by
  induction cs with
  | nil => simp [homog, ev]
  | cons c cs ih =>
    simp only [homog, ev_add, ev_smul, ev_pow, ev_mul, ev, List.length_cons]
    rw [add_mul, mul_assoc (ev a x), ih]
    field_simp
    ring

/-- The polynomial `v^n p(u x / v)`, with integer coefficients. -/
def stretch (u v : ℤ) : P → P
  | [] => []
  | a :: p => (a * v ^ p.length) :: smul u (stretch u v p)

theorem ev_stretch (u v : ℤ) (hv : (v : ℝ) ≠ 0) (p : P) (x : ℝ) :
    ev (stretch u v p) x * v = v ^ p.length * ev p (u * x / v) := by
  induction p with
  | nil => simp [stretch, ev]
  | cons a p ih =>
    simp only [stretch, ev, ev_smul, List.length_cons]
    have : (u : ℝ) * ev (stretch u v p) x * v = u * (v ^ p.length * ev p (u * x / v)) := by
      rw [mul_assoc, ih]
    push_cast
    rw [add_mul, mul_assoc x, this]
    field_simp
    ring

/-- Multiplication by `1 + x`, adding `c`. -/
def mulX1 (c : ℤ) : P → P
  | [] => [c]
  | a :: p => (a + c) :: mulX1 a p

theorem ev_mulX1 (c : ℤ) (p : P) (x : ℝ) : ev (mulX1 c p) x = c + (1 + x) * ev p x := by
  induction p generalizing c with
  | nil => simp [mulX1, ev]
  | cons a p ih => simp only [mulX1, ev, ih]; push_cast; ring

def addHead (a : ℤ) : P → P
  | [] => [a]
  | b :: p => (a + b) :: p

/-- `p(x + 1)` -/
def shift : P → P
  | [] => []
  | a :: p => addHead a (mulX1 0 (shift p))

theorem ev_shift (p : P) (x : ℝ) : ev (shift p) x = ev p (x + 1) := by
  have h : ∀ a q, ev (addHead a q) x = a + ev q x := by
    intro a q; cases q <;> simp [addHead, ev]; ring
  induction p with
  | nil => rfl
  | cons a p ih => simp only [shift, h, ev_mulX1, ev, ih]; push_cast; ring

theorem ev_append (p : P) (a : ℤ) (x : ℝ) : ev (p ++ [a]) x = ev p x + a * x ^ p.length := by
  induction p with
  | nil => simp [ev]
  | cons b p ih => simp only [List.cons_append, ev, ih, List.length_cons]; ring

theorem ev_reverse (p : P) (x : ℝ) (hx : x ≠ 0) :
    x * ev p.reverse x = x ^ p.length * ev p (1 / x) := by
  induction p with
  | nil => simp [ev]
  | cons a p ih =>
    simp only [List.reverse_cons, ev_append, ev, List.length_cons, List.length_reverse, mul_add, ih]
    field_simp
    ring

theorem ev_nonneg {p : P} (h : ∀ a ∈ p, 0 ≤ a) {x : ℝ} (hx : 0 ≤ x) : 0 ≤ ev p x := by
  induction p with
  | nil => simp [ev]
  | cons a p ih =>
    simp only [ev]
    have h1 : (0 : ℝ) ≤ a := by exact_mod_cast h a (by simp)
    have h2 := ih (fun b hb => h b (by simp [hb]))
    positivity

/-- All coefficients of `(1 + y)^n p(1 / (1 + y))` are nonnegative. -/
def test (p : P) : Bool := decide (0 ≤ p.headD 0) && (shift p.reverse).all (fun a => decide (0 ≤ a))

theorem test_sound {p : P} (h : test p = true) {x : ℝ} (h0 : 0 ≤ x) (h1 : x ≤ 1) : 0 ≤ ev p x := by
  simp only [test, Bool.and_eq_true, decide_eq_true_eq, List.all_eq_true] at h
  rcases h0.eq_or_lt with rfl | hx
  · cases p with
    | nil => simp [ev]
    | cons a p => simpa [ev] using h.1
  · have hy : 0 ≤ 1 / x - 1 := by
      rw [sub_nonneg, le_div_iff₀ hx]; linarith
    have h2 := ev_nonneg h.2 hy
    rw [ev_shift, sub_add_cancel] at h2
    have h3 := ev_reverse p (1 / x) (by positivity)
    rw [one_div_one_div] at h3
    have h4 : 0 ≤ (1 / x) ^ p.length * ev p x := by rw [← h3]; positivity
    exact nonneg_of_mul_nonneg_right h4 (by positivity)

/-- Bisection down to depth `n`. -/
def check : ℕ → P → Bool
  | 0, p => test p
  | n + 1, p => test p || (check n (stretch 1 2 p) && check n (shift (stretch 1 2 p)))

theorem check_sound (n : ℕ) {p : P} (h : check n p = true) {x : ℝ} (h0 : 0 ≤ x) (h1 : x ≤ 1) :
    0 ≤ ev p x := by
  induction n generalizing p x with
  | zero => exact test_sound h h0 h1
  | succ n ih =>
    simp only [check, Bool.or_eq_true, Bool.and_eq_true] at h
    rcases h with h | ⟨ha, hb⟩
    · exact test_sound h h0 h1
    · have key : ∀ y : ℝ, 0 ≤ ev (stretch 1 2 p) y → 0 ≤ ev p (y / 2) := by
        intro y hy
        have h2 := ev_stretch 1 2 (by norm_num) p y
        have h3 : 0 ≤ ((2 : ℤ) : ℝ) ^ p.length * ev p (((1 : ℤ) : ℝ) * y / ((2 : ℤ) : ℝ)) := by
          rw [← h2]; push_cast; positivity
        push_cast at h3
        rw [one_mul] at h3
        exact nonneg_of_mul_nonneg_right h3 (by positivity)
      rcases le_total x (1/2) with hx | hx
      · have := key (2 * x) (ih ha (by linarith) (by linarith))
        rwa [mul_div_cancel_left₀ _ (by norm_num)] at this
      · have h2 := ih hb (x := 2 * x - 1) (by linarith) (by linarith)
        rw [ev_shift, sub_add_cancel] at h2
        have := key (2 * x) h2
        rwa [mul_div_cancel_left₀ _ (by norm_num)] at this

/-- The same on `[0, u / v]`. -/
theorem check_sound_interval (n : ℕ) {p : P} {u v : ℕ} (hu : 0 < u) (hv : 0 < v)
    (h : check n (stretch u v p) = true) {x : ℝ} (h0 : 0 ≤ x) (h1 : x ≤ u / v) : 0 ≤ ev p x := by
  have hu' : (0 : ℝ) < u := by exact_mod_cast hu
  have hv' : (0 : ℝ) < v := by exact_mod_cast hv
  have h2 := check_sound n h (x := x * v / u) (by positivity) (by
    rw [div_le_one hu']; rwa [le_div_iff₀ hv'] at h1)
  have h3 := ev_stretch u v (by push_cast; exact hv'.ne') p (x * v / u)
  push_cast at h3
  have h4 : (u : ℝ) * (x * v / u) / v = x := by field_simp
  rw [h4] at h3
  have h5 : 0 ≤ (v : ℝ) ^ p.length * ev p x := by rw [← h3]; positivity
  exact nonneg_of_mul_nonneg_right h5 (by positivity)

end Verif.Poly
