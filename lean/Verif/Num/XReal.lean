import Verif.Num.FloatOps
import Mathlib.Analysis.SpecialFunctions.Pow.Real
import Mathlib.Analysis.SpecialFunctions.Gamma.Basic
import Mathlib.Analysis.SpecialFunctions.Trigonometric.Basic

/-!
# Extended reals with IEEE special values

`XReal` is the value domain in which numeric properties are stated: a NaN, two infinities and
the (exact) real numbers.  The rules for the special values follow IEEE-754 / C99 `pow`.
Not represented: rounding, overflow, underflow, the sign of zero (zero is treated as `+0`).
-/

namespace Verif

inductive XReal where
  | nan | ninf | pinf
  | fin (x : ℝ)

namespace XReal

open Classical

protected noncomputable def add : XReal → XReal → XReal
  | nan, _ => nan
  | _, nan => nan
  | pinf, ninf => nan
  | ninf, pinf => nan
  | pinf, _ => pinf
  | _, pinf => pinf
  | ninf, _ => ninf
  | _, ninf => ninf
  | fin a, fin b => fin (a + b)

protected noncomputable def neg : XReal → XReal
  | nan => nan
  | ninf => pinf
  | pinf => ninf
  | fin a => fin (-a)

protected noncomputable def sub (a b : XReal) : XReal := XReal.add a (XReal.neg b)

/-- sign-directed infinity: `s * ∞` -/
noncomputable def infOf (s : ℝ) : XReal :=
  if 0 < s then pinf else if s < 0 then ninf else nan

protected noncomputable def mul : XReal → XReal → XReal
  | nan, _ => nan
  | _, nan => nan
  | pinf, pinf => pinf
  | pinf, ninf => ninf
  | ninf, pinf => ninf
  | ninf, ninf => pinf
  | pinf, fin b => infOf b
  | fin a, pinf => infOf a
  | ninf, fin b => infOf (-b)
  | fin a, ninf => infOf (-a)
  | fin a, fin b => fin (a * b)

protected noncomputable def div : XReal → XReal → XReal
  | nan, _ => nan
  | _, nan => nan
  | pinf, pinf => nan
  | pinf, ninf => nan
  | ninf, pinf => nan
  | ninf, ninf => nan
  | pinf, fin b => if b < 0 then ninf else pinf
  | ninf, fin b => if b < 0 then pinf else ninf
  | fin _, pinf => fin 0
  | fin _, ninf => fin 0
  | fin a, fin b => if b = 0 then infOf a else fin (a / b)

protected noncomputable def abs : XReal → XReal
  | nan => nan
  | ninf => pinf
  | pinf => pinf
  | fin a => fin |a|

protected noncomputable def ln : XReal → XReal
  | nan => nan
  | ninf => nan
  | pinf => pinf
  | fin a => if 0 < a then fin (Real.log a) else if a = 0 then ninf else nan

protected noncomputable def exp : XReal → XReal
  | nan => nan
  | ninf => fin 0
  | pinf => pinf
  | fin a => fin (Real.exp a)

protected noncomputable def sqrt : XReal → XReal
  | nan => nan
  | ninf => nan
  | pinf => pinf
  | fin a => if 0 ≤ a then fin (Real.sqrt a) else nan

protected noncomputable def sin : XReal → XReal
  | fin a => fin (Real.sin a)
  | _ => nan

protected noncomputable def cos : XReal → XReal
  | fin a => fin (Real.cos a)
  | _ => nan

protected noncomputable def floor : XReal → XReal
  | fin a => fin (⌊a⌋ : ℤ)
  | x => x

/-- C99/IEEE `pow` -/
protected noncomputable def powf (x y : XReal) : XReal :=
  if y = fin 0 then fin 1
  else if x = fin 1 then fin 1
  else match x, y with
      | nan, _ => nan
      | _, nan => nan
      | fin a, fin b =>
        if 0 < a then fin (a ^ b)
        else if a = 0 then (if 0 < b then fin 0 else pinf)
        else if ∃ n : ℤ, b = n then fin (a ^ b) else nan
      | fin a, pinf => if |a| < 1 then fin 0 else if |a| = 1 then fin 1 else pinf
      | fin a, ninf => if |a| < 1 then pinf else if |a| = 1 then fin 1 else fin 0
      | pinf, fin b => if 0 < b then pinf else fin 0
      | ninf, fin b =>
        if 0 < b then (if ∃ n : ℤ, b = 2 * n + 1 then ninf else pinf) else fin 0
      | pinf, pinf => pinf
      | ninf, pinf => pinf
      | pinf, ninf => fin 0
      | ninf, ninf => fin 0

protected noncomputable def lnGamma : XReal → XReal
  | nan => nan
  | ninf => pinf
  | pinf => pinf
  | fin a => if ∃ n : ℕ, a = -n then pinf else fin (Real.log |Real.Gamma a|)

protected noncomputable def beq : XReal → XReal → Bool
  | nan, _ => false
  | _, nan => false
  | x, y => decide (x = y)

protected noncomputable def lt : XReal → XReal → Bool
  | nan, _ => false
  | _, nan => false
  | ninf, ninf => false
  | ninf, _ => true
  | _, ninf => false
  | pinf, _ => false
  | fin _, pinf => true
  | fin a, fin b => decide (a < b)

protected noncomputable def le : XReal → XReal → Bool
  | nan, _ => false
  | _, nan => false
  | ninf, _ => true
  | _, ninf => false
  | _, pinf => true
  | pinf, fin _ => false
  | fin a, fin b => decide (a ≤ b)

protected def isInf : XReal → Bool
  | ninf => true
  | pinf => true
  | _ => false

protected def isNan : XReal → Bool
  | nan => true
  | _ => false

noncomputable instance : FloatOps XReal where
  zero := fin 0
  one := fin 1
  ofRat q := fin (q : ℝ)
  pi := fin Real.pi
  ln2 := fin (Real.log 2)
  inf := pinf
  negInf := ninf
  nan := nan
  add := XReal.add
  sub := XReal.sub
  mul := XReal.mul
  div := XReal.div
  neg := XReal.neg
  abs := XReal.abs
  ln := XReal.ln
  exp := XReal.exp
  sqrt := XReal.sqrt
  sin := XReal.sin
  cos := XReal.cos
  floor := XReal.floor
  powf := XReal.powf
  lnGamma := XReal.lnGamma
  beq := XReal.beq
  lt := XReal.lt
  le := XReal.le
  isInf := XReal.isInf
  isNan := XReal.isNan

/-- The real number behind a finite value; only used to state conclusions. -/
noncomputable def toReal : XReal → ℝ
  | fin a => a
  | _ => 0

/-- Density value represented by a log-density: `e^l`, with `e^{-∞} = 0`.  Only meaningful for
`ninf` and `fin`; NaN and `+∞` are sent to `-1`, so that no statement about densities can be
satisfied by them. -/
noncomputable def density : XReal → ℝ
  | fin a => Real.exp a
  | ninf => 0
  | _ => -1

def IsFin (x : XReal) : Prop := ∃ a, x = fin a

@[simp] theorem isFin_fin (a : ℝ) : IsFin (fin a) := ⟨a, rfl⟩
@[simp] theorem not_isFin_nan : ¬ IsFin nan := by rintro ⟨a, h⟩; cases h
@[simp] theorem not_isFin_ninf : ¬ IsFin ninf := by rintro ⟨a, h⟩; cases h
@[simp] theorem not_isFin_pinf : ¬ IsFin pinf := by rintro ⟨a, h⟩; cases h

@[simp] theorem toReal_fin (a : ℝ) : toReal (fin a) = a := rfl
@[simp] theorem density_fin (a : ℝ) : density (fin a) = Real.exp a := rfl
@[simp] theorem density_ninf : density ninf = 0 := rfl

end XReal

open FloatOps XReal

/-! ### evaluation rules on finite values -/

namespace XReal

@[simp] theorem f_zero : (FloatOps.zero : XReal) = fin 0 := rfl
@[simp] theorem f_one : (FloatOps.one : XReal) = fin 1 := rfl
@[simp] theorem f_ofRat (q : ℚ) : (FloatOps.ofRat q : XReal) = fin (q : ℝ) := rfl
@[simp] theorem f_ofNat (n : ℕ) : (FloatOps.ofNat n : XReal) = fin (n : ℝ) := by
  simp [FloatOps.ofNat]
@[simp] theorem f_pi : (FloatOps.pi : XReal) = fin Real.pi := rfl
@[simp] theorem f_ln2 : (FloatOps.ln2 : XReal) = fin (Real.log 2) := rfl
@[simp] theorem f_inf : (FloatOps.inf : XReal) = pinf := rfl
@[simp] theorem f_negInf : (FloatOps.negInf : XReal) = ninf := rfl
@[simp] theorem f_nan : (FloatOps.nan : XReal) = nan := rfl

@[simp] theorem f_add (a b : ℝ) : (fin a +. fin b) = fin (a + b) := rfl
@[simp] theorem f_sub (a b : ℝ) : (fin a -. fin b) = fin (a - b) := by
  show fin (a + -b) = _; rw [sub_eq_add_neg]
@[simp] theorem f_mul (a b : ℝ) : (fin a *. fin b) = fin (a * b) := rfl
theorem f_div (a b : ℝ) (hb : b ≠ 0) : (fin a /. fin b) = fin (a / b) := by
  show XReal.div (fin a) (fin b) = _; simp [XReal.div, hb]
theorem f_div_zero (a : ℝ) : (fin a /. fin 0) = infOf a := by
  show XReal.div (fin a) (fin 0) = _; simp [XReal.div]
@[simp] theorem f_neg (a : ℝ) : FloatOps.neg (fin a) = fin (-a) := rfl
@[simp] theorem f_abs (a : ℝ) : FloatOps.abs (fin a) = fin |a| := rfl
theorem f_ln (a : ℝ) (h : 0 < a) : FloatOps.ln (fin a) = fin (Real.log a) := by
  show XReal.ln (fin a) = _; simp [XReal.ln, h]
@[simp] theorem f_ln_zero : FloatOps.ln (fin 0) = ninf := by
  show XReal.ln (fin 0) = _; simp [XReal.ln]
theorem f_ln_neg (a : ℝ) (h : a < 0) : FloatOps.ln (fin a) = nan := by
  show XReal.ln (fin a) = _; simp [XReal.ln, h.ne, not_lt.mpr h.le]
@[simp] theorem f_exp (a : ℝ) : FloatOps.exp (fin a) = fin (Real.exp a) := rfl
@[simp] theorem f_exp_ninf : FloatOps.exp ninf = fin 0 := rfl
theorem f_sqrt (a : ℝ) (h : 0 ≤ a) : FloatOps.sqrt (fin a) = fin (Real.sqrt a) := by
  show XReal.sqrt (fin a) = _; simp [XReal.sqrt, h]
@[simp] theorem f_sin (a : ℝ) : FloatOps.sin (fin a) = fin (Real.sin a) := rfl
@[simp] theorem f_cos (a : ℝ) : FloatOps.cos (fin a) = fin (Real.cos a) := rfl
@[simp] theorem f_floor (a : ℝ) : FloatOps.floor (fin a) = fin (⌊a⌋ : ℤ) := rfl
theorem f_lnGamma (a : ℝ) (h : 0 < a) :
    FloatOps.lnGamma (fin a) = fin (Real.log (Real.Gamma a)) := by
  have h1 : ¬ ∃ n : ℕ, a = -n := by
    rintro ⟨n, hn⟩
    have : (0 : ℝ) ≤ n := Nat.cast_nonneg n
    linarith
  show XReal.lnGamma (fin a) = _
  simp only [XReal.lnGamma, h1, if_false]
  rw [abs_of_pos (Real.Gamma_pos_of_pos h)]

@[simp] theorem f_beq (a b : ℝ) : (fin a ==. fin b) = decide (a = b) := by
  show XReal.beq (fin a) (fin b) = _
  simp [XReal.beq]
@[simp] theorem f_lt (a b : ℝ) : (fin a <. fin b) = decide (a < b) := rfl
@[simp] theorem f_le (a b : ℝ) : (fin a ≤. fin b) = decide (a ≤ b) := rfl
@[simp] theorem f_gt (a b : ℝ) : (FloatOps.gt (fin a) (fin b)) = decide (b < a) := rfl
@[simp] theorem f_ge (a b : ℝ) : (FloatOps.ge (fin a) (fin b)) = decide (b ≤ a) := rfl
@[simp] theorem f_isInf (a : ℝ) : FloatOps.isInf (fin a) = false := rfl
@[simp] theorem f_isNan (a : ℝ) : FloatOps.isNan (fin a) = false := rfl
@[simp] theorem f_isInf_ninf : FloatOps.isInf ninf = true := rfl
@[simp] theorem f_isInf_pinf : FloatOps.isInf pinf = true := rfl
@[simp] theorem f_sq (a : ℝ) : FloatOps.sq (fin a) = fin (a * a) := rfl

@[simp] theorem ninf_add_fin (a : ℝ) : (ninf +. fin a) = ninf := rfl
@[simp] theorem fin_add_ninf (a : ℝ) : (fin a +. ninf) = ninf := rfl
@[simp] theorem ninf_add_ninf : (ninf +. ninf) = ninf := rfl
@[simp] theorem ninf_sub_fin (a : ℝ) : (ninf -. fin a) = ninf := rfl
@[simp] theorem ninf_sub_ninf : (ninf -. ninf) = nan := rfl
@[simp] theorem fin_sub_ninf (a : ℝ) : (fin a -. ninf) = pinf := rfl
@[simp] theorem nan_add (a : XReal) : (nan +. a) = nan := by cases a <;> rfl
@[simp] theorem add_nan (a : XReal) : (a +. nan) = nan := by cases a <;> rfl
@[simp] theorem nan_sub (a : XReal) : (nan -. a) = nan := by cases a <;> rfl
@[simp] theorem sub_nan (a : XReal) : (a -. nan) = nan := by cases a <;> rfl
@[simp] theorem nan_mul (a : XReal) : (nan *. a) = nan := by cases a <;> rfl
@[simp] theorem mul_nan (a : XReal) : (a *. nan) = nan := by cases a <;> rfl

theorem f_powf_pos (a b : ℝ) (h : 0 < a) : FloatOps.powf (fin a) (fin b) = fin (a ^ b) := by
  show XReal.powf (fin a) (fin b) = _
  unfold XReal.powf
  split_ifs with h1 h2
  · cases h1; simp
  · cases h2; simp
  · simp [h]

theorem f_powf_int (a : ℝ) (n : ℤ) (h : a ≠ 0) :
    FloatOps.powf (fin a) (fin (n : ℝ)) = fin (a ^ n) := by
  show XReal.powf (fin a) (fin (n : ℝ)) = _
  unfold XReal.powf
  split_ifs with h1 h2
  · have : (n : ℝ) = 0 := by simpa using h1
    have : n = 0 := by exact_mod_cast this
    subst this; simp
  · cases h2; simp
  · simp only [Real.rpow_intCast]
    by_cases ha : 0 < a
    · simp [ha]
    · simp [ha, h]

theorem f_powf_nat (a : ℝ) (n : ℕ) :
    FloatOps.powf (fin a) (fin (n : ℝ)) = fin (a ^ n) := by
  by_cases h : a = 0
  · subst h
    show XReal.powf (fin 0) (fin (n : ℝ)) = _
    unfold XReal.powf
    rcases Nat.eq_zero_or_pos n with h0 | h0
    · subst h0; simp
    · have : (n : ℝ) ≠ 0 := by exact_mod_cast h0.ne'
      simp [this, h0, h0.ne']
  · have := f_powf_int a (n : ℤ) h
    simpa using this

theorem f_sum (xs : List ℝ) : FloatOps.sum (xs.map fin) = fin xs.sum := by
  have key : ∀ (l : List ℝ) (a : ℝ),
      (l.map fin).foldl FloatOps.add (fin a) = fin (a + l.sum) := by
    intro l
    induction l with
    | nil => intro a; simp
    | cons b l ih => intro a; simp [ih, add_assoc]
  simp [FloatOps.sum, key]

end XReal
end Verif
