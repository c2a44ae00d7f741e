import Verif.Num.PolyCheck
import Verif.Lemmas.LogTable
import Mathlib.Analysis.SpecialFunctions.Exponential
import Mathlib.Analysis.Complex.ExponentialBounds
import Mathlib.Analysis.SpecialFunctions.Trigonometric.Deriv
import Mathlib.Analysis.Calculus.Deriv.MeanValue

/-! Error bounds, over the reals, of the rational approximations used by the generated code. -/

namespace Verif.Accuracy
open Verif.Poly

/-! ### Logarithm on [1, 2] -/

/-- The approximation of `ln` on [1, 2], over the reals. -/
noncomputable def lnRat (m : ℝ) : ℝ :=
  (-3.757488530222454 + -11.05491670172403 * m + 11.288438153376154 * m ^ 2
    + 4.139561514484466 * m ^ 3 + -0.722936179175468 * m ^ 4 + 0.12040216214642954 * m ^ 5
    + -0.013833868987268428 * m ^ 6 + 0.0007734501810761601 * m ^ 7) /
  (1 + 9.97772102587755 * m + 10.595600174718957 * m ^ 2)

def lnA : P := [3, 1]
def lnB : P := [3, -1]
def lnN : P := [-37574885302224540000, -110549167017240300000, 112884381533761540000,
  41395615144844660000, -7229361791754680000, 1204021621464295400, -138338689872684280,
  7734501810761601]
def lnD : P := [10000000000000000000, 99777210258775500000, 105956001747189570000]
def lnL : ℤ := 9990393475723397658947025
/-- `lnL` times the first fifteen terms of the series of `log ((3 + s) / (3 - s))`. -/
def lnS : P := [0, 6660262317148931772631350, 0, 246676382116627102690050, 0, 16445092141108473512670, 0, 1305166042945116945450, 0, 112792127168096526150, 0, 10253829742554229650, 0, 964035274940995950, 0, 92833026475799610, 0, 9101277105470550, 0, 904805326274850, 0, 90959265604350, 0, 9227751583050, 0, 943281272934, 0, 97045398450, 0, 10039179150]
def lnDB : P := mul (homog lnA lnB lnD) (pow lnB 5)
def lnUp : P :=
  add (mul lnDB (add (smul (10^13) lnS) [37 * lnL])) (smul (-lnL * 10^13) (homog lnA lnB lnN))
def lnLo : P :=
  add (smul (lnL * 10^14) (homog lnA lnB lnN)) (smul (-1) (mul lnDB (add (smul (10^14) lnS) [-369 * lnL])))

theorem lnUp_ok : check 6 lnUp = true := by decide +kernel
theorem lnLo_ok : check 6 lnLo = true := by decide +kernel

theorem ev_lnS (s : ℝ) : ev lnS s =
    lnL * ∑ k ∈ Finset.range 15, 2 * (1 / (2 * (k:ℝ) + 1)) * (s / 3) ^ (2 * k + 1) := by
  simp only [Finset.sum_range_succ, Finset.sum_range_zero, lnS, ev, lnL]
  push_cast
  ring

theorem lnRat_error {m : ℝ} (h1 : 1 ≤ m) (h2 : m ≤ 2) : |lnRat m - Real.log m| ≤ 3.7e-12 := by
  have hm1 : 0 < m + 1 := by linarith
  obtain ⟨s, hs⟩ : ∃ s, s = 3 * (m - 1) / (m + 1) := ⟨_, rfl⟩
  have hs0 : 0 ≤ s := by rw [hs]; exact div_nonneg (by linarith) hm1.le
  have hs1 : s ≤ 1 := by rw [hs, div_le_one hm1]; linarith
  have hB : 0 < 3 - s := by linarith
  have hmA : (3 + s) / (3 - s) = m := by
    rw [div_eq_iff hB.ne', hs]; field_simp; ring
  have evA : ev lnA s = 3 + s := by simp [lnA, ev]
  have evB : ev lnB s = 3 - s := by simp [lnB, ev]; ring
  have hN := ev_homog lnA lnB lnN s (by rw [evB]; exact hB.ne')
  have hD := ev_homog lnA lnB lnD s (by rw [evB]; exact hB.ne')
  rw [evA, evB, hmA] at hN hD
  obtain ⟨nm, hnm⟩ : ∃ nm, nm = ev lnN m := ⟨_, rfl⟩
  obtain ⟨dm, hdm⟩ : ∃ dm, dm = ev lnD m := ⟨_, rfl⟩
  have hdpos : 0 < dm := by
    rw [hdm]; simp only [lnD, ev]; push_cast; positivity
  have hN' : ev (homog lnA lnB lnN) s = (3 - s) ^ 7 * nm := by
    rw [← hnm] at hN
    have : (3 - s) ^ lnN.length = (3 - s) ^ 7 * (3 - s) := by simp [lnN]; ring
    rw [this] at hN
    have := hB.ne'
    apply mul_right_cancel₀ this
    rw [hN]; ring
  have hD' : ev (homog lnA lnB lnD) s = (3 - s) ^ 2 * dm := by
    rw [← hdm] at hD
    have : (3 - s) ^ lnD.length = (3 - s) ^ 2 * (3 - s) := by simp [lnD]; ring
    rw [this] at hD
    have := hB.ne'
    apply mul_right_cancel₀ this
    rw [hD]; ring
  have hrat : lnRat m = nm / dm := by
    rw [lnRat, hnm, hdm]
    simp only [lnN, lnD, ev]
    push_cast
    rw [div_eq_div_iff (by positivity) (by positivity)]
    ring
  have hlog : Real.log m = Real.log (1 + s / 3) - Real.log (1 - s / 3) := by
    rw [← Real.log_div (by positivity) (by linarith)]
    congr 1
    rw [← hmA]
    have : (1 - s / 3) ≠ 0 := by linarith
    rw [div_eq_div_iff hB.ne' this]; ring
  obtain ⟨S, hS⟩ : ∃ S, S = ∑ k ∈ Finset.range 15, 2 * (1 / (2 * (k:ℝ) + 1)) * (s / 3) ^ (2 * k + 1) :=
    ⟨_, rfl⟩
  have hb := log_atanh_bounds (x := s / 3) (by positivity) (by linarith) 15
  rw [← hS, ← hlog] at hb
  have hδ : 2 * (s / 3) ^ (2 * 15 + 1) / (1 - (s / 3) ^ 2) ≤ 1e-14 := by
    have h3 : s / 3 ≤ 1 / 3 := by linarith
    have h4 : (s / 3) ^ (2 * 15 + 1) ≤ (1 / 3) ^ (2 * 15 + 1) := by gcongr
    have h5 : (s / 3) ^ 2 ≤ (1 / 3) ^ 2 := by gcongr
    have h6 : ((1 : ℝ) / 3) ^ 2 = 1 / 9 := by norm_num
    have h7 : ((1 : ℝ) / 3) ^ (2 * 15 + 1) ≤ 2e-15 := by norm_num
    rw [div_le_iff₀ (by linarith)]
    norm_num only at h7 h4 ⊢
    linarith
  have hup := check_sound 6 lnUp_ok hs0 hs1
  have hlo := check_sound 6 lnLo_ok hs0 hs1
  have hLS := ev_lnS s
  rw [← hS] at hLS
  have hL : (0 : ℝ) < lnL := by simp only [lnL]; norm_num
  have hB5 : 0 < (3 - s) ^ 7 := by positivity
  simp only [lnUp, lnLo, lnDB, ev_add, ev_mul, ev_smul, ev_pow, hN', hD', hLS, evB, ev, mul_zero,
    add_zero] at hup hlo
  push_cast at hup hlo
  have hup' : 0 ≤ ((3 - s) ^ 7 * lnL) * (dm * (10 ^ 13 * S + 37) - 10 ^ 13 * nm) := by
    refine hup.trans_eq ?_; ring
  have hlo' : 0 ≤ ((3 - s) ^ 7 * lnL) * (10 ^ 14 * nm - dm * (10 ^ 14 * S - 369)) := by
    refine hlo.trans_eq ?_; ring
  have hup2 := nonneg_of_mul_nonneg_right hup' (by positivity)
  have hlo2 := nonneg_of_mul_nonneg_right hlo' (by positivity)
  have h6 : nm / dm ≤ S + 3.7e-12 := by
    rw [div_le_iff₀ hdpos]; norm_num at hup2 ⊢; linarith
  have h7 : S - 3.69e-12 ≤ nm / dm := by
    rw [le_div_iff₀ hdpos]; norm_num at hlo2 ⊢; linarith
  rw [hrat, abs_le]
  norm_num at h6 h7 hδ ⊢
  constructor <;> linarith [hb.1, hb.2]

/-! ### Exponential on [0, ln 2] -/

/-- The approximation of `exp` on [0, ln 2], over the reals. -/
noncomputable def expRat (r : ℝ) : ℝ :=
  (0.9999999999972777 + 0.726006320449981 * r + 0.24755708160005133 * r ^ 2
    + 0.05122075349435326 * r ^ 3 + 0.006775629189039916 * r ^ 4 + 0.0005110519523480795 * r ^ 5) /
  (1 + -0.2739936800272977 * r + 0.021550775407834573 * r ^ 2)

def expN : P := [9999999999972777000, 7260063204499810000, 2475570816000513300, 512207534943532600,
  67756291890399160, 5110519523480795]
def expD : P := [10000000000000000000, -2739936800272977000, 215507754078345730]
def expK : ℤ := 334764638208000
/-- `expK` times the Taylor polynomial of degree 15. -/
def expT : P := [334764638208000, 334764638208000, 167382319104000, 55794106368000, 13948526592000, 2789705318400, 464950886400, 66421555200, 8302694400, 922521600, 92252160, 8386560, 698880, 53760, 3840, 256]
def expUp : P := add (smul (10^13 + 28) (mul expD expT)) (smul (-expK * 10^13) expN)
def expLo : P :=
  add (smul (expK * 10^13) expN) (smul (-(10^13 - 28)) (mul expD (add expT (mul (pow [0,1] 16) [17]))))
def expTwo : P := add (smul (2 * 10^12 - 1) expD) (smul (-(10^12)) expN)

theorem expUp_ok : check 6 (stretch 69314718055994533 100000000000000000 expUp) = true := by
  decide +kernel
theorem expLo_ok : check 6 (stretch 69314718055994533 100000000000000000 expLo) = true := by
  decide +kernel
theorem expTwo_ok : check 6 (stretch 69314718055994533 100000000000000000 expTwo) = true := by
  decide +kernel

theorem expRat_den {r : ℝ} (h0 : 0 ≤ r) (h1 : r ≤ 1) :
    0 < 1 + -0.2739936800272977 * r + 0.021550775407834573 * r ^ 2 := by
  nlinarith [sq_nonneg r]

theorem log_two_le : Real.log 2 ≤ (69314718055994533 : ℕ) / (100000000000000000 : ℕ) := by
  have := LogTab.atanh2.2
  rw [Real.log_one, sub_zero] at this
  refine this.trans ?_
  norm_num

theorem expRat_eq (r : ℝ) (h0 : 0 ≤ r) (h1 : r ≤ 1) :
    expRat r = ev expN r / ev expD r ∧ 0 < ev expD r := by
  have hd := expRat_den h0 h1
  have h : ev expD r = 10 ^ 19 * (1 + -0.2739936800272977 * r + 0.021550775407834573 * r ^ 2) := by
    simp only [expD, ev]; push_cast; ring
  have hn : ev expN r = 10 ^ 19 * (0.9999999999972777 + 0.726006320449981 * r
      + 0.24755708160005133 * r ^ 2 + 0.05122075349435326 * r ^ 3 + 0.006775629189039916 * r ^ 4
      + 0.0005110519523480795 * r ^ 5) := by
    simp only [expN, ev]; push_cast; ring
  refine ⟨?_, by rw [h]; positivity⟩
  rw [h, hn, mul_div_mul_left _ _ (by norm_num)]
  rfl

theorem expRat_error {r : ℝ} (h0 : 0 ≤ r) (h1 : r ≤ Real.log 2) :
    |expRat r - Real.exp r| ≤ 2.8e-12 * Real.exp r := by
  have h2 := h1.trans log_two_le
  have h3 : r ≤ 1 := h2.trans (by norm_num)
  obtain ⟨he, hd⟩ := expRat_eq r h0 h3
  have hup := check_sound_interval 6 (by norm_num) (by norm_num) expUp_ok h0 h2
  have hlo := check_sound_interval 6 (by norm_num) (by norm_num) expLo_ok h0 h2
  have hlow := Real.sum_le_exp_of_nonneg h0 16
  have hhigh := Real.exp_bound' h0 h3 (n := 16) (by norm_num)
  have hT : ev expT r = expK * ∑ i ∈ Finset.range 16, r ^ i / (i.factorial : ℝ) := by
    simp only [Finset.sum_range_succ, Finset.sum_range_zero, expT, ev, expK, Nat.factorial]
    push_cast
    ring
  have hU : ev (add expT (mul (pow [0, 1] 16) [17])) r = expK *
      (∑ i ∈ Finset.range 16, r ^ i / (i.factorial : ℝ) +
        r ^ 16 * ((16 : ℕ) + 1) / (((16 : ℕ).factorial : ℝ) * (16 : ℕ))) := by
    rw [ev_add, hT, mul_add]
    congr 1
    simp only [ev_mul, ev_pow, ev, expK, Nat.factorial]
    push_cast
    ring
  have hK : (0 : ℝ) < expK := by simp only [expK]; norm_num
  simp only [expUp, expLo, ev_add, ev_smul, ev_mul (p := expD)] at hup hlo
  rw [← ev_add, hU] at hlo
  rw [hT] at hup
  obtain ⟨T, hTd⟩ : ∃ T, T = ∑ i ∈ Finset.range 16, r ^ i / (i.factorial : ℝ) := ⟨_, rfl⟩
  obtain ⟨U, hUd⟩ : ∃ U, U = ∑ i ∈ Finset.range 16, r ^ i / (i.factorial : ℝ) +
        r ^ 16 * ((16 : ℕ) + 1) / (((16 : ℕ).factorial : ℝ) * (16 : ℕ)) := ⟨_, rfl⟩
  rw [← hTd] at hup hlow
  rw [← hUd] at hlo hhigh
  push_cast at hup hlo
  have hup' : 0 ≤ (expK : ℝ) * ((10 ^ 13 + 28) * (ev expD r * T) - 10 ^ 13 * ev expN r) := by
    refine hup.trans_eq ?_; ring
  have hlo' : 0 ≤ (expK : ℝ) * (10 ^ 13 * ev expN r - (10 ^ 13 - 28) * (ev expD r * U)) := by
    refine hlo.trans_eq ?_; ring
  have hup2 := nonneg_of_mul_nonneg_right hup' hK
  have hlo2 := nonneg_of_mul_nonneg_right hlo' hK
  have h4 : ev expD r * T ≤ ev expD r * Real.exp r := by gcongr
  have h5 : ev expD r * Real.exp r ≤ ev expD r * U := by gcongr
  have h6 : ev expN r / ev expD r ≤ (1 + 2.8e-12) * Real.exp r := by
    rw [div_le_iff₀ hd]; norm_num at hup2 ⊢; linarith
  have h7 : (1 - 2.8e-12) * Real.exp r ≤ ev expN r / ev expD r := by
    rw [le_div_iff₀ hd]; norm_num at hlo2 ⊢; linarith
  rw [he, abs_le]
  constructor <;> linarith

theorem expRat_lt_two {r : ℝ} (h0 : 0 ≤ r) (h1 : r ≤ Real.log 2) : expRat r ≤ 2 - 1e-12 := by
  have h2 := h1.trans log_two_le
  have h3 : r ≤ 1 := h2.trans (by norm_num)
  obtain ⟨he, hd⟩ := expRat_eq r h0 h3
  have h := check_sound_interval 6 (by norm_num) (by norm_num) expTwo_ok h0 h2
  simp only [expTwo, ev_add, ev_smul] at h
  push_cast at h
  rw [he, div_le_iff₀ hd]
  norm_num at h ⊢
  linarith

/-! ### Sine and cosine -/

theorem nonneg_of_deriv {f f' : ℝ → ℝ} (hd : ∀ x, HasDerivAt f (f' x) x) (h0 : f 0 = 0)
    (hp : ∀ x, 0 ≤ x → 0 ≤ f' x) (x : ℝ) (hx : 0 ≤ x) : 0 ≤ f x := by
  have hm : MonotoneOn f (Set.Ici 0) := by
    refine monotoneOn_of_deriv_nonneg (convex_Ici 0) ?_ ?_ ?_
    · exact fun y _ => (hd y).continuousAt.continuousWithinAt
    · exact fun y _ => (hd y).differentiableAt.differentiableWithinAt
    · intro y hy
      rw [interior_Ici] at hy
      rw [(hd y).deriv]
      exact hp y (le_of_lt hy)
  rw [← h0]
  exact hm (Set.mem_Ici.mpr le_rfl) (Set.mem_Ici.mpr hx) hx

theorem sin_le_1 (x : ℝ) (hx : 0 ≤ x) : 0 ≤ x - Real.sin x :=
  nonneg_of_deriv (f := fun x => x - Real.sin x) (f' := fun x => 1 - Real.cos x)
    (fun x => (hasDerivAt_id x).sub (Real.hasDerivAt_sin x)) (by simp)
    (fun x _ => by linarith [Real.cos_le_one x]) x hx

theorem cos_ge_2 (x : ℝ) (hx : 0 ≤ x) : 0 ≤ Real.cos x - 1 + x ^ 2 / 2 :=
  nonneg_of_deriv (f := fun x => Real.cos x - 1 + x ^ 2 / 2) (f' := fun x => x - Real.sin x)
    (fun x => by
      have := ((Real.hasDerivAt_cos x).sub_const 1).add ((hasDerivAt_pow 2 x).div_const 2)
      refine this.congr_deriv ?_; push_cast; ring) (by simp) sin_le_1 x hx

theorem sin_ge_3 (x : ℝ) (hx : 0 ≤ x) : 0 ≤ Real.sin x - x + x ^ 3 / 6 :=
  nonneg_of_deriv (f := fun x => Real.sin x - x + x ^ 3 / 6)
    (f' := fun x => Real.cos x - 1 + x ^ 2 / 2)
    (fun x => by
      have := ((Real.hasDerivAt_sin x).sub (hasDerivAt_id x)).add ((hasDerivAt_pow 3 x).div_const 6)
      refine this.congr_deriv ?_; push_cast; ring) (by simp) cos_ge_2 x hx

theorem cos_le_4 (x : ℝ) (hx : 0 ≤ x) : 0 ≤ 1 - x ^ 2 / 2 + x ^ 4 / 24 - Real.cos x :=
  nonneg_of_deriv (f := fun x => 1 - x ^ 2 / 2 + x ^ 4 / 24 - Real.cos x)
    (f' := fun x => Real.sin x - x + x ^ 3 / 6)
    (fun x => by
      have := ((((hasDerivAt_pow 2 x).div_const 2).const_sub 1).add
        ((hasDerivAt_pow 4 x).div_const 24)).sub (Real.hasDerivAt_cos x)
      refine this.congr_deriv ?_; push_cast; ring) (by simp) sin_ge_3 x hx

theorem sin_le_5 (x : ℝ) (hx : 0 ≤ x) : 0 ≤ x - x ^ 3 / 6 + x ^ 5 / 120 - Real.sin x :=
  nonneg_of_deriv (f := fun x => x - x ^ 3 / 6 + x ^ 5 / 120 - Real.sin x)
    (f' := fun x => 1 - x ^ 2 / 2 + x ^ 4 / 24 - Real.cos x)
    (fun x => by
      have := ((((hasDerivAt_id x).sub ((hasDerivAt_pow 3 x).div_const 6))).add
        ((hasDerivAt_pow 5 x).div_const 120)).sub (Real.hasDerivAt_sin x)
      refine this.congr_deriv ?_; push_cast; ring) (by simp) cos_le_4 x hx

theorem cos_ge_6 (x : ℝ) (hx : 0 ≤ x) :
    0 ≤ Real.cos x - (1 - x ^ 2 / 2 + x ^ 4 / 24) + x ^ 6 / 720 :=
  nonneg_of_deriv (f := fun x => Real.cos x - (1 - x ^ 2 / 2 + x ^ 4 / 24) + x ^ 6 / 720)
    (f' := fun x => x - x ^ 3 / 6 + x ^ 5 / 120 - Real.sin x)
    (fun x => by
      have := ((Real.hasDerivAt_cos x).sub ((((hasDerivAt_pow 2 x).div_const 2).const_sub 1).add
        ((hasDerivAt_pow 4 x).div_const 24))).add ((hasDerivAt_pow 6 x).div_const 720)
      refine this.congr_deriv ?_; push_cast; ring) (by simp) sin_le_5 x hx

theorem sin_ge_7 (x : ℝ) (hx : 0 ≤ x) :
    0 ≤ Real.sin x - (x - x ^ 3 / 6 + x ^ 5 / 120) + x ^ 7 / 5040 :=
  nonneg_of_deriv (f := fun x => Real.sin x - (x - x ^ 3 / 6 + x ^ 5 / 120) + x ^ 7 / 5040)
    (f' := fun x => Real.cos x - (1 - x ^ 2 / 2 + x ^ 4 / 24) + x ^ 6 / 720)
    (fun x => by
      have := ((Real.hasDerivAt_sin x).sub ((((hasDerivAt_id x).sub
        ((hasDerivAt_pow 3 x).div_const 6))).add ((hasDerivAt_pow 5 x).div_const 120))).add
        ((hasDerivAt_pow 7 x).div_const 5040)
      refine this.congr_deriv ?_; push_cast; ring) (by simp) cos_ge_6 x hx

theorem sin_taylor (x : ℝ) : |x - x ^ 3 / 6 + x ^ 5 / 120 - Real.sin x| ≤ |x| ^ 7 / 5040 := by
  rcases le_total 0 x with hx | hx
  · rw [abs_of_nonneg hx, abs_le]
    exact ⟨by linarith [sin_le_5 x hx, show 0 ≤ x ^ 7 by positivity], by linarith [sin_ge_7 x hx]⟩
  · have h5 := sin_le_5 (-x) (by linarith)
    have h7 := sin_ge_7 (-x) (by linarith)
    rw [Real.sin_neg] at h5 h7
    have : 0 ≤ (-x) ^ 7 := pow_nonneg (by linarith) 7
    rw [abs_of_nonpos hx, abs_le]
    ring_nf at h5 h7 this ⊢
    exact ⟨by linarith, by linarith⟩

theorem cos_taylor (x : ℝ) : |1 - x ^ 2 / 2 + x ^ 4 / 24 - Real.cos x| ≤ |x| ^ 6 / 720 := by
  have key : ∀ y, 0 ≤ y → |1 - y ^ 2 / 2 + y ^ 4 / 24 - Real.cos y| ≤ y ^ 6 / 720 := by
    intro y hy
    rw [abs_le]
    exact ⟨by linarith [cos_le_4 y hy, show 0 ≤ y ^ 6 by positivity], by linarith [cos_ge_6 y hy]⟩
  have := key |x| (abs_nonneg x)
  rwa [Real.cos_abs, sq_abs, show |x| ^ 4 = x ^ 4 from Even.pow_abs (by decide) x] at this

end Verif.Accuracy
