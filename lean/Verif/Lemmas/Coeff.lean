import Verif.Model.Derived
import Verif.Lemmas.Num
import Mathlib.Data.Nat.Choose.Basic
import Mathlib.Data.Nat.Choose.Sum
import Mathlib.Analysis.SpecificLimits.Normed

/-! Coefficient measures on `XReal`. -/

namespace Verif
open FloatOps XReal

theorem lnGamma_nat_succ (n : ℕ) :
    FloatOps.lnGamma (fin ((n : ℝ) + 1)) = fin (Real.log (Nat.factorial n)) := by
  rw [f_lnGamma _ (by positivity), Real.Gamma_nat_eq_factorial]

theorem logBinomialCoefficient_fin {n k : ℕ} (h : k ≤ n) :
    (logBinomialCoefficient n k : XReal) = fin (Real.log (n.choose k)) := by
  have hc := Nat.choose_mul_factorial_mul_factorial h
  have e : (n : ℝ) - k + 1 = ((n - k : ℕ) : ℝ) + 1 := by rw [Nat.cast_sub h]
  simp only [logBinomialCoefficient, not_lt.mpr h, if_false, f_ofNat, f_one, f_add, f_sub,
    e, lnGamma_nat_succ]
  congr 1
  have h1 : (0 : ℝ) < k.factorial := by exact_mod_cast k.factorial_pos
  have h2 : (0 : ℝ) < (n - k).factorial := by exact_mod_cast (n - k).factorial_pos
  have h3 : (0 : ℝ) < n.choose k := by exact_mod_cast Nat.choose_pos h
  rw [← hc]
  push_cast
  rw [Real.log_mul (by positivity) (by positivity), Real.log_mul (by positivity) (by positivity)]
  ring

theorem logNegativeBinomialCoefficient_fin {r x : ℕ} (h : 0 < r) :
    (logNegativeBinomialCoefficient r x : XReal) = fin (Real.log ((x + r - 1).choose x)) := by
  obtain ⟨s, rfl⟩ : ∃ s, r = s + 1 := ⟨r - 1, by omega⟩
  have hc := Nat.choose_mul_factorial_mul_factorial (show x ≤ x + s by omega)
  have e1 : (x : ℝ) + ((s + 1 : ℕ) : ℝ) = ((x + s : ℕ) : ℝ) + 1 := by push_cast; ring
  have e2 : ((s + 1 : ℕ) : ℝ) = (s : ℝ) + 1 := by push_cast; ring
  simp only [logNegativeBinomialCoefficient, f_ofNat, f_one, f_add, f_sub, e1, lnGamma_nat_succ]
  rw [e2, lnGamma_nat_succ, f_sub]
  congr 1
  rw [show x + (s + 1) - 1 = x + s by omega]
  have h1 : (0 : ℝ) < x.factorial := by exact_mod_cast x.factorial_pos
  have h2 : (0 : ℝ) < s.factorial := by exact_mod_cast s.factorial_pos
  have h3 : (0 : ℝ) < (x + s).choose x := by exact_mod_cast Nat.choose_pos (by omega)
  rw [show x + s - x = s by omega] at hc
  rw [← hc]
  push_cast
  rw [Real.log_mul (by positivity) (by positivity), Real.log_mul (by positivity) (by positivity)]
  ring

end Verif
