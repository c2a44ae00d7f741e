import Verif.Lemmas.NearOps
import Verif.Lemmas.FltSum

/-!
# Results near the end of the range, lists of approximations
-/

namespace Verif
open Format

variable {f : Format} {L : Libm}

/-- the greatest finite number -/
theorem rep_le_max (hf : f.Std) {a : ℚ} (h : f.Representable a) :
    |a| ≤ 2 ^ f.emax - 2 ^ (f.emax - f.prec) := by
  obtain ⟨⟨m, e, hm, he, rfl⟩, hx⟩ := h
  have hp := hf.prec_ge
  have h2e : (0 : ℚ) < 2 ^ e := by positivity
  rw [abs_mul, abs_of_pos h2e] at hx ⊢
  rcases le_or_gt e (f.emax - f.prec) with h1 | h1
  · have h3 : |(m : ℚ)| ≤ 2 ^ f.prec - 1 := by
      have : |m| ≤ 2 ^ f.prec - 1 := by omega
      exact_mod_cast this
    have h4 : (2 : ℚ) ^ e ≤ 2 ^ (f.emax - f.prec) := zpow_le_zpow_right₀ (by norm_num) h1
    have h5 : (2 : ℚ) ^ f.emax = 2 ^ f.prec * 2 ^ (f.emax - f.prec) := by
      rw [← zpow_natCast, ← zpow_add₀ (by norm_num)]; congr 1; ring
    calc |(m : ℚ)| * 2 ^ e ≤ (2 ^ f.prec - 1) * 2 ^ (f.emax - f.prec) :=
          mul_le_mul h3 h4 h2e.le (by linarith [one_le_pow₀ (n := f.prec) (by norm_num : (1 : ℚ) ≤ 2)])
      _ = _ := by rw [h5]; ring
  · have h6 : (2 : ℚ) ^ (f.emax - f.prec) ≤ 2 ^ e := zpow_le_zpow_right₀ (by norm_num) h1.le
    by_cases hm0 : m = 0
    · subst hm0
      have : (2 : ℚ) ^ (f.emax - f.prec) ≤ 2 ^ f.emax := zpow_le_zpow_right₀ (by norm_num) (by omega)
      simp only [Int.cast_zero, abs_zero, zero_mul]; linarith
    have h7 : e < f.emax := by
      have : (1 : ℚ) ≤ |(m : ℚ)| := by
        have : 1 ≤ |m| := Int.one_le_abs hm0
        exact_mod_cast this
      have h8 : (2 : ℚ) ^ e < 2 ^ f.emax := lt_of_le_of_lt (by nlinarith) hx
      exact (zpow_lt_zpow_iff_right₀ (by norm_num)).mp h8
    obtain ⟨d, hd⟩ := Int.le.dest h7.le
    have h9 : (2 : ℚ) ^ f.emax = 2 ^ d * 2 ^ e := by
      rw [← hd, zpow_add₀ (by norm_num), zpow_natCast, mul_comm]
    rw [h9] at hx ⊢
    have h10 : |(m : ℚ)| < 2 ^ d := lt_of_mul_lt_mul_right hx h2e.le
    have h11 : |(m : ℚ)| ≤ 2 ^ d - 1 := by
      have h12 : |m| < 2 ^ d := by exact_mod_cast h10
      have : |m| ≤ 2 ^ d - 1 := by omega
      exact_mod_cast this
    calc |(m : ℚ)| * 2 ^ e ≤ (2 ^ d - 1) * 2 ^ e := by gcongr
      _ = 2 ^ d * 2 ^ e - 2 ^ e := by ring
      _ ≤ _ := by linarith

/-- adding a small number to a finite one does not overflow -/
theorem round_add_small (hf : f.Std) {a d : ℚ} (h : f.Representable a)
    (hd : |d| ≤ 2 ^ (f.emax - f.prec - 2)) : ∃ r, f.round (a + d) = .fin r := by
  have hp := hf.prec_ge
  have ha := rep_le_max hf h
  have hq : |a + d| < 2 ^ f.emax - 2 ^ (f.emax - f.prec - 1) := by
    have h1 := abs_add_le a d
    have e1 : (2 : ℚ) ^ (f.emax - f.prec) = 4 * 2 ^ (f.emax - f.prec - 2) := by
      rw [show f.emax - (f.prec : ℤ) = (f.emax - f.prec - 2) + 2 by ring, zpow_add₀ (by norm_num)]
      norm_num; ring
    have e2 : (2 : ℚ) ^ (f.emax - f.prec - 1) = 2 * 2 ^ (f.emax - f.prec - 2) := by
      rw [show f.emax - (f.prec : ℤ) - 1 = (f.emax - f.prec - 2) + 1 by ring, zpow_add₀ (by norm_num)]
      norm_num; ring
    have : (0 : ℚ) < 2 ^ (f.emax - f.prec - 2) := by positivity
    rw [e1] at ha
    rw [e2]
    linarith
  generalize a + d = q at hq
  by_cases h0 : q = 0
  · exact ⟨0, by rw [h0]; exact f.round_exact (rep_zero f)⟩
  have hlt : |q| < 2 ^ f.emax := by
    have : (0 : ℚ) < 2 ^ (f.emax - f.prec - 1) := by positivity
    linarith
  have hlog : Int.log 2 |q| < f.emax := by
    have h1 := Int.zpow_log_le_self (b := 2) (r := |q|) (by norm_num) (abs_pos.mpr h0)
    have h2 : (2 : ℚ) ^ Int.log 2 |q| < 2 ^ f.emax := lt_of_le_of_lt (by exact_mod_cast h1) hlt
    exact (zpow_lt_zpow_iff_right₀ (by norm_num)).mp h2
  have hk : f.quantum q ≤ f.emax - f.prec := by
    unfold quantum
    refine max_le (by omega) ?_
    have := hf.emin_le; have := hf.emax_ge; have := hf.prec_le; omega
  unfold Format.round
  simp only
  rw [if_pos]
  · exact ⟨_, rfl⟩
  obtain ⟨j, hj⟩ := Int.le.dest hk
  set k := f.quantum q with hkk
  have h2k : (0 : ℚ) < 2 ^ k := by positivity
  have e1 : (2 : ℚ) ^ f.emax = 2 ^ (f.prec + j) * 2 ^ k := by
    rw [← zpow_natCast, ← zpow_add₀ (by norm_num)]; congr 1; push_cast; omega
  have e2 : (1/2 : ℚ) * 2 ^ k ≤ 2 ^ (f.emax - f.prec - 1) := by
    have : (1/2 : ℚ) * 2 ^ k = 2 ^ (k - 1) := by
      rw [sub_eq_add_neg, zpow_add₀ (by norm_num)]; norm_num; ring
    rw [this]
    exact zpow_le_zpow_right₀ (by norm_num) (by omega)
  have hx : |q / 2 ^ k| < 2 ^ (f.prec + j) - 1/2 := by
    rw [abs_div, abs_of_pos h2k, div_lt_iff₀ h2k, sub_mul, ← e1]
    linarith
  have herr := roundEven_error (q / 2 ^ k)
  rw [abs_sub_comm] at herr
  have h3 : |(roundEven (q / 2 ^ k) : ℚ)| < 2 ^ (f.prec + j) := by
    have := abs_sub_abs_le_abs_sub (roundEven (q / 2 ^ k) : ℚ) (q / 2 ^ k)
    linarith
  rw [abs_mul, abs_of_pos h2k, e1]
  exact mul_lt_mul_of_pos_right h3 h2k

/-- a list of computed numbers, each within `ε` of its true value -/
theorem list_approx {α : Type} (G : α → FVal) (T : α → ℝ) (ε : ℝ) (xs : List α)
    (h : ∀ x ∈ xs, ∃ q : ℚ, G x = .fin q ∧ f.Representable q ∧ |(q : ℝ) - T x| ≤ ε) :
    ∃ qs : List ℚ, xs.map G = qs.map FVal.fin ∧ qs.length = xs.length ∧
      (∀ q ∈ qs, f.Representable q) ∧
      |(qs.map fun q : ℚ => (q : ℝ)).sum - (xs.map T).sum| ≤ xs.length * ε ∧
      (qs.map fun q : ℚ => |(q : ℝ)|).sum ≤ (xs.map fun x => |T x|).sum + xs.length * ε := by
  induction xs with
  | nil => exact ⟨[], by simp⟩
  | cons x xs ih =>
    obtain ⟨qs, e1, e2, e3, e4, e5⟩ := ih (fun y hy => h y (List.mem_cons_of_mem _ hy))
    obtain ⟨q, g1, g2, g3⟩ := h x List.mem_cons_self
    refine ⟨q :: qs, by simp only [List.map_cons, e1, g1], by simp [e2], ?_, ?_, ?_⟩
    · intro p hp
      rcases List.mem_cons.mp hp with rfl | hp
      exacts [g2, e3 p hp]
    · simp only [List.map_cons, List.sum_cons, List.length_cons]
      rw [add_sub_add_comm]
      push_cast
      refine (abs_add_le _ _).trans ?_
      linarith
    · simp only [List.map_cons, List.sum_cons, List.length_cons]
      push_cast
      have := abs_sub_abs_le_abs_sub (q : ℝ) (T x)
      linarith

end Verif
