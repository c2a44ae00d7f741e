import Verif.Lemmas.DoubleDist

/-! A mathematical library as assumed in `Libm.Accurate` exists. -/

namespace Verif
open Format

variable {f : Format}

/-- A real number below the overflow threshold has a number of the format near it. -/
theorem exists_near (hf : f.Std) {x : ℝ} (h0 : 0 < x) (hx : x ≤ 2 ^ (f.emax - 1)) :
    ∃ r : ℚ, f.Representable r ∧ |(r : ℝ) - x| ≤ 3/2 * f.u * x + 2 ^ f.emin := by
  have hu := u_pos f
  have hul := hf.u_le
  obtain ⟨q, hq1, hq2⟩ := exists_rat_btwn (show x - f.u * x / 4 < x by
    have : 0 < f.u * x := by positivity
    linarith)
  have hq0 : (0 : ℝ) < q := by
    have : f.u * x ≤ 1 * x := mul_le_mul_of_nonneg_right (hul.trans (by norm_num)) h0.le
    linarith
  have hqle : |q| ≤ 2 ^ (f.emax - 1) := rat_le (by rw [abs_of_pos hq0]; linarith)
  obtain ⟨r, hr, -⟩ := f.round_le (prec1 hf) hqle (by have := emin_lt_emax hf; omega) (by omega)
  obtain ⟨hrep, he⟩ := near_round hf hr
  refine ⟨r, hrep, ?_⟩
  rw [abs_of_pos hq0] at he
  have e : (r : ℝ) - x = ((r : ℝ) - q) + ((q : ℝ) - x) := by ring
  have h1 := abs_add_le ((r : ℝ) - q) ((q : ℝ) - x)
  have h2 : |(q : ℝ) - x| ≤ f.u * x / 4 := by rw [abs_le]; constructor <;> linarith
  have h3 : f.u * (q : ℝ) ≤ f.u * x := by gcongr
  have : 0 < f.u * x := by positivity
  rw [e]
  linarith

/-- Numbers of the format other than one keep a distance from it. -/
theorem rep_ne_one (hf : f.Std) {q : ℚ} (h : f.Representable q) (h1 : q ≠ 1) :
    f.u ≤ |(q : ℝ) - 1| := by
  obtain ⟨⟨m, e, hm, he, rfl⟩, -⟩ := h
  have hup : f.u = ((2 ^ (-(f.prec : ℤ)) : ℚ) : ℝ) := by
    unfold Format.u; push_cast; rw [zpow_neg, zpow_natCast, one_div]
  rw [hup]
  have key : (2 : ℚ) ^ (-(f.prec : ℤ)) ≤ |(m : ℚ) * 2 ^ e - 1| := by
    rcases le_or_gt (-(f.prec : ℤ)) e with hle | hlt
    · -- a multiple of `2^-prec`
      obtain ⟨d, hd⟩ := Int.le.dest hle
      have e1 : (m : ℚ) * 2 ^ e - 1 = ((m * 2 ^ d - 2 ^ f.prec : ℤ) : ℚ) * 2 ^ (-(f.prec : ℤ)) := by
        rw [← hd, zpow_add₀ (by norm_num), zpow_natCast]
        push_cast
        rw [zpow_neg, zpow_natCast]
        field_simp
      have hne : m * 2 ^ d - 2 ^ f.prec ≠ 0 := by
        intro h0
        rw [h0] at e1
        apply h1
        push_cast at e1
        linarith
      rw [e1, abs_mul, abs_of_pos (by positivity : (0 : ℚ) < 2 ^ (-(f.prec : ℤ)))]
      have : (1 : ℚ) ≤ |((m * 2 ^ d - 2 ^ f.prec : ℤ) : ℚ)| := by
        exact_mod_cast Int.one_le_abs hne
      have hp : (0 : ℚ) < 2 ^ (-(f.prec : ℤ)) := by positivity
      nlinarith
    · have h2 : |(m : ℚ) * 2 ^ e| ≤ 1/2 := by
        rw [abs_mul, abs_of_pos (by positivity : (0 : ℚ) < 2 ^ e)]
        have h3 : |(m : ℚ)| ≤ 2 ^ (f.prec : ℤ) := by rw [zpow_natCast]; exact_mod_cast hm.le
        calc |(m : ℚ)| * 2 ^ e ≤ 2 ^ (f.prec : ℤ) * 2 ^ (-(f.prec : ℤ) - 1) :=
              mul_le_mul h3 (zpow_le_zpow_right₀ (by norm_num) (by omega)) (by positivity)
                (by positivity)
          _ = 1/2 := by
            rw [← zpow_add₀ (by norm_num), show (f.prec : ℤ) + (-(f.prec : ℤ) - 1) = -1 by ring]
            norm_num
      have h3 : (2 : ℚ) ^ (-(f.prec : ℤ)) ≤ 2 ^ (-1 : ℤ) :=
        zpow_le_zpow_right₀ (by norm_num) (by have := hf.prec_ge; omega)
      have h6 : (2 : ℚ) ^ (-1 : ℤ) = 1/2 := by norm_num
      rw [h6] at h3
      have h4 := (abs_le.mp h2).2
      have h5 := neg_le_abs ((m : ℚ) * 2 ^ e - 1)
      linarith
  have := Rat.cast_le (K := ℝ) |>.mpr key
  push_cast at this ⊢
  exact this

theorem log_rep_ge (hf : f.Std) {q : ℚ} (h0 : 0 < q) (h : f.Representable q) (h1 : q ≠ 1) :
    f.u / 2 ≤ |Real.log q| := by
  have hd := rep_ne_one hf h h1
  have h0' : (0 : ℝ) < q := by exact_mod_cast h0
  have hu := u_pos f
  have hul := hf.u_le
  have hu1 : f.u ≤ 1 := hul.trans (by norm_num)
  rcases le_total (q : ℝ) 1 with hq | hq
  · rw [abs_of_nonpos (by linarith)] at hd
    have := Real.log_le_sub_one_of_pos h0'
    rw [abs_of_nonpos (by linarith)]
    linarith
  · rw [abs_of_nonneg (by linarith)] at hd
    have h2 := Real.one_sub_inv_le_log_of_pos h0'
    rw [abs_of_nonneg (Real.log_nonneg hq)]
    refine le_trans ?_ h2
    have h3 : (q : ℝ)⁻¹ ≤ 1 - f.u / 2 := by
      rw [inv_le_comm₀ h0' (by linarith)]
      refine le_trans ?_ (by linarith : 1 + f.u ≤ q)
      rw [inv_le_iff_one_le_mul₀ (by linarith)]
      nlinarith
    linarith

theorem libm_ln (hf : f.Std) (q : ℚ) : 0 < q → f.Representable q →
    ∃ r : ℚ, f.Representable r ∧ |(r : ℝ) - Real.log q| ≤ 2 * f.u * |Real.log q| := by
  intro h0 h
  by_cases h1 : q = 1
  · subst h1; exact ⟨0, f.rep_zero, by simp⟩
  have hu := u_pos f
  have hul := hf.u_le
  have hlo := log_rep_ge hf h0 h h1
  have hhi := log_rep_le hf h0 h
  have hpos : 0 < |Real.log q| := by linarith
  obtain ⟨r, hr, he⟩ := exists_near hf hpos (by
    refine hhi.trans ?_
    calc (1100 : ℝ) ≤ 2 ^ (127 : ℤ) := by norm_num
      _ ≤ 2 ^ (f.emax - 1) := zpow_le_zpow_right₀ (by norm_num) (by have := hf.emax_ge; omega))
  have hη := hf.eta_le
  have h4 : f.u ^ 4 ≤ 1/2 * f.u * |Real.log q| := by
    have e1 : f.u ^ 3 ≤ 1/2 * (f.u / 2) := by
      have : f.u ≤ 1/2 := hul.trans (by norm_num)
      nlinarith [sq_nonneg f.u]
    calc f.u ^ 4 = f.u * f.u ^ 3 := by ring
      _ ≤ f.u * (1/2 * |Real.log q|) := by gcongr; linarith
      _ = _ := by ring
  have he2 : |(r : ℝ) - (|Real.log q|)| ≤ 2 * f.u * |Real.log q| := by linarith
  rcases abs_choice (Real.log q) with hc | hc
  · exact ⟨r, hr, by rw [hc] at he2 ⊢; exact he2⟩
  · refine ⟨-r, rep_neg hr, ?_⟩
    have : ((-r : ℚ) : ℝ) - Real.log q = -((r : ℝ) - (|Real.log q|)) := by rw [hc]; push_cast; ring
    rw [this, abs_neg]; exact he2

theorem libm_exp (hf : f.Std) (q : ℚ) (hlt : Real.exp q < 2 ^ (f.emax - 1)) :
    ∃ r : ℚ, f.Representable r ∧ |(r : ℝ) - Real.exp q| ≤ 2 * f.u * Real.exp q + 2 ^ f.emin := by
  obtain ⟨r, hr, he⟩ := exists_near hf (Real.exp_pos q) hlt.le
  refine ⟨r, hr, he.trans ?_⟩
  have hu := u_pos f
  have := Real.exp_pos q
  have : 0 < f.u * Real.exp q := by positivity
  linarith

open Classical in
/-- There is an accurate library for both formats. -/
theorem exists_libm (hf : f.Std) : ∃ L : Libm, L.Accurate f := by
  refine ⟨{
    ln := fun q => if h : 0 < q ∧ f.Representable q then .fin (libm_ln hf q h.1 h.2).choose else .nan
    exp := fun q => if h : Real.exp q < 2 ^ (f.emax - 1) then .fin (libm_exp hf q h).choose
      else .inf false
    sqrt := fun _ => .nan
    sin := fun _ => .nan
    cos := fun _ => .nan
    lnGamma := fun _ => .nan
    powf := fun _ _ => .nan }, ⟨?_, ?_⟩⟩
  · intro q h0 h
    have := (libm_ln hf q h0 h).choose_spec
    exact ⟨_, dif_pos ⟨h0, h⟩, this.1, this.2⟩
  · intro q _
    by_cases h : Real.exp q < 2 ^ (f.emax - 1)
    · left
      have := (libm_exp hf q h).choose_spec
      exact ⟨_, dif_pos h, this.1, this.2⟩
    · right
      exact ⟨dif_neg h, not_lt.mp h⟩

end Verif
