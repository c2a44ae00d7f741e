import Verif.Props.DoubleRoutes

/-!
# C148 for Beta and chi-squared samples
-/

namespace Verif
open Format FloatOps ProbabilityTheory ExponentialFamily

variable {f : Format} {L : Libm}

private theorem two_near' {r s t c e : ℝ} (h1 : |r - t| ≤ c) (h2 : |s - t| ≤ e) : |r - s| ≤ c + e := by
  rw [abs_le] at *
  constructor <;> linarith [h1.1, h1.2, h2.1, h2.2]

theorem abs_pred_mul {a y : ℝ} (ha : 0 < a) : |(a - 1) * y| ≤ (a + 1) * |y| := by
  rw [abs_mul]
  refine mul_le_mul_of_nonneg_right ?_ (abs_nonneg _)
  rw [abs_le]; constructor <;> linarith

/-- **C148** (chi-squared). -/
theorem C148_chi_squared (hf : f.Std) (hL : L.Accurate f) (hG : L.GammaAccurate f) {k : ℚ}
    (hk : f.Representable k) (hk1 : 1 / 2 ^ 50 ≤ k) {d : ChiSquared (Flt f L)}
    (h : ChiSquared.new (Flt.fin k) = .ok d) (xs : List ℚ) (hne : xs ≠ [])
    (hx : ∀ x ∈ xs, f.Representable x ∧ 0 < x) (hn : xs.length * f.u ≤ 1/1000)
    (hB : xs.length * (xs.map fun x => chiSize ((k : ℝ) / 2) [x]).sum ≤ 2 ^ 80) :
    ∃ r s : ℚ, (IID.ofDist d).iidLogDensity (xs.map (Flt.fin (f := f) (L := L))) = Flt.fin (f := f) (L := L) r ∧
      (IID.ofDist d).iidLogDensityFallback (xs.map (Flt.fin (f := f) (L := L))) = Flt.fin (f := f) (L := L) s ∧
      |(r : ℝ) - s| ≤ 299 * xs.length * f.u * (xs.map fun x => chiSize ((k : ℝ) / 2) [x]).sum := by
  obtain ⟨hk0, -⟩ := ChiSquared.new_flt h
  have hkR : (0 : ℝ) < (k : ℝ) / 2 := by have : (0 : ℝ) < k := by exact_mod_cast hk0
                                         positivity
  have hn1 : (1 : ℝ) ≤ xs.length := by exact_mod_cast List.length_pos_of_ne_nil hne
  have hu := u_pos f
  set S := (xs.map fun x => chiSize ((k : ℝ) / 2) [x]).sum with hSdef
  have c0 : 0 ≤ (k : ℝ) / 2 * (1 + |Real.log ((k : ℝ) / 2)|) := by positivity
  have c1 := abs_nonneg (Real.log (Real.Gamma ((k : ℝ) / 2)))
  have hsplit : S = xs.length * (1 + (k : ℝ) / 2 * (1 + |Real.log ((k : ℝ) / 2)|) + |Real.log (Real.Gamma ((k : ℝ) / 2))|)
      + ((k : ℝ) / 2 + 1) * (xs.map fun x : ℚ => |Real.log x|).sum + 1 / 2 * (xs.map fun x : ℚ => (x : ℝ)).sum := by
    rw [hSdef]
    clear * -
    induction xs with
    | nil => simp
    | cons x xs ih =>
      rw [List.map_cons, List.sum_cons, ih]
      simp only [List.map_cons, List.sum_cons, List.length_cons, chiSize, List.map_nil, List.sum_nil]
      push_cast
      ring
  have hle : chiSize ((k : ℝ) / 2) xs ≤ S := by
    rw [hsplit]
    unfold chiSize
    nlinarith
  have hs0 : ∀ x ∈ xs, 0 ≤ chiSize ((k : ℝ) / 2) [x] := fun x h => by
    have : (0 : ℝ) < x := by exact_mod_cast (hx x h).2
    simp only [chiSize, List.map_cons, List.map_nil, List.sum_cons, List.sum_nil]
    positivity
  have hSnn : 0 ≤ S := sum_nonneg_of hs0
  have hSB : S ≤ 2 ^ 80 := (le_mul_of_one_le_left hSnn hn1).trans hB
  have hone : ∀ x ∈ xs, chiSize ((k : ℝ) / 2) [x] ≤ S := fun x h =>
    List.single_le_sum (by simp only [List.mem_map]; rintro _ ⟨y, hy, rfl⟩; exact hs0 y hy) _
      (List.mem_map_of_mem (f := fun x => chiSize ((k : ℝ) / 2) [x]) h)
  obtain ⟨r, r1, -, r2⟩ := C144_chi_squared_joint_partial hf hL hG hk hk1 h xs hne hx hn
    ((mul_le_mul_of_nonneg_left hle (by positivity)).trans hB)
  obtain ⟨s, s1, s2⟩ := fallback_app (L := L) hf d (xs.map (Flt.fin (f := f) (L := L)))
    (t := fun v => match v with | .fin q => Real.log (gammaPDFReal ((k : ℝ) / 2) (1 / 2) q) | _ => 0)
    (T := fun v => match v with | .fin q => chiSize ((k : ℝ) / 2) [q] | _ => 0) (k := 150) (by norm_num) (by norm_num)
    (by simpa using hn) (by simpa [Function.comp_def] using hSB.trans (by norm_num))
    (by
      intro v hv
      obtain ⟨x, hxm, rfl⟩ := List.mem_map.mp hv
      have hxR : (0 : ℝ) < x := by exact_mod_cast (hx x hxm).2
      have hsz : chiSize ((k : ℝ) / 2) [x] = 1 + (k : ℝ) / 2 * (1 + |Real.log ((k : ℝ) / 2)|)
          + |Real.log (Real.Gamma ((k : ℝ) / 2))| + ((k : ℝ) / 2 + 1) * |Real.log x| + x / 2 := by
        simp [chiSize]; ring
      constructor
      · show |Real.log (gammaPDFReal ((k : ℝ) / 2) (1 / 2) x)| ≤ chiSize ((k : ℝ) / 2) [x]
        have := sum_log_gamma hkR (by norm_num : (0 : ℝ) < 1 / 2) [x] (by simpa using (hx x hxm).2)
        simp only [List.map_cons, List.map_nil, List.sum_cons, List.sum_nil, add_zero, List.length_singleton,
          Nat.cast_one, one_mul] at this
        rw [this, hsz, one_div, Real.log_inv]
        have e1 := abs_pred_mul (y := Real.log x) hkR
        have l1 := Real.log_two_lt_d9
        have l0 : 0 < Real.log 2 := Real.log_pos (by norm_num)
        have e2 : (k : ℝ) / 2 * Real.log 2 ≤ (k : ℝ) / 2 * 1 := mul_le_mul_of_nonneg_left (by linarith) hkR.le
        have e2' : 0 ≤ (k : ℝ) / 2 * Real.log 2 := by positivity
        have e3 := neg_abs_le (((k : ℝ) / 2 - 1) * Real.log x)
        have e4 := le_abs_self (((k : ℝ) / 2 - 1) * Real.log x)
        have e5 : 0 ≤ (k : ℝ) / 2 * |Real.log ((k : ℝ) / 2)| := by positivity
        have e7 := neg_abs_le (Real.log (Real.Gamma ((k : ℝ) / 2)))
        have e8 := le_abs_self (Real.log (Real.Gamma ((k : ℝ) / 2)))
        rw [abs_le]
        constructor <;> linarith
      · obtain ⟨q, q1, q2, q3⟩ := (C100_chi_squared_partial hf hL hG hk (hx x hxm).1 hk1 h
          (by rw [← hsz]; exact (hone x hxm).trans hSB)).1 (hx x hxm).2
        refine ⟨q, q1, q2, ?_⟩
        rw [← hsz] at q3
        exact q3)
  refine ⟨r, s, r1, s1, ?_⟩
  simp only [List.map_map, Function.comp_def, List.length_map] at s2
  have h2 : 145 * xs.length * f.u * chiSize ((k : ℝ) / 2) xs ≤ 145 * xs.length * f.u * S :=
    mul_le_mul_of_nonneg_left hle (by positivity)
  refine (two_near' (r2.trans h2) s2).trans (le_of_eq ?_)
  rw [hSdef]
  ring

/-- **C148** (Beta). -/
theorem C148_beta (hf : f.Std) (hL : L.Accurate f) (hG : L.GammaAccurate f) {a b : ℚ}
    (ha : f.Representable a) (hb : f.Representable b) {d : Beta (Flt f L)}
    (h : Beta.new (Flt.fin a) (Flt.fin b) = .ok d) (xs : List ℚ) (hne : xs ≠ [])
    (hx : ∀ x ∈ xs, f.Representable x ∧ 0 < x ∧ x < 1) (hn : xs.length * f.u ≤ 1/1000)
    (hB : xs.length * (xs.map fun x => betaSize a b [x]).sum ≤ 2 ^ 80) :
    ∃ r s : ℚ, (IID.ofDist d).iidLogDensity (xs.map (Flt.fin (f := f) (L := L))) = Flt.fin (f := f) (L := L) r ∧
      (IID.ofDist d).iidLogDensityFallback (xs.map (Flt.fin (f := f) (L := L))) = Flt.fin (f := f) (L := L) s ∧
      |(r : ℝ) - s| ≤ 213 * xs.length * f.u * (xs.map fun x => betaSize a b [x]).sum := by
  obtain ⟨ha0, hb0, -⟩ := Beta.new_flt h
  have haR : (0 : ℝ) < a := by exact_mod_cast ha0
  have hbR : (0 : ℝ) < b := by exact_mod_cast hb0
  have hn1 : (1 : ℝ) ≤ xs.length := by exact_mod_cast List.length_pos_of_ne_nil hne
  have hu := u_pos f
  set S := (xs.map fun x => betaSize a b [x]).sum with hSdef
  have c0 : 0 ≤ ((a : ℝ) + b) * (1 + |Real.log ((a : ℝ) + b)|) := by positivity
  have c1 := abs_nonneg (Real.log (Real.Gamma a))
  have c2 := abs_nonneg (Real.log (Real.Gamma b))
  have c3 := abs_nonneg (Real.log (Real.Gamma ((a : ℝ) + b)))
  have hsplit : S = xs.length * (1 + |Real.log (Real.Gamma ((a : ℝ) + b))|
      + ((a : ℝ) + b) * (1 + |Real.log ((a : ℝ) + b)|) + |Real.log (Real.Gamma a)| + |Real.log (Real.Gamma b)|)
      + ((a : ℝ) + 1) * (xs.map fun x : ℚ => |Real.log x|).sum
      + ((b : ℝ) + 1) * (xs.map fun x : ℚ => 1 + |Real.log (1 - x)|).sum := by
    rw [hSdef]
    clear * -
    induction xs with
    | nil => simp
    | cons x xs ih =>
      rw [List.map_cons, List.sum_cons, ih]
      simp only [List.map_cons, List.sum_cons, List.length_cons, betaSize, List.map_nil, List.sum_nil]
      push_cast
      ring
  have hle : betaSize a b xs ≤ S := by
    rw [hsplit]
    unfold betaSize
    nlinarith
  have hs0 : ∀ x ∈ xs, 0 ≤ betaSize a b [x] := fun x _ => by
    simp only [betaSize, List.map_cons, List.map_nil, List.sum_cons, List.sum_nil]
    positivity
  have hSnn : 0 ≤ S := sum_nonneg_of hs0
  have hSB : S ≤ 2 ^ 80 := (le_mul_of_one_le_left hSnn hn1).trans hB
  have hone : ∀ x ∈ xs, betaSize a b [x] ≤ S := fun x h =>
    List.single_le_sum (by simp only [List.mem_map]; rintro _ ⟨y, hy, rfl⟩; exact hs0 y hy) _
      (List.mem_map_of_mem (f := fun x => betaSize a b [x]) h)
  obtain ⟨r, r1, -, r2⟩ := C144_beta_joint_partial hf hL hG ha hb h xs hne hx hn
    ((mul_le_mul_of_nonneg_left hle (by positivity)).trans hB)
  obtain ⟨s, s1, s2⟩ := fallback_app (L := L) hf d (xs.map (Flt.fin (f := f) (L := L)))
    (t := fun v => match v with | .fin q => Real.log (betaPDFReal a b q) | _ => 0)
    (T := fun v => match v with | .fin q => betaSize a b [q] | _ => 0) (k := 95) (by norm_num) (by norm_num)
    (by simpa using hn) (by simpa [Function.comp_def] using hSB.trans (by norm_num))
    (by
      intro v hv
      obtain ⟨x, hxm, rfl⟩ := List.mem_map.mp hv
      have hsz : betaSize a b [x] = 1 + |Real.log (Real.Gamma ((a : ℝ) + b))|
          + ((a : ℝ) + b) * (1 + |Real.log ((a : ℝ) + b)|)
          + |Real.log (Real.Gamma a)| + |Real.log (Real.Gamma b)| + ((a : ℝ) + 1) * |Real.log x|
          + ((b : ℝ) + 1) * (1 + |Real.log (1 - x)|) := by simp [betaSize]
      constructor
      · show |Real.log (betaPDFReal a b x)| ≤ betaSize a b [x]
        have := sum_log_beta haR hbR [x] (by simpa using (hx x hxm).2)
        simp only [List.map_cons, List.map_nil, List.sum_cons, List.sum_nil, add_zero, List.length_singleton,
          Nat.cast_one, one_mul] at this
        rw [this, hsz]
        have e1 := abs_pred_mul (y := Real.log x) haR
        have e2 := abs_pred_mul (y := Real.log (1 - x)) hbR
        have e3 := neg_abs_le (((a : ℝ) - 1) * Real.log x)
        have e4 := le_abs_self (((a : ℝ) - 1) * Real.log x)
        have e5 := neg_abs_le (((b : ℝ) - 1) * Real.log (1 - x))
        have e6 := le_abs_self (((b : ℝ) - 1) * Real.log (1 - x))
        have e7 := neg_abs_le (Real.log (Real.Gamma a))
        have e8 := le_abs_self (Real.log (Real.Gamma a))
        have e9 := neg_abs_le (Real.log (Real.Gamma b))
        have e10 := le_abs_self (Real.log (Real.Gamma b))
        have e11 := neg_abs_le (Real.log (Real.Gamma ((a : ℝ) + b)))
        have e12 := le_abs_self (Real.log (Real.Gamma ((a : ℝ) + b)))
        rw [abs_le]
        constructor <;> linarith
      · obtain ⟨q, q1, q2, q3⟩ := (C100_beta_partial hf hL hG ha hb (hx x hxm).1 h
          (by rw [← hsz]; exact (hone x hxm).trans hSB)).1 (hx x hxm).2
        refine ⟨q, q1, q2, ?_⟩
        rw [← hsz] at q3
        exact q3)
  refine ⟨r, s, r1, s1, ?_⟩
  simp only [List.map_map, Function.comp_def, List.length_map] at s2
  have h2 : 114 * xs.length * f.u * betaSize a b xs ≤ 114 * xs.length * f.u * S :=
    mul_le_mul_of_nonneg_left hle (by positivity)
  refine (two_near' (r2.trans h2) s2).trans (le_of_eq ?_)
  rw [hSdef]
  ring

example (hf : f.Std) : ∃ L : Libm, L.Accurate f ∧ L.GammaAccurate f ∧ ∃ d : ChiSquared (Flt f L),
    ChiSquared.new (Flt.fin 2) = .ok d ∧
    ∃ r s : ℚ, (IID.ofDist d).iidLogDensity ([1, 2].map (Flt.fin (f := f) (L := L))) = Flt.fin (f := f) (L := L) r ∧
      (IID.ofDist d).iidLogDensityFallback ([1, 2].map (Flt.fin (f := f) (L := L))) = Flt.fin (f := f) (L := L) s := by
  obtain ⟨L, hL, hG⟩ := exists_libm_gamma hf
  refine ⟨L, hL, hG, ⟨Flt.fin 2⟩, rfl, ?_⟩
  have hlog : |Real.log 2| ≤ 1 := by
    rw [abs_of_pos (Real.log_pos (by norm_num))]; have := Real.log_two_lt_d9; linarith
  have hs : (([1, 2] : List ℚ).map fun x => chiSize (((2 : ℚ) : ℝ) / 2) [x]).sum ≤ 9 := by
    simp [chiSize]; linarith
  obtain ⟨r, s, h1, h2, -⟩ := C148_chi_squared (L := L) hf hL hG hf.rep_two (by norm_num)
    (d := ⟨Flt.fin 2⟩) rfl [1, 2] (by simp)
    (by simp [hf.rep_one, hf.rep_two]) (two_obs hf)
    ((mul_le_mul_of_nonneg_left hs (by positivity)).trans (by norm_num))
  exact ⟨r, s, h1, h2⟩

example (hf : f.Std) : ∃ L : Libm, L.Accurate f ∧ L.GammaAccurate f ∧ ∃ d : Beta (Flt f L),
    Beta.new (Flt.fin 1) (Flt.fin 1) = .ok d ∧
    ∃ r s : ℚ, (IID.ofDist d).iidLogDensity ([1/2, 1/2].map (Flt.fin (f := f) (L := L))) = Flt.fin (f := f) (L := L) r ∧
      (IID.ofDist d).iidLogDensityFallback ([1/2, 1/2].map (Flt.fin (f := f) (L := L))) =
        Flt.fin (f := f) (L := L) s := by
  obtain ⟨L, hL, hG⟩ := exists_libm_gamma hf
  refine ⟨L, hL, hG, ⟨Flt.fin 1, Flt.fin 1⟩, rfl, ?_⟩
  have hlog : |Real.log 2| ≤ 1 := by
    rw [abs_of_pos (Real.log_pos (by norm_num))]; have := Real.log_two_lt_d9; linarith
  have hs : (([1/2, 1/2] : List ℚ).map fun x => betaSize ((1 : ℚ) : ℝ) ((1 : ℚ) : ℝ) [x]).sum ≤ 30 := by
    have e1 : (1 : ℝ) - 2⁻¹ = 2⁻¹ := by norm_num
    have e2 : (1 : ℝ) + 1 = 2 := by norm_num
    simp [betaSize, e1, e2]; linarith
  obtain ⟨r, s, h1, h2, -⟩ := C148_beta (L := L) hf hL hG hf.rep_one hf.rep_one
    (d := ⟨Flt.fin 1, Flt.fin 1⟩) rfl [1/2, 1/2] (by simp)
    (by simp; exact ⟨by simpa using hf.rep_half, by norm_num⟩) (two_obs hf)
    ((mul_le_mul_of_nonneg_left hs (by positivity)).trans (by norm_num))
  exact ⟨r, s, h1, h2⟩

end Verif
