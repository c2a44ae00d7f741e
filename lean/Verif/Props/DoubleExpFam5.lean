import Verif.Props.DoubleExpFam4

/-!
# C144: what the joint exponential-family path computes for exponential and geometric samples in floating point

The log-partition of the exponential distribution has the wrong sign and the statistic of the geometric distribution is
off by one (C24). In floating point the joint value is accordingly an accurate value of the wrong number.
-/

namespace Verif
open Format FloatOps ProbabilityTheory ExponentialFamily

variable {f : Format} {L : Libm}

/-- **C144** fails for the exponential distribution: for every rate and every sample of `n` nonnegative observations the
joint exponential-family value is within rounding of the joint log-density less `2 n` times the logarithm of the rate. -/
theorem C144_exponential_violated (hf : f.Std) (hL : L.Accurate f) {a : ℚ} (ha : f.Representable a)
    {d : Exponential (Flt f L)} (h : Exponential.new (Flt.fin a) = .ok d) (xs : List ℚ) (hne : xs ≠ [])
    (hx : ∀ x ∈ xs, f.Representable x ∧ 0 ≤ x) (hn : xs.length * f.u ≤ 1/1000)
    (hB : xs.length * (a * (xs.map fun x : ℚ => (x : ℝ)).sum + |Real.log a| + 2) ≤ 2 ^ 90)
    (hS : (xs.map fun x : ℚ => (x : ℝ)).sum ≤ 2 ^ 90) :
    ∃ r : ℚ, (IID.ofDist d).iidLogDensity (xs.map (Flt.fin (f := f) (L := L))) = Flt.fin (f := f) (L := L) r ∧
      f.Representable r ∧
      |(r : ℝ) - ((xs.map fun x : ℚ => Real.log (exponentialPDFReal a x)).sum - 2 * xs.length * Real.log a)| ≤
        12 * xs.length * f.u * (a * (xs.map fun x : ℚ => (x : ℝ)).sum + |Real.log a| + 2) := by
  obtain ⟨h0, rfl⟩ := Exponential.new_flt h
  have haR : (0 : ℝ) < a := by exact_mod_cast h0
  have hz : ((xs.map fun _ => (0 : ℝ)).sum) = 0 := by simp
  have key := App.iid_one (L := L) hf xs (v1 := Flt.neg (.fin a)) (vA := Flt.ln L (.fin a)) (t := fun x => .fin x)
    (b := fun _ => .fin 0) (y := fun _ => 0) (B := fun _ => 0) (x1 := fun x : ℚ => (x : ℝ)) (S1 := fun x : ℚ => (x : ℝ))
    hne (App.pos h0 ha).neg (App.ln_exact hf hL h0 ha)
    (fun x hxm => by
      have := App.exact (f := f) (hx x hxm).1
      rwa [abs_of_nonneg (by exact_mod_cast (hx x hxm).2)] at this)
    (fun _ _ => by simpa using App.exact (f := f) f.rep_zero)
    le_rfl (by norm_num) le_rfl le_rfl (m := 12) (by norm_num) (by norm_num) (by norm_num) (by norm_num) hn hS
    (by rw [hz]; norm_num) (by rw [hz]; simpa using hB)
  rw [iid_one_eq (d := (⟨Flt.fin a⟩ : Exponential (Flt f L))) rfl rfl rfl _ (by simpa using hne)]
  simp only [List.map_map, List.length_map]
  have etruth : (xs.map fun x : ℚ => Real.log (exponentialPDFReal a x)).sum - 2 * xs.length * Real.log a =
      -(a : ℝ) * (xs.map fun x : ℚ => (x : ℝ)).sum - xs.length * Real.log a + (xs.map fun _ => (0 : ℝ)).sum := by
    rw [hz]
    clear key hB hS hn hne hz
    induction xs with
    | nil => simp
    | cons x xs ih =>
      have := ih fun y hy => hx y (List.mem_cons_of_mem _ hy)
      have hx0 : (0 : ℝ) ≤ x := by exact_mod_cast (hx x List.mem_cons_self).2
      simp only [List.map_cons, List.sum_cons, List.length_cons, log_exponential haR hx0]
      push_cast
      linarith
  rw [etruth]
  obtain ⟨r, r1, r2, r3⟩ := App.result (L := L) key
  refine ⟨r, r1, r2, r3.trans (le_of_eq ?_)⟩
  rw [hz]
  ring

/-- **C144** fails for the geometric distribution: for every probability below one and every sample of `n` positive
counts the joint exponential-family value is within rounding of the joint log-mass plus `n` times the logarithm of the
failure probability. -/
theorem C144_geometric_violated (hf : f.Std) (hL : L.Accurate f) {p : ℚ} (hp : f.Representable p) (hp1 : p ≠ 1)
    {d : Geometric (Flt f L)} (h : Geometric.new (Flt.fin p) = .ok d) (ks : List ℕ) (hne : ks ≠ [])
    (hk : ∀ k ∈ ks, 1 ≤ k ∧ k ≤ 2 ^ f.prec) (hn : ks.length * f.u ≤ 1/1000)
    (hB : ks.length * ((1 + |Real.log (1 - (p : ℝ))|) * (ks.map fun k : ℕ => (k : ℝ)).sum + |Real.log p| + 2) ≤ 2 ^ 90)
    (hS : (ks.map fun k : ℕ => (k : ℝ)).sum ≤ 2 ^ 90) :
    ∃ r : ℚ, (IID.ofDist d).iidLogDensity ks = Flt.fin (f := f) (L := L) r ∧ f.Representable r ∧
      |(r : ℝ) - ((ks.map fun k : ℕ => Real.log ((1 - (p : ℝ)) ^ (k - 1) * p)).sum
          + ks.length * Real.log (1 - (p : ℝ)))| ≤
        17 * ks.length * f.u *
          ((1 + |Real.log (1 - (p : ℝ))|) * (ks.map fun k : ℕ => (k : ℝ)).sum + |Real.log p| + 2) := by
  obtain ⟨h0, h1, rfl⟩ := Geometric.new_flt h
  have h1 : p < 1 := lt_of_le_of_ne h1 hp1
  have h0' : (0 : ℝ) < p := by exact_mod_cast h0
  have h1' : (p : ℝ) < 1 := by exact_mod_cast h1
  have hz : ((ks.map fun _ => (0 : ℝ)).sum) = 0 := by simp
  have key := App.iid_one (L := L) hf ks (v1 := Flt.ln L (Flt.sub f (.fin 1) (.fin p))) (vA := Flt.neg (Flt.ln L (.fin p)))
    (t := fun k => .fin ((k : ℕ) : ℚ))
    (b := fun _ => .fin 0) (y := fun _ => 0) (B := fun _ => 0) (x1 := fun k : ℕ => (k : ℝ)) (S1 := fun k : ℕ => (k : ℝ))
    hne (App.ln_compl hf hL hp h0.le h1) (App.ln_exact hf hL h0 hp).neg
    (fun k hkm => App.nat hf (hk k hkm).2)
    (fun _ _ => by simpa using App.exact (f := f) f.rep_zero)
    (by norm_num) (by norm_num) le_rfl le_rfl (m := 17) (by norm_num) (by norm_num) (by norm_num) (by norm_num) hn hS
    (by rw [hz]; norm_num) (by rw [hz]; simpa using hB)
  rw [iid_one_eq (d := (⟨Flt.fin p⟩ : Geometric (Flt f L))) rfl rfl rfl ks hne]
  have hstat : ks.map (fun k => (FloatOps.ofNat k : Flt f L)) = ks.map (fun k => Flt.fin ((k : ℕ) : ℚ)) :=
    List.map_congr_left fun k h => ofNat_flt hf (hk k h).2
  rw [hstat]
  have etruth : (ks.map fun k : ℕ => Real.log ((1 - (p : ℝ)) ^ (k - 1) * p)).sum + ks.length * Real.log (1 - (p : ℝ)) =
      Real.log (1 - (p : ℝ)) * (ks.map fun k : ℕ => (k : ℝ)).sum - ks.length * -Real.log p
        + (ks.map fun _ => (0 : ℝ)).sum := by
    rw [hz]
    clear key hB hS hn hne hz hstat
    induction ks with
    | nil => simp
    | cons k ks ih =>
      have := ih fun y hy => hk y (List.mem_cons_of_mem _ hy)
      have hk1 := (hk k List.mem_cons_self).1
      simp only [List.map_cons, List.sum_cons, List.length_cons]
      rw [Real.log_mul (pow_pos (by linarith) _).ne' h0'.ne', Real.log_pow, Nat.cast_sub hk1]
      push_cast
      linarith
  rw [etruth]
  obtain ⟨r, r1, r2, r3⟩ := App.result (L := L) key
  refine ⟨r, r1, r2, r3.trans (le_of_eq ?_)⟩
  rw [hz]
  ring

/-- a sample of two observations of an exponential distribution with rate two: the joint value is off by more than two -/
example (hf : f.Std) : ∃ L : Libm, L.Accurate f ∧ ∃ d : Exponential (Flt f L),
    Exponential.new (Flt.fin 2) = .ok d ∧
    ∃ r : ℚ, (IID.ofDist d).iidLogDensity ([1, 2].map (Flt.fin (f := f) (L := L))) = Flt.fin (f := f) (L := L) r ∧
      (r : ℝ) < Real.log (exponentialPDFReal 2 1) + Real.log (exponentialPDFReal 2 2) - 2 := by
  obtain ⟨L, hL⟩ := exists_libm hf
  refine ⟨L, hL, ⟨Flt.fin 2⟩, rfl, ?_⟩
  have l1 := Real.log_two_lt_d9
  have l2 := Real.log_two_gt_d9
  have hlog : |Real.log 2| ≤ 1 := by rw [abs_of_pos (by linarith)]; linarith
  have hsum : ((2 : ℚ) : ℝ) * (([1, 2] : List ℚ).map fun x : ℚ => (x : ℝ)).sum + |Real.log ((2 : ℚ) : ℝ)| + 2 ≤ 9 := by
    norm_num; linarith
  obtain ⟨r, h1, -, h2⟩ := C144_exponential_violated (L := L) hf hL hf.rep_two (d := ⟨Flt.fin 2⟩) rfl [1, 2] (by simp)
    (by simp [hf.rep_one, hf.rep_two]) (two_obs hf)
    ((mul_le_mul_of_nonneg_left hsum (by positivity)).trans (by norm_num)) (by norm_num)
  refine ⟨r, h1, ?_⟩
  have hu := u_pos f
  have hul := hf.u_le
  have h3 := h2.trans (mul_le_mul_of_nonneg_left hsum (by positivity))
  norm_num at h3
  have h4 := (abs_le.mp h3).2
  norm_num at hul
  linarith

example (hf : f.Std) : ∃ L : Libm, L.Accurate f ∧ ∃ d : Geometric (Flt f L),
    Geometric.new (Flt.fin (1/2)) = .ok d ∧
    ∃ r : ℚ, (IID.ofDist d).iidLogDensity [1, 2] = Flt.fin (f := f) (L := L) r ∧
      (r : ℝ) < Real.log ((1 - 1/2) ^ 0 * (1/2)) + Real.log ((1 - 1/2) ^ 1 * (1/2)) - 1 := by
  obtain ⟨L, hL⟩ := exists_libm hf
  have hd : Geometric.new (Flt.fin (f := f) (L := L) (1/2)) = .ok ⟨Flt.fin (1/2)⟩ := by
    unfold Geometric.new
    exact if_pos (by show (decide ((0 : ℚ) < 1/2) && decide ((1/2 : ℚ) ≤ 1)) = true; norm_num)
  refine ⟨L, hL, _, hd, ?_⟩
  have l1 := Real.log_two_lt_d9
  have l2 := Real.log_two_gt_d9
  have hlog : |Real.log 2| ≤ 1 := by rw [abs_of_pos (by linarith)]; linarith
  have e1 : (1 : ℝ) - 2⁻¹ = 2⁻¹ := by norm_num
  have hsum : (1 + |Real.log (1 - ((1/2 : ℚ) : ℝ))|) * (([1, 2] : List ℕ).map fun k : ℕ => (k : ℝ)).sum
      + |Real.log ((1/2 : ℚ) : ℝ)| + 2 ≤ 9 := by
    simp [e1]; linarith
  have hprec : 2 ≤ 2 ^ f.prec := by rcases hf with rfl | rfl <;> decide
  obtain ⟨r, h1, -, h2⟩ := C144_geometric_violated (L := L) hf hL hf.rep_half (by norm_num) hd [1, 2] (by simp)
    (by simp; omega) (two_obs hf)
    ((mul_le_mul_of_nonneg_left hsum (by positivity)).trans (by norm_num)) (by norm_num)
  refine ⟨r, h1, ?_⟩
  have hu := u_pos f
  have hul := hf.u_le
  have h3 := h2.trans (mul_le_mul_of_nonneg_left hsum (by positivity))
  simp [e1] at h3
  have h4 := (abs_le.mp h3).2
  norm_num at hul
  simp [e1]
  linarith

end Verif
