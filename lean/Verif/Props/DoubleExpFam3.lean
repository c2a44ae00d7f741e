import Verif.Props.DoubleExpFam2
import Verif.Props.DoubleDiscrete

/-!
# C144: the joint exponential-family value of standard normal and Poisson samples in floating point
-/

namespace Verif
open Format FloatOps ProbabilityTheory ExponentialFamily

variable {f : Format} {L : Libm}

/-! ### Standard normal -/

theorem sum_log_std_normal (xs : List ℚ) :
    (xs.map fun x : ℚ => Real.log (gaussianPDFReal 0 1 x)).sum =
      0 * (xs.map fun x : ℚ => (x : ℝ)).sum + -(1/2) * (xs.map fun x : ℚ => (x : ℝ) * x).sum
        - xs.length * (Real.log (2 * Real.pi) * (1/2)) := by
  have h := sum_log_normal (μ := 0) (σ := 1) one_pos xs
  simp only [one_pow, Real.toNNReal_one] at h
  rw [h]
  norm_num

/-- **C144** (standard normal): the joint log-density by the exponential-family path is within `145 n` units of
roundoff of the sum of the logarithms of the density, relative to the squares of the observations.  Missing, here and
below: samples so large that `n u > 1/1000` or whose terms are beyond `2^80`. -/
theorem C144_std_normal_joint_partial (hf : f.Std) (hL : L.Accurate f) (xs : List ℚ) (hne : xs ≠ [])
    (hx : ∀ x ∈ xs, f.Representable x) (hn : xs.length * f.u ≤ 1/1000)
    (hB : (xs.length : ℝ) * (xs.map fun x : ℚ => 1 + (x : ℝ) ^ 2).sum ≤ 2 ^ 80) :
    ∃ r : ℚ, (IID.ofDist ({} : StdNormal (Flt f L))).iidLogDensity (xs.map (Flt.fin (f := f) (L := L))) =
        Flt.fin (f := f) (L := L) r ∧ f.Representable r ∧
      |(r : ℝ) - (xs.map fun x : ℚ => Real.log (gaussianPDFReal 0 1 x)).sum| ≤
        145 * xs.length * f.u * (xs.map fun x : ℚ => 1 + (x : ℝ) ^ 2).sum := by
  rw [sum_log_std_normal xs]
  set S := (xs.map fun x : ℚ => 1 + (x : ℝ) ^ 2).sum with hS
  have hn1 : (1 : ℝ) ≤ xs.length := by exact_mod_cast List.length_pos_of_ne_nil hne
  have hu := u_pos f
  have hpi := Real.pi_gt_three
  have hl1 := log_two_pi_gt
  have hl2 := log_two_pi_lt
  have hS1 : (xs.length : ℝ) ≤ S := by
    rw [hS, List.sum_map_add, List.map_const', List.sum_replicate, nsmul_eq_mul, mul_one]
    have : 0 ≤ (xs.map fun x : ℚ => (x : ℝ) ^ 2).sum := sum_nonneg_of fun _ _ => sq_nonneg _
    linarith
  have hSB : S ≤ 2 ^ 80 := (le_mul_of_one_le_left (by linarith) hn1).trans hB
  have hmem : ∀ x ∈ xs, 1 + (x : ℝ) ^ 2 ≤ S := by
    intro x hx
    exact List.single_le_sum (by simp only [List.mem_map]; rintro _ ⟨y, -, rfl⟩; positivity) _
      (List.mem_map_of_mem (f := fun x : ℚ => 1 + (x : ℝ) ^ 2) hx)
  have g1 : App f 0 (.fin 0) 0 0 := by
    have := App.exact (f := f) f.rep_zero
    simpa using this
  have g2 : App f 0 (f.round (-1/2)) (-(1/2)) (1/2) := by
    rw [show (-1/2 : ℚ) = -(1/2) by norm_num, f.round_exact (rep_neg hf.rep_half)]
    have := (App.pos (f := f) (q := 1/2) (by norm_num) hf.rep_half).neg
    push_cast at this; exact this
  have th : App f 0 (f.round (1/2)) (1/2) (1/2) := by
    rw [round_half hf]
    have := App.pos (f := f) (q := 1/2) (by norm_num) hf.rep_half
    push_cast at this; exact this
  have tp : App f 8 (Flt.mul f (f.round 2) (f.round Flt.piLit)) (2 * Real.pi) (2 * Real.pi) := near_two_pi hf
  have t4 := App.ln hf hL tp (by positivity) (m := 19) (by norm_num) (by norm_num) (by norm_num)
  rw [abs_of_pos (by linarith : 0 < Real.log (2 * Real.pi))] at t4
  have gA := App.mul_rel hf t4 th (by norm_num) le_rfl (m := 23) (by norm_num) (by norm_num)
    (u_cube_le_tiny hf (by norm_num; linarith)) (by norm_num; linarith)
  have h1 : ∀ i ∈ xs, App f 0 (.fin i) (i : ℝ) |(i : ℝ)| := fun i hi => App.exact (hx i hi)
  have h2 : ∀ i ∈ xs, App f 4 (Flt.mul f (.fin i) (.fin i)) ((i : ℝ) * i) (1 + (i : ℝ) ^ 2) := by
    intro i hi
    have e : |(i : ℝ)| * |(i : ℝ)| = (i : ℝ) ^ 2 := by rw [abs_mul_abs_self]; ring
    have := App.mul hf (h1 i hi) (h1 i hi) le_rfl le_rfl (m := 4) (by norm_num) (by norm_num)
      (by rw [e]; have := hmem i hi; norm_num at hSB ⊢; linarith)
    rwa [e, add_comm] at this
  have b1 : (xs.map fun x : ℚ => |(x : ℝ)|).sum ≤ 2 ^ 90 := by
    have : (xs.map fun x : ℚ => |(x : ℝ)|).sum ≤ S := map_sum_le fun x _ => by
      have := sq_nonneg (|(x : ℝ)| - 1)
      rw [← sq_abs (x : ℝ)]
      nlinarith [abs_nonneg (x : ℝ)]
    norm_num at hSB ⊢; linarith
  have hsize : xs.length * (0 * (xs.map fun x : ℚ => |(x : ℝ)|).sum + 1/2 * S
      + (1 + Real.log (2 * Real.pi)) * (1/2) + 3) ≤ xs.length * (5 * S) :=
    mul_le_mul_of_nonneg_left (by linarith) (by linarith)
  have key := App.iid_two (L := L) hf xs (t1 := fun i => .fin i)
    (t2 := fun i => Flt.mul f (.fin i) (.fin i)) hne g1 g2 gA h1 h2
    (by norm_num) (by norm_num) (by norm_num) (by norm_num) (by norm_num) (m := 29) (by norm_num) (by norm_num)
    (by norm_num) (by norm_num) hn b1 (hSB.trans (by norm_num)) (hsize.trans (by norm_num at hB ⊢; linarith))
  rw [iid_two_eq (d := ({} : StdNormal (Flt f L))) rfl rfl rfl (fun _ => rfl) _ (by simpa using hne)]
  simp only [List.map_map, List.length_map]
  obtain ⟨r, r1, r2, r3⟩ := App.result (L := L) key
  refine ⟨r, r1, r2, r3.trans ?_⟩
  have := mul_le_mul_of_nonneg_left hsize (by positivity : 0 ≤ 29 * f.u)
  refine this.trans (le_of_eq (by ring))

/-! ### Poisson -/

/-- the size of the terms of the joint Poisson log-mass -/
noncomputable def poissonSize (l : ℝ) (ks : List ℕ) : ℝ :=
  l + (ks.map fun k : ℕ => 120 + k * (1 + |Real.log l|) + (k + 1) * Real.log k).sum

theorem sum_log_poisson {l : ℝ} (hl : 0 < l) (ks : List ℕ) :
    (ks.map fun k : ℕ => Real.log (l ^ k * Real.exp (-l) / k.factorial)).sum =
      Real.log l * (ks.map fun k : ℕ => (k : ℝ)).sum - ks.length * l
        + (ks.map fun k : ℕ => -Real.log (k.factorial : ℝ)).sum := by
  induction ks with
  | nil => simp
  | cons k ks ih =>
    have hF : (0 : ℝ) < k.factorial := by exact_mod_cast k.factorial_pos
    simp only [List.map_cons, List.sum_cons, ih, List.length_cons]
    rw [Real.log_div (mul_pos (pow_pos hl _) (Real.exp_pos _)).ne' hF.ne',
      Real.log_mul (pow_pos hl _).ne' (Real.exp_pos _).ne', Real.log_pow, Real.log_exp]
    push_cast
    ring

/-- the log-factorial of the library as an approximation, its truncation error counted in the size -/
theorem App.logFactorial (hL : L.Accurate f64) {k : ℕ} (hk : k ≤ 2 ^ 53) :
    App f64 110 (Verif.logFactorial k : Flt f64 L) (Real.log (k.factorial : ℝ)) (118 + k + (k + 1) * Real.log k) := by
  obtain ⟨r, h1, h2, h3⟩ := C101_log_factorial hL hk
  have hlk : 0 ≤ Real.log k := Real.log_natCast_nonneg k
  have hk0 : (0 : ℝ) ≤ k := by positivity
  have hfl := log_fact_le_mul k
  have hf0 := log_fact_nonneg k
  refine ⟨r, h1, h2, ?_, h3.trans ?_⟩
  · rw [abs_of_nonneg hf0]
    linarith
  · have hu : f64.u = 1 / 2 ^ 53 := by norm_num [Format.u, f64]
    have : (1 : ℝ) / 10 ^ 12 ≤ 110 * f64.u * 82 := by rw [hu]; norm_num
    linarith

/-- **C144** (Poisson, double precision): the joint log-mass by the exponential-family path, with the log-factorials of
the base measure, is within `116 n` units of roundoff of the sum of the logarithms of the masses, relative to the size
of the terms. -/
theorem C144_poisson_joint_partial (hL : L.Accurate f64) {l : ℚ} (hl : f64.Representable l)
    {d : Poisson (Flt f64 L)} (h : Poisson.new (Flt.fin l) = .ok d) (ks : List ℕ) (hne : ks ≠ [])
    (hk : ∀ k ∈ ks, k ≤ 2 ^ 53) (hn : ks.length * f64.u ≤ 1/1000) (hB : ks.length * poissonSize l ks ≤ 2 ^ 80) :
    ∃ r : ℚ, (IID.ofDist d).iidLogDensity ks = Flt.fin (f := f64) (L := L) r ∧ f64.Representable r ∧
      |(r : ℝ) - (ks.map fun k : ℕ => Real.log ((l : ℝ) ^ k * Real.exp (-l) / k.factorial)).sum| ≤
        116 * ks.length * f64.u * poissonSize l ks := by
  have hf : f64.Std := .inl rfl
  obtain ⟨h0, rfl⟩ := Poisson.new_flt h
  have hlR : (0 : ℝ) < l := by exact_mod_cast h0
  rw [sum_log_poisson hlR]
  have hn1 : (1 : ℝ) ≤ ks.length := by exact_mod_cast List.length_pos_of_ne_nil hne
  have hu := u_pos f64
  have a0 := abs_nonneg (Real.log (l : ℝ))
  set K := (ks.map fun k : ℕ => (k : ℝ)).sum with hK
  set G := (ks.map fun k : ℕ => 118 + (k : ℝ) + (k + 1) * Real.log k).sum with hG
  have hK0 : 0 ≤ K := List.sum_nonneg (by simp)
  have hG0 : 0 ≤ G := List.sum_nonneg (by
    simp only [List.mem_map]
    rintro _ ⟨k, -, rfl⟩
    have := Real.log_natCast_nonneg k
    positivity)
  have hsz : poissonSize l ks = l + (2 * ks.length + |Real.log (l : ℝ)| * K + G) := by
    unfold poissonSize
    rw [hK, hG]
    clear hB hn1 hn hk hne h hK0 hG0 hK hG K G
    congr 1
    induction ks with
    | nil => simp
    | cons k ks ih =>
      simp only [List.map_cons, List.sum_cons, ih, List.length_cons]
      push_cast
      ring
  have hKl : 0 ≤ |Real.log (l : ℝ)| * K := mul_nonneg a0 hK0
  have hnl : (ks.length : ℝ) * ks.length ≥ ks.length := le_mul_of_one_le_left (by linarith) hn1
  have hexp : ks.length * poissonSize l ks = ks.length * l + 2 * (ks.length * ks.length)
      + |Real.log (l : ℝ)| * (ks.length * K) + ks.length * G := by rw [hsz]; ring
  have q1 : 0 ≤ (ks.length : ℝ) * l := by positivity
  have q2 : 0 ≤ |Real.log (l : ℝ)| * (ks.length * K) := by positivity
  have q3 : 0 ≤ (ks.length : ℝ) * G := by positivity
  have p90 : (2 : ℝ) ^ 90 = 1024 * 2 ^ 80 := by norm_num
  have p80 : (1 : ℝ) ≤ 2 ^ 80 := by norm_num
  have hGB : G ≤ 2 ^ 80 := (le_mul_of_one_le_left hG0 hn1).trans (by linarith)
  have hKB : K ≤ 2 ^ 90 := by
    have : K ≤ G := by
      rw [hK, hG]
      refine List.sum_le_sum fun k _ => ?_
      have := Real.log_natCast_nonneg k
      have : 0 ≤ ((k : ℝ) + 1) * Real.log k := by positivity
      linarith
    linarith
  have e1 := App.sum (L := L) hf ks le_rfl (v := fun k => Flt.fin (k : ℚ)) (x := fun k => (k : ℝ)) (X := fun k => (k : ℝ))
    (m := 4) (by norm_num) (by norm_num) hn (fun k h => App.nat hf (hk k h)) hKB
  have e2 := App.sum (L := L) hf ks (by norm_num : (0:ℝ) ≤ 110) (v := fun k => Flt.neg (Verif.logFactorial k : Flt f64 L))
    (m := 114) (by norm_num) (by norm_num) hn (fun k h => (App.logFactorial hL (hk k h)).neg) (by linarith)
  have c1 := App.mul hf (App.ln_exact hf hL h0 hl) e1 (by norm_num) (by norm_num) (m := 10) (by norm_num) (by norm_num)
    (by linarith)
  have cA := App.mul hf (App.count hf hn) (App.pos h0 hl) le_rfl le_rfl (m := 4) (by norm_num) (by norm_num) (by linarith)
  have d2 := App.sub hf c1 cA (m := 12) (by norm_num) (by norm_num) (by norm_num) (by linarith)
  have d3 := App.add hf d2 e2 (m := 116) (by norm_num) (by norm_num) (by norm_num) (by linarith)
  have hstat : ks.map (fun k => (FloatOps.ofNat k : Flt f64 L)) = ks.map (fun k : ℕ => Flt.fin (k : ℚ)) :=
    List.map_congr_left fun k h => ofNat_flt hf (hk k h)
  have e : (IID.ofDist (⟨Flt.fin l⟩ : Poisson (Flt f64 L))).iidLogDensity ks =
      (Flt.add f64 (Flt.sub f64 (Flt.add f64 (.fin 0)
        (Flt.mul f64 (Flt.ln L (.fin l)) (FloatOps.sum (ks.map fun k : ℕ => Flt.fin (k : ℚ)) : Flt f64 L)))
        (Flt.mul f64 (f64.round (ks.length : ℚ)) (.fin l)))
        (FloatOps.sum (ks.map fun k => Flt.neg (Verif.logFactorial k : Flt f64 L)) : Flt f64 L) : Flt f64 L) := by
    rw [← hstat]
    unfold IID.iidLogDensity computeIidExpFamLogDensity IID.ofDist
    rw [if_neg (by simpa using hne)]
    have hs := sumStats_one (fun k => (FloatOps.ofNat k : Flt f64 L)) ks
    have hs' : sumSufficientStats (ArrayStat.dim (Poisson (Flt f64 L))) (ks.map fun k =>
        sufficientStatistic (⟨Flt.fin l⟩ : Poisson (Flt f64 L)) k) = _ := hs
    simp only [hs']
    rfl
  rw [e, (App.add_zero c1).2]
  obtain ⟨r, r1, r2, r3⟩ := App.result (L := L) d3
  refine ⟨r, r1, r2, r3.trans ?_⟩
  have hsize : |Real.log (l : ℝ)| * (ks.length * K) + 1 + (ks.length * l + 1) + ks.length * G
      ≤ ks.length * poissonSize l ks := by rw [hexp]; linarith
  have := mul_le_mul_of_nonneg_left hsize (by positivity : 0 ≤ 116 * f64.u)
  refine this.trans (le_of_eq (by ring))

/-! ### The hypotheses can be met -/

example (hf : f.Std) : ∃ L : Libm, L.Accurate f ∧
    ∃ r : ℚ, (IID.ofDist ({} : StdNormal (Flt f L))).iidLogDensity ([1, 2].map (Flt.fin (f := f) (L := L))) =
        Flt.fin (f := f) (L := L) r ∧
      |(r : ℝ) - (Real.log (gaussianPDFReal 0 1 1) + Real.log (gaussianPDFReal 0 1 2))| ≤ 290 * f.u * 7 := by
  obtain ⟨L, hL⟩ := exists_libm hf
  refine ⟨L, hL, ?_⟩
  have hs : ([1, 2].map fun x : ℚ => 1 + (x : ℝ) ^ 2).sum = 7 := by norm_num
  obtain ⟨r, h1, -, h2⟩ := C144_std_normal_joint_partial (L := L) hf hL [1, 2] (by simp)
    (by simp [hf.rep_one, hf.rep_two]) (two_obs hf) (by rw [hs]; norm_num)
  refine ⟨r, h1, ?_⟩
  rw [hs] at h2
  simpa using h2.trans (le_of_eq (by norm_num))

example : ∃ L : Libm, L.Accurate f64 ∧ ∃ d : Poisson (Flt f64 L), Poisson.new (Flt.fin 1) = .ok d ∧
    ∃ r : ℚ, (IID.ofDist d).iidLogDensity [0, 3] = Flt.fin (f := f64) (L := L) r ∧
      |(r : ℝ) - (Real.log (Real.exp (-1)) + Real.log (Real.exp (-1) / 6))| ≤ 232 * f64.u * 256 := by
  have hf : f64.Std := .inl rfl
  obtain ⟨L, hL⟩ := exists_libm hf
  refine ⟨L, hL, ⟨Flt.fin 1⟩, rfl, ?_⟩
  have hlog : Real.log 3 ≤ 2 := by
    have := Real.log_le_sub_one_of_pos (by norm_num : (0 : ℝ) < 3); linarith
  have hs : poissonSize ((1 : ℚ) : ℝ) [0, 3] ≤ 256 := by
    simp [poissonSize]; linarith
  obtain ⟨r, h1, -, h2⟩ := C144_poisson_joint_partial (L := L) hL hf.rep_one (d := ⟨Flt.fin 1⟩) rfl [0, 3] (by simp)
    (by simp) (two_obs hf) ((mul_le_mul_of_nonneg_left hs (by positivity)).trans (by norm_num))
  refine ⟨r, h1, ?_⟩
  have := u_pos f64
  have h3 := mul_le_mul_of_nonneg_left hs (by positivity : 0 ≤ 232 * f64.u)
  have h4 := h2.trans ((le_of_eq (by norm_num)).trans h3)
  simpa [Nat.factorial] using h4

end Verif
