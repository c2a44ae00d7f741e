import Verif.Props.DoubleExpFam5

/-!
# C144: what the joint exponential-family path computes for negative binomial samples in floating point

The natural parameter of the code belongs to the other parametrisation (C24): the joint value is an accurate value of
another number, for every probability up to one half.
-/

namespace Verif
open Format FloatOps ProbabilityTheory ExponentialFamily

variable {f : Format} {L : Libm}

/-- the exponential of computed log-odds that are not positive -/
theorem App.exp_nonpos (hf : f.Std) (hL : L.Accurate f) {v : FVal} {η : ℝ} (h : App f 19 v η (1 + |η|)) (h0 : η ≤ 0)
    (hB : |η| ≤ 1140) : App f 24 (Flt.exp L v) (Real.exp η) 1 := by
  obtain ⟨a, rfl, ha⟩ := h
  have hu := u_pos f
  have hul := hf.u_le
  have hη := hf.eta_le
  have he0 := Real.exp_pos η
  have he1 : Real.exp η ≤ 1 := Real.exp_le_one_iff.mpr h0
  have habs : |η| = -η := abs_of_nonpos h0
  have hδ : 19 * f.u * (1 + |η|) ≤ 1 / 100 := by
    have : 19 * f.u * (1 + |η|) ≤ 19 * (1 / 2 ^ 24) * (1 + 1140) := by gcongr
    exact this.trans (by norm_num)
  have herr := ha.err
  have hd : |(a : ℝ) - η| ≤ 1 := herr.trans (by linarith)
  -- `e^η (1 - η) ≤ 1`
  have hk : Real.exp η * (1 + |η|) ≤ 1 := by
    have h1 := Real.add_one_le_exp (-η)
    rw [habs]
    calc Real.exp η * (1 + -η) ≤ Real.exp η * Real.exp (-η) := by gcongr; linarith
      _ = 1 := by rw [← Real.exp_add]; simp
  have hdiff : |Real.exp a - Real.exp η| ≤ 20 * f.u := by
    have e : Real.exp a - Real.exp η = Real.exp η * (Real.exp (a - η) - 1) := by
      rw [mul_sub, ← Real.exp_add]; ring_nf
    have hb := Real.abs_exp_sub_one_sub_id_le hd
    have h2 : |Real.exp (a - η) - 1| ≤ |(a : ℝ) - η| + (a - η) ^ 2 := by
      have := abs_add_le (Real.exp (a - η) - 1 - (a - η)) (a - η)
      simp only [sub_add_cancel] at this
      linarith
    have h3 : ((a : ℝ) - η) ^ 2 ≤ 1 / 100 * |(a : ℝ) - η| := by
      rw [← sq_abs, pow_two]
      exact mul_le_mul_of_nonneg_right (herr.trans hδ) (abs_nonneg _)
    rw [e, abs_mul, abs_of_pos he0]
    calc Real.exp η * |Real.exp (a - η) - 1| ≤ Real.exp η * (101 / 100 * (19 * f.u * (1 + |η|))) := by
          gcongr; linarith
      _ = 101 / 100 * 19 * f.u * (Real.exp η * (1 + |η|)) := by ring
      _ ≤ 101 / 100 * 19 * f.u * 1 := by gcongr
      _ ≤ 20 * f.u := by linarith
  have hea : Real.exp a ≤ 1 + 20 * f.u := by have := (abs_le.mp hdiff).2; linarith
  have hu2 : 20 * f.u ≤ 1 / 100 := by norm_num at hul; linarith
  rcases hL.exp a ha.rep with ⟨r, h1, h2, h3⟩ | ⟨-, hb⟩
  · refine ⟨r, h1, h2, by rw [abs_of_pos he0]; exact he1, ?_⟩
    have h4 := abs_sub_le (r : ℝ) (Real.exp a) (Real.exp η)
    have h5 : 2 * f.u * Real.exp a ≤ 2 * f.u * (1 + 1 / 100) := by gcongr; linarith
    have h6 : f.u ^ 4 ≤ f.u := by
      have := pow_le_pow_of_le_one hu.le (by linarith : f.u ≤ 1) (by norm_num : 1 ≤ 4)
      simpa using this
    linarith
  · exfalso
    have h4 := two_pow_emax hf
    have h10 : (2 : ℝ) < 2 ^ 127 := by norm_num
    linarith

/-- the logarithm of one minus the sigmoid of the log-odds, for probabilities up to one half -/
theorem log_one_sub_sigmoid_app (hf : f.Std) (hL : L.Accurate f) {p : ℚ} (hp : f.Representable p) (h0 : 1 / 2 ^ 60 ≤ p)
    (h1 : p ≤ 1/2) :
    App f 819 (Flt.ln L (Flt.sub f (.fin 1) (Flt.div f
        (Flt.exp L (Flt.ln L (Flt.div f (.fin p) (Flt.sub f (.fin 1) (.fin p)))))
        (Flt.add f (.fin 1) (Flt.exp L (Flt.ln L (Flt.div f (.fin p) (Flt.sub f (.fin 1) (.fin p)))))))))
      (Real.log (1 - (p : ℝ))) (1 + |Real.log (1 - (p : ℝ))|) := by
  have hlt : p < 1 := by linarith
  have hpp : 0 < p := lt_of_lt_of_le (by norm_num) h0
  have hpR : (0 : ℝ) < p := by exact_mod_cast hpp
  have h1R : (p : ℝ) ≤ 1/2 := by
    have := (Rat.cast_le (K := ℝ)).mpr h1; push_cast at this; exact this
  have hq : 0 < 1 - (p : ℝ) := by linarith
  obtain ⟨g1, -, hB⟩ := log_odds_app hf hL hp h0 hlt
  have r0 : 0 < (p : ℝ) / (1 - p) := by positivity
  have r1 : (p : ℝ) / (1 - p) ≤ 1 := by rw [div_le_one hq]; linarith
  have tE := App.exp_nonpos hf hL g1 (Real.log_nonpos r0.le r1) hB
  rw [Real.exp_log r0] at tE
  have one := App.pos (f := f) one_pos hf.rep_one
  rw [Rat.cast_one] at one
  have tD := App.add hf one tE (m := 26) (by norm_num) (by norm_num) (by norm_num) (by norm_num)
  have eD : 1 + (p : ℝ) / (1 - p) = 1 / (1 - p) := by field_simp; ring
  rw [eD] at tD
  have hD1 : 1 ≤ 1 / (1 - (p : ℝ)) := by rw [le_div_iff₀ hq]; linarith
  have hD0 : 0 < 1 / (1 - (p : ℝ)) := by positivity
  have tD' := tD.rescale (X' := 1 / (1 - (p : ℝ))) (c := 2) (m := 52) (by norm_num) (by linarith)
    (by rw [abs_of_pos hD0]) (by norm_num) (by norm_num)
  have e2 : 1 / (1 / (1 - (p : ℝ))) = 1 - p := by rw [one_div_one_div]
  have tS := App.div_rel hf tE tD' hD0 (by norm_num) (by norm_num) (m := 134) (by norm_num) (by norm_num)
    (by rw [e2]; exact u_cube_le_tiny hf (by linarith [show (1 : ℝ) / 2 ^ 60 ≤ 1/2 by norm_num]))
    (by rw [e2]; linarith [show (1 : ℝ) ≤ 2 ^ 90 by norm_num])
  have e3 : (p : ℝ) / (1 - p) / (1 / (1 - p)) = p := by field_simp
  rw [e2, e3] at tS
  have tC := App.sub hf one tS (m := 136) (by norm_num) (by norm_num) (by norm_num)
    (by linarith [show (2 : ℝ) ≤ 2 ^ 90 by norm_num])
  have tC' := tC.rescale (X' := 1 - (p : ℝ)) (c := 3) (m := 408) (by norm_num) (by linarith)
    (by rw [abs_of_pos hq]) (by norm_num) (by norm_num)
  exact App.ln hf hL tC' hq (by norm_num) (by norm_num) (by norm_num)

/-- the size of the terms of the joint value of a negative binomial sample -/
noncomputable def negativeBinomialSize (p : ℝ) (s : ℕ) (ks : List ℕ) : ℝ :=
  (1 + |Real.log (p / (1 - p))|) * (ks.map fun k : ℕ => (k : ℝ)).sum + (s * (1 + |Real.log (1 - p)|) + 1)
    + (ks.map fun k => 3 + 2 * Real.log ((k + s - 1).factorial : ℝ)).sum + 2

theorem negative_binomial_coefficient_flt (hf : f.Std) {s k : ℕ} (hk : k + (s + 1) ≤ 2 ^ f.prec) :
    (logDensityWrtRoot (⟨s + 1⟩ : NegativeBinomialCoefficientMeasure (Flt f L)) k : Flt f L) =
      Flt.sub f (Flt.sub f (L.lnGamma (.fin ((k + s + 1 : ℕ) : ℚ))) (L.lnGamma (.fin ((k + 1 : ℕ) : ℚ))))
        (L.lnGamma (.fin ((s + 1 : ℕ) : ℚ))) := by
  have e2 : (logDensityWrtRoot (⟨s + 1⟩ : NegativeBinomialCoefficientMeasure (Flt f L)) k : Flt f L) =
      Flt.sub f (Flt.sub f (L.lnGamma (Flt.add f (FloatOps.ofNat k : Flt f L) (FloatOps.ofNat (s + 1) : Flt f L)))
        (L.lnGamma (Flt.add f (FloatOps.ofNat k : Flt f L) (.fin 1))))
        (L.lnGamma (FloatOps.ofNat (s + 1) : Flt f L)) := rfl
  have e3 : Flt.add f (.fin (k : ℚ)) (.fin 1) = .fin ((k + 1 : ℕ) : ℚ) := by
    have := add_nat hf (a := k) (b := 1) (by omega)
    rwa [Nat.cast_one] at this
  rw [e2, ofNat_flt hf (by omega : k ≤ _), ofNat_flt hf (by omega : s + 1 ≤ _)]
  unfold Flt.fin
  rw [add_nat hf (a := k) (b := s + 1) (by omega), e3]
  rfl

theorem sum_log_negative_binomial {p : ℝ} (h0 : 0 < p) (h1 : p < 1) (s : ℕ) (ks : List ℕ) :
    (ks.map fun k => Real.log ((k + s).choose k * p ^ (s + 1) * (1 - p) ^ k)
        + (((k : ℝ) - (s + 1 : ℕ)) * Real.log p + ((s + 1 : ℕ) - 2 * (k : ℝ)) * Real.log (1 - p))).sum =
      Real.log (p / (1 - p)) * (ks.map fun k : ℕ => (k : ℝ)).sum - ks.length * (-((s + 1 : ℕ) : ℝ) * Real.log (1 - p))
        + (ks.map fun k => Real.log ((k + s).factorial : ℝ) - Real.log (k.factorial : ℝ)
          - Real.log (s.factorial : ℝ)).sum := by
  induction ks with
  | nil => simp
  | cons k ks ih =>
    have hq : 0 < 1 - p := by linarith
    have hle : k ≤ k + s := by omega
    have hc : (0 : ℝ) < (k + s).choose k := by exact_mod_cast Nat.choose_pos hle
    have ec := log_choose hle
    rw [Nat.add_sub_cancel_left] at ec
    simp only [List.map_cons, List.sum_cons, ih, List.length_cons]
    rw [← ec, Real.log_mul (mul_pos hc (pow_pos h0 _)).ne' (pow_pos hq _).ne',
      Real.log_mul hc.ne' (pow_pos h0 _).ne', Real.log_pow, Real.log_pow, Real.log_div h0.ne' hq.ne']
    push_cast
    ring

/-- **C144** fails for the negative binomial distribution: for every probability from `2^-60` to one half and every sample
of counts the joint exponential-family value is within rounding of the joint log-mass plus, for each count `k`,
`(k - s) ln p + (s - 2 k) ln (1 - p)`. -/
theorem C144_negative_binomial_violated (hf : f.Std) (hL : L.Accurate f) (hG : L.GammaAccurate f) {p : ℚ}
    (hp : f.Representable p) (hp0 : 1 / 2 ^ 60 ≤ p) (hp1 : p ≤ 1/2) {s : ℕ} {d : NegativeBinomial (Flt f L)}
    (h : NegativeBinomial.new s (Flt.fin p) = .ok d) (ks : List ℕ) (hne : ks ≠ [])
    (hk : ∀ k ∈ ks, k + s ≤ 2 ^ f.prec) (hn : ks.length * f.u ≤ 1/1000)
    (hB : ks.length * negativeBinomialSize p s ks ≤ 2 ^ 90) :
    ∃ r : ℚ, (IID.ofDist d).iidLogDensity ks = Flt.fin (f := f) (L := L) r ∧ f.Representable r ∧
      |(r : ℝ) - (ks.map fun k => Real.log ((k + s - 1).choose k * (p : ℝ) ^ s * (1 - (p : ℝ)) ^ k)
          + (((k : ℝ) - s) * Real.log p + (s - 2 * (k : ℝ)) * Real.log (1 - (p : ℝ)))).sum| ≤
        831 * ks.length * f.u * negativeBinomialSize p s ks := by
  obtain ⟨hs, h0, h1, rfl⟩ := NegativeBinomial.new_flt h
  obtain ⟨s, rfl⟩ : ∃ t, s = t + 1 := ⟨s - 1, by omega⟩
  have h0' : (0 : ℝ) < p := by exact_mod_cast h0
  have h1' : (p : ℝ) < 1 := by exact_mod_cast h1
  obtain ⟨g1, -, -⟩ := log_odds_app hf hL hp hp0 h1
  have gl := log_one_sub_sigmoid_app hf hL hp hp0 hp1
  have hsb : s + 1 ≤ 2 ^ f.prec := by
    obtain ⟨k, ks', rfl⟩ := List.exists_cons_of_ne_nil hne
    have := hk k List.mem_cons_self
    omega
  have hn1 : (1 : ℝ) ≤ ks.length := by exact_mod_cast List.length_pos_of_ne_nil hne
  have a0 := abs_nonneg (Real.log ((p : ℝ) / (1 - p)))
  have a1 := abs_nonneg (Real.log (1 - (p : ℝ)))
  unfold negativeBinomialSize at hB ⊢
  simp only [show ∀ k : ℕ, k + (s + 1) - 1 = k + s from fun k => by omega] at hB ⊢
  have S0 : 0 ≤ (ks.map fun k : ℕ => (k : ℝ)).sum := List.sum_nonneg (by simp)
  have F0 : 0 ≤ (ks.map fun k => 3 + 2 * Real.log ((k + s).factorial : ℝ)).sum := by
    refine List.sum_nonneg fun x hx => ?_
    obtain ⟨k, -, rfl⟩ := List.mem_map.mp hx
    have := log_fact_nonneg (k + s)
    positivity
  have N0 : 0 ≤ ((s + 1 : ℕ) : ℝ) * (1 + |Real.log (1 - (p : ℝ))|) := by positivity
  have S1 : (ks.map fun k : ℕ => (k : ℝ)).sum ≤ (1 + |Real.log ((p : ℝ) / (1 - p))|) * (ks.map fun k : ℕ => (k : ℝ)).sum :=
    le_mul_of_one_le_left S0 (by linarith)
  have hS := (le_mul_of_one_le_left (by linarith) hn1).trans hB
  have gN := App.mul hf (App.nat hf hsb).neg gl le_rfl (by norm_num) (m := 823) (by norm_num) (by norm_num) (by linarith)
  have key := App.iid_one (L := L) hf ks (t := fun k => (.fin ((k : ℕ) : ℚ)))
    (b := fun k => Flt.sub f (Flt.sub f (L.lnGamma (.fin ((k + s + 1 : ℕ) : ℚ))) (L.lnGamma (.fin ((k + 1 : ℕ) : ℚ))))
        (L.lnGamma (.fin ((s + 1 : ℕ) : ℚ)))) hne g1 gN
    (fun k h => App.nat hf (by have := hk k h; omega))
    (fun k h => App.coef hf hG (a := k + s) (b := k) (c := s) (by have := hk k h; omega) le_rfl)
    (by norm_num) (by norm_num) le_rfl (by norm_num) (m := 831) (by norm_num) (by norm_num) (by norm_num) (by norm_num) hn
    (by linarith) (by linarith) hB
  rw [iid_one_eq (d := (⟨s + 1, Flt.fin p⟩ : NegativeBinomial (Flt f L)))
    (v1 := Flt.ln L (Flt.div f (.fin p) (Flt.sub f (.fin 1) (.fin p))))
    (vA := Flt.mul f (Flt.neg (FloatOps.ofNat (s + 1) : Flt f L)) (Flt.ln L (Flt.sub f (.fin 1) (Flt.div f
        (Flt.exp L (Flt.ln L (Flt.div f (.fin p) (Flt.sub f (.fin 1) (.fin p)))))
        (Flt.add f (.fin 1) (Flt.exp L (Flt.ln L (Flt.div f (.fin p) (Flt.sub f (.fin 1) (.fin p))))))))))
    (g := fun k => FloatOps.ofNat k) rfl rfl rfl ks hne]
  have hstat : ks.map (fun k => (FloatOps.ofNat k : Flt f L)) = ks.map (fun k : ℕ => Flt.fin (k : ℚ)) :=
    List.map_congr_left fun k h => ofNat_flt hf (by have := hk k h; omega)
  have hbase : ks.map (fun k => baseLogDensity (⟨s + 1, Flt.fin p⟩ : NegativeBinomial (Flt f L)) k) = ks.map (fun k =>
      (Flt.sub f (Flt.sub f (L.lnGamma (.fin ((k + s + 1 : ℕ) : ℚ))) (L.lnGamma (.fin ((k + 1 : ℕ) : ℚ))))
        (L.lnGamma (.fin ((s + 1 : ℕ) : ℚ))) : Flt f L)) :=
    List.map_congr_left fun k h => negative_binomial_coefficient_flt hf (hk k h)
  rw [hstat, hbase, ofNat_flt hf hsb, sum_log_negative_binomial h0' h1']
  obtain ⟨r, r1, r2, r3⟩ := App.result (L := L) key
  exact ⟨r, r1, r2, r3.trans (le_of_eq (by ring))⟩

/-- two counts of a negative binomial distribution with probability one half: the joint value exceeds the joint log-mass
by more than two -/
example (hf : f.Std) : ∃ L : Libm, L.Accurate f ∧ L.GammaAccurate f ∧ ∃ d : NegativeBinomial (Flt f L),
    NegativeBinomial.new 1 (Flt.fin (1/2)) = .ok d ∧
    ∃ r : ℚ, (IID.ofDist d).iidLogDensity [1, 2] = Flt.fin (f := f) (L := L) r ∧
      Real.log ((1 : ℕ).choose 1 * (1/2) ^ 1 * (1 - 1/2) ^ 1) + Real.log ((2 : ℕ).choose 2 * (1/2) ^ 1 * (1 - 1/2) ^ 2) + 2
        < (r : ℝ) := by
  obtain ⟨L, hL, hG⟩ := exists_libm_gamma hf
  have hd : NegativeBinomial.new 1 (Flt.fin (f := f) (L := L) (1/2)) = .ok ⟨1, Flt.fin (1/2)⟩ := by
    unfold NegativeBinomial.new
    exact (if_pos (by norm_num)).trans
      (if_pos (by show (decide ((0 : ℚ) < 1/2) && decide ((1/2 : ℚ) < 1)) = true; norm_num))
  refine ⟨L, hL, hG, _, hd, ?_⟩
  have l1 := Real.log_two_lt_d9
  have l2 := Real.log_two_gt_d9
  have hlog : |Real.log 2| ≤ 1 := by rw [abs_of_pos (by linarith)]; linarith
  have e1 : (1 : ℝ) - 2⁻¹ = 2⁻¹ := by norm_num
  have hsum : negativeBinomialSize ((1/2 : ℚ) : ℝ) 1 [1, 2] ≤ 20 := by
    simp [negativeBinomialSize, e1]; linarith
  have hprec : 4 ≤ 2 ^ f.prec := by rcases hf with rfl | rfl <;> decide
  obtain ⟨r, h1, -, h2⟩ := C144_negative_binomial_violated (L := L) hf hL hG hf.rep_half (by norm_num) (by norm_num) hd
    [1, 2] (by simp) (by intro k hk; simp only [List.mem_cons, List.not_mem_nil, or_false] at hk; omega) (two_obs hf)
    ((mul_le_mul_of_nonneg_left hsum (by positivity)).trans (by norm_num))
  refine ⟨r, h1, ?_⟩
  have hu := u_pos f
  have hul := hf.u_le
  have h3 := h2.trans (mul_le_mul_of_nonneg_left hsum (by positivity))
  simp [e1] at h3
  have h4 := (abs_le.mp h3).1
  norm_num at hul
  simp [e1]
  linarith

end Verif
