import Verif.Model.ViaF64Beta
import Verif.Props.Single
import Verif.Props.DoubleSingle2

/-!
# C121, C144: Beta in single precision

The log-partition of Beta is the only one that is computed in double precision as a whole and rounded at the end.
-/

namespace Verif
open Format FloatOps ProbabilityTheory ExponentialFamily

variable {L M : Libm}

/-- the size of the terms of the log-partition of Beta -/
noncomputable def betaPartitionSize (a b : ℝ) : ℝ :=
  3 + |Real.log (Real.Gamma a)| + |Real.log (Real.Gamma b)| + |Real.log (Real.Gamma (a + b))|
    + (a + b) * (1 + |Real.log (a + b)|)

/-- **C121** (log-partition of Beta): in single precision it is the logarithm of the Beta function of the parameters, up to
one rounding to single precision and the error of double precision. -/
theorem C121_beta_log_partition_partial (hG : M.GammaAccurate f64) {a b : ℚ} (ha : f32.Representable a) (hb : f32.Representable b)
    {d : Beta (Flt f32 L)} (h : Beta.new (Flt.fin a) (Flt.fin b) = .ok d) (hB : betaPartitionSize a b ≤ 2 ^ 85) :
    ∃ s : ℚ, d.logPartitionVia (Flt f64 M) = Flt.fin (f := f32) (L := L) s ∧ f32.Representable s ∧
      |(s : ℝ) - Real.log (Real.Gamma a * Real.Gamma b / Real.Gamma (a + b))| ≤
        f32.u * |Real.log (Real.Gamma a * Real.Gamma b / Real.Gamma (a + b))| +
          14 * f64.u * betaPartitionSize a b + 1 / 2 ^ 150 := by
  have hf : f64.Std := .inl rfl
  obtain ⟨ha0, hb0, rfl⟩ := Beta.new_flt h
  have haR : (0 : ℝ) < a := by exact_mod_cast ha0
  have hbR : (0 : ℝ) < b := by exact_mod_cast hb0
  have hs0 : 0 < (a : ℝ) + b := by positivity
  have ga := Real.Gamma_pos_of_pos haR
  have gb := Real.Gamma_pos_of_pos hbR
  have gs := Real.Gamma_pos_of_pos hs0
  have n1 : 0 ≤ ((a : ℝ) + b) * (1 + |Real.log ((a : ℝ) + b)|) := by positivity
  have n2 := abs_nonneg (Real.log (Real.Gamma ((a : ℝ) + b)))
  have n3 := abs_nonneg (Real.log (Real.Gamma a))
  have n4 := abs_nonneg (Real.log (Real.Gamma b))
  have hsB : (a : ℝ) + b ≤ ((a : ℝ) + b) * (1 + |Real.log ((a : ℝ) + b)|) := le_mul_of_one_le_right hs0.le (by
    have := abs_nonneg (Real.log ((a : ℝ) + b)); linarith)
  have p89 : (2 : ℝ) ^ 89 = 16 * 2 ^ 85 := by norm_num
  have p90 : (2 : ℝ) ^ 90 = 32 * 2 ^ 85 := by norm_num
  have p127 : (2 : ℝ) ^ 86 ≤ 2 ^ 127 := by norm_num
  have p86 : (2 : ℝ) ^ 86 = 2 * 2 ^ 85 := by norm_num
  have hB' := hB
  unfold betaPartitionSize at hB'
  have t0 := App.add_pos hf (rep_widen ha) (rep_widen hb) hs0.le (by linarith)
  have t1 := App.lnGamma hf hG t0 hs0 (m := 11) (by norm_num) (by norm_num) (by norm_num) (by linarith)
  have t2 := App.add hf (App.lnGamma_exact hf hG ha0 (rep_widen ha) (by linarith))
    (App.lnGamma_exact hf hG hb0 (rep_widen hb) (by linarith))
    (m := 10) (by norm_num) (by norm_num) (by norm_num) (by linarith)
  have t3 := App.sub hf t2 t1 (m := 13) (by norm_num) (by norm_num) (by norm_num) (by linarith)
  have elog : Real.log (Real.Gamma a * Real.Gamma b / Real.Gamma (a + b)) =
      Real.log (Real.Gamma a) + Real.log (Real.Gamma b) - Real.log (Real.Gamma (a + b)) := by
    rw [Real.log_div (mul_pos ga gb).ne' gs.ne', Real.log_mul ga.ne' gb.ne']
  rw [← elog, show 1 + |Real.log (Real.Gamma a)| + (1 + |Real.log (Real.Gamma b)|) +
      (1 + |Real.log (Real.Gamma ((a : ℝ) + b))| + ((a : ℝ) + b) * (1 + |Real.log ((a : ℝ) + b)|)) =
      betaPartitionSize a b by unfold betaPartitionSize; ring] at t3
  obtain ⟨r, hr, hnear⟩ := t3
  have hX0 := hnear.nonneg
  have hmag := hnear.mag
  have hE : 13 * f64.u * betaPartitionSize a b ≤ betaPartitionSize a b := by
    rw [u64]
    have : (13 : ℝ) * (1 / 2 ^ 53) ≤ 1 := by norm_num
    calc _ ≤ 1 * betaPartitionSize a b := mul_le_mul_of_nonneg_right this hX0
      _ = _ := one_mul _
  obtain ⟨s, hs, hrep, hse⟩ := narrow_near hnear.err (by linarith)
  refine ⟨s, ?_, hrep, hse.trans ?_⟩
  · have e : (⟨Flt.fin a, Flt.fin b⟩ : Beta (Flt f32 L)).logPartitionVia (Flt f64 M) =
        f32.convert (Flt.sub f64 (Flt.add f64 (M.lnGamma (f64.convert (.fin a))) (M.lnGamma (f64.convert (.fin b))))
          (M.lnGamma (Flt.add f64 (f64.convert (.fin a)) (f64.convert (.fin b))))) := rfl
    rw [e, widen_fin ha, widen_fin hb, hr]
    exact hs
  · have h3 : f32.u * (13 * f64.u * betaPartitionSize a b) ≤ f64.u * betaPartitionSize a b := by
      have : f32.u * 13 ≤ 1 := by rw [u32]; norm_num
      have h4 : 0 ≤ f64.u * betaPartitionSize a b := mul_nonneg (by rw [u64]; positivity) hX0
      calc _ = (f32.u * 13) * (f64.u * betaPartitionSize a b) := by ring
        _ ≤ 1 * (f64.u * betaPartitionSize a b) := mul_le_mul_of_nonneg_right this h4
        _ = _ := one_mul _
    linarith

/-- **C144** (Beta, single precision, with the log-partition as the code computes it). -/
theorem C144_beta_single_precision_partial (hL : L.Accurate f32) (hG : M.GammaAccurate f64) {a b : ℚ}
    (ha : f32.Representable a) (hb : f32.Representable b) {d : Beta (Flt f32 L)}
    (h : Beta.new (Flt.fin a) (Flt.fin b) = .ok d) (xs : List ℚ) (hne : xs ≠ [])
    (hx : ∀ x ∈ xs, f32.Representable x ∧ 0 < x ∧ x < 1) (hn : xs.length * f32.u ≤ 1/1000)
    (hB : xs.length * betaSize a b xs ≤ 2 ^ 80) :
    ∃ r : ℚ, (IID.ofDist (⟨d⟩ : BetaVia (Flt f32 L) (Flt f64 M))).iidLogDensity
        (xs.map (Flt.fin (f := f32) (L := L))) = Flt.fin (f := f32) (L := L) r ∧
      f32.Representable r ∧
      |(r : ℝ) - (xs.map fun x : ℚ => Real.log (betaPDFReal a b x)).sum| ≤ 114 * xs.length * f32.u * betaSize a b xs := by
  have hf : f32.Std := .inr rfl
  obtain ⟨ha0, hb0, hd⟩ := Beta.new_flt h
  have haR : (0 : ℝ) < a := by exact_mod_cast ha0
  have hbR : (0 : ℝ) < b := by exact_mod_cast hb0
  rw [sum_log_beta haR hbR xs fun x h => (hx x h).2]
  have hn1 : (1 : ℝ) ≤ xs.length := by exact_mod_cast List.length_pos_of_ne_nil hne
  have hu := u_pos f32
  have hs0 : 0 < (a : ℝ) + b := by positivity
  have n1 : 0 ≤ ((a : ℝ) + b) * (1 + |Real.log ((a : ℝ) + b)|) := by positivity
  have n2 := abs_nonneg (Real.log (Real.Gamma ((a : ℝ) + b)))
  have n3 := abs_nonneg (Real.log (Real.Gamma a))
  have n4 := abs_nonneg (Real.log (Real.Gamma b))
  have z5 : 0 ≤ (xs.map fun x : ℚ => |Real.log x|).sum := sum_nonneg_of fun _ _ => abs_nonneg _
  have z6 : 0 ≤ (xs.map fun x : ℚ => 1 + |Real.log (1 - x)|).sum := sum_nonneg_of fun _ _ => by positivity
  have n5 : 0 ≤ ((a : ℝ) + 1) * (xs.map fun x : ℚ => |Real.log x|).sum := by positivity
  have n6 : 0 ≤ ((b : ℝ) + 1) * (xs.map fun x : ℚ => 1 + |Real.log (1 - x)|).sum := by positivity
  have p90 : (2 : ℝ) ^ 90 = 1024 * 2 ^ 80 := by norm_num
  have p85 : (2 : ℝ) ^ 85 = 32 * 2 ^ 80 := by norm_num
  have p80 : (1 : ℝ) ≤ 2 ^ 80 := by norm_num
  have hsB : (a : ℝ) + b ≤ ((a : ℝ) + b) * (1 + |Real.log ((a : ℝ) + b)|) := le_mul_of_one_le_right hs0.le (by
    have := abs_nonneg (Real.log ((a : ℝ) + b)); linarith)
  have hG1 : betaSize a b xs ≤ 2 ^ 80 := by
    refine le_trans (le_mul_of_one_le_left ?_ hn1) hB
    unfold betaSize; linarith
  have hG0 := hG1
  unfold betaSize at hG0
  have hone : App f32 0 (.fin 1) 1 1 := ⟨1, rfl, Near.one hf⟩
  have hP : betaPartitionSize a b ≤ 2 ^ 85 := by unfold betaPartitionSize; linarith
  have elog : Real.log (Real.Gamma a * Real.Gamma b / Real.Gamma (a + b)) =
      Real.log (Real.Gamma a) + Real.log (Real.Gamma b) - Real.log (Real.Gamma (a + b)) := by
    have ga := Real.Gamma_pos_of_pos haR
    have gb := Real.Gamma_pos_of_pos hbR
    rw [Real.log_div (mul_pos ga gb).ne' (Real.Gamma_pos_of_pos hs0).ne', Real.log_mul ga.ne' gb.ne']
  have t3 : App f32 2 (d.logPartitionVia (Flt f64 M) : Flt f32 L) (Real.log (Real.Gamma a) + Real.log (Real.Gamma b)
      - Real.log (Real.Gamma (a + b))) (betaPartitionSize a b) := by
    obtain ⟨s, s1, s2, s3⟩ := C121_beta_log_partition_partial (L := L) hG ha hb h hP
    rw [elog] at s3
    have hm : |Real.log (Real.Gamma a) + Real.log (Real.Gamma b) - Real.log (Real.Gamma (a + b))| ≤
        betaPartitionSize a b := by
      unfold betaPartitionSize
      refine (abs_sub _ _).trans ?_
      have := abs_add_le (Real.log (Real.Gamma a)) (Real.log (Real.Gamma b))
      linarith
    have hX3 : 3 ≤ betaPartitionSize a b := by unfold betaPartitionSize; linarith
    refine ⟨s, s1, s2, hm, s3.trans ?_⟩
    rw [u32, u64]
    norm_num
    linarith
  have t4 := App.sub hf (App.pos ha0 ha) hone (m := 2) (by norm_num) (by norm_num) (by norm_num) (by linarith)
  have t5 := App.sub hf (App.pos hb0 hb) hone (m := 2) (by norm_num) (by norm_num) (by norm_num) (by linarith)
  have hL1 : ∀ i ∈ xs, App f32 2 (Flt.ln L (.fin i)) (Real.log i) |Real.log i| := fun i hi =>
    App.ln_exact hf hL (hx i hi).2.1 (hx i hi).1
  have hL2 : ∀ i ∈ xs, App f32 5 (Flt.ln L (Flt.sub f32 (.fin 1) (.fin i))) (Real.log (1 - i)) (1 + |Real.log (1 - i)|) :=
    fun i hi => App.ln_compl hf hL (hx i hi).1 (hx i hi).2.1.le (hx i hi).2.2
  have s1 : (xs.map fun x : ℚ => |Real.log x|).sum ≤ 2 ^ 90 := by
    have : (xs.map fun x : ℚ => |Real.log x|).sum ≤ ((a : ℝ) + 1) * (xs.map fun x : ℚ => |Real.log x|).sum :=
      le_mul_of_one_le_left z5 (by linarith)
    linarith
  have s2 : (xs.map fun x : ℚ => 1 + |Real.log (1 - x)|).sum ≤ 2 ^ 90 := by
    have : (xs.map fun x : ℚ => 1 + |Real.log (1 - x)|).sum ≤
        ((b : ℝ) + 1) * (xs.map fun x : ℚ => 1 + |Real.log (1 - x)|).sum := le_mul_of_one_le_left z6 (by linarith)
    linarith
  have hsize : xs.length * (((a : ℝ) + 1) * (xs.map fun x : ℚ => |Real.log x|).sum
      + ((b : ℝ) + 1) * (xs.map fun x : ℚ => 1 + |Real.log (1 - x)|).sum + betaPartitionSize a b + 3)
      ≤ xs.length * (6 * betaSize a b xs) := by
    refine mul_le_mul_of_nonneg_left ?_ (by linarith)
    unfold betaSize betaPartitionSize
    linarith
  have key := App.iid_two (L := L) hf xs (t1 := fun i => Flt.ln L (.fin i))
    (t2 := fun i => Flt.ln L (Flt.sub f32 (.fin 1) (.fin i))) hne t4 t5 t3 hL1 hL2
    (by norm_num) (by norm_num) (by norm_num) (by norm_num) (by norm_num) (m := 19) (by norm_num) (by norm_num)
    (by norm_num) (by norm_num) hn s1 s2 (hsize.trans (by linarith))
  subst hd
  rw [iid_two_eq (d := (⟨⟨Flt.fin a, Flt.fin b⟩⟩ : BetaVia (Flt f32 L) (Flt f64 M))) rfl rfl rfl (fun _ => rfl) _
    (by simpa using hne)]
  simp only [List.map_map, List.length_map]
  obtain ⟨r, r1, r2, r3⟩ := App.result (L := L) key
  refine ⟨r, r1, r2, r3.trans ?_⟩
  have := mul_le_mul_of_nonneg_left hsize (by positivity : 0 ≤ 19 * f32.u)
  refine this.trans (le_of_eq (by ring))

/-! ### The hypotheses can be met -/

example : ∃ L M : Libm, L.Accurate f32 ∧ M.GammaAccurate f64 ∧ ∃ d : Beta (Flt f32 L),
    Beta.new (Flt.fin 1) (Flt.fin 1) = .ok d ∧
    (∃ s : ℚ, d.logPartitionVia (Flt f64 M) = Flt.fin (f := f32) (L := L) s ∧ |(s : ℝ)| ≤ 1 / 2 ^ 40) ∧
    ∃ r : ℚ, (IID.ofDist (⟨d⟩ : BetaVia (Flt f32 L) (Flt f64 M))).iidLogDensity [Flt.fin (1/2)] =
      Flt.fin (f := f32) (L := L) r := by
  obtain ⟨L, hL⟩ := exists_libm (f := f32) (.inr rfl)
  obtain ⟨M, -, hG⟩ := exists_libm_gamma (f := f64) (.inl rfl)
  have h1 : f32.Representable 1 := Format.Std.rep_one (.inr rfl)
  have hlog : |Real.log 2| ≤ 1 := by
    rw [abs_of_pos (Real.log_pos (by norm_num))]; have := Real.log_two_lt_d9; linarith
  have e1 : (1 : ℝ) - 2⁻¹ = 2⁻¹ := by norm_num
  have e2 : (1 : ℝ) + 1 = 2 := by norm_num
  refine ⟨L, M, hL, hG, ⟨Flt.fin 1, Flt.fin 1⟩, rfl, ?_, ?_⟩
  · have hs : betaPartitionSize ((1 : ℚ) : ℝ) ((1 : ℚ) : ℝ) ≤ 8 := by
      simp [betaPartitionSize, e2]; linarith
    obtain ⟨s, s1, -, s2⟩ := C121_beta_log_partition_partial (L := L) hG h1 h1 (d := ⟨Flt.fin 1, Flt.fin 1⟩) rfl
      (hs.trans (by norm_num))
    refine ⟨s, s1, ?_⟩
    have h3 : 14 * f64.u * betaPartitionSize ((1 : ℚ) : ℝ) ((1 : ℚ) : ℝ) ≤ 14 * f64.u * 8 :=
      mul_le_mul_of_nonneg_left hs (by rw [u64]; positivity)
    rw [u64] at h3
    simp [e2] at s2
    rw [u64] at s2
    norm_num at h3 s2 ⊢
    linarith
  · obtain ⟨r, r1, -⟩ := C144_beta_single_precision_partial (L := L) hL hG h1 h1 (d := ⟨Flt.fin 1, Flt.fin 1⟩) rfl [1/2]
      (by simp) (by
        intro x hx
        obtain rfl := List.mem_singleton.1 hx
        exact ⟨Format.Std.rep_half (.inr rfl), by norm_num, by norm_num⟩) (one_obs (.inr rfl))
      (by simp [betaSize, e1, e2]; linarith)
    exact ⟨r, by simpa using r1⟩

end Verif
