import Verif.Props.Double
import Verif.Model.Combinators
import Verif.Lemmas.NearOps
import Verif.Lemmas.FltSum

/-!
# C92: building mixtures in floating point
-/

namespace Verif
open Format FloatOps

variable {f : Format} {L : Libm} {M : Type}

/-- the tolerance of the constructor -/
theorem round_tol (hf : f.Std) : ∃ t : ℚ, f.round (1 / 10 ^ 10) = .fin t ∧
    (9/10) / 10 ^ 10 ≤ (t : ℝ) ∧ (t : ℝ) ≤ (1001/1000) / 10 ^ 10 := by
  obtain ⟨t, ht⟩ := round_small hf (q := 1 / 10 ^ 10) (by norm_num [abs_of_pos])
  have hn := (Near.lit hf (q := 1 / 10 ^ 10) (by
    refine u_cube_le_tiny hf ?_
    push_cast
    rw [abs_of_pos (by positivity)]
    norm_num) ht).err
  have hul := hf.u_le
  push_cast at hn
  rw [abs_of_pos (a := (1 : ℝ) / 10 ^ 10) (by positivity)] at hn
  have h := abs_le.mp hn
  refine ⟨t, ht, ?_, ?_⟩ <;> norm_num at h hul ⊢ <;> linarith

/-- the constructor on finite weights -/
theorem mixture_new_flt (hf : f.Std) (cs : List M) (ws : List (Flt f L)) :
    MixtureMeasure.new cs ws =
      if cs.length ≠ ws.length then .error ⟨"Components and weights must have same length"⟩
      else if Flt.lt (Flt.abs (Flt.sub f (ws.foldl (Flt.add f) (.fin 0)) (.fin 1))) (f.round (1 / 10 ^ 10))
      then .ok ⟨cs, ws⟩ else .error ⟨"Weights must sum to 1"⟩ := rfl

/-- a weight sum close to one is accepted -/
theorem mixture_accepts (hf : f.Std) {cs : List M} {ws : List (Flt f L)} {s : ℚ}
    (hl : cs.length = ws.length) (hs : ws.foldl (Flt.add f) (.fin 0) = .fin s)
    (h : |(s : ℝ) - 1| ≤ 1 / 2 ^ 34) : MixtureMeasure.new cs ws = .ok ⟨cs, ws⟩ := by
  obtain ⟨t, ht, ht1, -⟩ := round_tol hf
  have h34 : |s - 1| ≤ 2 ^ (-34 : ℤ) := by
    refine rat_le ?_
    push_cast
    refine h.trans (by norm_num)
  obtain ⟨r, hr, hr2⟩ := f.round_le (prec1 hf) h34 (by have := hf.emin_le; omega)
    (by have := hf.emax_ge; omega)
  have hlt : |r| < t := by
    have : ((2 ^ (-34 : ℤ) : ℚ) : ℝ) < t := by
      rw [cast_zpow]; refine lt_of_lt_of_le ?_ ht1; norm_num
    exact lt_of_le_of_lt hr2 (by exact_mod_cast this)
  rw [mixture_new_flt hf, if_neg (not_not.mpr hl), hs, ht, sub_fin, hr, if_pos]
  simp only [Flt.abs, Flt.lt, decide_eq_true_eq]
  exact hlt

/-- a weight sum that is not within the tolerance is rejected -/
theorem mixture_rejects (hf : f.Std) {cs : List M} {ws : List (Flt f L)} {s d : ℚ}
    (hs : ws.foldl (Flt.add f) (.fin 0) = .fin s) (hd : f.round (s - 1) = .fin d)
    (h : 1 / 2 ^ 33 ≤ |(d : ℝ)|) : ∃ e, MixtureMeasure.new cs ws = .error e := by
  obtain ⟨t, ht, -, ht2⟩ := round_tol hf
  rw [mixture_new_flt hf]
  split_ifs with h1 h2
  · exact ⟨_, rfl⟩
  · exfalso
    rw [hs, ht, sub_fin, hd] at h2
    simp only [Flt.abs, Flt.lt, decide_eq_true_eq] at h2
    have h3 : |(d : ℝ)| < t := by exact_mod_cast h2
    norm_num at h ht2
    linarith
  · exact ⟨_, rfl⟩

/-- equal weights in double precision -/
theorem uniform_weights (n : ℕ) (hn1 : 1 ≤ n) (hn : n ≤ 2 ^ 16) :
    ∃ w s : ℚ, (one /. FloatOps.ofNat n : Flt f64 L) = Flt.fin w ∧ f64.Representable w ∧
      |(w : ℝ) - 1 / n| ≤ 2 * f64.u / n ∧
      (List.replicate n (FVal.fin w)).foldl (Flt.add f64) (.fin 0) = .fin s ∧
      |(s : ℝ) - 1| ≤ 1 / 2 ^ 34 := by
  have hf : f64.Std := .inl rfl
  have hn1' : (1 : ℝ) ≤ n := by exact_mod_cast hn1
  have hn2 : (n : ℝ) ≤ 65536 := by exact_mod_cast hn
  have hrep : f64.Representable n := by
    have := hf.rep_of n 0 (by
      rw [abs_of_nonneg (by positivity)]
      calc (n : ℤ) ≤ 2 ^ 16 := by exact_mod_cast hn
        _ < 2 ^ 24 := by norm_num) (by norm_num) (by norm_num)
    simpa using this
  have hq : |(1 / (n : ℚ) : ℚ)| ≤ 2 ^ (100 : ℤ) := by
    refine rat_le ?_
    push_cast
    rw [abs_of_nonneg (by positivity)]
    have : (1 : ℝ) / n ≤ 1 := by rw [div_le_one (by linarith)]; exact hn1'
    exact this.trans (by norm_num)
  obtain ⟨w, hw⟩ := round_small hf hq
  have hwn := Near.lit hf (by
    push_cast
    rw [abs_of_nonneg (by positivity)]
    refine u_cube_le_tiny hf ?_
    have h1 : (1 : ℝ) / 65536 ≤ 1 / (n : ℝ) := one_div_le_one_div_of_le (by linarith) hn2
    refine le_trans ?_ h1
    norm_num) hw
  have hu : f64.u = 1 / 2 ^ 53 := rfl
  have hwe : |(w : ℝ) - 1 / n| ≤ 2 * f64.u / n := by
    have := hwn.err
    push_cast at this
    rw [abs_of_nonneg (a := (1 : ℝ) / n) (by positivity)] at this
    rw [mul_one_div] at this
    exact this
  have h1 : (one /. FloatOps.ofNat n : Flt f64 L) = Flt.fin w := by
    show Flt.div f64 (.fin 1) (f64.round n) = .fin w
    rw [f64.round_exact hrep]
    simp only [Flt.div]
    rw [if_neg (by positivity), hw]
  have hfold : ∃ s : ℚ, (List.replicate n (FVal.fin w)).foldl (Flt.add f64) (.fin 0) = .fin s ∧
      |(s : ℝ) - n * w| ≤ f64.grow n * (n * |(w : ℝ)|) := by
    have hx : ∀ x ∈ List.replicate n w, f64.Representable x := by
      intro x hx; rw [List.eq_of_mem_replicate hx]; exact hwn.rep
    have hg : f64.grow n ≤ 1 := by
      have := grow_le (f := f64) (n := n) (by rw [hu]; norm_num; linarith)
      rw [hu] at this; norm_num at this ⊢; linarith
    have hsum : (List.replicate n w).map (fun x : ℚ => |(x : ℝ)|) = List.replicate n |(w : ℝ)| := by simp
    have hsum' : (List.replicate n w).map (fun x : ℚ => (x : ℝ)) = List.replicate n (w : ℝ) := by simp
    have hwsz := hwn.size hf (by norm_num)
    push_cast at hwsz
    rw [abs_of_nonneg (a := (1 : ℝ) / n) (by positivity)] at hwsz
    obtain ⟨s, hs⟩ := foldl_add_fin hf (List.replicate n w) hx (rep_zero f64) (S := 0) (T := 0)
      (k := 0) (by simp) (by simp) (by simpa using hg) (by
        rw [hsum, List.sum_replicate, nsmul_eq_mul, zero_add]
        calc (n : ℝ) * |(w : ℝ)| ≤ n * (2 * (1 / n)) := by gcongr
          _ = 2 := by field_simp
          _ = 2 ^ (1 : ℤ) := by norm_num
          _ ≤ 2 ^ (f64.emax - 3) := zpow_le_zpow_right₀ (by norm_num) (by decide))
    have := (foldl_add_err hf (List.replicate n w) hx (rep_zero f64) (S := 0) (T := 0)
      (k := 0) (by simp) (by simp) hs).2
    rw [hsum, hsum', List.sum_replicate, List.sum_replicate, nsmul_eq_mul, nsmul_eq_mul, zero_add,
      zero_add, zero_add, List.length_replicate] at this
    rw [List.map_replicate] at hs
    exact ⟨s, hs, this⟩
  obtain ⟨s, hs, hse⟩ := hfold
  have hg2 := grow_le (f := f64) (n := n) (by rw [hu]; norm_num; linarith)
  refine ⟨w, s, h1, hwn.rep, hwe, hs, ?_⟩
  have hnw : |(n : ℝ) * w - 1| ≤ 2 * f64.u := by
    have e : (n : ℝ) * w - 1 = n * (w - 1 / n) := by field_simp
    rw [e, abs_mul, abs_of_nonneg (a := (n : ℝ)) (by linarith)]
    calc (n : ℝ) * |(w : ℝ) - 1 / n| ≤ n * (2 * f64.u / n) := by gcongr
      _ = 2 * f64.u := by field_simp
  have hnw2 : (n : ℝ) * |(w : ℝ)| ≤ 2 := by
    have : |(n : ℝ) * w| ≤ 1 + 2 * f64.u := by
      have := abs_sub_abs_le_abs_sub ((n : ℝ) * w) 1
      rw [abs_one] at this; linarith
    rw [abs_mul, abs_of_nonneg (a := (n : ℝ)) (by linarith)] at this
    rw [hu] at this; norm_num at this ⊢; linarith
  have h1 : f64.grow n * (n * |(w : ℝ)|) ≤ (2 * 65536 * f64.u) * 2 :=
    mul_le_mul (hg2.trans (by gcongr; exact (u_pos f64).le)) hnw2 (by positivity) (by have := u_pos f64; positivity)
  have h2 := abs_sub_le (s : ℝ) (n * w) 1
  rw [hu] at h1 hnw
  norm_num at h1 hnw ⊢
  linarith

/-- **C92**: `uniform` accepts every non-empty list of at most 65536 components in double precision,
and the weights are the reciprocal of their number, correctly rounded up to `2u`. -/
theorem C92_uniform_partial (cs : List M) (hne : cs ≠ []) (hn : cs.length ≤ 2 ^ 16) :
    ∃ m : MixtureMeasure M (Flt f64 L), MixtureMeasure.uniform cs = .ok m ∧ m.components = cs ∧
      m.weights.length = cs.length ∧
      ∀ w ∈ m.weights, ∃ q : ℚ, w = Flt.fin q ∧ f64.Representable q ∧
        |(q : ℝ) - 1 / cs.length| ≤ 2 * f64.u / cs.length := by
  have hf : f64.Std := .inl rfl
  obtain ⟨w, s, h1, hrep, hwe, hs, hs1⟩ :=
    uniform_weights (L := L) cs.length (List.length_pos_of_ne_nil hne) hn
  refine ⟨⟨cs, List.replicate cs.length (Flt.fin w)⟩, ?_, rfl, by simp, ?_⟩
  · have hunf : MixtureMeasure.uniform cs =
        (MixtureMeasure.new cs (List.replicate cs.length (Flt.fin w)) :
          Except Panic (MixtureMeasure M (Flt f64 L))) := by
      unfold MixtureMeasure.uniform
      simp only [h1]
    rw [hunf]
    exact mixture_accepts hf (by simp) hs hs1
  · intro x hx
    exact ⟨w, List.eq_of_mem_replicate hx, hrep, hwe⟩

example : (["a", "b", "c"] : List String) ≠ [] ∧ ["a", "b", "c"].length ≤ 2 ^ 16 := by decide

private theorem r32_tenth : f32.round (1/10) = .fin (13421773/134217728) := by
  have := f32.round_eval (q := 1/10) (-4) 13421773 (by norm_num [abs_of_pos]) (by norm_num [abs_of_pos]) (by norm_num [f32])
    (by norm_num [f32, abs_le]) (.inl (by norm_num [f32, abs_lt])) (by norm_num [f32, abs_lt])
  rw [this]; norm_num [f32]

private theorem r32_sum2 : f32.round (13421773/67108864) = .fin (13421773/67108864) := by
  have := f32.round_eval (q := 13421773/67108864) (-3) 13421773 (by norm_num [abs_of_pos]) (by norm_num [abs_of_pos]) (by norm_num [f32])
    (by norm_num [f32, abs_le]) (.inl (by norm_num [f32, abs_lt])) (by norm_num [f32, abs_lt])
  rw [this]; norm_num [f32]

private theorem r32_sum3 : f32.round (40265319/134217728) = .fin (5033165/16777216) := by
  have := f32.round_eval (q := 40265319/134217728) (-2) 10066330 (by norm_num [abs_of_pos]) (by norm_num [abs_of_pos]) (by norm_num [f32])
    (by norm_num [f32, abs_le]) (.inl (by norm_num [f32, abs_lt])) (by norm_num [f32, abs_lt])
  rw [this]; norm_num [f32]

private theorem r32_sum4 : f32.round (53687093/134217728) = .fin (13421773/33554432) := by
  have := f32.round_eval (q := 53687093/134217728) (-2) 13421773 (by norm_num [abs_of_pos]) (by norm_num [abs_of_pos]) (by norm_num [f32])
    (by norm_num [f32, abs_le]) (.inl (by norm_num [f32, abs_lt])) (by norm_num [f32, abs_lt])
  rw [this]; norm_num [f32]

private theorem r32_sum5 : f32.round (67108865/134217728) = .fin (1/2) := by
  have := f32.round_eval (q := 67108865/134217728) (-1) 8388608 (by norm_num [abs_of_pos]) (by norm_num [abs_of_pos]) (by norm_num [f32])
    (by norm_num [f32, abs_le]) (.inl (by norm_num [f32, abs_lt])) (by norm_num [f32, abs_lt])
  rw [this]; norm_num [f32]

private theorem r32_sum6 : f32.round (80530637/134217728) = .fin (5033165/8388608) := by
  have := f32.round_eval (q := 80530637/134217728) (-1) 10066330 (by norm_num [abs_of_pos]) (by norm_num [abs_of_pos]) (by norm_num [f32])
    (by norm_num [f32, abs_le]) (.inl (by norm_num [f32, abs_lt])) (by norm_num [f32, abs_lt])
  rw [this]; norm_num [f32]

private theorem r32_sum7 : f32.round (93952413/134217728) = .fin (2936013/4194304) := by
  have := f32.round_eval (q := 93952413/134217728) (-1) 11744052 (by norm_num [abs_of_pos]) (by norm_num [abs_of_pos]) (by norm_num [f32])
    (by norm_num [f32, abs_le]) (.inl (by norm_num [f32, abs_lt])) (by norm_num [f32, abs_lt])
  rw [this]; norm_num [f32]

private theorem r32_sum8 : f32.round (107374189/134217728) = .fin (6710887/8388608) := by
  have := f32.round_eval (q := 107374189/134217728) (-1) 13421774 (by norm_num [abs_of_pos]) (by norm_num [abs_of_pos]) (by norm_num [f32])
    (by norm_num [f32, abs_le]) (.inl (by norm_num [f32, abs_lt])) (by norm_num [f32, abs_lt])
  rw [this]; norm_num [f32]

private theorem r32_sum9 : f32.round (120795965/134217728) = .fin (1887437/2097152) := by
  have := f32.round_eval (q := 120795965/134217728) (-1) 15099496 (by norm_num [abs_of_pos]) (by norm_num [abs_of_pos]) (by norm_num [f32])
    (by norm_num [f32, abs_le]) (.inl (by norm_num [f32, abs_lt])) (by norm_num [f32, abs_lt])
  rw [this]; norm_num [f32]

private theorem r32_sum10 : f32.round (134217741/134217728) = .fin (8388609/8388608) := by
  have := f32.round_eval (q := 134217741/134217728) (0) 8388609 (by norm_num [abs_of_pos]) (by norm_num [abs_of_pos]) (by norm_num [f32])
    (by norm_num [f32, abs_le]) (.inl (by norm_num [f32, abs_lt])) (by norm_num [f32, abs_lt])
  rw [this]; norm_num [f32]

private theorem r32_fifth : f32.round (1/5) = .fin (13421773/67108864) := by
  have := f32.round_eval (q := 1/5) (-3) 13421773 (by norm_num [abs_of_pos]) (by norm_num [abs_of_pos]) (by norm_num [f32])
    (by norm_num [f32, abs_le]) (.inl (by norm_num [f32, abs_lt])) (by norm_num [f32, abs_lt])
  rw [this]; norm_num [f32]

private theorem r32_total : f32.round (40265319/134217728) = .fin (5033165/16777216) := by
  have := f32.round_eval (q := 40265319/134217728) (-2) 10066330 (by norm_num [abs_of_pos]) (by norm_num [abs_of_pos]) (by norm_num [f32])
    (by norm_num [f32, abs_le]) (.inl (by norm_num [f32, abs_lt])) (by norm_num [f32, abs_lt])
  rw [this]; norm_num [f32]

private theorem r32_p : f32.round (13421773/40265320) = .fin (5592405/16777216) := by
  have := f32.round_eval (q := 13421773/40265320) (-2) 11184810 (by norm_num [abs_of_pos]) (by norm_num [abs_of_pos]) (by norm_num [f32])
    (by norm_num [f32, abs_le]) (.inl (by norm_num [f32, abs_lt])) (by norm_num [f32, abs_lt])
  rw [this]; norm_num [f32]

private theorem r32_q : f32.round (13421773/20132660) = .fin (5592405/8388608) := by
  have := f32.round_eval (q := 13421773/20132660) (-1) 11184810 (by norm_num [abs_of_pos]) (by norm_num [abs_of_pos]) (by norm_num [f32])
    (by norm_num [f32, abs_le]) (.inl (by norm_num [f32, abs_lt])) (by norm_num [f32, abs_lt])
  rw [this]; norm_num [f32]

private theorem r32_pq : f32.round (16777215/16777216) = .fin (16777215/16777216) := by
  have := f32.round_eval (q := 16777215/16777216) (-1) 16777215 (by norm_num [abs_of_pos]) (by norm_num [abs_of_pos]) (by norm_num [f32])
    (by norm_num [f32, abs_le]) (.inl (by norm_num [f32, abs_lt])) (by norm_num [f32, abs_lt])
  rw [this]; norm_num [f32]

/-- a tenth in single precision -/
theorem r32_div10 : (one /. FloatOps.ofNat 10 : Flt f32 L) = Flt.fin (13421773/134217728) := by
  have hf : f32.Std := .inr rfl
  have hrep : f32.round (10 : ℚ) = .fin 10 := f32.round_exact (by
    have := hf.rep_of 10 0 (by norm_num) (by norm_num) (by norm_num); simpa using this)
  show Flt.div f32 (.fin 1) (f32.round ((10 : ℕ) : ℚ)) = _
  rw [show ((10 : ℕ) : ℚ) = 10 by norm_num, hrep]
  simp only [Flt.div]
  rw [if_neg (by norm_num), r32_tenth]

/-- ten tenths in single precision -/
theorem r32_fold : (List.replicate 10 (FVal.fin (13421773/134217728))).foldl (Flt.add f32) (.fin 0) =
    .fin (8388609/8388608) := by
  have hf : f32.Std := .inr rfl
  have hw : f32.round (13421773/134217728) = .fin (13421773/134217728) := f32.round_exact (by
    have := hf.rep_of 13421773 (-27) (by norm_num) (by norm_num) (by norm_num)
    norm_num at this ⊢; exact this)
  simp only [List.replicate_succ, List.replicate_zero, List.foldl_cons, List.foldl_nil, Flt.add, zero_add, hw]
  norm_num1
  rw [r32_sum2]
  simp only []
  norm_num1
  rw [r32_sum3]
  simp only []
  norm_num1
  rw [r32_sum4]
  simp only []
  norm_num1
  rw [r32_sum5]
  simp only []
  norm_num1
  rw [r32_sum6]
  simp only []
  norm_num1
  rw [r32_sum7]
  simp only []
  norm_num1
  rw [r32_sum8]
  simp only []
  norm_num1
  rw [r32_sum9]
  simp only []
  norm_num1
  rw [r32_sum10]

theorem r32_minus_one : f32.round (8388609/8388608 - 1) = .fin (1/8388608) := by
  have hf : f32.Std := .inr rfl
  rw [show (8388609/8388608 - 1 : ℚ) = 1/8388608 by norm_num]
  refine f32.round_exact ?_
  have := hf.rep_of 1 (-23) (by norm_num) (by norm_num) (by norm_num)
  norm_num at this ⊢; exact this

/-- **C92 violated**: in single precision `uniform` panics on every list of ten components. -/
theorem C92_uniform_violated (cs : List M) (h : cs.length = 10) :
    ∃ e, (MixtureMeasure.uniform cs : Except Panic (MixtureMeasure M (Flt f32 L))) = .error e := by
  unfold MixtureMeasure.uniform
  simp only [h, r32_div10]
  exact mixture_rejects (.inr rfl) (s := 8388609/8388608) r32_fold r32_minus_one (by norm_num [abs_of_pos])

/-- normalising one weight -/
theorem normalised (hf : f.Std) {w T : ℚ} {t : ℚ} (hw0 : 0 ≤ w) (hT : 0 < T) (hwT : w ≤ T)
    (ht : |(t : ℝ) - T| ≤ f.u * T) :
    ∃ p : ℚ, Flt.div f (.fin w) (.fin t) = .fin p ∧ f.Representable p ∧ |(p : ℝ) - w / T| ≤ 3 * f.u := by
  have hu := u_pos f
  have hul := hf.u_le
  have hTR : (0 : ℝ) < T := by exact_mod_cast hT
  have hwR : (0 : ℝ) ≤ w := by exact_mod_cast hw0
  have hwTR : (w : ℝ) ≤ T := by exact_mod_cast hwT
  have h1 := abs_le.mp ht
  have hul' : f.u ≤ 1/1000 := hul.trans (by norm_num)
  have htl : (999/1000) * (T : ℝ) ≤ t := by nlinarith
  have ht0 : (0 : ℝ) < t := by nlinarith
  have ht0' : t ≠ 0 := by
    rintro rfl; simp at ht0
  have hdiff : |(w : ℝ) / t - w / T| ≤ (1002/1000) * f.u := by
    have e : (w : ℝ) / t - w / T = (w / T) * ((T - t) / t) := by field_simp
    have h2 : |(T - t : ℝ) / t| ≤ (1002/1000) * f.u := by
      rw [abs_div, abs_of_pos ht0, div_le_iff₀ ht0, abs_sub_comm]
      nlinarith
    have h3 : |(w : ℝ) / T| ≤ 1 := by
      rw [abs_of_nonneg (by positivity), div_le_one hTR]; exact hwTR
    rw [e, abs_mul]
    calc _ ≤ 1 * ((1002/1000) * f.u) := mul_le_mul h3 h2 (abs_nonneg _) (by norm_num)
      _ = _ := one_mul _
  have hsz : |(w : ℝ) / t| ≤ 1002/1000 := by
    rw [abs_of_nonneg (by positivity), div_le_iff₀ ht0]; nlinarith
  obtain ⟨p, hp⟩ := round_small hf (q := w / t) (rat_le (by push_cast; exact hsz.trans (by norm_num)))
  obtain ⟨hpr, hpe⟩ := near_round hf hp
  push_cast at hpe
  refine ⟨p, by simp only [Flt.div, if_neg ht0', hp], hpr, ?_⟩
  have h4 := hf.eta_le
  have h5 : f.u ^ 4 ≤ f.u / 1000 := by
    have : f.u ^ 4 = f.u * f.u ^ 3 := by ring
    have h6 : f.u ^ 3 ≤ 1/1000 := by
      have := pow_le_pow_left₀ hu.le hul' 3
      norm_num at this ⊢; linarith
    rw [this]; nlinarith
  have h7 := abs_sub_le (p : ℝ) (w / t) (w / T)
  have h8 : f.u * |(w : ℝ) / t| ≤ f.u * (1002/1000) := by gcongr
  linarith

/-- **C92**: in double precision `mixture` accepts every two non-negative weights that are not both
zero and whose sum is in the lower half of the range, and stores the normalised weights to within
`3u`. -/
theorem C92_mixture_partial (a b : M) {w₁ w₂ : ℚ} (h₁ : f64.Representable w₁) (h₂ : f64.Representable w₂)
    (hw₁ : 0 ≤ w₁) (hw₂ : 0 ≤ w₂) (hpos : 0 < w₁ + w₂) (hmax : w₁ + w₂ ≤ 2 ^ (1023 : ℤ)) :
    ∃ p q : ℚ, (MixtureMeasure.mixture a b (Flt.fin w₁) (Flt.fin w₂) :
        Except Panic (MixtureMeasure M (Flt f64 L))) = .ok ⟨[a, b], [Flt.fin p, Flt.fin q]⟩ ∧
      |(p : ℝ) - w₁ / (w₁ + w₂)| ≤ 3 * f64.u ∧ |(q : ℝ) - w₂ / (w₁ + w₂)| ≤ 3 * f64.u := by
  have hf : f64.Std := .inl rfl
  obtain ⟨t, ht, -⟩ := f64.round_le (prec1 hf) (q := w₁ + w₂) (k := 1023)
    (by rw [abs_of_pos hpos]; exact hmax) (by decide) (by decide)
  obtain ⟨htr, hte⟩ := near_round_add hf h₁ h₂ ht
  have hTR : (0 : ℝ) < w₁ + w₂ := by exact_mod_cast hpos
  rw [abs_of_pos hTR] at hte
  have hte' : |(t : ℝ) - ((w₁ + w₂ : ℚ) : ℝ)| ≤ f64.u * ((w₁ + w₂ : ℚ) : ℝ) := by push_cast; exact hte
  obtain ⟨p, hp, hpr, hpe⟩ := normalised hf hw₁ hpos (by linarith) hte'
  obtain ⟨q, hq, hqr, hqe⟩ := normalised hf hw₂ hpos (by linarith) hte'
  push_cast at hpe hqe
  refine ⟨p, q, ?_, hpe, hqe⟩
  have hunf : (MixtureMeasure.mixture a b (Flt.fin w₁) (Flt.fin w₂) :
      Except Panic (MixtureMeasure M (Flt f64 L))) = MixtureMeasure.new [a, b] [Flt.fin p, Flt.fin q] := by
    have e0 : (Flt.fin w₁ +. Flt.fin w₂ : Flt f64 L) = Flt.fin t := ht
    have e1 : (Flt.fin w₁ /. Flt.fin t : Flt f64 L) = Flt.fin p := hp
    have e2 : (Flt.fin w₂ /. Flt.fin t : Flt f64 L) = Flt.fin q := hq
    unfold MixtureMeasure.mixture
    simp only [e0, e1, e2]
  rw [hunf]
  have hu : f64.u = 1 / 2 ^ 53 := rfl
  have hsum : |(p : ℝ) + q - 1| ≤ 6 * f64.u := by
    have e : (p : ℝ) + q - 1 = (p - w₁ / (w₁ + w₂)) + (q - w₂ / (w₁ + w₂)) := by
      field_simp; ring
    rw [e]
    refine (abs_add_le _ _).trans ?_
    linarith
  obtain ⟨s, hs⟩ := round_small hf (q := p + q) (rat_le (by
    have := abs_sub_abs_le_abs_sub ((p : ℝ) + q) 1
    rw [abs_one] at this
    push_cast
    rw [hu] at hsum
    norm_num at hsum ⊢
    linarith))
  obtain ⟨-, hse⟩ := near_round_add hf hpr hqr hs
  refine mixture_accepts hf (s := s) rfl ?_ ?_
  · have : (List.foldl (Flt.add f64) (.fin 0) [FVal.fin p, FVal.fin q]) = .fin s := by
      rw [List.foldl_cons, List.foldl_cons, List.foldl_nil, zero_add_rep hpr]
      exact hs
    exact this
  · have h1 := abs_sub_le (s : ℝ) (p + q) 1
    have h2 : |(p : ℝ) + q| ≤ 2 := by
      have := abs_sub_abs_le_abs_sub ((p : ℝ) + q) 1
      rw [abs_one] at this
      rw [hu] at hsum
      norm_num at hsum
      linarith
    rw [hu] at hse hsum
    norm_num at hse hsum ⊢
    linarith

example : f64.Representable 1 ∧ f64.Representable 2 ∧ (0 : ℚ) < 1 + 2 ∧ (1 + 2 : ℚ) ≤ 2 ^ (1023 : ℤ) := by
  have hf : f64.Std := .inl rfl
  refine ⟨hf.rep_one, hf.rep_two, by norm_num, ?_⟩
  have : (2 : ℚ) ^ (2 : ℤ) ≤ 2 ^ (1023 : ℤ) := zpow_le_zpow_right₀ (by norm_num) (by norm_num)
  exact le_trans (by norm_num) this

/-- **C92 violated**: in single precision `mixture` panics on the weights 0.1 and 0.2. -/
theorem C92_mixture_violated (a b : M) :
    ∃ e, (MixtureMeasure.mixture a b (ofRat (1/10)) (ofRat (1/5)) :
      Except Panic (MixtureMeasure M (Flt f32 L))) = .error e := by
  have hf : f32.Std := .inr rfl
  have hunf : (MixtureMeasure.mixture a b (ofRat (1/10)) (ofRat (1/5)) :
      Except Panic (MixtureMeasure M (Flt f32 L))) =
        MixtureMeasure.new [a, b] [Flt.fin (5592405/16777216), Flt.fin (5592405/8388608)] := by
    have e1 : (ofRat (1/10) : Flt f32 L) = Flt.fin (13421773/134217728) := r32_tenth
    have e2 : (ofRat (1/5) : Flt f32 L) = Flt.fin (13421773/67108864) := r32_fifth
    have e0 : (Flt.fin (13421773/134217728) +. Flt.fin (13421773/67108864) : Flt f32 L) =
        Flt.fin (5033165/16777216) := by
      show f32.round (13421773/134217728 + 13421773/67108864) = _
      have := r32_total
      norm_num1 at this ⊢
      exact this
    have e3 : (Flt.fin (13421773/134217728) /. Flt.fin (5033165/16777216) : Flt f32 L) =
        Flt.fin (5592405/16777216) := by
      show Flt.div f32 (.fin _) (.fin _) = _
      have := r32_p
      simp only [Flt.div]
      norm_num1 at this ⊢
      rw [if_neg (by norm_num), this]
    have e4 : (Flt.fin (13421773/67108864) /. Flt.fin (5033165/16777216) : Flt f32 L) =
        Flt.fin (5592405/8388608) := by
      show Flt.div f32 (.fin _) (.fin _) = _
      have := r32_q
      simp only [Flt.div]
      norm_num1 at this ⊢
      rw [if_neg (by norm_num), this]
    unfold MixtureMeasure.mixture
    simp only [e0, e1, e2, e3, e4]
  rw [hunf]
  have hp : f32.Representable (5592405/16777216) := by
    have := hf.rep_of 5592405 (-24) (by norm_num) (by norm_num) (by norm_num)
    norm_num at this ⊢; exact this
  have hd : f32.round (16777215/16777216 - 1) = .fin (-1/16777216) := by
    rw [show (16777215/16777216 - 1 : ℚ) = -1/16777216 by norm_num]
    refine f32.round_exact ?_
    have := hf.rep_of (-1) (-24) (by norm_num) (by norm_num) (by norm_num)
    norm_num at this ⊢; exact this
  refine mixture_rejects hf (s := 16777215/16777216) ?_ hd (by norm_num [abs_of_pos])
  have : (List.foldl (Flt.add f32) (.fin 0) [FVal.fin (5592405/16777216), FVal.fin (5592405/8388608)]) =
      .fin (16777215/16777216) := by
    rw [List.foldl_cons, List.foldl_cons, List.foldl_nil, zero_add_rep hp]
    show f32.round (5592405/16777216 + 5592405/8388608) = _
    have := r32_pq
    norm_num1 at this ⊢
    exact this
  exact this

/-- **C92 violated**: in double precision `mixture` panics on two equal weights of `2^1023`. -/
theorem C92_overflow_violated (a b : M) :
    f64.Representable (2 ^ (1023 : ℤ)) ∧
    ∃ e, (MixtureMeasure.mixture a b (Flt.fin (2 ^ (1023 : ℤ))) (Flt.fin (2 ^ (1023 : ℤ))) :
      Except Panic (MixtureMeasure M (Flt f64 L))) = .error e := by
  have hf : f64.Std := .inl rfl
  refine ⟨rep_pow f64 (by decide) (by decide) (by decide), ?_⟩
  have hov : f64.round (2 ^ (1023 : ℤ) + 2 ^ (1023 : ℤ)) = .inf false := by
    refine round_overflow hf ?_
    rw [show f64.emax = 1023 + 1 by rfl, zpow_add₀ (by norm_num)]
    rw [zpow_one, mul_two]
  have hunf : (MixtureMeasure.mixture a b (Flt.fin (2 ^ (1023 : ℤ))) (Flt.fin (2 ^ (1023 : ℤ))) :
      Except Panic (MixtureMeasure M (Flt f64 L))) = MixtureMeasure.new [a, b] [Flt.fin 0, Flt.fin 0] := by
    have e0 : (Flt.fin (2 ^ (1023 : ℤ)) +. Flt.fin (2 ^ (1023 : ℤ)) : Flt f64 L) = Flt.posInf := hov
    have e1 : (Flt.fin (2 ^ (1023 : ℤ)) /. Flt.posInf : Flt f64 L) = Flt.fin 0 := rfl
    unfold MixtureMeasure.mixture
    simp only [e0, e1]
  rw [hunf]
  have h0 : f64.round 0 = .fin 0 := f64.round_exact (rep_zero f64)
  have hd : f64.round (0 - 1) = .fin (-1) := by
    rw [zero_sub]; exact f64.round_exact (rep_neg hf.rep_one)
  refine mixture_rejects hf (s := 0) ?_ hd (by norm_num)
  have : (List.foldl (Flt.add f64) (.fin 0) [FVal.fin 0, FVal.fin 0]) = .fin 0 := by
    rw [List.foldl_cons, List.foldl_cons, List.foldl_nil, zero_add_rep (rep_zero f64),
      zero_add_rep (rep_zero f64)]
  exact this

/-- A sum is finite only if the numbers are. -/
theorem foldl_fin_all (xs : List FVal) {a : FVal} {r : ℚ} (h : xs.foldl (Flt.add f) a = .fin r) :
    ∃ qs : List ℚ, xs = qs.map FVal.fin := by
  induction xs generalizing a with
  | nil => exact ⟨[], rfl⟩
  | cons x xs ih =>
    obtain ⟨qs, rfl⟩ := ih h
    cases x with
    | fin q => exact ⟨q :: qs, rfl⟩
    | nan =>
      exfalso
      refine foldl_add_not_fin qs _ ?_ r h
      intro q; cases a <;> simp [Flt.add]
    | inf b =>
      exfalso
      refine foldl_add_not_fin qs _ ?_ r h
      intro q
      cases a with
      | nan => simp [Flt.add]
      | inf c => simp only [Flt.add]; split_ifs <;> simp
      | fin c => simp [Flt.add]

/-- what passing the tolerance test says about the numbers added -/
theorem tol_passed (hf : f.Std) {ws : List FVal} (hv : ∀ w ∈ ws, f.Valid w)
    (h2 : Flt.lt (Flt.abs (Flt.sub f (ws.foldl (Flt.add f) (.fin 0)) (.fin 1)))
      (f.round (1 / 10 ^ 10)) = true) :
    ∃ qs : List ℚ, ws = qs.map FVal.fin ∧
      |(qs.map fun q : ℚ => (q : ℝ)).sum - 1| ≤ 1.01 / 10 ^ 10 +
        ((1 + f.u) ^ qs.length - 1) * (qs.map fun q : ℚ => |(q : ℝ)|).sum := by
  obtain ⟨t, ht, -, ht2⟩ := round_tol hf
  rw [ht] at h2
  obtain ⟨s, hs⟩ : ∃ s, ws.foldl (Flt.add f) (.fin 0) = .fin s := by
    cases hs : ws.foldl (Flt.add f) (.fin 0) with
    | nan => rw [hs] at h2; simp [Flt.sub, Flt.add, Flt.abs, Flt.lt] at h2
    | inf b => rw [hs] at h2; simp [Flt.sub, Flt.add, Flt.neg, Flt.abs, Flt.lt] at h2
    | fin s => exact ⟨s, rfl⟩
  obtain ⟨qs, hq⟩ := foldl_fin_all ws hs
  refine ⟨qs, hq, ?_⟩
  have hrep : ∀ q ∈ qs, f.Representable q := fun q hq' => hv (FVal.fin q) (by
    rw [hq]; exact List.mem_map.mpr ⟨q, hq', rfl⟩)
  have hs' : (qs.map FVal.fin).foldl (Flt.add f) (.fin 0) = .fin s := by rw [← hs, hq]
  obtain ⟨hsr, hse⟩ := foldl_add_err hf qs hrep (rep_zero f) (S := 0) (T := 0) (k := 0) (by simp)
    (by simp) hs'
  rw [zero_add, zero_add, zero_add] at hse
  rw [hs, sub_fin] at h2
  obtain ⟨d, hd⟩ : ∃ d, f.round (s - 1) = .fin d := by
    rcases f.round_cases (s - 1) with hd | hd
    · exact hd
    · rw [hd] at h2; simp [Flt.abs, Flt.lt] at h2
  rw [hd] at h2
  simp only [Flt.abs, Flt.lt, decide_eq_true_eq] at h2
  have h3 : |(d : ℝ)| < t := by exact_mod_cast h2
  have h4 := (near_round_add hf hsr (rep_neg hf.rep_one) (r := d) (by rw [← sub_eq_add_neg]; exact hd)).2
  push_cast at h4
  rw [← sub_eq_add_neg] at h4
  have h5 := abs_sub_abs_le_abs_sub ((s : ℝ) - 1) d
  rw [abs_sub_comm _ (d : ℝ)] at h5
  have h6 : f.u * |(s : ℝ) - 1| ≤ 1/1000 * |(s : ℝ) - 1| := by
    gcongr; exact hf.u_le.trans (by norm_num)
  have h7 := abs_sub_le (qs.map fun q : ℚ => (q : ℝ)).sum (s : ℝ) 1
  rw [abs_sub_comm _ (s : ℝ)] at h7
  have h8 : f.grow qs.length = (1 + f.u) ^ qs.length - 1 := rfl
  rw [← h8]
  norm_num at ht2 ⊢
  linarith

/-- **C92**: the weights of every mixture the constructor accepts are finite and add up to one, up to
the tolerance `1e-10` and the rounding of the sum. -/
theorem C92_accepted (hf : f.Std) {cs : List M} {ws : List (Flt f L)} {m : MixtureMeasure M (Flt f L)}
    (hv : ∀ w ∈ ws, f.Valid w) (h : MixtureMeasure.new cs ws = .ok m) :
    m.components = cs ∧ m.weights = ws ∧ cs.length = ws.length ∧
    ∃ qs : List ℚ, ws = qs.map Flt.fin ∧
      |(qs.map fun q : ℚ => (q : ℝ)).sum - 1| ≤ 1.01 / 10 ^ 10 +
        ((1 + f.u) ^ qs.length - 1) * (qs.map fun q : ℚ => |(q : ℝ)|).sum := by
  rw [mixture_new_flt hf] at h
  split_ifs at h with h1 h2
  obtain rfl := Except.ok.inj h
  exact ⟨rfl, rfl, not_not.mp h1, tol_passed hf hv h2⟩

end Verif
