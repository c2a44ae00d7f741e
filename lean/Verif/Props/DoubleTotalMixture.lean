import Verif.Props.DoubleTotal
import Verif.Props.DoubleLogSumExp

/-!
# C130: mixtures in floating point are never NaN or plus infinity
-/

namespace Verif
open Format FloatOps Spec

variable {f : Format} {L : Libm}

theorem logSumExp_ninf (xs : List (Flt f L)) (h : ∀ x ∈ xs, x = FVal.inf true) :
    logSumExp xs = (FVal.inf true : Flt f L) := by
  have hm : runningMax xs = (FVal.inf true : Flt f L) := by
    have : ∀ acc : Flt f L, acc = FVal.inf true →
        xs.foldl (fun acc x => if gt x acc then x else acc) acc = (FVal.inf true : Flt f L) := by
      induction xs with
      | nil => intro acc h; exact h
      | cons x xs ih =>
        intro acc hacc
        have hx := h x (by simp)
        rw [List.foldl_cons]
        refine ih (fun y hy => h y (by simp [hy])) _ ?_
        split
        · exact hx
        · exact hacc
    exact this _ rfl
  unfold logSumExp
  split
  · rfl
  · rw [hm]; rfl

section
variable {M X : Type} [HasLogDensity M X (Flt f L)]

/-- **C130** (mixture): if the log-density of every component is `-∞` or at most `2^k`, the log-density of a mixture
with nonnegative weights is `-∞` or at most `2^(k+2)`; it is neither NaN nor `+∞`, wherever the components vanish. -/
theorem C130_mixture (hf : f.Std) (hL : L.Accurate f) (m : MixtureMeasure M (Flt f L)) (x : X)
    (hn : m.components.length * f.u ≤ 1/1000)
    (hw : ∀ w ∈ m.weights, ∃ q : ℚ, w = Flt.fin q ∧ 0 ≤ q ∧ f.Representable q)
    {k : ℤ} (hk : 12 ≤ k) (hk' : k + 2 < f.emax)
    (h : ∀ c ∈ m.components, AtMost (2 ^ k) (logDensityWrtRoot c x : Flt f L)) :
    AtMost (2 ^ (k + 2)) (logDensityWrtRoot m x : Flt f L) := by
  have hu := u_pos f
  have hul : f.u ≤ 1/1000 := hf.u_le.trans (by norm_num)
  have hemin : f.emin ≤ -100 := by rcases hf with rfl | rfl <;> decide
  have hk12 : (2 : ℚ) ^ (12 : ℤ) ≤ 2 ^ k := zpow_le_zpow_right₀ (by norm_num) hk
  have hr1 := Std.rep_pow hf (k := k + 1) (by omega) (by omega)
  set ps := m.components.zip m.weights with hps
  set E : M × Flt f L → Flt f L := fun p => Flt.add f (Flt.ln L p.2) (logDensityWrtRoot p.1 x : Flt f L) with hE
  have hterm : ∀ p ∈ ps, AtMost (2 ^ (k + 1)) (E p) ∧ LogValue f (E p) := by
    intro p hp
    obtain ⟨hc, hw'⟩ := List.of_mem_zip (show (p.1, p.2) ∈ _ from hp)
    obtain ⟨q, hq, q0, hqr⟩ := hw _ hw'
    have hln : AtMost (2 ^ k) (Flt.ln L p.2) := by
      rw [hq]
      rcases q0.eq_or_lt with rfl | q0
      · exact .inl (by simp [Flt.ln])
      · obtain ⟨η, hη, hηr, hηe⟩ := hL.ln q q0 hqr
        have hl := log_rep_le hf q0 hqr
        refine .inr ⟨η, by simp only [Flt.ln, if_pos q0, hη], ?_⟩
        have h1 := (abs_le.mp hηe).2
        have h2 := (abs_le.mp hl).2
        have h3 : f.u * |Real.log (q : ℝ)| ≤ 1/1000 * 1100 := mul_le_mul hul hl (abs_nonneg _) (by norm_num)
        have : (η : ℝ) ≤ (2 ^ (12 : ℤ) : ℚ) := by push_cast; norm_num; linarith
        exact (by exact_mod_cast this : η ≤ 2 ^ (12 : ℤ)).trans hk12
    have hadd := AtMost.add (prec1 hf) hln (h _ hc) hr1 (by rw [zpow_add_one₀ (by norm_num)]; linarith)
    refine ⟨hadd, ?_⟩
    rcases hadd with h1 | ⟨r, h1, -⟩
    · exact .inl h1
    · refine .inr ⟨r, h1, ?_⟩
      have hv : ∀ a b : FVal, ∀ r, Flt.add f a b = .fin r → f.Representable r := by
        intro a b r h
        cases a with
        | fin p => cases b with
          | fin q =>
            have := f.round_valid (prec1 hf) (p + q)
            rw [show f.round (p + q) = .fin r from h] at this
            exact this
          | inf s => cases s <;> cases h
          | nan => cases h
        | inf s => cases b with
          | fin q => cases s <;> cases h
          | inf s' => cases s <;> cases s' <;> cases h
          | nan => cases s <;> cases h
        | nan => cases b <;> cases h
      exact hv _ _ _ h1
  have hunf : (logDensityWrtRoot m x : Flt f L) =
      if m.components.isEmpty then (FVal.inf true : Flt f L) else (logSumExp (ps.map E) : Flt f L) := rfl
  rw [hunf]
  rcases he : m.components.isEmpty with _ | _
  case true => exact .inl rfl
  show AtMost _ (logSumExp (ps.map E) : Flt f L)
  by_cases hfin : ∃ q : ℚ, Flt.fin (f := f) (L := L) q ∈ ps.map E
  · have hlen : (ps.map E).length ≤ m.components.length := by
      rw [List.length_map, hps, List.length_zip]; exact min_le_left _ _
    have hlenR : ((ps.map E).length : ℝ) * f.u ≤ 1/1000 := by
      refine le_trans ?_ hn
      gcongr
    obtain ⟨r, hr, -, hre⟩ := C93_logSumExp hf hL (ps.map E) (by
      intro y hy; obtain ⟨p, hp, rfl⟩ := List.mem_map.mp hy; exact (hterm p hp).2) hfin hlenR
    refine .inr ⟨r, hr, ?_⟩
    set n := ((ps.map E).length : ℝ) with hnn
    set S := ((ps.map E).map expOf).sum with hS
    have hS1 : S ≤ n * Real.exp (2 ^ (k + 1)) := by
      have := List.sum_le_card_nsmul ((ps.map E).map expOf) (Real.exp (2 ^ (k + 1))) (by
        intro y hy
        obtain ⟨z, hz, rfl⟩ := List.mem_map.mp hy
        obtain ⟨p, hp, rfl⟩ := List.mem_map.mp hz
        rcases (hterm p hp).1 with h1 | ⟨q, h1, h2⟩
        · rw [h1]; exact (Real.exp_pos _).le
        · rw [h1]
          have h3 : (q : ℝ) ≤ ((2 ^ (k + 1) : ℚ) : ℝ) := Rat.cast_le.mpr h2
          push_cast at h3
          exact Real.exp_le_exp.mpr h3)
      rw [nsmul_eq_mul] at this
      refine this.trans (le_of_eq ?_)
      congr 1
      exact congrArg Nat.cast (List.length_map _)
    have hS0 : 0 < S := by
      obtain ⟨q, hq⟩ := hfin
      refine lt_of_lt_of_le (Real.exp_pos (q : ℝ)) ?_
      exact List.single_le_sum (by
        intro y hy; obtain ⟨z, hz, rfl⟩ := List.mem_map.mp hy
        unfold expOf; split
        · exact (Real.exp_pos _).le
        · exact le_rfl) _ (List.mem_map.mpr ⟨_, hq, rfl⟩)
    have hn0 : 0 < n := by
      by_contra hc
      have : n * Real.exp (2 ^ (k + 1)) ≤ 0 := mul_nonpos_of_nonpos_of_nonneg (not_lt.mp hc) (Real.exp_pos _).le
      linarith
    have hu53 : 1 / 2 ^ 53 ≤ f.u := by
      rcases hf with rfl | rfl
      · exact le_of_eq rfl
      · show (1 : ℝ) / 2 ^ 53 ≤ 1 / 2 ^ 24; norm_num
    have hnle : n ≤ 2 ^ 53 := by
      have : n * (1 / 2 ^ 53) ≤ 1 := (mul_le_mul_of_nonneg_left hu53 hn0.le).trans (by linarith)
      norm_num at this ⊢; linarith
    have hlog : Real.log S ≤ 2 ^ (k + 1) + 40 := by
      have h1 := Real.log_le_log hS0 hS1
      rw [Real.log_mul hn0.ne' (Real.exp_pos _).ne', Real.log_exp] at h1
      have h2 := Real.log_le_log hn0 hnle
      rw [Real.log_pow] at h2
      have := Real.log_two_lt_d9
      push_cast at h2
      linarith
    have hb := (abs_le.mp hre).2
    have hk12' : (4096 : ℝ) ≤ 2 ^ k := by
      have : (((2 : ℚ) ^ (12 : ℤ) : ℚ) : ℝ) ≤ ((2 ^ k : ℚ) : ℝ) := Rat.cast_le.mpr hk12
      push_cast at this; norm_num at this ⊢; exact this
    have e1 : (2 : ℝ) ^ (k + 1) = 2 * 2 ^ k := by rw [zpow_add_one₀ (by norm_num)]; ring
    have e2 : (2 : ℝ) ^ (k + 2) = 4 * 2 ^ k := by rw [zpow_add₀ (by norm_num)]; ring
    rw [e1] at hlog
    have hfinal : (r : ℝ) ≤ 2 ^ (k + 2) := by
      rw [e2]
      rcases le_total (Real.log S) 0 with hneg | hpos
      · rw [abs_of_nonpos hneg] at hb
        have : f.u * -Real.log S ≤ 1/1000 * -Real.log S := mul_le_mul_of_nonneg_right hul (by linarith)
        linarith
      · rw [abs_of_nonneg hpos] at hb
        have : f.u * Real.log S ≤ 1/1000 * Real.log S := mul_le_mul_of_nonneg_right hul hpos
        linarith
    have : (r : ℝ) ≤ ((2 ^ (k + 2) : ℚ) : ℝ) := by push_cast; exact hfinal
    exact Rat.cast_le.mp this
  · refine .inl (logSumExp_ninf _ fun y hy => ?_)
    obtain ⟨p, hp, rfl⟩ := List.mem_map.mp hy
    rcases (hterm p hp).2 with h1 | ⟨q, h1, -⟩
    · exact h1
    · exact absurd ⟨q, by rw [← show E p = Flt.fin q from h1]; exact hy⟩ hfin

end

/-- **C130** (mixtures of normal distributions): for all accepted components, all nonnegative weights and every finite
point. -/
theorem C130_normal_mixture (hf : f.Std) (hL : L.Accurate f) (m : MixtureMeasure (Normal (Flt f L)) (Flt f L)) (x : ℚ)
    (hn : m.components.length * f.u ≤ 1/1000)
    (hw : ∀ w ∈ m.weights, ∃ q : ℚ, w = Flt.fin q ∧ 0 ≤ q ∧ f.Representable q)
    (hc : ∀ c ∈ m.components, ∃ μ σ : ℚ, f.Representable σ ∧ Normal.new (Flt.fin μ) (Flt.fin σ) = .ok c) :
    AtMost 16384 (logDensityWrtRoot m (Flt.fin x : Flt f L) : Flt f L) := by
  have := C130_mixture hf hL m (Flt.fin x : Flt f L) hn hw (k := 12) le_rfl (by have := hf.emax_ge; omega) (fun c h => by
    obtain ⟨μ, σ, hσ, hd⟩ := hc c h
    have := C130_normal hf hL hσ hd x
    norm_num; exact this)
  norm_num at this; exact this

/-- the hypotheses are met: a mixture of two normal distributions, one with weight zero -/
example : ∃ (L : Libm) (m : MixtureMeasure (Normal (Flt f64 L)) (Flt f64 L)), L.Accurate f64 ∧
    m.components.length = 2 ∧ m.components.length * f64.u ≤ 1/1000 ∧
    (∀ w ∈ m.weights, ∃ q : ℚ, w = Flt.fin q ∧ 0 ≤ q ∧ f64.Representable q) ∧
    ∀ c ∈ m.components, ∃ μ σ : ℚ, f64.Representable σ ∧ Normal.new (Flt.fin μ) (Flt.fin σ) = .ok c := by
  have hf : f64.Std := .inl rfl
  obtain ⟨L, hL⟩ := exists_libm hf
  refine ⟨L, ⟨[⟨Flt.fin 0, Flt.fin 1⟩, ⟨Flt.fin 5, Flt.fin 1⟩], [Flt.fin 1, Flt.fin 0]⟩, hL, rfl, ?_, ?_, ?_⟩
  · have := hf.u_le
    norm_num at this ⊢; linarith
  · simp only [List.mem_cons, List.not_mem_nil, or_false]
    rintro w (rfl | rfl)
    · exact ⟨1, rfl, by norm_num, hf.rep_one⟩
    · exact ⟨0, rfl, le_rfl, rep_zero f64⟩
  · simp only [List.mem_cons, List.not_mem_nil, or_false]
    rintro c (rfl | rfl)
    · exact ⟨0, 1, hf.rep_one, rfl⟩
    · exact ⟨5, 1, hf.rep_one, rfl⟩

end Verif
