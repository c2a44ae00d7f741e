import Verif.Lemmas.Coeff
import Mathlib.Analysis.SpecialFunctions.Stirling
import Mathlib.Tactic.NormNum
import Mathlib.Tactic.FieldSimp

/-! Accuracy of the Stirling series and of the logarithm table. -/

namespace Verif
open Real Filter Topology

namespace StirlingAux

/-- the correction of the code, as a real function -/
noncomputable def corr (k : ℝ) : ℝ := 1/(12*k) - 1/(360*k^3) + 1/(1260*k^5) - 1/(1680*k^7)

/-- difference between `ln k!` and the Stirling series -/
noncomputable def E (k : ℕ) : ℝ := log (Stirling.stirlingSeq k) - 1/2 * log π - corr k

theorem diff_bounds (m : ℕ) :
    let r : ℝ := (1 / (2 * ((m:ℝ) + 1) + 1)) ^ 2
    let δ := log (Stirling.stirlingSeq (m + 1)) - log (Stirling.stirlingSeq (m + 2))
    r/3 + r^2/5 + r^3/7 ≤ δ ∧ δ ≤ r/3 + r^2/5 + r^3/7 + r^4/(9*(1-r)) := by
  intro r δ
  have hs := Stirling.log_stirlingSeq_sdiff_hasSum m
  have hr0 : 0 ≤ r := sq_nonneg _
  have hr1 : r < 1 := by
    have h1 : (1:ℝ) < 2 * ((m:ℝ) + 1) + 1 := by
      have : (0:ℝ) ≤ m := Nat.cast_nonneg m
      linarith
    have : r = ((2 * ((m:ℝ) + 1) + 1)⁻¹)^2 := by simp [r]
    rw [this]
    exact pow_lt_one₀ (by positivity) (inv_lt_one_of_one_lt₀ h1) two_ne_zero
  have hs' : HasSum (fun k : ℕ => (1:ℝ) / (2 * ((k:ℝ) + 1) + 1) * r ^ (k + 1)) δ := by
    have e : (fun k : ℕ => (1:ℝ) / (2 * ((k:ℝ) + 1) + 1) * r ^ (k + 1))
        = (fun k : ℕ => (1:ℝ) / (2 * ((k + 1 : ℕ):ℝ) + 1) * ((1 / (2 * ((m + 1 : ℕ):ℝ) + 1)) ^ 2) ^ (k + 1)) := by
      funext k; push_cast; rfl
    rw [e]; exact hs
  have hpart : ∑ k ∈ Finset.range 3, (1:ℝ) / (2 * ((k:ℝ) + 1) + 1) * r ^ (k + 1)
      = r/3 + r^2/5 + r^3/7 := by
    simp [Finset.sum_range_succ]; ring
  constructor
  · rw [← hpart]
    exact sum_le_hasSum _ (fun k _ => by positivity) hs'
  · have ht := (hasSum_nat_add_iff' 3).mpr hs'
    rw [hpart] at ht
    have hg : HasSum (fun k : ℕ => r^4/9 * r^k) (r^4/9 * (1 - r)⁻¹) :=
      (hasSum_geometric_of_lt_one hr0 hr1).mul_left _
    have hle := hasSum_le (fun k => ?_) ht hg
    · have : r^4/(9*(1-r)) = r^4/9 * (1 - r)⁻¹ := by
        have : (1 - r) ≠ 0 := by linarith
        field_simp
      linarith
    · have e : (1:ℝ) / (2 * (((k+3:ℕ):ℝ) + 1) + 1) ≤ 1/9 := by
        have : (0:ℝ) ≤ k := Nat.cast_nonneg k
        apply one_div_le_one_div_of_le (by norm_num)
        push_cast; linarith
      calc (1:ℝ) / (2 * (((k+3:ℕ):ℝ) + 1) + 1) * r ^ (k + 3 + 1) ≤ 1/9 * r^(k+3+1) :=
            mul_le_mul_of_nonneg_right e (by positivity)
        _ = r^4/9 * r^k := by ring

theorem rat_upper (n : ℝ) (hn : 0 ≤ n) :
    (1/(2*(n+21)+1)^2)/3 + (1/(2*(n+21)+1)^2)^2/5 + (1/(2*(n+21)+1)^2)^3/7
      + 1/((2*(n+21)+1)^6 * 36 * (n+21) * (n+22)) - (corr (n+21) - corr (n+22))
      ≤ 1/1000 * (1/(n+21)^7 - 1/(n+22)^7) := by
  have e : 1/1000 * (1/(n+21)^7 - 1/(n+22)^7) - ((1/(2*(n+21)+1)^2)/3 + (1/(2*(n+21)+1)^2)^2/5
      + (1/(2*(n+21)+1)^2)^3/7 + 1/((2*(n+21)+1)^6 * 36 * (n+21) * (n+22))
      - (corr (n+21) - corr (n+22)))
      = (550890505074452429553 + 307455426174646287471*n + 78647125101236835265*n^2 + 12192758275062252091*n^3 + 1275931064176109605*n^4 + 94949412385427779*n^5 + 5152126458341995*n^6 + 205394836107532*n^7 + 5970650981794*n^8 + 123422307890*n^9 + 1722153118*n^10 + 14563584*n^11 + 56448*n^12) / (126000 * (2*(n+21)+1)^6 * (n+21)^7 * (n+22)^7) := by
    unfold corr
    have h1 : n + 21 ≠ 0 := by positivity
    have h2 : n + 22 ≠ 0 := by positivity
    have h3 : 2*(n+21)+1 ≠ 0 := by positivity
    field_simp
    ring
  rw [← sub_nonneg, e]
  positivity

theorem rat_lower (n : ℝ) (hn : 0 ≤ n) :
    -(1/1000 * (1/(n+21)^7 - 1/(n+22)^7)) ≤
    (1/(2*(n+21)+1)^2)/3 + (1/(2*(n+21)+1)^2)^2/5 + (1/(2*(n+21)+1)^2)^3/7
       - (corr (n+21) - corr (n+22)) := by
  have e : (1/(2*(n+21)+1)^2)/3 + (1/(2*(n+21)+1)^2)^2/5 + (1/(2*(n+21)+1)^2)^3/7
       - (corr (n+21) - corr (n+22)) - -(1/1000 * (1/(n+21)^7 - 1/(n+22)^7))
      = (519441576695334295203 + 289651710890023804221*n + 74034355816837298915*n^2 + 11469461221072549841*n^3 + 1199480076964978055*n^4 + 89210736953130929*n^5 + 4838432479201245*n^6 + 192812585415932*n^7 + 5603116297994*n^8 + 115797225390*n^9 + 1615501118*n^10 + 13660584*n^11 + 52948*n^12) / (126000 * (2*(n+21)+1)^6 * (n+21)^7 * (n+22)^7) := by
    unfold corr
    have h1 : n + 21 ≠ 0 := by positivity
    have h2 : n + 22 ≠ 0 := by positivity
    have h3 : 2*(n+21)+1 ≠ 0 := by positivity
    field_simp
    ring
  rw [← sub_nonneg, e]
  positivity

theorem step (n : ℕ) :
    |E (n + 21) - E (n + 22)| ≤ 1/1000 * (1/((n:ℝ)+21)^7 - 1/((n:ℝ)+22)^7) := by
  have hn : (0:ℝ) ≤ n := Nat.cast_nonneg n
  obtain ⟨h1, h2⟩ := diff_bounds (n + 20)
  have hu := rat_upper n hn
  have hl := rat_lower n hn
  have er : ((1:ℝ) / (2 * (((n + 20 : ℕ):ℝ) + 1) + 1)) ^ 2 = 1/(2*((n:ℝ)+21)+1)^2 := by
    push_cast; rw [one_div_pow]; ring_nf
  rw [er] at h1 h2
  have e4 : (1/(2*((n:ℝ)+21)+1)^2)^4/(9*(1-1/(2*((n:ℝ)+21)+1)^2))
      = 1/((2*((n:ℝ)+21)+1)^6 * 36 * (n+21) * (n+22)) := by
    have h1 : (n:ℝ) + 21 ≠ 0 := by positivity
    have h2 : (n:ℝ) + 22 ≠ 0 := by positivity
    have h3 : 2*((n:ℝ)+21)+1 ≠ 0 := by positivity
    have h4 : 1-1/(2*((n:ℝ)+21)+1)^2 = 4 * (n+21) * (n+22) / (2*((n:ℝ)+21)+1)^2 := by
      field_simp; ring
    rw [h4]
    field_simp
    ring
  rw [e4] at h2
  rw [show n + 20 + 1 = n + 21 by ring, show n + 20 + 2 = n + 22 by ring] at h1 h2
  have eE : E (n + 21) - E (n + 22) = log (Stirling.stirlingSeq (n + 21)) - log (Stirling.stirlingSeq (n + 22))
      - (corr ((n:ℝ)+21) - corr ((n:ℝ)+22)) := by
    unfold E; push_cast; ring
  rw [eE, abs_le]
  constructor <;> linarith

theorem E_tendsto : Tendsto E atTop (𝓝 0) := by
  have h1 : Tendsto (fun k => log (Stirling.stirlingSeq k)) atTop (𝓝 (log √π)) :=
    (continuousAt_log (by positivity)).tendsto.comp Stirling.tendsto_stirlingSeq_sqrt_pi
  have h0 : Tendsto (fun k : ℕ => ((k:ℝ))⁻¹) atTop (𝓝 0) := tendsto_inv_atTop_nhds_zero_nat
  have h2 : Tendsto (fun k : ℕ => corr k) atTop (𝓝 0) := by
    have e : (fun k : ℕ => corr k) = fun k : ℕ => 1/12 * ((k:ℝ))⁻¹ - 1/360 * ((k:ℝ))⁻¹^3
        + 1/1260 * ((k:ℝ))⁻¹^5 - 1/1680 * ((k:ℝ))⁻¹^7 := by
      funext k; unfold corr
      simp only [one_div, mul_inv, inv_pow]
    rw [e]
    have := ((((h0.const_mul (1/12)).sub ((h0.pow 3).const_mul (1/360))).add
      ((h0.pow 5).const_mul (1/1260))).sub ((h0.pow 7).const_mul (1/1680)))
    simpa using this
  have := (h1.sub_const (1/2 * log π)).sub h2
  rw [log_sqrt pi_pos.le] at this
  have e : log π / 2 - 1/2 * log π - 0 = 0 := by ring
  rw [e] at this
  exact this

theorem E_bound (n : ℕ) : |E (n + 21)| ≤ 1/1000 * (1/((n:ℝ)+21)^7) := by
  have tele : ∀ m : ℕ, |E (n + 21) - E (n + m + 21)| ≤
      1/1000 * (1/((n:ℝ)+21)^7 - 1/((n:ℝ)+m+21)^7) := by
    intro m
    induction m with
    | zero => simp
    | succ m ih =>
      have hs := step (n + m)
      push_cast at hs ⊢
      have e : ((n:ℝ) + ((m:ℝ) + 1) + 21) = (n:ℝ) + m + 22 := by ring
      rw [e, show n + (m + 1) + 21 = n + m + 22 by ring]
      calc |E (n + 21) - E (n + m + 22)|
          = |(E (n + 21) - E (n + m + 21)) + (E (n + m + 21) - E (n + m + 22))| := by ring_nf
        _ ≤ _ := abs_add_le _ _
        _ ≤ _ := by linarith
  have hlim : Tendsto (fun m : ℕ => |E (n + 21) - E (n + m + 21)|) atTop (𝓝 |E (n+21) - 0|) := by
    have : Tendsto (fun m : ℕ => E (n + m + 21)) atTop (𝓝 0) := by
      have := E_tendsto.comp (tendsto_add_atTop_nat (n + 21))
      refine this.congr ?_
      intro m
      simp only [Function.comp]
      congr 1; ring
    exact (tendsto_const_nhds.sub this).abs
  rw [sub_zero] at hlim
  refine le_of_tendsto hlim (Eventually.of_forall fun m => (tele m).trans ?_)
  have : 0 ≤ 1/((n:ℝ)+m+21)^7 := by positivity
  linarith

/-- the Stirling series of the code is within `1e-12` of `ln k!` for `k > 20` -/
theorem stirling_bound {k : ℕ} (hk : 20 < k) :
    |((k:ℝ) * log k - k + 1/2 * log (2 * π * k) + corr k) - log (Nat.factorial k)| ≤ 1/10^12 := by
  obtain ⟨n, rfl⟩ : ∃ n, k = n + 21 := ⟨k - 21, by omega⟩
  have hb := E_bound n
  have hk0 : (0:ℝ) < ((n + 21 : ℕ):ℝ) := by positivity
  have e : ((n + 21 : ℕ):ℝ) * log ((n + 21 : ℕ):ℝ) - ((n + 21 : ℕ):ℝ) + 1/2 * log (2 * π * ((n + 21 : ℕ):ℝ))
      + corr ((n + 21 : ℕ):ℝ) - log (Nat.factorial (n + 21)) = - E (n + 21) := by
    unfold E
    rw [Stirling.log_stirlingSeq_formula, log_div hk0.ne' (exp_ne_zero 1), log_exp,
      show 2 * π * ((n + 21 : ℕ):ℝ) = π * (2 * ((n + 21 : ℕ):ℝ)) by ring,
      log_mul pi_pos.ne' (by positivity)]
    ring
  rw [e, abs_neg]
  refine hb.trans ?_
  have hn : (0:ℝ) ≤ n := Nat.cast_nonneg n
  have : (21:ℝ)^7 ≤ ((n:ℝ)+21)^7 := pow_le_pow_left₀ (by norm_num) (by linarith) 7
  have h2 : 1/((n:ℝ)+21)^7 ≤ 1/(21:ℝ)^7 := one_div_le_one_div_of_le (by norm_num) this
  calc 1/1000 * (1/((n:ℝ)+21)^7) ≤ 1/1000 * (1/(21:ℝ)^7) := by linarith
    _ ≤ 1/10^12 := by norm_num

end StirlingAux
end Verif
