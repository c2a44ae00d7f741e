import Verif.Lemmas.Stirling
import Mathlib.Tactic.IntervalCases

/-! Rational bounds for the logarithms of small primes, and the table of `ln k!`. -/

namespace Verif
open Real

/-- two-sided bound for `log ((1+x)/(1-x))` by its partial series -/
theorem log_atanh_bounds {x : ℝ} (h0 : 0 ≤ x) (h1 : x < 1) (N : ℕ) :
    ∑ k ∈ Finset.range N, 2 * (1 / (2 * (k:ℝ) + 1)) * x ^ (2 * k + 1) ≤ log (1 + x) - log (1 - x) ∧
    log (1 + x) - log (1 - x) ≤ ∑ k ∈ Finset.range N, 2 * (1 / (2 * (k:ℝ) + 1)) * x ^ (2 * k + 1)
      + 2 * x ^ (2 * N + 1) / (1 - x ^ 2) := by
  have hs := hasSum_log_sub_log_of_abs_lt_one (show |x| < 1 by rwa [abs_of_nonneg h0])
  constructor
  · exact sum_le_hasSum _ (fun k _ => by positivity) hs
  · have ht := (hasSum_nat_add_iff' N).mpr hs
    have hx2 : x ^ 2 < 1 := pow_lt_one₀ h0 h1 two_ne_zero
    have hg : HasSum (fun k : ℕ => 2 * x ^ (2 * N + 1) * (x ^ 2) ^ k) (2 * x ^ (2 * N + 1) * (1 - x ^ 2)⁻¹) :=
      (hasSum_geometric_of_lt_one (sq_nonneg x) hx2).mul_left _
    have hle := hasSum_le (fun k => ?_) ht hg
    · rw [div_eq_mul_inv]; linarith
    · have e : (1:ℝ) / (2 * ((k + N : ℕ):ℝ) + 1) ≤ 1 := by
        rw [div_le_one (by positivity)]
        have : (0:ℝ) ≤ ((k + N : ℕ):ℝ) := Nat.cast_nonneg _
        linarith
      calc 2 * (1 / (2 * ((k + N : ℕ):ℝ) + 1)) * x ^ (2 * (k + N) + 1)
          ≤ 2 * 1 * x ^ (2 * (k + N) + 1) := by gcongr
        _ = 2 * x ^ (2 * N + 1) * (x ^ 2) ^ k := by ring

namespace LogTab

theorem atanh2 : (0.69314718055994529:ℝ) ≤ log 2 - log 1 ∧ log 2 - log 1 ≤ (0.69314718055994533:ℝ) := by
  have h := log_atanh_bounds (x := 1/3) (by norm_num) (by norm_num) 18
  have e : log (1 + 1/3 : ℝ) - log (1 - 1/3 : ℝ) = log 2 - log 1 := by
    rw [← log_div (by norm_num) (by norm_num), ← log_div (by norm_num) (by norm_num)]
    norm_num
  rw [e] at h
  simp only [Finset.sum_range_succ, Finset.sum_range_zero] at h
  exact ⟨le_trans (by norm_num) h.1, le_trans h.2 (by norm_num)⟩

theorem atanh3 : (0.40546510810816437:ℝ) ≤ log 3 - log 2 ∧ log 3 - log 2 ≤ (0.40546510810816440:ℝ) := by
  have h := log_atanh_bounds (x := 1/5) (by norm_num) (by norm_num) 12
  have e : log (1 + 1/5 : ℝ) - log (1 - 1/5 : ℝ) = log 3 - log 2 := by
    rw [← log_div (by norm_num) (by norm_num), ← log_div (by norm_num) (by norm_num)]
    norm_num
  rw [e] at h
  simp only [Finset.sum_range_succ, Finset.sum_range_zero] at h
  exact ⟨le_trans (by norm_num) h.1, le_trans h.2 (by norm_num)⟩

theorem atanh5 : (0.22314355131420974:ℝ) ≤ log 5 - log 4 ∧ log 5 - log 4 ≤ (0.22314355131420977:ℝ) := by
  have h := log_atanh_bounds (x := 1/9) (by norm_num) (by norm_num) 9
  have e : log (1 + 1/9 : ℝ) - log (1 - 1/9 : ℝ) = log 5 - log 4 := by
    rw [← log_div (by norm_num) (by norm_num), ← log_div (by norm_num) (by norm_num)]
    norm_num
  rw [e] at h
  simp only [Finset.sum_range_succ, Finset.sum_range_zero] at h
  exact ⟨le_trans (by norm_num) h.1, le_trans h.2 (by norm_num)⟩

theorem atanh7 : (0.13353139262452261:ℝ) ≤ log 8 - log 7 ∧ log 8 - log 7 ≤ (0.13353139262452264:ℝ) := by
  have h := log_atanh_bounds (x := 1/15) (by norm_num) (by norm_num) 7
  have e : log (1 + 1/15 : ℝ) - log (1 - 1/15 : ℝ) = log 8 - log 7 := by
    rw [← log_div (by norm_num) (by norm_num), ← log_div (by norm_num) (by norm_num)]
    norm_num
  rw [e] at h
  simp only [Finset.sum_range_succ, Finset.sum_range_zero] at h
  exact ⟨le_trans (by norm_num) h.1, le_trans h.2 (by norm_num)⟩

theorem atanh11 : (0.08701137698962975:ℝ) ≤ log 12 - log 11 ∧ log 12 - log 11 ≤ (0.08701137698962978:ℝ) := by
  have h := log_atanh_bounds (x := 1/23) (by norm_num) (by norm_num) 6
  have e : log (1 + 1/23 : ℝ) - log (1 - 1/23 : ℝ) = log 12 - log 11 := by
    rw [← log_div (by norm_num) (by norm_num), ← log_div (by norm_num) (by norm_num)]
    norm_num
  rw [e] at h
  simp only [Finset.sum_range_succ, Finset.sum_range_zero] at h
  exact ⟨le_trans (by norm_num) h.1, le_trans h.2 (by norm_num)⟩

theorem atanh13 : (0.08004270767353641:ℝ) ≤ log 13 - log 12 ∧ log 13 - log 12 ≤ (0.08004270767353644:ℝ) := by
  have h := log_atanh_bounds (x := 1/25) (by norm_num) (by norm_num) 6
  have e : log (1 + 1/25 : ℝ) - log (1 - 1/25 : ℝ) = log 13 - log 12 := by
    rw [← log_div (by norm_num) (by norm_num), ← log_div (by norm_num) (by norm_num)]
    norm_num
  rw [e] at h
  simp only [Finset.sum_range_succ, Finset.sum_range_zero] at h
  exact ⟨le_trans (by norm_num) h.1, le_trans h.2 (by norm_num)⟩

theorem atanh17 : (0.06062462181643483:ℝ) ≤ log 17 - log 16 ∧ log 17 - log 16 ≤ (0.06062462181643486:ℝ) := by
  have h := log_atanh_bounds (x := 1/33) (by norm_num) (by norm_num) 6
  have e : log (1 + 1/33 : ℝ) - log (1 - 1/33 : ℝ) = log 17 - log 16 := by
    rw [← log_div (by norm_num) (by norm_num), ← log_div (by norm_num) (by norm_num)]
    norm_num
  rw [e] at h
  simp only [Finset.sum_range_succ, Finset.sum_range_zero] at h
  exact ⟨le_trans (by norm_num) h.1, le_trans h.2 (by norm_num)⟩

theorem atanh19 : (0.05406722127027575:ℝ) ≤ log 19 - log 18 ∧ log 19 - log 18 ≤ (0.05406722127027578:ℝ) := by
  have h := log_atanh_bounds (x := 1/37) (by norm_num) (by norm_num) 6
  have e : log (1 + 1/37 : ℝ) - log (1 - 1/37 : ℝ) = log 19 - log 18 := by
    rw [← log_div (by norm_num) (by norm_num), ← log_div (by norm_num) (by norm_num)]
    norm_num
  rw [e] at h
  simp only [Finset.sum_range_succ, Finset.sum_range_zero] at h
  exact ⟨le_trans (by norm_num) h.1, le_trans h.2 (by norm_num)⟩

theorem logprod (a b c d e f g h : ℕ) :
    log ((2:ℝ)^a * 3^b * 5^c * 7^d * 11^e * 13^f * 17^g * 19^h) = a * log 2 + b * log 3 + c * log 5
      + d * log 7 + e * log 11 + f * log 13 + g * log 17 + h * log 19 := by
  rw [log_mul (by positivity) (by positivity), log_mul (by positivity) (by positivity),
    log_mul (by positivity) (by positivity), log_mul (by positivity) (by positivity),
    log_mul (by positivity) (by positivity), log_mul (by positivity) (by positivity),
    log_mul (by positivity) (by positivity)]
  simp only [log_pow]

theorem log2 : (0.69314718055994525:ℝ) ≤ log 2 ∧ log 2 ≤ (0.69314718055994536:ℝ) := by
  have h := atanh2
  rw [log_one] at h
  constructor <;> linarith [h.1, h.2]

theorem log3 : (1.09861228866810949:ℝ) ≤ log 3 ∧ log 3 ≤ (1.09861228866810990:ℝ) := by
  have h := atanh3
  constructor <;> linarith [h.1, h.2, log2.1, log2.2]

theorem log5 : (1.60943791243409937:ℝ) ≤ log 5 ∧ log 5 ≤ (1.60943791243410138:ℝ) := by
  have h := atanh5
  have hb : log (4:ℝ) = 2 * log 2 := by
    have h := logprod 2 0 0 0 0 0 0 0
    norm_num at h
    linarith
  rw [hb] at h
  constructor <;> linarith [h.1, h.2, log2.1, log2.2]

theorem log7 : (1.94591014905531230:ℝ) ≤ log 7 ∧ log 7 ≤ (1.94591014905531431:ℝ) := by
  have h := atanh7
  have hb : log (8:ℝ) = 3 * log 2 := by
    have h := logprod 3 0 0 0 0 0 0 0
    norm_num at h
    linarith
  rw [hb] at h
  constructor <;> linarith [h.1, h.2, log2.1, log2.2]

theorem log11 : (2.39789527279836954:ℝ) ≤ log 11 ∧ log 11 ≤ (2.39789527279837155:ℝ) := by
  have h := atanh11
  have hb : log (12:ℝ) = 2 * log 2 + 1 * log 3 := by
    have h := logprod 2 1 0 0 0 0 0 0
    norm_num at h
    linarith
  rw [hb] at h
  constructor <;> linarith [h.1, h.2, log2.1, log2.2, log3.1, log3.2]

theorem log13 : (2.56494935746153573:ℝ) ≤ log 13 ∧ log 13 ≤ (2.56494935746153774:ℝ) := by
  have h := atanh13
  have hb : log (12:ℝ) = 2 * log 2 + 1 * log 3 := by
    have h := logprod 2 1 0 0 0 0 0 0
    norm_num at h
    linarith
  rw [hb] at h
  constructor <;> linarith [h.1, h.2, log2.1, log2.2, log3.1, log3.2]

theorem log17 : (2.83321334405621508:ℝ) ≤ log 17 ∧ log 17 ≤ (2.83321334405621709:ℝ) := by
  have h := atanh17
  have hb : log (16:ℝ) = 4 * log 2 := by
    have h := logprod 4 0 0 0 0 0 0 0
    norm_num at h
    linarith
  rw [hb] at h
  constructor <;> linarith [h.1, h.2, log2.1, log2.2]

theorem log19 : (2.94443897916643946:ℝ) ≤ log 19 ∧ log 19 ≤ (2.94443897916644147:ℝ) := by
  have h := atanh19
  have hb : log (18:ℝ) = 1 * log 2 + 2 * log 3 := by
    have h := logprod 1 2 0 0 0 0 0 0
    norm_num at h
    linarith
  rw [hb] at h
  constructor <;> linarith [h.1, h.2, log2.1, log2.2, log3.1, log3.2]

end LogTab

open LogTab in
/-- the entries of the table, `ln 2` being exact, are within `1e-12` of `ln k!` -/
theorem table_bound :
    |(0:ℝ) - log ((Nat.factorial 0 : ℕ):ℝ)| ≤ 1/10^12 ∧
    |(0:ℝ) - log ((Nat.factorial 1 : ℕ):ℝ)| ≤ 1/10^12 ∧
    |(log 2:ℝ) - log ((Nat.factorial 2 : ℕ):ℝ)| ≤ 1/10^12 ∧
    |(1.791759469228055:ℝ) - log ((Nat.factorial 3 : ℕ):ℝ)| ≤ 1/10^12 ∧
    |(3.1780538303479458:ℝ) - log ((Nat.factorial 4 : ℕ):ℝ)| ≤ 1/10^12 ∧
    |(4.787491742782046:ℝ) - log ((Nat.factorial 5 : ℕ):ℝ)| ≤ 1/10^12 ∧
    |(6.579251212010101:ℝ) - log ((Nat.factorial 6 : ℕ):ℝ)| ≤ 1/10^12 ∧
    |(8.525161361065415:ℝ) - log ((Nat.factorial 7 : ℕ):ℝ)| ≤ 1/10^12 ∧
    |(10.60460290274525:ℝ) - log ((Nat.factorial 8 : ℕ):ℝ)| ≤ 1/10^12 ∧
    |(12.80182748008147:ℝ) - log ((Nat.factorial 9 : ℕ):ℝ)| ≤ 1/10^12 ∧
    |(15.104412573075518:ℝ) - log ((Nat.factorial 10 : ℕ):ℝ)| ≤ 1/10^12 ∧
    |(17.502307845873887:ℝ) - log ((Nat.factorial 11 : ℕ):ℝ)| ≤ 1/10^12 ∧
    |(19.98721449566189:ℝ) - log ((Nat.factorial 12 : ℕ):ℝ)| ≤ 1/10^12 ∧
    |(22.552163853123425:ℝ) - log ((Nat.factorial 13 : ℕ):ℝ)| ≤ 1/10^12 ∧
    |(25.191221182738683:ℝ) - log ((Nat.factorial 14 : ℕ):ℝ)| ≤ 1/10^12 ∧
    |(27.899271383840894:ℝ) - log ((Nat.factorial 15 : ℕ):ℝ)| ≤ 1/10^12 ∧
    |(30.671860106080675:ℝ) - log ((Nat.factorial 16 : ℕ):ℝ)| ≤ 1/10^12 ∧
    |(33.50507345013689:ℝ) - log ((Nat.factorial 17 : ℕ):ℝ)| ≤ 1/10^12 ∧
    |(36.39544520803305:ℝ) - log ((Nat.factorial 18 : ℕ):ℝ)| ≤ 1/10^12 ∧
    |(39.339884187199495:ℝ) - log ((Nat.factorial 19 : ℕ):ℝ)| ≤ 1/10^12 ∧
    |(42.335616460753485:ℝ) - log ((Nat.factorial 20 : ℕ):ℝ)| ≤ 1/10^12 := by
  refine ⟨?_, ?_, ?_, ?_, ?_, ?_, ?_, ?_, ?_, ?_, ?_, ?_, ?_, ?_, ?_, ?_, ?_, ?_, ?_, ?_, ?_⟩
  · rw [show ((Nat.factorial 0 : ℕ):ℝ) = (2:ℝ)^0 * 3^0 * 5^0 * 7^0 * 11^0 * 13^0 * 17^0 * 19^0 by
      norm_num [Nat.factorial], logprod, abs_le]
    push_cast
    constructor <;> linarith [log2.1, log2.2, log3.1, log3.2, log5.1, log5.2, log7.1, log7.2, log11.1,
      log11.2, log13.1, log13.2, log17.1, log17.2, log19.1, log19.2]
  · rw [show ((Nat.factorial 1 : ℕ):ℝ) = (2:ℝ)^0 * 3^0 * 5^0 * 7^0 * 11^0 * 13^0 * 17^0 * 19^0 by
      norm_num [Nat.factorial], logprod, abs_le]
    push_cast
    constructor <;> linarith [log2.1, log2.2, log3.1, log3.2, log5.1, log5.2, log7.1, log7.2, log11.1,
      log11.2, log13.1, log13.2, log17.1, log17.2, log19.1, log19.2]
  · rw [show ((Nat.factorial 2 : ℕ):ℝ) = (2:ℝ)^1 * 3^0 * 5^0 * 7^0 * 11^0 * 13^0 * 17^0 * 19^0 by
      norm_num [Nat.factorial], logprod, abs_le]
    push_cast
    constructor <;> linarith [log2.1, log2.2, log3.1, log3.2, log5.1, log5.2, log7.1, log7.2, log11.1,
      log11.2, log13.1, log13.2, log17.1, log17.2, log19.1, log19.2]
  · rw [show ((Nat.factorial 3 : ℕ):ℝ) = (2:ℝ)^1 * 3^1 * 5^0 * 7^0 * 11^0 * 13^0 * 17^0 * 19^0 by
      norm_num [Nat.factorial], logprod, abs_le]
    push_cast
    constructor <;> linarith [log2.1, log2.2, log3.1, log3.2, log5.1, log5.2, log7.1, log7.2, log11.1,
      log11.2, log13.1, log13.2, log17.1, log17.2, log19.1, log19.2]
  · rw [show ((Nat.factorial 4 : ℕ):ℝ) = (2:ℝ)^3 * 3^1 * 5^0 * 7^0 * 11^0 * 13^0 * 17^0 * 19^0 by
      norm_num [Nat.factorial], logprod, abs_le]
    push_cast
    constructor <;> linarith [log2.1, log2.2, log3.1, log3.2, log5.1, log5.2, log7.1, log7.2, log11.1,
      log11.2, log13.1, log13.2, log17.1, log17.2, log19.1, log19.2]
  · rw [show ((Nat.factorial 5 : ℕ):ℝ) = (2:ℝ)^3 * 3^1 * 5^1 * 7^0 * 11^0 * 13^0 * 17^0 * 19^0 by
      norm_num [Nat.factorial], logprod, abs_le]
    push_cast
    constructor <;> linarith [log2.1, log2.2, log3.1, log3.2, log5.1, log5.2, log7.1, log7.2, log11.1,
      log11.2, log13.1, log13.2, log17.1, log17.2, log19.1, log19.2]
  · rw [show ((Nat.factorial 6 : ℕ):ℝ) = (2:ℝ)^4 * 3^2 * 5^1 * 7^0 * 11^0 * 13^0 * 17^0 * 19^0 by
      norm_num [Nat.factorial], logprod, abs_le]
    push_cast
    constructor <;> linarith [log2.1, log2.2, log3.1, log3.2, log5.1, log5.2, log7.1, log7.2, log11.1,
      log11.2, log13.1, log13.2, log17.1, log17.2, log19.1, log19.2]
  · rw [show ((Nat.factorial 7 : ℕ):ℝ) = (2:ℝ)^4 * 3^2 * 5^1 * 7^1 * 11^0 * 13^0 * 17^0 * 19^0 by
      norm_num [Nat.factorial], logprod, abs_le]
    push_cast
    constructor <;> linarith [log2.1, log2.2, log3.1, log3.2, log5.1, log5.2, log7.1, log7.2, log11.1,
      log11.2, log13.1, log13.2, log17.1, log17.2, log19.1, log19.2]
  · rw [show ((Nat.factorial 8 : ℕ):ℝ) = (2:ℝ)^7 * 3^2 * 5^1 * 7^1 * 11^0 * 13^0 * 17^0 * 19^0 by
      norm_num [Nat.factorial], logprod, abs_le]
    push_cast
    constructor <;> linarith [log2.1, log2.2, log3.1, log3.2, log5.1, log5.2, log7.1, log7.2, log11.1,
      log11.2, log13.1, log13.2, log17.1, log17.2, log19.1, log19.2]
  · rw [show ((Nat.factorial 9 : ℕ):ℝ) = (2:ℝ)^7 * 3^4 * 5^1 * 7^1 * 11^0 * 13^0 * 17^0 * 19^0 by
      norm_num [Nat.factorial], logprod, abs_le]
    push_cast
    constructor <;> linarith [log2.1, log2.2, log3.1, log3.2, log5.1, log5.2, log7.1, log7.2, log11.1,
      log11.2, log13.1, log13.2, log17.1, log17.2, log19.1, log19.2]
  · rw [show ((Nat.factorial 10 : ℕ):ℝ) = (2:ℝ)^8 * 3^4 * 5^2 * 7^1 * 11^0 * 13^0 * 17^0 * 19^0 by
      norm_num [Nat.factorial], logprod, abs_le]
    push_cast
    constructor <;> linarith [log2.1, log2.2, log3.1, log3.2, log5.1, log5.2, log7.1, log7.2, log11.1,
      log11.2, log13.1, log13.2, log17.1, log17.2, log19.1, log19.2]
  · rw [show ((Nat.factorial 11 : ℕ):ℝ) = (2:ℝ)^8 * 3^4 * 5^2 * 7^1 * 11^1 * 13^0 * 17^0 * 19^0 by
      norm_num [Nat.factorial], logprod, abs_le]
    push_cast
    constructor <;> linarith [log2.1, log2.2, log3.1, log3.2, log5.1, log5.2, log7.1, log7.2, log11.1,
      log11.2, log13.1, log13.2, log17.1, log17.2, log19.1, log19.2]
  · rw [show ((Nat.factorial 12 : ℕ):ℝ) = (2:ℝ)^10 * 3^5 * 5^2 * 7^1 * 11^1 * 13^0 * 17^0 * 19^0 by
      norm_num [Nat.factorial], logprod, abs_le]
    push_cast
    constructor <;> linarith [log2.1, log2.2, log3.1, log3.2, log5.1, log5.2, log7.1, log7.2, log11.1,
      log11.2, log13.1, log13.2, log17.1, log17.2, log19.1, log19.2]
  · rw [show ((Nat.factorial 13 : ℕ):ℝ) = (2:ℝ)^10 * 3^5 * 5^2 * 7^1 * 11^1 * 13^1 * 17^0 * 19^0 by
      norm_num [Nat.factorial], logprod, abs_le]
    push_cast
    constructor <;> linarith [log2.1, log2.2, log3.1, log3.2, log5.1, log5.2, log7.1, log7.2, log11.1,
      log11.2, log13.1, log13.2, log17.1, log17.2, log19.1, log19.2]
  · rw [show ((Nat.factorial 14 : ℕ):ℝ) = (2:ℝ)^11 * 3^5 * 5^2 * 7^2 * 11^1 * 13^1 * 17^0 * 19^0 by
      norm_num [Nat.factorial], logprod, abs_le]
    push_cast
    constructor <;> linarith [log2.1, log2.2, log3.1, log3.2, log5.1, log5.2, log7.1, log7.2, log11.1,
      log11.2, log13.1, log13.2, log17.1, log17.2, log19.1, log19.2]
  · rw [show ((Nat.factorial 15 : ℕ):ℝ) = (2:ℝ)^11 * 3^6 * 5^3 * 7^2 * 11^1 * 13^1 * 17^0 * 19^0 by
      norm_num [Nat.factorial], logprod, abs_le]
    push_cast
    constructor <;> linarith [log2.1, log2.2, log3.1, log3.2, log5.1, log5.2, log7.1, log7.2, log11.1,
      log11.2, log13.1, log13.2, log17.1, log17.2, log19.1, log19.2]
  · rw [show ((Nat.factorial 16 : ℕ):ℝ) = (2:ℝ)^15 * 3^6 * 5^3 * 7^2 * 11^1 * 13^1 * 17^0 * 19^0 by
      norm_num [Nat.factorial], logprod, abs_le]
    push_cast
    constructor <;> linarith [log2.1, log2.2, log3.1, log3.2, log5.1, log5.2, log7.1, log7.2, log11.1,
      log11.2, log13.1, log13.2, log17.1, log17.2, log19.1, log19.2]
  · rw [show ((Nat.factorial 17 : ℕ):ℝ) = (2:ℝ)^15 * 3^6 * 5^3 * 7^2 * 11^1 * 13^1 * 17^1 * 19^0 by
      norm_num [Nat.factorial], logprod, abs_le]
    push_cast
    constructor <;> linarith [log2.1, log2.2, log3.1, log3.2, log5.1, log5.2, log7.1, log7.2, log11.1,
      log11.2, log13.1, log13.2, log17.1, log17.2, log19.1, log19.2]
  · rw [show ((Nat.factorial 18 : ℕ):ℝ) = (2:ℝ)^16 * 3^8 * 5^3 * 7^2 * 11^1 * 13^1 * 17^1 * 19^0 by
      norm_num [Nat.factorial], logprod, abs_le]
    push_cast
    constructor <;> linarith [log2.1, log2.2, log3.1, log3.2, log5.1, log5.2, log7.1, log7.2, log11.1,
      log11.2, log13.1, log13.2, log17.1, log17.2, log19.1, log19.2]
  · rw [show ((Nat.factorial 19 : ℕ):ℝ) = (2:ℝ)^16 * 3^8 * 5^3 * 7^2 * 11^1 * 13^1 * 17^1 * 19^1 by
      norm_num [Nat.factorial], logprod, abs_le]
    push_cast
    constructor <;> linarith [log2.1, log2.2, log3.1, log3.2, log5.1, log5.2, log7.1, log7.2, log11.1,
      log11.2, log13.1, log13.2, log17.1, log17.2, log19.1, log19.2]
  · rw [show ((Nat.factorial 20 : ℕ):ℝ) = (2:ℝ)^18 * 3^8 * 5^4 * 7^2 * 11^1 * 13^1 * 17^1 * 19^1 by
      norm_num [Nat.factorial], logprod, abs_le]
    push_cast
    constructor <;> linarith [log2.1, log2.2, log3.1, log3.2, log5.1, log5.2, log7.1, log7.2, log11.1,
      log11.2, log13.1, log13.2, log17.1, log17.2, log19.1, log19.2]

end Verif