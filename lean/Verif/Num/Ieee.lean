import Mathlib.Data.Int.Log
import Mathlib.Data.Rat.Floor
import Mathlib.Algebra.Order.Round
import Mathlib.Algebra.Ring.Parity
import Mathlib.Algebra.Order.Field.Power
import Mathlib.Tactic.Positivity
import Mathlib.Tactic.FieldSimp
import Mathlib.Tactic.Linarith

/-!
# Binary floating-point formats

IEEE-754 values as rational numbers together with infinities and NaN (signed zeros are
identified), the numbers a format can represent, and rounding to nearest, ties to even.
Used by the models of the numeric conversions and of the generated machine code.
-/

namespace Verif

/-- A floating-point value.  `-0` and `+0` are both `fin 0`. -/
inductive FVal where
  | nan
  | inf (negative : Bool)
  | fin (q : ℚ)
deriving DecidableEq, Repr

/-- A binary format: precision, exponent of the least positive number, and the exponent bound
(all finite numbers are below `2^emax` in absolute value). -/
structure Format where
  prec : ℕ
  emin : ℤ
  emax : ℤ

namespace Format

/-- IEEE binary64. -/
def f64 : Format := ⟨53, -1074, 1024⟩
/-- IEEE binary32. -/
def f32 : Format := ⟨24, -149, 128⟩

/-- The rational numbers the format can represent. -/
def Representable (f : Format) (q : ℚ) : Prop :=
  (∃ m e : ℤ, |m| < 2 ^ f.prec ∧ f.emin ≤ e ∧ q = m * 2 ^ e) ∧ |q| < 2 ^ f.emax

/-- The values of the format. -/
def Valid (f : Format) : FVal → Prop
  | .fin q => f.Representable q
  | _ => True

/-- The nearest integer, ties to even. -/
def roundEven (q : ℚ) : ℤ :=
  let n := ⌊q⌋
  if q - n < 1/2 then n
  else if q - n = 1/2 then (if Even n then n else n + 1)
  else n + 1

/-- Spacing exponent of the format at `q`. -/
def quantum (f : Format) (q : ℚ) : ℤ := max (Int.log 2 |q| - (f.prec - 1)) f.emin

/-- Rounding a rational number to the format. -/
def round (f : Format) (q : ℚ) : FVal :=
  let u : ℚ := 2 ^ f.quantum q
  let r : ℚ := roundEven (q / u) * u
  if |r| < 2 ^ f.emax then .fin r else .inf (decide (q < 0))

/-- Conversion of a value to the format (`as f32`, `as f64`). -/
def convert (f : Format) : FVal → FVal
  | .fin q => f.round q
  | x => x

theorem roundEven_nearest (q : ℚ) (k : ℤ) : |q - roundEven q| ≤ |q - k| := by
  have h0 : (⌊q⌋ : ℚ) ≤ q := Int.floor_le q
  have h1 : q < ⌊q⌋ + 1 := Int.lt_floor_add_one q
  have hk : (k : ℚ) ≤ ⌊q⌋ ∨ (⌊q⌋ : ℚ) + 1 ≤ k := by
    rcases le_or_gt k ⌊q⌋ with h | h
    · left; exact_mod_cast h
    · right; exact_mod_cast h
  have hlo : q - ⌊q⌋ ≤ 1/2 → |q - ⌊q⌋| ≤ |q - k| := by
    intro h
    rw [abs_of_nonneg (by linarith)]
    rcases hk with hk | hk
    · rw [abs_of_nonneg (by linarith)]; linarith
    · rw [abs_of_nonpos (by linarith)]; linarith
  have hhi : 1/2 ≤ q - ⌊q⌋ → |q - ((⌊q⌋ + 1 : ℤ) : ℚ)| ≤ |q - k| := by
    intro h
    push_cast
    rw [abs_of_nonpos (by linarith)]
    rcases hk with hk | hk
    · rw [abs_of_nonneg (by linarith)]; linarith
    · rw [abs_of_nonpos (by linarith)]; linarith
  unfold roundEven
  simp only
  split_ifs with h2 h3 h4
  · exact hlo h2.le
  · exact hlo h3.le
  · exact hhi h3.ge
  · exact hhi (not_lt.mp h2)

theorem roundEven_int (n : ℤ) : roundEven n = n := by
  simp [roundEven]

theorem roundEven_error (q : ℚ) : |q - roundEven q| ≤ 1/2 := by
  have h := roundEven_nearest q (⌊q + 1/2⌋)
  have h0 := Int.floor_le (q + 1/2)
  have h1 := Int.lt_floor_add_one (q + 1/2)
  refine h.trans (abs_le.mpr ⟨by linarith, by linarith⟩)

theorem abs_lt_quantum (f : Format) (q : ℚ) : |q| < 2 ^ (f.quantum q + f.prec) := by
  rcases eq_or_ne q 0 with rfl | h
  · simp; positivity
  have h2 : |q| < (2 : ℕ) ^ (Int.log 2 |q| + 1) :=
    Int.lt_zpow_succ_log_self (by norm_num) _
  refine lt_of_lt_of_le (by exact_mod_cast h2) (zpow_le_zpow_right₀ (by norm_num) ?_)
  unfold quantum
  have := le_max_left (Int.log 2 |q| - ((f.prec : ℤ) - 1)) f.emin
  omega

theorem quantum_le_abs (f : Format) (q : ℚ) (h0 : q ≠ 0) (h : f.emin < f.quantum q) :
    2 ^ (f.quantum q + (f.prec - 1)) ≤ |q| := by
  have h1 : f.quantum q = Int.log 2 |q| - (f.prec - 1) := by
    unfold quantum at h ⊢
    rcases max_choice (Int.log 2 |q| - ((f.prec : ℤ) - 1)) f.emin with h2 | h2
    · exact h2
    · rw [h2] at h; exact absurd h (lt_irrefl _)
  rw [h1]
  have := Int.zpow_log_le_self (b := 2) (r := |q|) (by norm_num) (abs_pos.mpr h0)
  have h2 : (Int.log 2 |q| - ((f.prec : ℤ) - 1) + (f.prec - 1)) = Int.log 2 |q| := by ring
  rw [h2]
  exact_mod_cast this

theorem roundEven_le (q : ℚ) (n : ℤ) (h : |q| ≤ n) : |roundEven q| ≤ n := by
  have hf : ∀ q : ℚ, q ≤ n → roundEven q ≤ n := by
    intro q h
    unfold roundEven
    have h1 : ⌊q⌋ ≤ n := by exact_mod_cast (Int.floor_le q).trans h
    have key : 1/2 ≤ q - ⌊q⌋ → ⌊q⌋ + 1 ≤ n := by
      intro h2
      have : (⌊q⌋ : ℚ) < n := by linarith
      exact_mod_cast this
    simp only
    split_ifs with h2 h3 h4
    · exact h1
    · exact h1
    · exact key h3.ge
    · exact key (not_lt.mp h2)
  have hg : ∀ q : ℚ, -(n : ℚ) ≤ q → -n ≤ roundEven q := by
    intro q h
    unfold roundEven
    have h1 : -n ≤ ⌊q⌋ := Int.le_floor.mpr (by push_cast; exact h)
    simp only
    split_ifs <;> omega
  rw [abs_le] at h ⊢
  exact ⟨hg q h.1, hf q h.2⟩

/-- Rounding produces a value of the format. -/
theorem round_valid (f : Format) (hp : 1 ≤ f.prec) (q : ℚ) : f.Valid (f.round q) := by
  unfold round
  simp only
  split_ifs with h
  · refine ⟨?_, h⟩
    set u : ℚ := 2 ^ f.quantum q with hu
    have hu0 : 0 < u := by positivity
    have hle : |roundEven (q / u)| ≤ 2 ^ f.prec := by
      have := roundEven_le (q / u) (2 ^ f.prec) (by
        rw [abs_div, abs_of_pos hu0, div_le_iff₀ hu0]
        have h2 := (f.abs_lt_quantum q).le
        rw [zpow_add₀ (by norm_num)] at h2
        rw [mul_comm]
        push_cast
        exact_mod_cast h2)
      exact this
    rcases hle.lt_or_eq with hlt | heq
    · exact ⟨_, _, hlt, le_max_right _ _, rfl⟩
    · refine ⟨(roundEven (q / u)).sign, f.quantum q + f.prec, ?_, ?_, ?_⟩
      · have h1 : |(roundEven (q / u)).sign| ≤ 1 := by
          rcases Int.sign_trichotomy (roundEven (q / u)) with h | h | h <;> rw [h] <;> norm_num
        have h2 : (2 : ℤ) ≤ 2 ^ f.prec := by
          calc (2 : ℤ) = 2 ^ 1 := by norm_num
            _ ≤ 2 ^ f.prec := pow_le_pow_right₀ (by norm_num) hp
        omega
      · have := le_max_right (Int.log 2 |q| - ((f.prec : ℤ) - 1)) f.emin
        unfold quantum; omega
      · rw [zpow_add₀ (by norm_num), zpow_natCast, mul_comm ((2:ℚ) ^ f.quantum q), ← mul_assoc]
        congr 1
        have h3 := Int.sign_mul_abs (roundEven (q / u))
        rw [heq] at h3
        exact_mod_cast h3.symm
  · trivial

/-- Among the numbers of the format none is nearer than the rounded one. -/
theorem round_nearest (f : Format) {q r : ℚ} (h : f.round q = .fin r) {s : ℚ}
    (hs : f.Representable s) : |q - r| ≤ |q - s| := by
  unfold round at h
  simp only at h
  split_ifs at h with hlt
  obtain rfl : _ = r := FVal.fin.inj h
  set u : ℚ := 2 ^ f.quantum q with hu
  have hu0 : 0 < u := by positivity
  have hmul : ∀ k : ℤ, |q - roundEven (q / u) * u| ≤ |q - k * u| := by
    intro k
    have := roundEven_nearest (q / u) k
    have e : ∀ x : ℚ, |q - x * u| = |q / u - x| * u := by
      intro x
      rw [← abs_of_pos hu0, ← abs_mul, abs_of_pos hu0]
      congr 1
      field_simp
    rw [e, e]
    exact mul_le_mul_of_nonneg_right this hu0.le
  obtain ⟨⟨m, e, hm, he, rfl⟩, -⟩ := hs
  rcases le_or_gt (f.quantum q) e with hq | hq
  · obtain ⟨d, hd⟩ := Int.le.dest hq
    have := hmul (m * 2 ^ d)
    have h2 : ((m * 2 ^ d : ℤ) : ℚ) * u = m * 2 ^ e := by
      rw [← hd, zpow_add₀ (by norm_num), hu, zpow_natCast]; push_cast; ring
    rwa [h2] at this
  · have hlt' : f.emin < f.quantum q := lt_of_le_of_lt he hq
    rcases eq_or_ne q 0 with rfl | h0
    · have := hmul 0
      simp only [Int.cast_zero, zero_mul, sub_zero, abs_zero] at this
      exact this.trans (abs_nonneg _)
    have hbig := f.quantum_le_abs q h0 hlt'
    have hsmall : |(m : ℚ) * 2 ^ e| ≤ 2 ^ (f.quantum q + (f.prec - 1)) := by
      rw [abs_mul, abs_of_pos (by positivity : (0 : ℚ) < 2 ^ e)]
      have h1 : (|m| : ℚ) ≤ 2 ^ f.prec := by exact_mod_cast hm.le
      calc |(m : ℚ)| * 2 ^ e ≤ 2 ^ f.prec * 2 ^ e := by
            apply mul_le_mul_of_nonneg_right _ (by positivity)
            exact_mod_cast h1
        _ = 2 ^ (f.prec + e : ℤ) := by rw [zpow_add₀ (by norm_num), zpow_natCast]
        _ ≤ 2 ^ (f.quantum q + (f.prec - 1)) := zpow_le_zpow_right₀ (by norm_num) (by omega)
    rcases Nat.eq_zero_or_pos f.prec with hp | hp
    · have hm0 : m = 0 := by
        rw [hp] at hm
        have : |m| < 1 := by simpa using hm
        exact Int.abs_lt_one_iff.mp this
      subst hm0
      have := hmul 0
      simpa using this
    have hpow : (2 : ℚ) ^ (f.quantum q + ((f.prec : ℤ) - 1)) = ((2 ^ (f.prec - 1) : ℤ) : ℚ) * u := by
      rw [zpow_add₀ (by norm_num), mul_comm, hu]
      congr 1
      have : ((f.prec : ℤ) - 1) = ((f.prec - 1 : ℕ) : ℤ) := by omega
      rw [this, zpow_natCast]; push_cast; rfl
    rw [hpow] at hbig hsmall
    rw [abs_le] at hsmall
    rcases lt_or_gt_of_ne h0 with hneg | hpos
    · have := hmul (-(2 ^ (f.prec - 1)))
      rw [abs_of_neg hneg] at hbig
      refine this.trans ?_
      push_cast at hbig hsmall ⊢
      rw [abs_of_nonpos (by linarith), abs_of_nonpos (by linarith)]
      linarith
    · have := hmul (2 ^ (f.prec - 1))
      rw [abs_of_pos hpos] at hbig
      refine this.trans ?_
      push_cast at hbig hsmall ⊢
      rw [abs_of_nonneg (by linarith), abs_of_nonneg (by linarith)]
      linarith

/-- Numbers of the format round to themselves. -/
theorem round_exact (f : Format) {q : ℚ} (h : f.Representable q) : f.round q = .fin q := by
  have key : roundEven (q / 2 ^ f.quantum q) * 2 ^ f.quantum q = q := by
    obtain ⟨⟨m, e, hm, he, hq⟩, -⟩ := h
    have hu0 : (0 : ℚ) < 2 ^ f.quantum q := by positivity
    rcases eq_or_ne q 0 with h0 | h0
    · rw [h0]; simp [roundEven]
    have hle : f.quantum q ≤ e := by
      unfold quantum
      refine max_le ?_ he
      have h1 : |q| < 2 ^ (f.prec + e : ℤ) := by
        rw [hq, abs_mul, abs_of_pos (by positivity : (0 : ℚ) < 2 ^ e), zpow_add₀ (by norm_num),
          zpow_natCast]
        exact mul_lt_mul_of_pos_right (by exact_mod_cast hm) (by positivity)
      have h2 := Int.zpow_log_le_self (b := 2) (r := |q|) (by norm_num) (abs_pos.mpr h0)
      have h3 : (2 : ℚ) ^ Int.log 2 |q| < 2 ^ (f.prec + e : ℤ) :=
        lt_of_le_of_lt (by exact_mod_cast h2) h1
      have := (zpow_lt_zpow_iff_right₀ (by norm_num : (1 : ℚ) < 2)).mp h3
      omega
    obtain ⟨d, hd⟩ := Int.le.dest hle
    have : q / 2 ^ f.quantum q = ((m * 2 ^ d : ℤ) : ℚ) := by
      rw [div_eq_iff hu0.ne']
      conv_lhs => rw [hq, ← hd, zpow_add₀ (by norm_num), zpow_natCast]
      push_cast; ring
    rw [this, roundEven_int, ← this]
    field_simp
  unfold round
  simp only [key]
  rw [if_pos h.2]

/-- The relative error is at most half a unit in the last place, above the subnormal range. -/
theorem round_error (f : Format) {q r : ℚ} (h : f.round q = .fin r)
    (hn : f.emin + (f.prec - 1) ≤ Int.log 2 |q|) : |q - r| ≤ |q| / 2 ^ f.prec := by
  rcases eq_or_ne q 0 with rfl | h0
  · have : f.Representable 0 := ⟨⟨0, f.emin, by simp, le_rfl, by simp⟩, by simp; positivity⟩
    have h' := f.round_exact this
    rw [h] at h'
    obtain rfl := FVal.fin.inj h'
    simp
  unfold round at h
  simp only at h
  split_ifs at h with hlt
  obtain rfl : _ = r := FVal.fin.inj h
  set u : ℚ := 2 ^ f.quantum q with hu
  have hu0 : 0 < u := by positivity
  have hq : f.quantum q = Int.log 2 |q| - (f.prec - 1) := max_eq_left (by omega)
  have h1 : |q - roundEven (q / u) * u| ≤ u / 2 := by
    have := roundEven_error (q / u)
    have e : |q - roundEven (q / u) * u| = |q / u - roundEven (q / u)| * u := by
      rw [← abs_of_pos hu0, ← abs_mul, abs_of_pos hu0]
      congr 1
      field_simp
    rw [e]
    nlinarith
  refine h1.trans ?_
  have h2 := Int.zpow_log_le_self (b := 2) (r := |q|) (by norm_num) (abs_pos.mpr h0)
  rw [le_div_iff₀ (by positivity)]
  calc u / 2 * 2 ^ f.prec = 2 ^ (Int.log 2 |q|) := by
        rw [hu, hq, sub_sub_eq_add_sub, zpow_sub₀ (by norm_num), zpow_add₀ (by norm_num)]
        rw [zpow_natCast]
        have : (2 : ℚ) ^ f.prec ≠ 0 := by positivity
        field_simp
    _ ≤ |q| := by exact_mod_cast h2

theorem log_abs_eq {q : ℚ} {L : ℤ} (h1 : 2 ^ L ≤ |q|) (h2 : |q| < 2 ^ (L + 1)) :
    Int.log 2 |q| = L := by
  have hpos : 0 < |q| := lt_of_lt_of_le (by positivity) h1
  apply le_antisymm
  · have h3 := Int.zpow_log_le_self (b := 2) (by norm_num) hpos
    have h4 : (2 : ℚ) ^ Int.log 2 |q| < 2 ^ (L + 1) := lt_of_le_of_lt (by exact_mod_cast h3) h2
    have := (zpow_lt_zpow_iff_right₀ (by norm_num : (1 : ℚ) < 2)).mp h4
    omega
  · exact (Int.zpow_le_iff_le_log (by norm_num) hpos).mp (by exact_mod_cast h1)

theorem roundEven_eq {q : ℚ} {n : ℤ} (h : |q - n| ≤ 1/2) (he : |q - n| < 1/2 ∨ Even n) :
    roundEven q = n := by
  rw [abs_le] at h
  rcases le_or_gt (n : ℚ) q with hn | hn
  · have hf : ⌊q⌋ = n := Int.floor_eq_iff.mpr ⟨hn, by linarith⟩
    unfold roundEven
    simp only [hf]
    rcases h.2.lt_or_eq with h2 | h2
    · rw [if_pos h2]
    · rw [if_neg (by linarith), if_pos h2, if_pos]
      rcases he with he | he
      · rw [abs_of_nonneg (by linarith)] at he; linarith
      · exact he
  · have hf : ⌊q⌋ = n - 1 := Int.floor_eq_iff.mpr ⟨by push_cast; linarith, by push_cast; linarith⟩
    unfold roundEven
    simp only [hf]
    push_cast
    rw [if_neg (by linarith)]
    rcases h.1.lt_or_eq with h2 | h2
    · rw [if_neg (by linarith)]; ring
    · rw [if_pos (by linarith), if_neg]
      · ring
      · rcases he with he | he
        · rw [abs_of_neg (by linarith)] at he; linarith
        · intro h3
          have := he.sub h3
          simp at this

/-- Rounding of a concrete number in the normal range. -/
theorem round_eval (f : Format) {q : ℚ} (L n : ℤ) (h1 : 2 ^ L ≤ |q|) (h2 : |q| < 2 ^ (L + 1))
    (hL : f.emin ≤ L - (f.prec - 1)) (h : |q / 2 ^ (L - (f.prec - 1)) - n| ≤ 1/2)
    (he : |q / 2 ^ (L - (f.prec - 1)) - n| < 1/2 ∨ Even n)
    (hx : |(n : ℚ) * 2 ^ (L - (f.prec - 1))| < 2 ^ f.emax) :
    f.round q = .fin (n * 2 ^ (L - (f.prec - 1))) := by
  have hq : f.quantum q = L - (f.prec - 1) := by
    unfold quantum; rw [log_abs_eq h1 h2, max_eq_left hL]
  unfold round
  simp only [hq, roundEven_eq h he]
  rw [if_pos hx]

theorem lt_f64_max {q : ℚ} (h : |q| ≤ 2 ^ (64 : ℤ)) : |q| < 2 ^ f64.emax :=
  lt_of_le_of_lt h (zpow_lt_zpow_right₀ (by norm_num) (by norm_num [f64]))

end Format
end Verif
