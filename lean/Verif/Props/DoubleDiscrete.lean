import Verif.Props.DoubleGamma
import Verif.Props.DoubleSum
import Verif.Model.DistDiscrete
import Verif.Lemmas.Stirling
import Verif.Lemmas.LogTable

/-!
# C101: log-masses of the discrete distributions in floating point
-/

namespace Verif
open Format FloatOps

variable {f : Format} {L : Libm}

/-! ### integers -/

theorem rep_nat (hf : f.Std) {n : ℕ} (h : n ≤ 2 ^ f.prec) : f.Representable (n : ℚ) := by
  have hp := hf.prec_ge
  have he := hf.emin_le
  have hx := hf.emax_ge
  have hpl := hf.prec_le
  rcases lt_or_eq_of_le h with hlt | heq
  · refine ⟨⟨n, 0, by rw [abs_of_nonneg (by positivity)]; exact_mod_cast hlt, by omega, by simp⟩, ?_⟩
    rw [abs_of_nonneg (by positivity)]
    calc (n : ℚ) < 2 ^ f.prec := by exact_mod_cast hlt
      _ = 2 ^ (f.prec : ℤ) := by rw [zpow_natCast]
      _ ≤ 2 ^ f.emax := zpow_le_zpow_right₀ (by norm_num) (by rcases hf with rfl | rfl <;> decide)
  · rw [heq]
    push_cast
    rw [← zpow_natCast]
    exact rep_pow f (by omega) (by omega) (by rcases hf with rfl | rfl <;> decide)

theorem ofNat_flt (hf : f.Std) {n : ℕ} (h : n ≤ 2 ^ f.prec) :
    (FloatOps.ofNat n : Flt f L) = Flt.fin (f := f) (L := L) (n : ℚ) :=
  f.round_exact (rep_nat hf h)

theorem App.nat (hf : f.Std) {n : ℕ} (h : n ≤ 2 ^ f.prec) : App f 0 (.fin (n : ℚ)) n n := by
  have := App.exact (rep_nat hf h)
  push_cast at this
  rwa [abs_of_nonneg (by positivity)] at this

/-- sums and differences of integers of the format are exact -/
theorem add_nat (hf : f.Std) {a b : ℕ} (h : a + b ≤ 2 ^ f.prec) :
    Flt.add f (.fin (a : ℚ)) (.fin (b : ℚ)) = .fin ((a + b : ℕ) : ℚ) := by
  show f.round _ = _
  rw [← Nat.cast_add]; exact f.round_exact (rep_nat hf h)

theorem sub_nat (hf : f.Std) {a b : ℕ} (hab : b ≤ a) (h : a ≤ 2 ^ f.prec) :
    Flt.sub f (.fin (a : ℚ)) (.fin (b : ℚ)) = .fin ((a - b : ℕ) : ℚ) := by
  rw [sub_fin, ← Nat.cast_sub hab]; exact f.round_exact (rep_nat hf (by omega))

theorem two_pow_prec (hf : f.Std) {n : ℕ} (h : n ≤ 2 ^ f.prec) : (n : ℝ) ≤ 2 ^ 53 := by
  have h1 : (n : ℝ) ≤ 2 ^ f.prec := by exact_mod_cast h
  exact h1.trans (pow_le_pow_right₀ (by norm_num) hf.prec_le)

/-- the complement `1 - p` -/
theorem App.compl (hf : f.Std) {p : ℚ} (h : f.Representable p) (h0 : 0 ≤ p) (h1 : p < 1) :
    App f 1 (Flt.sub f (.fin 1) (.fin p)) (1 - (p : ℝ)) (1 - (p : ℝ)) := by
  have h0' : (0 : ℝ) ≤ p := by exact_mod_cast h0
  have h1' : (p : ℝ) < 1 := by exact_mod_cast h1
  have := App.add_pos hf hf.rep_one (rep_neg h) (by push_cast; linarith)
    (by push_cast; norm_num; linarith)
  push_cast at this
  rw [← sub_eq_add_neg] at this
  exact this

theorem App.ln_compl (hf : f.Std) (hL : L.Accurate f) {p : ℚ} (h : f.Representable p) (h0 : 0 ≤ p)
    (h1 : p < 1) : App f 5 (Flt.ln L (Flt.sub f (.fin 1) (.fin p))) (Real.log (1 - (p : ℝ)))
      (1 + |Real.log (1 - (p : ℝ))|) :=
  App.ln hf hL (App.compl hf h h0 h1) (by have : (p : ℝ) < 1 := by exact_mod_cast h1
                                          linarith) (by norm_num) (by norm_num) (by norm_num)

/-- the logarithm of `1 - p` is moderate: `1 - p` is at least the spacing of the format near one -/
theorem log_compl_le (hf : f.Std) {p : ℚ} (h : f.Representable p) (h0 : 0 ≤ p) (h1 : p < 1) :
    |Real.log (1 - (p : ℝ))| ≤ 40 := by
  have h1' : (p : ℝ) < 1 := by exact_mod_cast h1
  have h0' : (0 : ℝ) ≤ p := by exact_mod_cast h0
  have hd := rep_ne_one hf h h1.ne
  rw [abs_of_neg (by linarith)] at hd
  have hug := u_ge hf
  rw [abs_of_nonpos (Real.log_nonpos (by linarith) (by linarith))]
  have h2 : Real.log (1 / 2 ^ 53) ≤ Real.log (1 - p) :=
    Real.log_le_log (by norm_num) (by linarith)
  rw [one_div, Real.log_inv, Real.log_pow] at h2
  have := Real.log_two_lt_d9
  norm_num at h2
  linarith

/-! ### Bernoulli -/

theorem Bernoulli.new_flt {p : ℚ} {d : Bernoulli (Flt f L)}
    (h : Bernoulli.new (Flt.fin p) = .ok d) : 0 ≤ p ∧ p ≤ 1 ∧ d = ⟨Flt.fin p⟩ := by
  unfold Bernoulli.new at h
  split_ifs at h with h1
  · have h2 : (decide ((0 : ℚ) ≤ p) && decide (p ≤ 1)) = true := h1
    simp only [Bool.and_eq_true, decide_eq_true_eq] at h2
    exact ⟨h2.1, h2.2, by cases h; rfl⟩

theorem ln_zero_flt : Flt.ln L (.fin 0) = .inf true := by simp [Flt.ln]

/-- **C101** (Bernoulli): the log-mass of an outcome of positive probability is within five units of
roundoff of its logarithm; of an outcome of probability zero, and of every byte other than zero and
one, it is exactly `-∞`. -/
theorem C101_bernoulli (hf : f.Std) (hL : L.Accurate f) {p : ℚ} (hp : f.Representable p)
    {d : Bernoulli (Flt f L)} (h : Bernoulli.new (Flt.fin p) = .ok d) (x : UInt8) {m : ℝ}
    (hm : m = if x = 1 then (p : ℝ) else if x = 0 then 1 - p else 0) :
    (0 < m → ∃ r : ℚ, logDensityWrtRoot d x = Flt.fin (f := f) (L := L) r ∧ f.Representable r ∧
      |(r : ℝ) - Real.log m| ≤ 5 * f.u * (1 + |Real.log m|)) ∧
    (m = 0 → logDensityWrtRoot d x = Flt.negInf (f := f) (L := L)) ∧ 0 ≤ m := by
  obtain ⟨h0, h1, rfl⟩ := Bernoulli.new_flt h
  have h0' : (0 : ℝ) ≤ p := by exact_mod_cast h0
  have h1' : (p : ℝ) ≤ 1 := by exact_mod_cast h1
  have e : (logDensityWrtRoot (⟨Flt.fin p⟩ : Bernoulli (Flt f L)) x : Flt f L) =
      if x = 0 then Flt.ln L (Flt.sub f (.fin 1) (.fin p)) else if x = 1 then Flt.ln L (.fin p)
      else Flt.negInf (f := f) (L := L) := rfl
  rw [e]
  by_cases hx0 : x = 0
  · subst hx0
    rw [if_pos rfl]
    simp only [show ((0 : UInt8) = 1) = False by decide, if_false, if_true] at hm
    subst hm
    refine ⟨fun hlt => ?_, fun h2 => ?_, by linarith⟩
    · exact App.result (App.ln_compl hf hL hp h0 (by
        have : (p : ℝ) < 1 := by linarith
        exact_mod_cast this))
    · have hp1 : p = 1 := by
        have : (p : ℝ) = 1 := by linarith
        exact_mod_cast this
      subst hp1
      have : Flt.sub f (.fin 1) (.fin 1) = .fin 0 := by
        rw [sub_fin, sub_self]; exact f.round_exact (rep_zero f)
      rw [this]; exact ln_zero_flt
  · rw [if_neg hx0]
    by_cases hx1 : x = 1
    · rw [if_pos hx1]
      rw [if_pos hx1] at hm
      subst hm
      refine ⟨fun hlt => ?_, fun h2 => ?_, h0'⟩
      · exact App.result ((App.ln_exact hf hL (by exact_mod_cast hlt) hp).mono (by norm_num)
          (by linarith))
      · have hp1 : p = 0 := by exact_mod_cast h2
        subst hp1; exact ln_zero_flt
    · rw [if_neg hx1]
      rw [if_neg hx1, if_neg hx0] at hm
      subst hm
      exact ⟨fun h => absurd h (lt_irrefl _), fun _ => rfl, le_rfl⟩

/-! ### Categorical -/

/-- **C101** (categorical): the log-mass of a category of positive probability is within two units of
roundoff of its logarithm; of a category of probability zero, and of every number that is not a
category, it is exactly `-∞`. -/
theorem C101_categorical (hf : f.Std) (hL : L.Accurate f) {ps : List ℚ}
    (hp : ∀ p ∈ ps, f.Representable p) {d : Categorical (Flt f L)}
    (h : Categorical.new (ps.map (Flt.fin (f := f) (L := L))) = .ok d) :
    (∀ i (hi : i < ps.length), 0 < ps[i] → ∃ r : ℚ,
      logDensityWrtRoot d i = Flt.fin (f := f) (L := L) r ∧ f.Representable r ∧
      |(r : ℝ) - Real.log ps[i]| ≤ 2 * f.u * |Real.log ps[i]|) ∧
    (∀ i (hi : i < ps.length), ps[i] = 0 → logDensityWrtRoot d i = Flt.negInf (f := f) (L := L)) ∧
    (∀ i, ps.length ≤ i → logDensityWrtRoot d i = Flt.negInf (f := f) (L := L)) ∧
    (∀ p ∈ ps, 0 ≤ p) := by
  have hd : d = ⟨ps.map (Flt.fin (f := f) (L := L))⟩ ∧ ∀ p ∈ ps, 0 ≤ p := by
    unfold Categorical.new at h
    split_ifs at h with h1 h2 h3
    · refine ⟨by cases h; rfl, fun p hp => ?_⟩
      simp only [Bool.not_eq_true', Bool.not_eq_false, List.all_map, List.all_eq_true] at h2
      have : decide ((0 : ℚ) ≤ p) = true := h2 p hp
      simpa using this
  obtain ⟨rfl, hnn⟩ := hd
  have key : ∀ i (hi : i < ps.length), (logDensityWrtRoot
      (⟨ps.map (Flt.fin (f := f) (L := L))⟩ : Categorical (Flt f L)) i : Flt f L) =
      Flt.ln L (.fin ps[i]) := by
    intro i hi
    have e : (ps.map (Flt.fin (f := f) (L := L)))[i]? = some (Flt.fin ps[i]) := by
      rw [List.getElem?_map, List.getElem?_eq_getElem hi]; rfl
    simp only [logDensityWrtRoot, e]
    rfl
  refine ⟨fun i hi hpos => ?_, fun i hi h0 => ?_, fun i hi => ?_, hnn⟩
  · rw [key i hi]
    exact App.result (App.ln_exact hf hL hpos (hp _ (List.getElem_mem hi)))
  · rw [key i hi, h0]; exact ln_zero_flt
  · have e : (ps.map (Flt.fin (f := f) (L := L)))[i]? = none := by
      rw [List.getElem?_map, List.getElem?_eq_none hi]; rfl
    simp only [logDensityWrtRoot, e]
    rfl

/-! ### Geometric -/

theorem Geometric.new_flt {p : ℚ} {d : Geometric (Flt f L)}
    (h : Geometric.new (Flt.fin p) = .ok d) : 0 < p ∧ p ≤ 1 ∧ d = ⟨Flt.fin p⟩ := by
  unfold Geometric.new at h
  split_ifs at h with h1
  · have h2 : (decide ((0 : ℚ) < p) && decide (p ≤ 1)) = true := h1
    simp only [Bool.and_eq_true, decide_eq_true_eq] at h2
    exact ⟨h2.1, h2.2, by cases h; rfl⟩

theorem geometric_flt (hf : f.Std) (p : ℚ) {k : ℕ} (hk : k ≤ 2 ^ f.prec) :
    (logDensityWrtRoot (⟨Flt.fin p⟩ : Geometric (Flt f L)) k : Flt f L) =
      if 1 ≤ k then Flt.add f (Flt.mul f (Flt.sub f (.fin (k : ℚ)) (.fin 1))
        (Flt.ln L (Flt.sub f (.fin 1) (.fin p)))) (Flt.ln L (.fin p))
      else Flt.negInf (f := f) (L := L) := by
  show (if 1 ≤ k then Flt.add f (Flt.mul f (Flt.sub f (FloatOps.ofNat k : Flt f L) (.fin 1))
        (Flt.ln L (Flt.sub f (.fin 1) (.fin p)))) (Flt.ln L (.fin p))
      else Flt.negInf (f := f) (L := L)) = _
  rw [ofNat_flt hf hk]

/-- **C101** (geometric): for a probability below one and a count up to `2^prec` the log-mass is within
`11` units of roundoff of the true value, relative to one plus the count and the terms; it is `-∞` at
zero. -/
theorem C101_geometric_partial (hf : f.Std) (hL : L.Accurate f) {p : ℚ} (hp : f.Representable p)
    {d : Geometric (Flt f L)} (h : Geometric.new (Flt.fin p) = .ok d) (hp1 : p ≠ 1) {k : ℕ}
    (hk : k ≤ 2 ^ f.prec) :
    (1 ≤ k → ∃ r : ℚ, logDensityWrtRoot d k = Flt.fin (f := f) (L := L) r ∧ f.Representable r ∧
      |(r : ℝ) - Real.log ((1 - (p : ℝ)) ^ (k - 1) * p)| ≤
        11 * f.u * (1 + ((k : ℝ) - 1) * (1 + |Real.log (1 - p)|) + |Real.log p|)) ∧
    (k = 0 → logDensityWrtRoot d k = Flt.negInf (f := f) (L := L)) := by
  obtain ⟨h0, h1, rfl⟩ := Geometric.new_flt h
  have h1 : p < 1 := lt_of_le_of_ne h1 hp1
  have h0' : (0 : ℝ) < p := by exact_mod_cast h0
  have h1' : (p : ℝ) < 1 := by exact_mod_cast h1
  rw [geometric_flt hf p hk]
  refine ⟨fun hk1 => ?_, fun hk0 => if_neg (by omega)⟩
  rw [if_pos hk1]
  have hs := sub_nat hf (a := k) (b := 1) hk1 hk
  rw [Nat.cast_one] at hs
  have e0 : Flt.sub f (.fin (k : ℚ)) (.fin 1) = .fin ((k - 1 : ℕ) : ℚ) := hs
  rw [e0, Real.log_mul (pow_pos (by linarith) _).ne' h0'.ne', Real.log_pow]
  have hk53 := two_pow_prec hf (n := k - 1) (by omega)
  have ek : ((k - 1 : ℕ) : ℝ) = (k : ℝ) - 1 := by rw [Nat.cast_sub hk1, Nat.cast_one]
  have hl1 := log_compl_le hf hp h0.le h1
  have hl2 := log_rep_le hf h0 hp
  have hn : (0 : ℝ) ≤ ((k - 1 : ℕ) : ℝ) := by positivity
  have hprod : ((k - 1 : ℕ) : ℝ) * (1 + |Real.log (1 - (p : ℝ))|) ≤ 2 ^ 53 * 41 :=
    mul_le_mul hk53 (by linarith) (by positivity) (by positivity)
  have t1 := App.mul hf (App.nat hf (n := k - 1) (by omega)) (App.ln_compl hf hL hp h0.le h1)
    (m := 9) le_rfl (by norm_num) (by norm_num) (by norm_num) (hprod.trans (by norm_num))
  have t2 := App.add hf t1 (App.ln_exact hf hL h0 hp) (m := 11) (by norm_num) (by norm_num)
    (by norm_num) (by
      have : (2 : ℝ) ^ 53 * 41 + 1 + 1100 ≤ 2 ^ 90 := by norm_num
      linarith)
  refine App.result (t2.mono ⟨by norm_num, le_rfl⟩ ?_)
  rw [ek]; linarith

/-- **C101** (geometric): the count in the bound is needed: with `p = 2^-60` the code computes
`ln(1-p) = 0`, so at `2^53` the log-mass is off by more than `2^38` units of roundoff relative to the
true value. -/
theorem C101_geometric_violated (hL : L.Accurate f64) :
    ∃ (p : ℚ) (k : ℕ), f64.Representable p ∧ k ≤ 2 ^ 53 ∧
      ∃ d : Geometric (Flt f64 L), Geometric.new (Flt.fin p) = .ok d ∧
        ∃ r : ℚ, logDensityWrtRoot d k = Flt.fin (f := f64) (L := L) r ∧
          2 ^ 38 * f64.u * (1 + |Real.log ((1 - (p : ℝ)) ^ (k - 1) * p)|) ≤
            |(r : ℝ) - Real.log ((1 - (p : ℝ)) ^ (k - 1) * p)| := by
  have hf : f64.Std := .inl rfl
  have hrep : f64.Representable (1 / 2 ^ 60) := by
    have := rep_pow f64 (k := -60) (by decide) (by decide) (by decide)
    rwa [zpow_neg, ← one_div, show ((2 : ℚ) ^ (60 : ℤ)) = 2 ^ 60 by norm_cast] at this
  refine ⟨1 / 2 ^ 60, 2 ^ 53, hrep, le_rfl, ⟨Flt.fin (1 / 2 ^ 60)⟩, ?_, ?_⟩
  · unfold Geometric.new
    rw [if_pos]
    show (decide ((0 : ℚ) < 1 / 2 ^ 60) && decide ((1 : ℚ) / 2 ^ 60 ≤ 1)) = true
    norm_num
  · have hone : Flt.sub f64 (.fin 1) (.fin (1 / 2 ^ 60)) = .fin 1 := by
      obtain ⟨r, hr, hn⟩ := App.compl hf hrep (by norm_num) (by norm_num)
      rw [hr]
      by_contra hc
      have hne : r ≠ 1 := fun h => hc (by rw [h])
      have h1 := rep_ne_one hf hn.rep hne
      have hug := u_ge hf
      rw [sub_fin] at hr
      have h3 := f64.round_nearest hr hf.rep_one
      have h4 : |(1 : ℝ) - 1 / 2 ^ 60 - r| ≤ 1 / 2 ^ 60 := by
        have h6 : |(1 : ℚ) - 1 / 2 ^ 60 - 1| = 1 / 2 ^ 60 := by norm_num
        rw [h6] at h3
        have : (((|(1 : ℚ) - 1 / 2 ^ 60 - r| : ℚ)) : ℝ) ≤ ((1 / 2 ^ 60 : ℚ) : ℝ) := by exact_mod_cast h3
        push_cast at this
        exact this
      have h5 := abs_le.mp h4
      have h6 : |(r : ℝ) - 1| ≤ 1 / 2 ^ 59 := by
        rw [abs_le]; constructor <;> linarith [h5.1, h5.2, show (1 : ℝ) / 2 ^ 59 = 2 * (1 / 2 ^ 60) by norm_num]
      have : (1 : ℝ) / 2 ^ 59 < 1 / 2 ^ 53 := by norm_num
      linarith
    have hln1 : Flt.ln L (.fin 1) = .fin 0 := by
      obtain ⟨r, hr, hn⟩ := App.ln_exact hf hL (q := 1) one_pos hf.rep_one
      have := hn.err
      simp only [Rat.cast_one, Real.log_one, abs_zero, mul_zero, sub_zero] at this
      have h0 : (r : ℝ) = 0 := abs_eq_zero.mp (le_antisymm this (abs_nonneg _))
      have h0 : r = 0 := by exact_mod_cast h0
      rw [hr, h0]
    obtain ⟨l, hl, hn⟩ := App.ln_exact hf hL (q := 1 / 2 ^ 60) (by norm_num) hrep
    refine ⟨l, ?_, ?_⟩
    · rw [geometric_flt hf _ (k := 2 ^ 53) le_rfl, if_pos (by norm_num), hone, hln1, hl]
      have e1 : Flt.sub f64 (.fin ((2 ^ 53 : ℕ) : ℚ)) (.fin 1) = .fin ((2 ^ 53 - 1 : ℕ) : ℚ) := by
        have := sub_nat hf (a := 2 ^ 53) (b := 1) (by norm_num) le_rfl
        rw [Nat.cast_one] at this
        exact this
      rw [e1]
      have e2 : Flt.mul f64 (.fin ((2 ^ 53 - 1 : ℕ) : ℚ)) (.fin 0) = .fin 0 := by
        show f64.round _ = _
        rw [mul_zero]; exact f64.round_exact f64.rep_zero
      rw [e2]
      exact zero_add_rep hn.rep
    · have he := hn.err
      set P : ℝ := ((1 / 2 ^ 60 : ℚ) : ℝ) with hP
      have hPv : P = 1 / 2 ^ 60 := by rw [hP]; push_cast; rfl
      have hlP : Real.log P = -(60 * Real.log 2) := by
        rw [hPv, one_div, Real.log_inv, Real.log_pow]; norm_num
      have hl1 := Real.log_two_gt_d9
      have hl2 := Real.log_two_lt_d9
      have hu : f64.u = 1 / 2 ^ 53 := by unfold Format.u; rfl
      rw [Real.log_mul (pow_pos (by rw [hPv]; norm_num) _).ne' (by rw [hPv]; norm_num), Real.log_pow]
      have c1 : Real.log (1 - P) ≤ -P := by
        have := Real.log_le_sub_one_of_pos (show 0 < 1 - P by rw [hPv]; norm_num)
        linarith
      have c2 : -(2 * P) ≤ Real.log (1 - P) := by
        have := Real.one_sub_inv_le_log_of_pos (show 0 < 1 - P by rw [hPv]; norm_num)
        refine le_trans ?_ this
        rw [hPv]; norm_num
      have ek : ((2 ^ 53 - 1 : ℕ) : ℝ) = 2 ^ 53 - 1 := by norm_num
      rw [ek, hu]
      rw [hu, hlP] at he
      rw [hlP]
      rw [hPv] at c1 c2
      rw [abs_neg, abs_of_pos (by linarith : (0 : ℝ) < 60 * Real.log 2)] at he
      have he := abs_le.mp he
      set t := Real.log (1 - P)
      have c3 : (2 ^ 53 - 1 : ℝ) * Real.log (1 - P) ≤ (2 ^ 53 - 1) * (-(1 / 2 ^ 60)) :=
        mul_le_mul_of_nonneg_left (by rw [hPv]; exact c1) (by norm_num)
      have c4 : (2 ^ 53 - 1 : ℝ) * (-(2 * (1 / 2 ^ 60))) ≤ (2 ^ 53 - 1) * Real.log (1 - P) :=
        mul_le_mul_of_nonneg_left (by rw [hPv]; exact c2) (by norm_num)
      set w := (2 ^ 53 - 1 : ℝ) * Real.log (1 - P) with hw
      norm_num at c3 c4
      rw [abs_of_neg (by linarith : w + -(60 * Real.log 2) < 0)]
      refine le_trans ?_ (le_abs_self _)
      norm_num at he ⊢
      linarith [he.1, he.2]

/-! ### factorials and coefficients -/

theorem log_fact_nonneg (n : ℕ) : 0 ≤ Real.log (n.factorial : ℝ) :=
  Real.log_nonneg (by exact_mod_cast Nat.one_le_iff_ne_zero.mpr n.factorial_ne_zero)

theorem log_fact_gamma (n : ℕ) : Real.log (Real.Gamma ((n + 1 : ℕ) : ℚ)) = Real.log (n.factorial : ℝ) := by
  push_cast; rw [Real.Gamma_nat_eq_factorial]

theorem log_nat_le {n : ℕ} (h : (n : ℝ) ≤ 2 ^ 53) : Real.log n ≤ 40 := by
  rcases Nat.eq_zero_or_pos n with rfl | h0
  · simp
  have := Real.log_le_log (by exact_mod_cast h0) h
  rw [Real.log_pow] at this
  have h2 := Real.log_two_lt_d9
  norm_num at this h2 ⊢
  linarith

theorem log_fact_le_mul (n : ℕ) : Real.log (n.factorial : ℝ) ≤ n * Real.log n := by
  rw [← Real.log_pow]
  exact Real.log_le_log (by exact_mod_cast n.factorial_pos) (by exact_mod_cast n.factorial_le_pow)

theorem log_fact_le {n : ℕ} (h : (n : ℝ) ≤ 2 ^ 53) : Real.log (n.factorial : ℝ) ≤ 2 ^ 53 * 40 :=
  (log_fact_le_mul n).trans (mul_le_mul h (log_nat_le h) (Real.log_natCast_nonneg n) (by norm_num))

theorem log_fact_mono {a b : ℕ} (h : a ≤ b) :
    Real.log (a.factorial : ℝ) ≤ Real.log (b.factorial : ℝ) :=
  Real.log_le_log (by exact_mod_cast a.factorial_pos) (by exact_mod_cast Nat.factorial_le h)

theorem log_fact_add (a b : ℕ) :
    Real.log (a.factorial : ℝ) + Real.log (b.factorial : ℝ) ≤ Real.log ((a + b).factorial : ℝ) := by
  rw [← Real.log_mul (by exact_mod_cast a.factorial_ne_zero) (by exact_mod_cast b.factorial_ne_zero)]
  refine Real.log_le_log (by exact_mod_cast Nat.mul_pos a.factorial_pos b.factorial_pos) ?_
  exact_mod_cast Nat.le_of_dvd (Nat.factorial_pos _) (Nat.factorial_mul_factorial_dvd_factorial_add a b)

theorem App.lnFact (hf : f.Std) (hG : L.GammaAccurate f) {n : ℕ} (h : n + 1 ≤ 2 ^ f.prec) :
    App f 8 (L.lnGamma (.fin ((n + 1 : ℕ) : ℚ))) (Real.log (n.factorial : ℝ))
      (1 + Real.log (n.factorial : ℝ)) := by
  have h53 := two_pow_prec hf (n := n) (by omega)
  have h1 := App.lnGamma_exact hf hG (q := ((n + 1 : ℕ) : ℚ)) (by positivity) (rep_nat hf h) (by
    rw [log_fact_gamma, abs_of_nonneg (log_fact_nonneg n)]
    exact (log_fact_le h53).trans (by norm_num))
  rwa [log_fact_gamma, abs_of_nonneg (log_fact_nonneg n)] at h1

theorem log_choose {n k : ℕ} (h : k ≤ n) : Real.log (n.choose k : ℝ) =
    Real.log (n.factorial : ℝ) - Real.log (k.factorial : ℝ) - Real.log ((n - k).factorial : ℝ) := by
  have h1 : (n.choose k : ℝ) * k.factorial * (n - k).factorial = n.factorial := by
    exact_mod_cast Nat.choose_mul_factorial_mul_factorial h
  have h2 : (n.choose k : ℝ) ≠ 0 := by exact_mod_cast (Nat.choose_pos h).ne'
  have h3 : (k.factorial : ℝ) ≠ 0 := by exact_mod_cast k.factorial_ne_zero
  have h4 : ((n - k).factorial : ℝ) ≠ 0 := by exact_mod_cast (n - k).factorial_ne_zero
  rw [← h1, Real.log_mul (mul_ne_zero h2 h3) h4, Real.log_mul h2 h3]
  ring

/-- three log-factorials combined as in the coefficient measures -/
theorem App.coef (hf : f.Std) (hG : L.GammaAccurate f) {a b c : ℕ} (h : a + 1 ≤ 2 ^ f.prec)
    (hbc : b + c ≤ a) :
    App f 12 (Flt.sub f (Flt.sub f (L.lnGamma (.fin ((a + 1 : ℕ) : ℚ))) (L.lnGamma (.fin ((b + 1 : ℕ) : ℚ))))
        (L.lnGamma (.fin ((c + 1 : ℕ) : ℚ))))
      (Real.log (a.factorial : ℝ) - Real.log (b.factorial : ℝ) - Real.log (c.factorial : ℝ))
      (3 + 2 * Real.log (a.factorial : ℝ)) := by
  have h53 := two_pow_prec hf (n := a) (by omega)
  have b1 := log_fact_le h53
  have b2 := (log_fact_add b c).trans (log_fact_mono hbc)
  have n1 := log_fact_nonneg b
  have n2 := log_fact_nonneg c
  have b3 : (3 : ℝ) + 2 * (2 ^ 53 * 40) ≤ 2 ^ 90 := by norm_num
  have t1 := App.sub hf (App.lnFact hf hG h) (App.lnFact hf hG (n := b) (by omega)) (m := 10)
    (by norm_num) (by norm_num) (by norm_num) (by linarith)
  have t2 := App.sub hf t1 (App.lnFact hf hG (n := c) (by omega)) (m := 12)
    (by norm_num) (by norm_num) (by norm_num) (by linarith)
  exact t2.mono ⟨by norm_num, le_rfl⟩ (by linarith)

/-! ### Binomial -/

theorem Binomial.new_flt {n : ℕ} {p : ℚ} {d : Binomial (Flt f L)}
    (h : Binomial.new n (Flt.fin p) = .ok d) : 0 ≤ p ∧ p ≤ 1 ∧ d = ⟨n, Flt.fin p⟩ := by
  unfold Binomial.new at h
  split_ifs at h with h1
  · have h2 : (decide ((0 : ℚ) ≤ p) && decide (p ≤ 1)) = true := h1
    simp only [Bool.and_eq_true, decide_eq_true_eq] at h2
    exact ⟨h2.1, h2.2, by cases h; rfl⟩

/-- the kernel `k ln p + j ln(1-p)` -/
theorem App.kernel (hf : f.Std) (hL : L.Accurate f) {p : ℚ} (hp : f.Representable p) (h0 : 0 < p)
    (h1 : p < 1) {k j : ℕ} (hk : k ≤ 2 ^ f.prec) (hj : j ≤ 2 ^ f.prec) :
    App f 11 (Flt.add f (Flt.mul f (.fin (k : ℚ)) (Flt.ln L (.fin p)))
        (Flt.mul f (.fin (j : ℚ)) (Flt.ln L (Flt.sub f (.fin 1) (.fin p)))))
      (k * Real.log p + j * Real.log (1 - p))
      (2 + k * |Real.log p| + j * (1 + |Real.log (1 - p)|)) ∧
    2 + k * |Real.log p| + j * (1 + |Real.log (1 - p)|) ≤ 2 ^ 80 := by
  have hk53 := two_pow_prec hf hk
  have hj53 := two_pow_prec hf hj
  have hl1 := log_compl_le hf hp h0.le h1
  have hl2 := log_rep_le hf h0 hp
  have p1 : (k : ℝ) * |Real.log p| ≤ 2 ^ 53 * 1100 :=
    mul_le_mul hk53 hl2 (abs_nonneg _) (by norm_num)
  have p2 : (j : ℝ) * (1 + |Real.log (1 - p)|) ≤ 2 ^ 53 * 41 :=
    mul_le_mul hj53 (by linarith) (by positivity) (by norm_num)
  have t1 := App.mul hf (App.nat hf hk) (App.ln_exact hf hL h0 hp) (m := 6) le_rfl (by norm_num)
    (by norm_num) (by norm_num) (p1.trans (by norm_num))
  have t2 := App.mul hf (App.nat hf hj) (App.ln_compl hf hL hp h0.le h1) (m := 9) le_rfl
    (by norm_num) (by norm_num) (by norm_num) (p2.trans (by norm_num))
  have hb : (2 : ℝ) ^ 53 * 1100 + 2 ^ 53 * 41 + 2 ≤ 2 ^ 80 := by norm_num
  have hb' : (2 : ℝ) ^ 80 ≤ 2 ^ 90 := by norm_num
  refine ⟨(App.add hf t1 t2 (m := 11) (by norm_num) (by norm_num) (by norm_num) (by
    linarith)).mono ⟨by norm_num, le_rfl⟩ (by linarith), by linarith⟩

theorem binomial_flt (hf : f.Std) (p : ℚ) {n k : ℕ} (hn : n ≤ 2 ^ f.prec) (hk : k ≤ n) :
    (logDensityWrtRoot (⟨n, Flt.fin p⟩ : Binomial (Flt f L)) k : Flt f L) =
      Flt.add f (Flt.mul f (.fin (k : ℚ)) (Flt.ln L (.fin p)))
        (Flt.mul f (.fin ((n - k : ℕ) : ℚ)) (Flt.ln L (Flt.sub f (.fin 1) (.fin p)))) := by
  have e : (logDensityWrtRoot (⟨n, Flt.fin p⟩ : Binomial (Flt f L)) k : Flt f L) =
      if k ≤ n then Flt.add f (Flt.mul f (FloatOps.ofNat k : Flt f L) (Flt.ln L (.fin p)))
        (Flt.mul f (Flt.sub f (FloatOps.ofNat n : Flt f L) (FloatOps.ofNat k : Flt f L))
          (Flt.ln L (Flt.sub f (.fin 1) (.fin p)))) else Flt.negInf (f := f) (L := L) := rfl
  rw [e, if_pos hk, ofNat_flt hf hn, ofNat_flt hf (hk.trans hn)]
  have := sub_nat hf hk hn
  unfold Flt.fin
  rw [this]

theorem binomial_coefficient_flt (hf : f.Std) {n k : ℕ} (hn : n + 1 ≤ 2 ^ f.prec) (hk : k ≤ n) :
    (logDensityWrtRoot (⟨n⟩ : BinomialCoefficientMeasure (Flt f L)) k : Flt f L) =
      Flt.sub f (Flt.sub f (L.lnGamma (.fin ((n + 1 : ℕ) : ℚ))) (L.lnGamma (.fin ((k + 1 : ℕ) : ℚ))))
        (L.lnGamma (.fin ((n - k + 1 : ℕ) : ℚ))) := by
  have e : (logDensityWrtRoot (⟨n⟩ : BinomialCoefficientMeasure (Flt f L)) k : Flt f L) =
      if k > n then Flt.negInf (f := f) (L := L) else if k > n then Flt.negInf (f := f) (L := L) else
      Flt.sub f (Flt.sub f (L.lnGamma (Flt.add f (FloatOps.ofNat n : Flt f L) (.fin 1)))
        (L.lnGamma (Flt.add f (FloatOps.ofNat k : Flt f L) (.fin 1))))
        (L.lnGamma (Flt.add f (Flt.sub f (FloatOps.ofNat n : Flt f L) (FloatOps.ofNat k : Flt f L))
          (.fin 1))) := rfl
  have hk' : ¬ k > n := by omega
  rw [e]
  refine (if_neg hk').trans ((if_neg hk').trans ?_)
  rw [ofNat_flt hf (by omega : n ≤ _), ofNat_flt hf (by omega : k ≤ _)]
  have e1 : ∀ a : ℕ, a + 1 ≤ 2 ^ f.prec →
      Flt.add f (.fin (a : ℚ)) (.fin 1) = .fin ((a + 1 : ℕ) : ℚ) := fun a ha => by
    have := add_nat hf (a := a) (b := 1) ha
    rwa [Nat.cast_one] at this
  unfold Flt.fin
  rw [sub_nat hf hk (by omega), e1 n hn, e1 k (by omega), e1 (n - k) (by omega)]

theorem binomial_accurate (hf : f.Std) (hL : L.Accurate f) (hG : L.GammaAccurate f) {p : ℚ}
    (hp : f.Representable p) (h0 : p ≠ 0) (h1 : p ≠ 1) {n k : ℕ} {d : Binomial (Flt f L)}
    (h : Binomial.new n (Flt.fin p) = .ok d) (hn : n < 2 ^ f.prec) :
    (k ≤ n → ∃ r : ℚ, (logDensityWrtRoot d k : Flt f L) +.
        logDensityWrtRoot (⟨n⟩ : BinomialCoefficientMeasure (Flt f L)) k = Flt.fin (f := f) (L := L) r ∧
      f.Representable r ∧
      |(r : ℝ) - Real.log (n.choose k * (p : ℝ) ^ k * (1 - (p : ℝ)) ^ (n - k))| ≤
        14 * f.u * (5 + 2 * Real.log (n.factorial : ℝ) + k * |Real.log p| +
          (n - k : ℕ) * (1 + |Real.log (1 - p)|))) ∧
    (n < k → logDensityWrtRoot d k = Flt.negInf (f := f) (L := L)) := by
  obtain ⟨h0', h1', rfl⟩ := Binomial.new_flt h
  have h0 : 0 < p := lt_of_le_of_ne h0' (Ne.symm h0)
  have h1 : p < 1 := lt_of_le_of_ne h1' h1
  have h0' : (0 : ℝ) < p := by exact_mod_cast h0
  have h1' : (p : ℝ) < 1 := by exact_mod_cast h1
  refine ⟨fun hk => ?_, fun hk => ?_⟩
  · obtain ⟨t1, hb⟩ := App.kernel hf hL hp h0 h1 (k := k) (j := n - k) (by omega) (by omega)
    have t2 := App.coef hf hG (a := n) (b := k) (c := n - k) (by omega) (by omega)
    have hc : (0 : ℝ) < n.choose k := by exact_mod_cast Nat.choose_pos hk
    have hq : (0 : ℝ) < 1 - p := by linarith
    have b1 := log_fact_le (two_pow_prec hf (n := n) hn.le)
    have hb' : (2 : ℝ) ^ 80 + (3 + 2 * (2 ^ 53 * 40)) ≤ 2 ^ 90 := by norm_num
    rw [← log_choose hk] at t2
    have t3 := App.add hf t1 t2 (m := 14) (by norm_num) (by norm_num) (by norm_num) (by linarith)
    rw [Real.log_mul (mul_pos hc (pow_pos h0' _)).ne' (pow_pos hq _).ne',
      Real.log_mul hc.ne' (pow_pos h0' _).ne', Real.log_pow, Real.log_pow]
    rw [binomial_flt hf p hn.le hk, binomial_coefficient_flt hf hn hk]
    obtain ⟨r, hr, hn⟩ := t3
    refine ⟨r, hr, hn.rep, ?_⟩
    have := hn.err
    rw [show Real.log (n.choose k : ℝ) + k * Real.log p + (n - k : ℕ) * Real.log (1 - p) =
      k * Real.log p + (n - k : ℕ) * Real.log (1 - p) + Real.log (n.choose k : ℝ) by ring]
    refine this.trans (le_of_eq (by ring))
  · have e : (logDensityWrtRoot (⟨n, Flt.fin p⟩ : Binomial (Flt f L)) k : Flt f L) =
      if k ≤ n then _ else Flt.negInf (f := f) (L := L) := rfl
    rw [e, if_neg (by omega)]

/-- **C101** (binomial, double precision): for a probability strictly between zero and one and fewer than
`2^53` trials, the log-density plus the log of the coefficient measure is within `14` units of roundoff of
the logarithm of the mass, relative to one plus the terms.  Missing: the log-density alone is not with
respect to the counting measure (`C20_binomial_violated`), and for `p = 0` and `p = 1` it is NaN. -/
theorem C101_binomial_partial (hL : L.Accurate f64) (hG : L.GammaAccurate f64) {p : ℚ}
    (hp : f64.Representable p) (h0 : p ≠ 0) (h1 : p ≠ 1) {n k : ℕ} {d : Binomial (Flt f64 L)}
    (h : Binomial.new n (Flt.fin p) = .ok d) (hn : n < 2 ^ 53) :
    (k ≤ n → ∃ r : ℚ, (logDensityWrtRoot d k : Flt f64 L) +.
        logDensityWrtRoot (⟨n⟩ : BinomialCoefficientMeasure (Flt f64 L)) k = Flt.fin (f := f64) (L := L) r ∧
      f64.Representable r ∧
      |(r : ℝ) - Real.log (n.choose k * (p : ℝ) ^ k * (1 - (p : ℝ)) ^ (n - k))| ≤
        14 * f64.u * (5 + 2 * Real.log (n.factorial : ℝ) + k * |Real.log p| +
          (n - k : ℕ) * (1 + |Real.log (1 - p)|))) ∧
    (n < k → logDensityWrtRoot d k = Flt.negInf (f := f64) (L := L)) :=
  binomial_accurate (.inl rfl) hL hG hp h0 h1 h hn

/-! ### Negative binomial -/

theorem NegativeBinomial.new_flt {r : ℕ} {p : ℚ} {d : NegativeBinomial (Flt f L)}
    (h : NegativeBinomial.new r (Flt.fin p) = .ok d) : 0 < r ∧ 0 < p ∧ p < 1 ∧ d = ⟨r, Flt.fin p⟩ := by
  unfold NegativeBinomial.new at h
  split_ifs at h with h0 h1
  · have h2 : (decide ((0 : ℚ) < p) && decide (p < 1)) = true := h1
    simp only [Bool.and_eq_true, decide_eq_true_eq] at h2
    exact ⟨h0, h2.1, h2.2, by cases h; rfl⟩

theorem negative_binomial_accurate (hf : f.Std) (hL : L.Accurate f) (hG : L.GammaAccurate f) {p : ℚ}
    (hp : f.Representable p) {s k : ℕ} {d : NegativeBinomial (Flt f L)}
    (h : NegativeBinomial.new s (Flt.fin p) = .ok d) (hk : k + s < 2 ^ f.prec) :
    ∃ r : ℚ, (logDensityWrtRoot d k : Flt f L) +.
        logDensityWrtRoot (⟨s⟩ : NegativeBinomialCoefficientMeasure (Flt f L)) k
          = Flt.fin (f := f) (L := L) r ∧
      f.Representable r ∧
      |(r : ℝ) - Real.log ((k + s - 1).choose k * (p : ℝ) ^ s * (1 - (p : ℝ)) ^ k)| ≤
        14 * f.u * (5 + 2 * Real.log ((k + s - 1).factorial : ℝ) + s * |Real.log p| +
          k * (1 + |Real.log (1 - p)|)) := by
  obtain ⟨hs, h0, h1, rfl⟩ := NegativeBinomial.new_flt h
  obtain ⟨s, rfl⟩ : ∃ t, s = t + 1 := ⟨s - 1, by omega⟩
  have h0' : (0 : ℝ) < p := by exact_mod_cast h0
  have h1' : (p : ℝ) < 1 := by exact_mod_cast h1
  rw [show k + (s + 1) - 1 = k + s by omega]
  have hle : k ≤ k + s := by omega
  obtain ⟨t1, hb⟩ := App.kernel hf hL hp h0 h1 (k := s + 1) (j := k) (by omega) (by omega)
  have t2 := App.coef hf hG (a := k + s) (b := k) (c := s) (by omega) (by omega)
  have hc : (0 : ℝ) < (k + s).choose k := by exact_mod_cast Nat.choose_pos hle
  have hq : (0 : ℝ) < 1 - p := by linarith
  have b1 := log_fact_le (two_pow_prec hf (n := k + s) (by omega))
  have hb' : (2 : ℝ) ^ 80 + (3 + 2 * (2 ^ 53 * 40)) ≤ 2 ^ 90 := by norm_num
  have ec := log_choose hle
  rw [Nat.add_sub_cancel_left] at ec
  rw [← ec] at t2
  have t3 := App.add hf t1 t2 (m := 14) (by norm_num) (by norm_num) (by norm_num) (by linarith)
  rw [Real.log_mul (mul_pos hc (pow_pos h0' _)).ne' (pow_pos hq _).ne',
    Real.log_mul hc.ne' (pow_pos h0' _).ne', Real.log_pow, Real.log_pow]
  have e1 : (logDensityWrtRoot (⟨s + 1, Flt.fin p⟩ : NegativeBinomial (Flt f L)) k : Flt f L) =
      Flt.add f (Flt.mul f (FloatOps.ofNat (s + 1) : Flt f L) (Flt.ln L (.fin p)))
        (Flt.mul f (FloatOps.ofNat k : Flt f L) (Flt.ln L (Flt.sub f (.fin 1) (.fin p)))) := rfl
  have e2 : (logDensityWrtRoot (⟨s + 1⟩ : NegativeBinomialCoefficientMeasure (Flt f L)) k : Flt f L) =
      Flt.sub f (Flt.sub f (L.lnGamma (Flt.add f (FloatOps.ofNat k : Flt f L) (FloatOps.ofNat (s + 1) : Flt f L)))
        (L.lnGamma (Flt.add f (FloatOps.ofNat k : Flt f L) (.fin 1))))
        (L.lnGamma (FloatOps.ofNat (s + 1) : Flt f L)) := rfl
  have e3 : Flt.add f (.fin (k : ℚ)) (.fin 1) = .fin ((k + 1 : ℕ) : ℚ) := by
    have := add_nat hf (a := k) (b := 1) (by omega)
    rwa [Nat.cast_one] at this
  rw [e1, e2, ofNat_flt hf (by omega : k ≤ _), ofNat_flt hf (by omega : s + 1 ≤ _)]
  unfold Flt.fin
  rw [add_nat hf (a := k) (b := s + 1) (by omega), e3]
  obtain ⟨r, hr, hn⟩ := t3
  refine ⟨r, hr, hn.rep, ?_⟩
  have := hn.err
  rw [show Real.log ((k + s).choose k : ℝ) + ((s + 1 : ℕ) : ℝ) * Real.log p + k * Real.log (1 - p) =
    ((s + 1 : ℕ) : ℝ) * Real.log p + k * Real.log (1 - p) + Real.log ((k + s).choose k : ℝ) by ring]
  refine this.trans (le_of_eq (by ring))

/-- **C101** (negative binomial, double precision): for every accepted probability, when the count plus
the parameter is below `2^53`, the log-density plus the log of the coefficient measure is within `14` units of roundoff
of the logarithm of the mass, relative to one plus the terms.  Missing: the log-density alone is not with respect to the counting
measure (`C21_negative_binomial_violated`). -/
theorem C101_negative_binomial_partial (hL : L.Accurate f64) (hG : L.GammaAccurate f64) {p : ℚ}
    (hp : f64.Representable p) {s k : ℕ} {d : NegativeBinomial (Flt f64 L)}
    (h : NegativeBinomial.new s (Flt.fin p) = .ok d) (hk : k + s < 2 ^ 53) :
    ∃ r : ℚ, (logDensityWrtRoot d k : Flt f64 L) +.
        logDensityWrtRoot (⟨s⟩ : NegativeBinomialCoefficientMeasure (Flt f64 L)) k
          = Flt.fin (f := f64) (L := L) r ∧
      f64.Representable r ∧
      |(r : ℝ) - Real.log ((k + s - 1).choose k * (p : ℝ) ^ s * (1 - (p : ℝ)) ^ k)| ≤
        14 * f64.u * (5 + 2 * Real.log ((k + s - 1).factorial : ℝ) + s * |Real.log p| +
          k * (1 + |Real.log (1 - p)|)) :=
  negative_binomial_accurate (.inl rfl) hL hG hp h hk

/-! ### Poisson -/

theorem Poisson.new_flt {p : ℚ} {d : Poisson (Flt f L)}
    (h : Poisson.new (Flt.fin p) = .ok d) : 0 < p ∧ d = ⟨Flt.fin p⟩ := by
  unfold Poisson.new at h
  split_ifs at h with h1
  · have h2 : decide ((0 : ℚ) < p) = true := h1
    exact ⟨by simpa using h2, by cases h; rfl⟩

/-- the logarithms of `a, …, a+n-1` as computed -/
theorem logs_flt (hf : f.Std) (hL : L.Accurate f) (n a : ℕ) (ha : 0 < a) (h : a + n ≤ 2 ^ f.prec + 1) :
    ∃ ys : List ℚ, (List.range' a n).map (fun i => Flt.ln L (FloatOps.ofNat i : Flt f L)) = ys.map FVal.fin ∧
      ys.length = n ∧ (∀ y ∈ ys, f.Representable y) ∧
      |(ys.map (fun y : ℚ => (y : ℝ))).sum - ((List.range' a n).map (fun i : ℕ => Real.log i)).sum| ≤
        2 * f.u * ((List.range' a n).map (fun i : ℕ => Real.log i)).sum ∧
      (ys.map (fun y : ℚ => |(y : ℝ)|)).sum ≤ 2 * ((List.range' a n).map (fun i : ℕ => Real.log i)).sum := by
  induction n generalizing a with
  | zero => exact ⟨[], rfl, rfl, by simp, by simp, by simp⟩
  | succ n ih =>
    obtain ⟨ys, h1, h2, h3, h4, h5⟩ := ih (a + 1) (by omega) (by omega)
    obtain ⟨y, hy, hn⟩ := App.ln_exact hf hL (q := (a : ℚ)) (by exact_mod_cast ha)
      (rep_nat hf (by omega : a ≤ 2 ^ f.prec))
    have hu := u_pos f
    have hul := hf.u_le
    have he := hn.err
    rw [Rat.cast_natCast, abs_of_nonneg (Real.log_natCast_nonneg a)] at he
    have hl0 := Real.log_natCast_nonneg a
    have hS : |(y : ℝ)| ≤ 2 * Real.log a := by
      have := abs_sub_abs_le_abs_sub (y : ℝ) (Real.log a)
      rw [abs_of_nonneg hl0] at this
      nlinarith
    refine ⟨y :: ys, ?_, by simp [h2], ?_, ?_, ?_⟩
    · rw [List.range'_succ, List.map_cons, List.map_cons, h1, ofNat_flt hf (by omega : a ≤ _)]
      unfold Flt.fin
      rw [hy]
    · intro z hz
      rcases List.mem_cons.mp hz with rfl | hz
      · exact hn.rep
      · exact h3 z hz
    · rw [List.range'_succ, List.map_cons, List.map_cons, List.sum_cons, List.sum_cons]
      have := abs_add_le ((y : ℝ) - Real.log a)
        ((ys.map (fun y : ℚ => (y : ℝ))).sum - ((List.range' (a + 1) n).map (fun i : ℕ => Real.log i)).sum)
      rw [show ((y : ℝ) - Real.log a) + ((ys.map (fun y : ℚ => (y : ℝ))).sum -
        ((List.range' (a + 1) n).map (fun i : ℕ => Real.log i)).sum) = (y : ℝ) +
        (ys.map (fun y : ℚ => (y : ℝ))).sum - (Real.log a +
        ((List.range' (a + 1) n).map (fun i : ℕ => Real.log i)).sum) by ring] at this
      linarith
    · rw [List.range'_succ, List.map_cons, List.map_cons, List.sum_cons, List.sum_cons]
      linarith

theorem sum_logs (n : ℕ) :
    ((List.range' 1 n).map (fun i : ℕ => Real.log i)).sum = Real.log (n.factorial : ℝ) := by
  induction n with
  | zero => simp
  | succ n ih =>
    rw [List.range'_concat, List.map_append, List.sum_append, ih, Nat.factorial_succ, Nat.cast_mul,
      Real.log_mul (by positivity) (by exact_mod_cast n.factorial_ne_zero)]
    simp [add_comm]

theorem App.logFact (hf : f.Std) (hL : L.Accurate f) {k : ℕ} (hk : k * f.u ≤ 1/2) (hk' : k ≤ 2 ^ 40) :
    App f 5 ((List.range' 1 k).foldl (fun acc i => Flt.add f acc (Flt.ln L (FloatOps.ofNat i : Flt f L)))
        (.fin 0)) (Real.log (k.factorial : ℝ)) ((k + 1) * Real.log (k.factorial : ℝ)) ∧
      (k + 1) * Real.log (k.factorial : ℝ) ≤ 2 ^ 88 ∧ k < 2 ^ f.prec := by
  have hu := u_pos f
  have hul := hf.u_le
  have hkp : k < 2 ^ f.prec := by
    unfold Format.u at hk
    have hp : (0 : ℝ) < 2 ^ f.prec := by positivity
    rw [mul_one_div, div_le_iff₀ hp] at hk
    have : (k : ℝ) < 2 ^ f.prec := by linarith
    exact_mod_cast this
  have hkr : (k : ℝ) ≤ 2 ^ 40 := by exact_mod_cast hk'
  have hk0 : (0 : ℝ) ≤ k := by positivity
  have hF := log_fact_nonneg k
  have hFle : Real.log (k.factorial : ℝ) ≤ 2 ^ 40 * 40 :=
    (log_fact_le_mul k).trans (mul_le_mul hkr (log_nat_le (hkr.trans (by norm_num)))
      (Real.log_natCast_nonneg k) (by norm_num))
  obtain ⟨ys, h1, h2, h3, h4, h5⟩ := logs_flt hf hL k 1 one_pos (by omega)
  rw [sum_logs] at h4 h5
  have hg := grow_le (f := f) (n := k) hk
  have hT : (0 : ℝ) + (ys.map (fun x : ℚ => |(x : ℝ)|)).sum ≤ 2 ^ (f.emax - 3) := by
    have : (2 : ℝ) ^ (100 : ℤ) ≤ 2 ^ (f.emax - 3) :=
      zpow_le_zpow_right₀ (by norm_num) (by have := hf.emax_ge; omega)
    have h6 : (2 : ℝ) * (2 ^ 40 * 40) ≤ 2 ^ (100 : ℤ) := by norm_num
    linarith
  obtain ⟨r, hr⟩ := foldl_add_fin hf ys h3 (a := 0) (S := 0) (T := 0) (k := 0) f.rep_zero
    (by simp) (by simp) (by rw [zero_add, h2]; linarith) hT
  obtain ⟨hrep, herr⟩ := foldl_add_err hf ys h3 (a := 0) (S := 0) (T := 0) (k := 0) f.rep_zero
    (by simp) (by simp) hr
  rw [zero_add, zero_add, zero_add, h2] at herr
  refine ⟨⟨r, ?_, hrep, ?_, ?_⟩, ?_, hkp⟩
  · rw [← hr, ← h1, List.foldl_map]
  · rw [abs_of_nonneg hF]; nlinarith
  · have := abs_add_le ((r : ℝ) - (ys.map (fun y : ℚ => (y : ℝ))).sum)
      ((ys.map (fun y : ℚ => (y : ℝ))).sum - Real.log (k.factorial : ℝ))
    rw [sub_add_sub_cancel] at this
    have h6 : f.grow k * (ys.map (fun x : ℚ => |(x : ℝ)|)).sum ≤
        (2 * k * f.u) * (2 * Real.log (k.factorial : ℝ)) :=
      mul_le_mul hg h5 (List.sum_nonneg (by simp)) (by positivity)
    have h7 : 0 ≤ f.u * (k * Real.log (k.factorial : ℝ)) := by positivity
    have h8 : 0 ≤ f.u * Real.log (k.factorial : ℝ) := by positivity
    linarith
  · calc ((k : ℝ) + 1) * Real.log (k.factorial : ℝ) ≤ (2 ^ 40 + 1) * (2 ^ 40 * 40) :=
          mul_le_mul (by linarith) hFle hF (by norm_num)
      _ ≤ 2 ^ 88 := by norm_num

/-- **C101** (Poisson): for every accepted rate up to `2^80` and every count up to `2^40` whose product
with the unit roundoff is at most one half, the log-mass is within `10` units of roundoff of the true
value, relative to one plus the terms, where the accumulated log-factorial counts with weight one plus
the count.  Missing: counts above `2^40` (the loop over the count would not end in practice). -/
theorem C101_poisson_partial (hf : f.Std) (hL : L.Accurate f) {l : ℚ} (hl : f.Representable l)
    (hlB : l ≤ 2 ^ 80) {d : Poisson (Flt f L)} (h : Poisson.new (Flt.fin l) = .ok d) {k : ℕ}
    (hk : k * f.u ≤ 1/2) (hk' : k ≤ 2 ^ 40) :
    ∃ r : ℚ, logDensityWrtRoot d k = Flt.fin (f := f) (L := L) r ∧ f.Representable r ∧
      |(r : ℝ) - Real.log ((l : ℝ) ^ k * Real.exp (-l) / k.factorial)| ≤
        10 * f.u * (1 + k * |Real.log l| + l + (k + 1) * Real.log (k.factorial : ℝ)) := by
  obtain ⟨h0, rfl⟩ := Poisson.new_flt h
  have h0' : (0 : ℝ) < l := by exact_mod_cast h0
  have hlB' : (l : ℝ) ≤ 2 ^ 80 := by exact_mod_cast hlB
  obtain ⟨t3, hB, hkp⟩ := App.logFact hf hL hk hk'
  have hk53 := two_pow_prec hf hkp.le
  have hl2 := log_rep_le hf h0 hl
  have p1 : (k : ℝ) * |Real.log l| ≤ 2 ^ 53 * 1100 :=
    mul_le_mul hk53 hl2 (abs_nonneg _) (by norm_num)
  have t1 := App.mul hf (App.nat hf hkp.le) (App.ln_exact hf hL h0 hl) (m := 6) le_rfl (by norm_num)
    (by norm_num) (by norm_num) (p1.trans (by norm_num))
  have hb : (2 : ℝ) ^ 53 * 1100 + 2 ^ 80 + 1 + 2 ^ 88 ≤ 2 ^ 90 := by norm_num
  have t2 := App.sub hf t1 (App.pos h0 hl) (m := 8) (by norm_num) (by norm_num) (by norm_num) (by linarith [show (0 : ℝ) < 2 ^ 88 by norm_num])
  have t4 := App.sub hf t2 t3 (m := 10) (by norm_num) (by norm_num) (by norm_num) (by linarith)
  have hF : (0 : ℝ) < k.factorial := by exact_mod_cast k.factorial_pos
  rw [Real.log_div (mul_pos (pow_pos h0' _) (Real.exp_pos _)).ne' hF.ne',
    Real.log_mul (pow_pos h0' _).ne' (Real.exp_pos _).ne', Real.log_pow, Real.log_exp]
  have e : (logDensityWrtRoot (⟨Flt.fin l⟩ : Poisson (Flt f L)) k : Flt f L) =
      Flt.sub f (Flt.sub f (Flt.mul f (FloatOps.ofNat k : Flt f L) (Flt.ln L (.fin l))) (.fin l))
        ((List.range' 1 k).foldl (fun acc i => Flt.add f acc (Flt.ln L (FloatOps.ofNat i : Flt f L)))
        (.fin 0)) := rfl
  rw [e, ofNat_flt hf hkp.le]
  obtain ⟨r, hr, hn⟩ := t4
  refine ⟨r, hr, hn.rep, ?_⟩
  have := hn.err
  rw [← sub_eq_add_neg]
  exact this.trans (le_of_eq (by ring))

/-! ### `log_factorial` -/

theorem App.lit (hf : f.Std) {q : ℚ} (hη : f.u ^ 3 ≤ |(q : ℝ)|) (hB : |q| ≤ 2 ^ 90) :
    App f 2 (f.round q) q |(q : ℝ)| := by
  obtain ⟨r, hr⟩ := round_small hf (q := q) (hB.trans (by norm_num))
  exact ⟨r, hr, Near.lit hf hη hr⟩

theorem log_two_pi_mul_le {k : ℝ} (hk : 1 ≤ k) : |Real.log (2 * Real.pi * k)| ≤ 5/2 + Real.log k := by
  obtain ⟨b0, b1⟩ := log_two_pi_bounds
  have hl := Real.log_nonneg hk
  have := Real.pi_pos
  rw [Real.log_mul (by positivity) (by linarith), abs_of_nonneg (by linarith)]
  linarith

/-- the Stirling branch -/
theorem App.stirling (hf : f.Std) (hL : L.Accurate f) {k : ℕ} (h1 : 1 < k) (hk : k ≤ 2 ^ f.prec) :
    App f 110 (stirlingLogFactorialPrecise k : Flt f L)
      ((k : ℝ) * Real.log k - k + 1/2 * Real.log (2 * Real.pi * k) + StirlingAux.corr k)
      (36 + k * Real.log k + k + Real.log k) := by
  have hk53 := two_pow_prec hf hk
  have hk1 : (1 : ℝ) ≤ k := by exact_mod_cast h1.le
  have hk0 : (0 : ℝ) < k := by linarith
  have hlk := Real.log_nonneg hk1
  have hl40 := log_nat_le hk53
  have hlp := log_two_pi_mul_le hk1
  have hpi := Real.pi_pos
  have hpi3 := Real.pi_gt_three
  have hpi4 := Real.pi_le_four
  have tk := App.nat hf hk
  have tln : App f 2 (Flt.ln L (.fin (k : ℚ))) (Real.log k) (Real.log k) := by
    have := App.ln_exact hf hL (q := (k : ℚ)) (by exact_mod_cast (by omega : 0 < k)) (rep_nat hf hk)
    rwa [Rat.cast_natCast, abs_of_nonneg hlk] at this
  have p1 : (k : ℝ) * Real.log k ≤ 2 ^ 53 * 40 := mul_le_mul hk53 hl40 hlk (by norm_num)
  have t1 := App.mul hf tk tln (m := 6) le_rfl (by norm_num) (by norm_num) (by norm_num)
    (p1.trans (by norm_num))
  have hb : (2 : ℝ) ^ 53 * 40 + 2 ^ 53 + 100 ≤ 2 ^ 90 := by norm_num
  have t2 := App.sub hf t1 tk (m := 8) (by norm_num) (by norm_num) (by norm_num) (by linarith)
  have t3 : App f 8 (Flt.mul f (f.round 2) (f.round Flt.piLit)) (2 * Real.pi) (2 * Real.pi) := near_two_pi hf
  have t4 := App.mul_rel hf t3 tk (m := 12) (by norm_num) le_rfl (by norm_num) (by norm_num)
    (u_cube_le hf (by nlinarith)) (by
      have : 2 * Real.pi * k ≤ 8 * 2 ^ 53 := mul_le_mul (by linarith) hk53 hk0.le (by norm_num)
      exact this.trans (by norm_num))
  have t5 := App.ln hf hL t4 (by positivity) (m := 27) (by norm_num) (by norm_num) (by norm_num)
  have th : App f 0 (f.round (1/2)) (1/2) (1/2) := ⟨1/2, round_half hf, Near.half hf⟩
  have t6 := App.mul hf th t5 (m := 31) le_rfl (by norm_num) (by norm_num) (by norm_num) (by
    have : (100 : ℝ) ≤ 2 ^ 90 := by norm_num
    linarith)
  have t7 := App.add hf t2 t6 (m := 33) (by norm_num) (by norm_num) (by norm_num) (by linarith)
  -- the inverse powers
  have h1k : (1 : ℝ) / k ≤ 1 := by rw [div_le_one hk0]; exact hk1
  have i1 : App f 6 (Flt.div f (f.round 1) (.fin (k : ℚ))) (1 / k) 1 := by
    have t : App f 0 (f.round 1) 1 1 := by
      rw [round_one hf]
      exact ⟨1, rfl, Near.one hf⟩
    refine (App.div_rel hf t tk hk0 (m := 6) le_rfl le_rfl (by norm_num) (by norm_num) ?_ ?_).mono
      ⟨by norm_num, le_rfl⟩ h1k
    · refine u_cube_le_tiny hf ?_
      rw [div_le_div_iff₀ (by norm_num) hk0]
      have : (2 : ℝ) ^ 53 ≤ 2 ^ 60 := by norm_num
      linarith
    · exact h1k.trans (by norm_num)
  have i2 := App.mul hf i1 i1 (m := 16) (by norm_num) (by norm_num) (by norm_num) (by norm_num) (by norm_num)
  have i3 := App.mul hf i2 i1 (m := 26) (by norm_num) (by norm_num) (by norm_num) (by norm_num) (by norm_num)
  have i5 := App.mul hf i3 i2 (m := 46) (by norm_num) (by norm_num) (by norm_num) (by norm_num) (by norm_num)
  have i7 := App.mul hf i5 i2 (m := 66) (by norm_num) (by norm_num) (by norm_num) (by norm_num) (by norm_num)
  have lit : ∀ q : ℚ, 1 / 2 ^ 20 ≤ q → q ≤ 1 / 12 → App f 2 (f.round q) q 1 := by
    intro q h1 h2
    have h0 : 0 ≤ q := le_trans (by norm_num) h1
    have h1' : ((1 / 2 ^ 20 : ℚ) : ℝ) ≤ q := by exact_mod_cast h1
    have h2' : (q : ℝ) ≤ ((1 / 12 : ℚ) : ℝ) := by exact_mod_cast h2
    push_cast at h1' h2'
    refine (App.lit hf (u_cube_le_of hf (h1'.trans (le_abs_self _))) ?_).mono ⟨by norm_num, le_rfl⟩ ?_
    · rw [abs_of_nonneg h0]; exact h2.trans (by norm_num)
    · rw [abs_of_nonneg (by exact_mod_cast h0)]; linarith
  have c1 := App.mul hf i1 (lit (1/12) (by norm_num) (by norm_num)) (m := 12) (by norm_num)
    (by norm_num) (by norm_num) (by norm_num) (by norm_num)
  have c3 := App.mul hf i3 (lit (1/360) (by norm_num) (by norm_num)) (m := 32) (by norm_num)
    (by norm_num) (by norm_num) (by norm_num) (by norm_num)
  have c5 := App.mul hf i5 (lit (1/1260) (by norm_num) (by norm_num)) (m := 52) (by norm_num)
    (by norm_num) (by norm_num) (by norm_num) (by norm_num)
  have c7 := App.mul hf i7 (lit (1/1680) (by norm_num) (by norm_num)) (m := 72) (by norm_num)
    (by norm_num) (by norm_num) (by norm_num) (by norm_num)
  have s1 := App.sub hf c1 c3 (m := 54) (by norm_num) (by norm_num) (by norm_num) (by norm_num)
  have s2 := App.add hf s1 c5 (m := 74) (by norm_num) (by norm_num) (by norm_num) (by norm_num)
  have s3 := App.sub hf s2 c7 (m := 100) (by norm_num) (by norm_num) (by norm_num) (by norm_num)
  have s4 := App.add hf t7 s3 (m := 110) (by norm_num) (by norm_num) (by norm_num) (by linarith)
  have s5 := s4.mono (k' := 110) ⟨by norm_num, le_rfl⟩ (X' := 36 + k * Real.log k + k + Real.log k)
    (by linarith)
  have hx : (k : ℝ) * Real.log k - k + 1/2 * Real.log (2 * Real.pi * k) + StirlingAux.corr k =
      (k : ℝ) * Real.log k - k + (1/2 * Real.log (2 * Real.pi * k)) +
        (1 / k * ((1/12 : ℚ) : ℝ) - 1 / k * (1 / k) * (1 / k) * ((1/360 : ℚ) : ℝ) +
          1 / k * (1 / k) * (1 / k) * (1 / k * (1 / k)) * ((1/1260 : ℚ) : ℝ) -
          1 / k * (1 / k) * (1 / k) * (1 / k * (1 / k)) * (1 / k * (1 / k)) * ((1/1680 : ℚ) : ℝ)) := by
    unfold StirlingAux.corr
    push_cast
    field_simp
  rw [hx]
  unfold stirlingLogFactorialPrecise
  rw [if_neg (by omega), ofNat_flt hf hk]
  exact s5

/-- **C101** (`log_factorial` in double precision): for every count below `2^53` the result is within
`110` units of roundoff of `ln k!` relative to the size of the terms, plus `10^-12` for the truncated
series and table. -/
theorem C101_log_factorial (hL : L.Accurate f64) {k : ℕ} (hk : k ≤ 2 ^ 53) :
    ∃ r : ℚ, (logFactorial k : Flt f64 L) = Flt.fin (f := f64) (L := L) r ∧ f64.Representable r ∧
      |(r : ℝ) - Real.log (k.factorial : ℝ)| ≤
        110 * f64.u * (36 + (k + 1) * Real.log k + k) + 1 / 10 ^ 12 := by
  have hf : f64.Std := .inl rfl
  have hu := u_pos f64
  unfold logFactorial
  by_cases h20 : k ≤ 20
  · rw [if_pos h20]
    have hlk : 0 ≤ Real.log k := Real.log_natCast_nonneg k
    have hk0 : (0 : ℝ) ≤ k := by positivity
    have hsz : 110 * f64.u * 36 ≤ 110 * f64.u * (36 + (k + 1) * Real.log k + k) := by
      have : 0 ≤ ((k : ℝ) + 1) * Real.log k := by positivity
      exact mul_le_mul_of_nonneg_left (by linarith) (by positivity)
    have key : ∀ (q : ℚ) (m : ℕ), 1 / 2 ^ 20 ≤ q → q ≤ 50 →
        |(q : ℝ) - Real.log (m.factorial : ℝ)| ≤ 1 / 10 ^ 12 + f64.u →
        ∃ r : ℚ, f64.round q = FVal.fin r ∧ f64.Representable r ∧
          |(r : ℝ) - Real.log (m.factorial : ℝ)| ≤ 110 * f64.u * 36 + 1 / 10 ^ 12 := by
      intro q m h1 h2 h3
      have h0 : (0 : ℝ) ≤ q := by exact_mod_cast le_trans (by norm_num) h1
      have h1' : ((1 / 2 ^ 20 : ℚ) : ℝ) ≤ q := by exact_mod_cast h1
      have h2' : (q : ℝ) ≤ 50 := by exact_mod_cast h2
      push_cast at h1'
      obtain ⟨r, hr, hn⟩ := App.lit hf (u_cube_le_of hf (h1'.trans (le_abs_self _)))
        (by rw [abs_of_nonneg (by exact_mod_cast h0)]; exact h2.trans (by norm_num))
      refine ⟨r, hr, hn.rep, ?_⟩
      have h4 := hn.err
      rw [abs_of_nonneg h0] at h4
      have h5 := abs_sub_le (r : ℝ) q (Real.log (m.factorial : ℝ))
      have h6 : 2 * f64.u * q ≤ 2 * f64.u * 50 := mul_le_mul_of_nonneg_left h2' (by positivity)
      linarith
    have zero_case : ∀ m : ℕ, m ≤ 1 → ∃ r : ℚ, f64.round 0 = FVal.fin r ∧ f64.Representable r ∧
          |(r : ℝ) - Real.log (m.factorial : ℝ)| ≤ 110 * f64.u * 36 + 1 / 10 ^ 12 := by
      intro m hm
      refine ⟨0, f64.round_exact f64.rep_zero, f64.rep_zero, ?_⟩
      interval_cases m <;> simp <;> positivity
    suffices h : ∃ r : ℚ, (logFactorialTable (F := Flt f64 L)).getD k zero = Flt.fin (f := f64) (L := L) r ∧
        f64.Representable r ∧ |(r : ℝ) - Real.log (k.factorial : ℝ)| ≤ 110 * f64.u * 36 + 1 / 10 ^ 12 by
      obtain ⟨r, h1, h2, h3⟩ := h
      exact ⟨r, h1, h2, h3.trans (by linarith)⟩
    clear hsz hlk hk0
    obtain ⟨t0, t1, t2, t3, t4, t5, t6, t7, t8, t9, t10, t11, t12, t13, t14, t15, t16, t17, t18, t19,
      t20⟩ := Verif.table_bound
    have up : ∀ a b : ℝ, a = b → ∀ y : ℝ, |b - y| ≤ 1 / 10 ^ 12 → |a - y| ≤ 1 / 10 ^ 12 + f64.u :=
      fun a b h y hb => by rw [h]; linarith
    interval_cases k
    · exact zero_case 0 (by norm_num)
    · exact zero_case 1 (by norm_num)
    · refine key Flt.ln2Lit 2 (by norm_num [Flt.ln2Lit]) (by norm_num [Flt.ln2Lit]) ?_
      have h1 := _root_.Verif.LogTab.log2
      have e : (Nat.factorial 2 : ℝ) = 2 := by norm_num [Nat.factorial]
      rw [e]
      refine le_trans ?_ (show (1 : ℝ) / 10 ^ 12 ≤ 1 / 10 ^ 12 + f64.u by linarith)
      unfold Flt.ln2Lit
      norm_num at h1 ⊢
      rw [abs_le]
      constructor <;> linarith [h1.1, h1.2]
    · exact key _ 3 (by norm_num) (by norm_num) (up _ _ (by norm_num) _ t3)
    · exact key _ 4 (by norm_num) (by norm_num) (up _ _ (by norm_num) _ t4)
    · exact key _ 5 (by norm_num) (by norm_num) (up _ _ (by norm_num) _ t5)
    · exact key _ 6 (by norm_num) (by norm_num) (up _ _ (by norm_num) _ t6)
    · exact key _ 7 (by norm_num) (by norm_num) (up _ _ (by norm_num) _ t7)
    · exact key _ 8 (by norm_num) (by norm_num) (up _ _ (by norm_num) _ t8)
    · exact key _ 9 (by norm_num) (by norm_num) (up _ _ (by norm_num) _ t9)
    · exact key _ 10 (by norm_num) (by norm_num) (up _ _ (by norm_num) _ t10)
    · exact key _ 11 (by norm_num) (by norm_num) (up _ _ (by norm_num) _ t11)
    · exact key _ 12 (by norm_num) (by norm_num) (up _ _ (by norm_num) _ t12)
    · exact key _ 13 (by norm_num) (by norm_num) (up _ _ (by norm_num) _ t13)
    · exact key _ 14 (by norm_num) (by norm_num) (up _ _ (by norm_num) _ t14)
    · exact key _ 15 (by norm_num) (by norm_num) (up _ _ (by norm_num) _ t15)
    · exact key _ 16 (by norm_num) (by norm_num) (up _ _ (by norm_num) _ t16)
    · exact key _ 17 (by norm_num) (by norm_num) (up _ _ (by norm_num) _ t17)
    · exact key _ 18 (by norm_num) (by norm_num) (up _ _ (by norm_num) _ t18)
    · exact key _ 19 (by norm_num) (by norm_num) (up _ _ (by norm_num) _ t19)
    · exact key _ 20 (by norm_num) (by norm_num) (up _ _ (by norm_num) _ t20)
  · rw [if_neg h20]
    obtain ⟨r, hr, hn⟩ := App.stirling hf hL (k := k) (by omega) hk
    refine ⟨r, hr, hn.rep, ?_⟩
    have h1 := hn.err
    have h2 := StirlingAux.stirling_bound (k := k) (by omega)
    have h3 := abs_sub_le (r : ℝ) ((k : ℝ) * Real.log k - k + 1/2 * Real.log (2 * Real.pi * k) +
      StirlingAux.corr k) (Real.log (k.factorial : ℝ))
    have e : (36 : ℝ) + (k + 1) * Real.log k + k = 36 + k * Real.log k + k + Real.log k := by ring
    rw [e]
    linarith

/-! ### the hypotheses can be met -/

theorem rep_quarter : f64.Representable (1/4) := by
  have := rep_pow f64 (k := -2) (by decide) (by decide) (by decide)
  norm_num at this
  simpa using this

/-- Bernoulli, binomial, negative binomial, geometric with `p = 1/4`; Poisson with rate `1/4` -/
example : ∃ L : Libm, L.Accurate f64 ∧ L.GammaAccurate f64 ∧ f64.Representable (1/4) ∧
    (∃ d : Bernoulli (Flt f64 L), Bernoulli.new (Flt.fin (1/4)) = .ok d) ∧
    (∃ d : Binomial (Flt f64 L), Binomial.new 10 (Flt.fin (1/4)) = .ok d) ∧
    (∃ d : NegativeBinomial (Flt f64 L), NegativeBinomial.new 3 (Flt.fin (1/4)) = .ok d) ∧
    (∃ d : Geometric (Flt f64 L), Geometric.new (Flt.fin (1/4)) = .ok d) ∧
    (∃ d : Poisson (Flt f64 L), Poisson.new (Flt.fin (1/4)) = .ok d) ∧
    ((1000 : ℕ) : ℝ) * f64.u ≤ 1/2 := by
  obtain ⟨L, h1, h2⟩ := exists_libm_gamma (f := f64) (.inl rfl)
  refine ⟨L, h1, h2, rep_quarter, ⟨⟨Flt.fin (1/4)⟩, ?_⟩, ⟨⟨10, Flt.fin (1/4)⟩, ?_⟩,
    ⟨⟨3, Flt.fin (1/4)⟩, ?_⟩, ⟨⟨Flt.fin (1/4)⟩, ?_⟩, ⟨⟨Flt.fin (1/4)⟩, ?_⟩, ?_⟩
  · unfold Bernoulli.new
    rw [if_pos]
    show (decide ((0 : ℚ) ≤ 1 / 4) && decide ((1 : ℚ) / 4 ≤ 1)) = true
    norm_num
  · unfold Binomial.new
    rw [if_pos]
    show (decide ((0 : ℚ) ≤ 1 / 4) && decide ((1 : ℚ) / 4 ≤ 1)) = true
    norm_num
  · unfold NegativeBinomial.new
    rw [if_pos (by norm_num), if_pos]
    show (decide ((0 : ℚ) < 1 / 4) && decide ((1 : ℚ) / 4 < 1)) = true
    norm_num
  · unfold Geometric.new
    rw [if_pos]
    show (decide ((0 : ℚ) < 1 / 4) && decide ((1 : ℚ) / 4 ≤ 1)) = true
    norm_num
  · unfold Poisson.new
    rw [if_pos]
    show decide ((0 : ℚ) < 1 / 4) = true
    norm_num
  · have hu : f64.u = 1 / 2 ^ 53 := by unfold Format.u; rfl
    rw [hu]; norm_num

/-- four categories of probability `1/4` -/
example (L : Libm) : ∃ d : Categorical (Flt f64 L),
    Categorical.new ((List.replicate 4 (1/4 : ℚ)).map (Flt.fin (f := f64) (L := L))) = .ok d := by
  have r0 : f64.round 0 = .fin 0 := f64.round_exact f64.rep_zero
  have r1 : f64.round (1/4) = .fin (1/4) := f64.round_exact rep_quarter
  have r2 : f64.round (1/2) = .fin (1/2) := round_half (.inl rfl)
  have r3 : f64.round (3/4) = .fin (3/4) := f64.round_exact ⟨⟨3, -2, by norm_num [f64], by norm_num [f64], by norm_num⟩,
    lt_f64_max (by norm_num)⟩
  have r4 : f64.round 1 = .fin 1 := round_one (.inl rfl)
  have es : (FloatOps.sum ((List.replicate 4 (1/4 : ℚ)).map (Flt.fin (f := f64) (L := L))) : Flt f64 L) =
      .fin 1 := by
    rw [sum_flt]
    simp only [List.replicate, List.map_cons, List.map_nil, List.foldl_cons, List.foldl_nil, Flt.add]
    norm_num [r1, r2, r3, r4]
    rfl
  have ha : (FloatOps.ofRat (1/10^10) : Flt f64 L) = f64.round (1/10^10) := rfl
  obtain ⟨t, ht, hn⟩ := App.lit (f := f64) (.inl rfl) (q := 1/10^10)
    (u_cube_le_tiny (.inl rfl) (by push_cast; rw [abs_of_pos (by norm_num)]; norm_num))
    (by rw [abs_of_pos (by norm_num)]; norm_num)
  have hpos : 0 < t := by
    have h1 := hn.err
    push_cast at h1
    rw [abs_of_pos (by norm_num : (0 : ℝ) < 1 / 10 ^ 10)] at h1
    have hu : f64.u = 1 / 2 ^ 53 := by unfold Format.u; rfl
    rw [hu] at h1
    have h2 := (abs_le.mp h1).1
    have : (0 : ℝ) < t := by
      norm_num at h2
      linarith
    exact_mod_cast this
  have hs : Flt.sub f64 (.fin 1) (.fin 1) = .fin 0 := by
    rw [sub_fin, sub_self]; exact r0
  have hc : (FloatOps.lt (FloatOps.abs (FloatOps.sub (Flt.fin 1 : Flt f64 L) FloatOps.one))
      (FloatOps.ofRat (1/10^10) : Flt f64 L)) = true := by
    rw [ha, ht]
    show Flt.lt (Flt.abs (Flt.sub f64 (.fin 1) (.fin 1))) (.fin t) = true
    rw [hs]
    show decide (|(0 : ℚ)| < t) = true
    simpa using hpos
  have hall : ((List.replicate 4 (1/4 : ℚ)).map (Flt.fin (f := f64) (L := L))).all
      (fun p => ge p zero) = true := by
    rw [List.all_map, List.all_eq_true]
    intro q hq
    rw [List.eq_of_mem_replicate hq]
    show decide ((0 : ℚ) ≤ 1 / 4) = true
    norm_num
  refine ⟨⟨(List.replicate 4 (1/4 : ℚ)).map (Flt.fin (f := f64) (L := L))⟩, ?_⟩
  unfold Categorical.new
  rw [es, hall, hc]
  rfl

end Verif
