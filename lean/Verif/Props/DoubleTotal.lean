import Verif.Spec.DoubleTotal
import Verif.Props.DoubleMonotone
import Verif.Props.DoubleCombinators
import Verif.Props.DoubleSpecial
import Verif.Props.Single
import Verif.Lemmas.StirlingReal

/-!
# C130: finite points never give NaN or `+∞`
-/

namespace Verif
open Format FloatOps Flt Spec

variable {f : Format} {L : Libm}

/-! ### bounds from above -/

theorem atMost_iff {B : ℚ} {v : FVal} : AtMost B v ↔ Flt.le v (.fin B) = true := by
  unfold AtMost
  cases v with
  | nan => simp [Flt.le]
  | inf s => cases s <;> simp [Flt.le]
  | fin q => simp [Flt.le]

theorem AtMost.mono {A B : ℚ} {v : FVal} (h : AtMost A v) (hAB : A ≤ B) : AtMost B v := by
  rcases h with h | ⟨q, h, hq⟩
  · exact .inl h
  · exact .inr ⟨q, h, hq.trans hAB⟩

theorem AtMost.ne_nan {B : ℚ} {v : FVal} (h : AtMost B v) : v ≠ .nan := by
  rcases h with rfl | ⟨q, rfl, -⟩ <;> simp

theorem atMost_round (hp : 1 ≤ f.prec) {q B : ℚ} (hB : f.Representable B) (h : q ≤ B) :
    AtMost B (f.round q) := by
  rw [atMost_iff]
  have := round_mono (f := f) hp h
  rwa [f.round_exact hB] at this

theorem AtMost.add (hp : 1 ≤ f.prec) {A B C : ℚ} {a b : FVal} (ha : AtMost A a) (hb : AtMost B b)
    (hC : f.Representable C) (h : A + B ≤ C) : AtMost C (Flt.add f a b) := by
  rcases ha with rfl | ⟨q, rfl, hq⟩
  · rcases hb with rfl | ⟨r, rfl, hr⟩ <;> exact .inl rfl
  · rcases hb with rfl | ⟨r, rfl, hr⟩
    · exact .inl rfl
    · exact atMost_round hp hC (by linarith)

theorem AtMost.sub_nonneg (hp : 1 ≤ f.prec) {A : ℚ} {a b : FVal} (ha : AtMost A a)
    (hb : Flt.le (.fin 0) b = true) (hA : f.Representable A) : AtMost A (Flt.sub f a b) := by
  have h : AtMost 0 (Flt.neg b) := by
    rw [atMost_iff]
    have := neg_le_neg hb
    simpa [Flt.neg] using this
  exact AtMost.add hp ha h hA (by simp)

/-! ### bounded values -/

/-- a finite number of size at most `2^k` -/
def Bdd (k : ℤ) (v : FVal) : Prop := ∃ q : ℚ, v = .fin q ∧ |q| ≤ 2 ^ k

theorem Bdd.up {k : ℤ} {v : FVal} (h : Bdd k v) : AtMost (2 ^ k) v := by
  obtain ⟨q, rfl, hq⟩ := h
  exact .inr ⟨q, rfl, (le_abs_self q).trans hq⟩

theorem Bdd.mono {j k : ℤ} {v : FVal} (h : Bdd j v) (hjk : j ≤ k) : Bdd k v := by
  obtain ⟨q, rfl, hq⟩ := h
  exact ⟨q, rfl, hq.trans (zpow_le_zpow_right₀ (by norm_num) hjk)⟩

theorem bdd_round (hp : 1 ≤ f.prec) {q : ℚ} {k : ℤ} (h : |q| ≤ 2 ^ k) (hk : f.emin ≤ k) (hk' : k < f.emax) :
    Bdd k (f.round q) := by
  obtain ⟨r, hr, h⟩ := f.round_le hp h hk hk'
  exact ⟨r, hr, h⟩

theorem Bdd.neg {k : ℤ} {v : FVal} (h : Bdd k v) : Bdd k (Flt.neg v) := by
  obtain ⟨q, rfl, hq⟩ := h
  exact ⟨-q, rfl, by rwa [abs_neg]⟩

theorem Bdd.add (hp : 1 ≤ f.prec) {k : ℤ} {a b : FVal} (ha : Bdd k a) (hb : Bdd k b) (hk : f.emin ≤ k)
    (hk' : k + 1 < f.emax) : Bdd (k + 1) (Flt.add f a b) := by
  obtain ⟨q, rfl, hq⟩ := ha
  obtain ⟨r, rfl, hr⟩ := hb
  refine bdd_round hp ?_ (by omega) hk'
  rw [zpow_add_one₀ (by norm_num)]
  have := abs_add_le q r
  linarith

theorem Bdd.sub (hp : 1 ≤ f.prec) {k : ℤ} {a b : FVal} (ha : Bdd k a) (hb : Bdd k b) (hk : f.emin ≤ k)
    (hk' : k + 1 < f.emax) : Bdd (k + 1) (Flt.sub f a b) := ha.add hp hb.neg hk hk'

theorem Bdd.mul (hp : 1 ≤ f.prec) {j k : ℤ} {a b : FVal} (ha : Bdd j a) (hb : Bdd k b) (hk : f.emin ≤ j + k)
    (hk' : j + k < f.emax) : Bdd (j + k) (Flt.mul f a b) := by
  obtain ⟨q, rfl, hq⟩ := ha
  obtain ⟨r, rfl, hr⟩ := hb
  refine bdd_round hp ?_ hk hk'
  rw [zpow_add₀ (by norm_num), abs_mul]
  gcongr

theorem bdd_ln (hf : f.Std) (hL : L.Accurate f) {q : ℚ} (h0 : 0 < q) (h : f.Representable q) :
    Bdd 12 (Flt.ln L (.fin q)) := by
  obtain ⟨r, hr, -, hB⟩ := near_ln_rep hf hL h0 h
  refine ⟨r, hr, rat_le ?_⟩
  rw [abs_le] at hB ⊢
  norm_num
  constructor <;> linarith [hB.1, hB.2]

/-- the logarithm of a positive value, `+∞` included, is not NaN, and not negative when the value is at
least one -/
theorem ln_ge_one (hf : f.Std) (hL : L.Accurate f) {v : FVal} (hv : f.Valid v) (h : Flt.le (.fin 1) v = true) :
    Flt.le (.fin 0) (Flt.ln L v) = true := by
  cases v with
  | nan => simp [Flt.le] at h
  | inf s => cases s <;> simp_all [Flt.le, Flt.ln]
  | fin q =>
    have hq : 1 ≤ q := le_fin.mp h
    obtain ⟨r, hr, -, he⟩ := hL.ln q (by linarith) hv
    have e : Flt.ln L (.fin q) = .fin r := by
      show (if 0 < q then L.ln q else _) = _
      rw [if_pos (by linarith), hr]
    rw [e, le_fin]
    have hl : 0 ≤ Real.log q := Real.log_nonneg (by exact_mod_cast hq)
    have hul := hf.u_le
    have hu := u_pos f
    rw [abs_of_nonneg hl, abs_le] at he
    have h1 : 2 * f.u * Real.log q ≤ 1 * Real.log q := by
      gcongr
      have : (1 : ℝ) / 2 ^ 24 ≤ 1/2 := by norm_num
      linarith
    have : (0 : ℝ) ≤ r := by linarith [he.1]
    exact_mod_cast this

/-- the logarithm of a number of the format in `(0,1]` is a number and not positive -/
theorem ln_le_one (hf : f.Std) (hL : L.Accurate f) {q : ℚ} (hq : f.Representable q) (h0 : 0 < q)
    (h1 : q ≤ 1) : ∃ r : ℚ, Flt.ln L (.fin q) = .fin r ∧ r ≤ 0 ∧ |r| ≤ 2 ^ (12 : ℤ) := by
  obtain ⟨r', hr', hB⟩ := bdd_ln hf hL h0 hq
  obtain ⟨r, hr, -, he⟩ := hL.ln q h0 hq
  have e : Flt.ln L (.fin q) = .fin r := by
    show (if 0 < q then L.ln q else _) = _
    rw [if_pos h0, hr]
  have : r' = r := by rw [e] at hr'; injection hr' with h; exact h.symm
  subst this
  refine ⟨r', e, ?_, hB⟩
  have h0' : (0 : ℝ) < q := by exact_mod_cast h0
  have h1' : (q : ℝ) ≤ 1 := by exact_mod_cast h1
  have hl : Real.log q ≤ 0 := Real.log_nonpos h0'.le h1'
  have hul := hf.u_le
  rw [abs_of_nonpos hl, abs_le] at he
  have h2 : 2 * f.u * (-Real.log q) ≤ 1 * (-Real.log q) := by
    gcongr
    · linarith
    have : (1 : ℝ) / 2 ^ 24 ≤ 1/2 := by norm_num
    linarith
  have : (r' : ℝ) ≤ 0 := by linarith [he.2]
  exact_mod_cast this

theorem Std.rep_pow (hf : f.Std) {k : ℤ} (h : f.emin ≤ k) (h' : k < f.emax) : f.Representable (2 ^ k) :=
  Verif.rep_pow f (prec1 hf) h h'

theorem quad_nonneg (hp : 1 ≤ f.prec) {c : ℚ} (hc : 0 < c) {z : FVal} (h0 : Flt.le (.fin 0) (Flt.abs z) = true) :
    Flt.le (.fin 0) (Flt.mul f (Flt.mul f (.fin c) z) z) = true := by
  have := quad_mono (f := f) hp hc (le_fin.mpr (_root_.le_refl (0 : ℚ))) h0
  rw [sq_abs'] at this
  have e : Flt.mul f (Flt.mul f (.fin c) (.fin 0)) (.fin 0) = .fin 0 := by
    show Flt.mul f (f.round (c * 0)) (.fin 0) = _
    rw [mul_zero, f.round_exact f.rep_zero]
    show f.round (0 * 0) = _
    rw [mul_zero, f.round_exact f.rep_zero]
  rwa [e] at this

theorem one_le_add (hf : f.Std) {v : FVal} (h : Flt.le (.fin 0) v = true) :
    Flt.le (.fin 1) (Flt.add f (.fin 1) v) = true := by
  have := add_le_add (f := f) (prec1 hf) (le_fin.mpr (_root_.le_refl (1 : ℚ))) h (by exact round_ne_nan _)
    (fin_add_ne_nan (le_ne_nan_right h))
  have e : Flt.add f (.fin 1) (.fin 0) = .fin 1 := by
    show f.round (1 + 0) = _
    rw [add_zero, f.round_exact hf.rep_one]
  rwa [e] at this

/-! ### Normal, Exponential, Cauchy -/

/-- **C130** (Normal): for every mean, every accepted scale and every finite point the log-density is
`-∞` or a number not above `4096`. -/
theorem C130_normal (hf : f.Std) (hL : L.Accurate f) {μ σ : ℚ} (hσ : f.Representable σ)
    {d : Normal (Flt f L)} (h : Normal.new (Flt.fin μ) (Flt.fin σ) = .ok d) (x : ℚ) :
    AtMost 4096 (logDensityWrtRoot d (Flt.fin x) : Flt f L) := by
  obtain ⟨hσ0, rfl⟩ := Normal.new_flt h
  have hp := prec1 hf
  obtain ⟨c, hc, hcn⟩ := near_const hf hL
  obtain ⟨l, hl, -, hl2⟩ := near_ln_rep hf hL hσ0 hσ
  obtain ⟨b0, b4⟩ := log_two_pi_bounds
  have hcsz := hcn.size hf (by norm_num)
  have hcl : (c : ℝ) - l ≤ 4096 := by
    have h1 := le_abs_self (c : ℝ)
    have h2 := neg_abs_le (l : ℝ)
    linarith
  have hcl' : c - l ≤ 4096 := by exact_mod_cast hcl
  have hrep : f.Representable 4096 := by
    have := Std.rep_pow hf (k := 12) (by have := hf.emin_le; omega) (by have := hf.emax_ge; omega)
    norm_num at this
    exact this
  rw [normal_flt, round_half hf]
  refine AtMost.sub_nonneg hp ?_ (quad_nonneg hp (by norm_num) (score_mono hp hσ0 le_rfl).1) hrep
  have e : Flt.mul f (Flt.neg (f.round (1/2))) (Flt.ln L (Flt.mul f (f.round 2) (f.round Flt.piLit))) = .fin c := hc
  rw [round_half hf] at e
  rw [e]
  have e2 : Flt.ln L (Flt.fin (f := f) (L := L) σ) = .fin l := hl
  rw [e2, sub_fin]
  exact atMost_round hp hrep hcl'

/-- **C130** (Exponential): for every accepted rate and every finite point. -/
theorem C130_exponential (hf : f.Std) (hL : L.Accurate f) {r : ℚ} (hr : f.Representable r)
    {d : Exponential (Flt f L)} (h : Exponential.new (Flt.fin r) = .ok d) (x : ℚ) :
    AtMost 4096 (logDensityWrtRoot d (Flt.fin x) : Flt f L) := by
  obtain ⟨hr0, rfl⟩ := Exponential.new_flt h
  have hp := prec1 hf
  have hrep : f.Representable 4096 := by
    have := Std.rep_pow hf (k := 12) (by have := hf.emin_le; omega) (by have := hf.emax_ge; omega)
    norm_num at this
    exact this
  rw [exponential_flt]
  split_ifs with hx
  · refine AtMost.sub_nonneg hp (AtMost.mono (bdd_ln hf hL hr0 hr).up (by norm_num))
      (round_nonneg hp (mul_nonneg hr0.le hx)) hrep
  · exact .inl rfl

/-- **C130** (Cauchy): for every location, every accepted scale and every finite point. -/
theorem C130_cauchy (hf : f.Std) (hL : L.Accurate f) {l s : ℚ} (hs : f.Representable s)
    {d : Cauchy (Flt f L)} (h : Cauchy.new (Flt.fin l) (Flt.fin s) = .ok d) (x : ℚ) :
    AtMost 4096 (logDensityWrtRoot d (Flt.fin x) : Flt f L) := by
  obtain ⟨hs0, rfl⟩ := Cauchy.new_flt h
  have hp := prec1 hf
  have hrep : f.Representable 4096 := by
    have := Std.rep_pow hf (k := 12) (by have := hf.emin_le; omega) (by have := hf.emax_ge; omega)
    norm_num at this
    exact this
  obtain ⟨c, hc, hcn⟩ := near_ln_pi hf hL
  rw [cauchy_flt, hc]
  have hz := (score_mono (f := f) (μ := l) (σ := s) (x := x) (y := x) hp hs0 le_rfl).1
  have hsq := sqr_nonneg (f := f) hp hz
  rw [sqr_abs'] at hsq
  have h1 : Flt.le (.fin 1) (Flt.add f (.fin 1) (Flt.mul f (Flt.div f (Flt.sub f (.fin x) (.fin l)) (.fin s))
      (Flt.div f (Flt.sub f (.fin x) (.fin l)) (.fin s)))) = true := by
    have := add_le_add (f := f) hp (le_fin.mpr (_root_.le_refl (1 : ℚ))) hsq (by exact round_ne_nan _)
      (fin_add_ne_nan (le_ne_nan_right hsq))
    have e : Flt.add f (.fin 1) (.fin 0) = .fin 1 := by
      show f.round (1 + 0) = _
      rw [add_zero, f.round_exact hf.rep_one]
    rwa [e] at this
  have h2 := ln_ge_one hf hL (add_valid hf _ _) h1
  have h3 : AtMost 0 (Flt.neg (Flt.ln L (Flt.add f (.fin 1)
      (Flt.mul f (Flt.div f (Flt.sub f (.fin x) (.fin l)) (.fin s))
      (Flt.div f (Flt.sub f (.fin x) (.fin l)) (.fin s)))))) := by
    rw [atMost_iff]
    have := neg_le_neg h2
    simpa [Flt.neg] using this
  have hc0 : Flt.le (.fin 0) (.fin c) = true := by
    rw [le_fin]
    have he := hcn.err
    have hul := hf.u_le
    have hu := u_pos f
    obtain ⟨b1, b2⟩ := log_pi_bounds
    have b3 : 1 ≤ Real.log Real.pi := by
      rw [Real.le_log_iff_exp_le Real.pi_pos]
      have := Real.exp_one_lt_d9
      have := Real.pi_gt_three
      linarith
    rw [abs_le] at he
    have h4 : 11 * f.u * (1 + Real.log Real.pi) ≤ 11 * (1 / 2 ^ 24) * (1 + 2) := by
      gcongr
      linarith
    have h5 : (11 : ℝ) * (1 / 2 ^ 24) * (1 + 2) ≤ 1/10 := by norm_num
    have : (0 : ℝ) ≤ c := by linarith [he.1]
    exact_mod_cast this
  refine AtMost.sub_nonneg hp ?_ hc0 hrep
  exact AtMost.add hp h3 ((bdd_ln hf hL hs0 hs).neg.up) hrep (by norm_num)


/-! ### Gamma, chi-squared, Beta, Student-t -/

theorem log_gamma_le_size {a : ℝ} {k : ℤ} (ha : 0 < a) (hk0 : 0 ≤ k) (hk : k ≤ 1010) (h : a ≤ 2 ^ k)
    (hl : |Real.log a| ≤ 1100) : |Real.log (Real.Gamma a)| ≤ 2600 * 2 ^ k := by
  have h1 := StirlingReal.log_gamma_succ ha
  have h2 := (StirlingReal.log_gamma_bounds (a := a + 1) (by linarith)).2
  have hlow := log_gamma_ge ha
  have hk1 : (1 : ℝ) ≤ 2 ^ k := one_le_zpow₀ (by norm_num) hk0
  have hlog : Real.log (a + 1) ≤ 702 := by
    have h3 : a + 1 ≤ 2 ^ (1011 : ℤ) := by
      have : (2 : ℝ) ^ k ≤ 2 ^ (1010 : ℤ) := zpow_le_zpow_right₀ (by norm_num) hk
      have h4 : (1 : ℝ) ≤ 2 ^ (1010 : ℤ) := one_le_zpow₀ (by norm_num) (by norm_num)
      rw [show (1011 : ℤ) = 1010 + 1 by norm_num, zpow_add_one₀ (by norm_num)]
      generalize (2 : ℝ) ^ (1010 : ℤ) = B at *
      linarith
    have h4 := Real.log_le_log (by linarith) h3
    rw [Real.log_zpow] at h4
    have := Real.log_two_lt_d9
    norm_num at h4
    linarith
  have hlog0 : 0 ≤ Real.log (a + 1) := Real.log_nonneg (by linarith)
  obtain ⟨-, b4⟩ := log_two_pi_bounds
  have hS : StirlingReal.S (a + 1) + 1 / (12 * (a + 1)) ≤ (a + 1) * 702 + 1 := by
    have e : 1 / (12 * (a + 1)) ≤ 1 / 12 := by
      apply one_div_le_one_div_of_le (by norm_num)
      linarith
    have e2 : (a + 1 - 1/2) * Real.log (a + 1) ≤ (a + 1) * 702 := by
      apply mul_le_mul (by linarith) hlog hlog0 (by linarith)
    unfold StirlingReal.S
    linarith
  rw [abs_le] at hl ⊢
  constructor <;> linarith [hl.1]

theorem bdd_lnGamma (hf : f.Std) (hG : L.GammaAccurate f) {a : ℚ} {k : ℤ} (h0 : 0 < a)
    (ha : f.Representable a) (hk0 : 0 ≤ k) (hk : k ≤ f.emax - 15) (h : a ≤ 2 ^ k) :
    Bdd (k + 12) (L.lnGamma (.fin a)) := by
  have h0' : (0 : ℝ) < a := by exact_mod_cast h0
  have h' : (a : ℝ) ≤ 2 ^ k := by
    have : (a : ℝ) ≤ ((2 ^ k : ℚ) : ℝ) := by exact_mod_cast h
    rwa [Rat.cast_zpow, Rat.cast_ofNat] at this
  have hb := log_gamma_le_size h0' hk0 (by have := hf.emax_le; omega) h' (log_rep_le hf h0 ha)
  have hk1 : (1 : ℝ) ≤ 2 ^ k := one_le_zpow₀ (by norm_num) hk0
  have e12 : (2 : ℝ) ^ (k + 12) = 4096 * 2 ^ k := by
    rw [zpow_add₀ (by norm_num)]; norm_num; ring
  rcases hG a h0 ha with ⟨r, hr, -, he⟩ | ⟨-, he⟩
  · refine ⟨r, hr, rat_le ?_⟩
    have hu := hf.u_le
    have h1 := abs_add_le ((r : ℝ) - Real.log (Real.Gamma a)) (Real.log (Real.Gamma a))
    rw [sub_add_cancel] at h1
    have h2 : 8 * f.u * (1 + |Real.log (Real.Gamma a)|) ≤ 8 * (1 / 2 ^ 24) * (1 + 2600 * 2 ^ k) := by
      gcongr
    have h3 : (8 : ℝ) * (1 / 2 ^ 24) * (1 + 2600 * 2 ^ k) ≤ 1 * 2 ^ k := by norm_num; linarith
    rw [e12]
    linarith
  · exfalso
    have h1 := le_abs_self (Real.log (Real.Gamma a))
    have h2 : (2 : ℝ) ^ (k + 12) ≤ 2 ^ (f.emax - 1) := zpow_le_zpow_right₀ (by norm_num) (by omega)
    linarith

theorem bdd_fin {a : ℚ} {k : ℤ} (h : |a| ≤ 2 ^ k) : Bdd k (.fin a) := ⟨a, rfl, h⟩

theorem abs_sub_one_le {a : ℚ} {k : ℤ} (h0 : 0 < a) (hk0 : 0 ≤ k) (h : a ≤ 2 ^ k) : |a - 1| ≤ 2 ^ k := by
  have : (1 : ℚ) ≤ 2 ^ k := one_le_zpow₀ (by norm_num) hk0
  rw [abs_le]; constructor <;> linarith

/-- **C130** (Gamma): for shapes up to `2^k`, any accepted rate and any finite point the log-density is
`-∞` or a number not above `2^(k+14)`.  Missing: shapes within a factor `2^20` of overflow, where
`C100_gamma_nan_violated` exhibits NaN. -/
theorem C130_gamma_partial (hf : f.Std) (hL : L.Accurate f) (hG : L.GammaAccurate f) {a b : ℚ}
    (ha : f.Representable a) (hb : f.Representable b) {d : Gamma (Flt f L)}
    (h : Gamma.new (Flt.fin a) (Flt.fin b) = .ok d) {k : ℤ} (hk0 : 0 ≤ k) (hk : k ≤ f.emax - 20)
    (hak : a ≤ 2 ^ k) {x : ℚ} (hx : f.Representable x) :
    AtMost (2 ^ (k + 14)) (logDensityWrtRoot d (Flt.fin x) : Flt f L) := by
  obtain ⟨ha0, hb0, rfl⟩ := Gamma.new_flt h
  have hp := prec1 hf
  have hm := hf.emin_le
  rw [gamma_flt]
  split_ifs with hx0
  · refine AtMost.sub_nonneg hp (Bdd.up ?_) (round_nonneg hp (mul_pos hb0 hx0).le)
      (Std.rep_pow hf (by omega) (by omega))
    have t1 := Bdd.mul (f := f) hp (bdd_fin (by rwa [abs_of_pos ha0])) (bdd_ln hf hL hb0 hb) (k := 12) (j := k)
      (by omega) (by omega)
    have t2 := t1.sub hp (bdd_lnGamma hf hG ha0 ha hk0 (by omega) hak) (by omega) (by omega)
    have t3 : Bdd k (Flt.sub f (.fin a) (.fin 1)) := by
      rw [sub_fin]; exact bdd_round hp (abs_sub_one_le ha0 hk0 hak) (by omega) (by omega)
    have t4 := Bdd.mul (f := f) hp t3 (bdd_ln hf hL hx0 hx) (by omega) (by omega)
    exact ((t2.mono (by omega : _ ≤ k + 13)).add hp (t4.mono (by omega)) (by omega) (by omega)).mono (by omega)
  · exact .inl rfl

theorem round_pi_bounds (hf : f.Std) : ∃ p : ℚ, f.round Flt.piLit = .fin p ∧ 3 ≤ p ∧ p ≤ 4 := by
  have hp := prec1 hf
  have h3 : f.Representable 3 := by
    have := rep_nat hf (n := 3) (le_trans (by norm_num) (Nat.pow_le_pow_right (by norm_num) hf.prec_ge))
    exact_mod_cast this
  have h4 : f.Representable 4 := by
    have := rep_nat hf (n := 4) (le_trans (by norm_num) (Nat.pow_le_pow_right (by norm_num) hf.prec_ge))
    exact_mod_cast this
  have a1 := round_mono (f := f) hp (show 3 ≤ Flt.piLit by norm_num [Flt.piLit])
  have a2 := round_mono (f := f) hp (show Flt.piLit ≤ 4 by norm_num [Flt.piLit])
  rw [f.round_exact h3] at a1
  rw [f.round_exact h4] at a2
  obtain ⟨p, hpq, -⟩ := near_pi hf
  rw [hpq] at a1 a2
  exact ⟨p, hpq, le_fin.mp a1, le_fin.mp a2⟩

theorem div_two_flt (y : ℚ) : Flt.div f (.fin y) (.fin 2) = f.round (y / 2) := by
  simp [Flt.div]

theorem half_pos_flt (hf : f.Std) {a : ℚ} (h : 2 ^ (f.emin + 1) ≤ a) {k : ℤ} (hk0 : f.emin ≤ k)
    (hk : k < f.emax) (hak : a / 2 ≤ 2 ^ k) :
    ∃ q : ℚ, f.round (a / 2) = .fin q ∧ 0 < q ∧ q ≤ 2 ^ k ∧ f.Representable q := by
  have hp := prec1 hf
  have h0 : 0 < a := lt_of_lt_of_le (by positivity) h
  obtain ⟨q, hq, hqk⟩ := f.round_le hp (q := a / 2) (k := k) (by rwa [abs_of_pos (by linarith)]) hk0 hk
  have h1 : 2 ^ f.emin ≤ a / 2 := by
    rw [zpow_add_one₀ (by norm_num)] at h; linarith
  have h2 := round_mono (f := f) hp h1
  rw [hq, f.round_exact (Std.rep_pow hf le_rfl (by omega)), le_fin] at h2
  exact ⟨q, hq, lt_of_lt_of_le (by positivity) h2, (le_abs_self q).trans hqk, (near_round hf hq).1⟩

/-- **C130** (chi-squared): for `2^(emin+1) ≤ k ≤ 2^(emax-20)` degrees of freedom. -/
theorem C130_chi_squared_partial (hf : f.Std) (hL : L.Accurate f) (hG : L.GammaAccurate f) {n : ℚ}
    {d : ChiSquared (Flt f L)} (h : ChiSquared.new (Flt.fin n) = .ok d) (hn : 2 ^ (f.emin + 1) ≤ n)
    {k : ℤ} (hk0 : 0 ≤ k) (hk : k ≤ f.emax - 20) (hnk : n ≤ 2 ^ k) {x : ℚ} (hx : f.Representable x) :
    AtMost (2 ^ (k + 14)) (logDensityWrtRoot d (Flt.fin x) : Flt f L) := by
  obtain ⟨hn0, rfl⟩ := ChiSquared.new_flt h
  have hp := prec1 hf
  have hm := hf.emin_le
  rw [chi_flt]
  split_ifs with hx0
  · have e2 : Flt.add f (.fin 1) (.fin 1) = .fin 2 := one_add_one hf
    have ed := div_two_flt (f := f)
    have hk2 : n / 2 ≤ 2 ^ k := by linarith
    obtain ⟨q, hq, hq0, hqk, hqr⟩ := half_pos_flt hf hn (by omega) (by omega) hk2
    simp only [e2, ed, hq]
    refine AtMost.sub_nonneg hp (Bdd.up ?_) (round_nonneg hp (by linarith))
      (Std.rep_pow hf (by omega) (by omega))
    have t1 := Bdd.mul (f := f) hp (Bdd.neg (bdd_fin (by rwa [abs_of_pos hq0])))
      (bdd_ln hf hL (by norm_num) hf.rep_two) (k := 12) (j := k) (by omega) (by omega)
    have t2 := t1.sub hp (bdd_lnGamma hf hG hq0 hqr hk0 (by omega) hqk) (by omega) (by omega)
    have t3 : Bdd k (Flt.sub f (.fin q) (.fin 1)) := by
      rw [sub_fin]; exact bdd_round hp (abs_sub_one_le hq0 hk0 hqk) (by omega) (by omega)
    have t4 := Bdd.mul (f := f) hp t3 (bdd_ln hf hL hx0 hx) (by omega) (by omega)
    exact ((t2.mono (by omega : _ ≤ k + 13)).add hp (t4.mono (by omega)) (by omega) (by omega)).mono (by omega)
  · exact .inl rfl

/-- `1 - p` as computed, for `p` in `[0,1)` -/
theorem compl_flt (hf : f.Std) {p : ℚ} (h : f.Representable p) (h0 : 0 ≤ p) (h1 : p < 1) :
    ∃ c : ℚ, Flt.sub f (.fin 1) (.fin p) = .fin c ∧ f.Representable c ∧ 0 < c ∧ c ≤ 1 := by
  obtain ⟨c, hc, hn⟩ := App.compl hf h h0 h1
  have h1' : (p : ℝ) < 1 := by exact_mod_cast h1
  refine ⟨c, hc, hn.rep, ?_, ?_⟩
  · have he := hn.err
    have hul := hf.u_le
    rw [abs_le] at he
    have h2 : 1 * f.u * (1 - (p : ℝ)) ≤ 1/2 * (1 - p) := by
      gcongr
      have : (1 : ℝ) / 2 ^ 24 ≤ 1/2 := by norm_num
      linarith
    have : (0 : ℝ) < c := by linarith [he.1]
    exact_mod_cast this
  · rw [sub_fin] at hc
    have := round_mono (f := f) (prec1 hf) (show 1 - p ≤ 1 by linarith)
    rw [hc, f.round_exact hf.rep_one, le_fin] at this
    exact this

/-- **C130** (Beta): for parameters up to `2^k`. -/
theorem C130_beta_partial (hf : f.Std) (hL : L.Accurate f) (hG : L.GammaAccurate f) {a b : ℚ}
    (ha : f.Representable a) (hb : f.Representable b) {d : Beta (Flt f L)}
    (h : Beta.new (Flt.fin a) (Flt.fin b) = .ok d) {k : ℤ} (hk0 : 0 ≤ k) (hk : k ≤ f.emax - 20)
    (hak : a ≤ 2 ^ k) (hbk : b ≤ 2 ^ k) {x : ℚ} (hx : f.Representable x) :
    AtMost (2 ^ (k + 17)) (logDensityWrtRoot d (Flt.fin x) : Flt f L) := by
  obtain ⟨ha0, hb0, rfl⟩ := Beta.new_flt h
  have hp := prec1 hf
  have hm := hf.emin_le
  rw [beta_flt]
  split_ifs with hx0
  · obtain ⟨s, hs, hsk⟩ := f.round_le hp (q := a + b) (k := k + 1)
      (by rw [abs_of_pos (by linarith), zpow_add_one₀ (by norm_num)]; linarith) (by omega) (by omega)
    have hs0 : 0 < s := by
      have := round_mono (f := f) hp (show a ≤ a + b by linarith)
      rw [hs, f.round_exact ha, le_fin] at this
      linarith
    have es : Flt.add f (.fin a) (.fin b) = .fin s := hs
    obtain ⟨c, hc, hcr, hc0, hc1⟩ := compl_flt hf hx hx0.1.le hx0.2
    rw [es, hc]
    have g1 := bdd_lnGamma hf hG hs0 (near_round hf hs).1 (k := k + 1) (by omega) (by omega)
      ((le_abs_self s).trans hsk)
    have g2 := bdd_lnGamma hf hG ha0 ha hk0 (by omega) hak
    have g3 := bdd_lnGamma hf hG hb0 hb hk0 (by omega) hbk
    have t1 := (g1.mono (by omega : _ ≤ k + 13)).sub hp (g2.mono (by omega)) (by omega) (by omega)
    have t2 := (t1.mono (by omega : _ ≤ k + 14)).sub hp (g3.mono (by omega)) (by omega) (by omega)
    have t3 : Bdd k (Flt.sub f (.fin a) (.fin 1)) := by
      rw [sub_fin]; exact bdd_round hp (abs_sub_one_le ha0 hk0 hak) (by omega) (by omega)
    have t4 : Bdd k (Flt.sub f (.fin b) (.fin 1)) := by
      rw [sub_fin]; exact bdd_round hp (abs_sub_one_le hb0 hk0 hbk) (by omega) (by omega)
    have t5 := Bdd.mul (f := f) hp t3 (bdd_ln hf hL hx0.1 hx) (by omega) (by omega)
    have t6 := Bdd.mul (f := f) hp t4 (bdd_ln hf hL hc0 hcr) (by omega) (by omega)
    have t7 := (t2.mono (by omega : _ ≤ k + 15)).add hp (t5.mono (by omega)) (by omega) (by omega)
    have t8 := (t7.mono (by omega : _ ≤ k + 16)).add hp (t6.mono (by omega)) (by omega) (by omega)
    exact (t8.mono (by omega : _ ≤ k + 17)).up
  · exact .inl rfl

/-- the terms of the Student-t log-density that do not involve the point, and the factor of the one that
does -/
theorem student_terms (hf : f.Std) (hL : L.Accurate f) (hG : L.GammaAccurate f) {ν : ℚ}
    (hn : 2 ^ (f.emin + 1) ≤ ν) {k : ℤ} (hk0 : 0 ≤ k) (hk : k ≤ f.emax - 20) (hνk : ν ≤ 2 ^ k) :
    Bdd (k + 14) (Flt.sub f (Flt.sub f
          (L.lnGamma (Flt.div f (Flt.add f (.fin ν) (.fin 1)) (f.round 2)))
          (L.lnGamma (Flt.div f (.fin ν) (f.round 2))))
          (Flt.mul f (f.round (1/2)) (Flt.ln L (Flt.mul f (.fin ν) (f.round Flt.piLit))))) ∧
    ∃ t : ℚ, 0 < t ∧ Flt.div f (Flt.add f (.fin ν) (.fin 1)) (f.round 2) = .fin t := by
  have hν0 : 0 < ν := lt_of_lt_of_le (by positivity) hn
  have hp := prec1 hf
  have hm := hf.emin_le
  have h2k : (1 : ℚ) ≤ 2 ^ k := one_le_zpow₀ (by norm_num) hk0
  have ed := div_two_flt (f := f)
  obtain ⟨q, hq, hq0, hqk, hqr⟩ := half_pos_flt hf hn (k := k) (by omega) (by omega) (by linarith)
  -- ν + 1
  obtain ⟨s, hs, hsk⟩ := f.round_le hp (q := ν + 1) (k := k + 1)
      (by rw [abs_of_pos (by linarith), zpow_add_one₀ (by norm_num)]; linarith) (by omega) (by omega)
  have hs1 : 1 ≤ s := by
    have := round_mono (f := f) hp (show 1 ≤ ν + 1 by linarith)
    rwa [hs, f.round_exact hf.rep_one, le_fin] at this
  have es : Flt.add f (.fin ν) (.fin 1) = .fin s := hs
  have hs2 : 2 ^ (f.emin + 1) ≤ s :=
    (zpow_le_one_of_nonpos₀ (by norm_num) (by omega)).trans hs1
  have hsk' : s / 2 ≤ 2 ^ k := by
    have := (le_abs_self s).trans hsk
    rw [zpow_add_one₀ (by norm_num)] at this
    linarith
  obtain ⟨t, ht, ht0, htk, htr⟩ := half_pos_flt hf hs2 (k := k) (by omega) (by omega) hsk'
  rw [round_half hf, f.round_exact hf.rep_two]
  have e1 : Flt.add f (.fin ν) (.fin 1) = .fin s := es
  have e2 : Flt.div f (.fin ν) (.fin 2) = .fin q := by rw [← hq]; exact ed ν
  rw [e1, e2, ed, ht]
  have g1 := bdd_lnGamma hf hG ht0 htr hk0 (by omega) htk
  have g2 := bdd_lnGamma hf hG hq0 hqr hk0 (by omega) hqk
  have t1 := g1.sub hp g2 (by omega) (by omega)
  -- ln(ν π)
  have hpi : ∃ w : ℚ, Flt.mul f (.fin ν) (f.round Flt.piLit) = .fin w ∧ 0 < w ∧ f.Representable w := by
    obtain ⟨p, hpq, hp1, hp2⟩ := round_pi_bounds hf
    rw [hpq]
    have h0p : ν ≤ ν * p := by nlinarith
    obtain ⟨w, hw, -⟩ := f.round_le hp (q := ν * p) (k := k + 2)
      (by rw [abs_of_pos (by linarith), zpow_add₀ (by norm_num)]
          have : ν * p ≤ 2 ^ k * 4 := mul_le_mul hνk hp2 (by linarith) (by positivity)
          norm_num
          exact this) (by omega) (by omega)
    refine ⟨w, hw, ?_, (near_round hf hw).1⟩
    have h1 : (2 : ℚ) ^ (f.emin + 1) ≤ ν * p := hn.trans h0p
    have := round_mono (f := f) hp h1
    rw [hw, f.round_exact (Std.rep_pow hf (by omega) (by omega)), le_fin] at this
    exact lt_of_lt_of_le (by positivity) this
  obtain ⟨w, hw, hw0, hwr⟩ := hpi
  have e3 : Flt.mul f (.fin ν) (f.round Flt.piLit) = .fin w := hw
  rw [e3]
  have t2 := Bdd.mul (f := f) hp (bdd_fin (a := 1/2) (k := 0) (by norm_num [abs_of_pos]))
    (bdd_ln hf hL hw0 hwr) (by omega) (by omega)
  have t3 := (t1.mono (by omega : _ ≤ k + 13)).sub hp (t2.mono (by omega)) (by omega) (by omega)
  exact ⟨t3.mono (by omega), t, ht0, rfl⟩

/-- **C130** (Student-t): for `2^(emin+1) ≤ ν ≤ 2^k` and every finite point. -/
theorem C130_student_partial (hf : f.Std) (hL : L.Accurate f) (hG : L.GammaAccurate f) {ν : ℚ}
    {d : StudentT (Flt f L)} (h : StudentT.new (Flt.fin ν) = .ok d) (hn : 2 ^ (f.emin + 1) ≤ ν)
    {k : ℤ} (hk0 : 0 ≤ k) (hk : k ≤ f.emax - 20) (hνk : ν ≤ 2 ^ k) (x : ℚ) :
    AtMost (2 ^ (k + 14)) (logDensityWrtRoot d (Flt.fin x) : Flt f L) := by
  obtain ⟨hν0, rfl⟩ := StudentT.new_flt h
  have hp := prec1 hf
  have hm := hf.emin_le
  obtain ⟨t3, t, ht0, ht⟩ := student_terms hf hL hG hn hk0 hk hνk
  have e : (logDensityWrtRoot (⟨Flt.fin ν⟩ : StudentT (Flt f L)) (Flt.fin x) : Flt f L) =
      Flt.add f
        (Flt.sub f (Flt.sub f
          (L.lnGamma (Flt.div f (Flt.add f (.fin ν) (.fin 1)) (f.round 2)))
          (L.lnGamma (Flt.div f (.fin ν) (f.round 2))))
          (Flt.mul f (f.round (1/2)) (Flt.ln L (Flt.mul f (.fin ν) (f.round Flt.piLit)))))
        (Flt.mul f (Flt.neg (Flt.div f (Flt.add f (.fin ν) (.fin 1)) (f.round 2)))
          (Flt.ln L (Flt.add f (.fin 1) (Flt.div f (Flt.mul f (.fin x) (.fin x)) (.fin ν))))) := rfl
  rw [e]
  refine AtMost.add hp t3.up (B := 0) ?_ (Std.rep_pow hf (by omega) (by omega)) (by simp)
  rw [ht]
  -- the last factor
  have hsq : Flt.le (.fin 0) (Flt.mul f (.fin x) (.fin x)) = true := round_nonneg hp (mul_self_nonneg x)
  have hdv : Flt.le (.fin 0) (Flt.div f (Flt.mul f (.fin x) (.fin x)) (.fin ν)) = true := by
    have := div_le_div (f := f) hp hν0 hsq
    have e0 : Flt.div f (.fin 0) (.fin ν) = .fin 0 := by
      show (if ν = 0 then _ else _) = _
      rw [if_neg hν0.ne', zero_div, f.round_exact f.rep_zero]
    rwa [e0] at this
  have h1 : Flt.le (.fin 1) (Flt.add f (.fin 1) (Flt.div f (Flt.mul f (.fin x) (.fin x)) (.fin ν))) = true := by
    have := add_le_add (f := f) hp (le_fin.mpr (_root_.le_refl (1 : ℚ))) hdv (by exact round_ne_nan _)
      (fin_add_ne_nan (le_ne_nan_right hdv))
    have e : Flt.add f (.fin 1) (.fin 0) = .fin 1 := by
      show f.round (1 + 0) = _
      rw [add_zero, f.round_exact hf.rep_one]
    rwa [e] at this
  have h2 := ln_ge_one hf hL (add_valid hf _ _) h1
  have h3 : AtMost 0 (Flt.mul f (Flt.neg (.fin t))
      (Flt.ln L (Flt.add f (.fin 1) (Flt.div f (Flt.mul f (.fin x) (.fin x)) (.fin ν))))) := by
    rw [mul_neg_left]
    rcases nonneg_cases h2 with h4 | ⟨r, hr0, h4⟩ <;> rw [h4]
    · left
      simp [Flt.mul, Flt.neg, ht0.ne', ht0.le]
    · rw [atMost_iff]
      have := neg_le_neg (round_nonneg (f := f) hp (mul_nonneg ht0.le hr0))
      rwa [show Flt.neg (.fin 0) = .fin 0 by simp [Flt.neg]] at this
  exact h3

/-! ### discrete distributions -/

/-- **C130** (Bernoulli): the log-mass of every byte is `-∞` or a number not above zero. -/
theorem C130_bernoulli (hf : f.Std) (hL : L.Accurate f) {p : ℚ} (hp : f.Representable p)
    {d : Bernoulli (Flt f L)} (h : Bernoulli.new (Flt.fin p) = .ok d) (x : UInt8) :
    AtMost 0 (logDensityWrtRoot d x : Flt f L) := by
  obtain ⟨h0, h1, rfl⟩ := Bernoulli.new_flt h
  have e : (logDensityWrtRoot (⟨Flt.fin p⟩ : Bernoulli (Flt f L)) x : Flt f L) =
      if x = 0 then Flt.ln L (Flt.sub f (.fin 1) (.fin p)) else if x = 1 then Flt.ln L (.fin p)
      else Flt.negInf (f := f) (L := L) := rfl
  rw [e]
  split_ifs
  · rcases h1.lt_or_eq with h1 | rfl
    · obtain ⟨c, hc, hcr, hc0, hc1⟩ := compl_flt hf hp h0 h1
      obtain ⟨r, hr, hr0, -⟩ := ln_le_one hf hL hcr hc0 hc1
      rw [hc, hr]
      exact .inr ⟨r, rfl, hr0⟩
    · have : Flt.sub f (.fin 1) (.fin 1) = .fin 0 := by
        rw [sub_fin, sub_self]; exact f.round_exact (rep_zero f)
      rw [this]
      exact .inl ln_zero_flt
  · rcases h0.lt_or_eq with h0 | rfl
    · obtain ⟨r, hr, hr0, -⟩ := ln_le_one hf hL hp h0 h1
      rw [hr]
      exact .inr ⟨r, rfl, hr0⟩
    · exact .inl ln_zero_flt
  · exact .inl rfl

/-- **C130** (categorical): for every accepted list of probabilities and every index. -/
theorem C130_categorical (hf : f.Std) (hL : L.Accurate f) {ps : List ℚ}
    (hp : ∀ p ∈ ps, f.Representable p) {d : Categorical (Flt f L)}
    (h : Categorical.new (ps.map (Flt.fin (f := f) (L := L))) = .ok d) (i : ℕ) :
    AtMost 4096 (logDensityWrtRoot d i : Flt f L) := by
  obtain ⟨h1, h2, h3, h4⟩ := C101_categorical hf hL hp h
  rcases lt_or_ge i ps.length with hi | hi
  · rcases (h4 _ (List.getElem_mem hi)).lt_or_eq with h0 | h0
    · obtain ⟨r, hr, -, he⟩ := h1 i hi h0
      rw [hr]
      refine .inr ⟨r, rfl, ?_⟩
      have hl := log_rep_le hf h0 (hp _ (List.getElem_mem hi))
      have hul := hf.u_le
      rw [abs_le] at he
      have h5 : 2 * f.u * |Real.log ps[i]| ≤ 2 * (1 / 2 ^ 24) * 1100 := by gcongr
      have h6 := (le_abs_self _).trans hl
      have h7 : (2 : ℝ) * (1 / 2 ^ 24) * 1100 ≤ 1 := by norm_num
      have : (r : ℝ) ≤ 4096 := by linarith [he.2]
      exact_mod_cast this
    · rw [h2 i hi h0.symm]; exact .inl rfl
  · rw [h3 i hi]; exact .inl rfl

/-- a count of 64 bits as a number of the format -/
theorem count_flt (hf : f.Std) {k : ℕ} (hk : k ≤ 2 ^ 64) :
    ∃ q : ℚ, (FloatOps.ofNat k : Flt f L) = Flt.fin (f := f) (L := L) q ∧ 0 ≤ q ∧ q ≤ 2 ^ (64 : ℤ) ∧
      (1 ≤ k → 1 ≤ q) := by
  have hp := prec1 hf
  have hm := hf.emin_le
  have hx := hf.emax_ge
  obtain ⟨q, hq, hqk⟩ := f.round_le hp (q := (k : ℚ)) (k := 64) (by
    rw [abs_of_nonneg (by positivity)]
    exact_mod_cast hk) (by omega) (by omega)
  refine ⟨q, hq, ?_, (le_abs_self q).trans hqk, fun h1 => ?_⟩
  · have := round_nonneg (f := f) hp (show (0 : ℚ) ≤ k by positivity)
    rw [hq, le_fin] at this
    exact this
  · have := round_mono (f := f) hp (show (1 : ℚ) ≤ k by exact_mod_cast h1)
    rw [hq, f.round_exact hf.rep_one, le_fin] at this
    exact this

theorem atMost_mul (hp : 1 ≤ f.prec) {q r : ℚ} (hq : 0 ≤ q) (hr : r ≤ 0) :
    AtMost 0 (Flt.mul f (.fin q) (.fin r)) :=
  atMost_round hp f.rep_zero (mul_nonpos_of_nonneg_of_nonpos hq hr)

/-- **C130** (geometric): for every accepted probability other than one and every 64-bit count the
log-mass is `-∞` or a number not above zero. -/
theorem C130_geometric_partial (hf : f.Std) (hL : L.Accurate f) {p : ℚ} (hp : f.Representable p)
    {d : Geometric (Flt f L)} (h : Geometric.new (Flt.fin p) = .ok d) (hp1 : p ≠ 1) {k : ℕ}
    (hk : k ≤ 2 ^ 64) : AtMost 0 (logDensityWrtRoot d k : Flt f L) := by
  obtain ⟨h0, h1, rfl⟩ := Geometric.new_flt h
  have hpr := prec1 hf
  have hm := hf.emin_le
  have hx := hf.emax_ge
  have e : (logDensityWrtRoot (⟨Flt.fin p⟩ : Geometric (Flt f L)) k : Flt f L) =
      if 1 ≤ k then Flt.add f (Flt.mul f (Flt.sub f (FloatOps.ofNat k : Flt f L) (.fin 1))
        (Flt.ln L (Flt.sub f (.fin 1) (.fin p)))) (Flt.ln L (.fin p))
      else Flt.negInf (f := f) (L := L) := rfl
  rw [e]
  split_ifs with hk1
  · obtain ⟨q, hq, hq0, hq64, hq1⟩ := count_flt (f := f) (L := L) hf hk
    obtain ⟨c, hc, hcr, hc0, hc1⟩ := compl_flt hf hp h0.le (lt_of_le_of_ne h1 hp1)
    obtain ⟨r, hr, hr0, -⟩ := ln_le_one hf hL hcr hc0 hc1
    obtain ⟨s, hs, hs0, -⟩ := ln_le_one hf hL hp h0 h1
    have hq1 := hq1 hk1
    obtain ⟨t, ht, -⟩ := f.round_le hpr (q := q - 1) (k := 64) (by
      rw [abs_of_nonneg (by linarith)]; linarith) (by omega) (by omega)
    have ht0 := round_nonneg (f := f) hpr (show 0 ≤ q - 1 by linarith)
    rw [ht, le_fin] at ht0
    have e1 : Flt.sub f (FloatOps.ofNat k : Flt f L) (.fin 1) = .fin t := by
      rw [hq, ← ht]; exact sub_fin _ _
    rw [e1, hc, hr, hs]
    exact AtMost.add hpr (atMost_mul hpr ht0 hr0) (.inr ⟨s, rfl, hs0⟩) f.rep_zero (by norm_num)
  · exact .inl rfl

/-- At `p = 1` the log-mass of the only possible count is NaN. -/
theorem C130_geometric_violated (hf : f.Std) :
    ∃ d : Geometric (Flt f L), Geometric.new (Flt.fin 1) = .ok d ∧
      logDensityWrtRoot d 1 = Flt.nan (f := f) (L := L) := by
  refine ⟨⟨Flt.fin 1⟩, ?_, ?_⟩
  · unfold Geometric.new
    rw [if_pos]
    show (decide ((0 : ℚ) < 1) && decide ((1 : ℚ) ≤ 1)) = true
    simp
  · have hle : 1 ≤ 2 ^ f.prec := Nat.one_le_two_pow
    rw [geometric_flt hf 1 hle, if_pos le_rfl]
    have e : Flt.sub f (.fin 1) (.fin 1) = .fin 0 := by
      rw [sub_fin, sub_self]; exact f.round_exact (rep_zero f)
    rw [Nat.cast_one, e, ln_zero_flt]
    rfl

/-- the kernel `k ln p + j ln (1-p)` -/
theorem atMost_kernel (hf : f.Std) (hL : L.Accurate f) {p : ℚ} (hp : f.Representable p) (h0 : 0 < p)
    (h1 : p < 1) {a b : ℚ} (ha : 0 ≤ a) (hb : 0 ≤ b) :
    AtMost 0 (Flt.add f (Flt.mul f (.fin a) (Flt.ln L (.fin p)))
      (Flt.mul f (.fin b) (Flt.ln L (Flt.sub f (.fin 1) (.fin p))))) := by
  have hpr := prec1 hf
  obtain ⟨c, hc, hcr, hc0, hc1⟩ := compl_flt hf hp h0.le h1
  obtain ⟨r, hr, hr0, -⟩ := ln_le_one hf hL hcr hc0 hc1
  obtain ⟨s, hs, hs0, -⟩ := ln_le_one hf hL hp h0 h1.le
  rw [hc, hr, hs]
  exact AtMost.add hpr (atMost_mul hpr ha hs0) (atMost_mul hpr hb hr0) f.rep_zero (by norm_num)

/-- **C130** (binomial): for every probability strictly between zero and one and all 64-bit counts. -/
theorem C130_binomial_partial (hf : f.Std) (hL : L.Accurate f) {p : ℚ} (hp : f.Representable p)
    (h0 : p ≠ 0) (h1 : p ≠ 1) {n : ℕ} {d : Binomial (Flt f L)} (h : Binomial.new n (Flt.fin p) = .ok d)
    (hn : n ≤ 2 ^ 64) (k : ℕ) : AtMost 0 (logDensityWrtRoot d k : Flt f L) := by
  obtain ⟨h0', h1', rfl⟩ := Binomial.new_flt h
  have hpr := prec1 hf
  have hm := hf.emin_le
  have hx := hf.emax_ge
  have e : (logDensityWrtRoot (⟨n, Flt.fin p⟩ : Binomial (Flt f L)) k : Flt f L) =
      if k ≤ n then Flt.add f (Flt.mul f (FloatOps.ofNat k : Flt f L) (Flt.ln L (.fin p)))
        (Flt.mul f (Flt.sub f (FloatOps.ofNat n : Flt f L) (FloatOps.ofNat k : Flt f L))
          (Flt.ln L (Flt.sub f (.fin 1) (.fin p))))
      else Flt.negInf (f := f) (L := L) := rfl
  rw [e]
  split_ifs with hkn
  · obtain ⟨q, hq, hq0, hq64, -⟩ := count_flt (f := f) (L := L) hf (hkn.trans hn)
    obtain ⟨m, hmm, hm0, hm64, -⟩ := count_flt (f := f) (L := L) hf hn
    have hqm : q ≤ m := by
      have := round_mono (f := f) hpr (show (k : ℚ) ≤ n by exact_mod_cast hkn)
      have e1 : f.round (k : ℚ) = .fin q := hq
      have e2 : f.round (n : ℚ) = .fin m := hmm
      rwa [e1, e2, le_fin] at this
    obtain ⟨t, ht, -⟩ := f.round_le hpr (q := m - q) (k := 64) (by
      rw [abs_of_nonneg (by linarith)]; linarith) (by omega) (by omega)
    have ht0 := round_nonneg (f := f) hpr (show 0 ≤ m - q by linarith)
    rw [ht, le_fin] at ht0
    have e1 : Flt.sub f (FloatOps.ofNat n : Flt f L) (FloatOps.ofNat k : Flt f L) = .fin t := by
      rw [hq, hmm, ← ht]; exact sub_fin _ _
    rw [e1, hq]
    exact atMost_kernel hf hL hp (lt_of_le_of_ne h0' (Ne.symm h0)) (lt_of_le_of_ne h1' h1) hq0 ht0
  · exact .inl rfl

/-- At `p = 1` and at `p = 0` the log-mass of the certain outcome is NaN. -/
theorem C130_binomial_violated (hf : f.Std) :
    (∃ d : Binomial (Flt f L), Binomial.new 1 (Flt.fin 1) = .ok d ∧
      logDensityWrtRoot d 1 = Flt.nan (f := f) (L := L)) ∧
    (∃ d : Binomial (Flt f L), Binomial.new 1 (Flt.fin 0) = .ok d ∧
      logDensityWrtRoot d 0 = Flt.nan (f := f) (L := L)) := by
  have h1 : 1 ≤ 2 ^ f.prec := Nat.one_le_two_pow
  constructor
  · refine ⟨⟨1, Flt.fin 1⟩, ?_, ?_⟩
    · unfold Binomial.new
      rw [if_pos]
      show (decide ((0 : ℚ) ≤ 1) && decide ((1 : ℚ) ≤ 1)) = true
      simp
    · rw [binomial_flt hf 1 h1 le_rfl]
      have e : Flt.sub f (.fin 1) (.fin 1) = .fin 0 := by
        rw [sub_fin, sub_self]; exact f.round_exact (rep_zero f)
      rw [e, ln_zero_flt, Nat.sub_self, Nat.cast_zero]
      have : Flt.mul f (.fin 0) (.inf true) = .nan := by simp [Flt.mul]
      rw [this]
      cases Flt.mul f (.fin ((1 : ℕ) : ℚ)) (Flt.ln L (.fin 1)) <;> rfl
  · refine ⟨⟨1, Flt.fin 0⟩, ?_, ?_⟩
    · unfold Binomial.new
      rw [if_pos]
      show (decide ((0 : ℚ) ≤ 0) && decide ((0 : ℚ) ≤ 1)) = true
      simp
    · rw [binomial_flt hf 0 h1 (by norm_num), ln_zero_flt, Nat.cast_zero]
      have : Flt.mul f (.fin 0) (.inf true) = .nan := by simp [Flt.mul]
      rw [this]
      rfl

/-- **C130** (negative binomial): for every accepted probability and all 64-bit counts. -/
theorem C130_negative_binomial (hf : f.Std) (hL : L.Accurate f) {p : ℚ} (hp : f.Representable p)
    {s : ℕ} {d : NegativeBinomial (Flt f L)} (h : NegativeBinomial.new s (Flt.fin p) = .ok d)
    (hs : s ≤ 2 ^ 64) {k : ℕ} (hk : k ≤ 2 ^ 64) : AtMost 0 (logDensityWrtRoot d k : Flt f L) := by
  obtain ⟨-, h0, h1, rfl⟩ := NegativeBinomial.new_flt h
  obtain ⟨q, hq, hq0, -, -⟩ := count_flt (f := f) (L := L) hf hk
  obtain ⟨m, hm, hm0, -, -⟩ := count_flt (f := f) (L := L) hf hs
  have e1 : (logDensityWrtRoot (⟨s, Flt.fin p⟩ : NegativeBinomial (Flt f L)) k : Flt f L) =
      Flt.add f (Flt.mul f (FloatOps.ofNat s : Flt f L) (Flt.ln L (.fin p)))
        (Flt.mul f (FloatOps.ofNat k : Flt f L) (Flt.ln L (Flt.sub f (.fin 1) (.fin p)))) := rfl
  rw [e1, hq, hm]
  exact atMost_kernel hf hL hp h0 h1 hm0 hq0

theorem add_nonneg_flt (hp : 1 ≤ f.prec) {a b : FVal} (ha : Flt.le (.fin 0) a = true)
    (hb : Flt.le (.fin 0) b = true) : Flt.le (.fin 0) (Flt.add f a b) = true := by
  rcases nonneg_cases ha with rfl | ⟨q, hq, rfl⟩ <;> rcases nonneg_cases hb with rfl | ⟨r, hr, rfl⟩
  · rfl
  · rfl
  · rfl
  · exact round_nonneg hp (by linarith)

theorem foldl_nonneg_flt (hp : 1 ≤ f.prec) {α : Type} (g : α → FVal) (xs : List α)
    (h : ∀ x ∈ xs, Flt.le (.fin 0) (g x) = true) {a : FVal} (ha : Flt.le (.fin 0) a = true) :
    Flt.le (.fin 0) (xs.foldl (fun acc x => Flt.add f acc (g x)) a) = true := by
  induction xs generalizing a with
  | nil => exact ha
  | cons x xs ih =>
    exact ih (fun y hy => h y (List.mem_cons_of_mem _ hy)) (add_nonneg_flt hp ha (h x List.mem_cons_self))

/-- **C130** (Poisson): for every accepted rate and every 64-bit count. -/
theorem C130_poisson (hf : f.Std) (hL : L.Accurate f) {l : ℚ} (hl : f.Representable l)
    {d : Poisson (Flt f L)} (h : Poisson.new (Flt.fin l) = .ok d) {k : ℕ} (hk : k ≤ 2 ^ 64) :
    AtMost (2 ^ 76) (logDensityWrtRoot d k : Flt f L) := by
  obtain ⟨h0, rfl⟩ := Poisson.new_flt h
  have hp := prec1 hf
  have hm := hf.emin_le
  have hx := hf.emax_ge
  obtain ⟨q, hq, hq0, hq64, -⟩ := count_flt (f := f) (L := L) hf hk
  have e : (logDensityWrtRoot (⟨Flt.fin l⟩ : Poisson (Flt f L)) k : Flt f L) =
      Flt.sub f (Flt.sub f (Flt.mul f (FloatOps.ofNat k : Flt f L) (Flt.ln L (.fin l))) (.fin l))
        ((List.range' 1 k).foldl (fun acc i => Flt.add f acc (Flt.ln L (FloatOps.ofNat i : Flt f L)))
        (.fin 0)) := rfl
  rw [e, hq]
  have hrep : f.Representable (2 ^ 76) := by
    have := Std.rep_pow hf (k := 76) (by omega) (by omega)
    exact_mod_cast this
  refine AtMost.sub_nonneg hp (AtMost.sub_nonneg hp ?_ (le_fin.mpr h0.le) hrep) ?_ hrep
  · have := Bdd.mul (f := f) hp (bdd_fin (a := q) (k := 64) (by rwa [abs_of_nonneg hq0]))
      (bdd_ln hf hL h0 hl) (by omega) (by omega)
    exact AtMost.mono this.up (by norm_num)
  · refine foldl_nonneg_flt hp _ _ (fun i hi => ?_) (le_fin.mpr le_rfl)
    rw [List.mem_range'_1] at hi
    refine ln_ge_one hf hL (round_valid hf _) ?_
    have := round_mono (f := f) hp (show (1 : ℚ) ≤ i by exact_mod_cast hi.1)
    rwa [f.round_exact hf.rep_one] at this

/-! ### sums, products, weights -/

/-- adding `2^k` to `2^(k+prec)` changes nothing: it is half of the spacing there, and the tie goes
to the even neighbour -/
theorem round_absorb (hf : f.Std) {k : ℤ} (hk : f.emin ≤ k) (hk' : k + f.prec < f.emax) :
    f.round (2 ^ (k + f.prec) + 2 ^ k) = .fin (2 ^ (k + f.prec)) := by
  have hp := hf.prec_ge
  have h2 : (0 : ℚ) < 2 ^ k := by positivity
  have e1 : (2 : ℚ) ^ (k + f.prec) = 2 ^ k * 2 ^ f.prec := by rw [zpow_add₀ (by norm_num), zpow_natCast]
  have e2 : (2 : ℚ) ^ (k + f.prec - ((f.prec : ℤ) - 1)) = 2 ^ k * 2 := by
    rw [show k + f.prec - ((f.prec : ℤ) - 1) = k + 1 by ring, zpow_add_one₀ (by norm_num)]
  obtain ⟨m, hm⟩ : ∃ m, f.prec = m + 2 := ⟨f.prec - 2, by omega⟩
  have e3 : (2 : ℚ) ^ f.prec = 4 * 2 ^ m := by rw [hm, pow_add]; ring
  have h4 : (1 : ℚ) ≤ 2 ^ m := one_le_pow₀ (by norm_num)
  have key : (2 ^ (k + f.prec) + 2 ^ k : ℚ) / 2 ^ (k + f.prec - ((f.prec : ℤ) - 1)) - ((2 * 2 ^ m : ℤ) : ℚ) = 1/2 := by
    rw [e1, e2, e3]
    push_cast
    field_simp
    ring
  have := f.round_eval (q := 2 ^ (k + f.prec) + 2 ^ k) (k + f.prec) (2 * 2 ^ m)
    (by rw [abs_of_pos (by positivity)]; linarith)
    (by rw [abs_of_pos (by positivity), zpow_add_one₀ (by norm_num), e1, e3]; nlinarith)
    (by omega) (by rw [key, abs_of_pos (by norm_num)]) (.inr (even_two_mul _))
    (by
      rw [e2]; push_cast
      rw [abs_of_pos (by positivity), show (2 : ℚ) * 2 ^ m * (2 ^ k * 2) = 2 ^ (k + f.prec) by rw [e1, e3]; ring]
      exact zpow_lt_zpow_right₀ (by norm_num) hk')
  rw [this, e2, e1, e3]
  push_cast
  congr 1
  ring

/-- **C130** (sums): if every term is `-∞` or at most `2^k` then so is the sum with `2^(k+prec)` in
place of `2^k`, however long the list. -/
theorem atMost_foldl (hf : f.Std) {k : ℤ} (hk : f.emin ≤ k) (hk' : k + f.prec < f.emax) (xs : List FVal)
    (h : ∀ x ∈ xs, AtMost (2 ^ k) x) {a : FVal} (ha : AtMost (2 ^ (k + f.prec)) a) :
    AtMost (2 ^ (k + f.prec)) (xs.foldl (Flt.add f) a) := by
  induction xs generalizing a with
  | nil => exact ha
  | cons x xs ih =>
    refine ih (fun y hy => h y (List.mem_cons_of_mem _ hy)) ?_
    have hx := h x List.mem_cons_self
    rcases ha with rfl | ⟨q, rfl, hq⟩
    · rcases hx with rfl | ⟨r, rfl, -⟩ <;> exact .inl rfl
    · rcases hx with rfl | ⟨r, rfl, hr⟩
      · exact .inl rfl
      · rw [atMost_iff]
        have := round_mono (f := f) (prec1 hf) (show q + r ≤ 2 ^ (k + f.prec) + 2 ^ k by linarith)
        rwa [round_absorb hf hk hk'] at this

theorem atMost_foldl_zero (hf : f.Std) (xs : List FVal) (h : ∀ x ∈ xs, AtMost 0 x) {a : FVal}
    (ha : AtMost 0 a) : AtMost 0 (xs.foldl (Flt.add f) a) := by
  induction xs generalizing a with
  | nil => exact ha
  | cons x xs ih =>
    exact ih (fun y hy => h y (List.mem_cons_of_mem _ hy))
      (AtMost.add (prec1 hf) ha (h x List.mem_cons_self) f.rep_zero (by norm_num))

section
variable {D X : Type} [HasLogDensity D X (Flt f L)]

/-- **C130** (IID): for any distribution whose log-density is `-∞` or at most `2^k` at each sample, the
sum over the samples is `-∞` or at most `2^(k+prec)`, for samples of any length. -/
theorem C130_iid (hf : f.Std) (m : IID D) (xs : List X) {k : ℤ} (hk : f.emin ≤ k) (hk' : k + f.prec < f.emax)
    (h : ∀ x ∈ xs, AtMost (2 ^ k) (logDensityWrtRoot m.distribution x : Flt f L)) :
    AtMost (2 ^ (k + f.prec)) (m.iidLogDensityFallback xs : Flt f L) := by
  show AtMost _ ((xs.map fun x => (logDensityWrtRoot m.distribution x : Flt f L)).foldl (Flt.add f) (.fin 0))
  refine atMost_foldl hf hk hk' _ ?_ (.inr ⟨0, rfl, by positivity⟩)
  intro v hv
  obtain ⟨x, hx, rfl⟩ := List.mem_map.mp hv
  exact h x hx

/-- **C130** (IID, log-masses): sums of values not above zero are not above zero. -/
theorem C130_iid_mass (hf : f.Std) (m : IID D) (xs : List X)
    (h : ∀ x ∈ xs, AtMost 0 (logDensityWrtRoot m.distribution x : Flt f L)) :
    AtMost 0 (m.iidLogDensityFallback xs : Flt f L) := by
  show AtMost _ ((xs.map fun x => (logDensityWrtRoot m.distribution x : Flt f L)).foldl (Flt.add f) (.fin 0))
  refine atMost_foldl_zero hf _ ?_ (.inr ⟨0, rfl, le_rfl⟩)
  intro v hv
  obtain ⟨x, hx, rfl⟩ := List.mem_map.mp hv
  exact h x hx

/-- **C130** (product and weight) -/
theorem C130_combinators {N Y : Type} [HasLogDensity N Y (Flt f L)] (hf : f.Std) (m : D) (n : N) (x : X)
    (y : Y) (w : ℚ) {k : ℤ} (hk : f.emin ≤ k) (hk' : k + 1 < f.emax)
    (hx : AtMost (2 ^ k) (logDensityWrtRoot m x : Flt f L)) :
    (AtMost (2 ^ k) (logDensityWrtRoot n y : Flt f L) →
      AtMost (2 ^ (k + 1)) (logDensityWrtRoot (ProductMeasure.mk m n) (x, y) : Flt f L)) ∧
    (w ≤ 2 ^ k → AtMost (2 ^ (k + 1)) (logDensityWrtRoot (WeightedMeasure.mk m (Flt.fin w : Flt f L)) x : Flt f L)) := by
  have hr := Std.rep_pow hf (k := k + 1) (by omega) hk'
  have e : (2 : ℚ) ^ k + 2 ^ k ≤ 2 ^ (k + 1) := by rw [zpow_add_one₀ (by norm_num)]; linarith
  exact ⟨fun hy => AtMost.add (prec1 hf) hx hy hr e,
    fun hw => AtMost.add (prec1 hf) (.inr ⟨w, rfl, hw⟩) hx hr e⟩

end

/-- **C130** (Normal samples): the sum over a sample of any length. -/
theorem C130_normal_sample (hf : f.Std) (hL : L.Accurate f) {μ σ : ℚ} (hσ : f.Representable σ)
    {d : Normal (Flt f L)} (h : Normal.new (Flt.fin μ) (Flt.fin σ) = .ok d) (xs : List ℚ) :
    AtMost (2 ^ 65) ((IID.ofDist d).iidLogDensityFallback (xs.map Flt.fin) : Flt f L) := by
  have hm := hf.emin_le
  have hx := hf.emax_ge
  have hpl := hf.prec_le
  have := C130_iid hf (IID.ofDist d) (xs.map Flt.fin) (k := 12) (by omega)
    (by rcases hf with rfl | rfl <;> decide) (fun x hx => by
      obtain ⟨q, -, rfl⟩ := List.mem_map.mp hx
      exact AtMost.mono (C130_normal hf hL hσ h q) (by norm_num))
  refine AtMost.mono this ?_
  rw [← zpow_natCast]
  exact zpow_le_zpow_right₀ (by norm_num) (by push_cast; omega)

/-- **C130** (Normal, specialised sum): the sum by decomposition, for up to `2^64` samples. -/
theorem C130_normal_iid (hf : f.Std) (hL : L.Accurate f) {μ σ : ℚ} (hσ : f.Representable σ)
    {d : Normal (Flt f L)} (h : Normal.new (Flt.fin μ) (Flt.fin σ) = .ok d) (xs : List ℚ)
    (hn : xs.length ≤ 2 ^ 64) : AtMost (2 ^ 80) (d.logDensityIid (xs.map Flt.fin) : Flt f L) := by
  obtain ⟨hσ0, rfl⟩ := Normal.new_flt h
  have hp := prec1 hf
  have hm := hf.emin_le
  have hx := hf.emax_ge
  rw [normal_iid_flt, sum_zeros, List.length_map]
  obtain ⟨q, hq, hq0, hq64, -⟩ := count_flt (f := f) (L := L) hf hn
  have e : f.round (xs.length : ℚ) = .fin q := hq
  rw [e]
  have bq : Bdd 64 (.fin q) := bdd_fin (by rwa [abs_of_nonneg hq0])
  have b0 : Bdd 12 (.fin 0) := bdd_fin (by norm_num)
  have t1 := b0.add (f := f) hp (bdd_ln hf hL hσ0 hσ).neg (by omega) (by omega)
  have t2 := bq.mul (f := f) hp t1 (by omega) (by omega)
  have t3 := (b0.mono (by omega : (12 : ℤ) ≤ 77)).add (f := f) hp (t2.mono (by norm_num)) (by omega) (by omega)
  obtain ⟨c, hc, hcn⟩ := near_const hf hL
  obtain ⟨b0', b4⟩ := log_two_pi_bounds
  have hcsz := hcn.size hf (by norm_num)
  have bc : Bdd 12 (.fin c) := bdd_fin (rat_le (by norm_num; linarith))
  have t4 := b0.add (f := f) hp bc (by omega) (by omega)
  have t5 := bq.mul (f := f) hp t4 (by omega) (by omega)
  have t6 : AtMost 0 (((xs.map Flt.fin).map fun x : Flt f L =>
      Flt.add f (.fin 0) (quadTerm f (.fin μ) (.fin σ) x)).foldl (Flt.add f) (.fin 0)) := by
    refine atMost_foldl_zero hf _ ?_ (.inr ⟨0, rfl, le_rfl⟩)
    intro v hv
    obtain ⟨x', hx', rfl⟩ := List.mem_map.mp hv
    obtain ⟨x, -, rfl⟩ := List.mem_map.mp hx'
    refine AtMost.add hp (.inr ⟨0, rfl, le_rfl⟩) (B := 0) ?_ f.rep_zero (by norm_num)
    unfold quadTerm
    rw [round_half hf, mul_neg_left, mul_neg_left, atMost_iff]
    have := neg_le_neg (quad_nonneg (f := f) hp (c := 1/2) (by norm_num)
      (score_mono (μ := μ) (x := x) (y := x) hp hσ0 le_rfl).1)
    rw [show Flt.neg (.fin 0) = .fin 0 by simp [Flt.neg]] at this
    exact this
  have hc' : Flt.mul f (Flt.neg (f.round (1/2))) (Flt.ln L (Flt.mul f (f.round 2) (f.round Flt.piLit))) = .fin c := hc
  rw [hc']
  have r78 := Std.rep_pow hf (k := 78) (by omega) (by omega)
  have r80 := Std.rep_pow hf (k := 80) (by omega) (by omega)
  have t7 := AtMost.add hp t3.up t6 r78 (by norm_num)
  exact AtMost.mono (AtMost.add hp t7 t5.up r80 (by norm_num)) (by norm_num)

/-- **C130** (Cauchy, specialised sum): the sum by decomposition, for up to `2^64` samples. -/
theorem C130_cauchy_iid (hf : f.Std) (hL : L.Accurate f) {l s : ℚ} (hs : f.Representable s)
    {d : Cauchy (Flt f L)} (h : Cauchy.new (Flt.fin l) (Flt.fin s) = .ok d) (xs : List ℚ)
    (hn : xs.length ≤ 2 ^ 64) : AtMost (2 ^ 80) (d.logDensityIid (xs.map Flt.fin) : Flt f L) := by
  obtain ⟨hs0, rfl⟩ := Cauchy.new_flt h
  have hp := prec1 hf
  have hm := hf.emin_le
  have hx := hf.emax_ge
  rw [cauchy_iid_flt, sum_zeros, List.length_map]
  obtain ⟨q, hq, hq0, hq64, -⟩ := count_flt (f := f) (L := L) hf hn
  have e : f.round (xs.length : ℚ) = .fin q := hq
  rw [e]
  have bq : Bdd 64 (.fin q) := bdd_fin (by rwa [abs_of_nonneg hq0])
  have b0 : Bdd 12 (.fin 0) := bdd_fin (by norm_num)
  have t1 := b0.add (f := f) hp (bdd_ln hf hL hs0 hs).neg (by omega) (by omega)
  have t2 := bq.mul (f := f) hp t1 (by omega) (by omega)
  have t3 := (b0.mono (by omega : (12 : ℤ) ≤ 77)).add (f := f) hp (t2.mono (by norm_num)) (by omega) (by omega)
  obtain ⟨p, hpq, hp3, hp4⟩ := round_pi_bounds hf
  have hpr : f.Representable p := by have := round_valid hf Flt.piLit; rwa [hpq] at this
  have t4 := b0.add (f := f) hp (bdd_ln hf hL (by linarith) hpr).neg (by omega) (by omega)
  have t5 := bq.mul (f := f) hp t4 (by omega) (by omega)
  have t6 : AtMost 0 (((xs.map Flt.fin).map fun x : Flt f L =>
      Flt.add f (.fin 0) (Flt.neg (Flt.ln L (Flt.add f (.fin 1)
          (Flt.mul f (Flt.div f (Flt.sub f x (.fin l)) (.fin s)) (Flt.div f (Flt.sub f x (.fin l)) (.fin s))))))).foldl
        (Flt.add f) (.fin 0)) := by
    refine atMost_foldl_zero hf _ ?_ (.inr ⟨0, rfl, le_rfl⟩)
    intro v hv
    obtain ⟨x', hx', rfl⟩ := List.mem_map.mp hv
    obtain ⟨x, -, rfl⟩ := List.mem_map.mp hx'
    refine AtMost.add hp (.inr ⟨0, rfl, le_rfl⟩) (B := 0) ?_ f.rep_zero (by norm_num)
    have hsq := sqr_nonneg (f := f) hp (score_mono (μ := l) (x := x) (y := x) hp hs0 le_rfl).1
    rw [sqr_abs'] at hsq
    have h2 := ln_ge_one hf hL (add_valid hf _ _) (one_le_add hf hsq)
    rw [atMost_iff]
    have := neg_le_neg h2
    rw [show Flt.neg (.fin 0) = .fin 0 by simp [Flt.neg]] at this
    exact this
  rw [hpq]
  have r78 := Std.rep_pow hf (k := 78) (by omega) (by omega)
  have r80 := Std.rep_pow hf (k := 80) (by omega) (by omega)
  have t7 := AtMost.add hp t3.up t6 r78 (by norm_num)
  exact AtMost.mono (AtMost.add hp t7 t5.up r80 (by norm_num)) (by norm_num)

/-! ### consequences for C111 and C112: no value is NaN -/

/-- **C111** (Normal samples): the specialised sum is monotone for up to `2^64` samples, without
conditions on its values. -/
theorem C111_normal_iid_total (hf : f.Std) (hL : L.Accurate f) {μ σ : ℚ} (hσ : f.Representable σ)
    {d : Normal (Flt f L)} (h : Normal.new (Flt.fin μ) (Flt.fin σ) = .ok d) {xs ys : List ℚ}
    (hn : xs.length ≤ 2 ^ 64) (hxy : List.Forall₂ (fun x y => |x - μ| ≤ |y - μ|) xs ys) :
    FloatOps.le (d.logDensityIid (ys.map Flt.fin)) (d.logDensityIid (xs.map Flt.fin) : Flt f L) = true :=
  C111_normal_iid hf h hxy (AtMost.ne_nan (C130_normal_iid hf hL hσ h xs hn))
    (AtMost.ne_nan (C130_normal_iid hf hL hσ h ys (hxy.length_eq ▸ hn)))

/-- **C111** (Cauchy samples): likewise. -/
theorem C111_cauchy_iid_total (hf : f.Std) (hL : L.Accurate f) (hM : L.LnMonotone f) {l s : ℚ}
    (hs : f.Representable s) {d : Cauchy (Flt f L)} (h : Cauchy.new (Flt.fin l) (Flt.fin s) = .ok d)
    {xs ys : List ℚ} (hn : xs.length ≤ 2 ^ 64)
    (hxy : List.Forall₂ (fun x y => |x - l| ≤ |y - l|) xs ys) :
    FloatOps.le (d.logDensityIid (ys.map Flt.fin)) (d.logDensityIid (xs.map Flt.fin) : Flt f L) = true :=
  C111_cauchy_iid hf hL hM h hxy (AtMost.ne_nan (C130_cauchy_iid hf hL hs h xs hn))
    (AtMost.ne_nan (C130_cauchy_iid hf hL hs h ys (hxy.length_eq ▸ hn)))

/-- **C111** (Student-t): the computed log-density does not increase with the distance from zero, for
degrees of freedom from `2^(emin+1)` to `2^(emax-20)` and all finite points. -/
theorem C111_student_t_total (hf : f.Std) (hL : L.Accurate f) (hG : L.GammaAccurate f) (hM : L.LnMonotone f)
    {ν : ℚ} {d : StudentT (Flt f L)} (h : StudentT.new (Flt.fin ν) = .ok d) (hn : 2 ^ (f.emin + 1) ≤ ν)
    (hν : ν ≤ 2 ^ (f.emax - 20)) {x y : ℚ} (hxy : |x| ≤ |y|) :
    FloatOps.le (logDensityWrtRoot d (Flt.fin y) : Flt f L) (logDensityWrtRoot d (Flt.fin x)) = true := by
  have key := fun z => AtMost.ne_nan (C130_student_partial hf hL hG h hn
    (by have := hf.emax_ge; omega) le_rfl hν z)
  exact C111_student_t hf hL hM h hxy (key x) (key y)

/-- **C111** (IID): for distributions whose log-densities are bounded by `2^k`, and samples of any length. -/
theorem C111_iid_total (hf : f.Std) {D X : Type} [HasLogDensity D X (Flt f L)] (m : IID D) {xs ys : List X}
    {k : ℤ} (hk : f.emin ≤ k) (hk' : k + f.prec < f.emax)
    (h : ∀ x, AtMost (2 ^ k) (logDensityWrtRoot m.distribution x : Flt f L))
    (hxy : List.Forall₂ (fun x y => FloatOps.le (logDensityWrtRoot m.distribution x : Flt f L)
      (logDensityWrtRoot m.distribution y) = true) xs ys) :
    FloatOps.le (m.iidLogDensityFallback xs : Flt f L) (m.iidLogDensityFallback ys) = true :=
  C111_iid hf m hxy (AtMost.ne_nan (C130_iid hf m xs hk hk' fun x _ => h x))
    (AtMost.ne_nan (C130_iid hf m ys hk hk' fun x _ => h x))

/-- **C112** (Student-t): infinite points have log-density `-∞`. -/
theorem C112_student_infinite_total (hf : f.Std) (hL : L.Accurate f) (hG : L.GammaAccurate f) {ν : ℚ}
    {d : StudentT (Flt f L)} (h : StudentT.new (Flt.fin ν) = .ok d)
    (hn : 2 ^ (f.emin + 1) ≤ ν) (hν : ν ≤ 2 ^ (f.emax - 20)) (s : Bool) :
    logDensityWrtRoot d (show Flt f L from FVal.inf s) = Flt.negInf (f := f) (L := L) := by
  obtain ⟨hν0, rfl⟩ := StudentT.new_flt h
  obtain ⟨⟨p, hp, -⟩, t, ht0, ht⟩ := student_terms hf hL hG hn (k := f.emax - 20)
    (by have := hf.emax_ge; omega) le_rfl hν
  show Flt.add f
        (Flt.sub f (Flt.sub f
          (L.lnGamma (Flt.div f (Flt.add f (.fin ν) (.fin 1)) (f.round 2)))
          (L.lnGamma (Flt.div f (.fin ν) (f.round 2))))
          (Flt.mul f (f.round (1/2)) (Flt.ln L (Flt.mul f (.fin ν) (f.round Flt.piLit)))))
        (Flt.mul f (Flt.neg (Flt.div f (Flt.add f (.fin ν) (.fin 1)) (f.round 2)))
          (Flt.ln L (Flt.add f (.fin 1) (Flt.div f (Flt.mul f (.inf s) (.inf s)) (.fin ν))))) = .inf true
  rw [hp, ht]
  simp [Flt.mul, Flt.neg, Flt.add, Flt.div, Flt.ln, ht0, ht0.ne', not_lt.2 hν0.le]

/-- **C112** (Gamma with shape below one): the point `+∞` has log-density `-∞`. -/
theorem C112_gamma_infinite_total (hf : f.Std) (hL : L.Accurate f) (hG : L.GammaAccurate f) {a b : ℚ}
    (ha : f.Representable a) (hb : f.Representable b) (ha1 : a < 1) (d : Gamma (Flt f L))
    (h : Gamma.new (Flt.fin a) (Flt.fin b) = .ok d) :
    logDensityWrtRoot d (Flt.posInf (f := f) (L := L)) = Flt.negInf (f := f) (L := L) := by
  obtain ⟨ha0, hb0, rfl⟩ := Gamma.new_flt h
  have hp := prec1 hf
  have hm := hf.emin_le
  have hx := hf.emax_ge
  show Flt.sub f (Flt.add f (Flt.sub f (Flt.mul f (.fin a) (Flt.ln L (.fin b))) (L.lnGamma (.fin a)))
      (Flt.mul f (Flt.sub f (.fin a) (.fin 1)) (.inf false))) (Flt.mul f (.fin b) (.inf false)) = .inf true
  have t1 := Bdd.mul (f := f) hp (bdd_fin (a := a) (k := 0) (by rw [abs_of_pos ha0]; simpa using ha1.le))
    (bdd_ln hf hL hb0 hb) (by omega) (by omega)
  have t2 := t1.sub hp (bdd_lnGamma hf hG ha0 ha (k := 0) le_rfl (by omega) (by simpa using ha1.le))
    (by omega) (by omega)
  obtain ⟨p, hpp, -⟩ := t2
  obtain ⟨c, hc, -, hc0, -⟩ := compl_flt hf ha ha0.le ha1
  have e : Flt.sub f (.fin a) (.fin 1) = .fin (-c) := by
    rw [sub_fin] at hc ⊢
    rw [show a - 1 = -(1 - a) by ring, round_neg, hc]
    rfl
  rw [hpp, e]
  simp [Flt.mul, Flt.sub, Flt.neg, Flt.add, hc0, hc0.ne', hb0.ne', hb0.le]

/-! ### concrete cases -/

/-- a Normal with the smallest positive scale, a Student-t with three degrees of freedom and a Gamma with
shape two satisfy the hypotheses, with a library meeting the accuracy assumptions -/
example : ∃ L : Libm, L.Accurate f64 ∧ L.GammaAccurate f64 ∧ f64.Representable (2 ^ f64.emin) ∧
    (∃ d : Normal (Flt f64 L), Normal.new (Flt.fin 7) (Flt.fin (2 ^ f64.emin)) = .ok d) ∧
    (∃ d : StudentT (Flt f64 L), StudentT.new (Flt.fin 3) = .ok d ∧
      AtMost (2 ^ (2 + 14 : ℤ)) (logDensityWrtRoot d (Flt.fin 1000000) : Flt f64 L)) ∧
    (∃ d : Gamma (Flt f64 L), Gamma.new (Flt.fin 2) (Flt.fin 1) = .ok d ∧
      AtMost (2 ^ (1 + 14 : ℤ)) (logDensityWrtRoot d (Flt.fin 1) : Flt f64 L)) := by
  have hf : f64.Std := .inl rfl
  obtain ⟨L, hL, hG⟩ := exists_libm_gamma hf
  refine ⟨L, hL, hG, Std.rep_pow hf le_rfl (by decide), ⟨⟨Flt.fin 7, Flt.fin (2 ^ f64.emin)⟩, ?_⟩,
    ⟨⟨Flt.fin 3⟩, rfl, ?_⟩, ⟨⟨Flt.fin 2, Flt.fin 1⟩, rfl, ?_⟩⟩
  · unfold Normal.new
    rw [if_pos]
    show decide ((0 : ℚ) < 2 ^ f64.emin) = true
    exact decide_eq_true (by positivity)
  · exact C130_student_partial hf hL hG (ν := 3) rfl
      ((zpow_le_one_of_nonpos₀ (by norm_num) (by decide)).trans (by norm_num)) (by norm_num) (by decide)
      (by norm_num) _
  · exact C130_gamma_partial hf hL hG (a := 2) (b := 1) hf.rep_two hf.rep_one rfl (by norm_num) (by decide) (by norm_num)
      hf.rep_one

end Verif
