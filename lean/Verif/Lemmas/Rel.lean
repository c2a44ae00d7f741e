import Verif.Lemmas.Near

/-!
Relative errors of products, quotients and sums of positive numbers: `Rel f k j a x` says that the
computed number `a` and the exact number `x > 0`, which lies between `2^-j` and `2^j`, differ by at
most `k` factors `1 - u`.
-/

namespace Verif
open Format

variable {f : Format}

theorem Format.Std.emin_eq (hf : f.Std) : f.emin + (f.prec - 1) = 2 - f.emax := by
  rcases hf with rfl | rfl <;> rfl

theorem pow_cast_le {j : ℕ} {q : ℚ} : (1 / 2 ^ j : ℝ) ≤ q ↔ 1 / 2 ^ j ≤ q := by
  have : (1 / 2 ^ j : ℝ) = ((1 / 2 ^ j : ℚ) : ℝ) := by push_cast; rfl
  rw [this]; exact Rat.cast_le

structure Rel (f : Format) (k j : ℕ) (a : ℚ) (x : ℝ) : Prop where
  rep : f.Representable a
  lo : 1 / 2 ^ j ≤ x
  hi : x ≤ 2 ^ j
  below : x * (1 - f.u) ^ k ≤ a
  above : a * (1 - f.u) ^ k ≤ x

theorem Rel.pos {k j : ℕ} {a : ℚ} {x : ℝ} (h : Rel f k j a x) : 0 < x :=
  lt_of_lt_of_le (by positivity) h.lo

theorem one_sub_u_pos (hf : f.Std) : 0 < 1 - f.u := by
  have := hf.u_le; norm_num at this; linarith

theorem one_sub_u_pow (hf : f.Std) {k : ℕ} (hk : k ≤ 1000) : 1/2 ≤ (1 - f.u) ^ k := by
  have h0 := u_pos f
  have h1 := hf.u_le
  have h2 := one_add_mul_le_pow (a := -f.u) (by norm_num at h1; linarith) k
  have h3 : (k : ℝ) ≤ 1000 := by exact_mod_cast hk
  have h4 : (k : ℝ) * f.u ≤ 1/2 := by norm_num at h1; nlinarith
  rw [← sub_eq_add_neg] at h2
  linarith

theorem Rel.apos {k j : ℕ} {a : ℚ} {x : ℝ} (hf : f.Std) (h : Rel f k j a x) : 0 < a := by
  have h1 := pow_pos (one_sub_u_pos hf) k
  have h2 := h.below
  have h3 := mul_pos h.pos h1
  exact_mod_cast h3.trans_le h2

theorem Rel.err {k j : ℕ} {a : ℚ} {x : ℝ} (hf : f.Std) (hk : k ≤ 1000) (h : Rel f k j a x) :
    |(a : ℝ) - x| ≤ 2 * k * f.u * x := by
  have h0 := u_pos f
  have h1 := hf.u_le
  have hb := one_add_mul_le_pow (a := -f.u) (by norm_num at h1; linarith) k
  rw [← sub_eq_add_neg] at hb
  have h3 : (k : ℝ) ≤ 1000 := by exact_mod_cast hk
  have h4 : (k : ℝ) * f.u ≤ 1/2 := by norm_num at h1; nlinarith
  have ha : (0 : ℝ) < a := by exact_mod_cast h.apos hf
  have hx := h.pos
  have hk0 : (0 : ℝ) ≤ k * f.u := by positivity
  have l1 : x * (1 - k * f.u) ≤ a := by
    refine le_trans ?_ h.below
    exact mul_le_mul_of_nonneg_left (by linarith) hx.le
  have l2 : (a : ℝ) * (1 - k * f.u) ≤ x := by
    refine le_trans ?_ h.above
    exact mul_le_mul_of_nonneg_left (by linarith) ha.le
  rw [abs_le]
  constructor
  · nlinarith
  · have : (1 : ℝ) ≤ (1 + 2 * (k * f.u)) * (1 - k * f.u) := by nlinarith
    nlinarith

/-- rounding a positive number inside the normal range -/
theorem rel_round (hf : f.Std) {q : ℚ} {j : ℕ} (lo : 1 / 2 ^ j ≤ (q : ℝ)) (hi : (q : ℝ) ≤ 2 ^ j)
    (hj : j + 2 ≤ f.emax) :
    ∃ r, f.round q = .fin r ∧ f.Representable r ∧ (q : ℝ) * (1 - f.u) ≤ r ∧ r * (1 - f.u) ≤ q := by
  have hq : (0 : ℝ) < q := lt_of_lt_of_le (by positivity) lo
  have hq' : 0 < q := by exact_mod_cast hq
  have hi' : |q| ≤ 2 ^ (j : ℤ) := by
    rw [abs_of_pos hq', zpow_natCast]; exact_mod_cast hi
  obtain ⟨r, hr, -⟩ := f.round_le (by have := hf.prec_ge; omega) hi' (by have := hf.emin_le; omega)
    (by omega)
  have hv := f.round_valid (by have := hf.prec_ge; omega) q
  rw [hr] at hv
  have hlog : f.emin + (f.prec - 1) ≤ Int.log 2 |q| := by
    have e := hf.emin_eq
    rw [abs_of_pos hq']
    have : -(j : ℤ) ≤ Int.log 2 q := by
      rw [← Int.zpow_le_iff_le_log (by norm_num) hq']
      have : ((2 : ℕ) : ℚ) ^ (-(j : ℤ)) = 1 / 2 ^ j := by
        rw [zpow_neg, zpow_natCast, one_div]; norm_num
      rw [this]
      exact pow_cast_le.mp lo
    omega
  have he := f.round_error hr hlog
  have he' : |(q : ℝ) - r| ≤ f.u * q := by
    have : |(q : ℝ) - r| ≤ ((|q| / 2 ^ f.prec : ℚ) : ℝ) := by exact_mod_cast he
    rw [abs_of_pos hq'] at this
    push_cast at this
    unfold Format.u
    calc _ ≤ _ := this
      _ = _ := by ring
  have hu := u_pos f
  rw [abs_le] at he'
  refine ⟨r, hr, hv, by linarith, ?_⟩
  have := one_sub_u_pos hf
  nlinarith

theorem Rel.exact {j : ℕ} {a : ℚ} (h : f.Representable a) (lo : 1 / 2 ^ j ≤ a) (hi : a ≤ 2 ^ j) :
    Rel f 0 j a a :=
  ⟨h, pow_cast_le.mpr lo, by exact_mod_cast hi, by simp, by simp⟩

theorem Rel.mono {k k' j j' : ℕ} {a : ℚ} {x : ℝ} (hf : f.Std) (h : Rel f k j a x) (hk : k ≤ k')
    (hj : j ≤ j') : Rel f k' j' a x := by
  have h0 := u_pos f
  have h1 := one_sub_u_pos hf
  have h2 : (1 - f.u) ^ k' ≤ (1 - f.u) ^ k := pow_le_pow_of_le_one h1.le (by linarith) hk
  have hx := h.pos
  have ha : (0 : ℝ) < a := by exact_mod_cast h.apos hf
  refine ⟨h.rep, le_trans ?_ h.lo, h.hi.trans (pow_le_pow_right₀ (by norm_num) hj), ?_, ?_⟩
  · exact one_div_le_one_div_of_le (by positivity) (pow_le_pow_right₀ (by norm_num) hj)
  · exact (mul_le_mul_of_nonneg_left h2 hx.le).trans h.below
  · exact (mul_le_mul_of_nonneg_left h2 ha.le).trans h.above

/-- the computed number is within the range widened by two -/
theorem Rel.arange {k j : ℕ} {a : ℚ} {x : ℝ} (hf : f.Std) (hk : k ≤ 1000) (h : Rel f k j a x) :
    1 / 2 ^ (j + 1) ≤ (a : ℝ) ∧ (a : ℝ) ≤ 2 ^ (j + 1) := by
  have h1 := one_sub_u_pow hf hk
  have ha : (0 : ℝ) < a := by exact_mod_cast h.apos hf
  have hx := h.pos
  constructor
  · have : 1 / 2 ^ (j + 1) = (1 / 2 ^ j : ℝ) * (1/2) := by rw [pow_succ]; field_simp
    rw [this]
    calc (1 / 2 ^ j : ℝ) * (1/2) ≤ x * (1 - f.u) ^ k := mul_le_mul h.lo h1 (by norm_num) hx.le
      _ ≤ a := h.below
  · have h2 : (a : ℝ) * (1/2) ≤ 2 ^ j := by
      calc (a : ℝ) * (1/2) ≤ a * (1 - f.u) ^ k := mul_le_mul_of_nonneg_left h1 ha.le
        _ ≤ x := h.above
        _ ≤ _ := h.hi
    rw [pow_succ]; linarith

theorem Rel.of_round {k i j : ℕ} {q : ℚ} {x : ℝ} (hf : f.Std) (lo : 1 / 2 ^ j ≤ x) (hi : x ≤ 2 ^ j)
    (hlo : 1 / 2 ^ i ≤ (q : ℝ)) (hhi : (q : ℝ) ≤ 2 ^ i) (hi2 : i + 2 ≤ f.emax)
    (h1 : x * (1 - f.u) ^ k ≤ q) (h2 : q * (1 - f.u) ^ k ≤ x) :
    ∃ r, f.round q = .fin r ∧ Rel f (k + 1) j r x := by
  obtain ⟨r, hr, hrep, h3, h4⟩ := rel_round hf hlo hhi hi2
  have h0 := one_sub_u_pos hf
  have h0k := pow_pos h0 k
  refine ⟨r, hr, hrep, lo, hi, ?_, ?_⟩
  · calc x * (1 - f.u) ^ (k + 1) = (x * (1 - f.u) ^ k) * (1 - f.u) := by ring
      _ ≤ q * (1 - f.u) := mul_le_mul_of_nonneg_right h1 h0.le
      _ ≤ r := h3
  · calc (r : ℝ) * (1 - f.u) ^ (k + 1) = (r * (1 - f.u)) * (1 - f.u) ^ k := by ring
      _ ≤ q * (1 - f.u) ^ k := mul_le_mul_of_nonneg_right h4 h0k.le
      _ ≤ x := h2

theorem Rel.mul {k l i j : ℕ} {a b : ℚ} {x y : ℝ} (hf : f.Std) (ha : Rel f k i a x)
    (hb : Rel f l j b y) (hk : k ≤ 1000) (hl : l ≤ 1000) (hij : i + j + 4 ≤ f.emax) :
    ∃ r, Flt.mul f (.fin a) (.fin b) = .fin r ∧ Rel f (k + l + 1) (i + j) r (x * y) := by
  have hx := ha.pos
  have hy := hb.pos
  have ha0 : (0 : ℝ) < a := by exact_mod_cast ha.apos hf
  have hb0 : (0 : ℝ) < b := by exact_mod_cast hb.apos hf
  have h0 := one_sub_u_pos hf
  obtain ⟨a1, a2⟩ := ha.arange hf hk
  obtain ⟨b1, b2⟩ := hb.arange hf hl
  refine Rel.of_round hf (i := i + j + 2) ?_ ?_ ?_ ?_ (by push_cast; omega) ?_ ?_
  · rw [pow_add, ← one_div_mul_one_div]
    exact mul_le_mul ha.lo hb.lo (by positivity) hx.le
  · rw [pow_add]; exact mul_le_mul ha.hi hb.hi hy.le (by positivity)
  · push_cast
    have : (1 / 2 ^ (i + j + 2) : ℝ) = 1 / 2 ^ (i + 1) * (1 / 2 ^ (j + 1)) := by
      rw [one_div_mul_one_div, ← pow_add]; congr 2; ring
    rw [this]
    exact mul_le_mul a1 b1 (by positivity) ha0.le
  · push_cast
    have : (2 ^ (i + j + 2) : ℝ) = 2 ^ (i + 1) * 2 ^ (j + 1) := by rw [← pow_add]; congr 1; ring
    rw [this]
    exact mul_le_mul a2 b2 hb0.le (by positivity)
  · push_cast
    rw [pow_add]
    calc x * y * ((1 - f.u) ^ k * (1 - f.u) ^ l) = (x * (1 - f.u) ^ k) * (y * (1 - f.u) ^ l) := by ring
      _ ≤ a * b := mul_le_mul ha.below hb.below (by positivity) ha0.le
  · push_cast
    rw [pow_add]
    calc (a : ℝ) * b * ((1 - f.u) ^ k * (1 - f.u) ^ l)
        = (a * (1 - f.u) ^ k) * (b * (1 - f.u) ^ l) := by ring
      _ ≤ x * y := mul_le_mul ha.above hb.above (by positivity) hx.le

theorem Rel.div {k l i j : ℕ} {a b : ℚ} {x y : ℝ} (hf : f.Std) (ha : Rel f k i a x)
    (hb : Rel f l j b y) (hk : k ≤ 1000) (hl : l ≤ 1000) (hij : i + j + 4 ≤ f.emax) :
    ∃ r, Flt.div f (.fin a) (.fin b) = .fin r ∧ Rel f (k + l + 1) (i + j) r (x / y) := by
  have hx := ha.pos
  have hy := hb.pos
  have ha0 : (0 : ℝ) < a := by exact_mod_cast ha.apos hf
  have hb0 : (0 : ℝ) < b := by exact_mod_cast hb.apos hf
  have h0 := one_sub_u_pos hf
  obtain ⟨a1, a2⟩ := ha.arange hf hk
  obtain ⟨b1, b2⟩ := hb.arange hf hl
  have inv_lo : ∀ {t : ℝ} {n : ℕ}, 0 < t → t ≤ 2 ^ n → 1 / 2 ^ n ≤ t⁻¹ := fun ht h => by
    rw [one_div]; exact inv_anti₀ ht h
  have inv_hi : ∀ {t : ℝ} {n : ℕ}, 1 / 2 ^ n ≤ t → t⁻¹ ≤ 2 ^ n := fun {t n} h => by
    have : (1 / 2 ^ n : ℝ)⁻¹ = 2 ^ n := by rw [one_div, inv_inv]
    rw [← this]; exact inv_anti₀ (by positivity) h
  have e : Flt.div f (.fin a) (.fin b) = f.round (a / b) := by
    simp only [Flt.div, if_neg (hb.apos hf).ne']
  rw [e]
  refine Rel.of_round hf (i := i + j + 2) ?_ ?_ ?_ ?_ (by push_cast; omega) ?_ ?_
  · rw [pow_add, ← one_div_mul_one_div, div_eq_mul_inv x]
    exact mul_le_mul ha.lo (inv_lo hy hb.hi) (by positivity) hx.le
  · rw [pow_add, div_eq_mul_inv]
    exact mul_le_mul ha.hi (inv_hi hb.lo) (by positivity) (by positivity)
  · push_cast
    have : (1 / 2 ^ (i + j + 2) : ℝ) = 1 / 2 ^ (i + 1) * (1 / 2 ^ (j + 1)) := by
      rw [one_div_mul_one_div, ← pow_add]; congr 2; ring
    rw [this, div_eq_mul_inv (a : ℝ)]
    exact mul_le_mul a1 (inv_lo hb0 b2) (by positivity) ha0.le
  · push_cast
    have : (2 ^ (i + j + 2) : ℝ) = 2 ^ (i + 1) * 2 ^ (j + 1) := by rw [← pow_add]; congr 1; ring
    rw [this, div_eq_mul_inv]
    exact mul_le_mul a2 (inv_hi b1) (by positivity) (by positivity)
  · push_cast
    rw [pow_add, div_mul_eq_mul_div, div_le_div_iff₀ hy hb0]
    calc x * ((1 - f.u) ^ k * (1 - f.u) ^ l) * b = (x * (1 - f.u) ^ k) * (b * (1 - f.u) ^ l) := by ring
      _ ≤ a * y := mul_le_mul ha.below hb.above (by positivity) ha0.le
  · push_cast
    rw [pow_add, div_mul_eq_mul_div, div_le_div_iff₀ hb0 hy]
    calc (a : ℝ) * ((1 - f.u) ^ k * (1 - f.u) ^ l) * y
        = (a * (1 - f.u) ^ k) * (y * (1 - f.u) ^ l) := by ring
      _ ≤ x * b := mul_le_mul ha.above hb.below (by positivity) hx.le

theorem Rel.add {k j : ℕ} {a b : ℚ} {x y : ℝ} (hf : f.Std) (ha : Rel f k j a x)
    (hb : Rel f k j b y) (hk : k ≤ 1000) (hj : j + 4 ≤ f.emax) :
    ∃ r, Flt.add f (.fin a) (.fin b) = .fin r ∧ Rel f (k + 1) (j + 1) r (x + y) := by
  have hx := ha.pos
  have hy := hb.pos
  have ha0 : (0 : ℝ) < a := by exact_mod_cast ha.apos hf
  have hb0 : (0 : ℝ) < b := by exact_mod_cast hb.apos hf
  have h0 := one_sub_u_pos hf
  obtain ⟨a1, a2⟩ := ha.arange hf hk
  obtain ⟨b1, b2⟩ := hb.arange hf hk
  have hl1 : (1 / 2 ^ (j + 1) : ℝ) ≤ 1 / 2 ^ j :=
    one_div_le_one_div_of_le (by positivity) (pow_le_pow_right₀ (by norm_num) (by omega))
  have hl2 : (1 / 2 ^ (j + 2) : ℝ) ≤ 1 / 2 ^ (j + 1) :=
    one_div_le_one_div_of_le (by positivity) (pow_le_pow_right₀ (by norm_num) (by omega))
  refine Rel.of_round hf (i := j + 2) ?_ ?_ ?_ ?_ (by push_cast; omega) ?_ ?_
  · linarith [ha.lo]
  · rw [pow_succ]; linarith [ha.hi, hb.hi]
  · push_cast; linarith
  · push_cast; rw [pow_succ _ (j + 1)]; linarith
  · push_cast; rw [add_mul]; exact add_le_add ha.below hb.below
  · push_cast; rw [add_mul]; exact add_le_add ha.above hb.above

/-- a converted positive integer -/
theorem Rel.nat (hf : f.Std) {n j : ℕ} (h0 : 0 < n) (hn : n ≤ 2 ^ j) (hj : j + 2 ≤ f.emax) :
    ∃ r, f.round (n : ℚ) = .fin r ∧ Rel f 1 j r n := by
  have h1 : (1 : ℝ) ≤ n := by exact_mod_cast h0
  have h2 : (n : ℝ) ≤ 2 ^ j := by exact_mod_cast hn
  have h3 : (1 / 2 ^ j : ℝ) ≤ 1 := by
    rw [div_le_one (by positivity)]; exact one_le_pow₀ (by norm_num)
  exact Rel.of_round hf (k := 0) (i := j) (h3.trans h1) h2 (by push_cast; linarith) (by push_cast; exact h2)
    hj (by simp) (by simp)

/-- a number of the format below one is at least `2^-prec` away from it -/
theorem rep_lt_one {p : ℚ} (h : f.Representable p) (hp : 1 / 2 ≤ p) (h1 : p < 1) :
    1 / 2 ^ f.prec ≤ 1 - p := by
  obtain ⟨⟨m, e, hm, he, rfl⟩, -⟩ := h
  have hpos : (0 : ℚ) < 2 ^ e := by positivity
  have hm0 : (0 : ℚ) < m := by
    by_contra hc
    have : (m : ℚ) * 2 ^ e ≤ 0 := mul_nonpos_of_nonpos_of_nonneg (not_lt.mp hc) hpos.le
    linarith
  have hm1 : (m : ℚ) < 2 ^ f.prec := by
    have := lt_of_abs_lt hm
    exact_mod_cast this
  -- the exponent is at least `-prec`
  have hE : -(f.prec : ℤ) ≤ e := by
    by_contra hc
    have h2 : e ≤ -(f.prec : ℤ) - 1 := by omega
    have h3 : (2 : ℚ) ^ e ≤ 2 ^ (-(f.prec : ℤ) - 1) := zpow_le_zpow_right₀ (by norm_num) h2
    have h4 : (m : ℚ) * 2 ^ e < 2 ^ f.prec * 2 ^ (-(f.prec : ℤ) - 1) :=
      mul_lt_mul hm1 h3 hpos (by positivity)
    have h5 : (2 : ℚ) ^ f.prec * 2 ^ (-(f.prec : ℤ) - 1) = 1 / 2 := by
      rw [← zpow_natCast, ← zpow_add₀ (by norm_num)]
      have : (f.prec : ℤ) + (-(f.prec : ℤ) - 1) = -1 := by ring
      rw [this]; norm_num
    linarith
  obtain ⟨d, hd⟩ := Int.le.dest hE
  have e2 : (2 : ℚ) ^ e = 2 ^ d / 2 ^ f.prec := by
    rw [← hd, zpow_add₀ (by norm_num), zpow_neg, zpow_natCast, zpow_natCast]; field_simp
  rw [e2] at h1 ⊢
  have hP : (0 : ℚ) < 2 ^ f.prec := by positivity
  rw [← mul_div_assoc, div_lt_one hP] at h1
  have h6 : m * 2 ^ d < (2 : ℤ) ^ f.prec := by exact_mod_cast h1
  have h7 : m * 2 ^ d + 1 ≤ (2 : ℤ) ^ f.prec := h6
  have h8 : (m : ℚ) * 2 ^ d + 1 ≤ 2 ^ f.prec := by exact_mod_cast h7
  rw [← mul_div_assoc, div_le_iff₀ hP, sub_mul, one_mul, div_mul_cancel₀ _ hP.ne']
  linarith

/-- the complementary probability -/
theorem Rel.one_sub (hf : f.Std) {p : ℚ} (h : f.Representable p) (h0 : 0 ≤ p) (h1 : p < 1) :
    ∃ r, Flt.sub f (.fin 1) (.fin p) = .fin r ∧ Rel f 1 f.prec r (1 - p) := by
  have hp := hf.prec_ge
  have hlo : (1 / 2 ^ f.prec : ℚ) ≤ 1 - p := by
    rcases le_or_gt (1/2) p with h2 | h2
    · exact rep_lt_one h h2 h1
    · have : (1 / 2 ^ f.prec : ℚ) ≤ 1 / 2 ^ 1 :=
        one_div_le_one_div_of_le (by norm_num) (pow_le_pow_right₀ (by norm_num) (by omega))
      norm_num at this ⊢
      linarith
  have hhi : (1 - p : ℚ) ≤ 2 ^ f.prec := by
    have : (1 : ℚ) ≤ 2 ^ f.prec := one_le_pow₀ (by norm_num)
    linarith
  have hlo' : (1 / 2 ^ f.prec : ℝ) ≤ 1 - p := by
    have := pow_cast_le.mpr hlo
    push_cast at this; exact this
  have hhi' : (1 - p : ℝ) ≤ 2 ^ f.prec := by exact_mod_cast hhi
  have hple := hf.prec_le
  have hem : (f.prec : ℤ) + 2 ≤ f.emax := by have := hf.emax_ge; omega
  have e : Flt.sub f (.fin 1) (.fin p) = f.round (1 - p) := by
    show f.round (1 + -p) = _
    rw [← sub_eq_add_neg]
  rw [e]
  exact Rel.of_round hf (k := 0) (i := f.prec) hlo' hhi' (by push_cast; exact hlo')
    (by push_cast; exact hhi') hem (by simp) (by simp)

end Verif
