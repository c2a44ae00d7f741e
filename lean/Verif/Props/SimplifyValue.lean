import Verif.Props.Simplify

/-! C47: simplification preserves values. -/

namespace Verif
open Classical Spec XReal

section C47
open Expr
variable {ρ : String → Option ℝ}

theorem Spec.Regular.weaken {e : Expr XReal} (h : Regular ρ true e) : Regular ρ false e := by
  induction e with
  | const c => obtain ⟨r, _, rfl⟩ := h; exact ⟨r, rfl⟩
  | var n => trivial
  | add l r il ir => exact ⟨il h.1, ir h.2⟩
  | mul l r il ir => exact ⟨il h.1, ir h.2⟩
  | div l r il ir => exact ⟨il h.1, ir h.2⟩
  | pow l r il ir => exact .inl h
  | exp e ih => exact h
  | sqrt e ih => exact h
  | sub | ln | sin | cos | neg => exact h.elim

theorem Spec.Regular.weaken' {b : Bool} {e : Expr XReal} (h : Regular ρ true e) : Regular ρ b e := by
  cases b
  · exact h.weaken
  · exact h

theorem Spec.Regular.toFalse {b : Bool} {e : Expr XReal} (h : Regular ρ b e) : Regular ρ false e := by
  cases b
  · exact h
  · exact Regular.weaken h

theorem realPow_pos {a b : ℝ} (h : 0 < a) : realPow a b = some (a ^ b) := by
  simp [realPow, h]

theorem Spec.Regular.pos {e : Expr XReal} {v : ℝ} (h : Regular ρ true e) (hv : value ρ e = some v) :
    0 < v := by
  induction e generalizing v with
  | const c =>
    obtain ⟨r, h0, rfl⟩ := h
    rw [value_eq_const, fin_inj] at hv; exact hv ▸ h0
  | var n =>
    obtain ⟨x, hx, h0⟩ := h
    simp only [value] at hv
    rw [hx] at hv; cases hv; exact h0
  | add l r il ir =>
    obtain ⟨a, ha, b, hb, rfl⟩ := value_add.mp hv
    exact add_pos (il h.1 ha) (ir h.2 hb)
  | mul l r il ir =>
    obtain ⟨a, ha, b, hb, rfl⟩ := value_mul.mp hv
    exact mul_pos (il h.1 ha) (ir h.2 hb)
  | div l r il ir =>
    obtain ⟨a, ha, b, hb, _, rfl⟩ := value_div.mp hv
    exact div_pos (il h.1 ha) (ir h.2 hb)
  | pow l r il ir =>
    obtain ⟨a, ha, b, hb, hp⟩ := value_pow.mp hv
    have := il h.1 ha
    rw [realPow_pos this] at hp; cases hp
    exact Real.rpow_pos_of_pos this _
  | exp e ih =>
    obtain ⟨a, ha, rfl⟩ := value_exp.mp hv
    exact Real.exp_pos _
  | sqrt e ih =>
    obtain ⟨a, ha, _, rfl⟩ := value_sqrt.mp hv
    exact Real.sqrt_pos.mpr (ih h ha)
  | sub | ln | sin | cos | neg => exact h.elim

/-- A regular expression together with the value it denotes. -/
def Good (ρ : String → Option ℝ) (b : Bool) (v : ℝ) (e : Expr XReal) : Prop :=
  Regular ρ b e ∧ value ρ e = some v

theorem good_const {b : Bool} {v : ℝ} (h : b = true → 0 < v) : Good ρ b v (const (fin v)) := by
  refine ⟨?_, by simp [value]⟩
  cases b
  · exact ⟨v, rfl⟩
  · exact ⟨v, h rfl, rfl⟩

theorem Good.const_eq {b : Bool} {v : ℝ} {c : XReal} (h : Good ρ b v (const c)) : c = fin v :=
  value_eq_const.mp h.2

theorem Good.pos {b : Bool} {v : ℝ} {e : Expr XReal} (h : Good ρ b v e) (hb : b = true) : 0 < v := by
  subst hb; exact Regular.pos h.1 h.2

theorem Good.isConst {b : Bool} {v c : ℝ} {e : Expr XReal} (h : Good ρ b v e)
    (hc : Expr.isConst (fin c) e = true) : v = c := by
  rw [isConst_iff] at hc; subst hc
  have := h.const_eq
  simpa using this.symm

theorem Good.beq {b : Bool} {v w : ℝ} {l r : Expr XReal} (hl : Good ρ b v l) (hr : Good ρ b w r)
    (h : Expr.beq l r = true) : v = w ∧ l = r := by
  have := beq_eq _ _ h; subst this
  exact ⟨Option.some.inj (hl.2.symm.trans hr.2), rfl⟩

theorem ofRat_two : (FloatOps.ofRat 2 : XReal) = fin 2 := by simp
theorem ofRat_neg_one : (FloatOps.ofRat (-1) : XReal) = fin (-1) := by simp

theorem good_add {b : Bool} {v w : ℝ} {l r : Expr XReal} (hl : Good ρ b v l) (hr : Good ρ b w r) :
    Good ρ b (v + w) (simplifyAdd l r) := by
  have hp : b = true → 0 < v + w := fun h => add_pos (hl.pos h) (hr.pos h)
  unfold simplifyAdd
  split
  · rename_i a c h
    obtain ⟨rfl, rfl⟩ := bothConst_eq_some h
    rw [hl.const_eq, hr.const_eq]
    exact good_const hp
  · split_ifs with h1 h2 h3
    · rw [hl.isConst (by simpa using h1), zero_add]; exact hr
    · rw [hr.isConst (by simpa using h2), add_zero]; exact hl
    · obtain ⟨rfl, rfl⟩ := hl.beq hr h3
      rw [ofRat_two]
      have h2 := good_const (ρ := ρ) (b := b) (v := 2) (fun _ => by norm_num)
      exact ⟨by cases b <;> exact ⟨h2.1, hl.1⟩,
        value_mul.mpr ⟨2, h2.2, v, hl.2, by ring⟩⟩
    · exact ⟨by cases b <;> exact ⟨hl.1, hr.1⟩, value_add.mpr ⟨_, hl.2, _, hr.2, rfl⟩⟩

theorem good_sub {v w : ℝ} {l r : Expr XReal} (hl : Good ρ false v l) (hr : Good ρ false w r) :
    Good ρ false (v - w) (simplifySub l r) := by
  unfold simplifySub
  split
  · rename_i a c h
    obtain ⟨rfl, rfl⟩ := bothConst_eq_some h
    rw [hl.const_eq, hr.const_eq]
    exact good_const (by simp)
  · split_ifs with h1 h2 h3
    · rw [hr.isConst (by simpa using h1), sub_zero]; exact hl
    · rw [hl.isConst (by simpa using h2), zero_sub]
      exact ⟨hr.1, value_neg.mpr ⟨_, hr.2, rfl⟩⟩
    · obtain ⟨rfl, rfl⟩ := hl.beq hr h3
      rw [sub_self]
      exact good_const (by simp)
    · exact ⟨⟨hl.1, hr.1⟩, value_sub.mpr ⟨_, hl.2, _, hr.2, rfl⟩⟩

theorem realPow_int (a : ℝ) (n : ℤ) (h : a ≠ 0 ∨ 0 ≤ n) : realPow a n = some (a ^ n) := by
  unfold realPow
  rcases lt_trichotomy a 0 with h0 | h0 | h0
  · rw [if_neg (not_lt.mpr h0.le), if_neg h0.ne, if_pos ⟨n, rfl⟩, Real.rpow_intCast]
  · subst h0
    have hn : 0 ≤ n := by simpa using h
    rcases hn.lt_or_eq with hn | hn
    · simp [hn, hn.ne', zero_zpow n hn.ne']
    · subst hn; simp
  · rw [if_pos h0, Real.rpow_intCast]

theorem realPow_int_eq {a v : ℝ} {n : ℤ} (h : realPow a n = some v) :
    v = a ^ n ∧ (a ≠ 0 ∨ 0 ≤ n) := by
  by_cases hc : a ≠ 0 ∨ 0 ≤ n
  · rw [realPow_int a n hc] at h; exact ⟨(Option.some.inj h).symm, hc⟩
  · push Not at hc
    obtain ⟨rfl, hn⟩ := hc
    have h1 : ¬ ((n : ℝ) = 0) := by exact_mod_cast hn.ne
    have h2 : ¬ (0 : ℝ) < n := by simpa using hn.le
    simp [realPow, h1, h2] at h

theorem good_mul {b : Bool} {v w : ℝ} {l r : Expr XReal} (hl : Good ρ b v l) (hr : Good ρ b w r) :
    Good ρ b (v * w) (simplifyMul l r) := by
  have hp : b = true → 0 < v * w := fun h => mul_pos (hl.pos h) (hr.pos h)
  unfold simplifyMul
  split
  · rename_i a c h
    obtain ⟨rfl, rfl⟩ := bothConst_eq_some h
    rw [hl.const_eq, hr.const_eq]
    exact good_const hp
  · split_ifs with h1 h2 h3 h4 h5 h6
    · rw [Bool.or_eq_true] at h1
      have h0 : v * w = 0 := by
        rcases h1 with h | h
        · rw [hl.isConst (by simpa using h), zero_mul]
        · rw [hr.isConst (by simpa using h), mul_zero]
      rw [h0]
      exact good_const (fun h => by rw [h0] at hp; exact hp h)
    · rw [hl.isConst (by simpa using h2), one_mul]; exact hr
    · rw [hr.isConst (by simpa using h3), mul_one]; exact hl
    · have := hl.isConst (by simpa using h4)
      subst this
      cases b with
      | true => have := hl.pos rfl; norm_num at this
      | false => exact ⟨hr.1, value_neg.mpr ⟨_, hr.2, by ring⟩⟩
    · have := hr.isConst (by simpa using h5)
      subst this
      cases b with
      | true => have := hr.pos rfl; norm_num at this
      | false => exact ⟨hl.1, value_neg.mpr ⟨_, hl.2, by ring⟩⟩
    · obtain ⟨rfl, rfl⟩ := hl.beq hr h6
      rw [ofRat_two]
      have h2 := good_const (ρ := ρ) (b := false) (v := 2) (by simp)
      refine ⟨?_, value_pow.mpr ⟨v, hl.2, 2, h2.2, ?_⟩⟩
      · cases b
        · exact .inr ⟨hl.1, 2, by simp⟩
        · exact ⟨hl.1, h2.1⟩
      · have := realPow_int v 2 (.inr (by norm_num))
        have h3 : v ^ (2 : ℤ) = v * v := by rw [← pow_two]; norm_cast
        rw [h3] at this
        exact_mod_cast this
    · exact ⟨by cases b <;> exact ⟨hl.1, hr.1⟩, value_mul.mpr ⟨_, hl.2, _, hr.2, rfl⟩⟩

theorem good_div {b : Bool} {v w : ℝ} {l r : Expr XReal} (hl : Good ρ b v l) (hr : Good ρ b w r)
    (hw : w ≠ 0) : Good ρ b (v / w) (simplifyDiv l r) := by
  have hp : b = true → 0 < v / w := fun h => div_pos (hl.pos h) (hr.pos h)
  unfold simplifyDiv
  split
  · rename_i q h
    unfold foldDiv at h
    split at h
    · split_ifs at h with h0
      cases h
      rw [hl.const_eq, hr.const_eq, f_div _ _ hw]
      exact good_const hp
    · cases h
  · split_ifs with h1 h2 h3
    · rw [hr.isConst (by simpa using h1), div_one]; exact hl
    · have := hl.isConst (by simpa using h2)
      subst this
      simp only [zero_div] at hp ⊢
      exact good_const hp
    · obtain ⟨rfl, rfl⟩ := hl.beq hr h3
      rw [div_self hw]
      exact good_const (by simp)
    · exact ⟨by cases b <;> exact ⟨hl.1, hr.1⟩, value_div.mpr ⟨_, hl.2, _, hr.2, hw, rfl⟩⟩

theorem good_ln {v : ℝ} {e : Expr XReal} (h : Good ρ true v e) :
    Good ρ false (Real.log v) (simplifyLn e) := by
  have hv := h.pos rfl
  unfold simplifyLn
  split
  · have := h.const_eq; subst this
    rw [if_pos (by simpa using hv), f_ln _ hv]
    exact good_const (by simp)
  · obtain ⟨a, ha, rfl⟩ := value_exp.mp h.2
    rw [Real.log_exp]; exact ⟨h.1, ha⟩
  · rename_i b x
    obtain ⟨hb, hx⟩ := h.1
    obtain ⟨a, ha, c, hc, hp⟩ := value_pow.mp h.2
    have h0 := hb.pos ha
    rw [realPow_pos h0] at hp; cases hp
    rw [Real.log_rpow h0]
    exact ⟨⟨hx, hb⟩, value_mul.mpr ⟨_, hc, _, value_ln.mpr ⟨_, ha, h0, rfl⟩, rfl⟩⟩
  · exact ⟨h.1, value_ln.mpr ⟨_, h.2, hv, rfl⟩⟩

theorem good_exp {b : Bool} {v : ℝ} {e : Expr XReal} (h : Good ρ false v e) :
    Good ρ b (Real.exp v) (simplifyExp e) := by
  unfold simplifyExp
  split
  · have := h.const_eq; subst this
    split_ifs with h0
    · have : v = 0 := by simpa using h0
      subst this
      rw [Real.exp_zero]; exact good_const (by simp)
    · exact good_const (fun _ => Real.exp_pos _)
  · obtain ⟨a, ha, h0, rfl⟩ := value_ln.mp h.2
    rw [Real.exp_log h0]
    exact ⟨Regular.weaken' h.1, ha⟩
  · rename_i c x
    obtain ⟨hc, hx⟩ := h.1
    obtain ⟨a, ha, d, hd, rfl⟩ := value_mul.mp h.2
    obtain ⟨y, hy, h0, rfl⟩ := value_ln.mp hd
    refine ⟨?_, value_pow.mpr ⟨y, hy, a, ha, ?_⟩⟩
    · cases b
      · exact .inl ⟨hx, hc⟩
      · exact ⟨hx, hc⟩
    · rw [realPow_pos h0, Real.rpow_def_of_pos h0, mul_comm]
  · exact ⟨by cases b <;> exact h.1, value_exp.mpr ⟨_, h.2, rfl⟩⟩

theorem good_sqrt {b : Bool} {v : ℝ} {e : Expr XReal} (h : Good ρ true v e) :
    Good ρ b (Real.sqrt v) (simplifySqrt e) := by
  have hv := h.pos rfl
  unfold simplifySqrt
  split
  · have := h.const_eq; subst this
    rw [if_pos (by simpa using hv.le), f_sqrt _ hv.le]
    exact good_const (fun _ => Real.sqrt_pos.mpr hv)
  · rename_i x y
    obtain ⟨hx, hy⟩ := h.1
    split_ifs with h2
    · obtain ⟨a, ha, c, hc, hp⟩ := value_pow.mp h.2
      have h0 := hx.pos ha
      have : c = 2 := (Good.isConst (ρ := ρ) (b := false) ⟨hy, hc⟩ (by simpa using h2))
      subst this
      rw [realPow_pos h0] at hp; cases hp
      have : Real.sqrt (a ^ (2 : ℝ)) = a := by
        rw [Real.rpow_two, Real.sqrt_sq h0.le]
      rw [this]
      exact ⟨Regular.weaken' hx, ha⟩
    · exact ⟨by cases b <;> exact h.1, value_sqrt.mpr ⟨_, h.2, hv.le, rfl⟩⟩
  · exact ⟨by cases b <;> exact h.1, value_sqrt.mpr ⟨_, h.2, hv.le, rfl⟩⟩

theorem good_sin {v : ℝ} {e : Expr XReal} (h : Good ρ false v e) :
    Good ρ false (Real.sin v) (simplifySin e) := by
  unfold simplifySin
  split
  · have := h.const_eq; subst this
    split_ifs with h0
    · have : v = 0 := by simpa using h0
      subst this
      rw [Real.sin_zero]; exact good_const (by simp)
    · exact good_const (by simp)
  · exact ⟨h.1, value_sin.mpr ⟨_, h.2, rfl⟩⟩

theorem good_cos {v : ℝ} {e : Expr XReal} (h : Good ρ false v e) :
    Good ρ false (Real.cos v) (simplifyCos e) := by
  unfold simplifyCos
  split
  · have := h.const_eq; subst this
    split_ifs with h0
    · have : v = 0 := by simpa using h0
      subst this
      rw [Real.cos_zero]; exact good_const (by simp)
    · exact good_const (by simp)
  · exact ⟨h.1, value_cos.mpr ⟨_, h.2, rfl⟩⟩

theorem good_neg {v : ℝ} {e : Expr XReal} (h : Good ρ false v e) :
    Good ρ false (-v) (simplifyNeg e) := by
  unfold simplifyNeg
  split
  · have := h.const_eq; subst this
    exact good_const (by simp)
  · obtain ⟨a, ha, rfl⟩ := value_neg.mp h.2
    rw [neg_neg]; exact ⟨h.1, ha⟩
  · exact ⟨h.1, value_neg.mpr ⟨_, h.2, rfl⟩⟩

/-- Power rule with a positive base. -/
theorem good_pow_pos {m : Bool} {v w : ℝ} {b x : Expr XReal} (hb : Good ρ true v b)
    (hx : Good ρ false w x)
    (hm : ∀ ib ie u, asPow b = some (ib, ie) → Good ρ false u (mul ie x) →
      Good ρ false u (simplify (mul ie x))) :
    Good ρ m (v ^ w) (simplifyPow b x) := by
  have hv := hb.pos rfl
  unfold simplifyPow
  split
  · rename_i a c h
    obtain ⟨rfl, rfl⟩ := bothConst_eq_some h
    rw [hb.const_eq, hx.const_eq, (powf_iff_realPow _ _ _).mpr (realPow_pos hv)]
    exact good_const (fun _ => Real.rpow_pos_of_pos hv _)
  · split_ifs with h1 h2 h3
    · rw [hx.isConst (by simpa using h1), Real.rpow_zero]; exact good_const (by simp)
    · rw [hx.isConst (by simpa using h2), Real.rpow_one]; exact ⟨Regular.weaken' hb.1, hb.2⟩
    · rw [hb.isConst (by simpa using h3), Real.one_rpow]; exact good_const (by simp)
    · split
      · rename_i ib ie hp
        have hm := hm ib ie
        have := asPow_eq hp; subst this
        obtain ⟨hi, he⟩ := hb.1
        obtain ⟨a, ha, c, hc, hpw⟩ := value_pow.mp hb.2
        have h0 := hi.pos ha
        rw [realPow_pos h0] at hpw; cases hpw
        have hg := hm (c * w) rfl ⟨⟨he, hx.1⟩, value_mul.mpr ⟨_, hc, _, hx.2, rfl⟩⟩
        refine ⟨?_, value_pow.mpr ⟨a, ha, _, hg.2, ?_⟩⟩
        · cases m
          · exact .inl ⟨hi, hg.1⟩
          · exact ⟨hi, hg.1⟩
        · rw [realPow_pos h0, Real.rpow_mul h0.le]
      · refine ⟨?_, value_pow.mpr ⟨_, hb.2, _, hx.2, realPow_pos hv⟩⟩
        cases m
        · exact .inl ⟨hb.1, hx.1⟩
        · exact ⟨hb.1, hx.1⟩

theorem zpow_mul_cond {a : ℝ} {k n : ℤ} (h1 : a ≠ 0 ∨ 0 ≤ k) (h2 : a ^ k ≠ 0 ∨ 0 ≤ n) :
    a ≠ 0 ∨ 0 ≤ k * n := by
  by_cases ha : a = 0
  · right
    subst ha
    have hk : 0 ≤ k := by simpa using h1
    rcases hk.lt_or_eq with hk | hk
    · have : 0 ≤ n := by simpa [zero_zpow k hk.ne'] using h2
      positivity
    · subst hk; simp
  · exact .inl ha

/-- Power rule with an integer literal as exponent. -/
theorem good_pow_int {v u : ℝ} {n : ℤ} {b : Expr XReal} (hb : Good ρ false v b)
    (hv : realPow v n = some u)
    (hm : ∀ ib ie w, asPow b = some (ib, ie) → Good ρ false w (mul ie (const (fin n))) →
      Good ρ false w (simplify (mul ie (const (fin n))))) :
    Good ρ false u (simplifyPow b (const (fin n))) := by
  have hn : Good ρ false (n : ℝ) (const (fin n)) := good_const (by simp)
  obtain ⟨rfl, hcond⟩ := realPow_int_eq hv
  unfold simplifyPow
  split
  · rename_i a c h
    obtain ⟨rfl, hc⟩ := bothConst_eq_some h
    cases hc
    rw [hb.const_eq, (powf_iff_realPow _ _ _).mpr hv]
    exact good_const (by simp)
  · split_ifs with h1 h2 h3
    · have h0 : (n : ℝ) = 0 := hn.isConst (by simpa using h1)
      have h0 : n = 0 := by exact_mod_cast h0
      subst h0; simp only [zpow_zero]; exact good_const (by simp)
    · have h0 : (n : ℝ) = 1 := hn.isConst (by simpa using h2)
      have h0 : n = 1 := by exact_mod_cast h0
      subst h0; simpa using hb
    · rw [hb.isConst (by simpa using h3), one_zpow]; exact good_const (by simp)
    · split
      · rename_i ib ie hp
        have hm := hm ib ie
        have := asPow_eq hp; subst this
        obtain ⟨a, ha, c, hc, hpw⟩ := value_pow.mp hb.2
        rcases hb.1 with ⟨hi, he⟩ | ⟨hi, k, rfl⟩
        · have h0 := hi.pos ha
          rw [realPow_pos h0] at hpw; cases hpw
          have hg := hm (c * n) rfl ⟨⟨he, hn.1⟩, value_mul.mpr ⟨_, hc, _, hn.2, rfl⟩⟩
          refine ⟨.inl ⟨hi, hg.1⟩, value_pow.mpr ⟨a, ha, _, hg.2, ?_⟩⟩
          rw [realPow_pos h0, Real.rpow_mul h0.le, Real.rpow_intCast]
        · rw [value_eq_const, fin_inj] at hc; subst hc
          obtain ⟨rfl, hk⟩ := realPow_int_eq hpw
          have hs : simplify (mul (const (fin (k : ℝ))) (const (fin (n : ℝ)))) =
              const (fin ((k * n : ℤ) : ℝ)) := by
            rw [simplify_mul]
            simp [simplifyMul, bothConst]
          rw [hs]
          refine ⟨.inr ⟨hi, k * n, rfl⟩, value_pow.mpr ⟨a, ha, ((k * n : ℤ) : ℝ), rfl, ?_⟩⟩
          rw [realPow_int _ _ (zpow_mul_cond hk hcond), zpow_mul]
      · exact ⟨.inr ⟨hb.1, n, rfl⟩, value_pow.mpr ⟨_, hb.2, _, hn.2, hv⟩⟩

theorem simplify_good (e : Expr XReal) : ∀ b v, Good ρ b v e → Good ρ b v e.simplify := by
  induction e using complexity_induction with
  | _ e ih =>
    intro m v h
    obtain ⟨hr, hv⟩ := h
    cases e with
    | const c => simpa using ⟨hr, hv⟩
    | var n => simpa using ⟨hr, hv⟩
    | add l r =>
      obtain ⟨a, ha, b, hb, rfl⟩ := value_add.mp hv
      have hr' : Regular ρ m l ∧ Regular ρ m r := by cases m <;> exact hr
      rw [simplify_add]
      exact good_add (ih l (by simp only [complexity]; omega) m a ⟨hr'.1, ha⟩)
        (ih r (by simp only [complexity]; omega) m b ⟨hr'.2, hb⟩)
    | sub l r =>
      obtain ⟨a, ha, b, hb, rfl⟩ := value_sub.mp hv
      cases m with
      | true => exact hr.elim
      | false =>
        rw [simplify_sub]
        exact good_sub (ih l (by simp only [complexity]; omega) _ a ⟨hr.1, ha⟩)
          (ih r (by simp only [complexity]; omega) _ b ⟨hr.2, hb⟩)
    | mul l r =>
      obtain ⟨a, ha, b, hb, rfl⟩ := value_mul.mp hv
      have hr' : Regular ρ m l ∧ Regular ρ m r := by cases m <;> exact hr
      rw [simplify_mul]
      exact good_mul (ih l (by simp only [complexity]; omega) m a ⟨hr'.1, ha⟩)
        (ih r (by simp only [complexity]; omega) m b ⟨hr'.2, hb⟩)
    | div l r =>
      obtain ⟨a, ha, b, hb, h0, rfl⟩ := value_div.mp hv
      have hr' : Regular ρ m l ∧ Regular ρ m r := by cases m <;> exact hr
      rw [simplify_div]
      exact good_div (ih l (by simp only [complexity]; omega) m a ⟨hr'.1, ha⟩)
        (ih r (by simp only [complexity]; omega) m b ⟨hr'.2, hb⟩) h0
    | pow l r =>
      obtain ⟨a, ha, b, hb, hp⟩ := value_pow.mp hv
      have key : Regular ρ true l ∧ Regular ρ false r → Good ρ m v (simplify (pow l r)) := by
        rintro ⟨h1, h2⟩
        have hl := ih l (by simp only [complexity]; omega) _ a ⟨h1, ha⟩
        have hr := ih r (by simp only [complexity]; omega) _ b ⟨h2, hb⟩
        rw [realPow_pos (Regular.pos h1 ha)] at hp; cases hp
        rw [simplify_pow]
        exact good_pow_pos hl hr (fun ib ie u hpw hg =>
          ih _ (complexity_exponents (x := r) hpw) _ u hg)
      cases m with
      | true => exact key hr
      | false =>
        rcases hr with hr | ⟨h1, n, rfl⟩
        · exact key hr
        · have hl := ih l (by simp only [complexity]; omega) _ a ⟨h1, ha⟩
          rw [value_eq_const, fin_inj] at hb; subst hb
          rw [simplify_pow, simplify_const]
          exact good_pow_int hl hp (fun ib ie u hpw hg =>
            ih _ (by simpa using complexity_exponents (x := const (fin (n : ℝ))) hpw) _ u hg)
    | ln e =>
      obtain ⟨a, ha, h0, rfl⟩ := value_ln.mp hv
      cases m with
      | true => exact hr.elim
      | false =>
        rw [simplify_ln]
        exact good_ln (ih e (by simp only [complexity]; omega) _ a ⟨hr, ha⟩)
    | exp e =>
      obtain ⟨a, ha, rfl⟩ := value_exp.mp hv
      have hr' : Regular ρ false e := by cases m <;> exact hr
      rw [simplify_exp]
      exact good_exp (ih e (by simp only [complexity]; omega) _ a ⟨hr', ha⟩)
    | sqrt e =>
      obtain ⟨a, ha, h0, rfl⟩ := value_sqrt.mp hv
      have hr' : Regular ρ true e := by cases m <;> exact hr
      rw [simplify_sqrt]
      exact good_sqrt (ih e (by simp only [complexity]; omega) _ a ⟨hr', ha⟩)
    | sin e =>
      obtain ⟨a, ha, rfl⟩ := value_sin.mp hv
      cases m with
      | true => exact hr.elim
      | false =>
        rw [simplify_sin]
        exact good_sin (ih e (by simp only [complexity]; omega) _ a ⟨hr, ha⟩)
    | cos e =>
      obtain ⟨a, ha, rfl⟩ := value_cos.mp hv
      cases m with
      | true => exact hr.elim
      | false =>
        rw [simplify_cos]
        exact good_cos (ih e (by simp only [complexity]; omega) _ a ⟨hr, ha⟩)
    | neg e =>
      obtain ⟨a, ha, rfl⟩ := value_neg.mp hv
      cases m with
      | true => exact hr.elim
      | false =>
        rw [simplify_neg]
        exact good_neg (ih e (by simp only [complexity]; omega) _ a ⟨hr, ha⟩)

/-- On sign-regular expressions simplification preserves the denoted value.
Missing for the full claim: expressions whose logarithm, root or power bases may be negative or
zero, where the claim is false (`C47_sqrt_square_violated`, `C47_power_power_violated`,
`C47_ln_square_violated`). -/
theorem C47_simplify_value_partial (e : Expr XReal) (v : ℝ) (h : Regular ρ false e)
    (hv : value ρ e = some v) : value ρ e.simplify = some v :=
  (simplify_good e false v ⟨h, hv⟩).2

/-- The same for `evaluate` on the simplified expression. -/
theorem C47_simplify_evaluate_partial (e : Expr XReal) (v : ℝ) (h : Regular ρ false e)
    (hv : value ρ e = some v) :
    e.evaluate (env ρ) = .ok (fin v) ∧ e.simplify.evaluate (env ρ) = .ok (fin v) :=
  ⟨evaluate_of_value ρ e v hv, evaluate_of_value ρ _ v (C47_simplify_value_partial e v h hv)⟩

/-- A sign-regular expression with a value: `ln(exp(x)·2) + (x − 3)²` at `x = 1`. -/
example : ∃ v, Regular (single "x" 1) false (add (ln (mul (exp (var "x")) (const (fin 2))))
      (pow (sub (var "x") (const (fin 3))) (const (fin 2)))) ∧
    value (single "x" 1) (add (ln (mul (exp (var "x")) (const (fin 2))))
      (pow (sub (var "x") (const (fin 3))) (const (fin 2)))) = some v := by
  have h : (0 : ℝ) < Real.exp 1 * 2 := by positivity
  refine ⟨Real.log (Real.exp 1 * 2) + 4, ?_, ?_⟩
  · simp only [Regular]
    refine ⟨⟨trivial, 2, by norm_num, rfl⟩, .inr ⟨⟨trivial, 3, rfl⟩, 2, by simp⟩⟩
  · refine value_add.mpr ⟨_, value_ln.mpr ⟨Real.exp 1 * 2, by simp [value, single], h, rfl⟩, 4,
      value_pow.mpr ⟨-2, ?_, 2, by simp [value], ?_⟩, rfl⟩
    · simp [value, single]; norm_num
    · have := realPow_int (-2) 2 (.inl (by norm_num))
      norm_num at this ⊢; exact this

/-! ### where the full claim fails -/

/-- `sqrt(x²)` is `1` at `x = −1`, but simplifies to `x`, which is `−1`. -/
theorem C47_sqrt_square_violated :
    ∃ e : Expr XReal, e.evaluate (singleMap "x" (fin (-1))) = .ok (fin 1) ∧
      e.simplify.evaluate (singleMap "x" (fin (-1))) = .ok (fin (-1)) := by
  refine ⟨sqrt (pow (var "x") (const (fin 2))), ?_, ?_⟩
  · have h2 : FloatOps.powf (fin (-1)) (fin 2) = fin 1 := by
      rw [powf_iff_realPow]
      have := realPow_int (-1) 2 (.inl (by norm_num))
      norm_num at this; exact this
    simp [evaluate, singleMap, FMap.insert, bind, Except.bind, h2, f_sqrt]
  · simp [simplify_sqrt, simplify_pow, simplifyPow, simplifySqrt, bothConst, asPow, isConst,
      evaluate, singleMap, FMap.insert]

/-- `(x²)^0.5` is `1` at `x = −1`, but simplifies to `x^1`, which is `−1`. -/
theorem C47_power_power_violated :
    ∃ e : Expr XReal, e.evaluate (singleMap "x" (fin (-1))) = .ok (fin 1) ∧
      e.simplify.evaluate (singleMap "x" (fin (-1))) = .ok (fin (-1)) := by
  refine ⟨pow (pow (var "x") (const (fin 2))) (const (fin (1/2))), ?_, ?_⟩
  · have h2 : FloatOps.powf (fin (-1)) (fin 2) = fin 1 := by
      rw [powf_iff_realPow]
      have := realPow_int (-1) 2 (.inl (by norm_num))
      norm_num at this; exact this
    have h3 : FloatOps.powf (fin 1) (fin 2⁻¹) = fin 1 := by
      rw [powf_iff_realPow, realPow_pos one_pos, Real.one_rpow]
    simp [evaluate, singleMap, FMap.insert, bind, Except.bind, h2, h3]
  · have h3 : FloatOps.powf (fin (-1)) (fin 1) = fin (-1) := by
      rw [powf_iff_realPow]
      have := realPow_int (-1) 1 (.inl (by norm_num))
      norm_num at this; exact this
    simp [simplify_pow, simplify_mul, simplifyPow, simplifyMul, bothConst, asPow, isConst,
      evaluate, singleMap, FMap.insert, bind, Except.bind, h3]

/-- `ln(x²)` is `0` at `x = −1`, but simplifies to `2·ln(x)`, which is an error there. -/
theorem C47_ln_square_violated :
    ∃ e : Expr XReal, e.evaluate (singleMap "x" (fin (-1))) = .ok (fin 0) ∧
      e.simplify.evaluate (singleMap "x" (fin (-1))) = .error (.invalidLogarithm (fin (-1))) := by
  refine ⟨ln (pow (var "x") (const (fin 2))), ?_, ?_⟩
  · have h2 : FloatOps.powf (fin (-1)) (fin 2) = fin 1 := by
      rw [powf_iff_realPow]
      have := realPow_int (-1) 2 (.inl (by norm_num))
      norm_num at this; exact this
    simp [evaluate, singleMap, FMap.insert, bind, Except.bind, h2, f_ln]
  · simp [simplify_ln, simplify_pow, simplifyPow, simplifyLn, bothConst, asPow, isConst,
      evaluate, singleMap, FMap.insert, bind, Except.bind]

end C47

section C49v
open Expr

/-- Simplification is not idempotent: `0 − (−y)` becomes `−(−y)` and only then `y`. -/
theorem C49_idempotent_violated :
    ∃ e : Expr XReal, e.simplify.simplify ≠ e.simplify := by
  refine ⟨sub (const (fin 0)) (neg (var "y")), ?_⟩
  simp [simplify_sub, simplify_neg, simplifySub, simplifyNeg, bothConst, isConst]

/-- A fixed point of simplification: `x + y`. -/
example : (add (var "x") (var "y") : Expr XReal).simplify = add (var "x") (var "y") := by
  simp [simplify_add, simplifyAdd, bothConst, isConst, Expr.beq]

end C49v
end Verif
