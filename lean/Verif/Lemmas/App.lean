import Verif.Lemmas.NearOps
import Verif.Lemmas.LibmExists
import Verif.Lemmas.StirlingReal
import Verif.Spec.DoubleGamma

/-! Floating-point values of expressions: `App f k v x X` says that `v` is a number, near `x`. -/

namespace Verif
open Format

variable {f : Format} {L : Libm}

/-- The value `v` is finite and within `k` units of `x`, relative to the magnitude `X`. -/
def App (f : Format) (k : ℝ) (v : FVal) (x X : ℝ) : Prop := ∃ r, v = .fin r ∧ Near f k r x X

theorem App.mono {k k' : ℝ} {v : FVal} {x X X' : ℝ} (h : App f k v x X) (hk : 0 ≤ k ∧ k ≤ k')
    (hX : X ≤ X') : App f k' v x X' := by
  obtain ⟨r, h1, h2⟩ := h
  exact ⟨r, h1, h2.mono hk.2 hX hk.1⟩

theorem App.nonneg {k : ℝ} {v : FVal} {x X : ℝ} (h : App f k v x X) : 0 ≤ X := by
  obtain ⟨r, h1, h2⟩ := h; exact h2.nonneg

theorem App.mag {k : ℝ} {v : FVal} {x X : ℝ} (h : App f k v x X) : |x| ≤ X := by
  obtain ⟨r, h1, h2⟩ := h; exact h2.mag

theorem App.exact {q : ℚ} (h : f.Representable q) : App f 0 (.fin q) q |(q : ℝ)| :=
  ⟨q, rfl, Near.exact h⟩

theorem App.pos {q : ℚ} (h0 : 0 < q) (h : f.Representable q) : App f 0 (.fin q) q q := by
  have := App.exact h
  rwa [abs_of_pos (by exact_mod_cast h0)] at this

theorem App.neg {k : ℝ} {v : FVal} {x X : ℝ} (h : App f k v x X) : App f k (Flt.neg v) (-x) X := by
  obtain ⟨r, rfl, h2⟩ := h
  exact ⟨-r, rfl, h2.neg⟩

theorem App.add (hf : f.Std) {k l m : ℝ} {v w : FVal} {x X y Y : ℝ} (ha : App f k v x X)
    (hb : App f l w y Y) (hk : 0 ≤ k ∧ k + 2 ≤ m) (hl : 0 ≤ l ∧ l + 2 ≤ m) (hm : m ≤ 1000)
    (hB : X + Y ≤ 2 ^ 90) : App f m (Flt.add f v w) (x + y) (X + Y) := by
  obtain ⟨a, rfl, ha⟩ := ha
  obtain ⟨b, rfl, hb⟩ := hb
  obtain ⟨r, hr, hn⟩ := Near.add_ex hf (k := m - 2) (ha.mono (by linarith) le_rfl hk.1)
    (hb.mono (by linarith) le_rfl hl.1) (by linarith) hB
  refine ⟨r, hr, ?_⟩
  rwa [sub_add_cancel] at hn

theorem App.sub (hf : f.Std) {k l m : ℝ} {v w : FVal} {x X y Y : ℝ} (ha : App f k v x X)
    (hb : App f l w y Y) (hk : 0 ≤ k ∧ k + 2 ≤ m) (hl : 0 ≤ l ∧ l + 2 ≤ m) (hm : m ≤ 1000)
    (hB : X + Y ≤ 2 ^ 90) : App f m (Flt.sub f v w) (x - y) (X + Y) := by
  rw [sub_eq_add_neg]
  exact App.add hf ha hb.neg hk hl hm hB

/-- the sum of two positive numbers of the format, one rounding -/
theorem App.add_pos (hf : f.Std) {a b : ℚ} (ha : f.Representable a) (hb : f.Representable b)
    (h0 : 0 ≤ (a : ℝ) + b) (hB : (a : ℝ) + b ≤ 2 ^ 90) :
    App f 1 (Flt.add f (.fin a) (.fin b)) ((a : ℝ) + b) ((a : ℝ) + b) := by
  obtain ⟨r, hr⟩ := round_small hf (q := a + b) (rat_le (by
    push_cast
    rw [abs_of_nonneg h0]
    refine hB.trans ?_
    norm_num))
  obtain ⟨h1, h2⟩ := near_round_add hf ha hb hr
  refine ⟨r, hr, h1, by rw [abs_of_nonneg h0], ?_⟩
  rw [abs_of_nonneg h0] at h2
  linarith

theorem Near.mul_plus (hf : f.Std) {k l : ℝ} {a b r : ℚ} {x y X Y : ℝ} (ha : Near f k a x X)
    (hb : Near f l b y Y) (hk0 : 0 ≤ k) (hl0 : 0 ≤ l) (hk : k ≤ 1000) (hl : l ≤ 1000)
    (h : Flt.mul f (.fin a) (.fin b) = .fin r) :
    Near f (k + l + 4) r (x * y) (X * Y + 1) := by
  obtain ⟨hr, he⟩ := near_round hf (q := a * b) h
  have hX := ha.nonneg
  have hY := hb.nonneg
  have hP : 0 ≤ X * Y := mul_nonneg hX hY
  have hmag : |x * y| ≤ X * Y := by
    rw [abs_mul]; exact mul_le_mul ha.mag hb.mag (abs_nonneg _) hX
  refine ⟨hr, by linarith, ?_⟩
  have hu := u_pos f
  have hul := hf.u_le
  have h2 := ha.size'
  have h3 := hb.size'
  have h4 := ha.err
  have h5 := hb.err
  have e : (r : ℝ) - x * y = ((r : ℝ) - (a * b : ℚ)) + ((a : ℝ) - x) * b + x * ((b : ℝ) - y) := by
    push_cast; ring
  rw [e]
  have h6 := abs_add_le (((r : ℝ) - (a * b : ℚ)) + ((a : ℝ) - x) * b) (x * ((b : ℝ) - y))
  have h7 := abs_add_le ((r : ℝ) - (a * b : ℚ)) (((a : ℝ) - x) * b)
  rw [abs_mul] at h6 h7
  set P := X * Y with hPdef
  have hb2 : |(a : ℝ) - x| * |(b : ℝ)| ≤ (k * f.u) * (1 + l * f.u) * P := by
    calc |(a : ℝ) - x| * |(b : ℝ)| ≤ (k * f.u * X) * ((1 + l * f.u) * Y) :=
          mul_le_mul h4 h3 (abs_nonneg _) (by positivity)
      _ = _ := by rw [hPdef]; ring
  have hb3 : |x| * |(b : ℝ) - y| ≤ l * f.u * P := by
    calc |x| * |(b : ℝ) - y| ≤ X * (l * f.u * Y) := mul_le_mul ha.mag h5 (abs_nonneg _) hX
      _ = _ := by rw [hPdef]; ring
  have hab : |((a * b : ℚ) : ℝ)| ≤ (1 + k * f.u) * (1 + l * f.u) * P := by
    push_cast
    rw [abs_mul]
    calc |(a : ℝ)| * |(b : ℝ)| ≤ ((1 + k * f.u) * X) * ((1 + l * f.u) * Y) :=
          mul_le_mul h2 h3 (abs_nonneg _) (by positivity)
      _ = _ := by rw [hPdef]; ring
  have hη2 : (2 : ℝ) ^ f.emin ≤ f.u := by
    refine hf.eta_le.trans ?_
    have : f.u ^ 4 ≤ f.u ^ 1 := pow_le_pow_of_le_one hu.le (hul.trans (by norm_num)) (by norm_num)
    simpa using this
  have hku : k * f.u ≤ 1/10000 := by nlinarith
  have hlu : l * f.u ≤ 1/10000 := by nlinarith
  have hku0 : 0 ≤ k * f.u := by positivity
  have hlu0 : 0 ≤ l * f.u := by positivity
  have hkl : k * (l * f.u) ≤ 1/2 := by nlinarith
  have hcoef : (1 + k * f.u) * (1 + l * f.u) ≤ 2 := by nlinarith
  have hA : f.u * |((a * b : ℚ) : ℝ)| ≤ f.u * (2 * P) := by
    gcongr
    exact hab.trans (mul_le_mul_of_nonneg_right hcoef hP)
  have hB : (k * f.u) * (1 + l * f.u) * P ≤ (k + 1/2) * f.u * P := by
    apply mul_le_mul_of_nonneg_right _ hP
    nlinarith
  have hC : 0 ≤ f.u * P := by positivity
  nlinarith

theorem App.mul (hf : f.Std) {k l m : ℝ} {v w : FVal} {x X y Y : ℝ} (ha : App f k v x X)
    (hb : App f l w y Y) (hk : 0 ≤ k) (hl : 0 ≤ l) (hm : k + l + 4 ≤ m) (hm' : m ≤ 1000)
    (hB : X * Y ≤ 2 ^ 90) : App f m (Flt.mul f v w) (x * y) (X * Y + 1) := by
  obtain ⟨a, rfl, ha⟩ := ha
  obtain ⟨b, rfl, hb⟩ := hb
  have h1 := ha.size hf (by linarith)
  have h2 := hb.size hf (by linarith)
  have h3 : |(a : ℝ)| * |(b : ℝ)| ≤ (2 * X) * (2 * Y) :=
    mul_le_mul h1 h2 (abs_nonneg _) (by have := ha.nonneg; positivity)
  obtain ⟨r, hr⟩ := round_small hf (q := a * b) (rat_le (by
    push_cast
    rw [abs_mul]
    have : (2 : ℝ) ^ (100 : ℤ) = 1024 * 2 ^ 90 := by norm_num
    rw [this]
    nlinarith))
  exact ⟨r, hr, (Near.mul_plus hf ha hb hk hl (by linarith) (by linarith) hr).mono hm le_rfl
    (by positivity)⟩

/-- a product that keeps its relative accuracy -/
theorem App.mul_rel (hf : f.Std) {k l m : ℝ} {v w : FVal} {x X y Y : ℝ} (ha : App f k v x X)
    (hb : App f l w y Y) (hk : 0 ≤ k) (hl : 0 ≤ l) (hm : k + l + 4 ≤ m) (hm' : m ≤ 1000)
    (hη : f.u ^ 3 ≤ X * Y) (hB : X * Y ≤ 2 ^ 90) : App f m (Flt.mul f v w) (x * y) (X * Y) := by
  obtain ⟨a, rfl, ha⟩ := ha
  obtain ⟨b, rfl, hb⟩ := hb
  obtain ⟨r, hr, hn⟩ := Near.mul_ex hf ha hb hk hl (by linarith) (by linarith) hη hB
  exact ⟨r, hr, hn.mono hm le_rfl (by positivity)⟩

theorem App.div_rel (hf : f.Std) {k l m : ℝ} {v w : FVal} {x X y : ℝ} (ha : App f k v x X)
    (hb : App f l w y y) (hy : 0 < y) (hk : 0 ≤ k) (hl : 0 ≤ l) (hm : k + 2 * l + 6 ≤ m)
    (hm' : m ≤ 1000) (hη : f.u ^ 3 ≤ X / y) (hB : X / y ≤ 2 ^ 90) :
    App f m (Flt.div f v w) (x / y) (X / y) := by
  obtain ⟨a, rfl, ha⟩ := ha
  obtain ⟨b, rfl, hb⟩ := hb
  obtain ⟨r, hr, hn⟩ := Near.div_ex hf ha hb hy hk hl (by linarith) (by linarith) hη hB
  exact ⟨r, hr, hn.mono hm le_rfl (by positivity)⟩

theorem App.rescale {k c m : ℝ} {v : FVal} {x X X' : ℝ} (h : App f k v x X) (hk : 0 ≤ k)
    (hX : X ≤ c * X') (hx : |x| ≤ X') (hc : k * c ≤ m) (hc0 : 0 ≤ c) : App f m v x X' := by
  obtain ⟨r, h1, h2⟩ := h
  exact ⟨r, h1, (h2.rescale hk hX hx).mono hc le_rfl (by positivity)⟩

theorem App.ln (hf : f.Std) (hL : L.Accurate f) {k m : ℝ} {v : FVal} {x : ℝ} (h : App f k v x x)
    (hx : 0 < x) (hk : 0 ≤ k) (hm : 2 * k + 3 ≤ m) (hm' : m ≤ 1000) :
    App f m (Flt.ln L v) (Real.log x) (1 + |Real.log x|) := by
  obtain ⟨a, rfl, ha⟩ := h
  obtain ⟨r, hr, hn⟩ := Near.ln hf hL ha hx hk (by linarith)
  exact ⟨r, hr, hn.mono hm le_rfl (by positivity)⟩

theorem App.ln_exact (hf : f.Std) (hL : L.Accurate f) {q : ℚ} (h0 : 0 < q) (h : f.Representable q) :
    App f 2 (Flt.ln L (.fin q)) (Real.log q) |Real.log q| := by
  obtain ⟨r, hr, hn, -⟩ := near_ln_rep hf hL h0 h
  exact ⟨r, hr, hn⟩

/-! ### log-gamma -/

theorem log_gamma_diff {s t : ℝ} (hs : 0 < s) (hst : s < t) :
    (t - s) * Real.log s - (Real.log t - Real.log s) ≤
        Real.log (Real.Gamma t) - Real.log (Real.Gamma s) ∧
      Real.log (Real.Gamma t) - Real.log (Real.Gamma s) ≤ (t - s) * Real.log t := by
  have ht : 0 < t := hs.trans hst
  have hc := Real.convexOn_log_Gamma
  have e1 := StirlingReal.log_gamma_succ hs
  have e2 := StirlingReal.log_gamma_succ ht
  constructor
  · have := hc.slope_mono_adjacent (x := s) (y := s + 1) (z := t + 1) hs
      (show 0 < t + 1 by linarith) (by linarith) (by linarith)
    simp only [Function.comp] at this
    rw [e1, e2, show s + 1 - s = 1 by ring, div_one, le_div_iff₀ (by linarith)] at this
    have e3 : t + 1 - (s + 1) = t - s := by ring
    rw [e3] at this
    linarith
  · have := hc.slope_mono_adjacent (x := s) (y := t) (z := t + 1) hs
      (show 0 < t + 1 by linarith) hst (by linarith)
    simp only [Function.comp] at this
    rw [e2, show t + 1 - t = 1 by ring, div_one, div_le_iff₀ (by linarith)] at this
    linarith

/-- changing the argument by a relative `e` changes `ln Γ` by at most this much -/
theorem log_gamma_near {a x e : ℝ} (hx : 0 < x) (he : e ≤ 1/2) (h : |a - x| ≤ e * x) :
    0 < a ∧ |Real.log (Real.Gamma a) - Real.log (Real.Gamma x)| ≤
      2 * e * (1 + x * (1 + |Real.log x|)) := by
  obtain ⟨ha, hl⟩ := log_near hx he h
  refine ⟨ha, ?_⟩
  have he0 : 0 ≤ e := by
    by_contra hc
    have := abs_nonneg (a - x)
    nlinarith
  have hl2 : |Real.log a| ≤ |Real.log x| + 1 := by
    have := abs_sub_abs_le_abs_sub (Real.log a) (Real.log x)
    linarith
  have hA := abs_nonneg (Real.log x)
  have key : ∀ y : ℝ, |y| ≤ |Real.log x| + 1 → |a - x| * |y| ≤ e * x * (|Real.log x| + 1) :=
    fun y hy => mul_le_mul h hy (abs_nonneg _) (by positivity)
  have hex : 0 ≤ e * x * (|Real.log x| + 1) := by positivity
  have hla := le_abs_self (Real.log a)
  have hlx := le_abs_self (Real.log x)
  have hla' := neg_abs_le (Real.log a)
  have hlx' := neg_abs_le (Real.log x)
  have ka := key _ hl2
  have kx := key (Real.log x) (by linarith)
  rw [abs_le] at hl
  rcases lt_trichotomy a x with hlt | heq | hlt
  · obtain ⟨h1, h2⟩ := log_gamma_diff ha hlt
    rw [abs_of_neg (by linarith)] at ka kx
    have p1 : (x - a) * Real.log x ≤ -(a - x) * |Real.log x| := by nlinarith
    have p2 : -(-(a - x) * |Real.log a|) ≤ (x - a) * Real.log a := by nlinarith
    rw [abs_le]; constructor <;> linarith
  · subst heq; simp; positivity
  · obtain ⟨h1, h2⟩ := log_gamma_diff hx hlt
    rw [abs_of_pos (by linarith)] at ka kx
    have p1 : (a - x) * Real.log a ≤ (a - x) * |Real.log a| := by nlinarith
    have p2 : -((a - x) * |Real.log x|) ≤ (a - x) * Real.log x := by nlinarith
    rw [abs_le]; constructor <;> linarith

theorem two_pow_emax (hf : f.Std) : (2 : ℝ) ^ 127 ≤ 2 ^ (f.emax - 1) := by
  rw [← zpow_natCast]
  exact zpow_le_zpow_right₀ (by norm_num) (by have := hf.emax_ge; push_cast; omega)

theorem App.lnGamma_exact (hf : f.Std) (hG : L.GammaAccurate f) {q : ℚ} (h0 : 0 < q)
    (h : f.Representable q) (hB : |Real.log (Real.Gamma q)| ≤ 2 ^ 90) :
    App f 8 (L.lnGamma (.fin q)) (Real.log (Real.Gamma q)) (1 + |Real.log (Real.Gamma q)|) := by
  rcases hG q h0 h with ⟨r, hr, hrep, he⟩ | ⟨-, he⟩
  · exact ⟨r, hr, hrep, by linarith, he⟩
  · exfalso
    have := two_pow_emax hf
    have h1 := le_abs_self (Real.log (Real.Gamma q))
    have : (2 : ℝ) ^ 90 < 2 ^ 127 := by norm_num
    linarith

theorem App.lnGamma (hf : f.Std) (hG : L.GammaAccurate f) {k m : ℝ} {v : FVal} {x : ℝ}
    (h : App f k v x x) (hx : 0 < x) (hk : 0 ≤ k) (hm : 2 * k + 9 ≤ m) (hm' : m ≤ 1000)
    (hB : |Real.log (Real.Gamma x)| + x * (1 + |Real.log x|) ≤ 2 ^ 89) :
    App f m (L.lnGamma v) (Real.log (Real.Gamma x))
      (1 + |Real.log (Real.Gamma x)| + x * (1 + |Real.log x|)) := by
  obtain ⟨a, rfl, ha⟩ := h
  have hu := u_pos f
  have hul := hf.u_le
  have hku : k * f.u ≤ 1/10000 := by nlinarith
  have hku0 : 0 ≤ k * f.u := by positivity
  obtain ⟨ha0, hl⟩ := log_gamma_near hx (by linarith) ha.err
  have ha0' : 0 < a := by exact_mod_cast ha0
  set g := Real.log (Real.Gamma x) with hg
  set W := x * (1 + |Real.log x|) with hW
  have hW0 : 0 ≤ W := by positivity
  have hgn := abs_nonneg g
  have h1 := abs_sub_abs_le_abs_sub (Real.log (Real.Gamma a)) g
  have h2 : 2 * (k * f.u) * (1 + W) ≤ 1 / 8 * (1 + W) :=
    mul_le_mul_of_nonneg_right (by linarith) (by linarith)
  obtain ⟨r, hr, hn⟩ := App.lnGamma_exact hf hG ha0' ha.rep (by
    have : (2 : ℝ) ^ 90 = 2 * 2 ^ 89 := by norm_num
    have h3 : (1 : ℝ) ≤ 2 ^ 89 := by norm_num
    linarith)
  refine ⟨r, hr, hn.rep, by linarith, ?_⟩
  have h3 := abs_sub_le (r : ℝ) (Real.log (Real.Gamma a)) g
  have h4 := hn.err
  have h5 : 8 * f.u * (1 + |Real.log (Real.Gamma a)|) ≤ 8 * f.u * (1 + |g| + 1/8 * (1 + W)) :=
    mul_le_mul_of_nonneg_left (by linarith) (by positivity)
  have h6 : (2 * k + 9) * f.u * (1 + |g| + W) ≤ m * f.u * (1 + |g| + W) := by gcongr
  have h7 : 0 ≤ k * f.u * |g| := by positivity
  have h8 : 0 ≤ f.u * |g| := by positivity
  have h9 : 0 ≤ f.u * W := by positivity
  nlinarith

/-! ### a library with an accurate log-gamma function exists -/

theorem libm_gamma (hf : f.Std) (q : ℚ) (h : |Real.log (Real.Gamma q)| < 2 ^ (f.emax - 1)) :
    ∃ r : ℚ, f.Representable r ∧
      |(r : ℝ) - Real.log (Real.Gamma q)| ≤ 8 * f.u * (1 + |Real.log (Real.Gamma q)|) := by
  have hu := u_pos f
  have hul := hf.u_le
  set y := Real.log (Real.Gamma q) with hy
  rcases eq_or_ne y 0 with h0 | h0
  · exact ⟨0, f.rep_zero, by rw [h0]; simp; positivity⟩
  obtain ⟨r, hr, he⟩ := exists_near hf (abs_pos.mpr h0) h.le
  have hη2 : (2 : ℝ) ^ f.emin ≤ f.u := by
    refine hf.eta_le.trans ?_
    have : f.u ^ 4 ≤ f.u ^ 1 := pow_le_pow_of_le_one hu.le (hul.trans (by norm_num)) (by norm_num)
    simpa using this
  have hp : 0 ≤ f.u * |y| := by positivity
  have he2 : |(r : ℝ) - (|y|)| ≤ 8 * f.u * (1 + |y|) := by linarith
  rcases abs_choice y with hc | hc
  · exact ⟨r, hr, by rw [hc] at he2 ⊢; exact he2⟩
  · refine ⟨-r, rep_neg hr, ?_⟩
    have : ((-r : ℚ) : ℝ) - y = -((r : ℝ) - (|y|)) := by rw [hc]; push_cast; ring
    rw [this, abs_neg]; exact he2

open Classical in
/-- There is an accurate library, log-gamma included, for both formats. -/
theorem exists_libm_gamma (hf : f.Std) : ∃ L : Libm, L.Accurate f ∧ L.GammaAccurate f := by
  obtain ⟨L, hL⟩ := exists_libm hf
  refine ⟨{ L with lnGamma := fun v => match v with
    | .fin q => if h : |Real.log (Real.Gamma q)| < 2 ^ (f.emax - 1)
        then .fin (libm_gamma hf q h).choose else .inf false
    | _ => .nan }, ⟨hL.ln, hL.exp⟩, ?_⟩
  intro q h0 hr
  by_cases h : |Real.log (Real.Gamma q)| < 2 ^ (f.emax - 1)
  · left
    have := (libm_gamma hf q h).choose_spec
    exact ⟨_, dif_pos h, this.1, this.2⟩
  · right
    refine ⟨dif_neg h, ?_⟩
    rw [not_lt, le_abs] at h
    rcases h with h | h
    · exact h
    · exfalso
      have hq : (0 : ℝ) < q := by exact_mod_cast h0
      have h2 := (StirlingReal.log_gamma_bounds hq).1
      unfold StirlingReal.S at h2
      have h3 := log_rep_le hf h0 hr
      have h4 := two_pow_emax hf
      have h5 := Real.add_one_le_exp (Real.log q)
      obtain ⟨b0, -⟩ := log_two_pi_bounds
      -- `q ln q - q ≥ -1`
      have h6 : -1 ≤ (q : ℝ) * Real.log q - q := by
        have := Real.one_sub_inv_le_log_of_pos hq
        have h7 := mul_le_mul_of_nonneg_left this hq.le
        rw [mul_sub, mul_inv_cancel₀ hq.ne'] at h7
        linarith
      have h8 := (abs_le.mp h3).2
      have h9 : (2 : ℝ) ^ 127 > 1000 := by norm_num
      linarith
end Verif
