import Verif.Spec.DoubleMonotone
import Verif.Lemmas.FltOrder
import Verif.Lemmas.LibmExists
import Verif.Props.DoubleCauchy
import Verif.Props.DoubleSum
import Verif.Props.DoubleDiscrete
import Verif.Props.DoubleExpFam
import Verif.Props.Convert

/-!
# C111: computed log-densities are ordered as the densities are
-/

namespace Verif
open Format FloatOps ExponentialFamily

variable {f : Format} {L : Libm}

namespace Flt

theorem abs_cases (a : FVal) : Flt.abs a = a ∨ Flt.abs a = Flt.neg a := by
  cases a with
  | nan => left; rfl
  | inf s => cases s <;> simp [Flt.abs, Flt.neg]
  | fin q => rcases abs_choice q with h | h <;> simp [Flt.abs, Flt.neg, h]

theorem mul_comm' (a b : FVal) : Flt.mul f a b = Flt.mul f b a := by
  cases a <;> cases b <;> simp [Flt.mul, mul_comm]
  all_goals (try (rename_i s t; cases s <;> cases t <;> simp))

theorem neg_neg' (a : FVal) : Flt.neg (Flt.neg a) = a := by
  cases a <;> simp [Flt.neg]

theorem sq_abs' (c z : FVal) : Flt.mul f (Flt.mul f c (Flt.abs z)) (Flt.abs z) =
    Flt.mul f (Flt.mul f c z) z := by
  rcases abs_cases z with h | h
  · rw [h]
  · rw [h, mul_comm' c, mul_neg_left, mul_neg_left, mul_comm' _ (Flt.neg z), mul_neg_left, neg_neg',
      mul_comm' z c, mul_comm' z]

theorem sqr_abs' (z : FVal) : Flt.mul f (Flt.abs z) (Flt.abs z) = Flt.mul f z z := by
  rcases abs_cases z with h | h
  · rw [h]
  · rw [h, mul_neg_left, mul_comm' _ (Flt.neg z), mul_neg_left, neg_neg']

theorem nonneg_cases {x : FVal} (h : Flt.le (.fin 0) x = true) : x = .inf false ∨ ∃ q, 0 ≤ q ∧ x = .fin q := by
  cases x with
  | nan => simp [Flt.le] at h
  | inf s => left; cases s <;> simp_all [Flt.le]
  | fin q => right; exact ⟨q, le_fin.mp h, rfl⟩

theorem round_nonneg (hp : 1 ≤ f.prec) {q : ℚ} (h : 0 ≤ q) : Flt.le (.fin 0) (f.round q) = true := by
  have := round_mono (f := f) hp h
  rwa [f.round_exact f.rep_zero] at this

theorem round_ne_nan (q : ℚ) : f.round q ≠ .nan := by
  rcases f.round_cases q with ⟨r, h⟩ | h <;> rw [h] <;> simp

/-- a positive number times a nonnegative one -/
theorem mul_pos_ne_nan {c : ℚ} (hc : c ≠ 0) {z : FVal} (hz : z ≠ .nan) : Flt.mul f (.fin c) z ≠ .nan := by
  cases z with
  | nan => exact absurd rfl hz
  | inf s => simp [Flt.mul, hc]
  | fin q => exact round_ne_nan _

theorem quad_ne_nan {c : ℚ} (hc : c ≠ 0) {z : FVal} (hz : z ≠ .nan) :
    Flt.mul f (Flt.mul f (.fin c) z) z ≠ .nan := by
  cases z with
  | nan => exact absurd rfl hz
  | inf s => simp [Flt.mul, hc]
  | fin q =>
    show Flt.mul f (f.round (c * q)) (.fin q) ≠ .nan
    by_cases hq : q = 0
    · subst hq
      rw [mul_zero, f.round_exact f.rep_zero]
      exact round_ne_nan _
    · rcases f.round_cases (c * q) with ⟨r, h⟩ | h <;> rw [h]
      · exact round_ne_nan _
      · simp [Flt.mul, hq]

theorem sqr_ne_nan {z : FVal} (hz : z ≠ .nan) : Flt.mul f z z ≠ .nan := by
  cases z with
  | nan => exact absurd rfl hz
  | inf s => simp [Flt.mul]
  | fin q => exact round_ne_nan _

theorem fin_sub_ne_nan {k : ℚ} {z : FVal} (hz : z ≠ .nan) : Flt.sub f (.fin k) z ≠ .nan := by
  cases z with
  | nan => exact absurd rfl hz
  | inf s => simp [Flt.sub, Flt.neg, Flt.add]
  | fin q => exact round_ne_nan _

theorem fin_add_ne_nan {k : ℚ} {z : FVal} (hz : z ≠ .nan) : Flt.add f (.fin k) z ≠ .nan := by
  cases z with
  | nan => exact absurd rfl hz
  | inf s => simp [Flt.add]
  | fin q => exact round_ne_nan _

/-- the absolute standard score -/
theorem score_mono (hp : 1 ≤ f.prec) {μ σ x y : ℚ} (hσ : 0 < σ) (h : |x - μ| ≤ |y - μ|) :
    let z := fun a : ℚ => Flt.abs (Flt.div f (Flt.sub f (.fin a) (.fin μ)) (.fin σ))
    Flt.le (.fin 0) (z x) = true ∧ Flt.le (z x) (z y) = true := by
  intro z
  have e : ∀ a, z a = Flt.div f (f.round |a - μ|) (.fin σ) := fun a => by
    show Flt.abs _ = _
    rw [← div_abs _ hσ, sub_abs]
  rw [e, e]
  refine ⟨?_, div_le_div hp hσ (round_mono hp h)⟩
  have := div_le_div hp hσ (round_nonneg (f := f) hp (abs_nonneg (x - μ)))
  have e0 : Flt.div f (.fin 0) (.fin σ) = .fin 0 := by
    show (if σ = 0 then _ else _) = _
    rw [if_neg hσ.ne', zero_div, f.round_exact f.rep_zero]
  rwa [e0] at this

theorem quad_mono (hp : 1 ≤ f.prec) {c : ℚ} (hc : 0 < c) {a b : FVal} (h0 : Flt.le (.fin 0) a = true)
    (h : Flt.le a b = true) :
    Flt.le (Flt.mul f (Flt.mul f (.fin c) a) a) (Flt.mul f (Flt.mul f (.fin c) b) b) = true := by
  have na := le_ne_nan_right h0
  have nb := le_ne_nan_right h
  have hc' : Flt.le (.fin 0) (.fin c) = true := le_fin.mpr hc.le
  have m0 : Flt.mul f (.fin c) (.fin 0) = .fin 0 := by
    show f.round (c * 0) = _
    rw [mul_zero, f.round_exact f.rep_zero]
  have h1 := mul_le_mul hp hc' (le_refl (by simp)) h0 h (mul_pos_ne_nan hc.ne' na) (mul_pos_ne_nan hc.ne' nb)
  have h2 := mul_le_mul hp hc' (le_refl (by simp)) (le_fin.mpr le_rfl) h0 (by rw [m0]; simp)
    (mul_pos_ne_nan hc.ne' na)
  rw [m0] at h2
  exact mul_le_mul hp h2 h1 h0 h (quad_ne_nan hc.ne' na) (quad_ne_nan hc.ne' nb)

theorem sqr_mono (hp : 1 ≤ f.prec) {a b : FVal} (h0 : Flt.le (.fin 0) a = true) (h : Flt.le a b = true) :
    Flt.le (Flt.mul f a a) (Flt.mul f b b) = true :=
  mul_le_mul hp h0 h h0 h (sqr_ne_nan (le_ne_nan_right h0)) (sqr_ne_nan (le_ne_nan_right h))

theorem sqr_nonneg (hp : 1 ≤ f.prec) {a : FVal} (h0 : Flt.le (.fin 0) a = true) :
    Flt.le (.fin 0) (Flt.mul f a a) = true := by
  have := sqr_mono hp (le_fin.mpr (_root_.le_refl (0 : ℚ))) h0
  have e : Flt.mul f (.fin 0) (.fin 0) = .fin 0 := by
    show f.round (0 * 0) = _
    rw [mul_zero, f.round_exact f.rep_zero]
  rwa [e] at this

theorem sum_nan_left (xs : List FVal) : xs.foldl (Flt.add f) .nan = .nan := by
  induction xs with
  | nil => rfl
  | cons x xs ih => exact ih

theorem foldl_add_mono (hp : 1 ≤ f.prec) {as bs : List FVal}
    (h : List.Forall₂ (fun a b => Flt.le a b = true) as bs) :
    ∀ {s t : FVal}, Flt.le s t = true → as.foldl (Flt.add f) s ≠ .nan → bs.foldl (Flt.add f) t ≠ .nan →
      Flt.le (as.foldl (Flt.add f) s) (bs.foldl (Flt.add f) t) = true := by
  induction h with
  | nil => intro s t h _ _; exact h
  | cons hab _ ih =>
    intro s t h n1 n2
    simp only [List.foldl_cons] at n1 n2 ⊢
    refine ih (add_le_add hp h hab ?_ ?_) n1 n2
    · intro e; rw [e, sum_nan_left] at n1; exact n1 rfl
    · intro e; rw [e, sum_nan_left] at n2; exact n2 rfl

theorem forall₂_map_map {α β γ : Type} {R : α → α → Prop} {S : γ → γ → Prop} {xs ys : List α} (u : α → β)
    (g : β → γ) (h : List.Forall₂ R xs ys) (hg : ∀ x y, R x y → S (g (u y)) (g (u x))) :
    List.Forall₂ S ((ys.map u).map g) ((xs.map u).map g) := by
  induction h with
  | nil => exact .nil
  | cons hab _ ih => exact .cons (hg _ _ hab) ih

theorem add_ne_nan {a b : FVal} (h : Flt.add f a b ≠ .nan) : a ≠ .nan ∧ b ≠ .nan := by
  refine ⟨?_, ?_⟩
  · rintro rfl; exact h (by cases b <;> rfl)
  · rintro rfl; exact h (by cases a <;> rfl)

theorem mul_ne_nan {a b : FVal} (h : Flt.mul f a b ≠ .nan) : a ≠ .nan ∧ b ≠ .nan := by
  refine ⟨?_, ?_⟩
  · rintro rfl; exact h (by cases b <;> rfl)
  · rintro rfl; exact h (by cases a <;> rfl)

theorem neg_ne_nan {a : FVal} (h : Flt.neg a ≠ .nan) : a ≠ .nan := by rintro rfl; exact h rfl

end Flt

open Flt

/-! ### Normal -/

theorem normal_const (hf : f.Std) (hL : L.Accurate f) {σ : ℚ} (hσ0 : 0 < σ) (hσ : f.Representable σ) :
    ∃ k, Flt.sub f (Flt.mul f (Flt.neg (f.round (1/2)))
      (Flt.ln L (Flt.mul f (f.round 2) (f.round Flt.piLit)))) (Flt.ln L (.fin σ)) = .fin k := by
  obtain ⟨c, hc, hcn⟩ := near_const hf hL
  obtain ⟨l, hl, -, hl2⟩ := near_ln_rep hf hL hσ0 hσ
  obtain ⟨b0, b4⟩ := log_two_pi_bounds
  have hcsz := hcn.size hf (by norm_num)
  have hcl : |(c : ℝ) - l| ≤ 2 ^ (12 : ℤ) := by
    have := abs_sub (c : ℝ) l
    norm_num
    linarith
  have hcl' : |c - l| ≤ (2 : ℚ) ^ (12 : ℤ) := rat_le (by push_cast; exact hcl)
  obtain ⟨t, ht, -⟩ := f.round_le (prec1 hf) hcl' (by have := hf.emin_le; omega)
    (by have := hf.emax_ge; omega)
  exact ⟨t, by rw [hc, hl, sub_fin, ht]⟩

/-- **C111** (Normal): of two points the one nearer to the mean has the greater or equal computed
log-density, for all parameters and points. -/
theorem C111_normal (hf : f.Std) (hL : L.Accurate f) {μ σ : ℚ} (hσ : f.Representable σ)
    {d : Normal (Flt f L)} (h : Normal.new (Flt.fin μ) (Flt.fin σ) = .ok d) {x y : ℚ}
    (hxy : |x - μ| ≤ |y - μ|) :
    FloatOps.le (logDensityWrtRoot d (Flt.fin y) : Flt f L) (logDensityWrtRoot d (Flt.fin x)) = true := by
  obtain ⟨hσ0, rfl⟩ := Normal.new_flt h
  have hp := prec1 hf
  obtain ⟨k, hk⟩ := normal_const hf hL hσ0 hσ
  show Flt.le _ _ = true
  rw [normal_flt, normal_flt, hk, round_half hf]
  obtain ⟨h0, hm⟩ := score_mono (f := f) hp hσ0 hxy
  have hq := quad_mono (f := f) hp (c := 1/2) (by norm_num) h0 hm
  rw [sq_abs', sq_abs'] at hq
  exact sub_le_sub hp (le_refl (by simp)) hq (fin_sub_ne_nan (le_ne_nan_right hq))
    (fin_sub_ne_nan (le_ne_nan_left hq))

/-- Infinite points get `-∞`, the least of all. -/
theorem C111_normal_infinite (hf : f.Std) (hL : L.Accurate f) {μ σ : ℚ} (hσ : f.Representable σ)
    {d : Normal (Flt f L)} (h : Normal.new (Flt.fin μ) (Flt.fin σ) = .ok d) :
    logDensityWrtRoot d (Flt.posInf (f := f) (L := L)) = Flt.negInf (f := f) (L := L) ∧
    logDensityWrtRoot d (Flt.negInf (f := f) (L := L)) = Flt.negInf (f := f) (L := L) := by
  obtain ⟨hσ0, rfl⟩ := Normal.new_flt h
  obtain ⟨k, hk⟩ := normal_const hf hL hσ0 hσ
  rw [normal_flt, normal_flt, hk, round_half hf]
  constructor <;> (simp [Flt.sub, Flt.neg, Flt.add, Flt.div, Flt.mul] ; norm_num; rfl)

/-- The computed log-density is symmetric about the mean, exactly. -/
theorem C111_normal_symmetric (hf : f.Std) (hL : L.Accurate f) {μ σ : ℚ} (hσ : f.Representable σ)
    {d : Normal (Flt f L)} (h : Normal.new (Flt.fin μ) (Flt.fin σ) = .ok d) (t : ℚ) :
    (logDensityWrtRoot d (Flt.fin (μ + t)) : Flt f L) = logDensityWrtRoot d (Flt.fin (μ - t)) := by
  have e : |μ + t - μ| = |μ - t - μ| := by
    rw [show μ - t - μ = -(μ + t - μ) by ring, abs_neg]
  exact Flt.le_antisymm (C111_normal hf hL hσ h e.ge) (C111_normal hf hL hσ h e.le)

/-- **C111** (Normal, samples): moving every sample nearer to the mean does not lower the computed
joint log-density, unless one of the two sums is NaN. -/
theorem C111_normal_iid (hf : f.Std) {μ σ : ℚ} {d : Normal (Flt f L)}
    (h : Normal.new (Flt.fin μ) (Flt.fin σ) = .ok d) {xs ys : List ℚ}
    (hxy : List.Forall₂ (fun x y => |x - μ| ≤ |y - μ|) xs ys)
    (hx : d.logDensityIid (xs.map Flt.fin) ≠ Flt.nan (f := f) (L := L))
    (hy : d.logDensityIid (ys.map Flt.fin) ≠ Flt.nan (f := f) (L := L)) :
    FloatOps.le (d.logDensityIid (ys.map Flt.fin)) (d.logDensityIid (xs.map Flt.fin) : Flt f L) = true := by
  obtain ⟨hσ0, rfl⟩ := Normal.new_flt h
  have hp := prec1 hf
  rw [normal_iid_flt] at hx hy ⊢
  rw [normal_iid_flt]
  simp only [List.length_map, ← hxy.length_eq, List.map_map] at hx hy ⊢
  have hcst : (ys.map ((fun _ : Flt f L => FVal.fin 0) ∘ Flt.fin (f := f) (L := L))) =
      xs.map ((fun _ : Flt f L => FVal.fin 0) ∘ Flt.fin (f := f) (L := L)) := by
    have e : ((fun _ : Flt f L => FVal.fin 0) ∘ Flt.fin (f := f) (L := L)) = fun _ => FVal.fin 0 := rfl
    rw [e, List.map_const', List.map_const', hxy.length_eq]
  rw [hcst] at hy ⊢
  have x1 := Flt.add_ne_nan hx
  have x2 := Flt.add_ne_nan x1.1
  have y1 := Flt.add_ne_nan hy
  have y2 := Flt.add_ne_nan y1.1
  refine add_le_add hp (add_le_add hp (le_refl x2.1) (foldl_add_mono hp ?_ (le_refl (by simp)) y2.2 x2.2)
    y1.1 x1.1) (le_refl x1.2) hy hx
  refine forall₂_map_map _ _ hxy fun x y hyx => ?_
  obtain ⟨h0, hm⟩ := score_mono (f := f) hp hσ0 hyx
  have hq := quad_mono (f := f) hp (c := 1/2) (by norm_num) h0 hm
  rw [sq_abs', sq_abs'] at hq
  have hq' := neg_le_neg hq
  rw [← mul_neg_left, ← mul_neg_left, ← mul_neg_left, ← mul_neg_left, ← round_half hf] at hq'
  exact add_le_add hp (le_refl (by simp)) hq' (fin_add_ne_nan (le_ne_nan_left hq'))
    (fin_add_ne_nan (le_ne_nan_right hq'))

/-- Neither sum is NaN for numbers of the format and up to `1/(1000u)` samples. -/
theorem C111_normal_iid_bounded (hf : f.Std) (hL : L.Accurate f) {μ σ : ℚ} (hμ : f.Representable μ)
    (hσ : f.Representable σ) {d : Normal (Flt f L)} (h : Normal.new (Flt.fin μ) (Flt.fin σ) = .ok d)
    {xs ys : List ℚ} (hx : ∀ x ∈ xs, f.Representable x) (hy : ∀ y ∈ ys, f.Representable y)
    (hxe : xs ≠ []) (hn : xs.length * f.u ≤ 1/1000)
    (hxy : List.Forall₂ (fun x y => |x - μ| ≤ |y - μ|) xs ys) :
    FloatOps.le (d.logDensityIid (ys.map Flt.fin)) (d.logDensityIid (xs.map Flt.fin) : Flt f L) = true := by
  have key : ∀ zs : List ℚ, (∀ z ∈ zs, f.Representable z) → zs ≠ [] → zs.length * f.u ≤ 1/1000 →
      d.logDensityIid (zs.map Flt.fin) ≠ Flt.nan (f := f) (L := L) := by
    intro zs hz hne hlen e
    rcases C91_normal_iid hf hL hμ hσ hz hne hlen h with ⟨r, hr, -⟩ | ⟨hr, -⟩
    · rw [e] at hr; cases hr
    · rw [e] at hr; cases hr
  have hye : ys ≠ [] := by
    intro e; subst e; cases hxy; exact hxe rfl
  exact C111_normal_iid hf h hxy (key xs hx hxe hn) (key ys hy hye (by rw [← hxy.length_eq]; exact hn))

/-! ### sums over samples in general -/

/-- **C111** (IID): for every distribution, if each sample of one list has a computed log-density at
least that of its counterpart in the other, then so has the sum over the list, unless one of the two
sums is NaN. -/
theorem C111_iid (hf : f.Std) {D X : Type} [HasLogDensity D X (Flt f L)] (m : IID D) {xs ys : List X}
    (hxy : List.Forall₂ (fun x y => FloatOps.le (logDensityWrtRoot m.distribution x : Flt f L)
      (logDensityWrtRoot m.distribution y) = true) xs ys)
    (hx : m.iidLogDensityFallback xs ≠ Flt.nan (f := f) (L := L))
    (hy : m.iidLogDensityFallback ys ≠ Flt.nan (f := f) (L := L)) :
    FloatOps.le (m.iidLogDensityFallback xs : Flt f L) (m.iidLogDensityFallback ys) = true := by
  refine foldl_add_mono (prec1 hf) (f := f) ?_ (le_refl (a := .fin 0) (by simp)) hx hy
  clear hx hy
  induction hxy with
  | nil => exact .nil
  | cons hab _ ih => exact .cons hab ih

/-! ### Exponential -/

/-- **C111** (Exponential): the computed log-density never increases from zero on, and is `-∞` below. -/
theorem C111_exponential (hf : f.Std) (hL : L.Accurate f) {r : ℚ} (hr : f.Representable r)
    {d : Exponential (Flt f L)} (h : Exponential.new (Flt.fin r) = .ok d) {x y : ℚ} (hx : 0 ≤ x)
    (hxy : x ≤ y ∨ y < 0) :
    FloatOps.le (logDensityWrtRoot d (Flt.fin y) : Flt f L) (logDensityWrtRoot d (Flt.fin x)) = true := by
  obtain ⟨hr0, rfl⟩ := Exponential.new_flt h
  have hp := prec1 hf
  obtain ⟨l, hl, -, -⟩ := near_ln_rep hf hL hr0 hr
  show Flt.le _ _ = true
  rw [exponential_flt, exponential_flt, if_pos hx, hl]
  have nn : ∀ a : ℚ, Flt.mul f (.fin r) (.fin a) ≠ .nan := fun a => round_ne_nan _
  rcases hxy with hxy | hy
  · rw [if_pos (hx.trans hxy)]
    refine sub_le_sub hp (le_refl (by simp)) ?_ (fin_sub_ne_nan (nn _)) (fin_sub_ne_nan (nn _))
    exact round_mono hp (mul_le_mul_of_nonneg_left hxy hr0.le)
  · rw [if_neg (not_le.mpr hy)]
    exact negInf_le (fin_sub_ne_nan (nn _))

/-! ### Cauchy -/

theorem round_valid (hf : f.Std) (q : ℚ) : f.Valid (f.round q) := by
  rcases f.round_cases q with ⟨r, h⟩ | h
  · rw [h]; exact (near_round hf h).1
  · rw [h]; trivial

theorem add_valid (hf : f.Std) (a b : FVal) : f.Valid (Flt.add f a b) := by
  cases a <;> cases b <;> simp only [Flt.add]
  all_goals first
    | exact round_valid hf _
    | (split_ifs <;> trivial)
    | trivial

theorem ln_mono (hf : f.Std) (hL : L.Accurate f) (hM : L.LnMonotone f) {a b : FVal} (va : f.Valid a) (vb : f.Valid b)
    (h1 : Flt.le (.fin 1) a = true) (h : Flt.le a b = true) :
    Flt.le (Flt.ln L a) (Flt.ln L b) = true ∧ Flt.le (.fin 0) (Flt.ln L a) = true := by
  cases a with
  | nan => simp [Flt.le] at h
  | inf s =>
    cases s
    · cases b with
      | nan => simp [Flt.le] at h
      | inf t => cases t <;> simp_all [Flt.le, Flt.ln]
      | fin q => simp [Flt.le] at h
    · simp [Flt.le] at h1
  | fin p =>
    have hp1 : 1 ≤ p := le_fin.mp h1
    have hp0 : 0 < p := by linarith
    obtain ⟨r, hr, -, he⟩ := hL.ln p hp0 va
    have hlr : Flt.ln L (.fin p) = .fin r := by simp only [Flt.ln, if_pos hp0, hr]
    have hlog : 0 ≤ Real.log p := Real.log_nonneg (by exact_mod_cast hp1)
    refine ⟨?_, ?_⟩
    · cases b with
      | nan => simp [Flt.le] at h
      | inf t =>
        cases t
        · rw [hlr]; rfl
        · simp [Flt.le] at h
      | fin q =>
        have hpq := le_fin.mp h
        have hq0 : 0 < q := by linarith
        simp only [Flt.ln, if_pos hp0, if_pos hq0]
        exact hM p q hp0 hpq va vb
    · rw [hlr]
      refine le_fin.mpr ?_
      rw [abs_of_nonneg hlog] at he
      have hu := hf.u_le
      have : (0 : ℝ) ≤ r := by
        have h3 := (abs_le.mp he).1
        have h4 : 2 * f.u * Real.log p ≤ 1 * Real.log p :=
          mul_le_mul_of_nonneg_right (by norm_num at hu ⊢; linarith) hlog
        linarith
      exact_mod_cast this

/-- `1 + z²` -/
theorem one_add_sqr_mono (hf : f.Std) {a b : FVal} (h0 : Flt.le (.fin 0) a = true) (h : Flt.le a b = true) :
    Flt.le (.fin 1) (Flt.add f (.fin 1) a) = true ∧
    Flt.le (Flt.add f (.fin 1) a) (Flt.add f (.fin 1) b) = true := by
  have hp := prec1 hf
  have na := le_ne_nan_right h0
  have nb := le_ne_nan_right h
  refine ⟨?_, add_le_add hp (le_refl (by simp)) h (fin_add_ne_nan na) (fin_add_ne_nan nb)⟩
  have := add_le_add (f := f) hp (le_refl (a := .fin 1) (by simp)) h0 (fin_add_ne_nan (by simp)) (fin_add_ne_nan na)
  have e : Flt.add f (.fin 1) (.fin 0) = .fin 1 := by
    show f.round (1 + 0) = _
    rw [add_zero, f.round_exact hf.rep_one]
  rwa [e] at this

/-- **C111** (Cauchy): with a library logarithm that never decreases, of two points the one nearer to
the location has the greater or equal computed log-density. -/
theorem C111_cauchy (hf : f.Std) (hL : L.Accurate f) (hM : L.LnMonotone f) {l s : ℚ}
    (hs : f.Representable s) {d : Cauchy (Flt f L)} (h : Cauchy.new (Flt.fin l) (Flt.fin s) = .ok d)
    {x y : ℚ} (hxy : |x - l| ≤ |y - l|) :
    FloatOps.le (logDensityWrtRoot d (Flt.fin y) : Flt f L) (logDensityWrtRoot d (Flt.fin x)) = true := by
  obtain ⟨hs0, rfl⟩ := Cauchy.new_flt h
  have hp := prec1 hf
  obtain ⟨c, hc, -⟩ := near_ln_pi hf hL
  obtain ⟨g, hg, -, -⟩ := near_ln_rep hf hL hs0 hs
  show Flt.le _ _ = true
  rw [cauchy_flt, cauchy_flt, hc, hg]
  obtain ⟨h0, hm⟩ := score_mono (f := f) hp hs0 hxy
  have hq := sqr_mono hp h0 hm
  have hq0 := sqr_nonneg hp h0
  rw [sqr_abs'] at hq hq0
  rw [sqr_abs'] at hq
  obtain ⟨h1, h2⟩ := one_add_sqr_mono hf hq0 hq
  obtain ⟨h3, -⟩ := ln_mono hf hL hM (add_valid hf _ _) (add_valid hf _ _) h1 h2
  have h4 := neg_le_neg h3
  have nn : ∀ {w : FVal} {k : ℚ}, w ≠ .nan → Flt.sub f w (.fin k) ≠ .nan := by
    intro w k hw
    cases w with
    | nan => exact absurd rfl hw
    | inf s => simp [Flt.sub, Flt.neg, Flt.add]
    | fin q => exact round_ne_nan _
  have n1 := nn (k := g) (le_ne_nan_left h4)
  have n2 := nn (k := g) (le_ne_nan_right h4)
  exact sub_le_sub hp (sub_le_sub hp h4 (le_refl (by simp)) n1 n2) (le_refl (by simp)) (nn n1) (nn n2)

theorem cauchy_iid_flt (l s : Flt f L) (xs : List (Flt f L)) :
    (Cauchy.logDensityIid ⟨l, s⟩ xs : Flt f L) =
      Flt.add f (Flt.add f (Flt.add f ((xs.map fun _ => FVal.fin 0).foldl (Flt.add f) (.fin 0))
          (Flt.mul f (f.round xs.length) (Flt.add f (.fin 0) (Flt.neg (Flt.ln L s)))))
        ((xs.map fun x => Flt.add f (.fin 0) (Flt.neg (Flt.ln L (Flt.add f (.fin 1)
          (Flt.mul f (Flt.div f (Flt.sub f x l) s) (Flt.div f (Flt.sub f x l) s)))))).foldl
            (Flt.add f) (.fin 0)))
        (Flt.mul f (f.round xs.length) (Flt.add f (.fin 0) (Flt.neg (Flt.ln L (f.round Flt.piLit))))) := by
  simp only [Cauchy.logDensityIid, Decomposition.evaluateIid, Cauchy.decomposition,
    Decomposition.addConstant, Decomposition.addParamTerm, Decomposition.addMixedTerm,
    Decomposition.new, Cauchy.params, FloatOps.sum, List.map_cons, List.map_nil, List.foldl_cons,
    List.foldl_nil, List.nil_append, FloatOps.ofNat]
  rfl

/-- **C111** (Cauchy, samples): moving every sample nearer to the location does not lower the computed
joint log-density, unless one of the two sums is NaN. -/
theorem C111_cauchy_iid (hf : f.Std) (hL : L.Accurate f) (hM : L.LnMonotone f) {l s : ℚ}
    {d : Cauchy (Flt f L)} (h : Cauchy.new (Flt.fin l) (Flt.fin s) = .ok d) {xs ys : List ℚ}
    (hxy : List.Forall₂ (fun x y => |x - l| ≤ |y - l|) xs ys)
    (hx : d.logDensityIid (xs.map Flt.fin) ≠ Flt.nan (f := f) (L := L))
    (hy : d.logDensityIid (ys.map Flt.fin) ≠ Flt.nan (f := f) (L := L)) :
    FloatOps.le (d.logDensityIid (ys.map Flt.fin)) (d.logDensityIid (xs.map Flt.fin) : Flt f L) = true := by
  obtain ⟨hs0, rfl⟩ := Cauchy.new_flt h
  have hp := prec1 hf
  rw [cauchy_iid_flt] at hx hy ⊢
  rw [cauchy_iid_flt]
  rw [sum_zeros] at hx hy ⊢
  rw [sum_zeros]
  simp only [List.length_map, ← hxy.length_eq] at hx hy ⊢
  have x1 := Flt.add_ne_nan hx
  have x2 := Flt.add_ne_nan x1.1
  have y1 := Flt.add_ne_nan hy
  have y2 := Flt.add_ne_nan y1.1
  refine add_le_add hp (add_le_add hp (le_refl x2.1) (foldl_add_mono hp ?_ (le_refl (by simp)) y2.2 x2.2)
    y1.1 x1.1) (le_refl x1.2) hy hx
  refine forall₂_map_map _ _ hxy fun x y hyx => ?_
  obtain ⟨h0, hm⟩ := score_mono (f := f) hp hs0 hyx
  have hq := sqr_mono hp h0 hm
  have hq0 := sqr_nonneg hp h0
  rw [sqr_abs'] at hq hq0
  rw [sqr_abs'] at hq
  obtain ⟨h1, h2⟩ := one_add_sqr_mono hf hq0 hq
  obtain ⟨h3, -⟩ := ln_mono hf hL hM (add_valid hf _ _) (add_valid hf _ _) h1 h2
  have hq' := neg_le_neg h3
  exact add_le_add hp (le_refl (by simp)) hq' (fin_add_ne_nan (le_ne_nan_left hq'))
    (fin_add_ne_nan (le_ne_nan_right hq'))

/-! ### Student's t -/

/-- **C111** (Student-t): with a library logarithm that never decreases, of two points the one nearer
to zero has the greater or equal computed log-density, unless one of the two is NaN. -/
theorem C111_student_t (hf : f.Std) (hL : L.Accurate f) (hM : L.LnMonotone f) {ν : ℚ}
    {d : StudentT (Flt f L)} (h : StudentT.new (Flt.fin ν) = .ok d) {x y : ℚ} (hxy : |x| ≤ |y|)
    (hx : logDensityWrtRoot d (Flt.fin x) ≠ Flt.nan (f := f) (L := L))
    (hy : logDensityWrtRoot d (Flt.fin y) ≠ Flt.nan (f := f) (L := L)) :
    FloatOps.le (logDensityWrtRoot d (Flt.fin y) : Flt f L) (logDensityWrtRoot d (Flt.fin x)) = true := by
  obtain ⟨hν0, rfl⟩ := StudentT.new_flt h
  have hp := prec1 hf
  rw [student_flt] at hx hy
  show Flt.le _ _ = true
  rw [student_flt, student_flt]
  have x1 := Flt.add_ne_nan hx
  have y1 := Flt.add_ne_nan hy
  refine add_le_add hp (le_refl x1.1) ?_ hy hx
  have hsq : x * x ≤ y * y := by
    rw [← abs_mul_abs_self x, ← abs_mul_abs_self y]
    exact mul_self_le_mul_self (abs_nonneg x) hxy
  have h0 : Flt.le (.fin 0) (Flt.div f (Flt.mul f (.fin x) (.fin x)) (.fin ν)) = true := by
    have := div_le_div hp hν0 (round_nonneg (f := f) hp (mul_self_nonneg x))
    have e0 : Flt.div f (.fin 0) (.fin ν) = .fin 0 := by
      show (if ν = 0 then _ else _) = _
      rw [if_neg hν0.ne', zero_div, f.round_exact f.rep_zero]
    rwa [e0] at this
  have hm := div_le_div hp hν0 (round_mono (f := f) hp hsq)
  obtain ⟨h1, h2⟩ := one_add_sqr_mono hf h0 hm
  obtain ⟨h3, h4⟩ := ln_mono hf hL hM (add_valid hf _ _) (add_valid hf _ _) h1 h2
  have hmid : Flt.le (.fin 0) (Flt.div f (Flt.add f (.fin ν) (.fin 1)) (.fin 2)) = true := by
    have := div_le_div (c := 2) hp (by norm_num) (round_nonneg (f := f) hp (q := ν + 1) (by linarith))
    have e0 : Flt.div f (.fin 0) (.fin 2) = .fin 0 := by
      simp [Flt.div, f.round_exact f.rep_zero]
    rwa [e0] at this
  have x2 := x1.2
  have y2 := y1.2
  rw [round_two hf] at x2 y2 ⊢
  rw [mul_neg_left] at x2 y2
  rw [mul_neg_left, mul_neg_left]
  exact neg_le_neg (mul_le_mul hp hmid (le_refl (le_ne_nan_right hmid)) h4 h3
    (Flt.neg_ne_nan x2) (Flt.neg_ne_nan y2))

/-! ### Geometric -/

/-- **C111** (Geometric): the computed log-mass never increases in the count, a `u64`. -/
theorem C111_geometric (hf : f.Std) (hL : L.Accurate f) {p : ℚ} (hp : f.Representable p)
    {d : Geometric (Flt f L)} (h : Geometric.new (Flt.fin p) = .ok d) (hp1 : p ≠ 1) {j k : ℕ}
    (hj : 1 ≤ j) (hjk : j ≤ k) (hk : k < 2 ^ 64) :
    FloatOps.le (logDensityWrtRoot d k : Flt f L) (logDensityWrtRoot d j) = true := by
  obtain ⟨h0, h1, rfl⟩ := Geometric.new_flt h
  have h1 : p < 1 := lt_of_le_of_ne h1 hp1
  have hpr := prec1 hf
  have e : ∀ n : ℕ, (logDensityWrtRoot (⟨Flt.fin p⟩ : Geometric (Flt f L)) n : Flt f L) =
      if 1 ≤ n then Flt.add f (Flt.mul f (Flt.sub f (f.round n) (.fin 1))
        (Flt.ln L (Flt.sub f (.fin 1) (.fin p)))) (Flt.ln L (.fin p))
      else Flt.negInf (f := f) (L := L) := fun n => rfl
  show Flt.le _ _ = true
  rw [e, e, if_pos hj, if_pos (hj.trans hjk)]
  obtain ⟨l, hl, -, -⟩ := near_ln_rep hf hL h0 hp
  -- the logarithm of the complement is finite and not positive
  obtain ⟨c, hc, hc0⟩ : ∃ c : ℚ, Flt.ln L (Flt.sub f (.fin 1) (.fin p)) = .fin c ∧ c ≤ 0 := by
    obtain ⟨q, hq, nq⟩ := App.compl hf hp h0.le h1
    have hq0 : 0 < q := by
      have h1' : (p : ℝ) < 1 := by exact_mod_cast h1
      have he := (abs_le.mp nq.err).1
      have hu := hf.u_le
      have : 1 * f.u * (1 - (p : ℝ)) ≤ 1/2 * (1 - p) :=
        mul_le_mul_of_nonneg_right (by norm_num at hu ⊢; linarith) (by linarith)
      have : (0 : ℝ) < q := by linarith
      exact_mod_cast this
    have hq1 : q ≤ 1 := by
      have h2 := round_mono (f := f) hpr (show 1 - p ≤ 1 by linarith)
      rw [f.round_exact hf.rep_one, ← sub_fin, hq] at h2
      exact le_fin.mp h2
    obtain ⟨r, hr, -, he⟩ := hL.ln q hq0 nq.rep
    refine ⟨r, by rw [hq]; simp only [Flt.ln, if_pos hq0, hr], ?_⟩
    have hlog : Real.log q ≤ 0 := Real.log_nonpos (by exact_mod_cast hq0.le) (by exact_mod_cast hq1)
    rw [abs_of_nonpos hlog] at he
    have hu := hf.u_le
    have h3 := (abs_le.mp he).2
    have h4 : 2 * f.u * -Real.log q ≤ 1 * -Real.log q :=
      mul_le_mul_of_nonneg_right (by norm_num at hu ⊢; linarith) (by linarith)
    have : (r : ℝ) ≤ 0 := by linarith
    exact_mod_cast this
  rw [hl, hc]
  have nn : ∀ {w : FVal}, w ≠ .nan → Flt.add f w (.fin l) ≠ .nan := by
    intro w hw
    cases w with
    | nan => exact absurd rfl hw
    | inf s => simp [Flt.add]
    | fin q => exact round_ne_nan _
  have nr : ∀ n : ℕ, n ≤ k → ∃ r, Flt.sub f (f.round n) (.fin 1) = .fin r := by
    intro n hn
    have h64 : |(n : ℚ)| ≤ 2 ^ (64 : ℤ) := by
      rw [abs_of_nonneg (by positivity)]
      exact_mod_cast (hn.trans hk.le)
    obtain ⟨t, ht, h2⟩ := f.round_le hpr h64 (by have := hf.emin_le; omega) (by have := hf.emax_ge; omega)
    have h65 : |t - 1| ≤ (2 : ℚ) ^ (65 : ℤ) := by
      have h3 := abs_sub t 1
      have h4 : (2 : ℚ) ^ (65 : ℤ) = 2 * 2 ^ (64 : ℤ) := by norm_num
      have h5 : (1 : ℚ) ≤ 2 ^ (64 : ℤ) := by norm_num
      rw [abs_one] at h3
      rw [h4]; linarith
    obtain ⟨r, hr, -⟩ := f.round_le hpr h65 (by have := hf.emin_le; omega) (by have := hf.emax_ge; omega)
    exact ⟨r, by rw [ht, sub_fin, hr]⟩
  have r1 : f.round ((1 : ℕ) : ℚ) = .fin 1 := by rw [Nat.cast_one]; exact f.round_exact hf.rep_one
  obtain ⟨u, hu⟩ := nr j hjk
  obtain ⟨v, hv⟩ := nr k le_rfl
  have huv : u ≤ v := by
    have := sub_le_sub (f := f) hpr (round_mono hpr (by exact_mod_cast hjk : (j : ℚ) ≤ k)) (le_refl (a := .fin 1) (by simp))
      (by rw [hu]; simp) (by rw [hv]; simp)
    rw [hu, hv] at this
    exact le_fin.mp this
  have hu0 : 0 ≤ u := by
    have e1 : Flt.sub f (f.round ((1 : ℕ) : ℚ)) (.fin 1) = .fin 0 := by
      rw [r1, sub_fin, sub_self, f.round_exact f.rep_zero]
    have := sub_le_sub (f := f) hpr (round_mono hpr (by exact_mod_cast hj : ((1 : ℕ) : ℚ) ≤ j)) (le_refl (a := .fin 1) (by simp))
      (by rw [e1]; simp) (by rw [hu]; simp)
    rw [hu, e1] at this
    exact le_fin.mp this
  rw [hu, hv]
  have hm : Flt.le (Flt.mul f (.fin v) (.fin c)) (Flt.mul f (.fin u) (.fin c)) = true :=
    round_mono hpr (mul_le_mul_of_nonpos_right huv hc0)
  exact add_le_add hpr hm (le_refl (by simp)) (nn (le_ne_nan_left hm)) (nn (le_ne_nan_right hm))

/-! ### the exponential-family path -/

/-- **C111** fails on the exponential-family path: with mean `2^27 + 1` and standard deviation one the
point two standard deviations away gets a greater computed log-density than the point one away. -/
theorem C111_exp_fam_violated (hL : L.Accurate f64) :
    ∃ μ x y : ℚ, f64.Representable μ ∧ f64.Representable x ∧ f64.Representable y ∧
      |x - μ| < |y - μ| ∧ ∃ d : Normal (Flt f64 L), Normal.new (Flt.fin μ) (Flt.fin 1) = .ok d ∧
        expFamLogDensity d (Flt.fin x) = Flt.fin (f := f64) (L := L) (-2) ∧
        expFamLogDensity d (Flt.fin y) = Flt.fin (f := f64) (L := L) 0 := by
  have hf : f64.Std := .inl rfl
  have ri : ∀ {n : ℤ}, |n| ≤ 2 ^ 53 → f64.Representable n := rep_int
  have hμ : f64.Representable (2 ^ 27 + 1) := by
    have := ri (n := 2 ^ 27 + 1) (by norm_num); norm_num at this ⊢; exact this
  have hx : f64.Representable (2 ^ 27 + 2) := by
    have := ri (n := 2 ^ 27 + 2) (by norm_num); norm_num at this ⊢; exact this
  have hy : f64.Representable (2 ^ 27 - 1) := by
    have := ri (n := 2 ^ 27 - 1) (by norm_num); norm_num at this ⊢; exact this
  have r53 : ∀ {q : ℚ} (n : ℤ), 2 ^ 53 ≤ |q| → |q| < 2 ^ 54 → |q / 2 - n| ≤ 1/2 →
      (|q / 2 - n| < 1/2 ∨ Even n) → f64.round q = .fin (n * 2) := by
    intro q n h1 h2 h3 h4
    have e2 : (2 : ℚ) ^ ((53 : ℤ) - ((f64.prec : ℤ) - 1)) = 2 := by
      rw [show (53 : ℤ) - ((f64.prec : ℤ) - 1) = 1 by rfl]; norm_num
    have := f64.round_eval (q := q) 53 n (by norm_num; norm_num at h1; exact h1)
      (by norm_num; norm_num at h2; exact h2) (by decide) (by rw [e2]; exact h3) (by rw [e2]; exact h4)
      (by
        rw [e2]
        refine lt_f64_max ?_
        rw [show (n : ℚ) * 2 = q - 2 * (q / 2 - n) by ring]
        have := abs_sub q (2 * (q / 2 - n))
        rw [abs_mul, abs_two] at this
        refine this.trans ?_
        norm_num at h2 h3 ⊢
        linarith)
    rw [this, e2]
  have r54 : ∀ {q : ℚ} (n : ℤ), 2 ^ 54 ≤ |q| → |q| < 2 ^ 55 → |q / 4 - n| ≤ 1/2 →
      (|q / 4 - n| < 1/2 ∨ Even n) → f64.round q = .fin (n * 4) := by
    intro q n h1 h2 h3 h4
    have e2 : (2 : ℚ) ^ ((54 : ℤ) - ((f64.prec : ℤ) - 1)) = 4 := by
      rw [show (54 : ℤ) - ((f64.prec : ℤ) - 1) = 2 by rfl]; norm_num
    have := f64.round_eval (q := q) 54 n (by norm_num; norm_num at h1; exact h1)
      (by norm_num; norm_num at h2; exact h2) (by decide) (by rw [e2]; exact h3) (by rw [e2]; exact h4)
      (by
        rw [e2]
        refine lt_f64_max ?_
        rw [show (n : ℚ) * 4 = q - 4 * (q / 4 - n) by ring]
        have := abs_sub q (4 * (q / 4 - n))
        rw [abs_mul, abs_of_pos (show (0 : ℚ) < 4 by norm_num)] at this
        refine this.trans ?_
        norm_num at h2 h3 ⊢
        linarith)
    rw [this, e2]
  refine ⟨2 ^ 27 + 1, 2 ^ 27 + 2, 2 ^ 27 - 1, hμ, hx, hy, by norm_num, ⟨Flt.fin (2 ^ 27 + 1), Flt.fin 1⟩, rfl, ?_⟩
  have h1 : Flt.mul f64 (Flt.fin (f := f64) (L := L) 1) (Flt.fin (f := f64) (L := L) 1) = .fin 1 :=
    one_mul_rep hf.rep_one
  have h2 : Flt.div f64 (.fin 1) (.fin 1) = .fin 1 := by
    have : Flt.div f64 (.fin 1) (.fin 1) = f64.round (1 / 1) := by simp [Flt.div]
    rw [this, div_one]; exact f64.round_exact hf.rep_one
  have h3 : Flt.mul f64 (Flt.fin (f := f64) (L := L) (2 ^ 27 + 1)) (.fin 1) = .fin (2 ^ 27 + 1) := mul_one_rep hμ
  have hmh : f64.round (-1/2) = .fin (-(1/2)) := by
    have := f64.round_exact (rep_neg hf.rep_half)
    rw [← this]; norm_num
  have h5 : Flt.mul f64 (.fin (-(1/2))) (.fin 1) = .fin (-(1/2)) := mul_one_rep (rep_neg hf.rep_half)
  -- the log-partition
  have p1 : Flt.mul f64 (Flt.fin (f := f64) (L := L) (2 ^ 27 + 1)) (Flt.fin (f := f64) (L := L) (2 ^ 27 + 1)) =
      .fin (2 ^ 54 + 2 ^ 28) := by
    show f64.round ((2 ^ 27 + 1) * (2 ^ 27 + 1)) = _
    rw [r54 (2 ^ 52 + 2 ^ 26) (by norm_num) (by norm_num) (by norm_num [abs_le]) (.inl (by norm_num [abs_lt]))]
    norm_num
  have p2 : Flt.mul f64 (.fin (1/2)) (.fin (2 ^ 54 + 2 ^ 28)) = .fin (2 ^ 53 + 2 ^ 27) := by
    show f64.round (1/2 * (2 ^ 54 + 2 ^ 28)) = _
    rw [r53 (2 ^ 52 + 2 ^ 26) (by norm_num) (by norm_num) (by norm_num) (.inl (by norm_num))]
    norm_num
  have p3 : Flt.mul f64 (.fin (2 ^ 53 + 2 ^ 27)) (.fin 1) = .fin (2 ^ 53 + 2 ^ 27) := by
    show f64.round ((2 ^ 53 + 2 ^ 27) * 1) = _
    rw [r53 (2 ^ 52 + 2 ^ 26) (by norm_num) (by norm_num) (by norm_num) (.inl (by norm_num))]
    norm_num
  obtain ⟨tp, htp, ntp⟩ := near_two_pi hf
  have h9 : Flt.mul f64 (.fin tp) (.fin 1) = .fin tp := mul_one_rep ntp.rep
  obtain ⟨l, hl, nl⟩ := Near.ln hf hL ntp (by positivity) (by norm_num) (by norm_num)
  have c0 := log_two_pi_gt
  have c1 := log_two_pi_lt
  obtain ⟨w, hw, nw⟩ := Near.mul_ex hf nl (Near.half hf) (by norm_num) le_rfl (by norm_num) (by norm_num)
    (u_cube_le hf (by have := abs_nonneg (Real.log (2 * Real.pi)); linarith))
    (by rw [abs_of_pos (by linarith)]; norm_num; linarith)
  have hw1 : 0 < w ∧ w < 1 := by
    have he := nw.err
    have habs : |Real.log (2 * Real.pi)| = Real.log (2 * Real.pi) := abs_of_pos (by linarith)
    rw [habs] at he
    have hu := u_pos f64
    have hul := hf.u_le
    have h := mul_le_mul (mul_le_mul_of_nonneg_left hul (show (0 : ℝ) ≤ 2 * 8 + 3 + 0 + 4 by norm_num))
      (show (1 + Real.log (2 * Real.pi)) * (1 / 2) ≤ 2 by linarith) (by linarith) (by norm_num)
    have h' := abs_le.mp (he.trans h)
    norm_num at h'
    have w0 : (0 : ℝ) < w := by linarith [h'.1]
    have w1 : (w : ℝ) < 1 := by linarith [h'.2]
    exact ⟨by exact_mod_cast w0, by exact_mod_cast w1⟩
  have p4 : Flt.add f64 (.fin w) (.fin (2 ^ 53 + 2 ^ 27)) = .fin (2 ^ 53 + 2 ^ 27) := by
    show f64.round (w + (2 ^ 53 + 2 ^ 27)) = _
    have habs : |w + (2 ^ 53 + 2 ^ 27)| = w + (2 ^ 53 + 2 ^ 27) := abs_of_pos (by linarith [hw1.1])
    have hd : (w + (2 ^ 53 + 2 ^ 27)) / 2 - ((2 ^ 52 + 2 ^ 26 : ℤ) : ℚ) = w / 2 := by push_cast; ring
    have hlt : |w / 2| < 1/2 := by rw [abs_of_pos (by linarith [hw1.1])]; linarith [hw1.2]
    rw [r53 (2 ^ 52 + 2 ^ 26) (by rw [habs]; linarith [hw1.1]) (by rw [habs]; norm_num; linarith [hw1.2])
      (by rw [hd]; exact hlt.le) (.inl (by rw [hd]; exact hlt))]
    norm_num
  constructor
  · rw [normal_ef_flt, h1, h2, h3, hmh, h5, htp, h9, hl, round_half hf, hw, p1, p2, p3, p4]
    have q1 : Flt.mul f64 (.fin (2 ^ 27 + 1)) (Flt.fin (f := f64) (L := L) (2 ^ 27 + 2)) =
        .fin (2 ^ 54 + 3 * 2 ^ 27) := by
      show f64.round ((2 ^ 27 + 1) * (2 ^ 27 + 2)) = _
      rw [r54 (2 ^ 52 + 3 * 2 ^ 25) (by norm_num) (by norm_num) (by norm_num [abs_le]) (.inr (by decide))]
      norm_num
    have q2 : Flt.mul f64 (Flt.fin (f := f64) (L := L) (2 ^ 27 + 2)) (Flt.fin (f := f64) (L := L) (2 ^ 27 + 2)) =
        .fin (2 ^ 54 + 2 ^ 29 + 4) := by
      show f64.round ((2 ^ 27 + 2) * (2 ^ 27 + 2)) = _
      rw [r54 (2 ^ 52 + 2 ^ 27 + 1) (by norm_num) (by norm_num) (by norm_num) (.inl (by norm_num))]
      norm_num
    have q3 : Flt.mul f64 (.fin (-(1/2))) (.fin (2 ^ 54 + 2 ^ 29 + 4)) = .fin (-(2 ^ 53 + 2 ^ 28 + 2)) := by
      show f64.round (-(1/2) * (2 ^ 54 + 2 ^ 29 + 4)) = _
      rw [r53 (-(2 ^ 52 + 2 ^ 27 + 1)) (by norm_num) (by norm_num) (by norm_num) (.inl (by norm_num))]
      norm_num
    have q4 : Flt.add f64 (.fin 0) (.fin (2 ^ 54 + 3 * 2 ^ 27)) = .fin (2 ^ 54 + 3 * 2 ^ 27) := by
      show f64.round (0 + (2 ^ 54 + 3 * 2 ^ 27)) = _
      rw [r54 (2 ^ 52 + 3 * 2 ^ 25) (by norm_num) (by norm_num) (by norm_num) (.inl (by norm_num))]
      norm_num
    have q5 : Flt.add f64 (.fin (2 ^ 54 + 3 * 2 ^ 27)) (.fin (-(2 ^ 53 + 2 ^ 28 + 2))) = .fin (2 ^ 53 + 2 ^ 27 - 2) := by
      show f64.round ((2 ^ 54 + 3 * 2 ^ 27) + -(2 ^ 53 + 2 ^ 28 + 2)) = _
      rw [r53 (2 ^ 52 + 2 ^ 26 - 1) (by norm_num) (by norm_num) (by norm_num) (.inl (by norm_num))]
      norm_num
    have q6 : Flt.sub f64 (.fin (2 ^ 53 + 2 ^ 27 - 2)) (.fin (2 ^ 53 + 2 ^ 27)) = .fin (-2) := by
      rw [sub_fin, show ((2 ^ 53 + 2 ^ 27 - 2) - (2 ^ 53 + 2 ^ 27) : ℚ) = -2 by norm_num]
      exact f64.round_exact (rep_neg hf.rep_two)
    rw [q1, q2, q3, q4, q5, q6]
    exact add_zero_rep (rep_neg hf.rep_two)
  · rw [normal_ef_flt, h1, h2, h3, hmh, h5, htp, h9, hl, round_half hf, hw, p1, p2, p3, p4]
    have q1 : Flt.mul f64 (.fin (2 ^ 27 + 1)) (Flt.fin (f := f64) (L := L) (2 ^ 27 - 1)) = .fin (2 ^ 54) := by
      show f64.round ((2 ^ 27 + 1) * (2 ^ 27 - 1)) = _
      rw [r53 (2 ^ 53) (by norm_num) (by norm_num) (by norm_num [abs_le]) (.inr (by decide))]
      norm_num
    have q2 : Flt.mul f64 (Flt.fin (f := f64) (L := L) (2 ^ 27 - 1)) (Flt.fin (f := f64) (L := L) (2 ^ 27 - 1)) =
        .fin (2 ^ 54 - 2 ^ 28) := by
      show f64.round ((2 ^ 27 - 1) * (2 ^ 27 - 1)) = _
      rw [r53 (2 ^ 53 - 2 ^ 27) (by norm_num) (by norm_num) (by norm_num [abs_le]) (.inr (by decide))]
      norm_num
    have q3 : Flt.mul f64 (.fin (-(1/2))) (.fin (2 ^ 54 - 2 ^ 28)) = .fin (-(2 ^ 53 - 2 ^ 27)) := by
      show f64.round (-(1/2) * (2 ^ 54 - 2 ^ 28)) = _
      rw [show (-(1/2) * (2 ^ 54 - 2 ^ 28) : ℚ) = ((-(2 ^ 53 - 2 ^ 27) : ℤ) : ℚ) by norm_num]
      rw [f64.round_exact (ri (by norm_num))]
      norm_num
    have q4 : Flt.add f64 (.fin 0) (.fin (2 ^ 54)) = .fin (2 ^ 54) := by
      show f64.round (0 + 2 ^ 54) = _
      rw [r54 (2 ^ 52) (by norm_num) (by norm_num) (by norm_num) (.inl (by norm_num))]
      norm_num
    have q5 : Flt.add f64 (.fin (2 ^ 54)) (.fin (-(2 ^ 53 - 2 ^ 27))) = .fin (2 ^ 53 + 2 ^ 27) := by
      show f64.round (2 ^ 54 + -(2 ^ 53 - 2 ^ 27)) = _
      rw [r53 (2 ^ 52 + 2 ^ 26) (by norm_num) (by norm_num) (by norm_num) (.inl (by norm_num))]
      norm_num
    have q6 : Flt.sub f64 (.fin (2 ^ 53 + 2 ^ 27)) (.fin (2 ^ 53 + 2 ^ 27)) = .fin 0 := by
      rw [sub_fin, sub_self]; exact f64.round_exact (rep_zero f64)
    rw [q1, q2, q3, q4, q5, q6]
    exact add_zero_rep (rep_zero f64)

/-! ### a library as assumed exists -/

/-- there are finitely many numbers of the format -/
theorem rep_finite (hf : f.Std) : {q : ℚ | f.Representable q}.Finite := by
  have hlt := emin_lt_emax hf
  refine ((Set.finite_Icc (-(2 ^ (f.emax - f.emin).toNat : ℤ)) (2 ^ (f.emax - f.emin).toNat)).image
    (fun k : ℤ => (k : ℚ) * 2 ^ f.emin)).subset ?_
  rintro q ⟨⟨m, e, -, he, rfl⟩, hb⟩
  obtain ⟨d, hd⟩ := Int.le.dest he
  obtain ⟨D, hD⟩ := Int.le.dest hlt.le
  have e1 : (m : ℚ) * 2 ^ e = ((m * 2 ^ d : ℤ) : ℚ) * 2 ^ f.emin := by
    rw [← hd, zpow_add₀ (by norm_num), zpow_natCast]; push_cast; ring
  refine ⟨m * 2 ^ d, ?_, e1.symm⟩
  rw [show (f.emax - f.emin).toNat = D by omega, Set.mem_Icc, ← abs_le]
  rw [e1, abs_mul, abs_of_pos (show (0 : ℚ) < 2 ^ f.emin by positivity), ← hD,
    zpow_add₀ (by norm_num), zpow_natCast, mul_comm ((2 : ℚ) ^ f.emin)] at hb
  have := lt_of_mul_lt_mul_right hb (by positivity)
  exact_mod_cast this.le

open Classical in
/-- An accurate library with a logarithm that never decreases exists. -/
theorem exists_libm_monotone (hf : f.Std) : ∃ L : Libm, L.Accurate f ∧ L.LnMonotone f := by
  obtain ⟨L, hL⟩ := exists_libm hf
  have hch : ∀ q : ℚ, ∃ r : ℚ, 0 < q → f.Representable q → L.ln q = .fin r ∧ f.Representable r ∧
      |(r : ℝ) - Real.log q| ≤ 2 * f.u * |Real.log q| := by
    intro q
    by_cases h : 0 < q ∧ f.Representable q
    · obtain ⟨r, hr⟩ := hL.ln q h.1 h.2
      exact ⟨r, fun _ _ => hr⟩
    · exact ⟨0, fun a b => absurd ⟨a, b⟩ h⟩
  choose g hg using hch
  -- the greatest value so far
  have hmax : ∀ q : ℚ, ∃ r : ℚ, 0 < q → f.Representable q →
      (∃ p, 0 < p ∧ p ≤ q ∧ f.Representable p ∧ r = g p) ∧
      ∀ p, 0 < p → p ≤ q → f.Representable p → g p ≤ r := by
    intro q
    by_cases h : 0 < q ∧ f.Representable q
    · have hfin : {p : ℚ | 0 < p ∧ p ≤ q ∧ f.Representable p}.Finite :=
        (rep_finite hf).subset fun p hp => hp.2.2
      obtain ⟨p, hp, hm⟩ := hfin.exists_maximalFor g _ ⟨q, h.1, le_rfl, h.2⟩
      refine ⟨g p, fun _ _ => ⟨⟨p, hp.1, hp.2.1, hp.2.2, rfl⟩, fun p' a b c => ?_⟩⟩
      rcases le_total (g p') (g p) with h' | h'
      · exact h'
      · exact hm ⟨a, b, c⟩ h'
    · exact ⟨0, fun a b => absurd ⟨a, b⟩ h⟩
  choose r hr using hmax
  refine ⟨{ L with ln := fun q => .fin (r q) }, ⟨?_, hL.exp⟩, ?_⟩
  · intro q h0 h
    obtain ⟨⟨p, p0, pq, prep, e⟩, hmx⟩ := hr q h0 h
    obtain ⟨-, hrep, he⟩ := hg p p0 prep
    obtain ⟨-, -, he'⟩ := hg q h0 h
    refine ⟨r q, rfl, e ▸ hrep, ?_⟩
    have h1 : ((g q : ℚ) : ℝ) ≤ r q := by exact_mod_cast hmx q h0 le_rfl h
    have hlog : Real.log p ≤ Real.log q :=
      Real.log_le_log (by exact_mod_cast p0) (by exact_mod_cast pq)
    have hu := u_pos f
    have hul := hf.u_le
    have hu1 : 2 * f.u ≤ 1 := by norm_num at hul; linarith
    rw [abs_le] at he he' ⊢
    refine ⟨by linarith [he'.1], ?_⟩
    rw [e]
    -- `t + 2u|t|` increases with `t`
    have key : Real.log p + 2 * f.u * |Real.log p| ≤ Real.log q + 2 * f.u * |Real.log q| := by
      have h2 : |Real.log p| - |Real.log q| ≤ Real.log q - Real.log p := by
        have := abs_sub_abs_le_abs_sub (Real.log p) (Real.log q)
        rwa [abs_sub_comm, abs_of_nonneg (by linarith : 0 ≤ Real.log q - Real.log p)] at this
      have h3 : 2 * f.u * (|Real.log p| - |Real.log q|) ≤ 2 * f.u * (Real.log q - Real.log p) :=
        mul_le_mul_of_nonneg_left h2 (by positivity)
      have h4 : 2 * f.u * (Real.log q - Real.log p) ≤ 1 * (Real.log q - Real.log p) :=
        mul_le_mul_of_nonneg_right hu1 (by linarith)
      linarith
    linarith [he.2]
  · intro p q h0 hpq hp hq
    obtain ⟨⟨p', p0, pq, prep, e⟩, -⟩ := hr p h0 hp
    obtain ⟨-, hmx⟩ := hr q (h0.trans_le hpq) hq
    refine le_fin.mpr ?_
    rw [e]
    exact hmx p' p0 (pq.trans hpq) prep

/-- the hypotheses are met -/
example : ∃ L : Libm, L.Accurate f64 ∧ L.LnMonotone f64 ∧ f64.Representable (1/2) ∧
    (∃ d : Normal (Flt f64 L), Normal.new (Flt.fin 3) (Flt.fin 2) = .ok d) ∧
    (∃ d : Exponential (Flt f64 L), Exponential.new (Flt.fin 2) = .ok d) ∧
    (∃ d : Geometric (Flt f64 L), Geometric.new (Flt.fin (1/2)) = .ok d) ∧
    (∃ d : Cauchy (Flt f64 L), Cauchy.new (Flt.fin 0) (Flt.fin 1) = .ok d) ∧
    |(4 : ℚ) - 3| ≤ |(1 : ℚ) - 3| := by
  obtain ⟨L, hL, hM⟩ := exists_libm_monotone (f := f64) (.inl rfl)
  refine ⟨L, hL, hM, (show f64.Std from .inl rfl).rep_half, ⟨_, rfl⟩, ⟨_, rfl⟩,
    ⟨⟨Flt.fin (1/2)⟩, ?_⟩, ⟨_, rfl⟩, by norm_num⟩
  unfold Geometric.new
  rw [if_pos]
  show (decide ((0 : ℚ) < 1/2) && decide ((1 : ℚ)/2 ≤ 1)) = true
  norm_num

end Verif
