import Verif.Props.Double
import Verif.Lemmas.FltSum
import Verif.Lemmas.NearOps
import Verif.Spec.DoubleExpr
import Verif.Spec.Symbolic

/-!
# C94: evaluating expressions in floating point
-/

namespace Verif
open Format FloatOps Expr Spec

variable {f : Format} {L : Libm}

/-- `r` is a number of the format within `(1+u)^n - 1` of `x`, relative to the size `X`. -/
structure Within (f : Format) (n : ℕ) (r : ℚ) (x X : ℝ) : Prop where
  rep : f.Representable r
  mag : |x| ≤ X
  err : |(r : ℝ) - x| ≤ f.grow n * X

theorem grow_mono {n m : ℕ} (h : n ≤ m) : f.grow n ≤ f.grow m := by
  unfold Format.grow
  have := pow_le_pow_right₀ (a := 1 + f.u) (by linarith [u_pos f]) h
  linarith

theorem grow_add (n m : ℕ) : (1 + f.grow n) * (1 + f.grow m) = 1 + f.grow (n + m) := by
  unfold Format.grow; rw [pow_add]; ring

theorem Within.nonneg {n : ℕ} {r : ℚ} {x X : ℝ} (h : Within f n r x X) : 0 ≤ X :=
  (abs_nonneg _).trans h.mag

theorem Within.mono {n m : ℕ} {r : ℚ} {x X Y : ℝ} (h : Within f n r x X) (hn : n ≤ m) (hX : X ≤ Y) :
    Within f m r x Y :=
  ⟨h.rep, h.mag.trans hX, h.err.trans (mul_le_mul (grow_mono hn) hX h.nonneg (grow_nonneg m))⟩

theorem Within.size {n : ℕ} {r : ℚ} {x X : ℝ} (h : Within f n r x X) : |(r : ℝ)| ≤ (1 + f.grow n) * X := by
  have h1 := abs_sub_abs_le_abs_sub (r : ℝ) x
  have h2 := h.err
  have h3 := h.mag
  linarith

theorem Within.exact {q : ℚ} (h : f.Representable q) : Within f 0 q q |(q : ℝ)| :=
  ⟨h, le_rfl, by simp [grow_zero]⟩

theorem Within.neg {n : ℕ} {r : ℚ} {x X : ℝ} (h : Within f n r x X) : Within f n (-r) (-x) X := by
  refine ⟨rep_neg h.rep, by rw [abs_neg]; exact h.mag, ?_⟩
  have : ((-r : ℚ) : ℝ) - -x = -((r : ℝ) - x) := by push_cast; ring
  rw [this, abs_neg]; exact h.err

theorem Within.add_same (hf : f.Std) {n : ℕ} {a b r : ℚ} {x y X Y : ℝ} (ha : Within f n a x X)
    (hb : Within f n b y Y) (h : f.round (a + b) = .fin r) :
    Within f (n + 1) r (x + y) (X + Y) := by
  obtain ⟨hr, he⟩ := near_round_add hf ha.rep hb.rep h
  refine ⟨hr, (abs_add_le _ _).trans (add_le_add ha.mag hb.mag), ?_⟩
  have h1 : |(a : ℝ) + b - (x + y)| ≤ f.grow n * (X + Y) := by
    rw [add_sub_add_comm, mul_add]
    exact (abs_add_le _ _).trans (add_le_add ha.err hb.err)
  have h2 : |(a : ℝ) + b| ≤ (1 + f.grow n) * (X + Y) := by
    rw [mul_add]
    exact (abs_add_le _ _).trans (add_le_add ha.size hb.size)
  have h3 : f.u * |(a : ℝ) + b| ≤ f.u * ((1 + f.grow n) * (X + Y)) :=
    mul_le_mul_of_nonneg_left h2 (u_pos f).le
  have h4 := abs_sub_le (r : ℝ) (a + b) (x + y)
  rw [grow_succ]
  linarith

theorem Within.add (hf : f.Std) {n m : ℕ} {a b r : ℚ} {x y X Y : ℝ} (ha : Within f n a x X)
    (hb : Within f m b y Y) (h : f.round (a + b) = .fin r) :
    Within f (n + m + 1) r (x + y) (X + Y) :=
  (ha.mono (m := n + m) (by omega) le_rfl).add_same hf (hb.mono (m := n + m) (by omega) le_rfl) h

theorem Within.mul (hf : f.Std) {n m : ℕ} {a b r : ℚ} {x y X Y : ℝ} (ha : Within f n a x X)
    (hb : Within f m b y Y) (h : f.round (a * b) = .fin r) :
    Within f (n + m + 1) r (x * y) (X * Y + 2 ^ f.emin / f.u) := by
  have hu := u_pos f
  obtain ⟨hr, he⟩ := near_round hf h
  push_cast at he
  have hX := ha.nonneg
  have hY := hb.nonneg
  have ht : (0 : ℝ) < 2 ^ f.emin / f.u := by positivity
  refine ⟨hr, ?_, ?_⟩
  · rw [abs_mul]
    have := mul_le_mul ha.mag hb.mag (abs_nonneg _) hX
    linarith
  have g0 := grow_nonneg (f := f) n
  have g1 := grow_nonneg (f := f) m
  have hprod : |(a : ℝ) * b - x * y| ≤ f.grow (n + m) * (X * Y) := by
    have e : (a : ℝ) * b - x * y = (a - x) * b + x * (b - y) := by ring
    rw [e]
    refine (abs_add_le _ _).trans ?_
    rw [abs_mul, abs_mul]
    have h1 : |(a : ℝ) - x| * |(b : ℝ)| ≤ (f.grow n * X) * ((1 + f.grow m) * Y) :=
      mul_le_mul ha.err hb.size (abs_nonneg _) (by positivity)
    have h2 : |x| * |(b : ℝ) - y| ≤ X * (f.grow m * Y) :=
      mul_le_mul ha.mag hb.err (abs_nonneg _) hX
    have h3 := grow_add (f := f) n m
    have h4 : f.grow (n + m) = f.grow n * (1 + f.grow m) + f.grow m := by linarith
    rw [h4]
    linarith
  have hsz : |(a : ℝ) * b| ≤ (1 + f.grow (n + m)) * (X * Y) := by
    rw [abs_mul, ← grow_add]
    calc _ ≤ ((1 + f.grow n) * X) * ((1 + f.grow m) * Y) :=
          mul_le_mul ha.size hb.size (abs_nonneg _) (by positivity)
      _ = _ := by ring
  have h5 : f.u * |(a : ℝ) * b| ≤ f.u * ((1 + f.grow (n + m)) * (X * Y)) := by gcongr
  have h6 : (2 : ℝ) ^ f.emin ≤ f.grow (n + m + 1) * (2 ^ f.emin / f.u) := by
    have h7 : f.u ≤ f.grow (n + m + 1) := by
      have h8 : f.u = f.grow 1 := by unfold Format.grow; ring
      rw [h8]; exact grow_mono (by omega)
    calc (2 : ℝ) ^ f.emin = f.u * (2 ^ f.emin / f.u) := by field_simp
      _ ≤ _ := by gcongr
  have h9 := abs_sub_le (r : ℝ) (a * b) (x * y)
  rw [mul_add]
  have h10 : f.grow (n + m + 1) * (X * Y) = f.grow (n + m) * (X * Y) + f.u * ((1 + f.grow (n + m)) * (X * Y)) := by
    rw [grow_succ]; ring
  rw [h10]
  linarith

/-! Operands of a finite result are finite. -/

theorem flt_add_inv {a b : FVal} {r : ℚ} (h : Flt.add f a b = .fin r) :
    ∃ x y, a = .fin x ∧ b = .fin y ∧ f.round (x + y) = .fin r := by
  cases a with
  | nan => simp [Flt.add] at h
  | inf s =>
    cases b with
    | nan => simp [Flt.add] at h
    | inf t => simp only [Flt.add] at h; split_ifs at h
    | fin t => simp [Flt.add] at h
  | fin x =>
    cases b with
    | nan => simp [Flt.add] at h
    | inf t => simp [Flt.add] at h
    | fin y => exact ⟨x, y, rfl, rfl, h⟩

theorem flt_sub_inv {a b : FVal} {r : ℚ} (h : Flt.sub f a b = .fin r) :
    ∃ x y, a = .fin x ∧ b = .fin y ∧ f.round (x + -y) = .fin r := by
  obtain ⟨x, y, h1, h2, h3⟩ := flt_add_inv (show Flt.add f a (Flt.neg b) = .fin r from h)
  cases b with
  | nan => simp [Flt.neg] at h2
  | inf t => simp [Flt.neg] at h2
  | fin z =>
    simp only [Flt.neg, FVal.fin.injEq] at h2
    subst h2
    exact ⟨x, z, h1, rfl, h3⟩

theorem flt_mul_inv {a b : FVal} {r : ℚ} (h : Flt.mul f a b = .fin r) :
    ∃ x y, a = .fin x ∧ b = .fin y ∧ f.round (x * y) = .fin r := by
  cases a with
  | nan => simp [Flt.mul] at h
  | inf s =>
    cases b with
    | nan => simp [Flt.mul] at h
    | inf t => simp [Flt.mul] at h
    | fin t => simp only [Flt.mul] at h; split_ifs at h
  | fin x =>
    cases b with
    | nan => simp [Flt.mul] at h
    | inf t => simp only [Flt.mul] at h; split_ifs at h
    | fin y => exact ⟨x, y, rfl, rfl, h⟩

theorem flt_neg_inv {a : FVal} {r : ℚ} (h : Flt.neg a = .fin r) : a = .fin (-r) := by
  cases a with
  | nan => simp [Flt.neg] at h
  | inf t => simp [Flt.neg] at h
  | fin z => simp only [Flt.neg, FVal.fin.injEq] at h; subst h; simp

theorem except_bind₂ {ε α β γ : Type} {a : Except ε α} {b : Except ε β} {g : α → β → γ} {c : γ}
    (h : (do let x ← a; let y ← b; .ok (g x y) : Except ε γ) = .ok c) :
    ∃ x y, a = .ok x ∧ b = .ok y ∧ g x y = c := by
  cases a with
  | error e => cases h
  | ok x =>
    cases b with
    | error e => cases h
    | ok y => exact ⟨x, y, rfl, rfl, Except.ok.inj h⟩

theorem magnitude_nonneg (ρ : String → ℝ) (e : Expr (Flt f L)) : 0 ≤ magnitude ρ e := by
  have hu := u_pos f
  induction e with
  | const c => exact abs_nonneg _
  | var n => exact abs_nonneg _
  | add l r hl hr => exact add_nonneg hl hr
  | sub l r hl hr => exact add_nonneg hl hr
  | mul l r hl hr => exact add_nonneg (mul_nonneg hl hr) (by positivity)
  | neg e h => exact h
  | _ => exact le_rfl

theorem abs_exactValue_le (ρ : String → ℝ) (e : Expr (Flt f L)) : |exactValue ρ e| ≤ magnitude ρ e := by
  have hu := u_pos f
  induction e with
  | const c => exact le_rfl
  | var n => exact le_rfl
  | add l r hl hr => exact (abs_add_le _ _).trans (add_le_add hl hr)
  | sub l r hl hr => exact (abs_sub _ _).trans (add_le_add hl hr)
  | mul l r hl hr =>
    simp only [exactValue, magnitude]
    rw [abs_mul]
    have := mul_le_mul hl hr (abs_nonneg _) (magnitude_nonneg ρ l)
    have : (0 : ℝ) < 2 ^ f.emin / f.u := by positivity
    linarith
  | neg e h => simp only [exactValue, magnitude, abs_neg]; exact h
  | _ => simp [exactValue, magnitude]

theorem isConst_zero {e : Expr (Flt f L)} (h : isConst zero e = true) : e = const (Flt.fin 0) := by
  cases e with
  | const c =>
    have h' : Flt.beq c (.fin 0) = true := h
    cases c with
    | nan => simp [Flt.beq] at h'
    | inf b => simp [Flt.beq] at h'
    | fin q => simp only [Flt.beq, decide_eq_true_eq] at h'; rw [h']
  | _ => simp [isConst] at h

theorem isConst_one {e : Expr (Flt f L)} (h : isConst one e = true) : e = const (Flt.fin 1) := by
  cases e with
  | const c =>
    have h' : Flt.beq c (.fin 1) = true := h
    cases c with
    | nan => simp [Flt.beq] at h'
    | inf b => simp [Flt.beq] at h'
    | fin q => simp only [Flt.beq, decide_eq_true_eq] at h'; rw [h']
  | _ => simp [isConst] at h

/-- The values of the variables: `ρ` says what number each stands for. -/
def Values (f : Format) (L : Libm) (vars : FMap String (Flt f L)) (ρ : String → ℝ) : Prop :=
  ∀ n v, vars.get n = some v → ∃ q : ℚ, v = Flt.fin q ∧ f.Representable q ∧ ρ n = q

theorem within_evaluate (hf : f.Std) {vars : FMap String (Flt f L)} {ρ : String → ℝ}
    (hv : Values f L vars ρ) (e : Expr (Flt f L)) (ha : Arithmetic e) {r : ℚ}
    (h : e.evaluate vars = .ok (Flt.fin r)) : Within f (operations e) r (exactValue ρ e) (magnitude ρ e) := by
  have hu := u_pos f
  have ht : (0 : ℝ) < 2 ^ f.emin / f.u := by positivity
  induction e generalizing r with
  | const c =>
    obtain ⟨q, rfl, hq⟩ := ha
    have : Flt.fin (f := f) (L := L) q = Flt.fin r := Except.ok.inj h
    obtain rfl := FVal.fin.inj this
    exact Within.exact hq
  | var n =>
    simp only [Expr.evaluate] at h
    cases hg : vars.get n with
    | none => rw [hg] at h; cases h
    | some v =>
      rw [hg] at h
      obtain ⟨q, h1, h2, h3⟩ := hv n v hg
      have h4 : v = Flt.fin r := Except.ok.inj h
      rw [h1] at h4
      obtain rfl := FVal.fin.inj h4
      simp only [operations, exactValue, magnitude, h3]
      exact Within.exact h2
  | add l r' il ir =>
    obtain ⟨hl, hr⟩ := ha
    have bin : ∀ a b : Flt f L, l.evaluate vars = .ok a → r'.evaluate vars = .ok b →
        Flt.add f a b = .fin r → Within f (operations (l.add r')) r (exactValue ρ (l.add r')) (magnitude ρ (l.add r')) := by
      intro a b h1 h2 h3
      obtain ⟨x, y, rfl, rfl, h4⟩ := flt_add_inv h3
      exact (il hl h1).add hf (ir hr h2) h4
    simp only [Expr.evaluate] at h
    split at h
    · rename_i a b hb
      cases l <;> try (simp [bothConst] at hb; done)
      cases r' <;> try (simp [bothConst] at hb; done)
      simp only [bothConst, Option.some.injEq, Prod.mk.injEq] at hb
      obtain ⟨rfl, rfl⟩ := hb
      exact bin _ _ rfl rfl (Except.ok.inj h)
    · split_ifs at h with h1 h2
      · obtain rfl := isConst_zero h1
        have := (ir hr h).mono (m := operations ((const (Flt.fin 0)).add r')) (by simp only [operations]; omega)
          (show magnitude ρ r' ≤ magnitude ρ ((const (Flt.fin 0)).add r') by simp [magnitude, realOf])
        refine ⟨this.rep, abs_exactValue_le _ _, ?_⟩
        have e : exactValue ρ ((const (Flt.fin (f := f) (L := L) 0)).add r') = exactValue ρ r' := by
          simp [exactValue, realOf]
        rw [e]; exact this.err
      · obtain rfl := isConst_zero h2
        have := (il hl h).mono (m := operations (l.add (const (Flt.fin 0)))) (by simp only [operations]; omega)
          (show magnitude ρ l ≤ magnitude ρ (l.add (const (Flt.fin 0))) by simp [magnitude, realOf])
        refine ⟨this.rep, abs_exactValue_le _ _, ?_⟩
        have e : exactValue ρ (l.add (const (Flt.fin (f := f) (L := L) 0))) = exactValue ρ l := by
          simp [exactValue, realOf]
        rw [e]; exact this.err
      · obtain ⟨a, b, h3, h4, h5⟩ := except_bind₂ h
        exact bin a b h3 h4 h5
  | sub l r' il ir =>
    obtain ⟨hl, hr⟩ := ha
    simp only [Expr.evaluate] at h
    obtain ⟨a, b, h3, h4, h5⟩ := except_bind₂ h
    obtain ⟨x, y, rfl, rfl, h6⟩ := flt_sub_inv (show Flt.sub f a b = .fin r from h5)
    have := (il hl h3).add hf (ir hr h4).neg h6
    rw [← sub_eq_add_neg] at this
    exact this
  | mul l r' il ir =>
    obtain ⟨hl, hr⟩ := ha
    have bin : ∀ a b : Flt f L, l.evaluate vars = .ok a → r'.evaluate vars = .ok b →
        Flt.mul f a b = .fin r → Within f (operations (l.mul r')) r (exactValue ρ (l.mul r')) (magnitude ρ (l.mul r')) := by
      intro a b h1 h2 h3
      obtain ⟨x, y, rfl, rfl, h4⟩ := flt_mul_inv h3
      exact (il hl h1).mul hf (ir hr h2) h4
    simp only [Expr.evaluate] at h
    split at h
    · rename_i a b hb
      cases l <;> try (simp [bothConst] at hb; done)
      cases r' <;> try (simp [bothConst] at hb; done)
      simp only [bothConst, Option.some.injEq, Prod.mk.injEq] at hb
      obtain ⟨rfl, rfl⟩ := hb
      exact bin _ _ rfl rfl (Except.ok.inj h)
    · split_ifs at h with h1 h2 h3
      · have h0 : Flt.fin (f := f) (L := L) 0 = Flt.fin r := Except.ok.inj h
        obtain rfl := FVal.fin.inj h0
        have e : exactValue ρ (l.mul r') = 0 := by
          rw [Bool.or_eq_true] at h1
          rcases h1 with h1 | h1 <;> rw [isConst_zero h1] <;> simp [exactValue, realOf]
        refine ⟨rep_zero f, abs_exactValue_le _ _, ?_⟩
        rw [e]
        simp only [Rat.cast_zero, sub_zero, abs_zero]
        exact mul_nonneg (grow_nonneg _) (magnitude_nonneg _ _)
      · obtain rfl := isConst_one h2
        have := (ir hr h).mono (m := operations ((const (Flt.fin 1)).mul r')) (by simp only [operations]; omega)
          (show magnitude ρ r' ≤ magnitude ρ ((const (Flt.fin 1)).mul r') by
            simp only [magnitude, realOf, Rat.cast_one, abs_one, one_mul]; linarith)
        refine ⟨this.rep, abs_exactValue_le _ _, ?_⟩
        have e : exactValue ρ ((const (Flt.fin (f := f) (L := L) 1)).mul r') = exactValue ρ r' := by
          simp [exactValue, realOf]
        rw [e]; exact this.err
      · obtain rfl := isConst_one h3
        have := (il hl h).mono (m := operations (l.mul (const (Flt.fin 1)))) (by simp only [operations]; omega)
          (show magnitude ρ l ≤ magnitude ρ (l.mul (const (Flt.fin 1))) by
            simp only [magnitude, realOf, Rat.cast_one, abs_one, mul_one]; linarith)
        refine ⟨this.rep, abs_exactValue_le _ _, ?_⟩
        have e : exactValue ρ (l.mul (const (Flt.fin (f := f) (L := L) 1))) = exactValue ρ l := by
          simp [exactValue, realOf]
        rw [e]; exact this.err
      · obtain ⟨a, b, h3, h4, h5⟩ := except_bind₂ h
        exact bin a b h3 h4 h5
  | neg e ih =>
    simp only [Expr.evaluate] at h
    cases hE : e.evaluate vars with
    | error e => rw [hE] at h; cases h
    | ok v =>
      rw [hE] at h
      have h1 : Flt.neg v = .fin r := Except.ok.inj h
      have h2 := flt_neg_inv h1
      have := (ih ha (r := -r) (by rw [hE, h2])).neg
      rw [neg_neg] at this
      exact this
  | _ => exact absurd ha id

/-- **C94**: when `evaluate` returns a finite number for an expression of `N` additions, subtractions
and multiplications, that number is within `(1+u)^N - 1` of the exact value, relative to the size of
the expression. -/
theorem C94_evaluate (hf : f.Std) {vars : FMap String (Flt f L)} {ρ : String → ℝ}
    (hv : Values f L vars ρ) (e : Expr (Flt f L)) (ha : Arithmetic e) {r : ℚ}
    (h : e.evaluate vars = .ok (Flt.fin r)) :
    |(r : ℝ) - exactValue ρ e| ≤ ((1 + f.u) ^ operations e - 1) * magnitude ρ e :=
  (within_evaluate hf hv e ha h).err


/-- variables of the format bound to numbers: a value for `"x"` -/
theorem values_x {q : ℚ} (hq : f.Representable q) (x : String) :
    Values f L ((FMap.empty : FMap String (Flt f L)).insert x (Flt.fin q)) (fun _ => q) := by
  intro n v h
  simp only [FMap.insert, FMap.empty] at h
  split_ifs at h
  exact ⟨q, (Option.some.inj h).symm, hq, rfl⟩

theorem round_fits (hf : f.Std) {q : ℚ} (h : |(q : ℝ)| ≤ 2 ^ (f.emax - 1)) : ∃ r, f.round q = .fin r := by
  obtain ⟨r, hr, -⟩ := f.round_le (prec1 hf) (rat_le h)
    (by have := hf.emin_le; have := hf.emax_ge; omega) (by omega)
  exact ⟨r, hr⟩

theorem grow_half {n : ℕ} (hn : n * f.u ≤ 1/2) : 1 + f.grow n ≤ 2 := by
  have h2 := grow_le (f := f) hn
  linarith

theorem emax_split (f : Format) : (2 : ℝ) ^ (f.emax - 1) = 2 * 2 ^ (f.emax - 2) := by
  rw [show f.emax - 1 = (f.emax - 2) + 1 by ring, zpow_add_one₀ (by norm_num)]; ring

theorem fits_add (hf : f.Std) {n m : ℕ} {a b : ℚ} {x y X Y : ℝ} (ha : Within f n a x X)
    (hb : Within f m b y Y) (h : X + Y ≤ 2 ^ (f.emax - 2)) (hn : (n + m + 1 : ℕ) * f.u ≤ 1/2) :
    ∃ r, f.round (a + b) = .fin r := by
  refine round_fits hf ?_
  have hu := u_pos f
  have hg := grow_half (f := f) hn
  have h1 := (ha.mono (m := n + m + 1) (by omega) le_rfl).size
  have h2 := (hb.mono (m := n + m + 1) (by omega) le_rfl).size
  have h3 : (1 + f.grow (n + m + 1)) * (X + Y) ≤ 2 * (X + Y) :=
    mul_le_mul_of_nonneg_right hg (add_nonneg ha.nonneg hb.nonneg)
  push_cast
  rw [emax_split]
  have := abs_add_le (a : ℝ) b
  linarith

theorem fits_mul (hf : f.Std) {n m : ℕ} {a b : ℚ} {x y X Y : ℝ} (ha : Within f n a x X)
    (hb : Within f m b y Y) (h : X * Y ≤ 2 ^ (f.emax - 2)) (hn : (n + m + 1 : ℕ) * f.u ≤ 1/2) :
    ∃ r, f.round (a * b) = .fin r := by
  refine round_fits hf ?_
  have hu := u_pos f
  have hg := grow_half (f := f) hn
  have hm := grow_mono (f := f) (show n + m ≤ n + m + 1 by omega)
  have g0 := grow_nonneg (f := f) n
  have hXY := mul_nonneg ha.nonneg hb.nonneg
  push_cast
  rw [emax_split, abs_mul]
  have h1 : |(a : ℝ)| * |(b : ℝ)| ≤ ((1 + f.grow n) * X) * ((1 + f.grow m) * Y) :=
    mul_le_mul ha.size hb.size (abs_nonneg _) (mul_nonneg (by linarith) ha.nonneg)
  have h2 : ((1 + f.grow n) * X) * ((1 + f.grow m) * Y) = (1 + f.grow (n + m)) * (X * Y) := by
    rw [← grow_add]; ring
  have h3 : (1 + f.grow (n + m)) * (X * Y) ≤ 2 * (X * Y) :=
    mul_le_mul_of_nonneg_right (by linarith) hXY
  linarith

theorem ops_le {n m : ℕ} (h : n ≤ m) (hn : (m : ℕ) * f.u ≤ 1/2) : (n : ℕ) * f.u ≤ 1/2 :=
  (mul_le_mul_of_nonneg_right (Nat.cast_le.mpr h) (u_pos f).le).trans hn

theorem evaluate_fits (hf : f.Std) {vars : FMap String (Flt f L)} {ρ : String → ℝ}
    (hv : Values f L vars ρ) (e : Expr (Flt f L)) (ha : Arithmetic e)
    (hb : ∀ n, Occurs n e → ∃ v, vars.get n = some v)
    (hs : SizeAtMost ρ (2 ^ (f.emax - 2)) e) (hn : operations e * f.u ≤ 1/2) :
    ∃ r : ℚ, e.evaluate vars = .ok (Flt.fin r) := by
  have hu := u_pos f
  have ht : (0 : ℝ) < 2 ^ f.emin / f.u := by positivity
  induction e with
  | const c => obtain ⟨q, rfl, -⟩ := ha; exact ⟨q, rfl⟩
  | var n =>
    obtain ⟨v, h⟩ := hb n .var
    obtain ⟨q, rfl, -⟩ := hv n v h
    exact ⟨q, by simp only [Expr.evaluate, h]⟩
  | add l r il ir =>
    obtain ⟨hl, hr⟩ := ha
    obtain ⟨s0, s1, s2⟩ := hs
    obtain ⟨a, ha⟩ := il hl (fun n h => hb n (.addL h)) s1 (ops_le (by simp only [operations]; omega) hn)
    obtain ⟨b, hb'⟩ := ir hr (fun n h => hb n (.addR h)) s2 (ops_le (by simp only [operations]; omega) hn)
    obtain ⟨c, hc⟩ := fits_add hf (within_evaluate hf hv l hl ha) (within_evaluate hf hv r hr hb') s0 hn
    simp only [Expr.evaluate]
    split
    · rename_i x y hxy
      obtain ⟨rfl, rfl⟩ := bothConst_eq_some hxy
      have e1 : x = Flt.fin a := Except.ok.inj ha
      have e2 : y = Flt.fin b := Except.ok.inj hb'
      subst e1 e2
      exact ⟨c, congrArg Except.ok hc⟩
    · split_ifs
      · exact ⟨b, hb'⟩
      · exact ⟨a, ha⟩
      · rw [ha, hb']; exact ⟨c, congrArg Except.ok hc⟩
  | sub l r il ir =>
    obtain ⟨hl, hr⟩ := ha
    obtain ⟨s0, s1, s2⟩ := hs
    obtain ⟨a, ha⟩ := il hl (fun n h => hb n (.subL h)) s1 (ops_le (by simp only [operations]; omega) hn)
    obtain ⟨b, hb'⟩ := ir hr (fun n h => hb n (.subR h)) s2 (ops_le (by simp only [operations]; omega) hn)
    obtain ⟨c, hc⟩ := fits_add hf (within_evaluate hf hv l hl ha) (within_evaluate hf hv r hr hb').neg s0 hn
    simp only [Expr.evaluate]
    rw [ha, hb']; exact ⟨c, congrArg Except.ok hc⟩
  | mul l r il ir =>
    obtain ⟨hl, hr⟩ := ha
    obtain ⟨s0, s1, s2⟩ := hs
    obtain ⟨a, ha⟩ := il hl (fun n h => hb n (.mulL h)) s1 (ops_le (by simp only [operations]; omega) hn)
    obtain ⟨b, hb'⟩ := ir hr (fun n h => hb n (.mulR h)) s2 (ops_le (by simp only [operations]; omega) hn)
    obtain ⟨c, hc⟩ := fits_mul hf (within_evaluate hf hv l hl ha) (within_evaluate hf hv r hr hb')
      (le_trans (by simp only [magnitude]; linarith) s0) hn
    simp only [Expr.evaluate]
    split
    · rename_i x y hxy
      obtain ⟨rfl, rfl⟩ := bothConst_eq_some hxy
      have e1 : x = Flt.fin a := Except.ok.inj ha
      have e2 : y = Flt.fin b := Except.ok.inj hb'
      subst e1 e2
      exact ⟨c, congrArg Except.ok hc⟩
    · split_ifs
      · exact ⟨0, rfl⟩
      · exact ⟨b, hb'⟩
      · exact ⟨a, ha⟩
      · rw [ha, hb']; exact ⟨c, congrArg Except.ok hc⟩
  | neg e ih =>
    obtain ⟨a, h⟩ := ih ha (fun n h => hb n (.neg h)) hs hn
    simp only [Expr.evaluate]
    rw [h]; exact ⟨-a, rfl⟩
  | _ => exact absurd ha id

/-- **C94**: an arithmetic expression whose variables are bound, whose parts stay below a quarter of the
largest double and that has at most `1/(2u)` operations (`2^52` for doubles) evaluates to a finite
number that is accurate to `2·N·u` relative to its size. -/
theorem C94_evaluate_accurate (hf : f.Std) {vars : FMap String (Flt f L)} {ρ : String → ℝ}
    (hv : Values f L vars ρ) (e : Expr (Flt f L)) (ha : Arithmetic e)
    (hb : ∀ n, Occurs n e → ∃ v, vars.get n = some v)
    (hs : SizeAtMost ρ (2 ^ (f.emax - 2)) e) (hn : operations e * f.u ≤ 1/2) :
    ∃ r : ℚ, e.evaluate vars = .ok (Flt.fin r) ∧
      |(r : ℝ) - exactValue ρ e| ≤ 2 * operations e * f.u * magnitude ρ e := by
  obtain ⟨r, hr⟩ := evaluate_fits hf hv e ha hb hs hn
  refine ⟨r, hr, (C94_evaluate hf hv e ha hr).trans ?_⟩
  exact mul_le_mul_of_nonneg_right (grow_le hn) (magnitude_nonneg ρ e)

/-! ## The single-variable evaluator -/

theorem within_single (hf : f.Std) {x : String} {q : ℚ} (hq : f.Representable q) (e : Expr (Flt f L))
    (ha : Arithmetic e) {r : ℚ} (h : e.evaluateSingleVar x (Flt.fin q) = .ok (Flt.fin r)) :
    Within f (operations e) r (exactValue (fun _ => q) e) (magnitude (fun _ => q) e) := by
  induction e generalizing r with
  | const c =>
    obtain ⟨q, rfl, hq⟩ := ha
    have : Flt.fin (f := f) (L := L) q = Flt.fin r := Except.ok.inj h
    obtain rfl := FVal.fin.inj this
    exact Within.exact hq
  | var n =>
    simp only [Expr.evaluateSingleVar] at h
    split_ifs at h
    have h4 : Flt.fin (f := f) (L := L) q = Flt.fin r := Except.ok.inj h
    obtain rfl := FVal.fin.inj h4
    exact Within.exact hq
  | add l r' il ir =>
    obtain ⟨a, b, h3, h4, h5⟩ := except_bind₂ h
    obtain ⟨x, y, rfl, rfl, h6⟩ := flt_add_inv (show Flt.add f a b = .fin r from h5)
    exact (il ha.1 h3).add hf (ir ha.2 h4) h6
  | sub l r' il ir =>
    obtain ⟨a, b, h3, h4, h5⟩ := except_bind₂ h
    obtain ⟨x, y, rfl, rfl, h6⟩ := flt_sub_inv (show Flt.sub f a b = .fin r from h5)
    have := (il ha.1 h3).add hf (ir ha.2 h4).neg h6
    rw [← sub_eq_add_neg] at this
    exact this
  | mul l r' il ir =>
    obtain ⟨a, b, h3, h4, h5⟩ := except_bind₂ h
    obtain ⟨x, y, rfl, rfl, h6⟩ := flt_mul_inv (show Flt.mul f a b = .fin r from h5)
    exact (il ha.1 h3).mul hf (ir ha.2 h4) h6
  | neg e ih =>
    simp only [Expr.evaluateSingleVar] at h
    cases hE : e.evaluateSingleVar x (Flt.fin q) with
    | error e => rw [hE] at h; cases h
    | ok v =>
      rw [hE] at h
      have h1 : Flt.neg v = .fin r := Except.ok.inj h
      have h2 := flt_neg_inv h1
      have := (ih ha (r := -r) (by rw [hE, h2])).neg
      rw [neg_neg] at this
      exact this
  | _ => exact absurd ha id

theorem single_fits (hf : f.Std) {x : String} {q : ℚ} (hq : f.Representable q) (e : Expr (Flt f L))
    (ha : Arithmetic e) (hb : ∀ n, Occurs n e → n = x)
    (hs : SizeAtMost (fun _ => q) (2 ^ (f.emax - 2)) e) (hn : operations e * f.u ≤ 1/2) :
    ∃ r : ℚ, e.evaluateSingleVar x (Flt.fin q) = .ok (Flt.fin r) := by
  have hu := u_pos f
  have ht : (0 : ℝ) < 2 ^ f.emin / f.u := by positivity
  induction e with
  | const c => obtain ⟨q, rfl, -⟩ := ha; exact ⟨q, rfl⟩
  | var n => exact ⟨q, by simp only [Expr.evaluateSingleVar, hb n .var, if_true]⟩
  | add l r il ir =>
    obtain ⟨hl, hr⟩ := ha
    obtain ⟨s0, s1, s2⟩ := hs
    obtain ⟨a, ha⟩ := il hl (fun n h => hb n (.addL h)) s1 (ops_le (by simp only [operations]; omega) hn)
    obtain ⟨b, hb'⟩ := ir hr (fun n h => hb n (.addR h)) s2 (ops_le (by simp only [operations]; omega) hn)
    obtain ⟨c, hc⟩ := fits_add hf (within_single hf hq l hl ha) (within_single hf hq r hr hb') s0 hn
    simp only [Expr.evaluateSingleVar]
    rw [ha, hb']; exact ⟨c, congrArg Except.ok hc⟩
  | sub l r il ir =>
    obtain ⟨hl, hr⟩ := ha
    obtain ⟨s0, s1, s2⟩ := hs
    obtain ⟨a, ha⟩ := il hl (fun n h => hb n (.subL h)) s1 (ops_le (by simp only [operations]; omega) hn)
    obtain ⟨b, hb'⟩ := ir hr (fun n h => hb n (.subR h)) s2 (ops_le (by simp only [operations]; omega) hn)
    obtain ⟨c, hc⟩ := fits_add hf (within_single hf hq l hl ha) (within_single hf hq r hr hb').neg s0 hn
    simp only [Expr.evaluateSingleVar]
    rw [ha, hb']; exact ⟨c, congrArg Except.ok hc⟩
  | mul l r il ir =>
    obtain ⟨hl, hr⟩ := ha
    obtain ⟨s0, s1, s2⟩ := hs
    obtain ⟨a, ha⟩ := il hl (fun n h => hb n (.mulL h)) s1 (ops_le (by simp only [operations]; omega) hn)
    obtain ⟨b, hb'⟩ := ir hr (fun n h => hb n (.mulR h)) s2 (ops_le (by simp only [operations]; omega) hn)
    obtain ⟨c, hc⟩ := fits_mul hf (within_single hf hq l hl ha) (within_single hf hq r hr hb')
      (le_trans (by simp only [magnitude]; linarith) s0) hn
    simp only [Expr.evaluateSingleVar]
    rw [ha, hb']; exact ⟨c, congrArg Except.ok hc⟩
  | neg e ih =>
    obtain ⟨a, h⟩ := ih ha (fun n h => hb n (.neg h)) hs hn
    simp only [Expr.evaluateSingleVar]
    rw [h]; exact ⟨-a, rfl⟩
  | _ => exact absurd ha id

/-- **C94**: the same for the single-variable evaluator. -/
theorem C94_single_var_accurate (hf : f.Std) {x : String} {q : ℚ} (hq : f.Representable q)
    (e : Expr (Flt f L)) (ha : Arithmetic e) (hb : ∀ n, Occurs n e → n = x)
    (hs : SizeAtMost (fun _ => q) (2 ^ (f.emax - 2)) e) (hn : operations e * f.u ≤ 1/2) :
    ∃ r : ℚ, e.evaluateSingleVar x (Flt.fin q) = .ok (Flt.fin r) ∧
      |(r : ℝ) - exactValue (fun _ => q) e| ≤ 2 * operations e * f.u * magnitude (fun _ => q) e := by
  obtain ⟨r, hr⟩ := single_fits hf hq e ha hb hs hn
  refine ⟨r, hr, (within_single hf hq e ha hr).err.trans ?_⟩
  exact mul_le_mul_of_nonneg_right (grow_le hn) (magnitude_nonneg _ e)

/-! ## The polynomial and linear shortcuts -/

theorem option_bind₂ {α β γ : Type} {a : Option α} {b : Option β} {g : α → β → γ} {c : γ}
    (h : (match a, b with | some x, some y => some (g x y) | _, _ => none) = some c) :
    ∃ x y, a = some x ∧ b = some y ∧ g x y = c := by
  cases a with
  | none => cases h
  | some x =>
    cases b with
    | none => cases h
    | some y => exact ⟨x, y, rfl, rfl, Option.some.inj h⟩

theorem within_polynomial (hf : f.Std) {x : String} {q : ℚ} (hq : f.Representable q) (e : Expr (Flt f L))
    (ha : Arithmetic e) {r : ℚ} (h : e.evaluatePolynomial x (Flt.fin q) = some (Flt.fin r)) :
    Within f (operations e) r (exactValue (fun _ => q) e) (magnitude (fun _ => q) e) := by
  fun_induction evaluatePolynomial x (Flt.fin (f := f) (L := L) q) e generalizing r with
  | case1 c =>
    obtain ⟨q, rfl, hq⟩ := ha
    have : Flt.fin (f := f) (L := L) q = Flt.fin r := Option.some.inj h
    obtain rfl := FVal.fin.inj this
    exact Within.exact hq
  | case2 =>
    have : Flt.fin (f := f) (L := L) q = Flt.fin r := Option.some.inj h
    obtain rfl := FVal.fin.inj this
    exact Within.exact hq
  | case4 a =>
    obtain ⟨⟨q', rfl, hq'⟩, -⟩ := ha
    exact (Within.exact hq').mul hf (Within.exact hq) (Option.some.inj h)
  | case6 a =>
    obtain ⟨-, ⟨q', rfl, hq'⟩⟩ := ha
    have := (Within.exact hq').mul hf (Within.exact hq) (Option.some.inj h)
    rw [mul_comm (q' : ℝ), mul_comm |(q' : ℝ)|] at this
    exact this
  | case10 l r' a b h1 h2 il ir =>
    obtain ⟨x, y, rfl, rfl, h6⟩ := flt_add_inv (show Flt.add f a b = .fin r from Option.some.inj h)
    exact (il ha.1 h2).add hf (ir ha.2 h1) h6
  | case12 l r' a b h1 h2 il ir =>
    obtain ⟨x, y, rfl, rfl, h6⟩ := flt_sub_inv (show Flt.sub f a b = .fin r from Option.some.inj h)
    have := (il ha.1 h2).add hf (ir ha.2 h1).neg h6
    rw [← sub_eq_add_neg] at this
    exact this
  | _ => first | exact absurd ha id | cases h | simp [Arithmetic] at ha

theorem within_linear (hf : f.Std) {x : String} (e : Expr (Flt f L)) (ha : Arithmetic e) {a b : ℚ}
    (h : e.extractLinearCoefficients x = some (Flt.fin a, Flt.fin b)) :
    ∃ A B X Y : ℝ, Within f (operations e) a A X ∧ Within f (operations e) b B Y ∧
      ∀ t : ℝ, exactValue (fun _ => t) e = A * t + B ∧ X * |t| + Y ≤ magnitude (fun _ => t) e := by
  have hu := u_pos f
  have ht : (0 : ℝ) < 2 ^ f.emin / f.u := by positivity
  have w0 : Within f 0 0 0 0 := by simpa using Within.exact (rep_zero f)
  have w1 : Within f 0 1 1 1 := by simpa using Within.exact (hf.rep_one)
  have key : ∀ {p q p' q' : Flt f L}, some (p, q) = some (p', q') → p = p' ∧ q = q' :=
    fun h => Prod.mk.inj (Option.some.inj h)
  fun_induction extractLinearCoefficients x e generalizing a b with
  | case1 c =>
    obtain ⟨q, rfl, hq⟩ := ha
    obtain ⟨h1, h2⟩ := key h
    obtain rfl := FVal.fin.inj h1
    obtain rfl := FVal.fin.inj h2
    exact ⟨0, q, 0, |(q : ℝ)|, w0, Within.exact hq, fun t => by simp [exactValue, magnitude, realOf, Flt.fin]⟩
  | case2 =>
    obtain ⟨h1, h2⟩ := key h
    obtain rfl := FVal.fin.inj h1
    obtain rfl := FVal.fin.inj h2
    exact ⟨1, 0, 1, 0, w1, w0, fun t => by simp [exactValue, magnitude]⟩
  | case4 c =>
    obtain ⟨⟨q, rfl, hq⟩, -⟩ := ha
    obtain ⟨h1, h2⟩ := key h
    obtain rfl := FVal.fin.inj h1
    obtain rfl := FVal.fin.inj h2
    refine ⟨q, 0, |(q : ℝ)|, 0, (Within.exact hq).mono (Nat.zero_le _) le_rfl, w0.mono (Nat.zero_le _) le_rfl,
      fun t => ?_⟩
    constructor
    · simp [exactValue, realOf, Flt.fin]
    · simp only [magnitude, realOf, Flt.fin]; linarith
  | case6 c =>
    obtain ⟨-, ⟨q, rfl, hq⟩⟩ := ha
    obtain ⟨h1, h2⟩ := key h
    obtain rfl := FVal.fin.inj h1
    obtain rfl := FVal.fin.inj h2
    refine ⟨q, 0, |(q : ℝ)|, 0, (Within.exact hq).mono (Nat.zero_le _) le_rfl, w0.mono (Nat.zero_le _) le_rfl,
      fun t => ?_⟩
    constructor
    · simp only [exactValue, realOf, Flt.fin]; ring
    · simp only [magnitude, realOf, Flt.fin]; rw [mul_comm]; linarith
  | case8 l r a1 b1 a2 b2 h1 h2 il ir =>
    obtain ⟨k1, k2⟩ := key h
    obtain ⟨p, q, rfl, rfl, hp⟩ := flt_add_inv (show Flt.add f a1 a2 = .fin a from k1)
    obtain ⟨p', q', rfl, rfl, hp'⟩ := flt_add_inv (show Flt.add f b1 b2 = .fin b from k2)
    obtain ⟨A, B, X, Y, wa, wb, H⟩ := il ha.1 h2
    obtain ⟨A', B', X', Y', wa', wb', H'⟩ := ir ha.2 h1
    refine ⟨A + A', B + B', X + X', Y + Y', wa.add hf wa' hp, wb.add hf wb' hp', fun t => ?_⟩
    obtain ⟨e1, m1⟩ := H t
    obtain ⟨e2, m2⟩ := H' t
    constructor
    · simp only [exactValue, e1, e2]; ring
    · simp only [magnitude]; linarith
  | case10 l r a1 b1 a2 b2 h1 h2 il ir =>
    obtain ⟨k1, k2⟩ := key h
    obtain ⟨p, q, rfl, rfl, hp⟩ := flt_sub_inv (show Flt.sub f a1 a2 = .fin a from k1)
    obtain ⟨p', q', rfl, rfl, hp'⟩ := flt_sub_inv (show Flt.sub f b1 b2 = .fin b from k2)
    obtain ⟨A, B, X, Y, wa, wb, H⟩ := il ha.1 h2
    obtain ⟨A', B', X', Y', wa', wb', H'⟩ := ir ha.2 h1
    refine ⟨A + -A', B + -B', X + X', Y + Y', wa.add hf wa'.neg hp, wb.add hf wb'.neg hp', fun t => ?_⟩
    obtain ⟨e1, m1⟩ := H t
    obtain ⟨e2, m2⟩ := H' t
    constructor
    · simp only [exactValue, e1, e2]; ring
    · simp only [magnitude]; linarith
  | _ => first | exact absurd ha id | cases h | simp [Arithmetic] at ha

/-- **C94**: when `evaluate_smart` returns a finite number — whether it took the linear shortcut, the
polynomial shortcut or neither — that number is within `(1+u)^(N+2) - 1` of the exact value, relative to
the size of the expression. -/
theorem C94_smart (hf : f.Std) {x : String} {q : ℚ} (hq : f.Representable q) (e : Expr (Flt f L))
    (ha : Arithmetic e) {r : ℚ} (h : e.evaluateSmart x (Flt.fin q) = .ok (Flt.fin r)) :
    |(r : ℝ) - exactValue (fun _ => q) e| ≤
      ((1 + f.u) ^ (operations e + 2) - 1) * (magnitude (fun _ => q) e + 2 ^ f.emin / f.u) := by
  have hu := u_pos f
  have ht : (0 : ℝ) < 2 ^ f.emin / f.u := by positivity
  suffices Within f (operations e + 2) r (exactValue (fun _ => q) e)
      (magnitude (fun _ => q) e + 2 ^ f.emin / f.u) from this.err
  unfold Expr.evaluateSmart at h
  cases hl : e.evaluateLinear x (Flt.fin q) with
  | some v =>
    rw [hl] at h
    have h1 : v = Flt.fin r := Except.ok.inj h
    subst h1
    unfold Expr.evaluateLinear at hl
    cases hx : e.extractLinearCoefficients x with
    | none => rw [hx] at hl; cases hl
    | some p =>
      obtain ⟨a, b⟩ := p
      rw [hx] at hl
      obtain ⟨y, z, hy, rfl, h3⟩ := flt_add_inv (show Flt.add f (Flt.mul f a (.fin q)) b = .fin r from Option.some.inj hl)
      obtain ⟨a', q', rfl, hq', h4⟩ := flt_mul_inv hy
      obtain rfl := FVal.fin.inj hq'
      obtain ⟨A, B, X, Y, wa, wb, H⟩ := within_linear hf e ha hx
      obtain ⟨e1, m1⟩ := H q
      rw [e1]
      have w2 := (wa.mul hf (Within.exact hq) h4).add_same hf (wb.mono (m := operations e + 0 + 1) (by omega) le_rfl) h3
      exact w2.mono (by omega) (by linarith)
  | none =>
    rw [hl] at h
    simp only at h
    cases hp : e.evaluatePolynomial x (Flt.fin q) with
    | some v =>
      rw [hp] at h
      have h1 : v = Flt.fin r := Except.ok.inj h
      subst h1
      exact (within_polynomial hf hq e ha hp).mono (by omega) (by linarith)
    | none =>
      rw [hp] at h
      exact (within_single hf hq e ha h).mono (by omega) (by linarith)

/-! ## Where the results are not numbers -/

theorem round_two_pow (hf : f.Std) : f.round (2 ^ (f.emax - 1) + 2 ^ (f.emax - 1)) = .inf false := by
  refine round_overflow hf ?_
  rw [show f.emax = (f.emax - 1) + 1 by ring, zpow_add_one₀ (by norm_num)]
  simp only [add_sub_cancel_right]
  linarith

/-- **C94** cannot be strengthened to say that `evaluate_smart` and `evaluate` agree: for the expression
`2^1023·x + 2^1023·x` at `x = 0`, which is zero and which `evaluate` computes exactly, `evaluate_smart`
returns NaN, because the combined coefficient of its linear shortcut overflows. -/
theorem C94_smart_overflow_violated :
    ∃ e : Expr (Flt f64 L), Arithmetic e ∧ SizeAtMost (fun _ => 0) (2 ^ (f64.emax - 2)) e ∧
      e.evaluate ((FMap.empty : FMap String (Flt f64 L)).insert "x" (Flt.fin 0)) = .ok (Flt.fin 0) ∧
      e.evaluateSingleVar "x" (Flt.fin 0) = .ok (Flt.fin 0) ∧
      e.evaluateSmart "x" (Flt.fin 0) = .ok Flt.nan := by
  have hf : f64.Std := .inl rfl
  obtain ⟨b, hb⟩ : ∃ b : ℚ, b = 2 ^ (f64.emax - 1) := ⟨_, rfl⟩
  have h2 := round_two_pow hf
  rw [← hb] at h2
  have hr : f64.Representable b := hb ▸ rep_pow f64 (by decide) (by decide) (by decide)
  have hb0 : b ≠ 0 := by rw [hb]; positivity
  have hb1 : b ≠ 1 := by rw [hb]; exact ne_of_gt (one_lt_zpow₀ (by norm_num) (by decide))
  clear hb
  have h0 : f64.round 0 = .fin 0 := f64.round_exact (rep_zero f64)
  have hm : Flt.mul f64 (.fin b) (.fin 0) = .fin 0 := by
    simp only [Flt.mul, mul_zero, h0]
  have ha : Flt.add f64 (.fin 0) (.fin 0) = .fin 0 := by simp only [Flt.add, add_zero, h0]
  have hne : Flt.beq (.fin b) (.fin 0) = false := by
    simp only [Flt.beq, decide_eq_false_iff_not]; exact hb0
  have hne1 : Flt.beq (.fin b) (.fin 1) = false := by
    simp only [Flt.beq, decide_eq_false_iff_not]
    exact hb1
  refine ⟨add (mul (const (Flt.fin b)) (var "x"))
    (mul (const (Flt.fin b)) (var "x")), ?_, ?_, ?_, ?_, ?_⟩
  · exact ⟨⟨⟨_, rfl, hr⟩, trivial⟩, ⟨_, rfl, hr⟩, trivial⟩
  · have hu : f64.u = 1 / 2 ^ 53 := rfl
    have h1 : (2 : ℝ) ^ f64.emin / f64.u ≤ 1 := by
      rw [hu, div_le_one (by positivity), show f64.emin = -1074 from rfl, ← zpow_natCast, one_div, ← zpow_neg]
      exact zpow_le_zpow_right₀ (by norm_num) (by norm_num)
    have h3 : (2 : ℝ) ≤ 2 ^ (f64.emax - 2) := by
      calc (2 : ℝ) = 2 ^ (1 : ℤ) := by norm_num
        _ ≤ _ := zpow_le_zpow_right₀ (by norm_num) (by decide)
    simp only [SizeAtMost, magnitude, abs_zero, mul_zero, zero_add, and_true]
    exact ⟨by linarith, by linarith, by linarith⟩
  · have key : ∀ a : FVal, Expr.evaluate (F := Flt f64 L) (FMap.empty.insert "x" (Flt.fin 0))
        (mul (const (Flt.fin b)) (var "x")) = .ok (Flt.fin 0) := by
      intro _
      have e0 : isConst (F := Flt f64 L) zero (const (Flt.fin b)) = false := hne
      have e1 : isConst (F := Flt f64 L) one (const (Flt.fin b)) = false := hne1
      simp only [Expr.evaluate, bothConst, e0, e1, FMap.insert, if_true]
      exact congrArg Except.ok hm
    rw [Expr.evaluate]
    simp only [bothConst, key .nan, isConst]
    exact congrArg Except.ok ha
  · simp only [Expr.evaluateSingleVar, if_true]
    show Except.ok (Flt.add f64 (Flt.mul f64 _ _) (Flt.mul f64 _ _)) = _
    rw [hm, ha]; rfl
  · have e : Flt.add f64 (Flt.mul f64 (Flt.add f64 (.fin b) (.fin b)) (.fin 0))
        (Flt.add f64 (.fin 0) (.fin 0)) = .nan := by
      rw [ha]; simp only [Flt.add, h2, Flt.mul, if_true]
    simp only [Expr.evaluateSmart, Expr.evaluateLinear, extractLinearCoefficients, if_true]
    exact congrArg Except.ok e

theorem exp_overflow (hf : f.Std) (hL : L.Accurate f) {q : ℚ} (hq : f.Representable q) (h : 1000 ≤ q) :
    L.exp q = .inf false := by
  rcases hL.exp q hq with ⟨r, hr, hrep, he⟩ | ⟨h, -⟩
  · exfalso
    have h1 : (2 : ℝ) ^ (1026 : ℤ) ≤ Real.exp q := by
      rw [← Real.log_le_iff_le_exp (by positivity), Real.log_zpow]
      have := Real.log_two_lt_d9
      have h2 : (1000 : ℝ) ≤ q := by exact_mod_cast h
      push_cast
      linarith
    have hu := hf.u_le
    have hu0 := u_pos f
    have h2 : (2 : ℝ) ^ (f.emax) ≤ 2 ^ (1024 : ℤ) :=
      zpow_le_zpow_right₀ (by norm_num) (by rcases hf with rfl | rfl <;> decide)
    have h3 : (2 : ℝ) ^ f.emin ≤ 1 := by
      refine zpow_le_one_of_nonpos₀ (by norm_num) (by rcases hf with rfl | rfl <;> decide)
    have h4 : |(r : ℝ)| < 2 ^ f.emax := by
      rw [← cast_zpow, ← Rat.cast_abs]; exact Rat.cast_lt.mpr hrep.2
    have h5 := (abs_lt.mp h4).2
    have h6 := (abs_le.mp he).1
    have h7 : f.u * Real.exp q ≤ (1 / 2 ^ 24) * Real.exp q := by
      have := Real.exp_pos (q : ℝ)
      gcongr
    have h8 : (2 : ℝ) ^ (1026 : ℤ) = 4 * 2 ^ (1024 : ℤ) := by
      rw [show (1026 : ℤ) = 1024 + 2 by norm_num, zpow_add₀ (by norm_num)]; norm_num [mul_comm]
    have h9 : (1 : ℝ) ≤ 2 ^ (1024 : ℤ) := one_le_zpow₀ (by norm_num) (by norm_num)
    rw [h8] at h1
    generalize (2 : ℝ) ^ (1024 : ℤ) = T at *
    have h10 : (1 / 2 ^ 24) * Real.exp q ≤ (1 / 16) * Real.exp q := by
      have := Real.exp_pos (q : ℝ)
      gcongr
      norm_num
    have h11 : 2 * f.u * Real.exp q = 2 * (f.u * Real.exp q) := by ring
    rw [h11] at h6
    clear h8 hu he h4
    linarith
  · exact h

/-- **C94**: simplification changes results in floating point: `ln(exp(x))` at `x = 1000` evaluates to
`+∞`, and to `1000` after `simplify`. -/
theorem C94_simplify_violated (hL : L.Accurate f64) :
    ∃ e : Expr (Flt f64 L),
      e.evaluate ((FMap.empty : FMap String (Flt f64 L)).insert "x" (Flt.fin 1000)) = .ok Flt.posInf ∧
      e.simplify.evaluate ((FMap.empty : FMap String (Flt f64 L)).insert "x" (Flt.fin 1000)) =
        .ok (Flt.fin 1000) := by
  have hr : f64.Representable 1000 :=
    ⟨⟨1000, 0, by norm_num [f64], by norm_num [f64], by norm_num⟩, lt_f64_max (by norm_num)⟩
  have hx := exp_overflow (.inl rfl) hL hr le_rfl
  refine ⟨ln (exp (var "x")), ?_, ?_⟩
  · simp only [Expr.evaluate, FMap.insert, if_true]
    have e1 : FloatOps.exp (Flt.fin (f := f64) (L := L) 1000) = Flt.posInf := hx
    simp only [bind, Except.bind, e1]
    rfl
  · have : (ln (exp (var "x")) : Expr (Flt f64 L)).simplify = var "x" := by
      simp [Expr.simplify, Expr.simplifyWithBound, simplifyLn, simplifyExp]
    rw [this]
    simp [Expr.evaluate, FMap.insert]

/-- the hypotheses of `C94_evaluate_accurate` are met: `(x + 1)·x - 3` at `x = 2` in doubles -/
example : let e : Expr (Flt f64 L) := sub (mul (add (var "x") (const (Flt.fin 1))) (var "x")) (const (Flt.fin 3))
    Arithmetic e ∧ (∀ n, Occurs n e → ∃ v, ((FMap.empty : FMap String (Flt f64 L)).insert "x" (Flt.fin 2)).get n = some v) ∧
      SizeAtMost (fun _ => 2) (2 ^ (f64.emax - 2)) e ∧ operations e * f64.u ≤ 1/2 ∧
      exactValue (fun _ => 2) e = 3 := by
  have hu : f64.u = 1 / 2 ^ 53 := rfl
  have r1 : f64.Representable 1 := Format.Std.rep_one (.inl rfl)
  have r3 : f64.Representable 3 :=
    ⟨⟨3, 0, by norm_num [f64], by norm_num [f64], by norm_num⟩, lt_f64_max (by norm_num)⟩
  have h1 : (2 : ℝ) ^ f64.emin / f64.u ≤ 1 := by
    rw [hu, div_le_one (by positivity), show f64.emin = -1074 from rfl, ← zpow_natCast, one_div, ← zpow_neg]
    exact zpow_le_zpow_right₀ (by norm_num) (by norm_num)
  have h3 : (16 : ℝ) ≤ 2 ^ (f64.emax - 2) := by
    calc (16 : ℝ) = 2 ^ (4 : ℤ) := by norm_num
      _ ≤ _ := zpow_le_zpow_right₀ (by norm_num) (by decide)
  refine ⟨⟨⟨⟨trivial, 1, rfl, r1⟩, trivial⟩, 3, rfl, r3⟩, ?_, ?_, ?_, ?_⟩
  · intro n h
    cases h with
    | subL h => cases h with
      | mulL h => cases h with
        | addL h => cases h; exact ⟨_, rfl⟩
        | addR h => cases h
      | mulR h => cases h; exact ⟨_, rfl⟩
    | subR h => cases h
  · simp only [SizeAtMost, magnitude, realOf, Flt.fin]
    norm_num
    exact ⟨by linarith, by linarith, by linarith⟩
  · simp only [operations, hu]; norm_num
  · simp only [exactValue, realOf, Flt.fin]; norm_num

end Verif
