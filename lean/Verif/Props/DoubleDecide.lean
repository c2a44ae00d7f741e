import Verif.Props.DoubleRelative
import Verif.Props.DoubleMonotone
import Verif.Props.DoubleSum

/-!
# C141 in floating point: computed decisions
-/

namespace Verif
open Format FloatOps ProbabilityTheory LogDensity

variable {f : Format} {L : Libm} {M B T : Type}

/-- the computed difference of two numbers of the format has the sign of the exact one -/
theorem sub_pos_iff (hf : f.Std) {a b : FVal} (ha : f.Valid a) (hb : f.Valid b) :
    Flt.lt (.fin 0) (Flt.sub f a b) = Flt.lt b a := by
  cases a with
  | nan => cases b <;> rfl
  | inf s =>
    cases b with
    | nan => cases s <;> rfl
    | inf t => cases s <;> cases t <;> rfl
    | fin q => cases s <;> rfl
  | fin p =>
    cases b with
    | nan => rfl
    | inf t => cases t <;> rfl
    | fin q =>
      show Flt.lt (.fin 0) (f.round (p + -q)) = Flt.lt (.fin q) (.fin p)
      have hp1 := prec1 hf
      have u1 : (2:ℚ) ^ f.prec ≥ 2 := by
        calc (2:ℚ) = 2 ^ 1 := by norm_num
          _ ≤ 2 ^ f.prec := pow_le_pow_right₀ (by norm_num) hp1
      rcases f.round_cases (p + -q) with ⟨r, hr⟩ | hr
      · rw [hr]
        have he := f.round_add_error ha (rep_neg hb) hr
        have h2 : |p + -q| / 2 ^ f.prec ≤ |p + -q| / 2 :=
          div_le_div_of_nonneg_left (abs_nonneg _) two_pos u1
        have h3 := abs_le.1 (he.trans h2)
        show decide (0 < r) = decide (q < p)
        rw [decide_eq_decide]
        rcases lt_trichotomy q p with h | h | h
        · rw [abs_of_pos (by linarith)] at h3
          exact iff_of_true (by linarith) h
        · subst h
          rw [add_neg_cancel, abs_zero, zero_div] at h3
          exact iff_of_false (by linarith) (lt_irrefl _)
        · rw [abs_of_neg (by linarith)] at h3
          exact iff_of_false (by linarith) h.not_gt
      · rw [hr]
        by_cases h : p + -q < 0
        · rw [decide_eq_true h]
          show false = decide (q < p)
          rw [decide_eq_false (by linarith)]
        · rw [decide_eq_false h]
          show true = decide (q < p)
          rcases (not_lt.1 h).eq_or_lt with h0 | h0
          · rw [← h0, f.round_exact f.rep_zero] at hr; cases hr
          · rw [decide_eq_true (by linarith)]

section
variable [Measure M T] [Measure B T] [HasLogDensity M T (Flt f L)] [HasLogDensity B T (Flt f L)]

/-- **C141** (computed, sign): the computed relative log-density is positive exactly when the computed log-density of the
first distribution exceeds that of the second; at all values, infinities and NaN included. -/
theorem C141_computed_sign (hf : f.Std) (lay : Layout) (hl : lay.Legal) (hM : 0 < lay.sizeMeasure) (hB : 0 < lay.sizeBase)
    (addr : ℕ) (m : M) (b : B) (x : T) (hm : f.Valid (logDensityWrtRoot m x : Flt f L))
    (hb : f.Valid (logDensityWrtRoot b x : Flt f L)) :
    ((Flt.fin 0 : Flt f L) <. relLogDensity (F := Flt f L) lay addr m b x)
      = ((logDensityWrtRoot b x : Flt f L) <. logDensityWrtRoot m x) := by
  have ap : lay.Apart := fun h => C04_shortcut_never_fires_partial lay hl hM hB 0 (by rw [h])
  rw [C01_relative_log_density_apart_partial lay ap]
  exact sub_pos_iff hf hm hb

/-- **C141** (computed, margin): with log-densities computed to within `δ` and `ε`, the decision for the first distribution
is made when the exact margin exceeds `δ + ε`, and is not made when it falls short of `-(δ + ε)`. -/
theorem C141_computed_margin (hf : f.Std) (lay : Layout) (hl : lay.Legal) (hM : 0 < lay.sizeMeasure)
    (hB : 0 < lay.sizeBase) (addr : ℕ) (m : M) (b : B) (x : T) {p q : ℚ} {P Q δ ε : ℝ}
    (hp : logDensityWrtRoot m x = Flt.fin (f := f) (L := L) p) (rp : f.Representable p) (ep : |(p : ℝ) - P| ≤ δ)
    (hq : logDensityWrtRoot b x = Flt.fin (f := f) (L := L) q) (rq : f.Representable q) (eq : |(q : ℝ) - Q| ≤ ε) :
    (δ + ε < P - Q → ((Flt.fin 0 : Flt f L) <. relLogDensity (F := Flt f L) lay addr m b x) = true) ∧
    (P - Q < -(δ + ε) → ((Flt.fin 0 : Flt f L) <. relLogDensity (F := Flt f L) lay addr m b x) = false) := by
  rw [C141_computed_sign hf lay hl hM hB addr m b x (by rw [hp]; exact rp) (by rw [hq]; exact rq), hp, hq]
  have h1 := abs_le.1 ep
  have h2 := abs_le.1 eq
  refine ⟨fun h => ?_, fun h => ?_⟩
  · have : (q : ℝ) < p := by linarith
    exact decide_eq_true (by exact_mod_cast this)
  · have : (p : ℝ) < q := by linarith
    exact decide_eq_false (not_lt.2 (by exact_mod_cast this.le))

end

/-- **C141** (computed, normal distributions): deciding between two normal distributions in floating point is right
whenever the logarithm of the ratio of the densities exceeds the stated multiple of the unit roundoff. -/
theorem C141_computed_normal (hf : f.Std) (hL : L.Accurate f) (lay : Layout) (hl : lay.Legal) (hM : 0 < lay.sizeMeasure)
    (hB : 0 < lay.sizeBase) (addr : ℕ) {μ₁ σ₁ μ₂ σ₂ x : ℚ} (hμ₁ : f.Representable μ₁) (hσ₁ : f.Representable σ₁)
    (hμ₂ : f.Representable μ₂) (hσ₂ : f.Representable σ₂) (hx : f.Representable x) {d₁ d₂ : Normal (Flt f L)}
    (h₁ : Normal.new (Flt.fin μ₁) (Flt.fin σ₁) = .ok d₁) (h₂ : Normal.new (Flt.fin μ₂) (Flt.fin σ₂) = .ok d₂)
    (r₁ : |(x : ℝ) - μ₁| ≤ 2 ^ (f.emax - 1)) (z₁ : (((x : ℝ) - μ₁) / σ₁) ^ 2 ≤ 2 ^ (f.emax - 4))
    (r₂ : |(x : ℝ) - μ₂| ≤ 2 ^ (f.emax - 1)) (z₂ : (((x : ℝ) - μ₂) / σ₂) ^ 2 ≤ 2 ^ (f.emax - 4))
    {E : ℝ} (hE : E = 64 * f.u * (2 + |Real.log σ₁| + |Real.log σ₂| + (((x : ℝ) - μ₁) / σ₁) ^ 2 / 2
      + (((x : ℝ) - μ₂) / σ₂) ^ 2 / 2)) :
    (E < Real.log (gaussianPDFReal μ₁ ((σ₁ : ℝ) ^ 2).toNNReal x) - Real.log (gaussianPDFReal μ₂ ((σ₂ : ℝ) ^ 2).toNNReal x) →
      ((Flt.fin 0 : Flt f L) <. relLogDensity (F := Flt f L) lay addr d₁ d₂ (Flt.fin x)) = true) ∧
    (E < Real.log (gaussianPDFReal μ₂ ((σ₂ : ℝ) ^ 2).toNNReal x) - Real.log (gaussianPDFReal μ₁ ((σ₁ : ℝ) ^ 2).toNNReal x) →
      ((Flt.fin 0 : Flt f L) <. relLogDensity (F := Flt f L) lay addr d₁ d₂ (Flt.fin x)) = false) := by
  obtain ⟨p, hp, rp, ep⟩ := (C88_normal hf hL hμ₁ hσ₁ hx h₁).resolve_right fun h => by
    rcases h.2 with h | h <;> linarith
  obtain ⟨q, hq, rq, eq⟩ := (C88_normal hf hL hμ₂ hσ₂ hx h₂).resolve_right fun h => by
    rcases h.2 with h | h <;> linarith
  have := C141_computed_margin hf lay hl hM hB addr d₁ d₂ (Flt.fin x) hp rp ep hq rq eq
  rw [hE]
  exact ⟨fun h => this.1 (by linarith), fun h => this.2 (by linarith)⟩

/-- **C141** (computed, samples from normal distributions): the same for the joint log-density of a sample of any size. -/
theorem C141_computed_normal_sample (hf : f.Std) (hL : L.Accurate f) {μ₁ σ₁ μ₂ σ₂ : ℚ} {xs : List ℚ}
    (hμ₁ : f.Representable μ₁) (hσ₁ : f.Representable σ₁)
    (hμ₂ : f.Representable μ₂) (hσ₂ : f.Representable σ₂) (hx : ∀ x ∈ xs, f.Representable x) (hne : xs ≠ [])
    (hn : xs.length * f.u ≤ 1/1000) {d₁ d₂ : Normal (Flt f L)}
    (h₁ : Normal.new (Flt.fin μ₁) (Flt.fin σ₁) = .ok d₁) (h₂ : Normal.new (Flt.fin μ₂) (Flt.fin σ₂) = .ok d₂)
    (r₁ : ∀ x ∈ xs, |(x : ℝ) - μ₁| ≤ 2 ^ (f.emax - 1))
    (z₁ : (xs.map fun x : ℚ => (((x : ℝ) - μ₁) / σ₁) ^ 2).sum ≤ 2 ^ (f.emax - 6))
    (r₂ : ∀ x ∈ xs, |(x : ℝ) - μ₂| ≤ 2 ^ (f.emax - 1))
    (z₂ : (xs.map fun x : ℚ => (((x : ℝ) - μ₂) / σ₂) ^ 2).sum ≤ 2 ^ (f.emax - 6))
    {E : ℝ} (hE : E = (100 + 12 * xs.length) * f.u *
      ((xs.map fun x : ℚ => 1 + |Real.log σ₁| + (((x : ℝ) - μ₁) / σ₁) ^ 2 / 2).sum
      + (xs.map fun x : ℚ => 1 + |Real.log σ₂| + (((x : ℝ) - μ₂) / σ₂) ^ 2 / 2).sum))
    (hm : E < (xs.map fun x : ℚ => Real.log (gaussianPDFReal μ₁ ((σ₁ : ℝ) ^ 2).toNNReal x)).sum
      - (xs.map fun x : ℚ => Real.log (gaussianPDFReal μ₂ ((σ₂ : ℝ) ^ 2).toNNReal x)).sum) :
    (d₂.logDensityIid (xs.map Flt.fin) <. d₁.logDensityIid (xs.map Flt.fin)) = true := by
  obtain ⟨p, hp, rp, ep⟩ := (C91_normal_iid hf hL hμ₁ hσ₁ hx hne hn h₁).resolve_right fun h => by
    rcases h.2 with ⟨x, hx, h⟩ | h
    · linarith [r₁ x hx]
    · linarith
  obtain ⟨q, hq, rq, eq⟩ := (C91_normal_iid hf hL hμ₂ hσ₂ hx hne hn h₂).resolve_right fun h => by
    rcases h.2 with ⟨x, hx, h⟩ | h
    · linarith [r₂ x hx]
    · linarith
  rw [hp, hq]
  have h1 := abs_le.1 ep
  have h2 := abs_le.1 eq
  have : (q : ℝ) < p := by linarith
  exact decide_eq_true (by exact_mod_cast this)

/-- the hypotheses hold: the standard normal against the normal of mean 1, at 0, in double precision -/
example : ∃ L : Libm, L.Accurate f64 ∧ ∃ d₁ d₂ : Normal (Flt f64 L),
    Normal.new (Flt.fin 0) (Flt.fin 1) = .ok d₁ ∧ Normal.new (Flt.fin 1) (Flt.fin 1) = .ok d₂ ∧
    ((Flt.fin 0 : Flt f64 L) <. relLogDensity (F := Flt f64 L) ⟨0, 16, 16, 16, 32⟩ 0 d₁ d₂ (Flt.fin 0)) = true := by
  have hf : f64.Std := .inl rfl
  obtain ⟨L, hL⟩ := exists_libm hf
  have n₁ : Normal.new (Flt.fin 0 : Flt f64 L) (Flt.fin 1) = .ok ⟨Flt.fin 0, Flt.fin 1⟩ := rfl
  have n₂ : Normal.new (Flt.fin 1 : Flt f64 L) (Flt.fin 1) = .ok ⟨Flt.fin 1, Flt.fin 1⟩ := rfl
  refine ⟨L, hL, _, _, n₁, n₂, ?_⟩
  refine (C141_computed_normal hf hL ⟨0, 16, 16, 16, 32⟩ ⟨by decide, by decide, by decide⟩ (by decide) (by decide) 0
    (μ₁ := 0) (σ₁ := 1) (μ₂ := 1) (σ₂ := 1) (x := 0) f64.rep_zero hf.rep_one hf.rep_one hf.rep_one f64.rep_zero n₁ n₂
    ?_ ?_ ?_ ?_ rfl).1 ?_
  · push_cast; rw [sub_zero, abs_zero]; positivity
  · push_cast; rw [sub_zero, zero_div, zero_pow two_ne_zero]; positivity
  · norm_num [f64]; exact one_le_pow₀ one_le_two
  · norm_num [f64]; exact one_le_pow₀ one_le_two
  · rw [log_gaussian_flt (by norm_num), log_gaussian_flt (by norm_num)]
    have : f64.u ≤ 1 / 1000 := by norm_num [Format.u, f64]
    norm_num
    linarith

end Verif
