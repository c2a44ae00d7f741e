import Verif.Spec.Bayes
import Verif.Props.RadonNikodymDist
import Verif.Props.Likelihood
import Verif.Props.Conjugate
import Verif.Props.Identifiable
import Mathlib.Analysis.SpecialFunctions.Gamma.Beta

/-!
# C131: updating a belief with data gives the textbook posterior
-/

namespace Verif
open FloatOps XReal Spec ExponentialFamily MeasureTheory

/-! ### general facts -/

theorem density_add_fin (a : XReal) (ha : a.IsFin ∨ a = ninf) (b : XReal) (hb : b.IsFin ∨ b = ninf) :
    density (a +. b) = density a * density b := by
  rcases ha with ⟨x, rfl⟩ | rfl <;> rcases hb with ⟨y, rfl⟩ | rfl
  · rw [f_add, density_fin, density_fin, density_fin, Real.exp_add]
  · have : (fin x +. ninf : XReal) = ninf := rfl
    simp [this]
  · have : (ninf +. fin y : XReal) = ninf := rfl
    simp [this]
  · have : (ninf +. ninf : XReal) = ninf := rfl
    simp [this]

theorem integral_density_one {Q : Type} [HasLogDensity Q XReal XReal] {q : Q} (h : RegularLaw volume fin q) :
    ∫ θ : ℝ, density (logDensityWrtRoot q (fin θ)) = 1 := by
  rw [integral_eq_lintegral_of_nonneg_ae]
  · have := h.mass_one
    unfold mass at this
    rw [this]; simp
  · refine Filter.Eventually.of_forall fun θ => ?_
    rcases h.proper θ with ⟨x, hx⟩ | hx
    · simp only [hx, density_fin]; exact (Real.exp_pos _).le
    · simp only [hx, density_ninf]; exact le_refl (0:ℝ)
  · exact h.measurable.aestronglyMeasurable

/-- A posterior from log-densities known on a common support. -/
theorem isPosterior_of_log {P Q : Type} [HasLogDensity P XReal XReal] [HasLogDensity Q XReal XReal]
    {prior : P} {post : Q} {lik : ℝ → XReal} {Z : ℝ} (hZ : 0 < Z) (hq : RegularLaw volume fin post)
    (S : ℝ → Prop) (f g h : ℝ → ℝ)
    (hp : ∀ θ, S θ → logDensityWrtRoot prior (fin θ) = fin (f θ)) (hl : ∀ θ, S θ → lik θ = fin (g θ))
    (hpost : ∀ θ, S θ → logDensityWrtRoot post (fin θ) = fin (h θ))
    (hp' : ∀ θ, ¬ S θ → logDensityWrtRoot prior (fin θ) = ninf)
    (hpost' : ∀ θ, ¬ S θ → logDensityWrtRoot post (fin θ) = ninf)
    (e : ∀ θ, S θ → f θ + g θ = Real.log Z + h θ) : IsPosterior prior post lik Z := by
  have key : ∀ θ : ℝ, density (logDensityWrtRoot prior (fin θ)) * density (lik θ)
      = Z * density (logDensityWrtRoot post (fin θ)) := by
    intro θ
    by_cases hS : S θ
    · rw [hp θ hS, hl θ hS, hpost θ hS, density_fin, density_fin, density_fin, ← Real.exp_add, e θ hS, Real.exp_add,
        Real.exp_log hZ]
    · rw [hp' θ hS, hpost' θ hS, density_ninf, zero_mul, mul_zero]
  refine ⟨hZ, ?_, key⟩
  rw [funext key, integral_const_mul, integral_density_one hq, mul_one]

/-- **C131** (laws): whenever Bayes' rule holds pointwise, the law of the posterior is the law of the prior
reweighted by the likelihood and divided by the evidence: the probability of every event, and the expectation of
every function, is the posterior one; and the posterior is determined by prior and likelihood. -/
theorem C131_law {P Q : Type} [HasLogDensity P XReal XReal] [HasLogDensity Q XReal XReal]
    {prior : P} {post : Q} {lik : ℝ → XReal} {Z : ℝ} (h : IsPosterior prior post lik Z)
    (hq : RegularLaw volume fin post) :
    (∀ s : Set ℝ, MeasurableSet s → (law volume fin post s).toReal
      = (∫ θ in s, density (logDensityWrtRoot prior (fin θ)) * density (lik θ)) /
        ∫ θ : ℝ, density (logDensityWrtRoot prior (fin θ)) * density (lik θ)) ∧
    (∀ φ : ℝ → ℝ, ∫ θ, φ θ ∂(law volume fin post)
      = (∫ θ : ℝ, density (logDensityWrtRoot prior (fin θ)) * density (lik θ) * φ θ) /
        ∫ θ : ℝ, density (logDensityWrtRoot prior (fin θ)) * density (lik θ)) ∧
    (∀ (post' : Q) (Z' : ℝ), IsPosterior prior post' lik Z' → Z' = Z ∧
      law volume fin post' = law volume fin post) := by
  have h0 : ∀ θ : ℝ, 0 ≤ density (logDensityWrtRoot post (fin θ)) := by
    intro θ
    rcases hq.proper θ with ⟨x, hx⟩ | hx
    · rw [hx, density_fin]; exact (Real.exp_pos _).le
    · rw [hx, density_ninf]
  refine ⟨fun s hs => ?_, fun φ => ?_, fun post' Z' h' => ?_⟩
  · rw [h.total]
    simp_rw [h.bayes]
    rw [integral_const_mul, mul_div_cancel_left₀ _ h.pos.ne', law, withDensity_apply _ hs,
      ← integral_eq_lintegral_of_nonneg_ae (Filter.Eventually.of_forall h0) hq.measurable.aestronglyMeasurable]
  · rw [h.total, law, integral_withDensity_eq_integral_toReal_smul hq.measurable.ennreal_ofReal (by simp)]
    simp_rw [h.bayes, mul_assoc]
    rw [integral_const_mul, mul_div_cancel_left₀ _ h.pos.ne']
    congr 1
    funext θ
    rw [ENNReal.toReal_ofReal (h0 θ), smul_eq_mul]
  · have e : Z' = Z := h'.total.symm.trans h.total
    subst e
    refine ⟨rfl, ?_⟩
    unfold law
    congr 1
    funext θ
    congr 1
    exact mul_left_cancel₀ h.pos.ne' ((h'.bayes θ).symm.trans (h.bayes θ))

/-- **C131** (one batch or several): updating with some data and then with more is updating once with both
log-likelihoods added, and the evidences multiply. -/
theorem C131_sequential {P Q R : Type} [HasLogDensity P XReal XReal] [HasLogDensity Q XReal XReal]
    [HasLogDensity R XReal XReal] {prior : P} {mid : Q} {post : R} {lik₁ lik₂ : ℝ → XReal} {Z₁ Z₂ : ℝ}
    (h₁ : IsPosterior prior mid lik₁ Z₁) (h₂ : IsPosterior mid post lik₂ Z₂)
    (p₁ : ∀ θ, (lik₁ θ).IsFin ∨ lik₁ θ = ninf) (p₂ : ∀ θ, (lik₂ θ).IsFin ∨ lik₂ θ = ninf) :
    IsPosterior prior post (fun θ => lik₁ θ +. lik₂ θ) (Z₁ * Z₂) := by
  have key : ∀ θ : ℝ, density (logDensityWrtRoot prior (fin θ)) * density (lik₁ θ +. lik₂ θ)
      = Z₁ * (density (logDensityWrtRoot mid (fin θ)) * density (lik₂ θ)) := by
    intro θ
    rw [density_add_fin _ (p₁ θ) _ (p₂ θ), ← mul_assoc, h₁.bayes, mul_assoc]
  refine ⟨mul_pos h₁.pos h₂.pos, ?_, fun θ => ?_⟩
  · rw [funext key, integral_const_mul, h₂.total]
  · rw [key, h₂.bayes, mul_assoc]

/-! ### beta beliefs about a probability -/

theorem gamma_ratio_log {a b c d : ℝ} (ha : 0 < a) (hb : 0 < b) (hc : 0 < c) (hd : 0 < d) :
    Real.log ((Real.Gamma c * Real.Gamma d / Real.Gamma (c + d)) / (Real.Gamma a * Real.Gamma b / Real.Gamma (a + b)))
      = Real.log (Real.Gamma (a + b)) - Real.log (Real.Gamma a) - Real.log (Real.Gamma b)
        - (Real.log (Real.Gamma (c + d)) - Real.log (Real.Gamma c) - Real.log (Real.Gamma d)) := by
  have := (Real.Gamma_pos_of_pos ha).ne'
  have := (Real.Gamma_pos_of_pos hb).ne'
  have := (Real.Gamma_pos_of_pos hc).ne'
  have := (Real.Gamma_pos_of_pos hd).ne'
  have := (Real.Gamma_pos_of_pos (add_pos ha hb)).ne'
  have := (Real.Gamma_pos_of_pos (add_pos hc hd)).ne'
  rw [Real.log_div (by positivity) (by positivity), Real.log_div (by positivity) (by positivity),
    Real.log_div (by positivity) (by positivity), Real.log_mul (by positivity) (by positivity),
    Real.log_mul (by positivity) (by positivity)]
  ring

theorem betaFun_pos {a b : ℝ} (ha : 0 < a) (hb : 0 < b) : 0 < betaFun a b :=
  div_pos (mul_pos (Real.Gamma_pos_of_pos ha) (Real.Gamma_pos_of_pos hb)) (Real.Gamma_pos_of_pos (add_pos ha hb))

theorem beta_update {a b s t c : ℝ} (hc : 0 < c) {prior post : Beta XReal}
    (h : Beta.new (fin a) (fin b) = .ok prior) (h' : Beta.new (fin (a + s)) (fin (b + t)) = .ok post)
    {lik : ℝ → XReal}
    (hl : ∀ θ, 0 < θ → θ < 1 → lik θ = fin (s * Real.log θ + t * Real.log (1 - θ) + Real.log c)) :
    IsPosterior prior post lik (c * betaFun (a + s) (b + t) / betaFun a b) := by
  have hq := C122_regular.2.2.2.1 _ _ _ h'
  obtain ⟨ha, hb, rfl⟩ := Beta.new_ok h
  obtain ⟨ha', hb', rfl⟩ := Beta.new_ok h'
  have hB := betaFun_pos ha hb
  have hB' := betaFun_pos ha' hb'
  refine isPosterior_of_log (by positivity) hq (fun θ => 0 < θ ∧ θ < 1) _ _ _
    (fun θ hθ => Beta.ld_of_mem ha hb hθ.1 hθ.2) (fun θ hθ => hl θ hθ.1 hθ.2)
    (fun θ hθ => Beta.ld_of_mem ha' hb' hθ.1 hθ.2) (fun θ hθ => Beta.ld_of_not_mem hθ)
    (fun θ hθ => Beta.ld_of_not_mem hθ) (fun θ _ => ?_)
  rw [mul_div_assoc, Real.log_mul hc.ne' (div_pos hB' hB).ne']
  unfold betaFun
  rw [gamma_ratio_log ha hb ha' hb']
  ring

theorem sum_terms {α : Type} (xs : List α) (u v c : α → ℝ) (A B : ℝ) (hc : ∀ x ∈ xs, 0 < c x) :
    (xs.map fun x => u x * A + v x * B + Real.log (c x)).sum
      = (xs.map u).sum * A + (xs.map v).sum * B + Real.log (xs.map c).prod := by
  have : 0 < (xs.map c).prod := List.prod_pos (by simpa using hc)
  induction xs with
  | nil => simp
  | cons x xs ih =>
    have h1 := hc x List.mem_cons_self
    have h2 : ∀ y ∈ xs, 0 < c y := fun y hy => hc y (List.mem_cons_of_mem _ hy)
    have h3 : 0 < (xs.map c).prod := List.prod_pos (by simpa using h2)
    simp only [List.map_cons, List.sum_cons, List.prod_cons, ih h2 h3]
    rw [Real.log_mul h1.ne' h3.ne']
    ring

theorem Bernoulli.ld_bit {p : ℝ} (h0 : 0 < p) (h1 : p < 1) {x : UInt8} (hx : x = 0 ∨ x = 1) :
    (logDensityWrtRoot (⟨fin p⟩ : Bernoulli XReal) x : XReal)
      = fin ((x.toNat : ℝ) * Real.log p + (1 - x.toNat) * Real.log (1 - p) + Real.log 1) := by
  rcases hx with rfl | rfl
  · simp [logDensityWrtRoot, f_ln (1 - p) (by linarith)]
  · simp [logDensityWrtRoot, f_ln _ h0]

theorem bits_sum {xs : List UInt8} (hx : ∀ x ∈ xs, x = 0 ∨ x = 1) :
    (xs.map fun x => (x.toNat : ℝ)).sum = xs.count 1 ∧ (xs.map fun x => 1 - (x.toNat : ℝ)).sum = xs.count 0 := by
  induction xs with
  | nil => simp
  | cons x xs ih =>
    obtain ⟨i1, i2⟩ := ih fun y hy => hx y (List.mem_cons_of_mem _ hy)
    simp only [List.map_cons, List.sum_cons, i1, i2, List.count_cons]
    rcases hx x List.mem_cons_self with rfl | rfl <;> simp [add_comm]

/-- **C131** (Beta and Bernoulli): after the outcomes `xs`, a `Beta(a, b)` belief about the success probability
is `Beta(a + successes, b + failures)`, whichever of the two joint log-densities is used. -/
theorem C131_beta_bernoulli {a b : ℝ} {prior post : Beta XReal} {xs : List UInt8} (hx : ∀ x ∈ xs, x = 0 ∨ x = 1)
    (h : Beta.new (fin a) (fin b) = .ok prior)
    (h' : Beta.new (fin (a + xs.count 1)) (fin (b + xs.count 0)) = .ok post)
    {model : ℝ → Bernoulli XReal} (hm : ∀ θ, 0 < θ → θ < 1 → Bernoulli.new (fin θ) = .ok (model θ)) :
    IsPosterior prior post (fun θ => (IID.ofDist (model θ)).iidLogDensityFallback xs)
      (betaFun (a + xs.count 1) (b + xs.count 0) / betaFun a b) ∧
    IsPosterior prior post (fun θ => (IID.ofDist (model θ)).iidLogDensity xs)
      (betaFun (a + xs.count 1) (b + xs.count 0) / betaFun a b) := by
  have val : ∀ θ, 0 < θ → θ < 1 → (IID.ofDist (model θ)).iidLogDensityFallback xs
      = fin ((xs.count 1 : ℝ) * Real.log θ + (xs.count 0 : ℝ) * Real.log (1 - θ) + Real.log 1) := by
    intro θ h0 h1
    obtain ⟨-, hd⟩ := Bernoulli.new_ok (hm θ h0 h1)
    rw [hd]
    have := fallback_of_terms (d := (⟨fin θ⟩ : Bernoulli XReal)) (sample := fun x => x)
      (support := fun x : UInt8 => x = 0 ∨ x = 1) (fun x hx => Bernoulli.ld_bit h0 h1 hx) hx
    rw [List.map_id'] at this
    rw [this, sum_terms _ _ _ (fun _ => 1) _ _ (by simp), (bits_sum hx).1, (bits_sum hx).2]
    simp
  have e := beta_update one_pos h h' val
  have e' := beta_update (lik := fun θ => (IID.ofDist (model θ)).iidLogDensity xs) one_pos h h' fun θ h0 h1 => by
    rw [← val θ h0 h1]
    refine C28_fallback.1 _ _ (C28_iid_is_sum_partial.2.2.2.2.2.2.1 θ _ (hm θ h0 h1) h0.ne' h1.ne) fun x hx' => ?_
    refine C24_discrete_agree_partial.1 θ _ (hm θ h0 h1) h0.ne' h1.ne x ?_
    rcases hx x hx' with rfl | rfl <;> rfl
  rw [one_mul] at e e'
  exact ⟨e, e'⟩

/-- **C131** (Beta and binomial): after the counts `ks` out of `n`, a `Beta(a, b)` belief is
`Beta(a + Σ k, b + Σ (n - k))`.  Both joint log-densities give this posterior; the evidence of the
exponential-family one is that of the binomial law, the other lacks the binomial coefficients (C20). -/
theorem C131_beta_binomial {a b : ℝ} {n : ℕ} {prior post : Beta XReal} {ks : List ℕ} (hk : ∀ k ∈ ks, k ≤ n)
    (h : Beta.new (fin a) (fin b) = .ok prior)
    (h' : Beta.new (fin (a + (ks.map fun k : ℕ => (k : ℝ)).sum)) (fin (b + (ks.map fun k : ℕ => (n : ℝ) - k).sum)) = .ok post)
    {model : ℝ → Binomial XReal} (hm : ∀ θ, 0 < θ → θ < 1 → Binomial.new n (fin θ) = .ok (model θ)) :
    IsPosterior prior post (fun θ => (IID.ofDist (model θ)).iidLogDensityFallback ks)
      (betaFun (a + (ks.map fun k : ℕ => (k : ℝ)).sum) (b + (ks.map fun k : ℕ => (n : ℝ) - k).sum) / betaFun a b) ∧
    IsPosterior prior post (fun θ => (IID.ofDist (model θ)).iidLogDensity ks)
      ((ks.map fun k => (n.choose k : ℝ)).prod *
        betaFun (a + (ks.map fun k : ℕ => (k : ℝ)).sum) (b + (ks.map fun k : ℕ => (n : ℝ) - k).sum) / betaFun a b) := by
  have hch : ∀ k ∈ ks, (0:ℝ) < n.choose k := fun k h => by exact_mod_cast Nat.choose_pos (hk k h)
  constructor
  · have := beta_update (lik := fun θ => (IID.ofDist (model θ)).iidLogDensityFallback ks) one_pos h h'
      fun θ h0 h1 => by
      obtain ⟨-, hd⟩ := Binomial.new_ok (hm θ h0 h1)
      rw [hd]
      have := fallback_of_terms (d := (⟨n, fin θ⟩ : Binomial XReal)) (sample := fun k => k)
        (support := fun k : ℕ => k ≤ n)
        (v := fun k => (k : ℝ) * Real.log θ + ((n : ℝ) - k) * Real.log (1 - θ) + Real.log 1)
        (fun k hk => by rw [Binomial.ld_of_le h0 h1 hk, Real.log_one, add_zero]) hk
      rw [List.map_id'] at this
      rw [this, sum_terms _ _ _ (fun _ => 1) _ _ (by simp)]
      simp
    rwa [one_mul] at this
  · refine beta_update (List.prod_pos (by simpa using hch)) h h' fun θ h0 h1 => ?_
    have hd := hm θ h0 h1
    have hs := C28_iid_is_sum_partial.2.2.2.2.2.2.2.1 n θ _ hd h0.ne' h1.ne
    obtain ⟨-, hd⟩ := Binomial.new_ok hd
    rw [hd] at hs
    rw [hd]
    have := iid_of_terms hs (sample := fun k => k) (support := fun k : ℕ => k ≤ n)
      (v := fun k => (k : ℝ) * Real.log θ + ((n : ℝ) - k) * Real.log (1 - θ) + Real.log (n.choose k))
      (fun k hk => by rw [Binomial.ef h0 h1 hk]; congr 1; ring) hk
    rw [List.map_id'] at this
    rw [this, sum_terms _ _ _ _ _ _ hch]

/-- **C131** (Beta, geometric and negative binomial): after the numbers of trials `ks`, a `Beta(a, b)` belief is
`Beta(a + successes, b + failures)`; likewise after the numbers of failures `ks` before the `r`-th success. -/
theorem C131_beta_waiting {a b : ℝ} {prior : Beta XReal} {ks : List ℕ}
    (h : Beta.new (fin a) (fin b) = .ok prior) :
    (∀ (post : Beta XReal) (model : ℝ → Geometric XReal), (∀ k ∈ ks, 1 ≤ k) →
      Beta.new (fin (a + ks.length)) (fin (b + (ks.map fun k : ℕ => (k : ℝ) - 1).sum)) = .ok post →
      (∀ θ, 0 < θ → θ < 1 → Geometric.new (fin θ) = .ok (model θ)) →
      IsPosterior prior post (fun θ => (IID.ofDist (model θ)).iidLogDensityFallback ks)
        (betaFun (a + ks.length) (b + (ks.map fun k : ℕ => (k : ℝ) - 1).sum) / betaFun a b)) ∧
    (∀ (r : ℕ) (post : Beta XReal) (model : ℝ → NegativeBinomial XReal),
      Beta.new (fin (a + ks.length * r)) (fin (b + (ks.map fun k : ℕ => (k : ℝ)).sum)) = .ok post →
      (∀ θ, 0 < θ → θ < 1 → NegativeBinomial.new r (fin θ) = .ok (model θ)) →
      IsPosterior prior post (fun θ => (IID.ofDist (model θ)).iidLogDensityFallback ks)
        (betaFun (a + ks.length * r) (b + (ks.map fun k : ℕ => (k : ℝ)).sum) / betaFun a b)) := by
  constructor
  · intro post model hk h' hm
    have := beta_update (lik := fun θ => (IID.ofDist (model θ)).iidLogDensityFallback ks) one_pos h h'
      fun θ h0 h1 => by
      obtain ⟨-, hd⟩ := Geometric.new_ok (hm θ h0 h1)
      rw [hd]
      have := fallback_of_terms (d := (⟨fin θ⟩ : Geometric XReal)) (sample := fun k => k)
        (support := fun k : ℕ => 1 ≤ k)
        (v := fun k => 1 * Real.log θ + ((k : ℝ) - 1) * Real.log (1 - θ) + Real.log 1)
        (fun k hk => by rw [Geometric.ld_of_pos h0 h1 hk, Real.log_one]; congr 1; ring) hk
      rw [List.map_id'] at this
      rw [this, sum_terms _ (fun _ => 1) _ (fun _ => 1) _ _ (by simp)]
      simp
    rwa [one_mul] at this
  · intro r post model h' hm
    have := beta_update (lik := fun θ => (IID.ofDist (model θ)).iidLogDensityFallback ks) one_pos h h'
      fun θ h0 h1 => by
      obtain ⟨-, -, hd⟩ := NegativeBinomial.new_ok (hm θ h0 h1)
      rw [hd]
      have := fallback_of_terms (d := (⟨r, fin θ⟩ : NegativeBinomial XReal)) (sample := fun k => k)
        (support := fun _ : ℕ => True)
        (v := fun k => (r : ℝ) * Real.log θ + (k : ℝ) * Real.log (1 - θ) + Real.log 1)
        (fun k _ => by rw [NegativeBinomial.ld h0 h1, Real.log_one, add_zero]) (ys := ks) (by simp)
      rw [List.map_id'] at this
      rw [this, sum_terms _ (fun _ => (r : ℝ)) _ (fun _ => 1) _ _ (by simp)]
      simp
    rwa [one_mul] at this

/-! ### gamma beliefs about a rate -/

theorem gammaConst_pos {a b : ℝ} (ha : 0 < a) (hb : 0 < b) : 0 < gammaConst a b :=
  div_pos (Real.rpow_pos_of_pos hb a) (Real.Gamma_pos_of_pos ha)

theorem log_gammaConst {a b : ℝ} (ha : 0 < a) (hb : 0 < b) :
    Real.log (gammaConst a b) = a * Real.log b - Real.log (Real.Gamma a) := by
  rw [gammaConst, Real.log_div (Real.rpow_pos_of_pos hb a).ne' (Real.Gamma_pos_of_pos ha).ne', Real.log_rpow hb]

theorem gamma_update {a b s t c : ℝ} (hc : 0 < c) {prior post : Gamma XReal}
    (h : Gamma.new (fin a) (fin b) = .ok prior) (h' : Gamma.new (fin (a + s)) (fin (b + t)) = .ok post)
    {lik : ℝ → XReal} (hl : ∀ θ, 0 < θ → lik θ = fin (s * Real.log θ + t * -θ + Real.log c)) :
    IsPosterior prior post lik (c * gammaConst a b / gammaConst (a + s) (b + t)) := by
  have hq := C122_regular.2.2.1 _ _ _ h'
  obtain ⟨ha, hb, rfl⟩ := Gamma.new_ok h
  obtain ⟨ha', hb', rfl⟩ := Gamma.new_ok h'
  have hB := gammaConst_pos ha hb
  have hB' := gammaConst_pos ha' hb'
  refine isPosterior_of_log (by positivity) hq (fun θ => 0 < θ) _ _ _
    (fun θ hθ => Gamma.ld_of_pos ha hb hθ) hl
    (fun θ hθ => Gamma.ld_of_pos ha' hb' hθ) (fun θ hθ => Gamma.ld_of_nonpos (not_lt.1 hθ))
    (fun θ hθ => Gamma.ld_of_nonpos (not_lt.1 hθ)) (fun θ _ => ?_)
  rw [mul_div_assoc, Real.log_mul hc.ne' (div_pos hB hB').ne', Real.log_div hB.ne' hB'.ne', log_gammaConst ha hb,
    log_gammaConst ha' hb']
  ring

/-- **C131** (Gamma and Poisson): after the counts `ks`, a `Gamma(a, b)` belief about the rate is
`Gamma(a + Σ k, b + n)`.  The exponential-family joint log-density gives exactly the same posterior; its evidence
differs by the error of the factorial table only. -/
theorem C131_gamma_poisson {a b : ℝ} {prior post : Gamma XReal} {ks : List ℕ}
    (h : Gamma.new (fin a) (fin b) = .ok prior)
    (h' : Gamma.new (fin (a + (ks.map fun k : ℕ => (k : ℝ)).sum)) (fin (b + ks.length)) = .ok post)
    {model : ℝ → Poisson XReal} (hm : ∀ θ, 0 < θ → Poisson.new (fin θ) = .ok (model θ)) :
    IsPosterior prior post (fun θ => (IID.ofDist (model θ)).iidLogDensityFallback ks)
      ((ks.map fun k => 1 / (k.factorial : ℝ)).prod *
        gammaConst a b / gammaConst (a + (ks.map fun k : ℕ => (k : ℝ)).sum) (b + ks.length)) ∧
    ∃ δ : ℝ, |δ| ≤ ks.length * (1/10^12) ∧
      IsPosterior prior post (fun θ => (IID.ofDist (model θ)).iidLogDensity ks)
        (Real.exp δ * (ks.map fun k => 1 / (k.factorial : ℝ)).prod *
          gammaConst a b / gammaConst (a + (ks.map fun k : ℕ => (k : ℝ)).sum) (b + ks.length)) := by
  have hf : ∀ k : ℕ, (0:ℝ) < 1 / (k.factorial : ℝ) := fun k => by positivity
  constructor
  · refine gamma_update (List.prod_pos (by simpa using fun k _ => Nat.factorial_pos k)) h h' fun θ h0 => ?_
    obtain ⟨-, hd⟩ := Poisson.new_ok (hm θ h0)
    rw [hd]
    have := fallback_of_terms (d := (⟨fin θ⟩ : Poisson XReal)) (sample := fun k => k)
      (support := fun _ : ℕ => True)
      (v := fun k => (k : ℝ) * Real.log θ + 1 * -θ + Real.log (1 / (k.factorial : ℝ)))
      (fun k _ => by rw [Poisson.ld h0, one_div, Real.log_inv]; congr 1; ring) (ys := ks) (by simp)
    rw [List.map_id'] at this
    rw [this, sum_terms _ _ (fun _ => 1) _ _ _ fun k _ => hf k]
    simp
  · choose v hv hb using C38_log_factorial_accurate
    have hef : ∀ θ : ℝ, 0 < θ → ∀ k, (expFamLogDensity (⟨fin θ⟩ : Poisson XReal) k : XReal)
        = fin ((k : ℝ) * Real.log θ + 1 * -θ + Real.log (Real.exp (-v k))) := by
      intro θ h0 k
      simp only [expFamLogDensity, expFamLogDensityDefault, f_ln _ h0, f_ofNat, logDensityWrtRoot, hv,
        dot_one_fin, f_sub, f_neg, f_add, Real.log_exp]
      congr 1
      ring
    refine ⟨(ks.map fun k => Real.log k.factorial - v k).sum, ?_, ?_⟩
    · clear h'
      induction ks with
      | nil => simp
      | cons k ks ih =>
        have h1 := hb k
        have h2 := abs_add_le (Real.log k.factorial - v k) (ks.map fun k => Real.log k.factorial - v k).sum
        rw [abs_sub_comm] at h1
        simp only [List.map_cons, List.sum_cons, List.length_cons]
        push_cast
        linarith
    · have e : Real.exp ((ks.map fun k => Real.log k.factorial - v k).sum) * (ks.map fun k => 1 / (k.factorial : ℝ)).prod
          = (ks.map fun k => Real.exp (-v k)).prod := by
        clear h'
        induction ks with
        | nil => simp
        | cons k ks ih =>
          simp only [List.map_cons, List.sum_cons, List.prod_cons, ← ih, Real.exp_add]
          rw [sub_eq_add_neg, Real.exp_add, Real.exp_log (by positivity)]
          field_simp
      rw [e]
      refine gamma_update (List.prod_pos (by simpa using fun k _ => Real.exp_pos _)) h h' fun θ h0 => ?_
      have hs := C28_iid_is_sum_partial.2.2.2.2.2.2.2.2.2.2 θ _ (hm θ h0)
      obtain ⟨-, hd⟩ := Poisson.new_ok (hm θ h0)
      rw [hd] at hs
      rw [hd]
      have := iid_of_terms hs (sample := fun k => k) (support := fun _ : ℕ => True)
        (fun k _ => hef θ h0 k) (ys := ks) (by simp)
      rw [List.map_id'] at this
      rw [this, sum_terms _ _ (fun _ => 1) _ _ _ fun k _ => Real.exp_pos _]
      simp

/-- **C131** (Gamma and exponential): after the waiting times `xs`, a `Gamma(a, b)` belief about the rate is
`Gamma(a + n, b + Σ x)`, by the sum of direct log-densities. -/
theorem C131_gamma_exponential {a b : ℝ} {prior post : Gamma XReal} {xs : List ℝ} (hx : ∀ x ∈ xs, 0 ≤ x)
    (h : Gamma.new (fin a) (fin b) = .ok prior)
    (h' : Gamma.new (fin (a + xs.length)) (fin (b + xs.sum)) = .ok post)
    {model : ℝ → Exponential XReal} (hm : ∀ θ, 0 < θ → Exponential.new (fin θ) = .ok (model θ)) :
    IsPosterior prior post (fun θ => (IID.ofDist (model θ)).iidLogDensityFallback (xs.map fin))
      (gammaConst a b / gammaConst (a + xs.length) (b + xs.sum)) := by
  have := gamma_update (lik := fun θ => (IID.ofDist (model θ)).iidLogDensityFallback (xs.map fin)) one_pos h h'
    fun θ h0 => by
    obtain ⟨-, hd⟩ := Exponential.new_ok (hm θ h0)
    rw [hd]
    have := fallback_of_terms (d := (⟨fin θ⟩ : Exponential XReal)) (sample := fin) (support := fun x : ℝ => 0 ≤ x)
      (v := fun x => 1 * Real.log θ + x * -θ + Real.log 1)
      (fun x hx => by rw [Exponential.ld_of_nonneg h0 hx, Real.log_one]; congr 1; ring) hx
    rw [this, sum_terms _ (fun _ => 1) _ (fun _ => 1) _ _ (by simp)]
    simp
  rwa [one_mul] at this

/-- **C131** violated by the exponential-family joint log-density of the exponential distribution (C24): with at
least one waiting time the posterior it leads to is `Gamma(a - n, b + Σ x)` instead of `Gamma(a + n, b + Σ x)`. -/
theorem C131_exponential_violated {a b : ℝ} {prior : Gamma XReal} {xs : List ℝ} (hx : ∀ x ∈ xs, 0 ≤ x)
    (hne : xs ≠ []) (h : Gamma.new (fin a) (fin b) = .ok prior)
    {model : ℝ → Exponential XReal} (hm : ∀ θ, 0 < θ → Exponential.new (fin θ) = .ok (model θ))
    {wrong post : Gamma XReal} (hw : Gamma.new (fin (a + -xs.length)) (fin (b + xs.sum)) = .ok wrong)
    (h' : Gamma.new (fin (a + xs.length)) (fin (b + xs.sum)) = .ok post) :
    (∃ Z, IsPosterior prior wrong (fun θ => (IID.ofDist (model θ)).iidLogDensity (xs.map fin)) Z) ∧
    ∀ Z, ¬ IsPosterior prior post (fun θ => (IID.ofDist (model θ)).iidLogDensity (xs.map fin)) Z := by
  have key := gamma_update (lik := fun θ => (IID.ofDist (model θ)).iidLogDensity (xs.map fin)) one_pos h hw
    fun θ h0 => by
    have hs := C28_iid_is_sum_partial.2.2.1 θ _ (hm θ h0)
    obtain ⟨-, hd⟩ := Exponential.new_ok (hm θ h0)
    rw [hd] at hs
    rw [hd]
    have := iid_of_terms hs (sample := fin) (support := fun x : ℝ => 0 ≤ x)
      (v := fun x => -1 * Real.log θ + x * -θ + Real.log 1)
      (fun x hx => by rw [Exponential.ef h0, Real.log_one]; congr 1; ring) hx
    rw [this, sum_terms _ (fun _ => -1) _ (fun _ => 1) _ _ (by simp)]
    simp
  refine ⟨⟨_, key⟩, fun Z hZ => ?_⟩
  have := ((C131_law key (C122_regular.2.2.1 _ _ _ hw)).2.2 post Z hZ).2
  have := ((C126_continuous.2.2.1 _ _ _ _ _ _ h' hw).1 this).1
  have : (0:ℝ) < xs.length := by exact_mod_cast List.length_pos_iff.mpr hne
  linarith

/-- **C131** (Gamma and Gamma): with known shape `κ`, a `Gamma(a, b)` belief about the rate becomes
`Gamma(a + n κ, b + Σ x)`, whichever of the two joint log-densities is used. -/
theorem C131_gamma_gamma {a b κ : ℝ} {prior post : Gamma XReal} {xs : List ℝ} (hx : ∀ x ∈ xs, 0 < x)
    (h : Gamma.new (fin a) (fin b) = .ok prior)
    (h' : Gamma.new (fin (a + xs.length * κ)) (fin (b + xs.sum)) = .ok post)
    {model : ℝ → Gamma XReal} (hm : ∀ θ, 0 < θ → Gamma.new (fin κ) (fin θ) = .ok (model θ)) :
    IsPosterior prior post (fun θ => (IID.ofDist (model θ)).iidLogDensityFallback (xs.map fin))
      ((xs.map fun x => x ^ (κ - 1) / Real.Gamma κ).prod * gammaConst a b / gammaConst (a + xs.length * κ) (b + xs.sum)) ∧
    IsPosterior prior post (fun θ => (IID.ofDist (model θ)).iidLogDensity (xs.map fin))
      ((xs.map fun x => x ^ (κ - 1) / Real.Gamma κ).prod * gammaConst a b / gammaConst (a + xs.length * κ) (b + xs.sum)) := by
  have hκ : 0 < κ := (Gamma.new_ok (hm 1 one_pos)).1
  have hG := Real.Gamma_pos_of_pos hκ
  have hc : ∀ x ∈ xs, 0 < x ^ (κ - 1) / Real.Gamma κ := fun x h => div_pos (Real.rpow_pos_of_pos (hx x h) _) hG
  have val : ∀ θ, 0 < θ → (IID.ofDist (model θ)).iidLogDensityFallback (xs.map fin)
      = fin (xs.length * κ * Real.log θ + xs.sum * -θ + Real.log (xs.map fun x => x ^ (κ - 1) / Real.Gamma κ).prod) := by
    intro θ h0
    obtain ⟨-, -, hd⟩ := Gamma.new_ok (hm θ h0)
    rw [hd]
    have := fallback_of_terms (d := (⟨fin κ, fin θ⟩ : Gamma XReal)) (sample := fin) (support := fun x : ℝ => 0 < x)
      (v := fun x => κ * Real.log θ + x * -θ + Real.log (x ^ (κ - 1) / Real.Gamma κ))
      (fun x hx => by
        rw [Gamma.ld_of_pos hκ h0 hx, Real.log_div (Real.rpow_pos_of_pos hx _).ne' hG.ne', Real.log_rpow hx]
        congr 1; ring) hx
    rw [this, sum_terms _ (fun _ => κ) _ _ _ _ hc]
    simp
  refine ⟨gamma_update (List.prod_pos (by simpa using hc)) h h' val,
    gamma_update (List.prod_pos (by simpa using hc)) h h' fun θ h0 => ?_⟩
  rw [← val θ h0]
  refine C28_fallback.1 _ _ (C28_iid_is_sum_partial.2.2.2.1 _ _ _ (hm θ h0)) fun x hx' => ?_
  obtain ⟨y, hy, rfl⟩ := List.mem_map.1 hx'
  refine C24_continuous_agree.2.1 _ _ _ (hm θ h0) y ?_
  obtain ⟨-, -, hd⟩ := Gamma.new_ok (hm θ h0)
  rw [hd]
  simpa [Measure.inSupport] using hx y hy

/-- **C131** (Gamma belief about the precision of a normal distribution with known mean): after the
observations `xs` it is `Gamma(a + n/2, b + Σ (x - μ)²/2)`. -/
theorem C131_gamma_normal {a b μ : ℝ} {prior post : Gamma XReal} {xs : List ℝ}
    (h : Gamma.new (fin a) (fin b) = .ok prior)
    (h' : Gamma.new (fin (a + xs.length * (1/2))) (fin (b + (xs.map fun x => (x - μ) ^ 2 / 2).sum)) = .ok post)
    {model : ℝ → Normal XReal} (hm : ∀ τ, 0 < τ → Normal.new (fin μ) (fin (1 / √τ)) = .ok (model τ)) :
    IsPosterior prior post (fun τ => (IID.ofDist (model τ)).iidLogDensityFallback (xs.map fin))
      ((1 / √(2 * Real.pi)) ^ xs.length * gammaConst a b /
        gammaConst (a + xs.length * (1/2)) (b + (xs.map fun x => (x - μ) ^ 2 / 2).sum)) ∧
    IsPosterior prior post (fun τ => (IID.ofDist (model τ)).iidLogDensity (xs.map fin))
      ((1 / √(2 * Real.pi)) ^ xs.length * gammaConst a b /
        gammaConst (a + xs.length * (1/2)) (b + (xs.map fun x => (x - μ) ^ 2 / 2).sum)) := by
  have hpi : 0 < 2 * Real.pi := two_pi_pos'
  have hc : 0 < 1 / √(2 * Real.pi) := by positivity
  have val : ∀ τ, 0 < τ → (IID.ofDist (model τ)).iidLogDensityFallback (xs.map fin)
      = fin (xs.length * (1/2) * Real.log τ + (xs.map fun x => (x - μ) ^ 2 / 2).sum * -τ
        + Real.log ((1 / √(2 * Real.pi)) ^ xs.length)) := by
    intro τ h0
    obtain ⟨hσ, hd⟩ := Normal.new_ok (hm τ h0)
    rw [hd]
    have hsq : √τ * √τ = τ := Real.mul_self_sqrt h0.le
    have hs0 : 0 < √τ := Real.sqrt_pos.2 h0
    have := fallback_of_terms (d := (⟨fin μ, fin (1 / √τ)⟩ : Normal XReal)) (sample := fin)
      (support := fun _ : ℝ => True)
      (v := fun x => 1/2 * Real.log τ + (x - μ) ^ 2 / 2 * -τ + Real.log (1 / √(2 * Real.pi)))
      (fun x _ => by
        rw [Normal.ld hσ, one_div √τ, one_div √(2 * Real.pi), Real.log_inv, Real.log_inv, Real.log_sqrt h0.le,
          Real.log_sqrt hpi.le]
        congr 1
        have : (x - μ) / (√τ)⁻¹ = (x - μ) * √τ := by field_simp
        rw [this, show 1/2 * ((x - μ) * √τ) * ((x - μ) * √τ) = (x - μ) ^ 2 / 2 * (√τ * √τ) by ring, hsq]
        ring) (ys := xs) (by simp)
    rw [this, sum_terms _ (fun _ => 1/2) _ _ _ _ fun _ _ => hc]
    simp
  have hc' : 0 < (1 / √(2 * Real.pi)) ^ xs.length := by positivity
  refine ⟨gamma_update hc' h h' val, gamma_update hc' h h' fun τ h0 => ?_⟩
  rw [← val τ h0]
  refine C28_fallback.1 _ _ (C28_iid_is_sum_partial.1 _ _ _ (hm τ h0)) fun x hx' => ?_
  obtain ⟨y, hy, rfl⟩ := List.mem_map.1 hx'
  exact C24_continuous_agree.1 _ _ _ (hm τ h0) y

/-! ### normal beliefs about a mean -/

theorem gauss_chain {w : ℝ} (hw : 0 < w) (m : ℝ) : ∀ (xs : List ℝ) {b : Belief}, 0 < b.var →
    ProbabilityTheory.gaussianPDFReal b.mean b.var.toNNReal m *
        (xs.map fun x => ProbabilityTheory.gaussianPDFReal m w.toNNReal x).prod
      = b.evidence w xs * ProbabilityTheory.gaussianPDFReal (xs.foldl (Belief.update w) b).mean
        (xs.foldl (Belief.update w) b).var.toNNReal m
  | [], b, _ => by simp [Belief.evidence]
  | x :: xs, b, hb => by
    have := gauss_chain hw m xs (Belief.update_var_pos hw hb x)
    have hs := bayes_step hw hb m x
    simp only [List.map_cons, List.prod_cons, List.foldl_cons, Belief.evidence]
    rw [← mul_assoc, mul_comm (ProbabilityTheory.gaussianPDFReal b.mean _ m), hs, mul_assoc, this, mul_assoc]

/-- **C131** (Normal and normal): with known scale `s`, a `Normal(m₀, s₀)` belief about the mean becomes the
normal belief of the textbook update (`C114_closed_form` has its parameters in closed form), with the product
of the predictive densities as evidence, whichever of the two joint log-densities is used. -/
theorem C131_normal_normal {m₀ s₀ s : ℝ} {prior post : Normal XReal} {xs : List ℝ}
    (h : Normal.new (fin m₀) (fin s₀) = .ok prior)
    (h' : Normal.new (fin (xs.foldl (Belief.update (s ^ 2)) ⟨m₀, s₀ ^ 2⟩).mean)
      (fin √(xs.foldl (Belief.update (s ^ 2)) ⟨m₀, s₀ ^ 2⟩).var) = .ok post)
    {model : ℝ → Normal XReal} (hm : ∀ θ, Normal.new (fin θ) (fin s) = .ok (model θ)) :
    IsPosterior prior post (fun θ => (IID.ofDist (model θ)).iidLogDensityFallback (xs.map fin))
      (Belief.evidence (s ^ 2) ⟨m₀, s₀ ^ 2⟩ xs) ∧
    IsPosterior prior post (fun θ => (IID.ofDist (model θ)).iidLogDensity (xs.map fin))
      (Belief.evidence (s ^ 2) ⟨m₀, s₀ ^ 2⟩ xs) := by
  have hs : 0 < s := (Normal.new_ok (hm 0)).1
  have hs₀ : 0 < s₀ := (Normal.new_ok h).1
  have hw : 0 < s ^ 2 := by positivity
  have hv : 0 < (⟨m₀, s₀ ^ 2⟩ : Belief).var := by show 0 < s₀ ^ 2; positivity
  have hv' := (C114_closed_form m₀ (s₀ ^ 2) (s ^ 2) (by positivity) hw xs).1
  have hq := C122_regular.1 _ _ _ h'
  have hdp := (C09_normal_density h).1
  have hdq := (C09_normal_density h').1
  have lik : ∀ θ, density ((IID.ofDist (model θ)).iidLogDensityFallback (xs.map fin))
      = (xs.map fun x => ProbabilityTheory.gaussianPDFReal θ (s ^ 2).toNNReal x).prod := by
    intro θ
    have hd := (C09_normal_density (hm θ)).1
    obtain ⟨-, hθ⟩ := Normal.new_ok (hm θ)
    rw [hθ] at hd ⊢
    rw [fallback_of_terms (d := (⟨fin θ, fin s⟩ : Normal XReal)) (sample := fin)
      (support := fun _ : ℝ => True) (fun x _ => Normal.ld hs) (ys := xs) (by simp), density_fin]
    clear hv' hdq hq h'
    induction xs with
    | nil => simp
    | cons x xs ih =>
      simp only [List.map_cons, List.sum_cons, List.prod_cons, Real.exp_add, ih, ← hd]
      rw [Normal.ld hs, density_fin]
  have heq : ∀ θ, (IID.ofDist (model θ)).iidLogDensity (xs.map fin)
      = (IID.ofDist (model θ)).iidLogDensityFallback (xs.map fin) := by
    intro θ
    refine C28_fallback.1 _ _ (C28_iid_is_sum_partial.1 _ _ _ (hm θ)) fun x hx' => ?_
    obtain ⟨y, hy, rfl⟩ := List.mem_map.1 hx'
    exact C24_continuous_agree.1 _ _ _ (hm θ) y
  simp_rw [heq]
  rw [and_self]
  have key : ∀ θ : ℝ, density (logDensityWrtRoot prior (fin θ)) *
      density ((IID.ofDist (model θ)).iidLogDensityFallback (xs.map fin))
      = Belief.evidence (s ^ 2) ⟨m₀, s₀ ^ 2⟩ xs * density (logDensityWrtRoot post (fin θ)) := by
    intro θ
    rw [lik, hdp, hdq, Real.sq_sqrt hv'.le]
    exact gauss_chain hw θ xs hv
  refine ⟨evidence_pos hw xs hv, ?_, key⟩
  rw [funext key, integral_const_mul, integral_density_one hq, mul_one]

/-! ### the hypotheses are met -/

example : ∃ prior post : Beta XReal, Beta.new (fin 2) (fin 3) = .ok prior ∧
    Beta.new (fin (2 + ([1, 0, 1] : List UInt8).count 1)) (fin (3 + ([1, 0, 1] : List UInt8).count 0)) = .ok post ∧
    (∀ θ : ℝ, 0 < θ → θ < 1 → Bernoulli.new (fin θ) = .ok (⟨fin θ⟩ : Bernoulli XReal)) := by
  refine ⟨⟨fin 2, fin 3⟩, ⟨fin (2 + ([1, 0, 1] : List UInt8).count 1), fin (3 + ([1, 0, 1] : List UInt8).count 0)⟩,
    by simp [Beta.new], ?_, fun θ h0 h1 => by simp [Bernoulli.new, h0.le, h1.le]⟩
  have h1 : (0:ℝ) < 2 + ([1, 0, 1] : List UInt8).count 1 := by positivity
  have h2 : (0:ℝ) < 3 + ([1, 0, 1] : List UInt8).count 0 := by positivity
  generalize (2 + (([1, 0, 1] : List UInt8).count 1 : ℝ)) = u at *
  generalize (3 + (([1, 0, 1] : List UInt8).count 0 : ℝ)) = v at *
  simp [Beta.new, h1, h2]

/-- The updated normal belief is always accepted by the constructor. -/
example (xs : List ℝ) : ∃ post : Normal XReal,
    Normal.new (fin (xs.foldl (Belief.update (2 ^ 2)) ⟨0, 1 ^ 2⟩).mean)
      (fin √(xs.foldl (Belief.update (2 ^ 2)) ⟨0, 1 ^ 2⟩).var) = .ok post := by
  have h := (C114_closed_form 0 (1 ^ 2) (2 ^ 2) (by positivity) (by positivity) xs).1
  generalize xs.foldl (Belief.update (2 ^ 2)) ⟨0, 1 ^ 2⟩ = b at h ⊢
  exact ⟨⟨fin b.mean, fin √b.var⟩, by simp [Normal.new, h]⟩

/-- One waiting time `3`, prior `Gamma(2, 1)`. -/
example : (∃ prior, Gamma.new (fin 2 : XReal) (fin 1) = .ok prior) ∧
    (∃ wrong, Gamma.new (fin (2 + -(([3] : List ℝ).length : ℝ)) : XReal) (fin (1 + ([3] : List ℝ).sum)) = .ok wrong) ∧
    (∃ post, Gamma.new (fin (2 + (([3] : List ℝ).length : ℝ)) : XReal) (fin (1 + ([3] : List ℝ).sum)) = .ok post) ∧
    ∀ θ : ℝ, 0 < θ → Exponential.new (fin θ) = .ok (⟨fin θ⟩ : Exponential XReal) := by
  have e1 : (0:ℝ) < 2 + -(([3] : List ℝ).length : ℝ) := by norm_num
  have e2 : (0:ℝ) < 1 + ([3] : List ℝ).sum := by norm_num
  have e3 : (0:ℝ) < 2 + (([3] : List ℝ).length : ℝ) := by norm_num
  have acc : ∀ {a b : ℝ}, 0 < a → 0 < b → Gamma.new (fin a) (fin b) = .ok (⟨fin a, fin b⟩ : Gamma XReal) :=
    fun ha hb => by simp [Gamma.new, ha, hb]
  refine ⟨⟨⟨fin 2, fin 1⟩, by simp [Gamma.new]⟩, ⟨⟨_, _⟩, acc e1 e2⟩, ⟨⟨_, _⟩, acc e3 e2⟩,
    fun θ h => by simp [Exponential.new, h]⟩

end Verif
