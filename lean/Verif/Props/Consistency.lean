import Verif.Spec.Consistency
import Verif.Props.Bayes
import Verif.Props.Moments
import Verif.Props.Tails
import Verif.Props.CumulantsDiscrete
import Verif.Props.Wrappers
import Verif.Props.Stability
import Mathlib.Probability.StrongLaw
import Mathlib.Probability.Independence.InfinitePi

/-!
# C139: with more and more data the belief settles at the true parameter
-/

namespace Verif
open FloatOps XReal Spec MeasureTheory ProbabilityTheory Filter Topology

theorem firstN_length {α : Type} (x : ℕ → α) (n : ℕ) : (firstN x n).length = n := by simp [firstN]

theorem firstN_mem {α : Type} {x : ℕ → α} {p : α → Prop} (h : ∀ i, p (x i)) (n : ℕ) : ∀ y ∈ firstN x n, p y := by
  intro y hy
  obtain ⟨i, -, rfl⟩ := List.mem_map.1 hy
  exact h i

theorem firstN_sum {α : Type} (x : ℕ → α) (g : α → ℝ) (n : ℕ) :
    ((firstN x n).map g).sum = ∑ i ∈ Finset.range n, g (x i) := by
  induction n with
  | zero => simp [firstN]
  | succ n ih =>
    rw [Finset.sum_range_succ, ← ih]
    simp [firstN, List.range_succ]

/-- Chebyshev's inequality around any point. -/
theorem chebyshev_real {M : Type} [HasLogDensity M XReal XReal] {d : M} {m v t ε : ℝ} (hr : RegularLaw volume fin d)
    (h : MomentsReal (fun x => logDensityWrtRoot d x) m v) (hε : 0 < ε) :
    (law volume fin d).real {θ | ε ≤ |θ - t|} ≤ (v + (m - t) ^ 2) / ε ^ 2 := by
  have hms : MeasurableSet {θ : ℝ | ε ≤ |θ - t|} := measurableSet_le measurable_const (by fun_prop)
  have h0 : ∀ x : ℝ, 0 ≤ density (logDensityWrtRoot d (fin x) : XReal) := fun x => density_nonneg_of_proper (hr.proper x)
  have hi := (integrable_density hr).1
  have h1 := (integrable_density hr).2
  have e : ∀ x : ℝ, (x - t) ^ 2 * density (logDensityWrtRoot d (fin x) : XReal)
      = (x - m) ^ 2 * density (logDensityWrtRoot d (fin x) : XReal)
        + (2 * (m - t) * (x * density (logDensityWrtRoot d (fin x) : XReal))
          + ((m - t) ^ 2 - 2 * (m - t) * m) * density (logDensityWrtRoot d (fin x) : XReal)) := by
    intro x; ring
  have i2 := h.mean_integrable.const_mul (2 * (m - t))
  have i3 := hi.const_mul ((m - t) ^ 2 - 2 * (m - t) * m)
  have hint : Integrable (fun x : ℝ => (x - t) ^ 2 * density (logDensityWrtRoot d (fin x) : XReal)) := by
    simp_rw [e]; exact h.var_integrable.add (i2.add i3)
  have hval : ∫ x : ℝ, (x - t) ^ 2 * density (logDensityWrtRoot d (fin x) : XReal) = v + (m - t) ^ 2 := by
    have i4 : Integrable (fun x : ℝ => 2 * (m - t) * (x * density (logDensityWrtRoot d (fin x) : XReal))
          + ((m - t) ^ 2 - 2 * (m - t) * m) * density (logDensityWrtRoot d (fin x) : XReal)) := i2.add i3
    simp_rw [e]
    rw [integral_add h.var_integrable i4, integral_add i2 i3, integral_const_mul, integral_const_mul,
      h.var_eq, h.mean_eq, h1]
    ring
  rw [law_real_set hr hms, le_div_iff₀ (by positivity), ← hval, mul_comm, ← integral_const_mul]
  calc ∫ x in {θ : ℝ | ε ≤ |θ - t|}, ε ^ 2 * density (logDensityWrtRoot d (fin x) : XReal)
      ≤ ∫ x in {θ : ℝ | ε ≤ |θ - t|}, (x - t) ^ 2 * density (logDensityWrtRoot d (fin x) : XReal) := by
        refine setIntegral_mono_on (hi.const_mul _).integrableOn hint.integrableOn hms fun x hx => ?_
        refine mul_le_mul_of_nonneg_right ?_ (h0 x)
        rw [← sq_abs (x - t)]
        exact pow_le_pow_left₀ hε.le hx 2
    _ ≤ _ := setIntegral_le_integral hint (Eventually.of_forall fun x => mul_nonneg (sq_nonneg _) (h0 x))

/-- A belief settles when it is updated within a family whose means tend to `t` and whose variances tend to zero. -/
theorem settles_of_posterior {P Q : Type} [HasLogDensity P XReal XReal] [HasLogDensity Q XReal XReal] {prior : P}
    {lik : ℕ → ℝ → XReal} {t : ℝ} {post : ℕ → Q} {Z m v : ℕ → ℝ} (hp : ∀ n, IsPosterior prior (post n) (lik n) (Z n))
    (hr : ∀ n, RegularLaw volume fin (post n))
    (hm : ∀ n, MomentsReal (fun x => logDensityWrtRoot (post n) x) (m n) (v n)) (ht : Tendsto m atTop (𝓝 t))
    (hv : Tendsto v atTop (𝓝 0)) : SettlesAt prior lik t where
  evidence n := by rw [(hp n).total]; exact (hp n).pos
  settles ε hε := by
    have hms : MeasurableSet {θ : ℝ | ε ≤ |θ - t|} := measurableSet_le measurable_const (by fun_prop)
    have key : ∀ n, (∫ θ in {θ : ℝ | ε ≤ |θ - t|}, density (logDensityWrtRoot prior (fin θ)) * density (lik n θ)) /
        (∫ θ : ℝ, density (logDensityWrtRoot prior (fin θ)) * density (lik n θ))
        = (law volume fin (post n)).real {θ | ε ≤ |θ - t|} :=
      fun n => ((C131_law (hp n) (hr n)).1 _ hms).symm
    simp_rw [key]
    refine squeeze_zero (fun n => measureReal_nonneg) (fun n => chebyshev_real (hr n) (hm n) hε) ?_
    have : Tendsto (fun n => (v n + (m n - t) ^ 2) / ε ^ 2) atTop (𝓝 ((0 + (t - t) ^ 2) / ε ^ 2)) :=
      (hv.add ((ht.sub_const t).pow 2)).div_const _
    simpa using this
  mean := by
    refine ht.congr fun n => ?_
    rw [(hp n).total]
    simp_rw [(hp n).bayes]
    simp_rw [mul_assoc]
    rw [integral_const_mul, mul_div_cancel_left₀ _ (hp n).pos.ne', ← (hm n).mean_eq]
    exact integral_congr_ae (Eventually.of_forall fun x => mul_comm _ _)

theorem tendsto_add_div_nat {S : ℕ → ℝ} {σ : ℝ} (a : ℝ) (h : Tendsto (fun n : ℕ => S n / n) atTop (𝓝 σ)) :
    Tendsto (fun n : ℕ => (a + S n) / n) atTop (𝓝 σ) := by
  have h1 := (tendsto_const_div_atTop_nhds_zero_nat a).add h
  rw [zero_add] at h1
  exact h1.congr fun n => (add_div _ _ _).symm

/-- A sequence that grows linearly grows beyond all bounds. -/
theorem tendsto_atTop_of_div_nat {S : ℕ → ℝ} {σ : ℝ} (hσ : 0 < σ) (h : Tendsto (fun n : ℕ => S n / n) atTop (𝓝 σ)) :
    Tendsto S atTop atTop := by
  have h1 := h.pos_mul_atTop hσ tendsto_natCast_atTop_atTop
  refine h1.congr' ?_
  filter_upwards [eventually_gt_atTop 0] with n hn
  have : (n : ℝ) ≠ 0 := by exact_mod_cast hn.ne'
  field_simp

theorem tendsto_div_div_nat {S T : ℕ → ℝ} {σ τ : ℝ} (hτ : τ ≠ 0) (hS : Tendsto (fun n : ℕ => S n / n) atTop (𝓝 σ))
    (hT : Tendsto (fun n : ℕ => T n / n) atTop (𝓝 τ)) : Tendsto (fun n => S n / T n) atTop (𝓝 (σ / τ)) := by
  refine (hS.div hT hτ).congr' ?_
  filter_upwards [eventually_gt_atTop 0] with n hn
  have : (n : ℝ) ≠ 0 := by exact_mod_cast hn.ne'
  exact div_div_div_cancel_right₀ this _ _

theorem Gamma.moments {a b : ℝ} {d : Gamma XReal} (h : Gamma.new (fin a) (fin b) = .ok d) :
    MomentsReal (fun x => logDensityWrtRoot d x) (a / b) (a / (b * b)) := by
  obtain ⟨m, v, e1, e2, hm⟩ := C27_continuous_moments.2.2.1 a b d h
  obtain ⟨ha, hb, rfl⟩ := Gamma.new_ok h
  have e1' : fin (a / b) = fin m := by rw [← e1]; exact (f_div _ _ hb.ne').symm
  have e2' : fin (a / (b * b)) = fin v := by
    rw [← e2]
    have : b * b ≠ 0 := mul_ne_zero hb.ne' hb.ne'
    exact (f_div _ _ this).symm
  rw [fin.injEq] at e1' e2'
  rwa [e1', e2']

theorem Beta.moments {a b : ℝ} {d : Beta XReal} (h : Beta.new (fin a) (fin b) = .ok d) :
    MomentsReal (fun x => logDensityWrtRoot d x) (a / (a + b)) (a * b / ((a + b) * (a + b) * (a + b + 1))) := by
  obtain ⟨m, v, e1, e2, hm⟩ := C27_continuous_moments.2.2.2.1 a b d h
  obtain ⟨ha, hb, rfl⟩ := Beta.new_ok h
  have e1' : fin (a / (a + b)) = fin m := by rw [← e1]; exact (f_div _ _ (by positivity)).symm
  have e2' : fin (a * b / ((a + b) * (a + b) * (a + b + 1))) = fin v := by
    rw [← e2]
    have : (a + b) * (a + b) * (a + b + 1) ≠ 0 := by positivity
    exact (f_div _ _ this).symm
  rw [fin.injEq] at e1' e2'
  rwa [e1', e2']

theorem Normal.moments {m s : ℝ} {d : Normal XReal} (h : Normal.new (fin m) (fin s) = .ok d) :
    MomentsReal (fun x => logDensityWrtRoot d x) m (s * s) := by
  obtain ⟨m', v, e1, e2, hm⟩ := C27_continuous_moments.1 m s d h
  obtain ⟨hs, rfl⟩ := Normal.new_ok h
  have e1' : fin m = fin m' := e1
  have e2' : fin (s * s) = fin v := e2
  rw [fin.injEq] at e1' e2'
  rw [← e1', ← e2'] at hm
  exact hm

theorem gamma_settles {a b σ τ : ℝ} (hτ : 0 < τ) {prior : Gamma XReal} (h : Gamma.new (fin a) (fin b) = .ok prior)
    {S T : ℕ → ℝ} (hS0 : ∀ n, 0 ≤ S n) (hT0 : ∀ n, 0 ≤ T n) (hS : Tendsto (fun n : ℕ => S n / n) atTop (𝓝 σ))
    (hT : Tendsto (fun n : ℕ => T n / n) atTop (𝓝 τ)) {lik : ℕ → ℝ → XReal}
    (hp : ∀ n post, Gamma.new (fin (a + S n)) (fin (b + T n)) = .ok post → ∃ Z, IsPosterior prior post (lik n) Z) :
    SettlesAt prior lik (σ / τ) := by
  obtain ⟨ha, hb, -⟩ := Gamma.new_ok h
  have ha' : ∀ n, 0 < a + S n := fun n => by have := hS0 n; linarith
  have hb' : ∀ n, 0 < b + T n := fun n => by have := hT0 n; linarith
  have hn : ∀ n, Gamma.new (fin (a + S n)) (fin (b + T n)) = .ok (⟨fin (a + S n), fin (b + T n)⟩ : Gamma XReal) :=
    fun n => by
      have h1 := ha' n
      have h2 := hb' n
      generalize a + S n = u at *
      generalize b + T n = w at *
      simp [Gamma.new, h1, h2]
  choose Z hZ using fun n => hp n _ (hn n)
  have hm : Tendsto (fun n => (a + S n) / (b + T n)) atTop (𝓝 (σ / τ)) :=
    tendsto_div_div_nat hτ.ne' (tendsto_add_div_nat a hS) (tendsto_add_div_nat b hT)
  have hinf := tendsto_atTop_of_div_nat hτ (tendsto_add_div_nat b hT)
  refine settles_of_posterior hZ (fun n => C122_regular.2.2.1 _ _ _ (hn n)) (fun n => Gamma.moments (hn n)) hm ?_
  have := hm.div_atTop hinf
  exact this.congr fun n => div_div _ _ _

theorem beta_settles {a b σ τ : ℝ} (hστ : 0 < σ + τ) {prior : Beta XReal} (h : Beta.new (fin a) (fin b) = .ok prior)
    {S T : ℕ → ℝ} (hS0 : ∀ n, 0 ≤ S n) (hT0 : ∀ n, 0 ≤ T n) (hS : Tendsto (fun n : ℕ => S n / n) atTop (𝓝 σ))
    (hT : Tendsto (fun n : ℕ => T n / n) atTop (𝓝 τ)) {lik : ℕ → ℝ → XReal}
    (hp : ∀ n post, Beta.new (fin (a + S n)) (fin (b + T n)) = .ok post → ∃ Z, IsPosterior prior post (lik n) Z) :
    SettlesAt prior lik (σ / (σ + τ)) := by
  obtain ⟨ha, hb, -⟩ := Beta.new_ok h
  have ha' : ∀ n, 0 < a + S n := fun n => by have := hS0 n; linarith
  have hb' : ∀ n, 0 < b + T n := fun n => by have := hT0 n; linarith
  have hn : ∀ n, Beta.new (fin (a + S n)) (fin (b + T n)) = .ok (⟨fin (a + S n), fin (b + T n)⟩ : Beta XReal) :=
    fun n => by
      have h1 := ha' n
      have h2 := hb' n
      generalize a + S n = u at *
      generalize b + T n = w at *
      simp [Beta.new, h1, h2]
  choose Z hZ using fun n => hp n _ (hn n)
  have hsum : Tendsto (fun n : ℕ => (a + S n + (b + T n)) / n) atTop (𝓝 (σ + τ)) :=
    ((tendsto_add_div_nat a hS).add (tendsto_add_div_nat b hT)).congr fun n => (add_div _ _ _).symm
  have hm : Tendsto (fun n => (a + S n) / (a + S n + (b + T n))) atTop (𝓝 (σ / (σ + τ))) :=
    tendsto_div_div_nat hστ.ne' (tendsto_add_div_nat a hS) hsum
  have hinf := tendsto_atTop_of_div_nat hστ hsum
  refine settles_of_posterior hZ (fun n => C122_regular.2.2.2.1 _ _ _ (hn n)) (fun n => Beta.moments (hn n)) hm ?_
  refine squeeze_zero (fun n => ?_) (fun n => ?_) (tendsto_inv_atTop_zero.comp hinf)
  · have := ha' n; have := hb' n; positivity
  · have h1 := ha' n
    have h2 := hb' n
    show _ ≤ (a + S n + (b + T n))⁻¹
    generalize a + S n = u at *
    generalize b + T n = w at *
    rw [div_le_iff₀ (by positivity), inv_mul_eq_div, le_div_iff₀ (by positivity)]
    have : u * w ≤ (u + w) * (u + w) := by nlinarith
    have h3 : u * w * (u + w) ≤ (u + w) * (u + w) * (u + w) := mul_le_mul_of_nonneg_right this (by positivity)
    have h4 : 0 ≤ (u + w) * (u + w) := by positivity
    linarith

theorem firstN_count {x : ℕ → UInt8} (hx : ∀ i, x i = 0 ∨ x i = 1) (n : ℕ) :
    ((firstN x n).count 0 : ℝ) = n - ((firstN x n).count 1 : ℝ) := by
  induction n with
  | zero => simp [firstN]
  | succ n ih =>
    have e : firstN x (n + 1) = firstN x n ++ [x n] := by simp [firstN, List.range_succ]
    rw [e, List.count_append, List.count_append]
    push_cast
    rw [ih]
    rcases hx n with h | h <;> (rw [h]; simp; try ring)

theorem firstN_ones (x : ℕ → UInt8) (n : ℕ) :
    ((firstN x n).count 1 : ℝ) = ∑ i ∈ Finset.range n, if x i = 1 then 1 else 0 := by
  induction n with
  | zero => simp [firstN]
  | succ n ih =>
    have e : firstN x (n + 1) = firstN x n ++ [x n] := by simp [firstN, List.range_succ]
    rw [e, List.count_append, Finset.sum_range_succ, ← ih, List.count_singleton]
    push_cast
    simp

theorem firstN_avg {α : Type} {x : ℕ → α} {g : α → ℝ} {m : ℝ}
    (h : Tendsto (fun n : ℕ => (∑ i ∈ Finset.range n, g (x i)) / n) atTop (𝓝 m)) :
    Tendsto (fun n : ℕ => ((firstN x n).map g).sum / n) atTop (𝓝 m) := by
  simp_rw [firstN_sum]; exact h

theorem firstN_avg_real {x : ℕ → ℝ} {m : ℝ}
    (h : Tendsto (fun n : ℕ => (∑ i ∈ Finset.range n, x i) / n) atTop (𝓝 m)) :
    Tendsto (fun n : ℕ => (firstN x n).sum / n) atTop (𝓝 m) := by
  have := firstN_avg (g := fun y => y) h
  simpa using this

theorem tendsto_mul_nat_div (c : ℝ) : Tendsto (fun n : ℕ => (n * c : ℝ) / n) atTop (𝓝 c) := by
  refine tendsto_const_nhds.congr' ?_
  filter_upwards [eventually_gt_atTop 0] with n hn
  have : (n : ℝ) ≠ 0 := by exact_mod_cast hn.ne'
  field_simp

/-- **C139** (probabilities): a beta belief about a probability settles. Bits: at the relative frequency of ones.
Numbers of successes among `N` trials: at their average over `N`. Numbers of attempts up to the first success: at
one over their average. Numbers of failures before success number `r`: at `r / (r + average)`. Bits and trials
with either joint log-density. -/
theorem C139_probability {a b : ℝ} {prior : Beta XReal} (h : Beta.new (fin a) (fin b) = .ok prior) :
    (∀ (model : ℝ → Bernoulli XReal) (x : ℕ → UInt8) (t : ℝ),
      (∀ θ, 0 < θ → θ < 1 → Bernoulli.new (fin θ) = .ok (model θ)) → (∀ i, x i = 0 ∨ x i = 1) →
      Tendsto (fun n : ℕ => ((firstN x n).count 1 : ℝ) / n) atTop (𝓝 t) →
      SettlesAt prior (fun n θ => (IID.ofDist (model θ)).iidLogDensityFallback (firstN x n)) t ∧
      SettlesAt prior (fun n θ => (IID.ofDist (model θ)).iidLogDensity (firstN x n)) t) ∧
    (∀ (N : ℕ) (model : ℝ → Binomial XReal) (k : ℕ → ℕ) (m : ℝ), 0 < N →
      (∀ θ, 0 < θ → θ < 1 → Binomial.new N (fin θ) = .ok (model θ)) → (∀ i, k i ≤ N) →
      Tendsto (fun n : ℕ => (∑ i ∈ Finset.range n, (k i : ℝ)) / n) atTop (𝓝 m) →
      SettlesAt prior (fun n θ => (IID.ofDist (model θ)).iidLogDensityFallback (firstN k n)) (m / N) ∧
      SettlesAt prior (fun n θ => (IID.ofDist (model θ)).iidLogDensity (firstN k n)) (m / N)) ∧
    (∀ (model : ℝ → Geometric XReal) (k : ℕ → ℕ) (m : ℝ),
      (∀ θ, 0 < θ → θ < 1 → Geometric.new (fin θ) = .ok (model θ)) → (∀ i, 1 ≤ k i) →
      Tendsto (fun n : ℕ => (∑ i ∈ Finset.range n, (k i : ℝ)) / n) atTop (𝓝 m) →
      SettlesAt prior (fun n θ => (IID.ofDist (model θ)).iidLogDensityFallback (firstN k n)) (1 / m)) ∧
    (∀ (r : ℕ) (model : ℝ → NegativeBinomial XReal) (k : ℕ → ℕ) (m : ℝ),
      (∀ θ, 0 < θ → θ < 1 → NegativeBinomial.new r (fin θ) = .ok (model θ)) →
      Tendsto (fun n : ℕ => (∑ i ∈ Finset.range n, (k i : ℝ)) / n) atTop (𝓝 m) →
      SettlesAt prior (fun n θ => (IID.ofDist (model θ)).iidLogDensityFallback (firstN k n)) (r / (r + m))) := by
  refine ⟨?_, ?_, ?_, ?_⟩
  · intro model x t hm hx ht
    have hT : Tendsto (fun n : ℕ => ((firstN x n).count 0 : ℝ) / n) atTop (𝓝 (1 - t)) := by
      refine (ht.const_sub 1).congr' ?_
      filter_upwards [eventually_gt_atTop 0] with n hn
      have : (n : ℝ) ≠ 0 := by exact_mod_cast hn.ne'
      rw [firstN_count hx, sub_div, div_self this]
    have e : t / (t + (1 - t)) = t := by rw [add_sub_cancel, div_one]
    have hp := fun (n : ℕ) (post : Beta XReal) h' =>
      C131_beta_bernoulli (post := post) (firstN_mem (p := fun y => y = 0 ∨ y = 1) hx n) h h' hm
    rw [← e]
    exact ⟨beta_settles (by simp) h (fun n => Nat.cast_nonneg _) (fun n => Nat.cast_nonneg _) ht hT
        fun n post h' => ⟨_, (hp n post h').1⟩,
      beta_settles (by simp) h (fun n => Nat.cast_nonneg _) (fun n => Nat.cast_nonneg _) ht hT
        fun n post h' => ⟨_, (hp n post h').2⟩⟩
  · intro N model k m hN hm hk ht
    have hN' : (0 : ℝ) < N := by exact_mod_cast hN
    have hS := firstN_avg (g := fun k : ℕ => (k : ℝ)) ht
    have hT : Tendsto (fun n : ℕ => ((firstN k n).map fun k : ℕ => (N : ℝ) - k).sum / n) atTop (𝓝 (N - m)) := by
      refine firstN_avg (g := fun k : ℕ => (N : ℝ) - k) ?_
      refine (ht.const_sub (N : ℝ)).congr' ?_
      filter_upwards [eventually_gt_atTop 0] with n hn
      have : (n : ℝ) ≠ 0 := by exact_mod_cast hn.ne'
      rw [Finset.sum_sub_distrib, Finset.sum_const, Finset.card_range, nsmul_eq_mul, sub_div,
        mul_div_cancel_left₀ _ this]
    have e : m / N = m / (m + (N - m)) := by rw [add_sub_cancel]
    have h1 : ∀ n, 0 ≤ ((firstN k n).map fun k : ℕ => (k : ℝ)).sum := fun n => by
      rw [firstN_sum]; exact Finset.sum_nonneg fun i _ => Nat.cast_nonneg _
    have h2 : ∀ n, 0 ≤ ((firstN k n).map fun k : ℕ => (N : ℝ) - k).sum := fun n => by
      rw [firstN_sum]
      exact Finset.sum_nonneg fun i _ => sub_nonneg.2 (by exact_mod_cast hk i)
    have hp := fun (n : ℕ) (post : Beta XReal) h' =>
      C131_beta_binomial (post := post) (firstN_mem (p := fun y => y ≤ N) hk n) h h' hm
    rw [e]
    exact ⟨beta_settles (by simpa using hN) h h1 h2 hS hT fun n post h' => ⟨_, (hp n post h').1⟩,
      beta_settles (by simpa using hN) h h1 h2 hS hT fun n post h' => ⟨_, (hp n post h').2⟩⟩
  · intro model k m hm hk ht
    have hT : Tendsto (fun n : ℕ => ((firstN k n).map fun k : ℕ => (k : ℝ) - 1).sum / n) atTop (𝓝 (m - 1)) := by
      refine firstN_avg (g := fun k : ℕ => (k : ℝ) - 1) ?_
      refine (ht.sub_const 1).congr' ?_
      filter_upwards [eventually_gt_atTop 0] with n hn
      have : (n : ℝ) ≠ 0 := by exact_mod_cast hn.ne'
      rw [Finset.sum_sub_distrib, Finset.sum_const, Finset.card_range, nsmul_eq_mul, sub_div, mul_one, div_self this]
    have h2 : ∀ n, 0 ≤ ((firstN k n).map fun k : ℕ => (k : ℝ) - 1).sum := fun n => by
      rw [firstN_sum]
      exact Finset.sum_nonneg fun i _ => sub_nonneg.2 (by exact_mod_cast hk i)
    have hm1 : 0 ≤ m - 1 := ge_of_tendsto' hT fun n => div_nonneg (h2 n) (Nat.cast_nonneg _)
    have e : 1 / m = 1 / (1 + (m - 1)) := by rw [add_sub_cancel]
    rw [e]
    refine beta_settles (S := fun n => (n : ℝ)) (by linarith) h (fun n => Nat.cast_nonneg _) h2
      (by simpa using tendsto_mul_nat_div 1) hT fun n post h' => ⟨_, (C131_beta_waiting h).1 post model
        (firstN_mem (p := fun y => 1 ≤ y) hk n) ?_ hm⟩
    rw [firstN_length]; exact h'
  · intro r model k m hm ht
    have hr : (0 : ℝ) < r := by exact_mod_cast (NegativeBinomial.new_ok (hm (1/2) (by norm_num) (by norm_num))).1
    have h2 : ∀ n, 0 ≤ ((firstN k n).map fun k : ℕ => (k : ℝ)).sum := fun n => by
      rw [firstN_sum]; exact Finset.sum_nonneg fun i _ => Nat.cast_nonneg _
    have hT := firstN_avg (g := fun k : ℕ => (k : ℝ)) ht
    have hm0 : 0 ≤ m := ge_of_tendsto' hT fun n => div_nonneg (h2 n) (Nat.cast_nonneg _)
    refine beta_settles (S := fun n => n * (r : ℝ)) (by linarith) h (fun n => by positivity) h2
      (tendsto_mul_nat_div r) hT fun n post h' => ⟨_, (C131_beta_waiting h).2 r post model ?_ hm⟩
    rw [firstN_length]; exact h'

/-- **C139** (rates): a gamma belief about a rate settles. Counts: at their average, with either joint log-density.
Waiting times: at one over their average. Gamma draws of known shape `κ`: at `κ` over their average, with either joint
log-density. -/
theorem C139_rate {a b : ℝ} {prior : Gamma XReal} (h : Gamma.new (fin a) (fin b) = .ok prior) :
    (∀ (model : ℝ → Poisson XReal) (k : ℕ → ℕ) (m : ℝ),
      (∀ θ, 0 < θ → Poisson.new (fin θ) = .ok (model θ)) →
      Tendsto (fun n : ℕ => (∑ i ∈ Finset.range n, (k i : ℝ)) / n) atTop (𝓝 m) →
      SettlesAt prior (fun n θ => (IID.ofDist (model θ)).iidLogDensityFallback (firstN k n)) m ∧
      SettlesAt prior (fun n θ => (IID.ofDist (model θ)).iidLogDensity (firstN k n)) m) ∧
    (∀ (model : ℝ → Exponential XReal) (x : ℕ → ℝ) (m : ℝ),
      (∀ θ, 0 < θ → Exponential.new (fin θ) = .ok (model θ)) → (∀ i, 0 ≤ x i) → 0 < m →
      Tendsto (fun n : ℕ => (∑ i ∈ Finset.range n, x i) / n) atTop (𝓝 m) →
      SettlesAt prior (fun n θ => (IID.ofDist (model θ)).iidLogDensityFallback ((firstN x n).map fin)) (1 / m)) ∧
    (∀ (κ : ℝ) (model : ℝ → Gamma XReal) (x : ℕ → ℝ) (m : ℝ),
      (∀ θ, 0 < θ → Gamma.new (fin κ) (fin θ) = .ok (model θ)) → (∀ i, 0 < x i) → 0 < m →
      Tendsto (fun n : ℕ => (∑ i ∈ Finset.range n, x i) / n) atTop (𝓝 m) →
      SettlesAt prior (fun n θ => (IID.ofDist (model θ)).iidLogDensityFallback ((firstN x n).map fin)) (κ / m) ∧
      SettlesAt prior (fun n θ => (IID.ofDist (model θ)).iidLogDensity ((firstN x n).map fin)) (κ / m)) := by
  have nn : ∀ {x : ℕ → ℝ}, (∀ i, 0 ≤ x i) → ∀ n, 0 ≤ (firstN x n).sum := fun {x} hx n => by
    have := firstN_sum x (fun y => y) n
    rw [List.map_id'] at this
    rw [this]; exact Finset.sum_nonneg fun i _ => hx i
  refine ⟨?_, ?_, ?_⟩
  · intro model k m hm ht
    have h2 : ∀ n, 0 ≤ ((firstN k n).map fun k : ℕ => (k : ℝ)).sum := fun n => by
      rw [firstN_sum]; exact Finset.sum_nonneg fun i _ => Nat.cast_nonneg _
    have hS := firstN_avg (g := fun k : ℕ => (k : ℝ)) ht
    have hp := fun (n : ℕ) (post : Gamma XReal)
      (h' : Gamma.new (fin (a + ((firstN k n).map fun k : ℕ => (k : ℝ)).sum)) (fin (b + n)) = .ok post) =>
      C131_gamma_poisson (post := post) (ks := firstN k n) h (by rw [firstN_length]; exact h') hm
    have hT : Tendsto (fun n : ℕ => (n : ℝ) / n) atTop (𝓝 1) := by simpa using tendsto_mul_nat_div 1
    rw [← div_one m]
    refine ⟨gamma_settles one_pos h h2 (fun n => Nat.cast_nonneg n) hS hT fun n post h' => ⟨_, (hp n post h').1⟩,
      gamma_settles one_pos h h2 (fun n => Nat.cast_nonneg n) hS hT fun n post h' => ?_⟩
    obtain ⟨δ, -, hδ⟩ := (hp n post h').2
    exact ⟨_, hδ⟩
  · intro model x m hm hx hm0 ht
    refine gamma_settles (S := fun n => (n : ℝ)) hm0 h (fun n => Nat.cast_nonneg n) (nn hx)
      (by simpa using tendsto_mul_nat_div 1) (firstN_avg_real ht) fun n post h' => ⟨_, C131_gamma_exponential
        (firstN_mem (p := fun y => 0 ≤ y) hx n) h ?_ hm⟩
    rw [firstN_length]; exact h'
  · intro κ model x m hm hx hm0 ht
    have hκ := (Gamma.new_ok (hm 1 one_pos)).1
    have hp := fun (n : ℕ) (post : Gamma XReal)
      (h' : Gamma.new (fin (a + n * κ)) (fin (b + (firstN x n).sum)) = .ok post) =>
      C131_gamma_gamma (post := post) (firstN_mem (p := fun y => 0 < y) hx n) h (by rw [firstN_length]; exact h') hm
    exact ⟨gamma_settles (S := fun n => n * κ) hm0 h (fun n => by positivity) (nn fun i => (hx i).le)
        (tendsto_mul_nat_div κ) (firstN_avg_real ht) fun n post h' => ⟨_, (hp n post h').1⟩,
      gamma_settles (S := fun n => n * κ) hm0 h (fun n => by positivity) (nn fun i => (hx i).le)
        (tendsto_mul_nat_div κ) (firstN_avg_real ht) fun n post h' => ⟨_, (hp n post h').2⟩⟩

/-- **C139** (normal data): with known scale, a normal belief about the mean settles at the average of the
observations; with known mean, a gamma belief about the precision settles at one over the mean square deviation;
with either joint log-density. -/
theorem C139_normal :
    (∀ (m₀ s₀ s : ℝ) (prior : Normal XReal) (model : ℝ → Normal XReal) (x : ℕ → ℝ) (t : ℝ),
      Normal.new (fin m₀) (fin s₀) = .ok prior → (∀ θ, Normal.new (fin θ) (fin s) = .ok (model θ)) →
      Tendsto (fun n : ℕ => (∑ i ∈ Finset.range n, x i) / n) atTop (𝓝 t) →
      SettlesAt prior (fun n θ => (IID.ofDist (model θ)).iidLogDensityFallback ((firstN x n).map fin)) t ∧
      SettlesAt prior (fun n θ => (IID.ofDist (model θ)).iidLogDensity ((firstN x n).map fin)) t) ∧
    (∀ (a b μ : ℝ) (prior : Gamma XReal) (model : ℝ → Normal XReal) (x : ℕ → ℝ) (v : ℝ),
      Gamma.new (fin a) (fin b) = .ok prior → (∀ τ, 0 < τ → Normal.new (fin μ) (fin (1 / √τ)) = .ok (model τ)) →
      0 < v → Tendsto (fun n : ℕ => (∑ i ∈ Finset.range n, (x i - μ) ^ 2) / n) atTop (𝓝 v) →
      SettlesAt prior (fun n τ => (IID.ofDist (model τ)).iidLogDensityFallback ((firstN x n).map fin)) (1 / v) ∧
      SettlesAt prior (fun n τ => (IID.ofDist (model τ)).iidLogDensity ((firstN x n).map fin)) (1 / v)) := by
  constructor
  · intro m₀ s₀ s prior model x t h hm ht
    have hs₀ := (Normal.new_ok h).1
    have hs := (Normal.new_ok (hm 0)).1
    have hcl := fun n => C114_closed_form m₀ (s₀ ^ 2) (s ^ 2) (by positivity) (by positivity) (firstN x n)
    simp_rw [firstN_length] at hcl
    set B : ℕ → Belief := fun n => (firstN x n).foldl (Belief.update (s ^ 2)) ⟨m₀, s₀ ^ 2⟩ with hB
    have hn : ∀ n, Normal.new (fin (B n).mean) (fin √(B n).var)
        = .ok (⟨fin (B n).mean, fin √(B n).var⟩ : Normal XReal) := fun n => by
      have := (hcl n).1
      simp [Normal.new, hB, this]
    have hp := fun n => C131_normal_normal h (hn n) hm
    -- the precision grows linearly
    have hprec : Tendsto (fun n : ℕ => (1 / s₀ ^ 2 + n / s ^ 2) / n) atTop (𝓝 (1 / s ^ 2)) := by
      refine tendsto_add_div_nat _ ((tendsto_mul_nat_div (1 / s ^ 2)).congr fun n => ?_)
      rw [mul_one_div]
    have hprec0 : (0 : ℝ) < 1 / s ^ 2 := by positivity
    have hnum : Tendsto (fun n : ℕ => (m₀ / s₀ ^ 2 + (firstN x n).sum / s ^ 2) / n) atTop (𝓝 (t / s ^ 2)) := by
      refine tendsto_add_div_nat _ (((firstN_avg_real ht).div_const (s ^ 2)).congr fun n => ?_)
      rw [div_right_comm]
    have hmean : Tendsto (fun n => (B n).mean) atTop (𝓝 t) := by
      have e : t = t / s ^ 2 / (1 / s ^ 2) := by field_simp
      rw [e]
      refine (tendsto_div_div_nat hprec0.ne' hnum hprec).congr fun n => ?_
      exact (hcl n).2.2.symm
    have hvar : Tendsto (fun n => √(B n).var * √(B n).var) atTop (𝓝 0) := by
      refine (tendsto_inv_atTop_zero.comp (tendsto_atTop_of_div_nat hprec0 hprec)).congr fun n => ?_
      rw [Real.mul_self_sqrt (hcl n).1.le, Function.comp_apply, ← (hcl n).2.1, one_div, inv_inv]
    exact ⟨settles_of_posterior (fun n => (hp n).1) (fun n => C122_regular.1 _ _ _ (hn n))
        (fun n => Normal.moments (hn n)) hmean hvar,
      settles_of_posterior (fun n => (hp n).2) (fun n => C122_regular.1 _ _ _ (hn n))
        (fun n => Normal.moments (hn n)) hmean hvar⟩
  · intro a b μ prior model x v h hm hv ht
    have hT : Tendsto (fun n : ℕ => ((firstN x n).map (fun x : ℝ => (x - μ) ^ 2 / 2)).sum / (n : ℝ)) atTop (𝓝 (v / 2)) := by
      refine firstN_avg (g := fun x => (x - μ) ^ 2 / 2) ((ht.div_const 2).congr fun n => ?_)
      rw [← Finset.sum_div, div_right_comm]
    have h2 : ∀ n, 0 ≤ ((firstN x n).map fun x => (x - μ) ^ 2 / 2).sum := fun n => by
      rw [firstN_sum]; exact Finset.sum_nonneg fun i _ => by positivity
    have hp := fun (n : ℕ) (post : Gamma XReal)
      (h' : Gamma.new (fin (a + n * (1/2))) (fin (b + ((firstN x n).map fun x => (x - μ) ^ 2 / 2).sum)) = .ok post) =>
      C131_gamma_normal (post := post) h (by rw [firstN_length]; exact h') hm
    have e : 1 / v = 1/2 / (v / 2) := by field_simp
    rw [e]
    exact ⟨gamma_settles (S := fun n => n * (1/2)) (by positivity) h (fun n => by positivity) h2
        (tendsto_mul_nat_div _) hT fun n post h' => ⟨_, (hp n post h').1⟩,
      gamma_settles (S := fun n => n * (1/2)) (by positivity) h (fun n => by positivity) h2
        (tendsto_mul_nat_div _) hT fun n post h' => ⟨_, (hp n post h').2⟩⟩

/-- The law of large numbers for a function of independent draws. -/
theorem draws_average {Ω α : Type} [MeasurableSpace Ω] [MeasurableSpace α] {μ : MeasureTheory.Measure Ω}
    {X : ℕ → Ω → α} {P : MeasureTheory.Measure α} (h : Draws μ X P) {g : α → ℝ} (hg : Measurable g) {m : ℝ}
    (hi : Integrable g P) (hm : ∫ a, g a ∂P = m) :
    ∀ᵐ ω ∂μ, Tendsto (fun n : ℕ => (∑ i ∈ Finset.range n, g (X i ω)) / n) atTop (𝓝 m) := by
  have h0 : Integrable (fun ω => g (X 0 ω)) μ := by
    rw [← h.law 0] at hi
    exact hi.comp_measurable (h.measurable 0)
  have e : ∫ ω, g (X 0 ω) ∂μ = m := by
    rw [← hm, ← h.law 0, integral_map (h.measurable 0).aemeasurable hg.aestronglyMeasurable]
  have := strong_law_ae_real (μ := μ) (fun i ω => g (X i ω)) h0
    (fun i j hij => (h.independent.indepFun hij).comp hg hg)
    (fun i => IdentDistrib.comp (u := g)
      ⟨(h.measurable i).aemeasurable, (h.measurable 0).aemeasurable, (h.law i).trans (h.law 0).symm⟩ hg)
  rwa [e] at this

theorem draws_always {Ω α : Type} [MeasurableSpace Ω] [MeasurableSpace α] {μ : MeasureTheory.Measure Ω}
    {X : ℕ → Ω → α} {P : MeasureTheory.Measure α} (h : Draws μ X P) {p : α → Prop} (hp : ∀ᵐ a ∂P, p a) :
    ∀ᵐ ω ∂μ, ∀ i, p (X i ω) := by
  rw [ae_all_iff]
  intro i
  rw [← h.law i] at hp
  exact ae_of_ae_map (h.measurable i).aemeasurable hp

theorem law_ae {M X α : Type} [MeasurableSpace α] [HasLogDensity M X XReal] {ν : MeasureTheory.Measure α} {e : α → X}
    {d : M} (h : RegularLaw ν e d) {p : α → Prop}
    (hp : ∀ a, density (logDensityWrtRoot d (e a) : XReal) ≠ 0 → p a) : ∀ᵐ a ∂(law ν e d), p a := by
  rw [law, ae_withDensity_iff h.measurable.ennreal_ofReal]
  refine Eventually.of_forall fun a ha => hp a fun h0 => ha ?_
  rw [h0, ENNReal.ofReal_zero]

/-- **C139** (almost surely): if the data are independent draws from the model at the parameter value `θ`, the belief
settles at `θ`, except for data sequences of probability zero. -/
theorem C139_almost_surely {Ω : Type} [MeasurableSpace Ω] {μ : MeasureTheory.Measure Ω} :
    (∀ (a b θ : ℝ) (prior : Beta XReal) (model : ℝ → Bernoulli XReal) (X : ℕ → Ω → Fin 256),
      Beta.new (fin a) (fin b) = .ok prior → (∀ θ, 0 < θ → θ < 1 → Bernoulli.new (fin θ) = .ok (model θ)) →
      0 < θ → θ < 1 → Draws μ X (law Measure.count byteOf (model θ)) →
      ∀ᵐ ω ∂μ, SettlesAt prior
        (fun n η => (IID.ofDist (model η)).iidLogDensity (firstN (fun i => byteOf (X i ω)) n)) θ) ∧
    (∀ (a b θ : ℝ) (prior : Beta XReal) (model : ℝ → Geometric XReal) (X : ℕ → Ω → ℕ),
      Beta.new (fin a) (fin b) = .ok prior → (∀ θ, 0 < θ → θ < 1 → Geometric.new (fin θ) = .ok (model θ)) →
      0 < θ → θ < 1 → Draws μ X (law Measure.count id (model θ)) →
      ∀ᵐ ω ∂μ, SettlesAt prior
        (fun n η => (IID.ofDist (model η)).iidLogDensityFallback (firstN (fun i => X i ω) n)) θ) ∧
    (∀ (a b θ : ℝ) (prior : Gamma XReal) (model : ℝ → Poisson XReal) (X : ℕ → Ω → ℕ),
      Gamma.new (fin a) (fin b) = .ok prior → (∀ θ, 0 < θ → Poisson.new (fin θ) = .ok (model θ)) →
      0 < θ → Draws μ X (law Measure.count id (model θ)) →
      ∀ᵐ ω ∂μ, SettlesAt prior
        (fun n η => (IID.ofDist (model η)).iidLogDensity (firstN (fun i => X i ω) n)) θ) ∧
    (∀ (a b θ : ℝ) (prior : Gamma XReal) (model : ℝ → Exponential XReal) (X : ℕ → Ω → ℝ),
      Gamma.new (fin a) (fin b) = .ok prior → (∀ θ, 0 < θ → Exponential.new (fin θ) = .ok (model θ)) →
      0 < θ → Draws μ X (law volume fin (model θ)) →
      ∀ᵐ ω ∂μ, SettlesAt prior
        (fun n η => (IID.ofDist (model η)).iidLogDensityFallback ((firstN (fun i => X i ω) n).map fin)) θ) ∧
    (∀ (a b κ θ : ℝ) (prior : Gamma XReal) (model : ℝ → Gamma XReal) (X : ℕ → Ω → ℝ),
      Gamma.new (fin a) (fin b) = .ok prior → (∀ θ, 0 < θ → Gamma.new (fin κ) (fin θ) = .ok (model θ)) →
      0 < θ → Draws μ X (law volume fin (model θ)) →
      ∀ᵐ ω ∂μ, SettlesAt prior
        (fun n η => (IID.ofDist (model η)).iidLogDensity ((firstN (fun i => X i ω) n).map fin)) θ) ∧
    (∀ (m₀ s₀ s θ : ℝ) (prior : Normal XReal) (model : ℝ → Normal XReal) (X : ℕ → Ω → ℝ),
      Normal.new (fin m₀) (fin s₀) = .ok prior → (∀ θ, Normal.new (fin θ) (fin s) = .ok (model θ)) →
      Draws μ X (law volume fin (model θ)) →
      ∀ᵐ ω ∂μ, SettlesAt prior
        (fun n η => (IID.ofDist (model η)).iidLogDensity ((firstN (fun i => X i ω) n).map fin)) θ) ∧
    (∀ (a b m θ : ℝ) (prior : Gamma XReal) (model : ℝ → Normal XReal) (X : ℕ → Ω → ℝ),
      Gamma.new (fin a) (fin b) = .ok prior → (∀ τ, 0 < τ → Normal.new (fin m) (fin (1 / √τ)) = .ok (model τ)) →
      0 < θ → Draws μ X (law volume fin (model θ)) →
      ∀ᵐ ω ∂μ, SettlesAt prior
        (fun n τ => (IID.ofDist (model τ)).iidLogDensity ((firstN (fun i => X i ω) n).map fin)) θ) := by
  refine ⟨?_, ?_, ?_, ?_, ?_, ?_, ?_⟩
  · intro a b θ prior model X h hm h0 h1 hX
    have hpmf := (C16_bernoulli_pmf (hm θ h0 h1)).1
    have hr : RegularLaw Measure.count byteOf (model θ) := by
      rw [(Bernoulli.new_ok (hm θ h0 h1)).2]; exact Bernoulli.regular h0 h1
    have pr := law_prob _ _ _ hr
    have hone : (law Measure.count byteOf (model θ)).real {1} = θ := by
      have := law_real_finset hr (s := {1})
      rw [Finset.sum_singleton, hpmf, if_pos (byteOf_eq_one.2 rfl), Finset.coe_singleton] at this
      exact this
    have hg : Measurable fun i : Fin 256 => if byteOf i = 1 then (1 : ℝ) else 0 := Measurable.of_discrete
    have e : (fun i : Fin 256 => if byteOf i = 1 then (1 : ℝ) else 0) = Set.indicator {1} fun _ => (1 : ℝ) := by
      funext i
      rw [Set.indicator_apply]
      simp only [byteOf_eq_one, Set.mem_singleton_iff]
    have i1 : Integrable (fun i : Fin 256 => if byteOf i = 1 then (1 : ℝ) else 0)
        (law Measure.count byteOf (model θ)) := by
      rw [e]; exact (integrable_const 1).indicator (measurableSet_singleton _)
    have i2 : ∫ i : Fin 256, (if byteOf i = 1 then (1 : ℝ) else 0) ∂(law Measure.count byteOf (model θ)) = θ := by
      rw [e, integral_indicator_const _ (measurableSet_singleton _), hone, smul_eq_mul, mul_one]
    have hbit : ∀ᵐ i ∂(law Measure.count byteOf (model θ)), byteOf i = 0 ∨ byteOf i = 1 := law_ae hr fun i hi => by
      by_contra hc
      rw [not_or] at hc
      rw [hpmf, if_neg hc.2, if_neg hc.1] at hi
      exact hi rfl
    filter_upwards [draws_average hX hg i1 i2, draws_always hX hbit] with ω ha hk
    refine ((C139_probability h).1 model _ θ hm hk (ha.congr fun n => ?_)).2
    rw [firstN_ones]
  · intro a b θ prior model X h hm h0 h1 hX
    have hr := C122_regular.2.2.2.2.2.2.2.1 _ _ (hm θ h0 h1) h1.ne
    obtain ⟨m, v, e1, -, hmom⟩ := C27_discrete_moments_partial.2.1 θ _ (hm θ h0 h1) h1.ne
    obtain ⟨-, hd⟩ := Geometric.new_ok (hm θ h0 h1)
    have hmθ : m = 1 / θ := by
      rw [hd] at e1
      have : fin (1 / θ) = fin m := by rw [← e1]; exact (f_div _ _ h0.ne').symm
      rw [fin.injEq] at this; exact this.symm
    obtain ⟨i1, i2⟩ := integral_law_nat (model θ) hr (fun k => (k : ℝ)) (t := m)
      (by simpa [mul_comm] using hmom.mean)
    have hpos : ∀ᵐ k ∂(law Measure.count (id : ℕ → ℕ) (model θ)), 1 ≤ k := law_ae hr fun k hk => by
      by_contra hc
      have : k = 0 := by omega
      rw [this, hd] at hk
      simp [logDensityWrtRoot] at hk
    filter_upwards [draws_average hX measurable_from_top i1 i2, draws_always hX hpos] with ω ha hk
    have := (C139_probability h).2.2.1 model _ m hm hk ha
    rwa [hmθ, one_div_one_div] at this
  · intro a b θ prior model X h hm h0 hX
    have hr := C122_regular.2.2.2.2.2.2.2.2 _ _ (hm θ h0)
    obtain ⟨i1, i2⟩ := integral_law_nat (model θ) hr (fun k => (k : ℝ)) (t := θ)
      (by simpa [mul_comm] using poisson_mean (hm θ h0))
    filter_upwards [draws_average hX measurable_from_top i1 i2] with ω ha
    exact ((C139_rate h).1 model _ θ hm ha).2
  · intro a b θ prior model X h hm h0 hX
    have hr := C122_regular.2.1 _ _ (hm θ h0)
    obtain ⟨m, v, e1, -, hmom⟩ := C27_continuous_moments.2.1 θ _ (hm θ h0)
    obtain ⟨-, hd⟩ := Exponential.new_ok (hm θ h0)
    have hmθ : m = 1 / θ := by
      rw [hd] at e1
      have : fin (1 / θ) = fin m := by rw [← e1]; exact (f_div _ _ h0.ne').symm
      rw [fin.injEq] at this; exact this.symm
    obtain ⟨i1, i2⟩ := integral_law_quadratic (model θ) hr hmom (fun x => x) 0 1 0 (fun x _ => by ring)
    have hpos : ∀ᵐ x ∂(law volume fin (model θ)), 0 ≤ x := law_ae hr fun x hx => by
      by_contra hc
      rw [hd, Exponential.ld_of_neg (not_le.1 hc)] at hx
      simp [density] at hx
    filter_upwards [draws_average hX measurable_id i1 i2, draws_always hX hpos] with ω ha hk
    have hm0 : 0 < m := by rw [hmθ]; positivity
    have := (C139_rate h).2.1 model _ m hm hk hm0 (by simpa using ha)
    rwa [hmθ, one_div_one_div] at this
  · intro a b κ θ prior model X h hm h0 hX
    have hr := C122_regular.2.2.1 _ _ _ (hm θ h0)
    obtain ⟨hκ, -, hd⟩ := Gamma.new_ok (hm θ h0)
    obtain ⟨i1, i2⟩ := integral_law_quadratic (model θ) hr (Gamma.moments (hm θ h0)) (fun x => x) 0 1 0 (fun x _ => by ring)
    have hpos : ∀ᵐ x ∂(law volume fin (model θ)), 0 < x := law_ae hr fun x hx => by
      by_contra hc
      rw [hd, Gamma.ld_of_nonpos (not_lt.1 hc)] at hx
      simp [density] at hx
    filter_upwards [draws_average hX measurable_id i1 i2, draws_always hX hpos] with ω ha hk
    have hm0 : 0 < κ / θ := by positivity
    have := ((C139_rate h).2.2 κ model _ (κ / θ) hm hk hm0 (by simpa using ha)).2
    rwa [div_div_cancel₀ hκ.ne'] at this
  · intro m₀ s₀ s θ prior model X h hm hX
    have hr := C122_regular.1 _ _ _ (hm θ)
    obtain ⟨i1, i2⟩ := integral_law_quadratic (model θ) hr (Normal.moments (hm θ)) (fun x => x) 0 1 0 (fun x _ => by ring)
    filter_upwards [draws_average hX measurable_id i1 i2] with ω ha
    exact (C139_normal.1 m₀ s₀ s prior model _ θ h hm (by simpa using ha)).2
  · intro a b m θ prior model X h hm h0 hX
    have hr := C122_regular.1 _ _ _ (hm θ h0)
    obtain ⟨i1, i2⟩ := integral_law_quadratic (model θ) hr (Normal.moments (hm θ h0)) (fun x => (x - m) ^ 2) 0 0 1
      (fun x _ => by ring)
    have hg : Measurable fun x : ℝ => (x - m) ^ 2 := by fun_prop
    have e : 1 / √θ * (1 / √θ) = 1 / θ := by
      rw [one_div_mul_one_div, Real.mul_self_sqrt h0.le]
    rw [e, zero_mul, add_zero, zero_add, one_mul] at i2
    filter_upwards [draws_average hX hg i1 i2] with ω ha
    have := (C139_normal.2 a b m prior model _ (1 / θ) h hm (by positivity) ha).2
    rwa [one_div_one_div] at this

/-- **C139** (drawn counts): observations drawn independently from the binomial or the negative binomial with parameter
`θ` and its base measure take the belief to `θ`, almost surely. -/
theorem C139_almost_surely_counts {Ω : Type} [MeasurableSpace Ω] {μ : MeasureTheory.Measure Ω} {a b : ℝ}
    {prior : Beta XReal} (h : Beta.new (fin a) (fin b) = .ok prior) :
    (∀ (N : ℕ) (θ : ℝ) (model : ℝ → Binomial XReal) (X : ℕ → Ω → ℕ), 0 < N →
      (∀ θ, 0 < θ → θ < 1 → Binomial.new N (fin θ) = .ok (model θ)) →
      0 < θ → θ < 1 → Draws μ X (law Measure.count (id : ℕ → ℕ) (model θ).withBase) →
      ∀ᵐ ω ∂μ, SettlesAt prior (fun n η => (IID.ofDist (model η)).iidLogDensityFallback (firstN (fun i => X i ω) n)) θ ∧
        SettlesAt prior (fun n η => (IID.ofDist (model η)).iidLogDensity (firstN (fun i => X i ω) n)) θ) ∧
    (∀ (r : ℕ) (θ : ℝ) (model : ℝ → NegativeBinomial XReal) (X : ℕ → Ω → ℕ),
      (∀ θ, 0 < θ → θ < 1 → NegativeBinomial.new r (fin θ) = .ok (model θ)) →
      0 < θ → θ < 1 → Draws μ X (law Measure.count (id : ℕ → ℕ) (model θ).withBase) →
      ∀ᵐ ω ∂μ, SettlesAt prior
        (fun n η => (IID.ofDist (model η)).iidLogDensityFallback (firstN (fun i => X i ω) n)) θ) := by
  refine ⟨?_, ?_⟩
  · intro N θ model X hN hm h0 h1 hX
    have hN' : (0 : ℝ) < N := by exact_mod_cast hN
    obtain ⟨-, hd⟩ := Binomial.new_ok (hm θ h0 h1)
    have hr : RegularLaw Measure.count (id : ℕ → ℕ) (model θ).withBase := by
      rw [hd]; exact Binomial.regular h0 h1
    obtain ⟨m, v, e1, -, hmom, -⟩ := C27_discrete_moments_partial.2.2.2 N θ _ (hm θ h0 h1) h0.ne' h1.ne
    have hmθ : m = N * θ := by
      rw [hd] at e1
      have : fin (N * θ) = fin m := e1
      rw [fin.injEq] at this; exact this.symm
    have hs : HasSum (fun k : ℕ => density (logDensityWrtRoot (model θ).withBase k : XReal) * (k : ℝ)) m := by
      rw [← hmom]
      have : ∀ k ∈ Finset.range (N + 1), (k : ℝ) * density (ExponentialFamily.expFamLogDensity (model θ) k : XReal)
          = density (logDensityWrtRoot (model θ).withBase k : XReal) * (k : ℝ) := fun k hk => by
        have hk : k ≤ N := by simpa [Nat.lt_succ_iff] using hk
        rw [hd, Binomial.ef h0 h1 hk, (Binomial.withBase_ld h0 h1 k).1 hk, mul_comm, add_assoc]
      rw [Finset.sum_congr rfl this]
      refine hasSum_sum_of_ne_finset_zero fun k hk => ?_
      have hk : N < k := by simpa [Nat.lt_succ_iff] using hk
      rw [hd, (Binomial.withBase_ld h0 h1 k).2 hk]
      simp [density]
    obtain ⟨i1, i2⟩ := integral_law_nat (model θ).withBase hr (fun k => (k : ℝ)) hs
    have hle : ∀ᵐ k ∂(law Measure.count (id : ℕ → ℕ) (model θ).withBase), k ≤ N := law_ae hr fun k hk => by
      by_contra hc
      rw [hd, id, (Binomial.withBase_ld h0 h1 k).2 (not_le.1 hc)] at hk
      simp [density] at hk
    filter_upwards [draws_average hX measurable_from_top i1 i2, draws_always hX hle] with ω ha hk
    have := (C139_probability h).2.1 N model _ m hN hm hk ha
    rwa [hmθ, mul_div_cancel_left₀ _ hN'.ne'] at this
  · intro r θ model X hm h0 h1 hX
    obtain ⟨hr0, -, hd⟩ := NegativeBinomial.new_ok (hm θ h0 h1)
    have hr0' : (0 : ℝ) < r := by exact_mod_cast hr0
    have hr : RegularLaw Measure.count (id : ℕ → ℕ) (model θ).withBase := by
      rw [hd]; exact NegativeBinomial.regular hr0 h0 h1
    obtain ⟨d', m, v, hd', e1, -, hmom⟩ :=
      C27_negative_binomial_exchanged r (1 - θ) _ (hm (1 - θ) (by linarith) (by linarith))
    rw [sub_sub_cancel, hm θ h0 h1] at hd'
    cases hd'
    have hmθ : m = r * (1 - θ) / θ := by
      obtain ⟨-, -, hd2⟩ := NegativeBinomial.new_ok (hm (1 - θ) (by linarith) (by linarith))
      rw [hd2] at e1
      have e2 : (NegativeBinomial.mean (⟨r, fin (1 - θ)⟩ : NegativeBinomial XReal)) = fin (r * (1 - θ) / (1 - (1 - θ))) := by
        simp only [NegativeBinomial.mean, f_ofNat, f_mul, f_one, f_sub]
        exact f_div _ _ (by linarith)
      rw [e2, fin.injEq, sub_sub_cancel] at e1
      exact e1.symm
    have hs : HasSum (fun k : ℕ => density (logDensityWrtRoot (model θ).withBase k : XReal) * (k : ℝ)) m := by
      refine hmom.mean.congr_fun fun k => ?_
      have e : (logDensityWrtRoot (model θ).withBase k : XReal) = (logDensityWrtRoot (model θ) k
        +. logDensityWrtRoot (⟨r⟩ : NegativeBinomialCoefficientMeasure XReal) k) := by
        rw [hd]
        exact XReal.add_comm' _ _
      rw [e, mul_comm]
    obtain ⟨i1, i2⟩ := integral_law_nat (model θ).withBase hr (fun k => (k : ℝ)) hs
    filter_upwards [draws_average hX measurable_from_top i1 i2] with ω ha
    have := (C139_probability h).2.2.2 r model _ m hm ha
    have e : (r : ℝ) / (r + m) = θ := by rw [hmθ]; field_simp; ring
    rwa [e] at this

/-- **C139** is violated by the exponential-family joint log-density of the exponential distribution (C24): whatever
the waiting times, the belief settles nowhere, because from some number of observations on Bayes' rule cannot be
applied: prior times likelihood has no integral. -/
theorem C139_exponential_violated {a b : ℝ} {prior : Gamma XReal} (h : Gamma.new (fin a) (fin b) = .ok prior)
    {model : ℝ → Exponential XReal} (hm : ∀ θ, 0 < θ → Exponential.new (fin θ) = .ok (model θ)) {x : ℕ → ℝ}
    (hx : ∀ i, 0 ≤ x i) (t : ℝ) :
    ¬ SettlesAt prior (fun n θ => (IID.ofDist (model θ)).iidLogDensity ((firstN x n).map fin)) t := by
  intro hset
  obtain ⟨ha, hb, rfl⟩ := Gamma.new_ok h
  obtain ⟨n, hn⟩ := exists_nat_ge a
  have hpos := hset.evidence n
  have lik : ∀ θ, 0 < θ → (IID.ofDist (model θ)).iidLogDensity ((firstN x n).map fin)
      = fin (-(n : ℝ) * Real.log θ + (firstN x n).sum * -θ) := by
    intro θ h0
    have hs := C28_iid_is_sum_partial.2.2.1 θ _ (hm θ h0)
    obtain ⟨-, hd⟩ := Exponential.new_ok (hm θ h0)
    rw [hd] at hs
    rw [hd]
    have := iid_of_terms hs (sample := fin) (support := fun x : ℝ => 0 ≤ x)
      (v := fun x => -1 * Real.log θ + x * -θ + Real.log 1)
      (fun x hx => by rw [Exponential.ef h0, Real.log_one]; congr 1; ring) (firstN_mem hx n)
    rw [this, sum_terms _ (fun _ => -1) _ (fun _ => 1) _ _ (by simp)]
    simp [firstN_length]
  have hint : Integrable fun θ : ℝ => density (logDensityWrtRoot (⟨fin a, fin b⟩ : Gamma XReal) (fin θ)) *
      density ((IID.ofDist (model θ)).iidLogDensity ((firstN x n).map fin)) := by
    by_contra hc
    rw [integral_undef hc] at hpos
    exact lt_irrefl _ hpos
  have hS : 0 ≤ (firstN x n).sum := List.sum_nonneg fun y hy => firstN_mem (p := fun y => 0 ≤ y) hx n y hy
  obtain ⟨K, hK⟩ : ∃ K : ℝ, ∀ θ : ℝ, 0 < θ → θ < 1 → Real.exp K * θ ^ (a - 1 - n) ≤
      density (logDensityWrtRoot (⟨fin a, fin b⟩ : Gamma XReal) (fin θ)) *
        density ((IID.ofDist (model θ)).iidLogDensity ((firstN x n).map fin)) := by
    refine ⟨a * Real.log b - Real.log (Real.Gamma a) - b - (firstN x n).sum, fun θ h0 h1 => ?_⟩
    rw [lik θ h0, Gamma.ld_of_pos ha hb h0, density_fin, density_fin, Real.rpow_def_of_pos h0, ← Real.exp_add,
      ← Real.exp_add, Real.exp_le_exp]
    have h2 : b * θ ≤ b * 1 := mul_le_mul_of_nonneg_left h1.le hb.le
    have h3 : (firstN x n).sum * θ ≤ (firstN x n).sum * 1 := mul_le_mul_of_nonneg_left h1.le hS
    have e : Real.log θ * (a - 1 - n) = (a - 1) * Real.log θ - n * Real.log θ := by ring
    rw [e]
    linarith
  have hI : IntegrableOn (fun θ : ℝ => θ ^ (a - 1 - n)) (Set.Ioo 0 1) := by
    refine Integrable.mono' (hint.integrableOn.const_mul (Real.exp (-K))) (by fun_prop) ?_
    refine (ae_restrict_iff' measurableSet_Ioo).2 (Eventually.of_forall fun θ hθ => ?_)
    rw [Real.norm_of_nonneg (Real.rpow_nonneg hθ.1.le _), Real.exp_neg, ← div_eq_inv_mul, le_div_iff₀ (Real.exp_pos K),
      mul_comm]
    exact hK θ hθ.1 hθ.2
  have := (intervalIntegral.integrableOn_Ioo_rpow_iff one_pos).1 hI
  linarith

/-- a belief settles at one value only -/
theorem settlesAt_unique {P : Type} [HasLogDensity P XReal XReal] {prior : P} {lik : ℕ → ℝ → XReal} {s t : ℝ}
    (hs : SettlesAt prior lik s) (ht : SettlesAt prior lik t) : s = t :=
  tendsto_nhds_unique hs.mean ht.mean

/-- **C139** is violated by the exponential-family joint log-density of the geometric and the negative binomial
distribution (C24): it takes the belief to the wrong value, from waiting times of average `m` to `1 / (1 + m)` and not
`1 / m`, and from numbers of successes of average `m` to `m / r` and not `r / (r + m)`. -/
theorem C139_waiting_violated {a b : ℝ} {prior : Beta XReal} (h : Beta.new (fin a) (fin b) = .ok prior) :
    (∀ (model : ℝ → Geometric XReal) (k : ℕ → ℕ) (m : ℝ),
      (∀ θ, 0 < θ → θ < 1 → Geometric.new (fin θ) = .ok (model θ)) → (∀ i, 1 ≤ k i) →
      Tendsto (fun n : ℕ => (∑ i ∈ Finset.range n, (k i : ℝ)) / n) atTop (𝓝 m) →
      SettlesAt prior (fun n θ => (IID.ofDist (model θ)).iidLogDensity (firstN k n)) (1 / (1 + m)) ∧
      ¬ SettlesAt prior (fun n θ => (IID.ofDist (model θ)).iidLogDensity (firstN k n)) (1 / m)) ∧
    (∀ (r : ℕ) (model : ℝ → NegativeBinomial XReal) (k : ℕ → ℕ) (m : ℝ),
      (∀ θ, 0 < θ → θ < 1 → NegativeBinomial.new r (fin θ) = .ok (model θ)) → (∀ i, k i ≤ r) →
      Tendsto (fun n : ℕ => (∑ i ∈ Finset.range n, (k i : ℝ)) / n) atTop (𝓝 m) →
      SettlesAt prior (fun n θ => (IID.ofDist (model θ)).iidLogDensity (firstN k n)) (m / r) ∧
      (m * (r + m) ≠ r * r →
        ¬ SettlesAt prior (fun n θ => (IID.ofDist (model θ)).iidLogDensity (firstN k n)) (r / (r + m)))) := by
  refine ⟨?_, ?_⟩
  · intro model k m hm hk ht
    have h2 : ∀ n, 0 ≤ ((firstN k n).map fun k : ℕ => (k : ℝ)).sum := fun n => by
      rw [firstN_sum]; exact Finset.sum_nonneg fun i _ => Nat.cast_nonneg _
    have hT := firstN_avg (g := fun k : ℕ => (k : ℝ)) ht
    have hm1 : 1 ≤ m := by
      refine ge_of_tendsto ht ?_
      filter_upwards [eventually_gt_atTop 0] with n hn
      have hn' : (0 : ℝ) < n := by exact_mod_cast hn
      rw [le_div_iff₀ hn', one_mul]
      calc (n : ℝ) = ∑ i ∈ Finset.range n, (1 : ℝ) := by simp
        _ ≤ _ := Finset.sum_le_sum fun i _ => by exact_mod_cast hk i
    have key : SettlesAt prior (fun n θ => (IID.ofDist (model θ)).iidLogDensity (firstN k n)) (1 / (1 + m)) := by
      refine beta_settles (S := fun n => (n : ℝ)) (by linarith) h (fun n => Nat.cast_nonneg _) h2
        (by simpa using tendsto_mul_nat_div 1) hT fun n post h' => ⟨_, beta_update one_pos h h' fun θ h0 h1 => ?_⟩
      have hs := C28_iid_is_sum_partial.2.2.2.2.2.2.2.2.1 θ _ (hm θ h0 h1) h1.ne
      obtain ⟨-, hd⟩ := Geometric.new_ok (hm θ h0 h1)
      rw [hd] at hs
      rw [hd]
      have := iid_of_terms hs (sample := id) (support := fun _ => True)
        (v := fun k : ℕ => 1 * Real.log θ + k * Real.log (1 - θ) + Real.log 1)
        (fun k _ => by rw [id, Geometric.ef h0 h1, Real.log_one]; congr 1; ring) (ys := firstN k n) (by simp)
      rw [List.map_id] at this
      rw [this, sum_terms _ (fun _ => 1) _ (fun _ => 1) _ _ (by simp)]
      simp [firstN_length]
    refine ⟨key, fun h' => ?_⟩
    have := settlesAt_unique key h'
    rw [div_eq_div_iff (by linarith) (by linarith)] at this
    linarith
  · intro r model k m hm hk ht
    have hr := (NegativeBinomial.new_ok (hm (1/2) (by norm_num) (by norm_num))).1
    have hr' : (0 : ℝ) < r := by exact_mod_cast hr
    have h1 : ∀ n, 0 ≤ ((firstN k n).map fun k : ℕ => (k : ℝ)).sum := fun n => by
      rw [firstN_sum]; exact Finset.sum_nonneg fun i _ => Nat.cast_nonneg _
    have hS := firstN_avg (g := fun k : ℕ => (k : ℝ)) ht
    have h2 : ∀ n, 0 ≤ ((firstN k n).map fun k : ℕ => (r : ℝ) - k).sum := fun n => by
      rw [firstN_sum]
      exact Finset.sum_nonneg fun i _ => sub_nonneg.2 (by exact_mod_cast hk i)
    have hT : Tendsto (fun n : ℕ => ((firstN k n).map fun k : ℕ => (r : ℝ) - k).sum / n) atTop (𝓝 (r - m)) := by
      refine firstN_avg (g := fun k : ℕ => (r : ℝ) - k) ?_
      refine (ht.const_sub (r : ℝ)).congr' ?_
      filter_upwards [eventually_gt_atTop 0] with n hn
      have : (n : ℝ) ≠ 0 := by exact_mod_cast hn.ne'
      rw [Finset.sum_sub_distrib, Finset.sum_const, Finset.card_range, nsmul_eq_mul, sub_div,
        mul_div_cancel_left₀ _ this]
    have hm0 : 0 ≤ m := ge_of_tendsto' hS fun n => div_nonneg (h1 n) (Nat.cast_nonneg _)
    have e : m / r = m / (m + (r - m)) := by rw [add_sub_cancel]
    have key : SettlesAt prior (fun n θ => (IID.ofDist (model θ)).iidLogDensity (firstN k n)) (m / r) := by
      rw [e]
      refine beta_settles (by simpa using hr) h h1 h2 hS hT fun n post h' =>
        ⟨_, beta_update (c := ((firstN k n).map fun k => ((k + r - 1).choose k : ℝ)).prod)
          (List.prod_pos fun c hc => ?_) h h' fun θ h0 h1 => ?_⟩
      · obtain ⟨k, -, rfl⟩ := List.mem_map.1 hc
        have : 0 < (k + r - 1).choose k := Nat.choose_pos (by lia)
        exact_mod_cast this
      have hs := C28_iid_is_sum_partial.2.2.2.2.2.2.2.2.2.1 r θ _ (hm θ h0 h1)
      obtain ⟨-, -, hd⟩ := NegativeBinomial.new_ok (hm θ h0 h1)
      rw [hd] at hs
      rw [hd]
      have := iid_of_terms hs (sample := id) (support := fun _ => True)
        (v := fun k : ℕ => k * Real.log θ + (r - k) * Real.log (1 - θ) + Real.log ((k + r - 1).choose k))
        (fun k _ => by rw [id, NegativeBinomial.ef hr h0 h1]; congr 1; ring) (ys := firstN k n) (by simp)
      rw [List.map_id] at this
      rw [this, sum_terms _ (fun k : ℕ => (k : ℝ)) (fun k : ℕ => (r : ℝ) - k) (fun k => ((k + r - 1).choose k : ℝ)) _ _ (by
        intro k _
        have : 0 < (k + r - 1).choose k := Nat.choose_pos (by lia)
        exact_mod_cast this)]
    refine ⟨key, fun hne h' => hne ?_⟩
    have := settlesAt_unique key h'
    rw [div_eq_div_iff hr'.ne' (by linarith)] at this
    linarith

/-! ## The hypotheses are satisfiable -/

/-- independent draws from every distribution exist -/
theorem exists_draws {M X α : Type} [MeasurableSpace α] [HasLogDensity M X XReal] {ν : MeasureTheory.Measure α}
    {e : α → X} {d : M} (hr : RegularLaw ν e d) :
    ∃ μ : MeasureTheory.Measure (ℕ → α), IsProbabilityMeasure μ ∧ Draws μ (fun i ω => ω i) (law ν e d) := by
  have := law_prob _ _ _ hr
  refine ⟨Measure.infinitePi fun _ => law ν e d, inferInstance, fun i => measurable_pi_apply i, fun i => ?_, ?_⟩
  · exact Measure.infinitePi_map_eval (fun _ => law ν e d) i
  · exact iIndepFun_infinitePi (P := fun _ : ℕ => law ν e d) (X := fun _ a => a) fun _ => measurable_id

/-- almost every sequence of Poisson counts with rate 3 takes the belief from `Gamma(2, 1)` to 3 -/
example : ∃ (prior : Gamma XReal) (model : ℝ → Poisson XReal) (μ : MeasureTheory.Measure (ℕ → ℕ)), IsProbabilityMeasure μ ∧
    Gamma.new (fin 2) (fin 1) = .ok prior ∧ (∀ θ, 0 < θ → Poisson.new (fin θ) = .ok (model θ)) ∧
    Draws μ (fun i ω => ω i) (law Measure.count id (model 3)) ∧
    ∀ᵐ ω ∂μ, SettlesAt prior
      (fun n η => (IID.ofDist (model η)).iidLogDensity (firstN (fun i => ω i) n)) 3 := by
  have hp : Gamma.new (fin 2) (fin 1) = .ok (⟨fin 2, fin 1⟩ : Gamma XReal) := by simp [Gamma.new]
  have hm : ∀ θ : ℝ, 0 < θ → Poisson.new (fin θ) = .ok ((fun θ => ⟨fin θ⟩ : ℝ → Poisson XReal) θ) := fun θ h => by
    simp [Poisson.new, h]
  obtain ⟨μ, h1, h2⟩ := exists_draws (C122_regular.2.2.2.2.2.2.2.2 _ _ (hm 3 (by norm_num)))
  exact ⟨_, _, μ, h1, hp, hm, h2, C139_almost_surely.2.2.1 2 1 3 _ _ _ hp hm (by norm_num) h2⟩

/-- almost every sequence of tosses of a fair coin takes the belief from `Beta(1, 1)` to one half -/
example : ∃ (prior : Beta XReal) (model : ℝ → Bernoulli XReal) (μ : MeasureTheory.Measure (ℕ → Fin 256)),
    IsProbabilityMeasure μ ∧ Beta.new (fin 1) (fin 1) = .ok prior ∧
    (∀ θ, 0 < θ → θ < 1 → Bernoulli.new (fin θ) = .ok (model θ)) ∧
    Draws μ (fun i ω => ω i) (law Measure.count byteOf (model (1/2))) ∧
    ∀ᵐ ω ∂μ, SettlesAt prior
      (fun n η => (IID.ofDist (model η)).iidLogDensity (firstN (fun i => byteOf (ω i)) n)) (1/2) := by
  have hp : Beta.new (fin 1) (fin 1) = .ok (⟨fin 1, fin 1⟩ : Beta XReal) := by simp [Beta.new]
  have hm : ∀ θ : ℝ, 0 < θ → θ < 1 → Bernoulli.new (fin θ) = .ok ((fun θ => ⟨fin θ⟩ : ℝ → Bernoulli XReal) θ) :=
    fun θ h h' => by simp [Bernoulli.new, h.le, h'.le]
  obtain ⟨μ, h1, h2⟩ := exists_draws (Bernoulli.regular (p := 1/2) (by norm_num) (by norm_num))
  exact ⟨_, _, μ, h1, hp, hm, h2, C139_almost_surely.1 1 1 (1/2) _ _ _ hp hm (by norm_num) (by norm_num) h2⟩

/-- draws from the binomial and the negative binomial exist -/
example : ∃ (prior : Beta XReal) (model : ℝ → Binomial XReal) (model' : ℝ → NegativeBinomial XReal)
    (μ ν : MeasureTheory.Measure (ℕ → ℕ)), Beta.new (fin 1) (fin 1) = .ok prior ∧
    (∀ θ, 0 < θ → θ < 1 → Binomial.new 5 (fin θ) = .ok (model θ)) ∧
    (∀ θ, 0 < θ → θ < 1 → NegativeBinomial.new 5 (fin θ) = .ok (model' θ)) ∧
    IsProbabilityMeasure μ ∧ Draws μ (fun i ω => ω i) (law Measure.count (id : ℕ → ℕ) (model (1/3)).withBase) ∧
    IsProbabilityMeasure ν ∧ Draws ν (fun i ω => ω i) (law Measure.count (id : ℕ → ℕ) (model' (1/3)).withBase) := by
  obtain ⟨μ, h1, h2⟩ := exists_draws (Binomial.regular (n := 5) (p := 1/3) (by norm_num) (by norm_num))
  obtain ⟨ν, h3, h4⟩ := exists_draws (NegativeBinomial.regular (r := 5) (p := 1/3) (by norm_num) (by norm_num) (by norm_num))
  exact ⟨_, fun θ => ⟨5, fin θ⟩, fun θ => ⟨5, fin θ⟩, μ, ν, by simp [Beta.new]; rfl,
    fun θ h h' => by simp [Binomial.new, h.le, h'.le], fun θ h h' => by simp [NegativeBinomial.new, h, h'], h1, h2, h3, h4⟩

/-- waiting times that are always 2: the belief should settle at one half; the exponential-family joint log-density
takes it to one third -/
example : ∃ (prior : Beta XReal) (model : ℝ → Geometric XReal), Beta.new (fin 1) (fin 1) = .ok prior ∧
    (∀ θ, 0 < θ → θ < 1 → Geometric.new (fin θ) = .ok (model θ)) ∧
    SettlesAt prior (fun n θ => (IID.ofDist (model θ)).iidLogDensityFallback (firstN (fun _ => 2) n)) (1 / 2) ∧
    SettlesAt prior (fun n θ => (IID.ofDist (model θ)).iidLogDensity (firstN (fun _ => 2) n)) (1 / (1 + 2)) := by
  have hp : Beta.new (fin 1) (fin 1) = .ok (⟨fin 1, fin 1⟩ : Beta XReal) := by simp [Beta.new]
  have hm : ∀ θ : ℝ, 0 < θ → θ < 1 → Geometric.new (fin θ) = .ok ((fun θ => ⟨fin θ⟩ : ℝ → Geometric XReal) θ) :=
    fun θ h h' => by simp [Geometric.new, h, h'.le]
  have ht : Tendsto (fun n : ℕ => (∑ i ∈ Finset.range n, (((fun _ => 2 : ℕ → ℕ) i : ℕ) : ℝ)) / n) atTop (𝓝 2) := by
    refine (tendsto_mul_nat_div 2).congr fun n => ?_
    simp
  exact ⟨_, _, hp, hm, (C139_probability hp).2.2.1 _ _ 2 hm (by simp) ht,
    ((C139_waiting_violated hp).1 _ _ 2 hm (by simp) ht).1⟩

end Verif
