import Verif.Props.SumsDiscrete
import Verif.Props.RadonNikodymDist
import Verif.Props.Concave
import Verif.Props.Stability
import Mathlib.MeasureTheory.Integral.IntegralEqImproper
import Mathlib.RingTheory.Polynomial.Bernstein
import Mathlib.Analysis.Calculus.Deriv.Polynomial
import Mathlib.Analysis.SpecialFunctions.Trigonometric.Arctan
import Mathlib.Analysis.SpecialFunctions.Trigonometric.ArctanDeriv

/-!
# C135: distribution functions and waiting times
-/

namespace Verif
open FloatOps XReal Spec MeasureTheory ProbabilityTheory Filter Topology

theorem law_real_set {M X α : Type} [MeasurableSpace α] [HasLogDensity M X XReal] {μ : MeasureTheory.Measure α}
    {e : α → X} {m : M} (h : RegularLaw μ e m) {S : Set α} (hS : MeasurableSet S) :
    (law μ e m).real S = ∫ a in S, density (logDensityWrtRoot m (e a) : XReal) ∂μ := by
  rw [Measure.real, law, withDensity_apply _ hS, integral_eq_lintegral_of_nonneg_ae
    (Eventually.of_forall fun a => density_nonneg_of_proper (h.proper a)) h.measurable.aestronglyMeasurable]

theorem law_real_finset {M X α : Type} [MeasurableSpace α] [MeasurableSingletonClass α] [HasLogDensity M X XReal]
    {e : α → X} {m : M} (h : RegularLaw Measure.count e m) (s : Finset α) :
    (law Measure.count e m).real s = ∑ a ∈ s, density (logDensityWrtRoot m (e a) : XReal) := by
  have := law_prob _ _ _ h
  rw [← sum_measureReal_singleton]
  refine Finset.sum_congr rfl fun a _ => ?_
  rw [Measure.real, law_count_singleton, ENNReal.toReal_ofReal (density_nonneg_of_proper (h.proper a))]

/-- Probability above a point, from an antiderivative that vanishes at infinity. -/
theorem tail_of_antideriv {M : Type} [HasLogDensity M XReal XReal] {m : M} (h : RegularLaw volume fin m) {a : ℝ}
    {G : ℝ → ℝ} (hG : ∀ x ∈ Set.Ici a, HasDerivAt G (- density (logDensityWrtRoot m (fin x) : XReal)) x)
    (hl : Tendsto G atTop (𝓝 0)) : (law volume fin m).real (Set.Ioi a) = G a := by
  rw [law_real_set h measurableSet_Ioi,
    integral_Ioi_of_hasDerivAt_of_tendsto' (f := fun x => - G x) (m := 0) (fun x hx => by
      have := (hG x hx).neg
      rwa [neg_neg] at this) (integrable_density h).1.integrableOn (by simpa using hl.neg)]
  ring

/-- **C135**, closed forms: the exponential, geometric and Cauchy distribution functions. -/
theorem C135_closed_forms :
    (∀ (r x : ℝ) (d : Exponential XReal), Exponential.new (fin r) = .ok d →
      (law volume fin d).real (Set.Ioi x) = Real.exp (-(r * max x 0))) ∧
    (∀ (p : ℝ) (n : ℕ) (d : Geometric XReal), Geometric.new (fin p) = .ok d → p ≠ 1 →
      (law Measure.count (id : ℕ → ℕ) d).real (Set.Ioi n) = (1 - p) ^ n) ∧
    (∀ (l s x : ℝ) (d : Cauchy XReal), Cauchy.new (fin l) (fin s) = .ok d →
      (law volume fin d).real (Set.Iic x) = 1/2 + Real.arctan ((x - l) / s) / Real.pi) := by
  refine ⟨?_, ?_, ?_⟩
  · intro r x d h
    have hr := (Exponential.new_ok h).1
    have hna : NullSingletonClass (expMeasure r) := by
      unfold expMeasure gammaMeasure; infer_instance
    rw [Measure.real, Exponential.law_eq h, measure_congr Ioi_ae_eq_Ici, Exponential.tail hr,
      ENNReal.toReal_ofReal (Real.exp_pos _).le]
  · intro p n d h hp
    have hreg := C122_regular.2.2.2.2.2.2.2.1 _ _ h hp
    have pr := law_prob _ _ _ hreg
    obtain ⟨⟨h0, h1⟩, rfl⟩ := Geometric.new_ok h
    have h1 : p < 1 := lt_of_le_of_ne h1 hp
    have hc : (Set.Ioi n : Set ℕ) = (↑(Finset.range (n + 1)) : Set ℕ)ᶜ := by
      ext k; simp
    rw [hc, probReal_compl_eq_one_sub (Finset.measurableSet _), law_real_finset hreg, Finset.sum_range_succ']
    have hz : density (logDensityWrtRoot (⟨fin p⟩ : Geometric XReal) (id 0) : XReal) = 0 := by
      simp [logDensityWrtRoot]
    have hk : ∀ k : ℕ, density (logDensityWrtRoot (⟨fin p⟩ : Geometric XReal) (id (k + 1)) : XReal) = (1 - p) ^ k * p := by
      intro k
      rw [id, Geometric.ld_of_pos h0 h1 (by omega), density_fin, Real.exp_add, Real.exp_log h0]
      push_cast
      rw [add_sub_cancel_right, ← Real.log_pow, Real.exp_log (pow_pos (sub_pos.2 h1) k)]
    have hs : ∀ m : ℕ, ∑ k ∈ Finset.range m, (1 - p) ^ k * p = 1 - (1 - p) ^ m := by
      intro m
      induction m with
      | zero => simp
      | succ m ih => rw [Finset.sum_range_succ, ih]; ring
    simp only [hk]
    rw [hz, hs]; ring
  · intro l s x d h
    have hreg := C122_regular.2.2.2.2.2.1 _ _ _ h
    have pr := law_prob _ _ _ hreg
    obtain ⟨hs, rfl⟩ := Cauchy.new_ok h
    have hc : (Set.Iic x) = (Set.Ioi x)ᶜ := by simp
    have hatan : ∀ y : ℝ, HasDerivAt (fun y : ℝ => 1/2 - Real.arctan ((y - l) / s) / Real.pi)
        (- density (logDensityWrtRoot (⟨fin l, fin s⟩ : Cauchy XReal) (fin y) : XReal)) y := by
      intro y
      have e1 : HasDerivAt (fun y : ℝ => (y - l) / s) (1 / s) y := ((hasDerivAt_id y).sub_const l).div_const s
      have hpos : 0 < 1 + (y - l)/s * ((y - l)/s) := by have := mul_self_nonneg ((y - l)/s); linarith
      have e2 := ((e1.arctan).div_const Real.pi).const_sub (1/2)
      refine e2.congr_deriv ?_
      rw [Cauchy.ld hs, density_fin, Real.exp_sub, Real.exp_sub, Real.exp_neg, Real.exp_log hpos, Real.exp_log hs,
        Real.exp_log Real.pi_pos]
      have hpi := Real.pi_pos
      rw [pow_two]
      field_simp
    have hlim : Tendsto (fun y : ℝ => 1/2 - Real.arctan ((y - l) / s) / Real.pi) atTop (𝓝 0) := by
      have t1 : Tendsto (fun y : ℝ => (y - l) / s) atTop atTop :=
        (tendsto_atTop_add_const_right atTop (-l) tendsto_id).atTop_div_const hs
      have t2 : Tendsto (fun y : ℝ => Real.arctan ((y - l) / s)) atTop (𝓝 (Real.pi / 2)) :=
        (Real.tendsto_arctan_atTop.mono_right nhdsWithin_le_nhds).comp t1
      have t3 := (t2.div_const Real.pi).const_sub (1/2)
      have e : (1/2 : ℝ) - Real.pi / 2 / Real.pi = 0 := by have := Real.pi_pos; field_simp; norm_num
      rwa [e] at t3
    rw [hc, probReal_compl_eq_one_sub measurableSet_Ioi,
      tail_of_antideriv hreg (fun y _ => hatan y) hlim]
    ring

/-! ### Poisson and gamma -/

theorem poisson_sum_deriv (n : ℕ) (r x : ℝ) :
    HasDerivAt (fun x : ℝ => ∑ k ∈ Finset.range (n + 1), Real.exp (-(r * x)) * (r * x) ^ k / k.factorial)
      (- (r * (Real.exp (-(r * x)) * (r * x) ^ n / n.factorial))) x := by
  have e1 : HasDerivAt (fun x : ℝ => r * x) r x := by simpa using (hasDerivAt_id x).const_mul r
  have e2 : HasDerivAt (fun x : ℝ => Real.exp (-(r * x))) (Real.exp (-(r * x)) * -r) x := e1.neg.exp
  induction n with
  | zero => simpa [mul_comm] using e2
  | succ n ih =>
    simp only [Finset.sum_range_succ _ (n + 1)]
    have e3 := ((e2.mul (e1.pow (n + 1))).div_const ((n + 1).factorial : ℝ))
    refine (ih.add e3).congr_deriv ?_
    rw [Nat.factorial_succ]
    have hf : (0:ℝ) < (n.factorial : ℝ) := by positivity
    simp only [Pi.pow_apply]
    push_cast
    field_simp
    ring

/-- **C135**, events and waiting times: with events at rate `r`, the waiting time for event number `n + 1` is
gamma, the number of events up to time `t` is Poisson, and the wait is longer than `t` exactly as often as at most
`n` events have come. -/
theorem C135_poisson_gamma {r t : ℝ} {n : ℕ} {g : Gamma XReal} {d : Poisson XReal} (ht : 0 < t)
    (hg : Gamma.new (fin (n + 1)) (fin r) = .ok g) (hd : Poisson.new (fin (r * t)) = .ok d) :
    (law volume fin g).real (Set.Ioi t) = (law Measure.count (id : ℕ → ℕ) d).real (Set.Iic n) := by
  have rg := C122_regular.2.2.1 _ _ _ hg
  have rd := C122_regular.2.2.2.2.2.2.2.2 _ _ hd
  obtain ⟨ha, hr, rfl⟩ := Gamma.new_ok hg
  obtain ⟨hrt, rfl⟩ := Poisson.new_ok hd
  have hs : (Set.Iic n : Set ℕ) = ↑(Finset.range (n + 1)) := by ext k; simp
  have hp : ∀ k : ℕ, density (logDensityWrtRoot (⟨fin (r * t)⟩ : Poisson XReal) (id k) : XReal)
      = Real.exp (-(r * t)) * (r * t) ^ k / k.factorial := by
    intro k
    have hf : (0:ℝ) < (k.factorial : ℝ) := by positivity
    rw [id, Poisson.ld hrt, density_fin, Real.exp_sub, Real.exp_sub, Real.exp_log hf, ← Real.log_pow,
      Real.exp_log (pow_pos hrt k), Real.exp_neg]
    field_simp
  rw [hs, law_real_finset rd, Finset.sum_congr rfl fun k _ => hp k]
  refine tail_of_antideriv (G := fun x : ℝ => ∑ k ∈ Finset.range (n + 1),
    Real.exp (-(r * x)) * (r * x) ^ k / k.factorial) rg (fun x hx => ?_) ?_
  · have hx0 : 0 < x := lt_of_lt_of_le ht hx
    refine (poisson_sum_deriv n r x).congr_deriv ?_
    rw [Gamma.ld_of_pos ha hr hx0, density_fin, Real.exp_sub, Real.exp_add, Real.exp_sub, Real.exp_log (Real.Gamma_pos_of_pos ha),
      add_sub_cancel_right, Real.Gamma_nat_eq_factorial, ← Nat.cast_add_one, ← Real.log_pow, ← Real.log_pow,
      Real.exp_log (pow_pos hr _), Real.exp_log (pow_pos hx0 _), Real.exp_neg]
    have hf : (0:ℝ) < (n.factorial : ℝ) := by positivity
    rw [neg_inj, mul_pow, pow_succ]
    field_simp
  · have : ∀ k ∈ Finset.range (n + 1), Tendsto (fun x : ℝ => Real.exp (-(r * x)) * (r * x) ^ k / k.factorial) atTop (𝓝 0) := by
      intro k _
      have t1 := (Real.tendsto_pow_mul_exp_neg_atTop_nhds_zero k).comp (tendsto_id.const_mul_atTop hr)
      have t2 := t1.div_const (k.factorial : ℝ)
      rw [zero_div] at t2
      refine t2.congr fun x => ?_
      simp only [Function.comp_apply, id]
      ring
    simpa using tendsto_finsetSum _ this

/-! ### binomial, beta and negative binomial -/

theorem binomial_sum_deriv (n a : ℕ) (x : ℝ) :
    HasDerivAt (fun x : ℝ => ∑ j ∈ Finset.range (a + 1), ((n + 1).choose j : ℝ) * x ^ j * (1 - x) ^ (n + 1 - j))
      (- ((n + 1) * ((n.choose a : ℝ) * x ^ a * (1 - x) ^ (n - a)))) x := by
  have hb : ∀ (m j : ℕ) (y : ℝ), (bernsteinPolynomial ℝ m j).eval y = (m.choose j : ℝ) * y ^ j * (1 - y) ^ (m - j) := by
    intro m j y; simp [bernsteinPolynomial]
  induction a with
  | zero =>
    have := (bernsteinPolynomial ℝ (n + 1) 0).hasDerivAt x
    rw [bernsteinPolynomial.derivative_zero] at this
    simp only [zero_add, Finset.sum_range_one]
    simp only [← hb]
    refine this.congr_deriv ?_
    simp
    ring
  | succ a ih =>
    simp only [Finset.sum_range_succ _ (a + 1)]
    have := (bernsteinPolynomial ℝ (n + 1) (a + 1)).hasDerivAt x
    rw [bernsteinPolynomial.derivative_succ] at this
    simp only [← hb] at ih ⊢
    refine (ih.add this).congr_deriv ?_
    simp
    ring

theorem binomial_head {n a : ℕ} {p : ℝ} (h0 : 0 < p) (h1 : p < 1) (ha : a ≤ n) :
    (law Measure.count (id : ℕ → ℕ) (⟨n, fin p⟩ : Binomial XReal).withBase).real (Set.Ici (a + 1))
      = 1 - ∑ j ∈ Finset.range (a + 1), (n.choose j : ℝ) * p ^ j * (1 - p) ^ (n - j) := by
  have hreg := Binomial.regular (n := n) h0 h1
  have pr := law_prob _ _ _ hreg
  have hc : (Set.Ici (a + 1) : Set ℕ) = (↑(Finset.range (a + 1)) : Set ℕ)ᶜ := by ext k; simp
  rw [hc, probReal_compl_eq_one_sub (Finset.measurableSet _), law_real_finset hreg]
  congr 1
  refine Finset.sum_congr rfl fun j hj => ?_
  rw [Binomial.withBase_density h0 h1, if_pos]
  have := Finset.mem_range.1 hj
  omega

/-- **C135**, order statistics: of `a + b + 1` independent uniform numbers at least `a + 1` are at most `p` with
the binomial probability, and this is the distribution function at `p` of the beta distribution with parameters `a + 1`
and `b + 1`. -/
theorem C135_binomial_beta {p : ℝ} {a b : ℕ} {g : Beta XReal} {d : Binomial XReal} (h0 : 0 < p) (h1 : p < 1)
    (hg : Beta.new (fin (a + 1)) (fin (b + 1)) = .ok g) (hd : Binomial.new (a + b + 1) (fin p) = .ok d) :
    (law volume fin g).real (Set.Iic p) = (law Measure.count (id : ℕ → ℕ) d.withBase).real (Set.Ici (a + 1)) := by
  have rg := C122_regular.2.2.2.1 _ _ _ hg
  obtain ⟨ha, hb, rfl⟩ := Beta.new_ok hg
  obtain ⟨-, rfl⟩ := Binomial.new_ok hd
  rw [binomial_head h0 h1 (by omega), law_real_set rg measurableSet_Iic]
  have hU : Set.Iic p = Set.Iic 0 ∪ Set.Ioc 0 p := (Set.Iic_union_Ioc_eq_Iic h0.le).symm
  have hi := (integrable_density rg).1
  have hdis : Disjoint (Set.Iic (0:ℝ)) (Set.Ioc 0 p) := by
    rw [Set.disjoint_left]; intro x hx hx'; exact absurd hx'.1 (not_lt.2 hx)
  rw [hU, setIntegral_union hdis measurableSet_Ioc hi.integrableOn hi.integrableOn,
    setIntegral_eq_zero_of_forall_eq_zero (fun x hx => by
      rw [Beta.ld_of_not_mem (fun h => absurd h.1 (not_lt.2 hx)), density_ninf]), zero_add,
    ← intervalIntegral.integral_of_le h0.le]
  have key : ∀ x : ℝ, x ∈ Set.Ioc 0 p →
      density (logDensityWrtRoot (⟨fin (a + 1), fin (b + 1)⟩ : Beta XReal) (fin x) : XReal)
      = ((a + b : ℕ) + 1) * (((a + b).choose a : ℝ) * x ^ a * (1 - x) ^ (a + b - a)) := by
    rintro x ⟨x0, x1⟩
    have x1' : x < 1 := lt_of_le_of_lt x1 h1
    have hf : ((a + b).choose a : ℝ) * a.factorial * b.factorial = (a + b).factorial := by
      rw [Nat.choose_symm_add]; exact_mod_cast Nat.add_choose_mul_factorial_mul_factorial a b
    have g1 : Real.Gamma ((a : ℝ) + 1 + (b + 1)) = ((a + b : ℕ) + 1) * (a + b).factorial := by
      rw [show (a : ℝ) + 1 + (b + 1) = ((a + b + 1 : ℕ) : ℝ) + 1 by push_cast; ring, Real.Gamma_nat_eq_factorial,
        Nat.factorial_succ]
      push_cast; ring
    rw [Beta.ld_of_mem ha hb x0 x1', density_fin, Real.exp_add, Real.exp_add, Real.exp_sub, Real.exp_sub,
      Real.exp_log (Real.Gamma_pos_of_pos ha), Real.exp_log (Real.Gamma_pos_of_pos hb),
      Real.exp_log (Real.Gamma_pos_of_pos (add_pos ha hb)), g1, Real.Gamma_nat_eq_factorial,
      Real.Gamma_nat_eq_factorial, add_sub_cancel_right, add_sub_cancel_right, ← Real.log_pow, ← Real.log_pow,
      Real.exp_log (pow_pos x0 _), Real.exp_log (pow_pos (sub_pos.2 x1') _), ← hf, Nat.add_sub_cancel_left]
    have f1 : (0:ℝ) < (a.factorial : ℝ) := by positivity
    have f2 : (0:ℝ) < (b.factorial : ℝ) := by positivity
    field_simp
  have hd := fun x : ℝ => (binomial_sum_deriv (a + b) a x).const_sub 1
  rw [intervalIntegral.integral_of_le h0.le, setIntegral_congr_fun measurableSet_Ioc key,
    ← intervalIntegral.integral_of_le h0.le,
    intervalIntegral.integral_eq_sub_of_hasDerivAt (fun x _ => (hd x).congr_deriv (neg_neg _))
      (Continuous.intervalIntegrable (by fun_prop) _ _)]
  have hz : ∑ j ∈ Finset.range (a + 1), ((a + b + 1).choose j : ℝ) * 0 ^ j * (1 - 0) ^ (a + b + 1 - j) = 1 := by
    rw [Finset.sum_range_succ']
    simp
  rw [hz]
  ring

theorem binomial_head_step (n a : ℕ) (p : ℝ) :
    ∑ j ∈ Finset.range (a + 1), ((n + 1).choose j : ℝ) * p ^ j * (1 - p) ^ (n + 1 - j)
      = ∑ j ∈ Finset.range (a + 1), (n.choose j : ℝ) * p ^ j * (1 - p) ^ (n - j)
        - p * ((n.choose a : ℝ) * p ^ a * (1 - p) ^ (n - a)) := by
  induction a with
  | zero => simp; ring
  | succ a ih =>
    rw [Finset.sum_range_succ, ih, Finset.sum_range_succ _ (a + 1), Nat.choose_succ_succ]
    rcases Nat.lt_or_ge a n with h | h
    · obtain ⟨c, rfl⟩ : ∃ c, n = a + 1 + c := ⟨n - (a + 1), by omega⟩
      rw [show a + 1 + c + 1 - (a + 1) = c + 1 by omega, show a + 1 + c - a = c + 1 by omega,
        show a + 1 + c - (a + 1) = c by omega]
      push_cast
      ring
    · rw [Nat.choose_eq_zero_of_lt (show n < a + 1 by omega), show n + 1 - (a + 1) = n - a by omega]
      push_cast
      ring

/-- **C135**, trials and failures: at most `k` failures precede success number `r` exactly as often as `k + r`
trials contain at least `r` successes. -/
theorem C135_negative_binomial {p : ℝ} {r k : ℕ} {g : NegativeBinomial XReal} {d : Binomial XReal}
    (hg : NegativeBinomial.new r (fin p) = .ok g) (hd : Binomial.new (k + r) (fin p) = .ok d) :
    (law Measure.count (id : ℕ → ℕ) g.withBase).real (Set.Iic k)
      = (law Measure.count (id : ℕ → ℕ) d.withBase).real (Set.Ici r) := by
  obtain ⟨hr, ⟨h0, h1⟩, rfl⟩ := NegativeBinomial.new_ok hg
  obtain ⟨-, rfl⟩ := Binomial.new_ok hd
  obtain ⟨m, rfl⟩ : ∃ m, r = m + 1 := ⟨r - 1, by omega⟩
  have hs : (Set.Iic k : Set ℕ) = ↑(Finset.range (k + 1)) := by ext j; simp
  rw [binomial_head h0 h1 (by omega), hs, law_real_finset (NegativeBinomial.regular hr h0 h1),
    Finset.sum_congr rfl fun j _ => NegativeBinomial.withBase_density hr h0 h1 j]
  simp only [← Nat.add_assoc, Nat.add_sub_cancel]
  clear hg hd hs
  induction k with
  | zero =>
    have := add_pow p (1 - p) (m + 1)
    rw [add_sub_cancel, one_pow, Finset.sum_range_succ] at this
    simp only [zero_add, Finset.sum_range_one, Nat.choose_zero_right, Nat.cast_one, one_mul, pow_zero, mul_one]
    rw [Nat.sub_self, Nat.choose_self] at this
    have e : ∑ j ∈ Finset.range (m + 1), ((m + 1).choose j : ℝ) * p ^ j * (1 - p) ^ (m + 1 - j)
        = ∑ j ∈ Finset.range (m + 1), p ^ j * (1 - p) ^ (m + 1 - j) * ((m + 1).choose j : ℝ) :=
      Finset.sum_congr rfl fun j _ => by ring
    rw [e]
    simp only [pow_zero, mul_one, Nat.cast_one] at this
    linarith
  | succ k ih =>
    rw [Finset.sum_range_succ, ih, show k + 1 + m + 1 = (k + m + 1) + 1 by omega, binomial_head_step (k + m + 1),
      show k + 1 + m = k + m + 1 by omega, show k + m + 1 - m = k + 1 by omega]
    have : ((k + m + 1).choose (k + 1) : ℝ) = (k + m + 1).choose m := by
      rw [← Nat.choose_symm_of_eq_add (show k + m + 1 = (k + 1) + m by omega)]
    rw [this]
    ring

/-! ### symmetry and tail bounds -/

/-- **C135**, symmetry: normal, Cauchy and Student distributions put the same probability on both sides of their
centre, and one half on each. -/
theorem C135_symmetry :
    (∀ (μ σ t : ℝ) (d : Normal XReal), Normal.new (fin μ) (fin σ) = .ok d →
      (law volume fin d).real (Set.Iic (μ - t)) = (law volume fin d).real (Set.Ici (μ + t)) ∧
      (law volume fin d).real (Set.Ici μ) = 1/2) ∧
    (∀ (l s t : ℝ) (d : Cauchy XReal), Cauchy.new (fin l) (fin s) = .ok d →
      (law volume fin d).real (Set.Iic (l - t)) = (law volume fin d).real (Set.Ici (l + t)) ∧
      (law volume fin d).real (Set.Ici l) = 1/2) ∧
    (∀ (ν t : ℝ) (d : StudentT XReal), StudentT.new (fin ν) = .ok d →
      (law volume fin d).real (Set.Iic (-t)) = (law volume fin d).real (Set.Ici t) ∧
      (law volume fin d).real (Set.Ici 0) = 1/2) := by
  have main : ∀ {N : Type} [HasLogDensity N XReal XReal] (d : N) (c : ℝ), RegularLaw volume fin d →
      (∀ t : ℝ, (logDensityWrtRoot d (fin (c + t)) : XReal) = logDensityWrtRoot d (fin (c - t))) →
      ∀ t : ℝ, (law volume fin d).real (Set.Iic (c - t)) = (law volume fin d).real (Set.Ici (c + t)) ∧
      (law volume fin d).real (Set.Ici c) = 1/2 := by
    intro N _ d c hr hs
    have pr := law_prob _ _ _ hr
    have hs' : ∀ x : ℝ, (logDensityWrtRoot d (fin x) : XReal) = logDensityWrtRoot d (fin (2 * c - x)) := by
      intro x
      have := hs (x - c)
      rw [add_sub_cancel] at this
      rw [this]
      congr 2; ring
    have key : ∀ t : ℝ, (law volume fin d).real (Set.Iic (c - t)) = (law volume fin d).real (Set.Ici (c + t)) := by
      intro t
      rw [law_real_set hr measurableSet_Iic, law_real_set hr measurableSet_Ici,
        ← integral_indicator measurableSet_Iic, ← integral_indicator measurableSet_Ici,
        ← integral_sub_left_eq_self (fun x => (Set.Ici (c + t)).indicator _ x) volume (2 * c)]
      congr 1
      funext x
      have : c + t ≤ 2 * c - x ↔ x ≤ c - t := by constructor <;> intro h <;> linarith
      simp only [Set.indicator, Set.mem_Ici, Set.mem_Iic, this, ← hs']
    refine fun t => ⟨key t, ?_⟩
    have k0 := key 0
    rw [sub_zero, add_zero] at k0
    have hna : law volume fin d {c} = 0 :=
      (withDensity_absolutelyContinuous _ _) (by simp)
    have h1 : (law volume fin d).real (Set.Iic c) = (law volume fin d).real (Set.Iio c) := by
      rw [Measure.real, Measure.real, ← Set.Iio_union_right]
      congr 1
      exact le_antisymm ((measure_union_le _ _).trans (by rw [hna, add_zero])) (measure_mono Set.subset_union_left)
    have h2 : (law volume fin d).real (Set.Iio c) = 1 - (law volume fin d).real (Set.Ici c) := by
      rw [← Set.compl_Ici, probReal_compl_eq_one_sub measurableSet_Ici]
    linarith
  refine ⟨?_, ?_, ?_⟩
  · intro μ σ t d h
    have hr := C122_regular.1 _ _ _ h
    obtain ⟨hs, rfl⟩ := Normal.new_ok h
    refine main _ μ hr (fun t => ?_) t
    rw [Normal.ld hs, Normal.ld hs]
    congr 1
    have e1 : μ + t - μ = t := by ring
    have e2 : μ - t - μ = -t := by ring
    rw [e1, e2]; ring
  · intro l s t d h
    have hr := C122_regular.2.2.2.2.2.1 _ _ _ h
    obtain ⟨hs, rfl⟩ := Cauchy.new_ok h
    refine main _ l hr (fun t => ?_) t
    rw [Cauchy.ld hs, Cauchy.ld hs]
    have e : (l + t - l) / s * ((l + t - l) / s) = (l - t - l) / s * ((l - t - l) / s) := by ring
    rw [e]
  · intro ν t d h
    have hr := C122_regular.2.2.2.2.2.2.1 _ _ h
    obtain ⟨hs, rfl⟩ := StudentT.new_ok h
    have := main _ 0 hr (fun t => ?_) t
    · simpa using this
    · rw [StudentT.ld hs, StudentT.ld hs]
      have e : (0 + t) * (0 + t) = (0 - t) * (0 - t) := by ring
      rw [e]

/-- **C135**, tail bounds: normal tails fall at least like the exponential of minus half the squared standardised
distance; Poisson tails at least like `exp (x - r - x ln (x / r))`; Cauchy tails do not: they stay above
`1 / (2 π z)` at `z ≥ 1` scales. -/
theorem C135_tail_bounds :
    (∀ (μ σ t : ℝ) (d : Normal XReal), Normal.new (fin μ) (fin σ) = .ok d → 0 ≤ t →
      (law volume fin d).real (Set.Ici (μ + t)) ≤ Real.exp (-(t ^ 2 / (2 * σ ^ 2)))) ∧
    (∀ (r x : ℝ) (d : Poisson XReal), Poisson.new (fin r) = .ok d → r ≤ x →
      (law Measure.count (id : ℕ → ℕ) d).real {k | x ≤ (k : ℝ)} ≤ Real.exp (x - r - x * Real.log (x / r))) ∧
    (∀ (r x : ℝ) (d : Poisson XReal), Poisson.new (fin r) = .ok d → 0 < x → x ≤ r →
      (law Measure.count (id : ℕ → ℕ) d).real {k | (k : ℝ) ≤ x} ≤ Real.exp (x - r - x * Real.log (x / r))) ∧
    (∀ (l s z : ℝ) (d : Cauchy XReal), Cauchy.new (fin l) (fin s) = .ok d → 1 ≤ z →
      1 / (2 * Real.pi * z) ≤ (law volume fin d).real (Set.Ioi (l + s * z))) := by
  refine ⟨?_, ?_, ?_, ?_⟩
  · intro μ σ t d h ht
    have pr := law_prob _ _ _ (C122_regular.1 _ _ _ h)
    obtain ⟨hs, rfl⟩ := Normal.new_ok h
    obtain ⟨hi, hm⟩ := Normal.mgf_linear (μ := μ) hs 1 (t / σ ^ 2)
    have := measure_ge_le_exp_mul_mgf (X := fun x : ℝ => 1 * x) (μ + t) (by positivity : 0 ≤ t / σ ^ 2) hi
    rw [hm, ← Real.exp_add] at this
    simp only [one_mul] at this
    refine le_trans this (Real.exp_le_exp.2 (le_of_eq ?_))
    field_simp
    ring
  · intro r x d h hx
    have pr := law_prob _ _ _ (C122_regular.2.2.2.2.2.2.2.2 _ _ h)
    obtain ⟨hr, rfl⟩ := Poisson.new_ok h
    have hx0 : 0 < x := lt_of_lt_of_le hr hx
    obtain ⟨hi, hm⟩ := Poisson.mgf_cast hr (Real.log (x / r))
    have := measure_ge_le_exp_mul_mgf (X := fun k : ℕ => (k : ℝ)) x
      (Real.log_nonneg ((one_le_div hr).2 hx)) hi
    rw [hm, Real.exp_log (div_pos hx0 hr), ← Real.exp_add] at this
    refine le_trans this (Real.exp_le_exp.2 (le_of_eq ?_))
    field_simp
    ring
  · intro r x d h hx0 hx
    have pr := law_prob _ _ _ (C122_regular.2.2.2.2.2.2.2.2 _ _ h)
    obtain ⟨hr, rfl⟩ := Poisson.new_ok h
    obtain ⟨hi, hm⟩ := Poisson.mgf_cast hr (Real.log (x / r))
    have := measure_le_le_exp_mul_mgf (X := fun k : ℕ => (k : ℝ)) x
      (Real.log_nonpos (div_pos hx0 hr).le ((div_le_one hr).2 hx)) hi
    rw [hm, Real.exp_log (div_pos hx0 hr), ← Real.exp_add] at this
    refine le_trans this (Real.exp_le_exp.2 (le_of_eq ?_))
    field_simp
    ring
  · intro l s z d h hz
    have pr := law_prob _ _ _ (C122_regular.2.2.2.2.2.1 _ _ _ h)
    have hs := (Cauchy.new_ok h).1
    have hz0 : 0 < z := by linarith
    have hpi := Real.pi_pos
    have hc := C135_closed_forms.2.2 l s (l + s * z) d h
    rw [add_sub_cancel_left, mul_div_cancel_left₀ _ hs.ne'] at hc
    rw [← Set.compl_Iic, probReal_compl_eq_one_sub measurableSet_Iic, hc]
    have ha := Real.arctan_inv_of_pos hz0
    set y := z⁻¹ / 2 with hy
    have hi : z⁻¹ ≤ 1 := inv_le_one_of_one_le₀ hz
    have hi0 : 0 < z⁻¹ := inv_pos.2 hz0
    have hy0 : 0 < y := by positivity
    have hy1 : y ≤ 1/2 := by rw [hy]; linarith
    have hcos : 1/2 ≤ Real.cos y := by
      have := Real.one_sub_sq_div_two_le_cos (x := y)
      nlinarith
    have htan : Real.tan y ≤ z⁻¹ := by
      rw [Real.tan_eq_sin_div_cos, div_le_iff₀ (by linarith)]
      have := Real.sin_le hy0.le
      have := mul_le_mul_of_nonneg_left hcos hi0.le
      linarith
    have harc : y ≤ Real.arctan z⁻¹ := by
      have e : Real.arctan (Real.tan y) = y := Real.arctan_tan (by linarith) (by have := Real.pi_gt_three; linarith)
      calc y = Real.arctan (Real.tan y) := e.symm
        _ ≤ _ := Real.arctan_strictMono.monotone htan
    rw [ha] at harc
    have e : 1 - (1/2 + Real.arctan z / Real.pi) = (Real.pi / 2 - Real.arctan z) / Real.pi := by field_simp; ring
    rw [e, le_div_iff₀ hpi]
    refine le_trans (le_of_eq ?_) harc
    rw [hy]; field_simp

/-- **C135**, waiting times forget the past, and the first of two independent waiting times is again one: of two
exponential waiting times the rates add up, of two geometric ones the failure probabilities multiply. -/
theorem C135_memoryless :
    (∀ (r x y : ℝ) (d : Exponential XReal), Exponential.new (fin r) = .ok d → 0 ≤ x → 0 ≤ y →
      (law volume fin d).real (Set.Ioi (x + y)) =
        (law volume fin d).real (Set.Ioi x) * (law volume fin d).real (Set.Ioi y)) ∧
    (∀ (p : ℝ) (m n : ℕ) (d : Geometric XReal), Geometric.new (fin p) = .ok d → p ≠ 1 →
      (law Measure.count (id : ℕ → ℕ) d).real (Set.Ioi (m + n)) =
        (law Measure.count (id : ℕ → ℕ) d).real (Set.Ioi m) * (law Measure.count (id : ℕ → ℕ) d).real (Set.Ioi n)) ∧
    (∀ (r s x : ℝ) (d e m : Exponential XReal), Exponential.new (fin r) = .ok d → Exponential.new (fin s) = .ok e →
      Exponential.new (fin (r + s)) = .ok m →
      ((law volume fin d).prod (law volume fin e)).real {z | x < min z.1 z.2} = (law volume fin m).real (Set.Ioi x)) ∧
    (∀ (p q : ℝ) (n : ℕ) (d e m : Geometric XReal), Geometric.new (fin p) = .ok d → Geometric.new (fin q) = .ok e →
      p ≠ 1 → q ≠ 1 → Geometric.new (fin (1 - (1 - p) * (1 - q))) = .ok m →
      ((law Measure.count (id : ℕ → ℕ) d).prod (law Measure.count (id : ℕ → ℕ) e)).real {z | n < min z.1 z.2} =
        (law Measure.count (id : ℕ → ℕ) m).real (Set.Ioi n)) := by
  obtain ⟨hE, hG, -⟩ := C135_closed_forms
  refine ⟨?_, ?_, ?_, ?_⟩
  · intro r x y d h hx hy
    rw [hE r _ d h, hE r _ d h, hE r _ d h, max_eq_left hx, max_eq_left hy, max_eq_left (add_nonneg hx hy),
      ← Real.exp_add]
    congr 1; ring
  · intro p m n d h hp
    rw [hG p _ d h hp, hG p _ d h hp, hG p _ d h hp, pow_add]
  · intro r s x d e m hd he hm
    have pd := law_prob _ _ _ (C122_regular.2.1 _ _ hd)
    have pe := law_prob _ _ _ (C122_regular.2.1 _ _ he)
    have hs : {z : ℝ × ℝ | x < min z.1 z.2} = Set.Ioi x ×ˢ Set.Ioi x := by
      ext z; simp
    rw [hs, measureReal_prod_prod, hE r _ d hd, hE s _ e he, hE _ _ m hm, ← Real.exp_add]
    congr 1; ring
  · intro p q n d e m hd he hp hq hm
    have pd := law_prob _ _ _ (C122_regular.2.2.2.2.2.2.2.1 _ _ hd hp)
    have pe := law_prob _ _ _ (C122_regular.2.2.2.2.2.2.2.1 _ _ he hq)
    have hs : {z : ℕ × ℕ | n < min z.1 z.2} = Set.Ioi n ×ˢ Set.Ioi n := by
      ext z; simp
    have h1 : 1 - (1 - p) * (1 - q) ≠ 1 := by
      intro h
      have : (1 - p) * (1 - q) = 0 := by linarith
      rcases mul_eq_zero.1 this with h | h
      · exact hp (by linarith)
      · exact hq (by linarith)
    rw [hs, measureReal_prod_prod, hG p _ d hd hp, hG q _ e he hq, hG _ _ m hm h1, ← mul_pow]
    congr 1; ring

/-- The hypotheses are met: two events at rate 3. -/
example : (law volume fin (⟨fin 2, fin 3⟩ : Gamma XReal)).real (Set.Ioi 1)
    = (law Measure.count (id : ℕ → ℕ) (⟨fin 3⟩ : Poisson XReal)).real (Set.Iic 1) := by
  refine C135_poisson_gamma (r := 3) (n := 1) one_pos ?_ ?_
  · norm_num [Gamma.new]
  · norm_num [Poisson.new]

/-- The hypotheses are met: the median of three uniform numbers. -/
example : (law volume fin (⟨fin 2, fin 2⟩ : Beta XReal)).real (Set.Iic (1/4))
    = (law Measure.count (id : ℕ → ℕ) (⟨3, fin (1/4)⟩ : Binomial XReal).withBase).real (Set.Ici 2) := by
  refine C135_binomial_beta (a := 1) (b := 1) (by norm_num) (by norm_num) ?_ ?_
  · norm_num [Beta.new]
  · norm_num [Binomial.new]

/-- The hypotheses are met: third success after at most two failures. -/
example : (law Measure.count (id : ℕ → ℕ) (⟨3, fin (1/4)⟩ : NegativeBinomial XReal).withBase).real (Set.Iic 2)
    = (law Measure.count (id : ℕ → ℕ) (⟨5, fin (1/4)⟩ : Binomial XReal).withBase).real (Set.Ici 3) := by
  refine C135_negative_binomial (p := 1/4) (k := 2) (r := 3) ?_ ?_
  · norm_num [NegativeBinomial.new]
  · norm_num [Binomial.new]

/-- the first of two waiting times of rates one and two, and the first of two runs of coin tosses -/
example : ∃ (d e m : Exponential XReal) (d' e' m' : Geometric XReal), Exponential.new (fin 1) = .ok d ∧
    Exponential.new (fin 2) = .ok e ∧ Exponential.new (fin (1 + 2)) = .ok m ∧ Geometric.new (fin (1/2)) = .ok d' ∧
    Geometric.new (fin (1/3)) = .ok e' ∧ Geometric.new (fin (1 - (1 - 1/2) * (1 - 1/3))) = .ok m' := by
  refine ⟨⟨fin 1⟩, ⟨fin 2⟩, ⟨fin (1 + 2)⟩, ⟨fin (1/2)⟩, ⟨fin (1/3)⟩, ⟨fin (1 - (1 - 1/2) * (1 - 1/3))⟩, ?_, ?_, ?_, ?_, ?_, ?_⟩ <;>
    norm_num [Exponential.new, Geometric.new]

end Verif
