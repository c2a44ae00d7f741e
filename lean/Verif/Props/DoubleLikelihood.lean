import Verif.Props.DoubleExpFam4

/-!
# C149: comparing parameters by computed joint log-likelihoods

A user who fits a model compares the joint log-densities of the data under several parameters. Here: the comparison of the
computed values orders the parameters as the true joint log-likelihoods do, up to the sum of the two error bounds.
-/

namespace Verif
open Format FloatOps ProbabilityTheory ExponentialFamily

variable {f : Format} {L : Libm}

/-- comparing the floating-point numbers `v` and `w` tells the order of the real numbers `s` and `t` up to `ε` -/
def Ranks (v w : Flt f L) (s t ε : ℝ) : Prop :=
  (FloatOps.le v w = true → s ≤ t + ε) ∧ (s + ε < t → FloatOps.lt v w = true)

theorem ranks_of {v w : Flt f L} {s t c e : ℝ}
    (hv : ∃ r : ℚ, v = Flt.fin (f := f) (L := L) r ∧ f.Representable r ∧ |(r : ℝ) - s| ≤ c)
    (hw : ∃ r : ℚ, w = Flt.fin (f := f) (L := L) r ∧ f.Representable r ∧ |(r : ℝ) - t| ≤ e) :
    Ranks v w s t (c + e) := by
  obtain ⟨q, rfl, -, hq⟩ := hv
  obtain ⟨r, rfl, -, hr⟩ := hw
  have h1 := abs_le.mp hq
  have h2 := abs_le.mp hr
  constructor
  · intro h
    have h3 : q ≤ r := of_decide_eq_true h
    have h4 : (q : ℝ) ≤ r := by exact_mod_cast h3
    linarith [h1.1, h1.2, h2.1, h2.2]
  · intro h
    show decide (q < r) = true
    have h4 : (q : ℝ) < r := by linarith [h1.1, h1.2, h2.1, h2.2]
    have h3 : q < r := by exact_mod_cast h4
    simpa using h3

/-- **C149** (normal): two means and standard deviations. -/
theorem C149_normal (hf : f.Std) (hL : L.Accurate f) {μ σ μ' σ' : ℚ}
    (hμ : f.Representable μ) (hσ : f.Representable σ) (hμ' : f.Representable μ') (hσ' : f.Representable σ')
    {d d' : Normal (Flt f L)} (h : Normal.new (Flt.fin μ) (Flt.fin σ) = .ok d)
    (h' : Normal.new (Flt.fin μ') (Flt.fin σ') = .ok d')
    (hσ1 : 1 / 2 ^ 10 ≤ σ) (hσ2 : σ ≤ 2 ^ 10) (hσ1' : 1 / 2 ^ 10 ≤ σ') (hσ2' : σ' ≤ 2 ^ 10)
    (xs : List ℚ) (hne : xs ≠ []) (hx : ∀ x ∈ xs, f.Representable x) (hn : xs.length * f.u ≤ 1/1000)
    (hB : xs.length * normalSize μ σ xs ≤ 2 ^ 40) (hB' : xs.length * normalSize μ' σ' xs ≤ 2 ^ 40) :
    Ranks ((IID.ofDist d).iidLogDensity (xs.map (Flt.fin (f := f) (L := L))))
      ((IID.ofDist d').iidLogDensity (xs.map (Flt.fin (f := f) (L := L))))
      (xs.map fun x : ℚ => Real.log (gaussianPDFReal μ ((σ : ℝ) ^ 2).toNNReal x)).sum
      (xs.map fun x : ℚ => Real.log (gaussianPDFReal μ' ((σ' : ℝ) ^ 2).toNNReal x)).sum
      (376 * xs.length * f.u * normalSize μ σ xs + 376 * xs.length * f.u * normalSize μ' σ' xs) :=
  ranks_of (C144_normal_joint_partial hf hL hμ hσ h hσ1 hσ2 xs hne hx hn hB)
    (C144_normal_joint_partial hf hL hμ' hσ' h' hσ1' hσ2' xs hne hx hn hB')

/-- **C149** (Gamma): two shapes and rates. -/
theorem C149_gamma (hf : f.Std) (hL : L.Accurate f) (hG : L.GammaAccurate f) {a b a' b' : ℚ}
    (ha : f.Representable a) (hb : f.Representable b) (ha' : f.Representable a') (hb' : f.Representable b')
    {d d' : Gamma (Flt f L)} (h : Gamma.new (Flt.fin a) (Flt.fin b) = .ok d)
    (h' : Gamma.new (Flt.fin a') (Flt.fin b') = .ok d') (xs : List ℚ) (hne : xs ≠ [])
    (hx : ∀ x ∈ xs, f.Representable x ∧ 0 < x) (hn : xs.length * f.u ≤ 1/1000)
    (hB : xs.length * gammaSize a b xs ≤ 2 ^ 80) (hB' : xs.length * gammaSize a' b' xs ≤ 2 ^ 80)
    (hS : (xs.map fun x : ℚ => (x : ℝ)).sum ≤ 2 ^ 80) :
    Ranks ((IID.ofDist d).iidLogDensity (xs.map (Flt.fin (f := f) (L := L))))
      ((IID.ofDist d').iidLogDensity (xs.map (Flt.fin (f := f) (L := L))))
      (xs.map fun x : ℚ => Real.log (gammaPDFReal a b x)).sum
      (xs.map fun x : ℚ => Real.log (gammaPDFReal a' b' x)).sum
      (80 * xs.length * f.u * gammaSize a b xs + 80 * xs.length * f.u * gammaSize a' b' xs) :=
  ranks_of (C144_gamma_joint_partial hf hL hG ha hb h xs hne hx hn hB hS)
    (C144_gamma_joint_partial hf hL hG ha' hb' h' xs hne hx hn hB' hS)

/-- **C149** (Beta): two pairs of parameters. -/
theorem C149_beta (hf : f.Std) (hL : L.Accurate f) (hG : L.GammaAccurate f) {a b a' b' : ℚ}
    (ha : f.Representable a) (hb : f.Representable b) (ha' : f.Representable a') (hb' : f.Representable b')
    {d d' : Beta (Flt f L)} (h : Beta.new (Flt.fin a) (Flt.fin b) = .ok d)
    (h' : Beta.new (Flt.fin a') (Flt.fin b') = .ok d') (xs : List ℚ) (hne : xs ≠ [])
    (hx : ∀ x ∈ xs, f.Representable x ∧ 0 < x ∧ x < 1) (hn : xs.length * f.u ≤ 1/1000)
    (hB : xs.length * betaSize a b xs ≤ 2 ^ 80) (hB' : xs.length * betaSize a' b' xs ≤ 2 ^ 80) :
    Ranks ((IID.ofDist d).iidLogDensity (xs.map (Flt.fin (f := f) (L := L))))
      ((IID.ofDist d').iidLogDensity (xs.map (Flt.fin (f := f) (L := L))))
      (xs.map fun x : ℚ => Real.log (betaPDFReal a b x)).sum
      (xs.map fun x : ℚ => Real.log (betaPDFReal a' b' x)).sum
      (114 * xs.length * f.u * betaSize a b xs + 114 * xs.length * f.u * betaSize a' b' xs) :=
  ranks_of (C144_beta_joint_partial hf hL hG ha hb h xs hne hx hn hB)
    (C144_beta_joint_partial hf hL hG ha' hb' h' xs hne hx hn hB')

/-- **C149** (chi-squared): two degrees of freedom. -/
theorem C149_chi_squared (hf : f.Std) (hL : L.Accurate f) (hG : L.GammaAccurate f) {k k' : ℚ}
    (hk : f.Representable k) (hk1 : 1 / 2 ^ 50 ≤ k) (hk' : f.Representable k') (hk1' : 1 / 2 ^ 50 ≤ k')
    {d d' : ChiSquared (Flt f L)} (h : ChiSquared.new (Flt.fin k) = .ok d)
    (h' : ChiSquared.new (Flt.fin k') = .ok d') (xs : List ℚ) (hne : xs ≠ [])
    (hx : ∀ x ∈ xs, f.Representable x ∧ 0 < x) (hn : xs.length * f.u ≤ 1/1000)
    (hB : xs.length * chiSize ((k : ℝ) / 2) xs ≤ 2 ^ 80) (hB' : xs.length * chiSize ((k' : ℝ) / 2) xs ≤ 2 ^ 80) :
    Ranks ((IID.ofDist d).iidLogDensity (xs.map (Flt.fin (f := f) (L := L))))
      ((IID.ofDist d').iidLogDensity (xs.map (Flt.fin (f := f) (L := L))))
      (xs.map fun x : ℚ => Real.log (gammaPDFReal ((k : ℝ) / 2) (1 / 2) x)).sum
      (xs.map fun x : ℚ => Real.log (gammaPDFReal ((k' : ℝ) / 2) (1 / 2) x)).sum
      (145 * xs.length * f.u * chiSize ((k : ℝ) / 2) xs + 145 * xs.length * f.u * chiSize ((k' : ℝ) / 2) xs) :=
  ranks_of (C144_chi_squared_joint_partial hf hL hG hk hk1 h xs hne hx hn hB)
    (C144_chi_squared_joint_partial hf hL hG hk' hk1' h' xs hne hx hn hB')

/-- **C149** (Poisson, double precision): two rates. -/
theorem C149_poisson (hL : L.Accurate f64) {l l' : ℚ} (hl : f64.Representable l) (hl' : f64.Representable l')
    {d d' : Poisson (Flt f64 L)} (h : Poisson.new (Flt.fin l) = .ok d) (h' : Poisson.new (Flt.fin l') = .ok d')
    (ks : List ℕ) (hne : ks ≠ []) (hk : ∀ k ∈ ks, k ≤ 2 ^ 53) (hn : ks.length * f64.u ≤ 1/1000)
    (hB : ks.length * poissonSize l ks ≤ 2 ^ 80) (hB' : ks.length * poissonSize l' ks ≤ 2 ^ 80) :
    Ranks ((IID.ofDist d).iidLogDensity ks : Flt f64 L) ((IID.ofDist d').iidLogDensity ks)
      (ks.map fun k : ℕ => Real.log ((l : ℝ) ^ k * Real.exp (-l) / k.factorial)).sum
      (ks.map fun k : ℕ => Real.log ((l' : ℝ) ^ k * Real.exp (-l') / k.factorial)).sum
      (116 * ks.length * f64.u * poissonSize l ks + 116 * ks.length * f64.u * poissonSize l' ks) :=
  ranks_of (C144_poisson_joint_partial hL hl h ks hne hk hn hB) (C144_poisson_joint_partial hL hl' h' ks hne hk hn hB')

/-- **C149** (Bernoulli): two probabilities. -/
theorem C149_bernoulli (hf : f.Std) (hL : L.Accurate f) {p p' : ℚ} (hp : f.Representable p) (hp' : f.Representable p')
    (hp0 : 1 / 2 ^ 60 ≤ p) (hp1 : p ≠ 1) (hp0' : 1 / 2 ^ 60 ≤ p') (hp1' : p' ≠ 1) {d d' : Bernoulli (Flt f L)}
    (h : Bernoulli.new (Flt.fin p) = .ok d) (h' : Bernoulli.new (Flt.fin p') = .ok d')
    (ys : List UInt8) (hne : ys ≠ []) (hy : ∀ y ∈ ys, y = 0 ∨ y = 1) (hn : ys.length * f.u ≤ 1/1000)
    (hB : ys.length * bernoulliSize p (ys.map fun y => ((y.toNat : ℕ) : ℝ)).sum ≤ 2 ^ 80)
    (hB' : ys.length * bernoulliSize p' (ys.map fun y => ((y.toNat : ℕ) : ℝ)).sum ≤ 2 ^ 80) :
    Ranks ((IID.ofDist d).iidLogDensity ys : Flt f L) ((IID.ofDist d').iidLogDensity ys)
      (ys.map fun y => Real.log (bernoulliMass p y)).sum (ys.map fun y => Real.log (bernoulliMass p' y)).sum
      (36 * ys.length * f.u * bernoulliSize p (ys.map fun y => ((y.toNat : ℕ) : ℝ)).sum +
        36 * ys.length * f.u * bernoulliSize p' (ys.map fun y => ((y.toNat : ℕ) : ℝ)).sum) :=
  ranks_of (C144_bernoulli_joint_partial hf hL hp hp0 hp1 h ys hne hy hn hB)
    (C144_bernoulli_joint_partial hf hL hp' hp0' hp1' h' ys hne hy hn hB')

/-- **C149** (binomial): two probabilities and numbers of trials. -/
theorem C149_binomial (hf : f.Std) (hL : L.Accurate f) (hG : L.GammaAccurate f) {p p' : ℚ}
    (hp : f.Representable p) (hp' : f.Representable p') (hp0 : 1 / 2 ^ 60 ≤ p) (hp1 : p ≠ 1) (hp0' : 1 / 2 ^ 60 ≤ p')
    (hp1' : p' ≠ 1) {N N' : ℕ} (hN : N < 2 ^ f.prec) (hN' : N' < 2 ^ f.prec) {d d' : Binomial (Flt f L)}
    (h : Binomial.new N (Flt.fin p) = .ok d) (h' : Binomial.new N' (Flt.fin p') = .ok d')
    (ks : List ℕ) (hne : ks ≠ []) (hk : ∀ k ∈ ks, k ≤ N ∧ k ≤ N') (hn : ks.length * f.u ≤ 1/1000)
    (hB : ks.length * binomialSize p N ks.length (ks.map fun k : ℕ => (k : ℝ)).sum ≤ 2 ^ 80)
    (hB' : ks.length * binomialSize p' N' ks.length (ks.map fun k : ℕ => (k : ℝ)).sum ≤ 2 ^ 80) :
    Ranks ((IID.ofDist d).iidLogDensity ks : Flt f L) ((IID.ofDist d').iidLogDensity ks)
      (ks.map fun k => Real.log (N.choose k * (p : ℝ) ^ k * (1 - (p : ℝ)) ^ (N - k))).sum
      (ks.map fun k => Real.log (N'.choose k * (p' : ℝ) ^ k * (1 - (p' : ℝ)) ^ (N' - k))).sum
      (40 * ks.length * f.u * binomialSize p N ks.length (ks.map fun k : ℕ => (k : ℝ)).sum +
        40 * ks.length * f.u * binomialSize p' N' ks.length (ks.map fun k : ℕ => (k : ℝ)).sum) :=
  ranks_of (C144_binomial_joint_partial hf hL hG hp hp0 hp1 hN h ks hne (fun k h => (hk k h).1) hn hB)
    (C144_binomial_joint_partial hf hL hG hp' hp0' hp1' hN' h' ks hne (fun k h => (hk k h).2) hn hB')

/-- Two observations at one and two are more likely under a standard normal distribution than under one with mean
`-8`, and the comparison of the computed values says so, whatever the library. -/
example (hf : f.Std) (hL : L.Accurate f) :
    FloatOps.lt ((IID.ofDist (⟨Flt.fin (-8), Flt.fin 1⟩ : Normal (Flt f L))).iidLogDensity
        ([1, 2].map (Flt.fin (f := f) (L := L))))
      ((IID.ofDist (⟨Flt.fin 0, Flt.fin 1⟩ : Normal (Flt f L))).iidLogDensity
        ([1, 2].map (Flt.fin (f := f) (L := L)))) = true := by
  have hs : normalSize ((0 : ℚ) : ℝ) ((1 : ℚ) : ℝ) [1, 2] = 7 := by simp [normalSize]; norm_num
  have hs' : normalSize ((-8 : ℚ) : ℝ) ((1 : ℚ) : ℝ) [1, 2] = 135 := by simp [normalSize]; norm_num
  have h8 : f.Representable (-8) := by
    have h := rep_nat hf (n := 8) (by rcases hf with rfl | rfl <;> decide)
    exact rep_neg (by simpa using h)
  have := (C149_normal (L := L) hf hL h8 hf.rep_one f.rep_zero hf.rep_one (d := ⟨Flt.fin (-8), Flt.fin 1⟩)
    (d' := ⟨Flt.fin 0, Flt.fin 1⟩) rfl rfl (by norm_num) (by norm_num) (by norm_num) (by norm_num) [1, 2] (by simp)
    (by simp [hf.rep_one, hf.rep_two]) (two_obs hf) (by rw [hs']; norm_num) (by rw [hs]; norm_num)).2
  refine this ?_
  rw [hs, hs', sum_log_normal (by norm_num), sum_log_normal (by norm_num)]
  have hul := hf.u_le
  norm_num at hul ⊢
  linarith

end Verif
