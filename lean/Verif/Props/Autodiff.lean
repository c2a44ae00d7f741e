import Verif.Lemmas.Dual
import Verif.Model.ViaF64
import Verif.Props.Continuous
import Verif.Props.Discrete
import Mathlib.NumberTheory.Harmonic.GammaDeriv
import Mathlib.NumberTheory.Harmonic.EulerMascheroni

/-!
# C120: automatic differentiation of log-densities

The same log-density code, run on dual numbers, returns the log-density and its derivative.  The derivative
is taken along arbitrary differentiable curves of parameters and points, which covers the derivative in the
point (`x` the identity, constant parameters), in each parameter, and along any earlier computation.
-/

namespace Verif
open FloatOps XReal Spec Filter Topology ProbabilityTheory
open Verif.Spec.Tracks (const ofRat ofNat)

section continuous
variable {t : ℝ}

theorem Tracks.log_pos {g : ℝ → ℝ} {a : Dual XReal} (ha : Tracks g t a)
    (h : FloatOps.gt a FloatOps.zero = true) : 0 < g t := by
  rw [Dual.gt_eq, ha.val] at h
  simpa [Dual.zero_eq] using h

/-- **C120.** Normal: the derivative in the mean, the standard deviation and the point. -/
theorem C120_normal {μ σ x : ℝ → ℝ} {dμ dσ dx : Dual XReal} (hμ : Tracks μ t dμ) (hσ : Tracks σ t dσ)
    (hx : Tracks x t dx) {d : Normal (Dual XReal)} (h : Normal.new dμ dσ = .ok d) :
    Tracks (fun s => Real.log (gaussianPDFReal (μ s) (σ s ^ 2).toNNReal (x s))) t (logDensityWrtRoot d dx) := by
  unfold Normal.new at h
  split_ifs at h with h0
  obtain rfl := (Except.ok.inj h)
  have h0' := Tracks.log_pos hσ h0
  have hz := (hx.sub hμ).div hσ h0'.ne'
  have key := (((ofRat (1/2) t).neg.mul (((ofRat 2 t).mul (Tracks.pi t)).ln (by simp [Real.pi_pos]))).sub
    (hσ.ln h0')).sub (((ofRat (1/2) t).mul hz).mul hz)
  refine key.congr' ((hσ.pos h0').mono fun s hs => ?_)
  have e := (C09_normal_density (μ := μ s) (σ := σ s) (d := ⟨fin (μ s), fin (σ s)⟩)
    (by simp [Normal.new, hs])).1 (x s)
  rw [Normal.ld hs, density_fin] at e
  rw [← e, Real.log_exp]
  push_cast
  ring

/-- **C120.** Exponential: the derivative in the rate and the point, inside the support. -/
theorem C120_exponential {r x : ℝ → ℝ} {dr dx : Dual XReal} (hr : Tracks r t dr) (hx : Tracks x t dx)
    (hx0 : 0 < x t) {d : Exponential (Dual XReal)} (h : Exponential.new dr = .ok d) :
    Tracks (fun s => Real.log (exponentialPDFReal (r s) (x s))) t (logDensityWrtRoot d dx) := by
  unfold Exponential.new at h
  split_ifs at h with h0
  obtain rfl := (Except.ok.inj h)
  have h0' := Tracks.log_pos hr h0
  have hc : FloatOps.ge dx (FloatOps.zero : Dual XReal) = true := by
    rw [Dual.ge_eq, hx.val]; simp [Dual.zero_eq, hx0.le]
  have key := (hr.ln h0').sub (hr.mul hx)
  show Tracks _ t (if FloatOps.ge dx (FloatOps.zero : Dual XReal) then _ else _)
  rw [if_pos hc]
  refine key.congr' (((hr.pos h0').and (hx.pos hx0)).mono fun s ⟨hs, hxs⟩ => ?_)
  have e := (C10_exponential_density (r := r s) (d := ⟨fin (r s)⟩) (by simp [Exponential.new, hs])).2.2.1 (x s)
  rw [Exponential.ld_of_nonneg hs hxs.le, density_fin] at e
  rw [← e, Real.log_exp]

/-- **C120.** Gamma: the derivative in the rate and the point, and what is returned when the shape varies:
the term `-log Γ(α)` has been computed in `f64` and counts as a constant.  Missing: its derivative, see
`C120_gamma_violated`. -/
theorem C120_gamma_partial {α β x : ℝ → ℝ} {dα dβ dx : Dual XReal} (hα : Tracks α t dα) (hβ : Tracks β t dβ)
    (hx : Tracks x t dx) (hx0 : 0 < x t) {d : Gamma (Dual XReal)} (h : Gamma.new dα dβ = .ok d) :
    Tracks (fun s => Real.log (gammaPDFReal (α s) (β s) (x s)) +
      (Real.log (Real.Gamma (α s)) - Real.log (Real.Gamma (α t)))) t (logDensityWrtRoot d dx) := by
  unfold Gamma.new at h
  split_ifs at h with h1 h2
  obtain rfl := (Except.ok.inj h)
  have h1' := Tracks.log_pos hα h1
  have h2' := Tracks.log_pos hβ h2
  have hc : FloatOps.gt dx (FloatOps.zero : Dual XReal) = true := by
    rw [Dual.gt_eq, hx.val]; simp [Dual.zero_eq, hx0]
  have hg : Tracks (fun _ => Real.log (Real.Gamma (α t))) t (FloatOps.lnGamma dα) := by
    show Tracks _ t (Dual.const (FloatOps.lnGamma dα.val))
    rw [hα.val, f_lnGamma _ h1']
    exact const _ t
  have key := (((hα.mul (hβ.ln h2')).sub hg).add ((hα.sub (Tracks.one t)).mul (hx.ln hx0))).sub (hβ.mul hx)
  show Tracks _ t (if FloatOps.gt dx (FloatOps.zero : Dual XReal) then _ else _)
  rw [if_pos hc]
  refine key.congr' (((hα.pos h1').and ((hβ.pos h2').and (hx.pos hx0))).mono fun s ⟨hs', hs, hxs⟩ => ?_)
  have e := (C11_gamma_density (a := α s) (b := β s) (d := ⟨fin (α s), fin (β s)⟩)
    (by simp [Gamma.new, hs, hs'])).1 (x s) hxs.ne'
  rw [Gamma.ld_of_pos hs' hs hxs, density_fin] at e
  rw [← e, Real.log_exp]
  ring

/-- **C120.** Gamma with a fixed shape: the derivative in the rate and the point. -/
theorem C120_gamma_fixed_shape {α : ℝ} {β x : ℝ → ℝ} {dβ dx : Dual XReal} (hβ : Tracks β t dβ)
    (hx : Tracks x t dx) (hx0 : 0 < x t) {d : Gamma (Dual XReal)}
    (h : Gamma.new (Dual.const (fin α)) dβ = .ok d) :
    Tracks (fun s => Real.log (gammaPDFReal α (β s) (x s))) t (logDensityWrtRoot d dx) :=
  (C120_gamma_partial (const α t) hβ hx hx0 h).congr fun s => by ring

/-- Logarithm of the gamma function of a dual number: the value is right, the derivative zero. -/
theorem lnGamma_tracks {α : ℝ → ℝ} {dα : Dual XReal} (hα : Tracks α t dα) (h0 : 0 < α t) :
    Tracks (fun _ => Real.log (Real.Gamma (α t))) t (FloatOps.lnGamma dα) := by
  show Tracks _ t (Dual.const (FloatOps.lnGamma dα.val))
  rw [hα.val, f_lnGamma _ h0]
  exact const _ t

/-- **C120.** Beta: the derivative in the point, and what is returned when the parameters vary: the logarithms of
gamma functions have been computed in `f64` and count as constants.  Missing: their derivatives, see
`C120_beta_violated`. -/
theorem C120_beta_partial {α β x : ℝ → ℝ} {dα dβ dx : Dual XReal} (hα : Tracks α t dα) (hβ : Tracks β t dβ)
    (hx : Tracks x t dx) (hx0 : 0 < x t) (hx1 : x t < 1) {d : Beta (Dual XReal)} (h : Beta.new dα dβ = .ok d) :
    Tracks (fun s => Real.log (betaPDFReal (α s) (β s) (x s)) +
      ((Real.log (Real.Gamma (α s)) + Real.log (Real.Gamma (β s)) - Real.log (Real.Gamma (α s + β s))) -
       (Real.log (Real.Gamma (α t)) + Real.log (Real.Gamma (β t)) - Real.log (Real.Gamma (α t + β t))))) t
      (logDensityWrtRoot d dx) := by
  unfold Beta.new at h
  split_ifs at h with h1 h2
  obtain rfl := (Except.ok.inj h)
  have h1' := Tracks.log_pos hα h1
  have h2' := Tracks.log_pos hβ h2
  have hc : (FloatOps.gt dx (FloatOps.zero : Dual XReal) && (dx <. (FloatOps.one : Dual XReal))) = true := by
    rw [Dual.gt_eq, Dual.lt_eq, hx.val]; simp [Dual.zero_eq, Dual.one_eq, hx0, hx1]
  have key := ((((lnGamma_tracks (hα.add hβ) (add_pos h1' h2')).sub (lnGamma_tracks hα h1')).sub
    (lnGamma_tracks hβ h2')).add
    ((hα.sub (Tracks.one t)).mul (hx.ln hx0))).add
    ((hβ.sub (Tracks.one t)).mul (((Tracks.one t).sub hx).ln (by linarith)))
  show Tracks _ t (if (FloatOps.gt dx (FloatOps.zero : Dual XReal) && (dx <. (FloatOps.one : Dual XReal)))
    then _ else _)
  rw [if_pos hc]
  refine key.congr' (((hα.pos h1').and ((hβ.pos h2').and ((hx.pos hx0).and (hx.lt_const hx1)))).mono
    fun s ⟨ha, hb, hs, hxs⟩ => ?_)
  have e := (C12_beta_density (a := α s) (b := β s) (d := ⟨fin (α s), fin (β s)⟩)
    (by simp [Beta.new, ha, hb])).1 (x s)
  rw [Beta.ld_of_mem ha hb hs hxs, density_fin] at e
  rw [← e, Real.log_exp]
  ring

/-- **C120.** Beta with fixed parameters: the derivative in the point. -/
theorem C120_beta_fixed {α β : ℝ} {x : ℝ → ℝ} {dx : Dual XReal}
    (hx : Tracks x t dx) (hx0 : 0 < x t) (hx1 : x t < 1) {d : Beta (Dual XReal)}
    (h : Beta.new (Dual.const (fin α)) (Dual.const (fin β)) = .ok d) :
    Tracks (fun s => Real.log (betaPDFReal α β (x s))) t (logDensityWrtRoot d dx) :=
  (C120_beta_partial (const α t) (const β t) hx hx0 hx1 h).congr fun s => by ring

example : Beta.new (Dual.const (fin 2)) (Dual.const (fin 3)) =
    .ok (⟨Dual.const (fin 2), Dual.const (fin 3)⟩ : Beta (Dual XReal)) := by
  simp [Beta.new, Dual.gt_eq, Dual.zero_eq, Dual.const]

/-- **C120.** Chi-squared: the derivative in the point, and what is returned when the degrees of freedom vary.
Missing: the derivative of the logarithm of the gamma function, see `C120_chi_squared_violated`. -/
theorem C120_chi_squared_partial {k x : ℝ → ℝ} {dk dx : Dual XReal} (hk : Tracks k t dk)
    (hx : Tracks x t dx) (hx0 : 0 < x t) {d : ChiSquared (Dual XReal)}
    (h : ChiSquared.new dk = .ok d) :
    Tracks (fun s => Real.log (gammaPDFReal (k s / 2) (1 / 2) (x s)) +
      (Real.log (Real.Gamma (k s / 2)) - Real.log (Real.Gamma (k t / 2)))) t (logDensityWrtRoot d dx) := by
  unfold ChiSquared.new at h
  split_ifs at h with h1
  obtain rfl := (Except.ok.inj h)
  have h1' := Tracks.log_pos hk h1
  have hc : FloatOps.gt dx (FloatOps.zero : Dual XReal) = true := by
    rw [Dual.gt_eq, hx.val]; simp [Dual.zero_eq, hx0]
  have htwo := (Tracks.one t).add (Tracks.one t)
  have htwo' : (fun _ : ℝ => (1 : ℝ) + 1) t ≠ 0 := by norm_num
  have hh := hk.div htwo htwo'
  have hg := lnGamma_tracks hh (by positivity)
  have key := ((((hh.neg).mul (htwo.ln (by norm_num))).sub hg).add ((hh.sub (Tracks.one t)).mul (hx.ln hx0))).sub
    (hx.div htwo htwo')
  show Tracks _ t (if FloatOps.gt dx (FloatOps.zero : Dual XReal) then _ else _)
  rw [if_pos hc]
  refine key.congr' (((hk.pos h1').and (hx.pos hx0)).mono fun s ⟨hks, hxs⟩ => ?_)
  have e0 := (C13_chi_squared_is_gamma (k := k s) (d := ⟨fin (k s)⟩) (g := ⟨fin (k s/2), fin (1/2)⟩)
    (by simp [ChiSquared.new, hks]) (by simp [Gamma.new, hks])).2.1 (x s)
  have e := (C11_gamma_density (a := k s/2) (b := 1/2) (d := ⟨fin (k s/2), fin (1/2)⟩)
    (by simp [Gamma.new, hks])).1 (x s) hxs.ne'
  rw [← e0, ChiSquared.ld_of_pos hks hxs, density_fin] at e
  rw [← e, Real.log_exp]
  norm_num
  ring

/-- **C120.** Chi-squared with fixed degrees of freedom: the derivative in the point. -/
theorem C120_chi_squared_fixed {k : ℝ} {x : ℝ → ℝ} {dx : Dual XReal}
    (hx : Tracks x t dx) (hx0 : 0 < x t) {d : ChiSquared (Dual XReal)}
    (h : ChiSquared.new (Dual.const (fin k)) = .ok d) :
    Tracks (fun s => Real.log (gammaPDFReal (k / 2) (1 / 2) (x s))) t (logDensityWrtRoot d dx) :=
  (C120_chi_squared_partial (const k t) hx hx0 h).congr fun s => by ring

example : ChiSquared.new (⟨fin 2, fin 1⟩) = .ok (⟨⟨fin 2, fin 1⟩⟩ : ChiSquared (Dual XReal)) := by
  simp [ChiSquared.new, Dual.gt_eq, Dual.zero_eq]

/-- **C120.** Cauchy: the derivative in the location, the scale and the point. -/
theorem C120_cauchy {l c x : ℝ → ℝ} {dl dc dx : Dual XReal} (hl : Tracks l t dl) (hc : Tracks c t dc)
    (hx : Tracks x t dx) {d : Cauchy (Dual XReal)} (h : Cauchy.new dl dc = .ok d) :
    Tracks (fun s => Real.log (cauchyPDFReal (l s) (c s).toNNReal (x s))) t (logDensityWrtRoot d dx) ∧
    Tracks (fun s => Real.log (cauchyPDFReal (l s) (c s).toNNReal (x s))) t (d.logPdf dx) := by
  unfold Cauchy.new at h
  split_ifs at h with h0
  obtain rfl := (Except.ok.inj h)
  have h0' := Tracks.log_pos hc h0
  have hz := (hx.sub hl).div hc h0'.ne'
  have hp : ∀ z : ℝ, 0 < 1 + z * z := fun z => by nlinarith [mul_self_nonneg z]
  have hln := ((Tracks.one t).add (hz.mul hz)).ln (hp _)
  have key := (hln.neg.sub (hc.ln h0')).sub ((Tracks.pi t).ln Real.pi_pos)
  have key' := (((Tracks.pi t).ln Real.pi_pos).neg.sub (hc.ln h0')).sub hln
  have hev := (hc.pos h0').mono fun s hs => by
    have e := (C14_cauchy_density (l := l s) (s := c s) (d := ⟨fin (l s), fin (c s)⟩)
      (by simp [Cauchy.new, hs])).1 (x s)
    rw [Cauchy.ld hs, density_fin] at e
    exact e
  refine ⟨key.congr' (hev.mono fun s e => ?_), key'.congr' (hev.mono fun s e => ?_)⟩
  · rw [← e, Real.log_exp]
  · rw [← e, Real.log_exp]; ring

end continuous

/-! ### Where the derivative is lost -/

/-- **C120** is violated for the shape of a Gamma distribution: at shape 1, rate 1, point 1 the derivative
of the log-density in the shape is Euler's constant, the dual number says 0. -/
theorem C120_gamma_violated :
    ∃ d : Gamma (Dual XReal), Gamma.new ⟨fin 1, fin 1⟩ (Dual.const (fin 1)) = .ok d ∧
      ¬ Tracks (fun α => Real.log (gammaPDFReal α 1 1)) 1 (logDensityWrtRoot d (Dual.const (fin 1))) := by
  have hn : Gamma.new (⟨fin 1, fin 1⟩ : Dual XReal) (Dual.const (fin 1)) =
      .ok ⟨⟨fin 1, fin 1⟩, Dual.const (fin 1)⟩ := by
    simp [Gamma.new, Dual.gt_eq, Dual.zero_eq, Dual.const]
  refine ⟨_, hn, fun ht => ?_⟩
  have hp := C120_gamma_partial (Tracks.id 1) (const 1 1) (const 1 1) one_pos hn
  obtain ⟨a, e1, h1⟩ := ht
  obtain ⟨b, e2, h2⟩ := hp
  rw [e1] at e2
  have hab : a = b := by
    have := congrArg Dual.der e2
    exact XReal.fin.inj this
  subst hab
  have hG : HasDerivAt (fun s => Real.log (Real.Gamma s)) (-Real.eulerMascheroniConstant / Real.Gamma 1) 1 :=
    Real.hasDerivAt_Gamma_one.log (by simp)
  have h3 := (h2.sub h1)
  have h4 : HasDerivAt (fun s => Real.log (Real.Gamma s) - Real.log (Real.Gamma 1)) (a - a) 1 := by
    refine h3.congr_of_eventuallyEq (Eventually.of_forall fun s => ?_)
    simp
  have h5 := h4.unique (hG.sub_const _)
  have h6 := Real.one_half_lt_eulerMascheroniConstant
  simp at h5
  linarith

/-- **C120** is violated for Student's t: the whole log-density is computed in `f64`, so at every point other
than 0 the derivative in the point is wrong, whatever the degrees of freedom.  The value is right. -/
theorem C120_student_t_violated {ν x : ℝ} (hx : x ≠ 0) {d : StudentT (Dual XReal)}
    (h : StudentT.new (Dual.const (fin ν)) = .ok d) :
    (d.logPdfVia XReal ⟨fin x, fin 1⟩).val = fin (Real.log (studentTPDFReal ν x)) ∧
    ¬ Tracks (fun s => Real.log (studentTPDFReal ν s)) x (d.logPdfVia XReal ⟨fin x, fin 1⟩) := by
  unfold StudentT.new at h
  split_ifs at h with h1
  obtain rfl := (Except.ok.inj h)
  have hν := Tracks.log_pos (const ν 0) h1
  have hld : ∀ s : ℝ, Real.log (studentTPDFReal ν s) =
      Real.log (Real.Gamma ((ν + 1)/2)) - Real.log (Real.Gamma (ν/2))
        - 1/2 * Real.log (ν * Real.pi) + -((ν + 1)/2) * Real.log (1 + s * s / ν) := by
    intro s
    have e := (C15_student_t_density (ν := ν) (d := ⟨fin ν⟩) (by simp [StudentT.new, hν])).1 s
    rw [StudentT.ld hν, density_fin] at e
    rw [← e, Real.log_exp]
  have hval : (⟨Dual.const (fin ν)⟩ : StudentT (Dual XReal)).logPdfVia XReal ⟨fin x, fin 1⟩ =
      Dual.const (fin (Real.log (studentTPDFReal ν x))) := by
    rw [hld, ← StudentT.ld hν]
    rfl
  rw [hval]
  refine ⟨rfl, fun ht => ?_⟩
  obtain ⟨a, e1, h2⟩ := ht
  have ha : a = 0 := (XReal.fin.inj (congrArg Dual.der e1)).symm
  subst ha
  have hp : 0 < 1 + x * x / ν := add_pos_of_pos_of_nonneg one_pos (div_nonneg (mul_self_nonneg x) hν.le)
  have hd := ((((hasDerivAt_id x).mul (hasDerivAt_id x)).div_const ν).const_add 1).log hp.ne'
  have hd' := (hd.const_mul (-((ν + 1)/2))).const_add (Real.log (Real.Gamma ((ν + 1)/2)) -
    Real.log (Real.Gamma (ν/2)) - 1/2 * Real.log (ν * Real.pi))
  have h3 := (h2.congr_of_eventuallyEq (Eventually.of_forall fun s => (hld s).symm)).unique hd'
  simp only [id, one_mul, mul_one] at h3
  have h4 : -((ν + 1) / 2) * ((x + x) / ν / (1 + x * x / ν)) ≠ 0 := by
    have h5 : x + x ≠ 0 := by
      intro h; apply hx; linarith
    have h6 : (ν + 1) / 2 ≠ 0 := by positivity
    exact mul_ne_zero (neg_ne_zero.mpr h6) (div_ne_zero (div_ne_zero h5 hν.ne') hp.ne')
  exact h4 h3.symm

/-! ### Discrete distributions: derivatives in the parameters -/

section discrete
variable {t : ℝ}

/-- **C120.** Bernoulli, derivative in the probability. -/
theorem C120_bernoulli {p : ℝ → ℝ} {dp : Dual XReal} (hp : Tracks p t dp) (h0 : 0 < p t) (h1 : p t < 1)
    {d : Bernoulli (Dual XReal)} (h : Bernoulli.new dp = .ok d) :
    Tracks (fun s => Real.log (p s)) t (logDensityWrtRoot d 1) ∧
    Tracks (fun s => Real.log (1 - p s)) t (logDensityWrtRoot d 0) := by
  unfold Bernoulli.new at h
  split_ifs at h
  obtain rfl := (Except.ok.inj h)
  exact ⟨hp.ln h0, ((Tracks.one t).sub hp).ln (by linarith)⟩

/-- **C120.** Geometric, derivative in the probability. -/
theorem C120_geometric {p : ℝ → ℝ} {dp : Dual XReal} (hp : Tracks p t dp) (h1 : p t < 1)
    {d : Geometric (Dual XReal)} (h : Geometric.new dp = .ok d) {k : ℕ} (hk : 1 ≤ k) :
    Tracks (fun s => Real.log ((1 - p s) ^ (k - 1) * p s)) t (logDensityWrtRoot d k) := by
  unfold Geometric.new at h
  split_ifs at h with hc
  obtain rfl := (Except.ok.inj h)
  rw [Bool.and_eq_true] at hc
  have h0 := Tracks.log_pos hp hc.1
  have key := (((ofNat k t).sub (Tracks.one t)).mul (((Tracks.one t).sub hp).ln (by linarith))).add (hp.ln h0)
  show Tracks _ t (if 1 ≤ k then _ else _)
  rw [if_pos hk]
  refine key.congr' (((hp.pos h0).and (hp.lt_const h1)).mono fun s ⟨hs, hs1⟩ => ?_)
  have : 0 < 1 - p s := by linarith
  rw [Real.log_mul (by positivity) hs.ne', Real.log_pow, Nat.cast_sub hk, Nat.cast_one]

/-- **C120.** Binomial (with respect to the binomial-coefficient measure, see C20), derivative in the
probability. -/
theorem C120_binomial {p : ℝ → ℝ} {dp : Dual XReal} (hp : Tracks p t dp) (h0 : 0 < p t) (h1 : p t < 1)
    {n : ℕ} {d : Binomial (Dual XReal)} (h : Binomial.new n dp = .ok d) {k : ℕ} (hk : k ≤ n) :
    Tracks (fun s => Real.log (p s ^ k * (1 - p s) ^ (n - k))) t (logDensityWrtRoot d k) := by
  unfold Binomial.new at h
  split_ifs at h
  obtain rfl := (Except.ok.inj h)
  have key := ((ofNat k t).mul (hp.ln h0)).add
    (((ofNat n t).sub (ofNat k t)).mul (((Tracks.one t).sub hp).ln (by linarith)))
  show Tracks _ t (if k ≤ n then _ else _)
  rw [if_pos hk]
  refine key.congr' (((hp.pos h0).and (hp.lt_const h1)).mono fun s ⟨hs, hs1⟩ => ?_)
  have : 0 < 1 - p s := by linarith
  rw [Real.log_mul (by positivity) (by positivity), Real.log_pow, Real.log_pow, Nat.cast_sub hk]

/-- **C120.** Negative binomial (with respect to its coefficient measure, see C21), derivative in the
probability. -/
theorem C120_negative_binomial {p : ℝ → ℝ} {dp : Dual XReal} (hp : Tracks p t dp)
    {r : ℕ} {d : NegativeBinomial (Dual XReal)} (h : NegativeBinomial.new r dp = .ok d) (k : ℕ) :
    Tracks (fun s => Real.log (p s ^ r * (1 - p s) ^ k)) t (logDensityWrtRoot d k) := by
  unfold NegativeBinomial.new at h
  split_ifs at h with hr hc
  obtain rfl := (Except.ok.inj h)
  rw [Bool.and_eq_true, Dual.lt_eq, hp.val] at hc
  have h0 := Tracks.log_pos hp hc.1
  have h1 : p t < 1 := by simpa [Dual.one_eq] using hc.2
  have key := ((ofNat r t).mul (hp.ln h0)).add ((ofNat k t).mul (((Tracks.one t).sub hp).ln (by linarith)))
  refine key.congr' (((hp.pos h0).and (hp.lt_const h1)).mono fun s ⟨hs, hs1⟩ => ?_)
  have : 0 < 1 - p s := by linarith
  rw [Real.log_mul (by positivity) (by positivity), Real.log_pow, Real.log_pow]

/-- **C120.** Poisson, derivative in the rate. -/
theorem C120_poisson {r : ℝ → ℝ} {dr : Dual XReal} (hr : Tracks r t dr)
    {d : Poisson (Dual XReal)} (h : Poisson.new dr = .ok d) (k : ℕ) :
    Tracks (fun s => Real.log (r s ^ k * Real.exp (-r s) / k.factorial)) t (logDensityWrtRoot d k) := by
  unfold Poisson.new at h
  split_ifs at h with hc
  obtain rfl := (Except.ok.inj h)
  have h0 := Tracks.log_pos hr hc
  have hf : Tracks (fun _ => Real.log k.factorial) t ((List.range' 1 k).foldl
      (fun acc i => acc +. FloatOps.ln (FloatOps.ofNat i : Dual XReal)) FloatOps.zero) := by
    have := Tracks.foldl_sum (t := t) (List.range' 1 k) (f := fun i _ => Real.log (i : ℝ))
      (d := fun i => FloatOps.ln (FloatOps.ofNat i)) (fun i hi => (ofNat i t).ln (by
        have := List.mem_range'_1.mp hi
        exact_mod_cast this.1)) (Tracks.zero t)
    rw [List.foldl_map] at this
    refine this.congr fun s => ?_
    clear this
    induction k with
    | zero => simp
    | succ k ih =>
      rw [List.range'_1_concat, List.map_append, List.sum_append, ← add_assoc, ← ih, Nat.factorial_succ,
        Nat.cast_mul, Real.log_mul (by positivity) (by positivity)]
      simp [add_comm]
  have key := (((ofNat k t).mul (hr.ln h0)).sub hr).sub hf
  refine key.congr' ((hr.pos h0).mono fun s hs => ?_)
  rw [Real.log_div (by positivity) (by positivity), Real.log_mul (by positivity) (by positivity), Real.log_pow,
    Real.log_exp]
  ring

/-- **C120.** Categorical, derivative in the probabilities. -/
theorem C120_categorical {ps : List (ℝ → ℝ)} {dps : List (Dual XReal)}
    (hp : List.Forall₂ (fun p dp => Tracks p t dp) ps dps) {d : Categorical (Dual XReal)}
    (h : Categorical.new dps = .ok d) {i : ℕ} (hi : i < ps.length) (h0 : 0 < ps[i] t) :
    Tracks (fun s => Real.log (ps[i] s)) t (logDensityWrtRoot d i) := by
  unfold Categorical.new at h
  split_ifs at h
  obtain rfl := (Except.ok.inj h)
  have hl := hp.length_eq
  have e : dps[i]? = some (dps[i]'(hl ▸ hi)) := List.getElem?_eq_getElem _
  have e' : (logDensityWrtRoot (⟨dps⟩ : Categorical (Dual XReal)) i : Dual XReal) =
      FloatOps.ln (dps[i]'(hl ▸ hi)) := by
    simp only [logDensityWrtRoot, e]
  rw [e']
  exact (hp.get hi (hl ▸ hi)).ln h0

end discrete

/-! ### The hypotheses are met -/

example : Normal.new ⟨fin 1, fin 1⟩ (Dual.const (fin 2)) = .ok
    (⟨⟨fin 1, fin 1⟩, Dual.const (fin 2)⟩ : Normal (Dual XReal)) := by
  simp [Normal.new, Dual.gt_eq, Dual.zero_eq, Dual.const]
example : Exponential.new ⟨fin 2, fin 1⟩ = .ok (⟨⟨fin 2, fin 1⟩⟩ : Exponential (Dual XReal)) := by
  simp [Exponential.new, Dual.gt_eq, Dual.zero_eq]
example : Gamma.new (Dual.const (fin 3)) ⟨fin 2, fin 1⟩ = .ok
    (⟨Dual.const (fin 3), ⟨fin 2, fin 1⟩⟩ : Gamma (Dual XReal)) := by
  simp [Gamma.new, Dual.gt_eq, Dual.zero_eq, Dual.const]
example : Cauchy.new ⟨fin 2, fin 1⟩ (Dual.const (fin 3)) = .ok
    (⟨⟨fin 2, fin 1⟩, Dual.const (fin 3)⟩ : Cauchy (Dual XReal)) := by
  simp [Cauchy.new, Dual.gt_eq, Dual.zero_eq, Dual.const]
example : StudentT.new (Dual.const (fin 3)) = .ok (⟨Dual.const (fin 3)⟩ : StudentT (Dual XReal)) := by
  simp [StudentT.new, Dual.gt_eq, Dual.zero_eq, Dual.const]
example : Bernoulli.new ⟨fin (1/2), fin 1⟩ = .ok (⟨⟨fin (1/2), fin 1⟩⟩ : Bernoulli (Dual XReal)) := by
  simp [Bernoulli.new, Dual.ge_eq, Dual.le_eq, Dual.zero_eq, Dual.one_eq]; norm_num
example : Geometric.new ⟨fin (1/2), fin 1⟩ = .ok (⟨⟨fin (1/2), fin 1⟩⟩ : Geometric (Dual XReal)) := by
  simp [Geometric.new, Dual.gt_eq, Dual.le_eq, Dual.zero_eq, Dual.one_eq]; norm_num
example : Binomial.new 5 ⟨fin (1/2), fin 1⟩ = .ok (⟨5, ⟨fin (1/2), fin 1⟩⟩ : Binomial (Dual XReal)) := by
  simp [Binomial.new, Dual.ge_eq, Dual.le_eq, Dual.zero_eq, Dual.one_eq]; norm_num
example : NegativeBinomial.new 5 ⟨fin (1/2), fin 1⟩ =
    .ok (⟨5, ⟨fin (1/2), fin 1⟩⟩ : NegativeBinomial (Dual XReal)) := by
  simp [NegativeBinomial.new, Dual.gt_eq, Dual.lt_eq, Dual.zero_eq, Dual.one_eq]; norm_num
example : Poisson.new ⟨fin 3, fin 1⟩ = .ok (⟨⟨fin 3, fin 1⟩⟩ : Poisson (Dual XReal)) := by
  simp [Poisson.new, Dual.gt_eq, Dual.zero_eq]
/-- moving mass from the second category to the first -/
example : List.Forall₂ (fun p dp => Tracks p (1/4) dp) [fun s => s, fun s => 1 - s]
      [⟨fin (1/4), fin 1⟩, ⟨fin (3/4), fin (-1)⟩] ∧
    ∃ d, Categorical.new [(⟨fin (1/4), fin 1⟩ : Dual XReal), ⟨fin (3/4), fin (-1)⟩] = .ok d := by
  refine ⟨.cons (Tracks.id _) (.cons ?_ .nil), ?_⟩
  · exact ⟨-1, by norm_num, by simpa using (hasDerivAt_id (1/4 : ℝ)).const_sub 1⟩
  · refine ⟨⟨[⟨fin (1/4), fin 1⟩, ⟨fin (3/4), fin (-1)⟩]⟩, ?_⟩
    have e : (FloatOps.abs (FloatOps.sum [(⟨fin (1/4), fin 1⟩ : Dual XReal), ⟨fin (3/4), fin (-1)⟩] -. FloatOps.one)
        <. FloatOps.ofRat (1/10^10)) = true := by
      show (FloatOps.abs (((fin 0 : XReal) +. fin (1/4) +. fin (3/4)) -. fin 1) <. FloatOps.ofRat (1/10^10)) = true
      simp
      norm_num
    simp only [Categorical.new]
    rw [if_neg (by simp), if_neg (by simp [Dual.ge_eq, Dual.zero_eq]; norm_num), if_pos e]

end Verif
