import Verif.Props.AutodiffMore

/-!
# C120: automatic differentiation through the exponential-family formulas
-/

namespace Verif
open FloatOps XReal Spec Filter Topology ProbabilityTheory ExponentialFamily
open Verif.Spec.Tracks (const ofRat ofNat)

variable {t : ℝ}

theorem dot_range {F : Type} [FloatOps F] (n : ℕ) (a b : ℕ → F) :
    dot ((List.range n).map a) ((List.range n).map b) = FloatOps.sum ((List.range n).map fun j => a j *. b j) := by
  rw [dot, FloatOps.sum, List.zip_map', List.foldl_map, List.foldl_map]

theorem sumSufficientStats_range {F X : Type} [FloatOps F] (n : ℕ) (xs : List X) (T : X → ℕ → F) :
    sumSufficientStats n (xs.map fun x => (List.range n).map (T x)) =
      (List.range n).map fun j => FloatOps.sum (xs.map fun x => T x j) := by
  have key : ∀ (xs : List X) (acc : ℕ → F),
      (xs.map fun x => (List.range n).map (T x)).foldl (fun sum stat => List.zipWith FloatOps.add sum stat)
        ((List.range n).map acc) =
      (List.range n).map fun j => (xs.map fun x => T x j).foldl FloatOps.add (acc j) := by
    intro xs
    induction xs with
    | nil => intro acc; rfl
    | cons x xs ih =>
      intro acc
      rw [List.map_cons, List.foldl_cons]
      have e : List.zipWith FloatOps.add ((List.range n).map acc) ((List.range n).map (T x)) =
          (List.range n).map fun j => acc j +. T x j := by
        rw [List.zipWith_map, List.zipWith_self]
      rw [e, ih]
      rfl
  rw [sumSufficientStats]
  have := key xs (fun _ => FloatOps.zero)
  rw [List.map_const', List.length_range] at this
  exact this

theorem sum_exchange {X : Type} (n : ℕ) (xs : List X) (η : ℕ → ℝ) (T : X → ℕ → ℝ) (A : ℝ) (B : X → ℝ) :
    (xs.map fun x => ((List.range n).map fun j => η j * T x j).sum - A + B x).sum =
      ((List.range n).map fun j => η j * (xs.map fun x => T x j).sum).sum - xs.length * A + (xs.map B).sum := by
  induction xs with
  | nil => simp
  | cons x xs ih =>
    simp only [List.map_cons, List.sum_cons, List.length_cons, ih]
    have e : ((List.range n).map fun j => η j * (T x j + (xs.map fun x => T x j).sum)).sum =
        ((List.range n).map fun j => η j * T x j).sum +
          ((List.range n).map fun j => η j * (xs.map fun x => T x j).sum).sum := by
      rw [← List.sum_map_add]
      congr 1
      exact List.map_congr_left fun j _ => by ring
    rw [e]
    push_cast
    ring

section generic
variable {D X ι : Type} [ExponentialFamily D X (Dual XReal)] {d : D} {n : ℕ} {η : ℕ → ℝ → ℝ} {dη : ℕ → Dual XReal}
  {A : ℝ → ℝ} {dA : Dual XReal}

/-- The exponential-family formula for a whole sample. -/
theorem exp_fam_iid_tracks {T : ι → ℕ → ℝ → ℝ} {dT : X → ℕ → Dual XReal} {B : ι → ℝ → ℝ} [ArrayStat D]
    (hdim : ArrayStat.dim D = n) (hη : ∀ j, Tracks (η j) t (dη j))
    (hA : Tracks A t dA) (hnp : naturalAndLogPartition d = ((List.range n).map dη, dA)) (is : List ι) (pt : ι → X)
    (hT : ∀ i ∈ is, ∀ j, Tracks (T i j) t (dT (pt i) j))
    (hst : ∀ x, sufficientStatistic d x = (List.range n).map (dT x))
    (hB : ∀ i ∈ is, Tracks (B i) t (baseLogDensity d (pt i))) :
    Tracks (fun s => (is.map fun i => ((List.range n).map fun j => η j s * T i j s).sum - A s + B i s).sum) t
      (computeIidExpFamLogDensity d (is.map pt)) := by
  unfold computeIidExpFamLogDensity
  by_cases hx : is = []
  · subst hx
    exact Tracks.zero t
  rw [if_neg (by simpa using hx)]
  simp only [hnp, hdim]
  have e : ((is.map pt).map (sufficientStatistic d)) = is.map fun i => (List.range n).map (dT (pt i)) := by
    rw [List.map_map]
    exact List.map_congr_left fun x _ => hst _
  rw [e, sumSufficientStats_range n is (fun i => dT (pt i)), dot_range, List.map_map, List.length_map]
  have h1 := Tracks.sum (t := t) (List.range n) (f := fun j s => η j s * (is.map fun x => T x j s).sum)
    (d := fun j => dη j *. FloatOps.sum (is.map fun x => dT (pt x) j))
    (fun j _ => (hη j).mul (Tracks.sum is fun x hx => hT x hx j))
  have h2 := Tracks.sum (t := t) is hB
  exact ((h1.sub ((ofNat is.length t).mul hA)).add h2).congr fun s =>
    sum_exchange n is (fun j => η j s) (fun x j => T x j s) (A s) (fun x => B x s)

/-- The exponential-family formula at a point. -/
theorem exp_fam_tracks {T : ℕ → ℝ → ℝ} {dT : ℕ → Dual XReal} {B : ℝ → ℝ} (hη : ∀ j, Tracks (η j) t (dη j)) (hA : Tracks A t dA)
    (hnp : naturalAndLogPartition d = ((List.range n).map dη, dA)) {x : X}
    (hT : ∀ j, Tracks (T j) t (dT j)) (hst : sufficientStatistic d x = (List.range n).map dT)
    (hB : Tracks B t (baseLogDensity d x)) :
    Tracks (fun s => ((List.range n).map fun j => η j s * T j s).sum - A s + B s) t
      (expFamLogDensityDefault (naturalAndLogPartition d) (sufficientStatistic d x) (baseLogDensity d x)) := by
  rw [hnp, hst]
  show Tracks _ t ((dot _ _ -. _) +. _)
  rw [dot_range]
  exact ((Tracks.sum (List.range n) fun j _ => (hη j).mul (hT j)).sub hA).add hB

end generic

/-! ### Normal -/

section normal
variable {μ σ : ℝ → ℝ} {dμ dσ : Dual XReal}

theorem normal_inv (hσ : Tracks σ t dσ) (h0 : 0 < σ t) :
    Tracks (fun s => 1 / (σ s * σ s)) t (recip (dσ *. dσ)) :=
  (Tracks.one t).div (hσ.mul hσ) (mul_pos h0 h0).ne'

theorem normal_formula {s m x : ℝ} (hs : 0 < s) :
    Real.log (gaussianPDFReal m (s ^ 2).toNNReal x) =
      m * (1 / (s * s)) * x + ((-1/2 : ℚ) : ℝ) * (1 / (s * s)) * (x * x) -
      (Real.log (((2 : ℚ) : ℝ) * Real.pi * (s * s)) * ((1/2 : ℚ) : ℝ) + ((1/2 : ℚ) : ℝ) * (m * m) * (1 / (s * s))) := by
  have e := (C09_normal_density (μ := m) (σ := s) (d := ⟨fin m, fin s⟩) (by simp [Normal.new, hs])).1 x
  rw [Normal.ld hs, density_fin] at e
  rw [← e, Real.log_exp]
  push_cast
  have hp := Real.pi_pos
  have e2 : Real.log (2 * Real.pi * (s * s)) = Real.log (2 * Real.pi) + 2 * Real.log s := by
    rw [Real.log_mul (by positivity) (by positivity), Real.log_mul hs.ne' hs.ne']
    ring
  rw [e2]
  field_simp
  ring

/-- **C120.** Normal through its exponential-family formula, at a point and for a sample. -/
theorem C120_normal_exp_fam (hμ : Tracks μ t dμ) (hσ : Tracks σ t dσ) {d : Normal (Dual XReal)}
    (h : Normal.new dμ dσ = .ok d) :
    (∀ (x : ℝ → ℝ) (dx : Dual XReal), Tracks x t dx →
      Tracks (fun s => Real.log (gaussianPDFReal (μ s) (σ s ^ 2).toNNReal (x s))) t (expFamLogDensity d dx)) ∧
    (∀ ps : List ((ℝ → ℝ) × Dual XReal), (∀ p ∈ ps, Tracks p.1 t p.2) →
      Tracks (fun s => (ps.map fun p => Real.log (gaussianPDFReal (μ s) (σ s ^ 2).toNNReal (p.1 s))).sum) t
        (logDensityWrtRoot (IID.mk d) (ps.map (·.2)))) := by
  unfold Normal.new at h
  split_ifs at h with h0
  obtain rfl := (Except.ok.inj h)
  have h0' := Tracks.log_pos hσ h0
  have hinv := normal_inv hσ h0'
  have hA := (((((ofRat 2 t).mul (Tracks.pi t)).mul (hσ.mul hσ)).ln (by
    have := Real.pi_pos
    have h2 : (0 : ℝ) < ((2 : ℚ) : ℝ) := by norm_num
    positivity)).mul (ofRat (1/2) t)).add (((ofRat (1/2) t).mul (hμ.mul hμ)).mul hinv)
  have h1 := hμ.mul hinv
  have h2 := (ofRat (-1/2) t).mul hinv
  have hη : ∀ j, Tracks ((fun j : ℕ => if j = 0 then fun s => μ s * (1 / (σ s * σ s))
        else fun s => ((-1/2 : ℚ) : ℝ) * (1 / (σ s * σ s))) j) t
      ((fun j : ℕ => if j = 0 then dμ *. recip (dσ *. dσ) else FloatOps.ofRat (-1/2) *. recip (dσ *. dσ)) j) := by
    intro j
    by_cases hj : j = 0
    · simp only [hj, if_true]; exact h1
    · simp only [hj, if_false]; exact h2
  have hT : ∀ (x : ℝ → ℝ) (dx : Dual XReal), Tracks x t dx → ∀ j : ℕ,
      Tracks (if j = 0 then x else fun s => x s * x s) t (if j = 0 then dx else dx *. dx) := by
    intro x dx hx j
    by_cases hj : j = 0
    · simp only [hj, if_true]; exact hx
    · simp only [hj, if_false]; exact hx.mul hx
  constructor
  · intro x dx hx
    have key := exp_fam_tracks (D := Normal (Dual XReal)) (d := ⟨dμ, dσ⟩) (n := 2) hη hA rfl (x := dx)
      (hT x dx hx) rfl (Tracks.zero t)
    refine Tracks.congr' key ((hσ.pos h0').mono fun s hs => ?_)
    rw [normal_formula hs]
    simp [List.range_succ]
  · intro ps hp
    have key := exp_fam_iid_tracks (D := Normal (Dual XReal)) (d := ⟨dμ, dσ⟩) (n := 2) rfl hη hA rfl
      ps (·.2) (T := fun p j => if j = 0 then p.1 else fun s => p.1 s * p.1 s)
      (dT := fun dx j => if j = 0 then dx else dx *. dx) (fun p h => hT p.1 p.2 (hp p h)) (fun _ => rfl)
      (B := fun _ _ => 0) (fun _ _ => Tracks.zero t)
    refine Tracks.congr' key ((hσ.pos h0').mono fun s hs => ?_)
    refine congrArg List.sum (List.map_congr_left fun p _ => ?_)
    rw [normal_formula hs]
    simp [List.range_succ]

/-- the hypotheses are met: derivative in the standard deviation at `σ = 2` -/
example : Tracks (fun _ => 1) 2 (Dual.const (fin 1)) ∧ Tracks (fun s => s) 2 ⟨fin 2, fin 1⟩ ∧
    Normal.new (Dual.const (fin 1)) ⟨fin 2, fin 1⟩ = .ok (⟨Dual.const (fin 1), ⟨fin 2, fin 1⟩⟩ : Normal (Dual XReal)) :=
  ⟨const 1 2, Tracks.id 2, by simp [Normal.new, Dual.gt_eq, Dual.zero_eq, Dual.const]⟩

end normal

/-! ### Poisson -/

theorem ln2_tracks (t : ℝ) : Tracks (fun _ => Real.log 2) t (FloatOps.ln2 : Dual XReal) :=
  const (Real.log 2) t

/-- `log_factorial` of dual numbers is a constant. -/
theorem logFactorial_tracks (k : ℕ) (t : ℝ) :
    ∃ c : ℝ, Tracks (fun _ => c) t (logFactorial k : Dual XReal) := by
  unfold logFactorial
  by_cases hk : k ≤ 20
  · rw [if_pos hk]
    interval_cases k <;> first | exact ⟨_, ofRat _ t⟩ | exact ⟨_, ln2_tracks t⟩
  · rw [if_neg hk, stirlingLogFactorialPrecise, if_neg (by omega)]
    have h0 : (0 : ℝ) < (k : ℝ) := by
      have : 0 < k := by omega
      exact_mod_cast this
    have hkf := ofNat k t
    have hi := (ofRat 1 t).div hkf h0.ne'
    have hi2 := hi.mul hi
    have hi3 := hi2.mul hi
    have hi5 := hi3.mul hi2
    have hi7 := hi5.mul hi2
    exact ⟨_, (((hkf.mul (hkf.ln h0)).sub hkf).add ((ofRat (1/2) t).mul ((((ofRat 2 t).mul (Tracks.pi t)).mul hkf).ln
      (by have := Real.pi_pos; have h2 : (0 : ℝ) < ((2 : ℚ) : ℝ) := by norm_num
          positivity)))).add
      ((((hi.mul (ofRat (1/12) t)).sub (hi3.mul (ofRat (1/360) t))).add (hi5.mul (ofRat (1/1260) t))).sub
        (hi7.mul (ofRat (1/1680) t)))⟩

/-- **C120.** Poisson, a sample: the derivative in the rate of `iid_log_density` is that of the log-likelihood.
(The value differs from the log-likelihood by the error `c` of the code's approximate factorials, which does not
depend on the rate.) -/
theorem C120_poisson_iid {r : ℝ → ℝ} {dr : Dual XReal} (hr : Tracks r t dr)
    {d : Poisson (Dual XReal)} (h : Poisson.new dr = .ok d) (ks : List ℕ) :
    ∃ c : ℝ, Tracks (fun s => (ks.map fun k : ℕ => Real.log (r s ^ k * Real.exp (-r s) / k.factorial)).sum + c) t
      (logDensityWrtRoot (IID.mk d) ks) := by
  unfold Poisson.new at h
  split_ifs at h with hc
  obtain rfl := (Except.ok.inj h)
  have h0 := Tracks.log_pos hr hc
  choose c hc using fun k => logFactorial_tracks k t
  have key := exp_fam_iid_tracks (D := Poisson (Dual XReal)) (d := ⟨dr⟩) (n := 1) rfl (η := fun _ s => Real.log (r s))
    (dη := fun _ => FloatOps.ln dr) (fun _ => hr.ln h0) hr rfl ks id (T := fun (k : ℕ) _ _ => (k : ℝ))
    (dT := fun k _ => FloatOps.ofNat k) (fun k _ _ => ofNat k t) (fun _ => rfl) (B := fun k _ => -c k)
    (fun k _ => (hc k).neg)
  rw [List.map_id] at key
  refine ⟨(ks.map fun k : ℕ => Real.log k.factorial - c k).sum, Tracks.congr' key ((hr.pos h0).mono fun s hs => ?_)⟩
  rw [← List.sum_map_add]
  refine congrArg List.sum (List.map_congr_left fun k _ => ?_)
  have h2 : Real.log (r s ^ k * Real.exp (-r s) / k.factorial) =
      k * Real.log (r s) - r s - Real.log k.factorial := by
    rw [Real.log_div (by positivity) (by positivity), Real.log_mul (by positivity) (by positivity), Real.log_pow,
      Real.log_exp]
    ring
  rw [h2]
  simp [List.range_succ]
  ring

example : Poisson.new ⟨fin 3, fin 1⟩ = .ok (⟨⟨fin 3, fin 1⟩⟩ : Poisson (Dual XReal)) := by
  simp [Poisson.new, Dual.gt_eq, Dual.zero_eq]

/-! ### Further violations -/

/-- **C120** is violated for the degrees of freedom of a chi-squared distribution. -/
theorem C120_chi_squared_violated :
    ∃ d : ChiSquared (Dual XReal), ChiSquared.new ⟨fin 2, fin 1⟩ = .ok d ∧
      ¬ Tracks (fun k => Real.log (gammaPDFReal (k / 2) (1 / 2) 2)) 2 (logDensityWrtRoot d (Dual.const (fin 2))) := by
  have hn : ChiSquared.new (⟨fin 2, fin 1⟩ : Dual XReal) = .ok ⟨⟨fin 2, fin 1⟩⟩ := by
    simp [ChiSquared.new, Dual.gt_eq, Dual.zero_eq]
  refine ⟨_, hn, fun ht => ?_⟩
  have hp := C120_chi_squared_partial (Tracks.id 2) (const 2 2) two_pos hn
  obtain ⟨a, e1, h1⟩ := ht
  obtain ⟨b, e2, h2⟩ := hp
  rw [e1] at e2
  have hab : a = b := XReal.fin.inj (congrArg Dual.der e2)
  subst hab
  have hG : HasDerivAt (fun s => Real.log (Real.Gamma (s / 2)))
      (-Real.eulerMascheroniConstant * (1 / 2) / Real.Gamma (2 / 2)) 2 := by
    have h1 : HasDerivAt Real.Gamma (-Real.eulerMascheroniConstant) (2 / 2 : ℝ) := by
      rw [div_self two_ne_zero]; exact Real.hasDerivAt_Gamma_one
    have h0 : HasDerivAt (fun s : ℝ => s / 2) (1 / 2) 2 := (hasDerivAt_id (2 : ℝ)).div_const 2
    have h3 := HasDerivAt.comp (h := fun s : ℝ => s / 2) (2 : ℝ) h1 h0
    exact h3.log (by simp)
  have h4 : HasDerivAt (fun s => Real.log (Real.Gamma (s / 2)) - Real.log (Real.Gamma (2 / 2))) (a - a) (2 : ℝ) := by
    refine (h2.sub h1).congr_of_eventuallyEq (Eventually.of_forall fun s => ?_)
    simp
  have h5 := h4.unique (hG.sub_const _)
  have h6 := Real.one_half_lt_eulerMascheroniConstant
  simp at h5
  linarith

/-- **C120** is violated for the parameters of a Beta distribution. -/
theorem C120_beta_violated :
    ∃ d : Beta (Dual XReal), Beta.new ⟨fin 1, fin 1⟩ (Dual.const (fin 1)) = .ok d ∧
      ¬ Tracks (fun α => Real.log (betaPDFReal α 1 (1/2))) 1 (logDensityWrtRoot d (Dual.const (fin (1/2)))) := by
  have hn : Beta.new (⟨fin 1, fin 1⟩ : Dual XReal) (Dual.const (fin 1)) = .ok ⟨⟨fin 1, fin 1⟩, Dual.const (fin 1)⟩ := by
    simp [Beta.new, Dual.gt_eq, Dual.zero_eq, Dual.const]
  refine ⟨_, hn, fun ht => ?_⟩
  have hp := C120_beta_partial (Tracks.id 1) (const 1 1) (const (1/2) 1) (by norm_num) (by norm_num) hn
  obtain ⟨a, e1, h1⟩ := ht
  obtain ⟨b, e2, h2⟩ := hp
  rw [e1] at e2
  have hab : a = b := XReal.fin.inj (congrArg Dual.der e2)
  subst hab
  have h4 : HasDerivAt (fun s => -Real.log s) (a - a) (1 : ℝ) := by
    refine (h2.sub h1).congr_of_eventuallyEq ?_
    filter_upwards [lt_mem_nhds (one_pos : (0 : ℝ) < 1)] with s hs
    have : Real.log (Real.Gamma (s + 1)) = Real.log s + Real.log (Real.Gamma s) := by
      rw [Real.Gamma_add_one hs.ne', Real.log_mul hs.ne' (Real.Gamma_pos_of_pos hs).ne']
    have e2 : Real.Gamma (1 + 1) = 1 := by rw [Real.Gamma_add_one one_ne_zero, Real.Gamma_one, mul_one]
    simp only [Pi.sub_apply, this, Real.Gamma_one, e2, Real.log_one]
    ring
  have h5 := h4.unique (Real.hasDerivAt_log one_ne_zero).neg
  norm_num at h5

/-- With `f64` itself as the generic type the conversions do nothing: this is the code as modelled elsewhere. -/
theorem studentT_via_self {F : Type} [FloatOps F] (d : StudentT F) (x : F) (xs : List F) :
    d.logPdfVia F x = d.logPdf x ∧ d.logDensityIidVia F xs = d.logDensityIid xs := ⟨rfl, rfl⟩

theorem studentT_log_pdf {ν : ℝ} (hν : 0 < ν) (s : ℝ) : Real.log (studentTPDFReal ν s) =
      Real.log (Real.Gamma ((ν + 1)/2)) - Real.log (Real.Gamma (ν/2))
        - 1/2 * Real.log (ν * Real.pi) + -((ν + 1)/2) * Real.log (1 + s * s / ν) := by
  have e := (C15_student_t_density (ν := ν) (d := ⟨fin ν⟩) (by simp [StudentT.new, hν])).1 s
  rw [StudentT.ld hν, density_fin] at e
  rw [← e, Real.log_exp]

/-- **C120.** Student's t, a point and a sample: the value is right and the derivative is that of a constant,
whatever derivatives the inputs carry.  Missing: the derivative, see `C120_student_t_violated`. -/
theorem C120_student_t_partial {ν : ℝ → ℝ} {dν : Dual XReal} (hν : Tracks ν t dν) {d : StudentT (Dual XReal)}
    (h : StudentT.new dν = .ok d) :
    (∀ (x : ℝ → ℝ) (dx : Dual XReal), Tracks x t dx →
      Tracks (fun _ => Real.log (studentTPDFReal (ν t) (x t))) t (d.logPdfVia XReal dx)) ∧
    (∀ ps : List ((ℝ → ℝ) × Dual XReal), (∀ p ∈ ps, Tracks p.1 t p.2) →
      Tracks (fun _ => (ps.map fun p => Real.log (studentTPDFReal (ν t) (p.1 t))).sum) t
        (d.logDensityIidVia XReal (ps.map (·.2)))) := by
  unfold StudentT.new at h
  split_ifs at h with h1
  obtain rfl := (Except.ok.inj h)
  have h0 := Tracks.log_pos hν h1
  have hp : ∀ x : ℝ, 0 < 1 + x * x / ν t := fun x =>
    add_pos_of_pos_of_nonneg one_pos (div_nonneg (mul_self_nonneg x) h0.le)
  constructor
  · intro x dx hx
    have e : (⟨dν⟩ : StudentT (Dual XReal)).logPdfVia XReal dx =
        Dual.const ((⟨dν.val⟩ : StudentT XReal).logPdf dx.val) := rfl
    rw [e, hν.val, hx.val]
    have := StudentT.ld h0 (x := x t)
    rw [show (⟨fin (ν t)⟩ : StudentT XReal).logPdf (fin (x t)) = logDensityWrtRoot (⟨fin (ν t)⟩ : StudentT XReal) (fin (x t))
      from rfl, this, studentT_log_pdf h0]
    exact const _ t
  · intro ps hps
    have hpar : Tracks (fun _ => Real.log (Real.Gamma ((ν t + 1)/2)) - Real.log (Real.Gamma (ν t/2))
        - 1/2 * Real.log (ν t * Real.pi)) t (Dual.const (FloatOps.lnGamma (midpoint dν.val FloatOps.one) -.
          FloatOps.lnGamma (dν.val /. FloatOps.ofRat 2) -. FloatOps.ofRat (1/2) *. FloatOps.ln (dν.val *. FloatOps.pi))) := by
      rw [hν.val]
      have h2 : 0 < ν t * Real.pi := mul_pos h0 Real.pi_pos
      have e : (FloatOps.lnGamma (midpoint (fin (ν t)) FloatOps.one) -.
          FloatOps.lnGamma (fin (ν t) /. FloatOps.ofRat 2) -.
          FloatOps.ofRat (1/2) *. FloatOps.ln (fin (ν t) *. FloatOps.pi) : XReal) =
          fin (Real.log (Real.Gamma ((ν t + 1)/2)) - Real.log (Real.Gamma (ν t/2))
            - 1/2 * Real.log (ν t * Real.pi)) := by
        simp [midpoint_fin, f_div _ _ (two_ne_zero (α := ℝ)), f_ln _ h2,
          f_lnGamma ((ν t+1)/2) (by positivity), f_lnGamma (ν t/2) (by positivity)]
      rw [e]
      exact const _ t
    have hmix : ∀ p ∈ ps, Tracks (fun _ => -((ν t + 1)/2) * Real.log (1 + p.1 t * p.1 t / ν t)) t
        (Dual.const (FloatOps.neg (midpoint dν.val FloatOps.one) *.
          FloatOps.ln (FloatOps.one +. p.2.val *. p.2.val /. dν.val))) := by
      intro p hpm
      rw [hν.val, (hps p hpm).val]
      have e : (FloatOps.neg (midpoint (fin (ν t)) FloatOps.one) *.
          FloatOps.ln (FloatOps.one +. fin (p.1 t) *. fin (p.1 t) /. fin (ν t)) : XReal) =
          fin (-((ν t + 1)/2) * Real.log (1 + p.1 t * p.1 t / ν t)) := by
        simp [midpoint_fin, f_div _ _ h0.ne', f_ln _ (hp (p.1 t))]
      rw [e]
      exact const _ t
    have hz : ∀ p ∈ ps, Tracks (fun _ => (0 : ℝ)) t (FloatOps.zero : Dual XReal) := fun _ _ => Tracks.zero t
    have key := (((Tracks.sum ps hz).add ((ofNat ps.length t).mul ((Tracks.zero t).add hpar))).add
      (Tracks.sum ps fun p h => (Tracks.zero t).add (hmix p h))).add ((ofNat ps.length t).mul (Tracks.zero t))
    unfold StudentT.logDensityIidVia Decomposition.evaluateIid
    simp only [List.map_map, List.length_map]
    refine Tracks.congr key fun s => ?_
    simp only [studentT_log_pdf h0]
    rw [list_sum_const_add ps (fun p => -((ν t + 1)/2) * Real.log (1 + p.1 t * p.1 t / ν t))]
    simp

example : StudentT.new ⟨fin 3, fin 1⟩ = .ok (⟨⟨fin 3, fin 1⟩⟩ : StudentT (Dual XReal)) := by
  simp [StudentT.new, Dual.gt_eq, Dual.zero_eq]

end Verif
