import Verif.Props.Sufficient
import Verif.Props.Continuous
import Verif.Props.Discrete
import Verif.Spec.Likelihood

/-!
# C116: the joint log-density is largest at the textbook estimate
-/

namespace Verif
open FloatOps XReal Spec ExponentialFamily

/-! ### Two inequalities -/

/-- `A ln r - B r` is largest at `r = A / B`. -/
theorem rate_max {A B r : ℝ} (hA : 0 < A) (hB : 0 < B) (hr : 0 < r) (hne : r ≠ A / B) :
    A * Real.log r - B * r < A * Real.log (A / B) - B * (A / B) := by
  have ht : r * B / A ≠ 1 := by
    intro h
    apply hne
    field_simp at h ⊢
    exact h
  have h := Real.log_lt_sub_one_of_pos (by positivity : 0 < r * B / A) ht
  have e : Real.log (r * B / A) = Real.log r - Real.log (A / B) := by
    rw [← Real.log_div hr.ne' (by positivity)]
    congr 1
    field_simp
  rw [e] at h
  have h2 := mul_lt_mul_of_pos_left h hA
  have e2 : A * (r * B / A - 1) = B * r - A := by field_simp
  have e3 : B * (A / B) = A := by field_simp
  rw [e2] at h2
  rw [e3]
  linarith

/-- `A ln p + B ln (1 - p)` is largest at `p = A / (A + B)`. -/
theorem prob_max {A B p : ℝ} (hA : 0 < A) (hB : 0 < B) (h0 : 0 < p) (h1 : p < 1) (hne : p ≠ A / (A + B)) :
    A * Real.log p + B * Real.log (1 - p) < A * Real.log (A / (A + B)) + B * Real.log (1 - A / (A + B)) := by
  have hq : 0 < 1 - p := by linarith
  have eq' : 1 - A / (A + B) = B / (A + B) := by field_simp; ring
  rw [eq']
  have ht : p * (A + B) / A ≠ 1 := by
    intro h
    apply hne
    field_simp at h ⊢
    exact h
  have h := Real.log_lt_sub_one_of_pos (by positivity : 0 < p * (A + B) / A) ht
  have h' := Real.log_le_sub_one_of_pos (by positivity : 0 < (1 - p) * (A + B) / B)
  have e : Real.log (p * (A + B) / A) = Real.log p - Real.log (A / (A + B)) := by
    rw [← Real.log_div h0.ne' (by positivity)]
    congr 1
    field_simp
  have e' : Real.log ((1 - p) * (A + B) / B) = Real.log (1 - p) - Real.log (B / (A + B)) := by
    rw [← Real.log_div hq.ne' (by positivity)]
    congr 1
    field_simp
  rw [e] at h
  rw [e'] at h'
  have h2 := mul_lt_mul_of_pos_left h hA
  have h2' := mul_le_mul_of_nonneg_left h' hB.le
  have e2 : A * (p * (A + B) / A - 1) = p * (A + B) - A := by field_simp
  have e2' : B * ((1 - p) * (A + B) / B - 1) = (1 - p) * (A + B) - B := by field_simp
  rw [e2] at h2
  rw [e2'] at h2'
  linarith

/-! ### Sums -/

theorem sum_sq_split (xs : List ℝ) (hx : xs ≠ []) (m : ℝ) :
    (xs.map (fun x => (x - m) ^ 2)).sum = xs.length * sampleVar xs + xs.length * (sampleMean xs - m) ^ 2 := by
  have hn : (0:ℝ) < xs.length := by exact_mod_cast List.length_pos_iff.mpr hx
  have key : ∀ (c : ℝ) (l : List ℝ), (l.map (fun x => (x - m) ^ 2)).sum
      = (l.map (fun x => (x - c) ^ 2)).sum + 2 * (c - m) * (l.sum - l.length * c) + l.length * (c - m) ^ 2 := by
    intro c l
    induction l with
    | nil => simp
    | cons y l ih => simp only [List.map_cons, List.sum_cons, ih, List.length_cons]; push_cast; ring
  rw [key (sampleMean xs)]
  have e : (xs.map (fun x => (x - sampleMean xs) ^ 2)).sum = xs.length * sampleVar xs := by
    rw [sampleVar]; field_simp
  have e' : xs.sum - xs.length * sampleMean xs = 0 := by
    rw [sampleMean]; field_simp; ring
  rw [e, e']
  ring

theorem normal_iid_value {μ σ : ℝ} {d : Normal XReal} (h : Normal.new (fin μ) (fin σ) = .ok d) (xs : List ℝ)
    (hx : xs ≠ []) : (IID.ofDist d).iidLogDensity (xs.map fin)
      = fin (xs.length * (-(1/2) * Real.log (2 * Real.pi) - Real.log σ
        - (sampleVar xs + (sampleMean xs - μ) ^ 2) / (2 * σ ^ 2))) := by
  have hd := C28_iid_is_sum_partial.1 μ σ d h
  obtain ⟨hσ, rfl⟩ := Normal.new_ok h
  rw [iid_of_terms hd (support := fun _ => True) (fun x _ => Normal.ef hσ) (by simp)]
  congr 1
  have e : ∀ (c k : ℝ) (l : List ℝ), (l.map (fun x => c - Real.log σ - 1/2 * ((x - μ)/σ) * ((x - μ)/σ))).sum
      = l.length * (c - Real.log σ) - (l.map (fun x => (x - μ) ^ 2)).sum / (2 * σ ^ 2) := by
    intro c k l
    induction l with
    | nil => simp
    | cons y l ih =>
      simp only [List.map_cons, List.sum_cons, ih, List.length_cons]
      push_cast
      field_simp
      ring
  rw [e _ 0, sum_sq_split xs hx]
  ring

/-! ### The families -/

/-- **C116** (normal): with known scale the joint log-density of any nonempty sample is largest exactly at
the sample mean; with both parameters free, at the sample mean and the root of the mean squared deviation
(when the sample is not constant). -/
theorem C116_normal (xs : List ℝ) (hx : xs ≠ []) :
    (∀ σ : ℝ, 0 < σ → MaximisedAt (fun μ => Normal.new (fin μ) (fin σ)) (fun _ => True)
      (fun d => (IID.ofDist d).iidLogDensity (xs.map fin)) (sampleMean xs)) ∧
    (0 < sampleVar xs → MaximisedAt (fun p : ℝ × ℝ => Normal.new (fin p.1) (fin p.2)) (fun _ => True)
      (fun d => (IID.ofDist d).iidLogDensity (xs.map fin)) (sampleMean xs, √(sampleVar xs))) := by
  have hn : (0:ℝ) < xs.length := by exact_mod_cast List.length_pos_iff.mpr hx
  constructor
  · intro σ hσ
    have hok : ∀ μ, Normal.new (fin μ) (fin σ) = .ok ⟨fin μ, fin σ⟩ := fun μ => by simp [Normal.new, hσ]
    refine ⟨_, _, trivial, hok _, normal_iid_value (hok _) xs hx, fun μ e _ he hne => ?_⟩
    refine ⟨_, normal_iid_value he xs hx, ?_⟩
    apply mul_lt_mul_of_pos_left _ hn
    have : 0 < (sampleMean xs - μ) ^ 2 := by
      have := sub_ne_zero.mpr (Ne.symm hne)
      positivity
    have h2 : (sampleVar xs + (sampleMean xs - sampleMean xs) ^ 2) / (2 * σ ^ 2)
        < (sampleVar xs + (sampleMean xs - μ) ^ 2) / (2 * σ ^ 2) := by
      apply div_lt_div_of_pos_right _ (by positivity)
      rw [sub_self]
      linarith
    linarith
  · intro hv
    have hs : 0 < √(sampleVar xs) := Real.sqrt_pos.mpr hv
    have hok : Normal.new (fin (sampleMean xs)) (fin (√(sampleVar xs)))
        = .ok ⟨fin (sampleMean xs), fin (√(sampleVar xs))⟩ := by simp [Normal.new, hv]
    refine ⟨_, _, trivial, hok, normal_iid_value hok xs hx, fun p e _ he hne => ?_⟩
    obtain ⟨μ, σ⟩ := p
    obtain ⟨hσ, -⟩ := Normal.new_ok he
    refine ⟨_, normal_iid_value he xs hx, ?_⟩
    apply mul_lt_mul_of_pos_left _ hn
    rw [Real.sq_sqrt hv.le, sub_self]
    dsimp only at hσ he ⊢
    generalize sampleMean xs = m at hne ⊢
    generalize sampleVar xs = v at hv hs hne ⊢
    have e1 : (v + 0 ^ 2) / (2 * v) = 1 / 2 := by field_simp; ring
    rw [e1]
    have el : Real.log (v / σ ^ 2) = 2 * Real.log (√v) - 2 * Real.log σ := by
      rw [Real.log_div hv.ne' (by positivity), Real.log_pow, Real.log_sqrt hv.le]
      push_cast
      ring
    have e2 : (v + (m - μ) ^ 2) / (2 * σ ^ 2) = (v / σ ^ 2) / 2 + (m - μ) ^ 2 / (2 * σ ^ 2) := by field_simp
    rw [e2]
    have hq : 0 ≤ (m - μ) ^ 2 / (2 * σ ^ 2) := by positivity
    by_cases hvs : v / σ ^ 2 = 1
    · have hσv : σ = √v := by
        have : v = σ ^ 2 := by field_simp at hvs; exact hvs
        rw [this, Real.sqrt_sq hσ.le]
      have hμ : μ ≠ m := fun h => hne (by rw [h, hσv])
      have hq : 0 < (m - μ) ^ 2 / (2 * σ ^ 2) := by
        have := sub_ne_zero.mpr (Ne.symm hμ)
        positivity
      rw [hvs] at el ⊢
      rw [Real.log_one] at el
      linarith
    · have := Real.log_lt_sub_one_of_pos (by positivity : 0 < v / σ ^ 2) hvs
      rw [el] at this
      linarith

theorem poisson_iid_value {r : ℝ} {d : Poisson XReal} (h : Poisson.new (fin r) = .ok d) (ks : List ℕ) :
    (IID.ofDist d).iidLogDensity ks = fin (ks.sum * Real.log r - ks.length * r
      - (ks.map (fun k => (C38_log_factorial_accurate k).choose)).sum) := by
  have hd := C28_iid_is_sum_partial.2.2.2.2.2.2.2.2.2.2 r d h
  obtain ⟨hr, rfl⟩ := Poisson.new_ok h
  have hv : ∀ k : ℕ, True → expFamLogDensity (⟨fin r⟩ : Poisson XReal) (id k)
      = fin (k * Real.log r - r - (C38_log_factorial_accurate k).choose) := by
    intro k _
    obtain ⟨v, e, hv⟩ : ∃ v, (C38_log_factorial_accurate k).choose = v ∧ logFactorial k = fin v :=
      ⟨_, rfl, (C38_log_factorial_accurate k).choose_spec.1⟩
    rw [e]
    simp only [id, expFamLogDensity, expFamLogDensityDefault, f_ln _ hr, f_ofNat, logDensityWrtRoot, hv,
      f_neg, dot_one_fin, f_add, f_sub]
    congr 1
    ring
  have := iid_of_terms hd (support := fun _ => True) hv (ys := ks) (by simp)
  rw [List.map_id] at this
  rw [this]
  congr 1
  clear this
  induction ks with
  | nil => simp
  | cons k ks ih => simp only [List.map_cons, List.sum_cons, ih, List.length_cons]; push_cast; ring

/-- **C116** (Poisson): the joint log-density is largest exactly at the sample mean. -/
theorem C116_poisson (ks : List ℕ) (h : 0 < ks.sum) :
    MaximisedAt (fun r => Poisson.new (fin r)) (fun _ => True) (fun d => (IID.ofDist d).iidLogDensity ks)
      (ks.sum / ks.length) := by
  have hn : (0:ℝ) < ks.length := by
    cases ks with
    | nil => simp at h
    | cons k ks => simp only [List.length_cons]; positivity
  have hs : (0:ℝ) < ks.sum := by exact_mod_cast h
  have hok : Poisson.new (fin ((ks.sum : ℝ) / ks.length)) = .ok ⟨fin (ks.sum / ks.length)⟩ := by
    have : 0 < (ks.sum : ℝ) / ks.length := by positivity
    generalize (ks.sum : ℝ) / ks.length = q at this
    simp [Poisson.new, this]
  refine ⟨_, _, trivial, hok, poisson_iid_value hok ks, fun r e _ he hne => ⟨_, poisson_iid_value he ks, ?_⟩⟩
  have := rate_max hs hn (Poisson.new_ok he).1 hne
  linarith

/-- **C116** (Bernoulli and binomial): the joint log-density is largest exactly at the observed
proportion, among probabilities strictly between 0 and 1. -/
theorem C116_proportion :
    (∀ xs : List UInt8, (∀ x ∈ xs, x.toNat ≤ 1) → 0 < (xs.map UInt8.toNat).sum →
      (xs.map UInt8.toNat).sum < xs.length →
      MaximisedAt (fun p => Bernoulli.new (fin p)) (fun p => 0 < p ∧ p < 1)
        (fun d => (IID.ofDist d).iidLogDensity xs) ((xs.map UInt8.toNat).sum / xs.length)) ∧
    (∀ (n : ℕ) (ks : List ℕ), (∀ k ∈ ks, k ≤ n) → 0 < ks.sum → ks.sum < n * ks.length →
      MaximisedAt (fun p => Binomial.new n (fin p)) (fun p => 0 < p ∧ p < 1)
        (fun d => (IID.ofDist d).iidLogDensity ks) (ks.sum / (n * ks.length))) := by
  constructor
  · intro xs _ h0 h1
    have hs : (0:ℝ) < (xs.map UInt8.toNat).sum := by exact_mod_cast h0
    have hs1 : ((xs.map UInt8.toNat).sum : ℝ) < xs.length := by exact_mod_cast h1
    have hn : (0:ℝ) < xs.length := hs.trans hs1
    have val : ∀ {p : ℝ} {d : Bernoulli XReal}, 0 < p ∧ p < 1 → Bernoulli.new (fin p) = .ok d →
        (IID.ofDist d).iidLogDensity xs = fin ((xs.map UInt8.toNat).sum * Real.log p
          + (xs.length - (xs.map UInt8.toNat).sum) * Real.log (1 - p)) := by
      intro p d ⟨h0, h1⟩ hd
      have hI := C28_iid_is_sum_partial.2.2.2.2.2.2.1 p d hd h0.ne' h1.ne
      obtain ⟨-, rfl⟩ := Bernoulli.new_ok hd
      have := iid_of_terms hI (sample := id) (support := fun _ => True) (fun x _ => Bernoulli.ef h0 h1 x)
        (ys := xs) (by simp)
      rw [List.map_id] at this
      rw [this]
      congr 1
      clear this hs hs1 hn
      generalize xs = l
      induction l with
      | nil => simp
      | cons k ks ih => simp only [List.map_cons, List.sum_cons, ih, List.length_cons]; push_cast; ring
    have hin : 0 < ((xs.map UInt8.toNat).sum : ℝ) / xs.length ∧ ((xs.map UInt8.toNat).sum : ℝ) / xs.length < 1 :=
      ⟨by positivity, by rw [div_lt_one hn]; exact hs1⟩
    have hok : ∀ q : ℝ, 0 < q ∧ q < 1 → Bernoulli.new (fin q) = .ok ⟨fin q⟩ := fun q hq => by
      simp [Bernoulli.new, hq.1.le, hq.2.le]
    replace hok := hok _ hin
    refine ⟨_, _, hin, hok, val hin hok, fun p e hp he hne => ⟨_, val hp he, ?_⟩⟩
    have e1 : ((xs.map UInt8.toNat).sum : ℝ) + (xs.length - (xs.map UInt8.toNat).sum) = xs.length := by ring
    have := prob_max hs (sub_pos.mpr hs1) hp.1 hp.2 (by rwa [e1])
    rwa [e1] at this
  · intro n ks hk h0 h1
    have hs : (0:ℝ) < ks.sum := by exact_mod_cast h0
    have hs1 : (ks.sum : ℝ) < n * ks.length := by exact_mod_cast h1
    have hn : (0:ℝ) < n * ks.length := hs.trans hs1
    have val : ∀ {p : ℝ} {d : Binomial XReal}, 0 < p ∧ p < 1 → Binomial.new n (fin p) = .ok d →
        (IID.ofDist d).iidLogDensity ks = fin (ks.sum * Real.log p
          + (n * ks.length - ks.sum) * Real.log (1 - p) + (ks.map (fun k => Real.log (n.choose k))).sum) := by
      intro p d ⟨h0, h1⟩ hd
      have hI := C28_iid_is_sum_partial.2.2.2.2.2.2.2.1 n p d hd h0.ne' h1.ne
      obtain ⟨-, rfl⟩ := Binomial.new_ok hd
      have := iid_of_terms hI (sample := id) (support := fun k => k ≤ n) (fun x hx => Binomial.ef h0 h1 hx)
        (ys := ks) hk
      rw [List.map_id] at this
      rw [this]
      congr 1
      clear this hs hs1 hn hk
      generalize ks = l
      induction l with
      | nil => simp
      | cons k ks ih =>
        simp only [id] at ih
        simp only [List.map_cons, List.sum_cons, ih, List.length_cons, id]
        push_cast
        ring
    have hin : 0 < (ks.sum : ℝ) / (n * ks.length) ∧ (ks.sum : ℝ) / (n * ks.length) < 1 :=
      ⟨by positivity, by rw [div_lt_one hn]; exact hs1⟩
    have hok : ∀ q : ℝ, 0 < q ∧ q < 1 → Binomial.new n (fin q) = .ok ⟨n, fin q⟩ := fun q hq => by
      simp [Binomial.new, hq.1.le, hq.2.le]
    replace hok := hok _ hin
    refine ⟨_, _, hin, hok, val hin hok, fun p e hp he hne => ⟨_, val hp he, ?_⟩⟩
    have e1 : (ks.sum : ℝ) + (n * ks.length - ks.sum) = n * ks.length := by ring
    have := prob_max hs (sub_pos.mpr hs1) hp.1 hp.2 (by rwa [e1])
    rw [e1] at this
    linarith

/-- **C116** (gamma): with known shape the joint log-density is largest exactly at the rate
`shape / mean`. -/
theorem C116_gamma (a : ℝ) (ha : 0 < a) (xs : List ℝ) (hx : xs ≠ []) (hp : ∀ x ∈ xs, 0 < x) :
    MaximisedAt (fun b => Gamma.new (fin a) (fin b)) (fun _ => True)
      (fun d => (IID.ofDist d).iidLogDensity (xs.map fin)) (a / sampleMean xs) := by
  have hn : (0:ℝ) < xs.length := by exact_mod_cast List.length_pos_iff.mpr hx
  have hs : 0 < xs.sum := List.sum_pos _ hp hx
  have val : ∀ {b : ℝ} {d : Gamma XReal}, Gamma.new (fin a) (fin b) = .ok d →
      (IID.ofDist d).iidLogDensity (xs.map fin) = fin (xs.length * a * Real.log b - xs.sum * b
        + ((a - 1) * (xs.map Real.log).sum - xs.length * Real.log (Real.Gamma a))) := by
    intro b d hd
    have hI := C28_iid_is_sum_partial.2.2.2.1 a b d hd
    obtain ⟨-, hb, rfl⟩ := Gamma.new_ok hd
    rw [iid_of_terms hI (support := fun x => 0 < x) (fun x hx => Gamma.ef ha hb hx) hp]
    congr 1
    clear hs hn hp hx
    generalize xs = l
    induction l with
    | nil => simp
    | cons k ks ih => simp only [List.map_cons, List.sum_cons, ih, List.length_cons]; push_cast; ring
  have e : a / sampleMean xs = xs.length * a / xs.sum := by rw [sampleMean]; field_simp
  have hb : 0 < a / sampleMean xs := by rw [e]; positivity
  have hok : Gamma.new (fin a) (fin (a / sampleMean xs)) = .ok ⟨fin a, fin (a / sampleMean xs)⟩ := by
    simp [Gamma.new, ha, hb]
  refine ⟨_, _, trivial, hok, val hok, fun b d _ hd hne => ⟨_, val hd, ?_⟩⟩
  rw [e] at hne ⊢
  have := rate_max (by positivity) hs (Gamma.new_ok hd).2.1 hne
  linarith

theorem fallback_of_terms {D X Y : Type} [HasLogDensity D X XReal] {d : D} {sample : Y → X} {support : Y → Prop}
    {v : Y → ℝ} (h : ∀ y, support y → logDensityWrtRoot d (sample y) = fin (v y)) {ys : List Y}
    (hy : ∀ y ∈ ys, support y) :
    (IID.ofDist d).iidLogDensityFallback (ys.map sample) = fin (ys.map v).sum := by
  show FloatOps.sum ((ys.map sample).map fun x => logDensityWrtRoot d x) = _
  rw [List.map_map]
  have : ys.map ((fun x => logDensityWrtRoot d x) ∘ sample) = (ys.map v).map fin := by
    rw [List.map_map]
    exact List.map_congr_left fun y hm => h y (hy y hm)
  rw [this, f_sum]

/-- **C116** (exponential, geometric and negative binomial, by the sum of direct log-densities): largest
exactly at one over the mean, and at `r / (r + mean)`. -/
theorem C116_direct_sum :
    (∀ xs : List ℝ, (∀ x ∈ xs, 0 ≤ x) → 0 < xs.sum →
      MaximisedAt (fun r => Exponential.new (fin r)) (fun _ => True)
        (fun d => (IID.ofDist d).iidLogDensityFallback (xs.map fin)) (1 / sampleMean xs)) ∧
    (∀ ks : List ℕ, (∀ k ∈ ks, 1 ≤ k) → ks.length < ks.sum →
      MaximisedAt (fun p => Geometric.new (fin p)) (fun p => p < 1)
        (fun d => (IID.ofDist d).iidLogDensityFallback ks) (ks.length / ks.sum)) ∧
    (∀ (r : ℕ) (ks : List ℕ), 0 < r → 0 < ks.sum →
      MaximisedAt (fun p => NegativeBinomial.new r (fin p)) (fun _ => True)
        (fun d => (IID.ofDist d).iidLogDensityFallback ks) (r * ks.length / (r * ks.length + ks.sum))) := by
  refine ⟨fun xs hx hs => ?_, fun ks hk hs => ?_, fun r ks hr hs => ?_⟩
  · have hn : (0:ℝ) < xs.length := by
      cases xs with
      | nil => simp at hs
      | cons k ks => simp only [List.length_cons]; positivity
    have val : ∀ {r : ℝ} {d : Exponential XReal}, Exponential.new (fin r) = .ok d →
        (IID.ofDist d).iidLogDensityFallback (xs.map fin) = fin (xs.length * Real.log r - xs.sum * r) := by
      intro r d hd
      obtain ⟨hr, rfl⟩ := Exponential.new_ok hd
      rw [fallback_of_terms (support := fun x => 0 ≤ x) (fun x hx => Exponential.ld_of_nonneg hr hx) hx]
      congr 1
      clear hs hn hx
      generalize xs = l
      induction l with
      | nil => simp
      | cons k ks ih => simp only [List.map_cons, List.sum_cons, ih, List.length_cons]; push_cast; ring
    have e : 1 / sampleMean xs = xs.length / xs.sum := by rw [sampleMean]; field_simp
    have hb : 0 < 1 / sampleMean xs := by rw [e]; positivity
    have hok : Exponential.new (fin (1 / sampleMean xs)) = .ok ⟨fin (1 / sampleMean xs)⟩ := by
      simp only [Exponential.new, f_gt, f_zero, hb, decide_true, if_true]
    refine ⟨_, _, trivial, hok, val hok, fun r d _ hd hne => ⟨_, val hd, ?_⟩⟩
    rw [e] at hne ⊢
    exact rate_max hn hs (Exponential.new_ok hd).1 hne
  · have hs1 : (ks.length : ℝ) < ks.sum := by exact_mod_cast hs
    have hn : (0:ℝ) < ks.length := by
      cases ks with
      | nil => simp at hs
      | cons k ks => simp only [List.length_cons]; positivity
    have val : ∀ {p : ℝ} {d : Geometric XReal}, p < 1 → Geometric.new (fin p) = .ok d →
        (IID.ofDist d).iidLogDensityFallback ks
          = fin (ks.length * Real.log p + (ks.sum - ks.length) * Real.log (1 - p)) := by
      intro p d h1 hd
      obtain ⟨⟨h0, -⟩, rfl⟩ := Geometric.new_ok hd
      have := fallback_of_terms (sample := id) (support := fun k => 1 ≤ k)
        (fun k hk => Geometric.ld_of_pos h0 h1 hk) hk
      rw [List.map_id] at this
      rw [this]
      congr 1
      clear this hs hn hk hs1
      generalize ks = l
      induction l with
      | nil => simp
      | cons k ks ih =>
        simp only [id] at ih
        simp only [List.map_cons, List.sum_cons, ih, List.length_cons, id]
        push_cast
        ring
    have e1 : (ks.length : ℝ) + (ks.sum - ks.length) = ks.sum := by ring
    have hspos : (0:ℝ) < ks.sum := hn.trans hs1
    have hb0 : 0 < (ks.length : ℝ) / ks.sum := by positivity
    have hb1 : (ks.length : ℝ) / ks.sum < 1 := by rw [div_lt_one hspos]; exact hs1
    have hok : ∀ q : ℝ, 0 < q → q < 1 → Geometric.new (fin q) = .ok ⟨fin q⟩ := fun q h0 h1 => by
      simp [Geometric.new, h0, h1.le]
    replace hok := hok _ hb0 hb1
    refine ⟨_, _, hb1, hok, val hb1 hok, fun p d hp hd hne => ⟨_, val hp hd, ?_⟩⟩
    have := prob_max hn (sub_pos.mpr hs1) (Geometric.new_ok hd).1.1 hp (by rwa [e1])
    rwa [e1] at this
  · have hs1 : (0:ℝ) < ks.sum := by exact_mod_cast hs
    have hr' : (0:ℝ) < r := by exact_mod_cast hr
    have hn : (0:ℝ) < ks.length := by
      cases ks with
      | nil => simp at hs
      | cons k ks => simp only [List.length_cons]; positivity
    have val : ∀ {p : ℝ} {d : NegativeBinomial XReal}, NegativeBinomial.new r (fin p) = .ok d →
        (IID.ofDist d).iidLogDensityFallback ks
          = fin (r * ks.length * Real.log p + ks.sum * Real.log (1 - p)) := by
      intro p d hd
      obtain ⟨-, ⟨h0, h1⟩, rfl⟩ := NegativeBinomial.new_ok hd
      have := fallback_of_terms (sample := id) (support := fun _ => True)
        (fun k _ => NegativeBinomial.ld (r := r) (k := k) h0 h1) (ys := ks) (by simp)
      rw [List.map_id] at this
      rw [this]
      congr 1
      clear this hs hn hs1
      generalize ks = l
      induction l with
      | nil => simp
      | cons k ks ih => simp only [List.map_cons, List.sum_cons, ih, List.length_cons]; push_cast; ring
    have hrn : (0:ℝ) < r * ks.length := by positivity
    have hb0 : 0 < (r * ks.length : ℝ) / (r * ks.length + ks.sum) := by positivity
    have hb1 : (r * ks.length : ℝ) / (r * ks.length + ks.sum) < 1 := by
      rw [div_lt_one (by positivity)]; linarith
    have hok : ∀ q : ℝ, 0 < q → q < 1 → NegativeBinomial.new r (fin q) = .ok ⟨r, fin q⟩ := fun q h0 h1 => by
      simp [NegativeBinomial.new, h0, h1, hr]
    replace hok := hok _ hb0 hb1
    refine ⟨_, _, trivial, hok, val hok, fun p d _ hd hne => ⟨_, val hd, ?_⟩⟩
    exact prob_max hrn hs1 (NegativeBinomial.new_ok hd).2.1.1 (NegativeBinomial.new_ok hd).2.1.2 hne

/-- **C116** fails for `iid_log_density` of the exponential and geometric families, whose
exponential-family form has a wrong normalisation (C24): for every nonempty exponential sample the value grows
without a maximum as the rate goes to zero, and for every geometric sample it is largest at
`1 / (1 + mean)` instead of `1 / mean`. -/
theorem C116_exp_fam_violated :
    (∀ xs : List ℝ, xs ≠ [] → (∀ x ∈ xs, 0 ≤ x) → ¬ ∃ best, MaximisedAt (fun r => Exponential.new (fin r))
      (fun _ => True) (fun d => (IID.ofDist d).iidLogDensity (xs.map fin)) best) ∧
    (∀ ks : List ℕ, (∀ k ∈ ks, 1 ≤ k) → ks.length < ks.sum →
      MaximisedAt (fun p => Geometric.new (fin p)) (fun p => p < 1)
        (fun d => (IID.ofDist d).iidLogDensity ks) (ks.length / (ks.length + ks.sum)) ∧
      ¬ MaximisedAt (fun p => Geometric.new (fin p)) (fun p => p < 1)
        (fun d => (IID.ofDist d).iidLogDensity ks) (ks.length / ks.sum)) := by
  constructor
  · rintro xs hx hp ⟨r, d, v, -, hd, hv, hmax⟩
    have hn : (0:ℝ) < xs.length := by exact_mod_cast List.length_pos_iff.mpr hx
    have hs : 0 ≤ xs.sum := List.sum_nonneg hp
    have val : ∀ {r : ℝ} {d : Exponential XReal}, Exponential.new (fin r) = .ok d →
        (IID.ofDist d).iidLogDensity (xs.map fin) = fin (-(xs.length * Real.log r) - xs.sum * r) := by
      intro r d hd
      have hI := C28_iid_is_sum_partial.2.2.1 r d hd
      obtain ⟨hr, rfl⟩ := Exponential.new_ok hd
      rw [iid_of_terms hI (support := fun _ => True) (fun x _ => Exponential.ef hr) (by simp)]
      congr 1
      clear hs hn hp hx hmax hv
      generalize xs = l
      induction l with
      | nil => simp
      | cons k ks ih => simp only [List.map_cons, List.sum_cons, ih, List.length_cons]; push_cast; ring
    have hr : 0 < r := (Exponential.new_ok hd).1
    have hok : Exponential.new (fin (r / 2)) = .ok ⟨fin (r / 2)⟩ := by simp [Exponential.new, hr]
    obtain ⟨u, hu, hlt⟩ := hmax (r / 2) _ trivial hok (by linarith)
    dsimp only at hu hv
    rw [val hok] at hu
    rw [val hd] at hv
    cases hu
    cases hv
    have h1 : Real.log (r / 2) < Real.log r := Real.log_lt_log (by positivity) (by linarith)
    have h2 := mul_lt_mul_of_pos_left h1 hn
    have h3 : xs.sum * (r / 2) ≤ xs.sum * r := mul_le_mul_of_nonneg_left (by linarith) hs
    linarith
  · intro ks hk hs
    have hs1 : (ks.length : ℝ) < ks.sum := by exact_mod_cast hs
    have hn : (0:ℝ) < ks.length := by
      cases ks with
      | nil => simp at hs
      | cons k ks => simp only [List.length_cons]; positivity
    have hspos : (0:ℝ) < ks.sum := hn.trans hs1
    have val : ∀ {p : ℝ} {d : Geometric XReal}, p < 1 → Geometric.new (fin p) = .ok d →
        (IID.ofDist d).iidLogDensity ks
          = fin (ks.length * Real.log p + ks.sum * Real.log (1 - p)) := by
      intro p d h1 hd
      have hI := C28_iid_is_sum_partial.2.2.2.2.2.2.2.2.1 p d hd h1.ne
      obtain ⟨⟨h0, -⟩, rfl⟩ := Geometric.new_ok hd
      have := iid_of_terms hI (sample := id) (support := fun _ => True)
        (fun k _ => Geometric.ef h0 h1 k) (ys := ks) (by simp)
      rw [List.map_id] at this
      rw [this]
      congr 1
      clear this hs hn hk hs1 hspos
      generalize ks = l
      induction l with
      | nil => simp
      | cons k ks ih => simp only [List.map_cons, List.sum_cons, ih, List.length_cons]; push_cast; ring
    have hb0 : 0 < (ks.length : ℝ) / (ks.length + ks.sum) := by positivity
    have hb1 : (ks.length : ℝ) / (ks.length + ks.sum) < 1 := by rw [div_lt_one (by positivity)]; linarith
    have hok : ∀ q : ℝ, 0 < q → q < 1 → Geometric.new (fin q) = .ok ⟨fin q⟩ := fun q h0 h1 => by
      simp [Geometric.new, h0, h1.le]
    replace hok := hok _ hb0 hb1
    have main : MaximisedAt (fun p => Geometric.new (fin p)) (fun p => p < 1)
        (fun d => (IID.ofDist d).iidLogDensity ks) (ks.length / (ks.length + ks.sum)) := by
      refine ⟨_, _, hb1, hok, val hb1 hok, fun p d hp hd hne => ⟨_, val hp hd, ?_⟩⟩
      exact prob_max hn hspos (Geometric.new_ok hd).1.1 hp hne
    refine ⟨main, fun h2 => ?_⟩
    obtain ⟨d1, v1, hr1, ok1, val1, max1⟩ := main
    obtain ⟨d2, v2, hr2, ok2, val2, max2⟩ := h2
    have hne : (ks.length : ℝ) / (ks.length + ks.sum) ≠ ks.length / ks.sum := by
      intro h
      field_simp at h
      linarith
    obtain ⟨u, hu, hlt⟩ := max2 _ _ hr1 ok1 hne
    obtain ⟨u', hu', hlt'⟩ := max1 _ _ hr2 ok2 hne.symm
    rw [val1] at hu
    rw [val2] at hu'
    cases hu
    cases hu'
    linarith

/-- **C116** fails for `iid_log_density` of the negative binomial: the value is largest at the average divided by `r`
when that is below 1, instead of at `r` divided by `r` plus the average, and for larger averages it has no maximum. -/
theorem C116_negative_binomial_violated (r : ℕ) (ks : List ℕ) (hr : 0 < r) (h0 : 0 < ks.sum) :
    (ks.sum < r * ks.length →
      MaximisedAt (fun p => NegativeBinomial.new r (fin p)) (fun _ => True)
        (fun d => (IID.ofDist d).iidLogDensity ks) (ks.sum / (r * ks.length)) ∧
      ((ks.sum : ℝ) / (r * ks.length) ≠ r * ks.length / (r * ks.length + ks.sum) →
        ¬ MaximisedAt (fun p => NegativeBinomial.new r (fin p)) (fun _ => True)
          (fun d => (IID.ofDist d).iidLogDensity ks) (r * ks.length / (r * ks.length + ks.sum)))) ∧
    (r * ks.length ≤ ks.sum → ¬ ∃ best, MaximisedAt (fun p => NegativeBinomial.new r (fin p)) (fun _ => True)
      (fun d => (IID.ofDist d).iidLogDensity ks) best) := by
  have hs : (0:ℝ) < ks.sum := by exact_mod_cast h0
  have hn : (0:ℝ) < ks.length := by
    cases ks with
    | nil => simp at h0
    | cons k ks => simp only [List.length_cons]; positivity
  have hr' : (0:ℝ) < r := by exact_mod_cast hr
  have val : ∀ {p : ℝ} {d : NegativeBinomial XReal}, NegativeBinomial.new r (fin p) = .ok d →
      (IID.ofDist d).iidLogDensity ks = fin (ks.sum * Real.log p + (r * ks.length - ks.sum) * Real.log (1 - p)
        + (ks.map (fun k => Real.log ((k + r - 1).choose k))).sum) := by
    intro p d hd
    have hI := C28_iid_is_sum_partial.2.2.2.2.2.2.2.2.2.1 r p d hd
    obtain ⟨-, ⟨h0, h1⟩, rfl⟩ := NegativeBinomial.new_ok hd
    have := iid_of_terms hI (sample := id) (support := fun _ => True)
      (v := fun k : ℕ => k * Real.log p + (r - k) * Real.log (1 - p) + Real.log ((k + r - 1).choose k))
      (fun k _ => by rw [id, NegativeBinomial.ef hr h0 h1]; congr 1; ring) (ys := ks) (by simp)
    rw [List.map_id] at this
    rw [this]
    congr 1
    clear this hs hn h0 hI
    generalize ks = l
    induction l with
    | nil => simp
    | cons k ks ih => simp only [List.map_cons, List.sum_cons, ih, List.length_cons]; push_cast; ring
  have hok : ∀ q : ℝ, 0 < q → q < 1 → NegativeBinomial.new r (fin q) = .ok ⟨r, fin q⟩ := fun q h0 h1 => by
    simp [NegativeBinomial.new, h0, h1, hr]
  refine ⟨fun h1 => ?_, fun h1 => ?_⟩
  · have hs1 : (ks.sum : ℝ) < r * ks.length := by exact_mod_cast h1
    have hrn : (0:ℝ) < r * ks.length := hs.trans hs1
    have hb0 : 0 < (ks.sum : ℝ) / (r * ks.length) := by positivity
    have hb1 : (ks.sum : ℝ) / (r * ks.length) < 1 := by rw [div_lt_one hrn]; exact hs1
    have main : MaximisedAt (fun p => NegativeBinomial.new r (fin p)) (fun _ => True)
        (fun d => (IID.ofDist d).iidLogDensity ks) (ks.sum / (r * ks.length)) := by
      refine ⟨_, _, trivial, hok _ hb0 hb1, val (hok _ hb0 hb1), fun p e _ he hne => ⟨_, val he, ?_⟩⟩
      obtain ⟨-, ⟨hp0, hp1⟩, -⟩ := NegativeBinomial.new_ok he
      have e1 : (ks.sum : ℝ) + (r * ks.length - ks.sum) = r * ks.length := by ring
      have := prob_max hs (sub_pos.mpr hs1) hp0 hp1 (by rwa [e1])
      rw [e1] at this
      linarith
    refine ⟨main, fun hne h2 => ?_⟩
    obtain ⟨d1, v1, hr1, ok1, val1, max1⟩ := main
    obtain ⟨d2, v2, hr2, ok2, val2, max2⟩ := h2
    obtain ⟨u, hu, hlt⟩ := max2 _ _ hr1 ok1 hne
    obtain ⟨u', hu', hlt'⟩ := max1 _ _ hr2 ok2 hne.symm
    rw [val1] at hu
    rw [val2] at hu'
    cases hu
    cases hu'
    linarith
  · have hs1 : (r * ks.length : ℝ) ≤ ks.sum := by exact_mod_cast h1
    rintro ⟨p, d, v, -, hd, hv, hmax⟩
    obtain ⟨-, ⟨hp0, hp1⟩, -⟩ := NegativeBinomial.new_ok hd
    obtain ⟨u, hu, hlt⟩ := hmax ((p + 1) / 2) _ trivial (hok _ (by linarith) (by linarith)) (by linarith)
    have hv := (val hd).symm.trans hv
    have hu := (val (hok _ (by linarith) (by linarith))).symm.trans hu
    cases hv
    cases hu
    have a : Real.log p < Real.log ((p + 1) / 2) := Real.log_lt_log hp0 (by linarith)
    have b : Real.log (1 - (p + 1) / 2) ≤ Real.log (1 - p) := Real.log_le_log (by linarith) (by linarith)
    have c := mul_lt_mul_of_pos_left a hs
    have e := mul_le_mul_of_nonpos_left b (sub_nonpos.mpr hs1)
    linarith

/-- both cases occur: with `r = 3` the sample 1, 1 and the sample 3, 4 -/
example : (0 < ([1, 1] : List ℕ).sum ∧ ([1, 1] : List ℕ).sum < 3 * ([1, 1] : List ℕ).length ∧
      ((([1, 1] : List ℕ).sum : ℕ) : ℝ) / ((3 : ℕ) * ([1, 1] : List ℕ).length)
        ≠ (3 : ℕ) * ([1, 1] : List ℕ).length / ((3 : ℕ) * ([1, 1] : List ℕ).length + ([1, 1] : List ℕ).sum)) ∧
    3 * ([3, 4] : List ℕ).length ≤ ([3, 4] : List ℕ).sum := by
  refine ⟨⟨by decide, by decide, ?_⟩, by decide⟩
  norm_num

/-- the hypotheses are met: a sample that is not constant -/
example : ∃ xs : List ℝ, xs ≠ [] ∧ 0 < sampleVar xs ∧ ∀ x ∈ xs, 0 < x :=
  ⟨[1, 3], by simp, by simp [sampleVar, sampleMean]; norm_num, by simp⟩
example : ∃ ks : List ℕ, (∀ k ∈ ks, 1 ≤ k) ∧ ks.length < ks.sum ∧ ks.sum < 3 * ks.length ∧ ∀ k ∈ ks, k ≤ 3 :=
  ⟨[1, 3], by decide⟩
example : ∃ xs : List UInt8, (∀ x ∈ xs, x.toNat ≤ 1) ∧ 0 < (xs.map UInt8.toNat).sum ∧
    (xs.map UInt8.toNat).sum < xs.length := ⟨[0, 1, 1], by decide⟩

end Verif
