import Verif.Props.Iid
import Verif.Spec.Sufficient

/-!
# C115: the summed statistics are sufficient
-/

namespace Verif
open FloatOps XReal Spec ExponentialFamily

theorem iid_of_terms {D X Y : Type} [ExponentialFamily D X XReal] [ArrayStat D] {d : D} (hd : IidIsSum d)
    {sample : Y → X} {support : Y → Prop} {v : Y → ℝ}
    (h : ∀ y, support y → expFamLogDensity d (sample y) = fin (v y)) {ys : List Y} (hy : ∀ y ∈ ys, support y) :
    (IID.ofDist d).iidLogDensity (ys.map sample) = fin (ys.map v).sum := by
  rw [hd, List.map_map]
  have : ys.map ((fun x => expFamLogDensity d x) ∘ sample) = (ys.map v).map fin := by
    rw [List.map_map]
    exact List.map_congr_left fun y hm => h y (hy y hm)
  rw [this, f_sum]

theorem Sufficient.of_terms {D X Y V : Type} [AddCommMonoid V] [ExponentialFamily D X XReal] [ArrayStat D]
    {accepted : D → Prop} {sample : Y → X} {support : Y → Prop} {T : Y → V} (h : Y → ℝ)
    (hs : ∀ d, accepted d → IidIsSum d)
    (hv : ∀ d, accepted d → ∃ (a : V →+ ℝ) (c : ℝ), ∀ y, support y →
      expFamLogDensity d (sample y) = fin (a (T y) + c + h y)) :
    Sufficient accepted sample support T := by
  classical
  refine ⟨fun d n t => if hd : accepted d then (hv d hd).choose t + n * (hv d hd).choose_spec.choose else 0,
    fun ys => (ys.map h).sum, fun d hd ys hy => ?_⟩
  dsimp only
  rw [dif_pos hd, iid_of_terms (hs d hd) (hv d hd).choose_spec.choose_spec hy]
  congr 1
  generalize (hv d hd).choose_spec.choose = c
  generalize (hv d hd).choose = a
  clear hy
  induction ys with
  | nil => simp
  | cons y ys ih =>
    simp only [List.map_cons, List.sum_cons, ih, List.length_cons, map_add]
    push_cast
    ring

/-- `(s, t) ↦ a s + b t` -/
noncomputable def lin2 (a b : ℝ) : ℝ × ℝ →+ ℝ :=
  (AddMonoidHom.mulLeft a).comp (AddMonoidHom.fst ℝ ℝ) + (AddMonoidHom.mulLeft b).comp (AddMonoidHom.snd ℝ ℝ)

theorem lin2_apply (a b s t : ℝ) : lin2 a b (s, t) = a * s + b * t := rfl

/-- `n ↦ a n` -/
noncomputable def lin1 (a : ℝ) : ℕ →+ ℝ := (AddMonoidHom.mulLeft a).comp (Nat.castAddMonoidHom ℝ)

theorem lin1_apply (a : ℝ) (n : ℕ) : lin1 a n = a * n := rfl

/-- **C115** (continuous families): the sum and sum of squares for the normal family, the sum for the
exponential, the sum and sum of logarithms for the gamma, the sums of `ln x` and `ln (1 - x)` for the beta,
the sum of logarithms for the chi-squared family are sufficient. -/
theorem C115_continuous :
    Sufficient (fun d : Normal XReal => ∃ μ σ, Normal.new (fin μ) (fin σ) = .ok d) fin (fun _ => True)
      (fun x : ℝ => (x, x ^ 2)) ∧
    Sufficient (fun d : Exponential XReal => ∃ r, Exponential.new (fin r) = .ok d) fin (fun _ => True)
      (fun x : ℝ => x) ∧
    Sufficient (fun d : Gamma XReal => ∃ a b, Gamma.new (fin a) (fin b) = .ok d) fin (fun x => 0 < x)
      (fun x : ℝ => (x, Real.log x)) ∧
    Sufficient (fun d : Beta XReal => ∃ a b, Beta.new (fin a) (fin b) = .ok d) fin (fun x => 0 < x ∧ x < 1)
      (fun x : ℝ => (Real.log x, Real.log (1 - x))) ∧
    Sufficient (fun d : ChiSquared XReal => ∃ k, ChiSquared.new (fin k) = .ok d) fin (fun x => 0 < x)
      (fun x : ℝ => Real.log x) := by
  obtain ⟨s1, -, s2, s3, s4, s5, -⟩ := C28_iid_is_sum_partial
  refine ⟨?_, ?_, ?_, ?_, ?_⟩
  · refine Sufficient.of_terms (fun _ => 0) (fun d ⟨μ, σ, h⟩ => s1 μ σ d h) ?_
    rintro d ⟨μ, σ, h⟩
    obtain ⟨hσ, rfl⟩ := Normal.new_ok h
    refine ⟨lin2 (μ / σ ^ 2) (-1 / (2 * σ ^ 2)),
      -(1/2) * Real.log (2 * Real.pi) - Real.log σ - μ ^ 2 / (2 * σ ^ 2), fun x _ => ?_⟩
    rw [Normal.ef hσ, lin2_apply]
    congr 1
    field_simp
    ring
  · refine Sufficient.of_terms (fun _ => 0) (fun d ⟨r, h⟩ => s2 r d h) ?_
    rintro d ⟨r, h⟩
    obtain ⟨hr, rfl⟩ := Exponential.new_ok h
    refine ⟨AddMonoidHom.mulLeft (-r), -Real.log r, fun x _ => ?_⟩
    rw [Exponential.ef hr, AddMonoidHom.coe_mulLeft]
    congr 1
    ring
  · refine Sufficient.of_terms (fun _ => 0) (fun d ⟨a, b, h⟩ => s3 a b d h) ?_
    rintro d ⟨a, b, h⟩
    obtain ⟨ha, hb, rfl⟩ := Gamma.new_ok h
    refine ⟨lin2 (-b) (a - 1), a * Real.log b - Real.log (Real.Gamma a), fun x hx => ?_⟩
    rw [Gamma.ef ha hb hx, lin2_apply]
    congr 1
    ring
  · refine Sufficient.of_terms (fun _ => 0) (fun d ⟨a, b, h⟩ => s4 a b d h) ?_
    rintro d ⟨a, b, h⟩
    obtain ⟨ha, hb, rfl⟩ := Beta.new_ok h
    refine ⟨lin2 (a - 1) (b - 1), Real.log (Real.Gamma (a + b)) - Real.log (Real.Gamma a)
      - Real.log (Real.Gamma b), fun x hx => ?_⟩
    rw [Beta.ef ha hb hx.1 hx.2, lin2_apply]
    congr 1
    ring
  · refine Sufficient.of_terms (fun x => -x / 2) (fun d ⟨k, h⟩ => s5 k d h) ?_
    rintro d ⟨k, h⟩
    obtain ⟨hk, rfl⟩ := ChiSquared.new_ok h
    refine ⟨AddMonoidHom.mulLeft (k / 2 - 1), -(k/2) * Real.log 2 - Real.log (Real.Gamma (k/2)), fun x hx => ?_⟩
    rw [ChiSquared.ef hk hx, AddMonoidHom.coe_mulLeft]
    congr 1
    ring

/-- **C115** (discrete families): the total count is sufficient for the success probability of the
Bernoulli, binomial (fixed number of trials), geometric and negative binomial (fixed `r`) families and for
the rate of the Poisson family. -/
theorem C115_discrete :
    Sufficient (fun d : Bernoulli XReal => ∃ p, Bernoulli.new (fin p) = .ok d ∧ p ≠ 0 ∧ p ≠ 1) id
      (fun _ => True) (fun x : UInt8 => x.toNat) ∧
    (∀ n : ℕ, Sufficient (fun d : Binomial XReal => ∃ p, Binomial.new n (fin p) = .ok d ∧ p ≠ 0 ∧ p ≠ 1) id
      (fun k => k ≤ n) (fun k : ℕ => k)) ∧
    Sufficient (fun d : Geometric XReal => ∃ p, Geometric.new (fin p) = .ok d ∧ p ≠ 1) id
      (fun _ => True) (fun k : ℕ => k) ∧
    (∀ r : ℕ, Sufficient (fun d : NegativeBinomial XReal => ∃ p, NegativeBinomial.new r (fin p) = .ok d) id
      (fun _ => True) (fun k : ℕ => k)) ∧
    Sufficient (fun d : Poisson XReal => ∃ r, Poisson.new (fin r) = .ok d) id
      (fun _ => True) (fun k : ℕ => k) := by
  obtain ⟨-, -, -, -, -, -, s1, s2, s3, s4, s5⟩ := C28_iid_is_sum_partial
  refine ⟨?_, fun n => ?_, ?_, fun r => ?_, ?_⟩
  · refine Sufficient.of_terms (fun _ => 0) (fun d ⟨p, h, h0, h1⟩ => s1 p d h h0 h1) ?_
    rintro d ⟨p, h, hp0, hp1⟩
    obtain ⟨⟨h0, h1⟩, rfl⟩ := Bernoulli.new_ok h
    have h0 : 0 < p := lt_of_le_of_ne h0 (Ne.symm hp0)
    have h1 : p < 1 := lt_of_le_of_ne h1 hp1
    refine ⟨lin1 (Real.log p - Real.log (1 - p)), Real.log (1 - p), fun x _ => ?_⟩
    rw [id, Bernoulli.ef h0 h1, lin1_apply]
    congr 1
    ring
  · refine Sufficient.of_terms (fun k => Real.log (n.choose k)) (fun d ⟨p, h, h0, h1⟩ => s2 n p d h h0 h1) ?_
    rintro d ⟨p, h, hp0, hp1⟩
    obtain ⟨⟨h0, h1⟩, rfl⟩ := Binomial.new_ok h
    have h0 : 0 < p := lt_of_le_of_ne h0 (Ne.symm hp0)
    have h1 : p < 1 := lt_of_le_of_ne h1 hp1
    refine ⟨lin1 (Real.log p - Real.log (1 - p)), n * Real.log (1 - p), fun k hk => ?_⟩
    rw [id, Binomial.ef h0 h1 hk, lin1_apply]
    congr 1
    ring
  · refine Sufficient.of_terms (fun _ => 0) (fun d ⟨p, h, h1⟩ => s3 p d h h1) ?_
    rintro d ⟨p, h, hp1⟩
    obtain ⟨⟨h0, h1⟩, rfl⟩ := Geometric.new_ok h
    have h1 : p < 1 := lt_of_le_of_ne h1 hp1
    refine ⟨lin1 (Real.log (1 - p)), Real.log p, fun k _ => ?_⟩
    rw [id, Geometric.ef h0 h1, lin1_apply]
    congr 1
    ring
  · refine Sufficient.of_terms (fun k => Real.log ((k + r - 1).choose k)) (fun d ⟨p, h⟩ => s4 r p d h) ?_
    rintro d ⟨p, h⟩
    obtain ⟨hr, ⟨h0, h1⟩, rfl⟩ := NegativeBinomial.new_ok h
    refine ⟨lin1 (Real.log p - Real.log (1 - p)), r * Real.log (1 - p), fun k _ => ?_⟩
    rw [id, NegativeBinomial.ef hr h0 h1, lin1_apply]
    congr 1
    ring
  · refine Sufficient.of_terms (fun k => -(C38_log_factorial_accurate k).choose) (fun d ⟨r, h⟩ => s5 r d h) ?_
    rintro d ⟨r, h⟩
    obtain ⟨hr, rfl⟩ := Poisson.new_ok h
    refine ⟨lin1 (Real.log r), -r, fun k _ => ?_⟩
    obtain ⟨v, e, hv⟩ : ∃ v, (C38_log_factorial_accurate k).choose = v ∧ logFactorial k = fin v :=
      ⟨_, rfl, (C38_log_factorial_accurate k).choose_spec.1⟩
    rw [e]
    simp only [id, expFamLogDensity, expFamLogDensityDefault, f_ln _ hr, f_ofNat, logDensityWrtRoot, hv,
      f_neg, dot_one_fin, f_add, f_sub, lin1_apply]
    congr 1

/-- **C115**, what it gives a user: likelihood ratios between two members of the family agree on two
samples of the same length with the same totals. -/
theorem C115_ratio {D X Y V : Type} [AddCommMonoid V] [ExponentialFamily D X XReal] [ArrayStat D]
    {accepted : D → Prop} {sample : Y → X} {support : Y → Prop} {T : Y → V}
    (h : Sufficient accepted sample support T) {d e : D} (hd : accepted d) (he : accepted e) {xs ys : List Y}
    (hx : ∀ x ∈ xs, support x) (hy : ∀ y ∈ ys, support y) (hl : xs.length = ys.length)
    (ht : (xs.map T).sum = (ys.map T).sum) :
    ∃ r : ℝ,
      ((IID.ofDist d).iidLogDensity (xs.map sample) -. (IID.ofDist e).iidLogDensity (xs.map sample)) = fin r ∧
      ((IID.ofDist d).iidLogDensity (ys.map sample) -. (IID.ofDist e).iidLogDensity (ys.map sample)) = fin r := by
  obtain ⟨g, k, h⟩ := h
  refine ⟨g d xs.length (xs.map T).sum - g e xs.length (xs.map T).sum, ?_, ?_⟩
  · rw [h d hd xs hx, h e he xs hx, f_sub]
    congr 1
    ring
  · rw [h d hd ys hy, h e he ys hy, f_sub, hl, ht]
    congr 1
    ring

/-- two different samples with the same length, sum and sum of squares, and two accepted members -/
example : (∃ d e : Normal XReal, d ≠ e ∧ (∃ μ σ, Normal.new (fin μ) (fin σ) = .ok d) ∧
      ∃ μ σ, Normal.new (fin μ) (fin σ) = .ok e) ∧
    ([0, 4, 5].map (fun x : ℝ => (x, x ^ 2))).sum = ([1, 2, 6].map (fun x : ℝ => (x, x ^ 2))).sum := by
  refine ⟨⟨⟨fin 0, fin 1⟩, ⟨fin 1, fin 1⟩, by simp, ⟨0, 1, by simp [Normal.new]⟩, ⟨1, 1, by simp [Normal.new]⟩⟩, ?_⟩
  simp; norm_num

end Verif
