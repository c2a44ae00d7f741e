import Verif.Props.ExpFamAgree
import Verif.Lemmas.XSum
import Verif.Spec.Core
import Verif.Spec.Iid

/-!
# C28, C29, C30: independent samples
-/

namespace Verif
open FloatOps XReal Spec ExponentialFamily

/-! ### C30 -/

/-- **C30**: summing sufficient statistics of any dimension over any list adds them componentwise. -/
theorem C30_sum_componentwise (n : ℕ) (stats : List (List XReal)) (h : ∀ t ∈ stats, t.length = n)
    (i : ℕ) (hi : i < n) :
    (sumSufficientStats n stats)[i]? = some (FloatOps.sum (stats.map (fun t => t.getD i (fin 0)))) ∧
    (sumSufficientStats n stats).length = n := by
  constructor
  · have key : ∀ (l : List (List XReal)) (s : List XReal), (∀ t ∈ l, t.length = n) → s.length = n →
        (l.foldl (fun sum stat => List.zipWith FloatOps.add sum stat) s)[i]?
          = some (s.getD i (fin 0) +. FloatOps.sum (l.map (fun t => t.getD i (fin 0)))) := by
      intro l
      induction l with
      | nil =>
        intro s _ hs
        simp [List.getElem?_eq_getElem (hs ▸ hi : i < s.length), XReal.add_zero']
      | cons t l ih =>
        intro s hl hs
        have ht := hl t (by simp)
        rw [List.foldl_cons, ih _ (fun u hu => hl u (by simp [hu])) (zipWith_add_length n s t hs ht)]
        have e : (List.zipWith FloatOps.add s t).getD i (fin 0)
            = (s.getD i (fin 0) +. t.getD i (fin 0)) := by
          simp [List.getElem?_zipWith, List.getElem?_eq_getElem (hs ▸ hi : i < s.length),
            List.getElem?_eq_getElem (ht ▸ hi : i < t.length)]
        rw [e, List.map_cons, XReal.sum_cons, XReal.add_assoc']
    unfold sumSufficientStats
    rw [key stats _ h (by simp)]
    simp [hi, XReal.zero_add']
  · exact foldl_zipWith_length n stats h _ (by simp)

/-- **C30**: the sum does not depend on the order of the samples and is additive under concatenation. -/
theorem C30_sum_order (n : ℕ) (s t : List (List XReal)) (hs : ∀ u ∈ s, u.length = n)
    (ht : ∀ u ∈ t, u.length = n) :
    (s.Perm t → sumSufficientStats n s = sumSufficientStats n t) ∧
    sumSufficientStats n (s ++ t)
      = List.zipWith FloatOps.add (sumSufficientStats n s) (sumSufficientStats n t) := by
  have hst : ∀ u ∈ s ++ t, u.length = n := by
    intro u hu
    rcases List.mem_append.mp hu with h | h
    · exact hs u h
    · exact ht u h
  have hls : (sumSufficientStats n s).length = n := foldl_zipWith_length n s hs _ (by simp)
  have hlt : (sumSufficientStats n t).length = n := foldl_zipWith_length n t ht _ (by simp)
  have hlst : (sumSufficientStats n (s ++ t)).length = n := foldl_zipWith_length n _ hst _ (by simp)
  constructor
  · intro hp
    apply List.ext_getElem? fun i => ?_
    by_cases hi : i < n
    · rw [(C30_sum_componentwise n s hs i hi).1, (C30_sum_componentwise n t ht i hi).1,
        XReal.sum_perm (hp.map _)]
    · rw [List.getElem?_eq_none (by omega), List.getElem?_eq_none (by omega)]
  · apply List.ext_getElem? fun i => ?_
    by_cases hi : i < n
    · rw [(C30_sum_componentwise n _ hst i hi).1, List.getElem?_zipWith,
        (C30_sum_componentwise n s hs i hi).1, (C30_sum_componentwise n t ht i hi).1]
      simp [XReal.sum_append]
    · rw [List.getElem?_eq_none (by omega), List.getElem?_eq_none (by simp; omega)]

/-- **C30**: for a finite natural parameter of any dimension the dot product distributes over the
summed statistics (including infinite and NaN statistics). -/
theorem C30_dot_distributes (η : List ℝ) (stats : List (List XReal))
    (h : ∀ t ∈ stats, t.length = η.length) :
    dot (η.map fin) (sumSufficientStats η.length stats)
      = FloatOps.sum (stats.map (fun t => dot (η.map fin) t)) :=
  dot_sumSufficientStats η stats h

/-- **C30**: on finite vectors the dot product is the mathematical one, and the three array helpers
agree with `sumSufficientStats`. -/
theorem C30_dot_value (as bs : List ℝ) :
    dot (as.map fin) (bs.map fin) = fin ((List.zipWith (· * ·) as bs).sum) ∧
    (∀ (n : ℕ) (xs : List (List XReal)), sumArrays n xs = sumSufficientStats n xs) :=
  ⟨dot_fin as bs, fun _ _ => rfl⟩

example : ∀ t ∈ [[fin 1, fin 2], [fin 3, XReal.ninf]], t.length = [(5:ℝ), 6].length := by simp

/-! ### C28 -/

/-- The natural parameter and log-partition are finite, the arrays have the declared length, and the
family does not override the single-sample formula. -/
structure Regular {D X : Type} [ExponentialFamily D X XReal] [ArrayStat D] (d : D) (η : List ℝ) (A : ℝ) :
    Prop where
  nat : naturalAndLogPartition d = (η.map fin, fin A)
  dim : ArrayStat.dim D = η.length
  stat : ∀ x, (sufficientStatistic d x).length = η.length
  formula : ∀ x, expFamLogDensity d x
    = expFamLogDensityDefault (naturalAndLogPartition d) (sufficientStatistic d x) (baseLogDensity d x)

theorem IidIsSum.of_regular {D X : Type} [ExponentialFamily D X XReal] [ArrayStat D] {d : D}
    {η : List ℝ} {A : ℝ} (h : Regular d η A) : IidIsSum d := by
  intro xs
  have e : (fun x => (expFamLogDensity d x : XReal)) = fun x => (dot (η.map fin) (sufficientStatistic d x)
      +. (fin (-A) +. baseLogDensity d x)) := by
    funext x
    rw [h.formula, h.nat]
    show ((dot (η.map fin) (sufficientStatistic d x) -. fin A) +. _) = _
    rw [XReal.sub_eq, f_neg, XReal.add_assoc']
  rw [e, XReal.sum_map_add, XReal.sum_map_add, XReal.sum_map_const]
  unfold IID.iidLogDensity computeIidExpFamLogDensity
  cases xs with
  | nil => simp
  | cons x xs =>
    simp only [List.isEmpty_cons, Bool.false_eq_true, if_false]
    rw [show (IID.ofDist d).distribution = d from rfl, h.nat, h.dim, dot_sumSufficientStats]
    · rw [List.map_map, XReal.sub_eq, XReal.add_assoc', f_ofNat, f_mul, f_neg, mul_neg]
      rfl
    · intro t ht
      obtain ⟨y, -, rfl⟩ := List.mem_map.mp ht
      exact h.stat y

theorem add_fin_split {a b : XReal} {c : ℝ} (h : (a +. b) = fin c) : ∃ x y, a = fin x ∧ b = fin y := by
  cases a <;> cases b <;> first | exact ⟨_, _, rfl, rfl⟩ | cases h

/-- a finite natural parameter and partition, read off one finite value of the formula -/
theorem sub_fin_split {a b : XReal} {c : ℝ} (h : (a -. b) = fin c) : ∃ x y, a = fin x ∧ b = fin y := by
  rw [XReal.sub_eq] at h
  obtain ⟨x, y, h1, h2⟩ := add_fin_split h
  refine ⟨x, -y, h1, ?_⟩
  cases b <;> first | (cases h2; done) | (cases h2; rw [neg_neg])

theorem lp_of_ef {D X : Type} [ExponentialFamily D X XReal] {d : D} {x : X} {c : ℝ}
    (h : expFamLogDensityDefault (naturalAndLogPartition d) (sufficientStatistic d x) (baseLogDensity d x)
      = fin c) : ∃ A, (naturalAndLogPartition d).2 = fin A := by
  obtain ⟨u, v, h1, -⟩ := add_fin_split h
  obtain ⟨u, v, -, h2⟩ := sub_fin_split h1
  exact ⟨v, h2⟩

theorem regular_mk {D X : Type} [ExponentialFamily D X XReal] [ArrayStat D] {d : D} (η : List ℝ)
    {x : X} {c : ℝ} (hη : (naturalAndLogPartition d).1 = η.map fin)
    (hdim : ArrayStat.dim D = η.length) (hstat : ∀ x, (sufficientStatistic d x).length = η.length)
    (hf : ∀ x, expFamLogDensity d x = expFamLogDensityDefault (naturalAndLogPartition d)
      (sufficientStatistic d x) (baseLogDensity d x))
    (hx : expFamLogDensity d x = fin c) : IidIsSum d := by
  obtain ⟨A, hA⟩ := lp_of_ef ((hf x).symm.trans hx)
  exact IidIsSum.of_regular ⟨by rw [← hη, ← hA], hdim, hstat, hf⟩

/-- **C28**: for every array-statistic family, every accepted (interior) parameter and every sample
list of any length (inside the support or not), the IID log-density is the sum of the individual
exponential-family log-densities. -/
theorem C28_iid_is_sum_partial :
    (∀ (μ σ : ℝ) (d : Normal XReal), Normal.new (fin μ) (fin σ) = .ok d → IidIsSum d) ∧
    IidIsSum ({} : StdNormal XReal) ∧
    (∀ (r : ℝ) (d : Exponential XReal), Exponential.new (fin r) = .ok d → IidIsSum d) ∧
    (∀ (a b : ℝ) (d : Gamma XReal), Gamma.new (fin a) (fin b) = .ok d → IidIsSum d) ∧
    (∀ (a b : ℝ) (d : Beta XReal), Beta.new (fin a) (fin b) = .ok d → IidIsSum d) ∧
    (∀ (k : ℝ) (d : ChiSquared XReal), ChiSquared.new (fin k) = .ok d → IidIsSum d) ∧
    (∀ (p : ℝ) (d : Bernoulli XReal), Bernoulli.new (fin p) = .ok d → p ≠ 0 → p ≠ 1 → IidIsSum d) ∧
    (∀ (n : ℕ) (p : ℝ) (d : Binomial XReal), Binomial.new n (fin p) = .ok d → p ≠ 0 → p ≠ 1 →
      IidIsSum d) ∧
    (∀ (p : ℝ) (d : Geometric XReal), Geometric.new (fin p) = .ok d → p ≠ 1 → IidIsSum d) ∧
    (∀ (r : ℕ) (p : ℝ) (d : NegativeBinomial XReal), NegativeBinomial.new r (fin p) = .ok d →
      IidIsSum d) ∧
    (∀ (r : ℝ) (d : Poisson XReal), Poisson.new (fin r) = .ok d → IidIsSum d) := by
  refine ⟨?_, ?_, ?_, ?_, ?_, ?_, ?_, ?_, ?_, ?_, ?_⟩
  · intro μ σ d h
    obtain ⟨hσ, rfl⟩ := Normal.new_ok h
    refine regular_mk [μ * (1 / (σ * σ)), -1/2 * (1 / (σ * σ))] ?_ rfl (fun _ => rfl) (fun _ => rfl)
      (Normal.ef (x := 0) hσ)
    simp [naturalAndLogPartition, Normal.variance, recip, f_div _ _ (mul_pos hσ hσ).ne']
  · refine regular_mk [0, -1/2] ?_ rfl (fun _ => rfl) (fun _ => rfl) (StdNormal.ef (x := 0))
    simp [naturalAndLogPartition]
  · intro r d h
    obtain ⟨hr, rfl⟩ := Exponential.new_ok h
    refine regular_mk [-r] ?_ rfl (fun _ => rfl) (fun _ => rfl) (Exponential.ef (x := 0) hr)
    simp [naturalAndLogPartition]
  · intro a b d h
    obtain ⟨ha, hb, rfl⟩ := Gamma.new_ok h
    refine regular_mk [a - 1, -b] ?_ rfl (fun _ => rfl) (fun _ => rfl) (Gamma.ef (x := 1) ha hb one_pos)
    simp [naturalAndLogPartition]
  · intro a b d h
    obtain ⟨ha, hb, rfl⟩ := Beta.new_ok h
    refine regular_mk [a - 1, b - 1] ?_ rfl (fun _ => rfl) (fun _ => rfl)
      (Beta.ef (x := 1/2) ha hb (by norm_num) (by norm_num))
    simp [naturalAndLogPartition]
  · intro k d h
    obtain ⟨hk, rfl⟩ := ChiSquared.new_ok h
    refine regular_mk [k / 2 - 1, -(1/2)] ?_ rfl (fun _ => rfl) (fun _ => rfl)
      (ChiSquared.ef (x := 1) hk one_pos)
    simp [naturalAndLogPartition, ChiSquared.shape, ChiSquared.rate, f_div _ _ two_ne_zero]
  · intro p d h hp0 hp1
    obtain ⟨⟨h0, h1⟩, rfl⟩ := Bernoulli.new_ok h
    have h0 : 0 < p := lt_of_le_of_ne h0 (Ne.symm hp0)
    have h1 : p < 1 := lt_of_le_of_ne h1 hp1
    refine regular_mk [Real.log p - Real.log (1 - p)] ?_ rfl (fun _ => rfl) (fun _ => rfl)
      (Bernoulli.ef (x := 0) h0 h1)
    exact congrArg (fun z => [z]) ((by simp [Bernoulli.logOdds, logOdds_fin h0 h1]))
  · intro n p d h hp0 hp1
    obtain ⟨⟨h0, h1⟩, rfl⟩ := Binomial.new_ok h
    have h0 : 0 < p := lt_of_le_of_ne h0 (Ne.symm hp0)
    have h1 : p < 1 := lt_of_le_of_ne h1 hp1
    refine regular_mk [Real.log p - Real.log (1 - p)] ?_ rfl (fun _ => rfl) (fun _ => rfl)
      (Binomial.ef (k := 0) h0 h1 (Nat.zero_le _))
    exact congrArg (fun z => [z]) ((by simp [Binomial.logOdds, logOdds_fin h0 h1]))
  · intro p d h hp1
    obtain ⟨⟨h0, h1⟩, rfl⟩ := Geometric.new_ok h
    have h1 : p < 1 := lt_of_le_of_ne h1 hp1
    refine regular_mk [Real.log (1 - p)] ?_ rfl (fun _ => rfl) (fun _ => rfl)
      (Geometric.ef h0 h1 0)
    simp [naturalAndLogPartition, Geometric.failureProb, f_ln (1 - p) (by linarith)]
  · intro r p d h
    obtain ⟨hr, ⟨h0, h1⟩, rfl⟩ := NegativeBinomial.new_ok h
    refine regular_mk [Real.log p - Real.log (1 - p)] ?_ rfl (fun _ => rfl) (fun _ => rfl)
      (NegativeBinomial.ef hr h0 h1 0)
    exact congrArg (fun z => [z]) ((by simp [NegativeBinomial.logOdds, logOdds_fin h0 h1]))
  · intro r d h
    obtain ⟨hr, rfl⟩ := Poisson.new_ok h
    obtain ⟨e, he, hef⟩ := Poisson.ef hr 0
    refine regular_mk [Real.log r] ?_ rfl (fun _ => rfl) (fun _ => rfl) hef
    simp [naturalAndLogPartition, f_ln r hr]

/-- **C28**, consequences: whenever the joint log-density is the sum of the individual ones it is `0` on
the empty sample, additive under concatenation and invariant under permutation. -/
theorem C28_iid_laws {D X : Type} [ExponentialFamily D X XReal] [ArrayStat D] (d : D) (h : IidIsSum d)
    (xs ys : List X) :
    (IID.ofDist d).iidLogDensity ([] : List X) = fin 0 ∧
    (IID.ofDist d).iidLogDensity (xs ++ ys)
      = ((IID.ofDist d).iidLogDensity xs +. (IID.ofDist d).iidLogDensity ys) ∧
    (xs.Perm ys → (IID.ofDist d).iidLogDensity xs = (IID.ofDist d).iidLogDensity ys) := by
  refine ⟨rfl, ?_, fun hp => ?_⟩
  · rw [h, h, h, List.map_append, XReal.sum_append]
  · rw [h, h, XReal.sum_perm (hp.map _)]

example : ∃ d : Gamma XReal, Gamma.new (fin 2) (fin 3) = .ok d ∧ IidIsSum d :=
  ⟨⟨fin 2, fin 3⟩, by simp [Gamma.new],
    C28_iid_is_sum_partial.2.2.2.1 2 3 _ (by simp [Gamma.new])⟩

/-- **C28**: the builder path `d.iid().log_density().at(xs)`, and the exponential-family path of the IID
wrapper itself, return the same number as `iid_log_density`, for every family whose IID root measure has
log-density zero (both shipped roots, see the examples), when the two fields of the builder are at
different addresses (missing: a zero-sized root sharing the address, see `C04_zero_sized_base_violated`). -/
theorem C28_builder_agrees_partial {D X : Type} [i : Measure D X] [r : IIDRoot i.Root] [Measure r.Root (List X)]
    [HasLogDensity r.Root (List X) XReal] [ExponentialFamily D X XReal] [ArrayStat D]
    (hroot : ∀ (b : r.Root) (xs : List X), logDensityWrtRoot b xs = (fin 0 : XReal))
    (lay : LogDensity.Layout) (hl : lay.Apart) (addr : ℕ) (d : D) (xs : List X) :
    (LogDensity.new (IID.ofDist d)).evalAt lay addr xs = (IID.ofDist d).iidLogDensity xs ∧
    expFamLogDensity (IID.ofDist d) xs = (IID.ofDist d).iidLogDensity xs := by
  constructor
  · have hne : ¬ addr + lay.offMeasure = addr + lay.offBase := by
      intro h; exact hl (Nat.add_left_cancel h)
    unfold LogDensity.evalAt
    rw [if_neg hne]
    have : ∀ a b, LogDensity.dispatch (F := XReal) a b (LogDensity.new (IID.ofDist d)).measure
        (LogDensity.new (IID.ofDist d)).base xs
        = (logDensityWrtRoot (IID.ofDist d) xs -. logDensityWrtRoot (LogDensity.new (IID.ofDist d)).base xs) := by
      intro a b
      cases a <;> cases b <;> rfl
    rw [this]
    erw [hroot]
    rw [XReal.sub_zero']
    rfl
  · rfl

example : ∀ (b : LebesgueMeasure (List XReal)) (xs : List XReal), logDensityWrtRoot b xs = (fin 0 : XReal) :=
  fun _ _ => rfl
example : ∀ (b : CountingMeasure (List ℕ)) (xs : List ℕ), logDensityWrtRoot b xs = (fin 0 : XReal) :=
  fun _ _ => rfl

/-- **C28** violated at the boundary: the accepted `Bernoulli(0)` gives the joint log-density `-∞` on
`[0, 1]`, while the single-sample formula gives NaN for the first draw, so the sum is NaN. -/
theorem C28_boundary_violated :
    ∃ d : Bernoulli XReal, Bernoulli.new (fin 0) = .ok d ∧
      (IID.ofDist d).iidLogDensity [0, 1] = ninf ∧
      FloatOps.sum ([(0 : UInt8), 1].map (fun x => expFamLogDensity d x)) = XReal.nan := by
  refine ⟨⟨fin 0⟩, by simp [Bernoulli.new], ?_, ?_⟩
  · have h1 : (ninf *. fin 1) = ninf := by
      show XReal.mul ninf (fin 1) = ninf
      simp [XReal.mul, infOf]
    simp [IID.iidLogDensity, computeIidExpFamLogDensity, IID.ofDist, naturalAndLogPartition, Bernoulli.logOdds,
      f_div _ _ one_ne_zero, sumSufficientStats, ArrayStat.dim, sufficientStatistic, dot_one, h1,
      baseLogDensity, logDensityWrtRoot, f_ln _ one_pos]
  · have h0 : (ninf *. fin 0) = XReal.nan := by
      show XReal.mul ninf (fin 0) = XReal.nan
      simp [XReal.mul, infOf]
    simp [expFamLogDensity, expFamLogDensityDefault, Bernoulli.logOdds, f_div _ _ one_ne_zero, dot_one, h0]

/-- **C28**, relation to the plain log-density: where the two single-sample evaluations agree on the samples, so do the two IID
evaluations; for Exponential they differ by `2 n ln rate`. -/
theorem C28_fallback :
    (∀ {D X : Type} [HasLogDensity D X XReal] [ExponentialFamily D X XReal] [ArrayStat D] (d : D)
      (xs : List X), IidIsSum d →
      (∀ x ∈ xs, (expFamLogDensity d x : XReal) = logDensityWrtRoot d x) →
      (IID.ofDist d).iidLogDensity xs = (IID.ofDist d).iidLogDensityFallback xs) ∧
    (∀ (r : ℝ) (d : Exponential XReal), Exponential.new (fin r) = .ok d → ∀ xs : List ℝ, (∀ x ∈ xs, 0 ≤ x) →
      ∃ a b : ℝ, (IID.ofDist d).iidLogDensity (xs.map fin) = fin a ∧
        (IID.ofDist d).iidLogDensityFallback (xs.map fin) = fin b ∧
        b - a = xs.length * (2 * Real.log r)) := by
  refine ⟨?_, ?_⟩
  · intro D X _ _ _ d xs h heq
    rw [h]
    unfold IID.iidLogDensityFallback
    congr 1
    exact List.map_congr_left heq
  · intro r d h xs hx
    have hs := C28_iid_is_sum_partial.2.2.1 r d h
    obtain ⟨hr, rfl⟩ := Exponential.new_ok h
    refine ⟨(xs.map (fun x => -Real.log r - r * x)).sum, (xs.map (fun x => Real.log r - r * x)).sum, ?_, ?_, ?_⟩
    · rw [hs, ← f_sum, List.map_map, List.map_map]
      congr 1
      apply List.map_congr_left
      intro x _
      simp only [Function.comp]
      rw [Exponential.ef hr]
    · show FloatOps.sum _ = _
      rw [← f_sum, List.map_map, List.map_map]
      congr 1
      apply List.map_congr_left
      intro x hx'
      simp only [Function.comp]
      exact Exponential.ld_of_nonneg hr (hx x hx')
    · clear hx
      induction xs with
      | nil => simp
      | cons x xs ih => simp; linarith

example : ∃ (d : Normal XReal), Normal.new (fin 0) (fin 2) = .ok d ∧ IidIsSum d ∧
    ∀ x ∈ [fin 1, fin (-3)], (expFamLogDensity d x : XReal) = logDensityWrtRoot d x := by
  have h : Normal.new (fin 0) (fin 2) = .ok ⟨fin 0, fin 2⟩ := by simp [Normal.new]
  refine ⟨_, h, C28_iid_is_sum_partial.1 0 2 _ h, ?_⟩
  intro x hx
  have := C24_continuous_agree.1 0 2 _ h
  rcases List.mem_cons.mp hx with rfl | hx
  · exact this 1
  · rw [List.mem_singleton.mp hx]; exact this (-3)

/-! ### C29 -/

/-- **C29**: a sample list of any length is in the support of `d.iid()` iff each element is in the support
of `d`; likewise for the IID base measure. -/
theorem C29_iid_support {D X : Type} [i : Measure D X] [IIDRoot i.Root] (d : D) (xs : List X) :
    (Measure.inSupport (IID.ofDist d) xs = true ↔ ∀ x ∈ xs, Measure.inSupport d x = true) ∧
    (Measure.inSupport (⟨d⟩ : IIDBaseMeasure D) xs = true ↔ ∀ x ∈ xs, Measure.inSupport d x = true) := by
  constructor <;> exact List.all_eq_true

/-- **C29**: the IID base measure's log-density is the sum of the base log-densities, additive under
concatenation and independent of the order; the IID exponential family uses exactly this base measure
for its samples. -/
theorem C29_iid_base {D X : Type} [e : ExponentialFamily D X XReal] [ArrayStat D] (d : D) (xs ys : List X) :
    baseLogDensity (IID.ofDist d) ([] : List X) = fin 0 ∧
    (∀ x, baseLogDensity (IID.ofDist d) (x :: xs)
      = (baseLogDensity d x +. baseLogDensity (IID.ofDist d) xs)) ∧
    baseLogDensity (IID.ofDist d) (xs ++ ys)
      = (baseLogDensity (IID.ofDist d) xs +. baseLogDensity (IID.ofDist d) ys) ∧
    (xs.Perm ys → baseLogDensity (IID.ofDist d) xs = baseLogDensity (IID.ofDist d) ys) := by
  have h : ∀ xs : List X, baseLogDensity (IID.ofDist d) xs
      = FloatOps.sum (xs.map (fun x => baseLogDensity d x)) := fun _ => rfl
  refine ⟨rfl, fun x => ?_, ?_, fun hp => ?_⟩
  · rw [h, h, List.map_cons, XReal.sum_cons]
  · rw [h, h, h, List.map_append, XReal.sum_append]
  · rw [h, h, XReal.sum_perm (hp.map _)]

/-- **C29**: as a member of the exponential family, `d.iid()` has the natural parameters and the log-partition of
`d` (one draw), the statistic of a sample of one is that of the draw, and building from natural parameters wraps
the distribution built from them. -/
theorem C29_iid_family {D X : Type} [e : ExponentialFamily D X XReal] [ArrayStat D] (d : D) (x : X)
    (hs : ∃ t : List ℝ, t.length = ArrayStat.dim D ∧ sufficientStatistic (F := XReal) d x = t.map fin) :
    (naturalAndLogPartition (X := List X) (F := XReal) (IID.ofDist d)) = naturalAndLogPartition (X := X) d ∧
    sufficientStatistic (F := XReal) (IID.ofDist d) [x] = sufficientStatistic (F := XReal) d x ∧
    ∀ η : List XReal, (ExponentialFamily.fromNatural (D := IID D) (X := List X) η)
      = (e.fromNatural η).map IID.ofDist := by
  have one_mul' : ∀ v : XReal, (ofRat 1 *. v : XReal) = v := by
    intro v
    rw [f_ofRat]
    cases v with
    | fin r => simp
    | _ =>
      show XReal.mul _ _ = _
      simp [XReal.mul, infOf]
  refine ⟨?_, ?_, fun η => ?_⟩
  · show ((naturalAndLogPartition (X := X) (F := XReal) d).1,
      (ofRat 1 *. (naturalAndLogPartition (X := X) (F := XReal) d).2 : XReal)) = _
    rw [one_mul']
  · obtain ⟨t, ht, e⟩ := hs
    show List.zipWith FloatOps.add (List.replicate (ArrayStat.dim D) zero) (sufficientStatistic (F := XReal) d x) = _
    rw [e, ← ht]
    clear e ht
    induction t with
    | nil => rfl
    | cons y t ih =>
      simp only [List.length_cons, List.replicate_succ, List.map_cons, List.zipWith_cons_cons, ih]
      rw [f_zero, f_add, zero_add]
  · show (do let d ← e.fromNatural η; pure (⟨d⟩ : IID D)) = _
    cases e.fromNatural η <;> rfl

example (d : Normal XReal) : ∃ t : List ℝ, t.length = ArrayStat.dim (Normal XReal) ∧
    sufficientStatistic (F := XReal) d (fin 3 : XReal) = t.map fin := ⟨[3, 3 * 3], rfl, rfl⟩

end Verif
