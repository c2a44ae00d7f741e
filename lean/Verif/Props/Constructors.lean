import Verif.Spec.Params
import Verif.Lemmas.Dist
import Verif.Props.Continuous
import Verif.Props.Discrete

/-!
# C22–C23: constructors and support
-/

namespace Verif
open FloatOps XReal Spec

theorem gt_zero_iff (x : XReal) : FloatOps.gt x (FloatOps.zero : XReal) = true ↔ Pos x := by
  cases x with
  | nan => exact ⟨fun h => (by cases h), fun h => by rcases h with h | ⟨_, _, h⟩ <;> cases h⟩
  | ninf => exact ⟨fun h => (by cases h), fun h => by rcases h with h | ⟨_, _, h⟩ <;> cases h⟩
  | pinf => exact ⟨fun _ => Or.inl rfl, fun _ => rfl⟩
  | fin a =>
    simp only [f_zero, f_gt, decide_eq_true_eq, Pos]
    exact ⟨fun h => Or.inr ⟨a, h, rfl⟩, fun h => by
      rcases h with h | ⟨b, hb, h⟩ <;> cases h; exact hb⟩

theorem in_unit_iff (x : XReal) :
    (FloatOps.ge x (FloatOps.zero : XReal) && (x ≤. (FloatOps.one : XReal))) = true ↔ InUnit x := by
  cases x with
  | nan => exact ⟨fun h => (by cases h), fun ⟨_, _, _, h⟩ => by cases h⟩
  | ninf => exact ⟨fun h => (by cases h), fun ⟨_, _, _, h⟩ => by cases h⟩
  | pinf => exact ⟨fun h => (by cases h), fun ⟨_, _, _, h⟩ => by cases h⟩
  | fin a =>
    simp only [f_zero, f_ge, f_one, f_le, Bool.and_eq_true, decide_eq_true_eq, InUnit]
    exact ⟨fun h => ⟨a, h.1, h.2, rfl⟩, fun ⟨b, h0, h1, h⟩ => by cases h; exact ⟨h0, h1⟩⟩

theorem in_unit_pos_iff (x : XReal) :
    (FloatOps.gt x (FloatOps.zero : XReal) && (x ≤. (FloatOps.one : XReal))) = true ↔ InUnitPos x := by
  cases x with
  | nan => exact ⟨fun h => (by cases h), fun ⟨_, _, _, h⟩ => by cases h⟩
  | ninf => exact ⟨fun h => (by cases h), fun ⟨_, _, _, h⟩ => by cases h⟩
  | pinf => exact ⟨fun h => (by cases h), fun ⟨_, _, _, h⟩ => by cases h⟩
  | fin a =>
    simp only [f_zero, f_gt, f_one, f_le, Bool.and_eq_true, decide_eq_true_eq, InUnitPos]
    exact ⟨fun h => ⟨a, h.1, h.2, rfl⟩, fun ⟨b, h0, h1, h⟩ => by cases h; exact ⟨h0, h1⟩⟩

theorem in_unit_open_iff (x : XReal) :
    (FloatOps.gt x (FloatOps.zero : XReal) && (x <. (FloatOps.one : XReal))) = true ↔ InUnitOpen x := by
  cases x with
  | nan => exact ⟨fun h => (by cases h), fun ⟨_, _, _, h⟩ => by cases h⟩
  | ninf => exact ⟨fun h => (by cases h), fun ⟨_, _, _, h⟩ => by cases h⟩
  | pinf => exact ⟨fun h => (by cases h), fun ⟨_, _, _, h⟩ => by cases h⟩
  | fin a =>
    simp only [f_zero, f_gt, f_one, f_lt, Bool.and_eq_true, decide_eq_true_eq, InUnitOpen]
    exact ⟨fun h => ⟨a, h.1, h.2, rfl⟩, fun ⟨b, h0, h1, h⟩ => by cases h; exact ⟨h0, h1⟩⟩

/-- a guarded constructor succeeds iff its guard holds, and then returns the built value -/
theorem guard_ok {α : Type} {c : Bool} {v d : α} {e : Panic} :
    (if c then Except.ok v else Except.error e) = Except.ok d ↔ c = true ∧ d = v := by
  cases c <;> simp [eq_comm]

/-- **C22**, continuous distributions: over all parameter values (finite, infinite, NaN) the
constructor returns normally iff the documented constraint holds, and the result carries exactly the
given parameters.  Missing from the full claim: rejection of a NaN location parameter and of a zero
scale, see `C22_nan_accepted_violated`. -/
theorem C22_continuous_constructors_partial (a b : XReal) :
    (∀ d, Normal.new a b = .ok d ↔ Pos b ∧ d = ⟨a, b⟩) ∧
    (∀ d, Exponential.new a = .ok d ↔ Pos a ∧ d = ⟨a⟩) ∧
    (∀ d, Gamma.new a b = .ok d ↔ Pos a ∧ Pos b ∧ d = ⟨a, b⟩) ∧
    (∀ d, Beta.new a b = .ok d ↔ Pos a ∧ Pos b ∧ d = ⟨a, b⟩) ∧
    (∀ d, ChiSquared.new a = .ok d ↔ Pos a ∧ d = ⟨a⟩) ∧
    (∀ d, Cauchy.new a b = .ok d ↔ Pos b ∧ d = ⟨a, b⟩) ∧
    (∀ d, StudentT.new a = .ok d ↔ Pos a ∧ d = ⟨a⟩) := by
  refine ⟨?_, ?_, ?_, ?_, ?_, ?_, ?_⟩ <;> intro d
  · rw [← gt_zero_iff]; exact guard_ok
  · rw [← gt_zero_iff]; exact guard_ok
  · rw [← gt_zero_iff, ← gt_zero_iff]; unfold Gamma.new
    split
    · rw [guard_ok]; simp_all
    · simp_all
  · rw [← gt_zero_iff, ← gt_zero_iff]; unfold Beta.new
    split
    · rw [guard_ok]; simp_all
    · simp_all
  · rw [← gt_zero_iff]; exact guard_ok
  · rw [← gt_zero_iff]; exact guard_ok
  · rw [← gt_zero_iff]; exact guard_ok

/-- **C22**, discrete distributions with scalar parameters. -/
theorem C22_discrete_constructors (p : XReal) (n : ℕ) :
    (∀ d, Bernoulli.new p = .ok d ↔ InUnit p ∧ d = ⟨p⟩) ∧
    (∀ d, Binomial.new n p = .ok d ↔ InUnit p ∧ d = ⟨n, p⟩) ∧
    (∀ d, Geometric.new p = .ok d ↔ InUnitPos p ∧ d = ⟨p⟩) ∧
    (∀ d, NegativeBinomial.new n p = .ok d ↔ 0 < n ∧ InUnitOpen p ∧ d = ⟨n, p⟩) ∧
    (∀ d, Poisson.new p = .ok d ↔ Pos p ∧ d = ⟨p⟩) := by
  refine ⟨?_, ?_, ?_, ?_, ?_⟩ <;> intro d
  · rw [← in_unit_iff]; exact guard_ok
  · rw [← in_unit_iff]; exact guard_ok
  · rw [← in_unit_pos_iff]; exact guard_ok
  · rw [← in_unit_open_iff]; unfold NegativeBinomial.new
    split
    · rw [guard_ok]; simp_all
    · simp_all
  · rw [← gt_zero_iff]; exact guard_ok

theorem ge_zero_cases {x : XReal} (h : FloatOps.ge x (FloatOps.zero : XReal) = true) :
    x = pinf ∨ ∃ a : ℝ, 0 ≤ a ∧ x = fin a := by
  cases x with
  | nan => cases h
  | ninf => cases h
  | pinf => exact Or.inl rfl
  | fin a => exact Or.inr ⟨a, by simpa using h, rfl⟩

theorem foldl_add_pinf (l : List XReal) (h : ∀ x ∈ l, x = pinf ∨ ∃ a : ℝ, 0 ≤ a ∧ x = fin a) :
    l.foldl FloatOps.add pinf = pinf := by
  induction l with
  | nil => rfl
  | cons y l ih =>
    have : (FloatOps.add pinf y : XReal) = pinf := by
      rcases h y (by simp) with rfl | ⟨a, _, rfl⟩ <;> rfl
    rw [List.foldl_cons, this]
    exact ih (fun x hx => h x (by simp [hx]))

theorem sum_nonneg_cases (l : List XReal) (h : ∀ x ∈ l, x = pinf ∨ ∃ a : ℝ, 0 ≤ a ∧ x = fin a) :
    (∃ rs : List ℝ, l = rs.map fin ∧ ∀ r ∈ rs, 0 ≤ r) ∨ FloatOps.sum l = pinf := by
  have key : ∀ (l : List XReal) (acc : ℝ),
      (∀ x ∈ l, x = pinf ∨ ∃ a : ℝ, 0 ≤ a ∧ x = fin a) →
      (∃ rs : List ℝ, l = rs.map fin ∧ ∀ r ∈ rs, 0 ≤ r) ∨ l.foldl FloatOps.add (fin acc) = pinf := by
    intro l
    induction l with
    | nil => intro acc _; exact Or.inl ⟨[], by simp⟩
    | cons y l ih =>
      intro acc h
      rcases h y (by simp) with rfl | ⟨a, ha, rfl⟩
      · right
        have : (FloatOps.add (fin acc) pinf : XReal) = pinf := rfl
        rw [List.foldl_cons, this]
        exact foldl_add_pinf l (fun x hx => h x (by simp [hx]))
      · rcases ih (acc + a) (fun x hx => h x (by simp [hx])) with ⟨rs, rfl, hrs⟩ | h2
        · exact Or.inl ⟨a :: rs, by simp, by simpa using ⟨ha, hrs⟩⟩
        · right; rw [List.foldl_cons, f_add]; exact h2
  exact key l 0 h

/-- **C22**, categorical: over vectors of any length and any entries. -/
theorem C22_categorical_constructor (ps : List XReal) :
    (∀ d, Categorical.new ps = .ok d ↔ ProbVec ps ∧ d = ⟨ps⟩) ∧
    (∀ (k : ℕ) (d : Categorical XReal), Categorical.uniform k = .ok d ↔
      0 < k ∧ d = ⟨(List.replicate k (1 / k : ℝ)).map fin⟩) := by
  have fwd : ∀ rs : List ℝ, rs ≠ [] → (∀ r ∈ rs, 0 ≤ r) → |rs.sum - 1| < 1 / 10 ^ 10 →
      Categorical.new (rs.map fin) = .ok ⟨rs.map fin⟩ := by
    intro rs hne hpos hsum
    unfold Categorical.new
    rw [f_sum]
    have h1 : (rs.map fin).isEmpty = false := by simpa using hne
    have h2 : ((rs.map fin).all fun p => FloatOps.ge p (FloatOps.zero : XReal)) = true := by
      simpa using hpos
    simp only [h1, h2]
    simp
    norm_num at hsum ⊢
    exact hsum
  constructor
  · intro d
    constructor
    · intro h
      have h' := h
      unfold Categorical.new at h
      split_ifs at h with h1 h2 h3
      have hall : ∀ x ∈ ps, x = pinf ∨ ∃ a : ℝ, 0 ≤ a ∧ x = fin a := by
        intro x hx
        apply ge_zero_cases
        have h2 : (ps.all fun p => FloatOps.ge p (FloatOps.zero : XReal)) = true := by simpa using h2
        exact List.all_eq_true.mp h2 x hx
      refine ⟨?_, by cases h; rfl⟩
      rcases sum_nonneg_cases ps hall with ⟨rs, rfl, hrs⟩ | hp
      · obtain ⟨a, b, c, _⟩ := Categorical.new_ok h'
        exact ⟨rs, rfl, a, b, c⟩
      · rw [hp] at h3; cases h3
    · rintro ⟨⟨rs, rfl, hne, hpos, hsum⟩, rfl⟩
      exact fwd rs hne hpos hsum
  · intro k d
    unfold Categorical.uniform
    by_cases hk : 0 < k
    · have hk' : (k : ℝ) ≠ 0 := by exact_mod_cast hk.ne'
      have e : List.replicate k (FloatOps.one /. FloatOps.ofNat k : XReal)
          = (List.replicate k (1 / k : ℝ)).map fin := by
        rw [List.map_replicate, f_ofNat, f_one, f_div _ _ hk']
      rw [if_pos hk, e, fwd]
      · simp [hk, eq_comm]
      · intro h; have := congrArg List.length h; simp at this; omega
      · intro r hr
        have := List.eq_of_mem_replicate hr
        subst this; positivity
      · simp [hk']
    · simp [hk]

/-- Constructors of C22 do accept and reject: non-trivial cases of both directions. -/
example : Pos (fin 2) ∧ ¬ Pos XReal.nan ∧ ¬ Pos (fin 0) ∧ Pos pinf ∧ InUnit (fin 1) ∧ ¬ InUnit (fin 2) := by
  refine ⟨Or.inr ⟨2, by norm_num, rfl⟩, ?_, ?_, Or.inl rfl, ⟨1, by norm_num, by norm_num, rfl⟩, ?_⟩
  · rintro (h | ⟨_, _, h⟩) <;> cases h
  · rintro (h | ⟨a, ha, h⟩) <;> cases h; exact lt_irrefl _ ha
  · rintro ⟨a, _, h1, h⟩; cases h; norm_num at h1
example : ProbVec ([1/4, 3/4].map fin) := ⟨[1/4, 3/4], rfl, by simp, by norm_num, by norm_num⟩

/-- **C22** violated: a NaN location parameter is accepted by `Normal::new` and `Cauchy::new`, after
which the log-density is NaN everywhere; and `Gamma::from_shape_scale` accepts scale 0. -/
theorem C22_nan_accepted_violated :
    (∃ d, Normal.new XReal.nan (fin 1) = .ok d ∧ ∀ x : XReal, logDensityWrtRoot d x = XReal.nan) ∧
    (∃ d, Cauchy.new XReal.nan (fin 1) = .ok d ∧ ∀ x : XReal, logDensityWrtRoot d x = XReal.nan) ∧
    (∃ d, Gamma.fromShapeScale (fin 1) (fin 0) = .ok d ∧ d.rate = pinf) := by
  refine ⟨⟨⟨XReal.nan, fin 1⟩, by simp [Normal.new], ?_⟩, ⟨⟨XReal.nan, fin 1⟩, by simp [Cauchy.new], ?_⟩, ?_⟩
  · intro x
    have h1 : (XReal.nan /. fin 1) = XReal.nan := rfl
    simp [logDensityWrtRoot, h1]
  · intro x
    have h1 : (XReal.nan /. fin 1) = XReal.nan := rfl
    have h2 : FloatOps.ln XReal.nan = XReal.nan := rfl
    have h3 : FloatOps.neg XReal.nan = XReal.nan := rfl
    simp [logDensityWrtRoot, h1, h2, h3]
  · refine ⟨⟨fin 1, pinf⟩, ?_, rfl⟩
    have h1 : recip (fin 0) = pinf := by
      simp [recip, f_div_zero, infOf]
    have h2 : FloatOps.gt pinf (fin 0) = true := rfl
    simp [Gamma.fromShapeScale, Gamma.new, h1, h2]

/-- **C22**: the default values are valid distributions with the documented parameters. -/
theorem C22_defaults :
    Normal.new (fin 0) (fin 1) = .ok (Normal.default : Normal XReal) ∧
    Exponential.new (fin 1) = .ok (Exponential.default : Exponential XReal) ∧
    Gamma.new (fin 1) (fin 1) = .ok (Gamma.default : Gamma XReal) ∧
    Beta.new (fin 1) (fin 1) = .ok (Beta.default : Beta XReal) ∧
    ChiSquared.new (fin 1) = .ok (ChiSquared.default : ChiSquared XReal) ∧
    Cauchy.standard = .ok (⟨fin 0, fin 1⟩ : Cauchy XReal) ∧
    StudentT.default = .ok (⟨fin 1⟩ : StudentT XReal) ∧
    Bernoulli.new (fin (1/2)) = .ok (Bernoulli.default : Bernoulli XReal) ∧
    Geometric.new (fin (1/2)) = .ok (Geometric.default : Geometric XReal) ∧
    Poisson.new (fin 1) = .ok (Poisson.default : Poisson XReal) := by
  have h : ((2 : ℝ)⁻¹) ≤ 1 := by norm_num
  refine ⟨?_, ?_, ?_, ?_, ?_, ?_, ?_, ?_, ?_, ?_⟩
  · simp [Normal.new, Normal.default]
  · simp [Exponential.new, Exponential.default]
  · simp [Gamma.new, Gamma.default]
  · simp [Beta.new, Beta.default]
  · simp [ChiSquared.new, ChiSquared.default]
  · simp [Cauchy.standard, Cauchy.new]
  · simp [StudentT.default, StudentT.new]
  · simp [Bernoulli.new, Bernoulli.default, h]
  · simp [Geometric.new, Geometric.default, h]
  · simp [Poisson.new, Poisson.default]

/-! ### C23 -/

/-- The log-density is finite exactly on the support and `-∞` off it. -/
def SupportMatches {M T : Type} [Measure M T] [HasLogDensity M T XReal] (m : M) (x : T) : Prop :=
  (Measure.inSupport m x = true → (logDensityWrtRoot m x : XReal).IsFin) ∧
  (Measure.inSupport m x = false → (logDensityWrtRoot m x : XReal) = ninf)

/-- **C23**, continuous distributions at every real point. -/
theorem C23_support_continuous {a b : ℝ} (x : ℝ) :
    (∀ d, Normal.new (fin a) (fin b) = .ok d → SupportMatches d (fin x)) ∧
    (∀ d, Exponential.new (fin a) = .ok d → SupportMatches d (fin x)) ∧
    (∀ d, Gamma.new (fin a) (fin b) = .ok d → SupportMatches d (fin x)) ∧
    (∀ d, Beta.new (fin a) (fin b) = .ok d → SupportMatches d (fin x)) ∧
    (∀ d, ChiSquared.new (fin a) = .ok d → SupportMatches d (fin x)) ∧
    (∀ d, Cauchy.new (fin a) (fin b) = .ok d → SupportMatches d (fin x)) ∧
    (∀ d, StudentT.new (fin a) = .ok d → SupportMatches d (fin x)) := by
  refine ⟨?_, ?_, ?_, ?_, ?_, ?_, ?_⟩ <;> intro d h
  · obtain ⟨hb, rfl⟩ := Normal.new_ok h
    exact ⟨fun _ => ⟨_, Normal.ld hb⟩, fun h => by cases h⟩
  · obtain ⟨ha, rfl⟩ := Exponential.new_ok h
    refine ⟨fun h => ⟨_, Exponential.ld_of_nonneg ha ?_⟩, fun h => Exponential.ld_of_neg ?_⟩
    · simpa [Measure.inSupport] using h
    · simpa [Measure.inSupport] using h
  · obtain ⟨ha, hb, rfl⟩ := Gamma.new_ok h
    refine ⟨fun h => ⟨_, Gamma.ld_of_pos ha hb ?_⟩, fun h => Gamma.ld_of_nonpos ?_⟩
    · simpa [Measure.inSupport] using h
    · simpa [Measure.inSupport] using h
  · obtain ⟨ha, hb, rfl⟩ := Beta.new_ok h
    refine ⟨fun h => ?_, fun h => Beta.ld_of_not_mem ?_⟩
    · have h : 0 < x ∧ x < 1 := by simpa [Measure.inSupport] using h
      exact ⟨_, Beta.ld_of_mem ha hb h.1 h.2⟩
    · simpa [Measure.inSupport] using h
  · obtain ⟨ha, rfl⟩ := ChiSquared.new_ok h
    refine ⟨fun h => ⟨_, ChiSquared.ld_of_pos ha ?_⟩, fun h => ChiSquared.ld_of_nonpos ?_⟩
    · simpa [Measure.inSupport] using h
    · simpa [Measure.inSupport] using h
  · obtain ⟨hb, rfl⟩ := Cauchy.new_ok h
    exact ⟨fun _ => ⟨_, Cauchy.ld hb⟩, fun h => by cases h⟩
  · obtain ⟨ha, rfl⟩ := StudentT.new_ok h
    exact ⟨fun _ => ⟨_, StudentT.ld ha⟩, fun h => by cases h⟩

/-- **C23**, discrete distributions, parameters strictly inside the domain. -/
theorem C23_support_discrete {p r : ℝ} (h0 : 0 < p) (h1 : p < 1) (hr : 0 < r) (n k : ℕ) (x : UInt8)
    (ps : List ℝ) (hps : ∀ p ∈ ps, 0 < p) :
    SupportMatches (⟨fin p⟩ : Bernoulli XReal) x ∧
    SupportMatches (⟨n, fin p⟩ : Binomial XReal) k ∧
    SupportMatches (⟨fin p⟩ : Geometric XReal) k ∧
    SupportMatches (⟨n, fin p⟩ : NegativeBinomial XReal) k ∧
    SupportMatches (⟨fin r⟩ : Poisson XReal) k ∧
    SupportMatches (⟨ps.map fin⟩ : Categorical XReal) k := by
  have hq : 0 < 1 - p := by linarith
  refine ⟨⟨?_, ?_⟩, ⟨?_, ?_⟩, ⟨?_, ?_⟩, ⟨?_, ?_⟩, ⟨?_, ?_⟩, ⟨?_, ?_⟩⟩ <;> intro h
  · have h : x = 0 ∨ x = 1 := by simpa [Measure.inSupport] using h
    rcases h with rfl | rfl <;> simp [logDensityWrtRoot, f_ln _ h0, f_ln _ hq]
  · have h : x ≠ 0 ∧ x ≠ 1 := by simpa [Measure.inSupport] using h
    simp [logDensityWrtRoot, h.1, h.2]
  · have h : k ≤ n := by simpa [Measure.inSupport] using h
    exact ⟨_, Binomial.ld_of_le h0 h1 h⟩
  · have h : n < k := by simpa [Measure.inSupport] using h
    simp [logDensityWrtRoot, not_le.mpr h]
  · have h : 1 ≤ k := by simpa [Measure.inSupport] using h
    exact ⟨_, Geometric.ld_of_pos h0 h1 h⟩
  · have h : k = 0 := by simpa [Measure.inSupport] using h
    simp [logDensityWrtRoot, h]
  · exact ⟨_, NegativeBinomial.ld h0 h1⟩
  · cases h
  · exact ⟨_, Poisson.ld hr k⟩
  · cases h
  · have h : k < ps.length := by simpa [Measure.inSupport] using h
    simp [logDensityWrtRoot, h, f_ln _ (hps _ (List.getElem_mem h))]
  · have h : ps.length ≤ k := by simpa [Measure.inSupport] using h
    have : ps[k]? = none := by simp [h]
    simp [logDensityWrtRoot, this]

example : (0 : ℝ) < 1/2 ∧ (1/2 : ℝ) < 1 ∧ ∀ p ∈ [(1/4 : ℝ), 3/4], 0 < p := by norm_num

/-- **C23**: reweighting by a finite log-weight keeps support and density in agreement. -/
theorem C23_support_weighted {M T : Type} [Measure M T] [HasLogDensity M T XReal] (m : M) (w : ℝ) (x : T)
    (h : SupportMatches m x) : SupportMatches (⟨m, fin w⟩ : WeightedMeasure M XReal) x := by
  constructor
  · intro hs
    obtain ⟨a, ha⟩ := h.1 hs
    exact ⟨w + a, by simp only [logDensityWrtRoot] at ha ⊢; rw [ha]; rfl⟩
  · intro hs
    have ha := h.2 hs
    simp only [logDensityWrtRoot] at ha ⊢; rw [ha]; rfl

end Verif
