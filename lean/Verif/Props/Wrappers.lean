import Verif.Props.Iid
import Verif.Props.Derived
import Verif.Props.Moments
import Verif.Props.Product
import Verif.Props.Mixture
import Verif.Props.CoreDensity
import Verif.Model.CoreExtra

/-!
# Reference measures, wrappers, shared roots, partial evaluation of decompositions (C97, C98)
and further theorems for C07, C27, C30 and C36
-/

namespace Verif
open FloatOps XReal Spec ExponentialFamily

/-- A reference measure: its log-density with respect to its own root is zero and its support is
everything. -/
structure Spec.IsReference {B T : Type} [Measure B T] [HasLogDensity B T XReal] (b : B) : Prop where
  zero : ∀ x : T, logDensityWrtRoot b x = fin 0
  support : ∀ x : T, Measure.inSupport b x = true

/-! ### C97 -/

/-- **C97**: the two primitive measures are reference measures and are their own roots; the product of
two reference measures is one. -/
theorem C97_primitive {T : Type} :
    (∀ l : LebesgueMeasure T, IsReference l ∧ Measure.rootMeasure l = l) ∧
    (∀ c : CountingMeasure T, IsReference c ∧ Measure.rootMeasure c = c) ∧
    (∀ {B1 B2 T1 T2 : Type} [Measure B1 T1] [Measure B2 T2] [HasLogDensity B1 T1 XReal]
      [HasLogDensity B2 T2 XReal] (b1 : B1) (b2 : B2), IsReference b1 → IsReference b2 →
      IsReference (⟨b1, b2⟩ : ProductMeasure B1 B2)) := by
  refine ⟨fun l => ⟨⟨fun _ => rfl, fun _ => rfl⟩, rfl⟩, fun c => ⟨⟨fun _ => rfl, fun _ => rfl⟩, rfl⟩, ?_⟩
  intro B1 B2 T1 T2 _ _ _ _ b1 b2 h1 h2
  refine ⟨fun x => ?_, fun x => ?_⟩
  · show (logDensityWrtRoot b1 x.1 +. logDensityWrtRoot b2 x.2) = _
    rw [h1.zero, h2.zero, f_add, add_zero]
  · show (Measure.inSupport b1 x.1 && Measure.inSupport b2 x.2) = true
    rw [h1.support, h2.support]; rfl

/-- **C97**: the root measure of every distribution and of every derived measure on the integers is
Lebesgue or counting measure, hence a reference measure. -/
theorem C97_distribution_roots :
    (∀ d : Normal XReal, IsReference (B := LebesgueMeasure XReal) (Measure.rootMeasure d)) ∧
    (∀ d : StdNormal XReal, IsReference (B := LebesgueMeasure XReal) (Measure.rootMeasure d)) ∧
    (∀ d : Exponential XReal, IsReference (B := LebesgueMeasure XReal) (Measure.rootMeasure d)) ∧
    (∀ d : Gamma XReal, IsReference (B := LebesgueMeasure XReal) (Measure.rootMeasure d)) ∧
    (∀ d : Beta XReal, IsReference (B := LebesgueMeasure XReal) (Measure.rootMeasure d)) ∧
    (∀ d : ChiSquared XReal, IsReference (B := LebesgueMeasure XReal) (Measure.rootMeasure d)) ∧
    (∀ d : Cauchy XReal, IsReference (B := LebesgueMeasure XReal) (Measure.rootMeasure d)) ∧
    (∀ d : StudentT XReal, IsReference (B := LebesgueMeasure XReal) (Measure.rootMeasure d)) ∧
    (∀ d : Bernoulli XReal, IsReference (B := CountingMeasure UInt8) (Measure.rootMeasure d)) ∧
    (∀ d : Binomial XReal, IsReference (B := CountingMeasure ℕ) (Measure.rootMeasure d)) ∧
    (∀ d : Categorical XReal, IsReference (B := CountingMeasure ℕ) (Measure.rootMeasure d)) ∧
    (∀ d : Geometric XReal, IsReference (B := CountingMeasure ℕ) (Measure.rootMeasure d)) ∧
    (∀ d : NegativeBinomial XReal, IsReference (B := CountingMeasure ℕ) (Measure.rootMeasure d)) ∧
    (∀ d : Poisson XReal, IsReference (B := CountingMeasure ℕ) (Measure.rootMeasure d)) ∧
    (∀ d : FactorialMeasure XReal, IsReference (B := CountingMeasure ℕ) (Measure.rootMeasure d)) ∧
    (∀ d : BinomialCoefficientMeasure XReal, IsReference (B := CountingMeasure ℕ) (Measure.rootMeasure d)) ∧
    (∀ d : NegativeBinomialCoefficientMeasure XReal,
      IsReference (B := CountingMeasure ℕ) (Measure.rootMeasure d)) ∧
    (∀ d : Dirac ℕ, IsReference (B := CountingMeasure ℕ) (Measure.rootMeasure d)) := by
  refine ⟨?_, ?_, ?_, ?_, ?_, ?_, ?_, ?_, ?_, ?_, ?_, ?_, ?_, ?_, ?_, ?_, ?_, ?_⟩ <;>
    intro d <;> exact ⟨fun _ => rfl, fun _ => rfl⟩

/-- **C97**: weighting, integration against a function and the exponential-family marker keep the
support and the root measure of what they wrap, for every measure (so also when nested); product,
push-forward and independent samples are built from the support of their parts, and the root of a
product is the product of the roots, that of a push-forward is Lebesgue measure, that of independent
samples the Lebesgue or counting measure on lists. -/
theorem C97_wrappers {M M' T T' : Type} [i : Measure M T] [i' : Measure M' T'] (m : M) (m' : M') (x : T)
    (x' : T') (w : XReal) (g : T → XReal) :
    (Measure.inSupport (⟨m, w⟩ : WeightedMeasure M XReal) x = Measure.inSupport m x ∧
      Measure.rootMeasure (⟨m, w⟩ : WeightedMeasure M XReal) = Measure.rootMeasure m) ∧
    (Measure.inSupport (⟨m, g⟩ : IntegralMeasure M T XReal) x = Measure.inSupport m x ∧
      Measure.rootMeasure (⟨m, g⟩ : IntegralMeasure M T XReal) = Measure.rootMeasure m) ∧
    (Measure.inSupport (⟨m⟩ : ExpFam M) x = Measure.inSupport m x ∧
      Measure.rootMeasure (⟨m⟩ : ExpFam M) = Measure.rootMeasure m) ∧
    ((Measure.inSupport (⟨m, m'⟩ : ProductMeasure M M') (x, x') = true ↔
        Measure.inSupport m x = true ∧ Measure.inSupport m' x' = true) ∧
      Measure.rootMeasure (⟨m, m'⟩ : ProductMeasure M M') =
        ⟨Measure.rootMeasure m, Measure.rootMeasure m'⟩) ∧
    (∀ {N : Type} [Measure N XReal] (n : N) (t : Transform XReal) (y : XReal),
      Measure.inSupport (pushforward n t) y = Measure.inSupport n (t.inverse y) ∧
      IsReference (B := LebesgueMeasure XReal) (Measure.rootMeasure (pushforward n t))) :=
  ⟨⟨rfl, rfl⟩, ⟨rfl, rfl⟩, ⟨rfl, rfl⟩, ⟨Bool.and_eq_true_iff, rfl⟩,
    fun _ _ _ => ⟨rfl, fun _ => rfl, fun _ => rfl⟩⟩

/-- A point `t.forward x` with `x` in the support of the base lies in the support of the push-forward
when the transformation is undone by its inverse at `x`. -/
theorem C97_pushforward_image {N : Type} [Measure N XReal] (n : N) (t : Transform XReal) (x : XReal)
    (hx : Measure.inSupport n x = true) (hinv : t.inverse (t.forward x) = x) :
    Measure.inSupport (pushforward n t) ((pushforward n t).forward x) = true := by
  show Measure.inSupport n (t.inverse (t.forward x)) = true
  rw [hinv, hx]

example : (Transform.linearT (fin 2) (fin 1)).inverse ((Transform.linearT (fin 2) (fin 1)).forward (fin 5))
    = fin 5 := by
  simp only [Transform.linearT, f_mul, f_add, f_sub]
  rw [f_div _ _ (by norm_num)]
  norm_num

local instance : IIDRoot (Measure.Root (Normal XReal)) := inferInstanceAs (IIDRoot (LebesgueMeasure XReal))
local instance : IIDRoot (Measure.Root (Gamma XReal)) := inferInstanceAs (IIDRoot (LebesgueMeasure XReal))
local instance : IIDRoot (Measure.Root (Poisson XReal)) := inferInstanceAs (IIDRoot (CountingMeasure ℕ))
local instance : IIDRoot (Measure.Root (Categorical XReal)) := inferInstanceAs (IIDRoot (CountingMeasure ℕ))

/-- **C97**: the roots of independent samples are reference measures. -/
theorem C97_iid_roots :
    (∀ d : Normal XReal, IsReference (B := LebesgueMeasure (List XReal)) (Measure.rootMeasure (IID.ofDist d))) ∧
    (∀ d : Gamma XReal, IsReference (B := LebesgueMeasure (List XReal)) (Measure.rootMeasure (IID.ofDist d))) ∧
    (∀ d : Poisson XReal, IsReference (B := CountingMeasure (List ℕ)) (Measure.rootMeasure (IID.ofDist d))) ∧
    (∀ d : Categorical XReal, IsReference (B := CountingMeasure (List ℕ)) (Measure.rootMeasure (IID.ofDist d))) := by
  refine ⟨?_, ?_, ?_, ?_⟩ <;> intro d <;> exact ⟨fun _ => rfl, fun _ => rfl⟩

/-- **C97**: a mixture's root is the root of its first component; asking for it panics exactly when there
is no component, which no successful constructor produces. -/
theorem C97_mixture_root {M T : Type} [i : Measure M T] (cs : List M) (ws : List ℝ)
    (m : MixtureMeasure M XReal) (h : MixtureMeasure.new cs (ws.map fin) = .ok m) :
    m.numComponents = cs.length ∧ m.numComponents = m.weights.length ∧ 0 < m.numComponents ∧
    ∃ c, cs[0]? = some c ∧ m.rootMeasure = .ok (Measure.rootMeasure c) := by
  have hok : cs.length = ws.length ∧ |ws.sum - 1| < 1/10^10 := by
    by_contra hn
    obtain ⟨p, hp⟩ := (C36_new cs ws).2 hn
    rw [hp] at h
    cases h
  rw [(C36_new cs ws).1 hok] at h
  obtain rfl : (⟨cs, ws.map fin⟩ : MixtureMeasure M XReal) = m := by simpa using h
  have hpos : 0 < cs.length := by
    rcases Nat.eq_zero_or_pos cs.length with h0 | h0
    · have : ws = [] := List.length_eq_zero_iff.mp (hok.1 ▸ h0)
      have h2 := hok.2
      rw [this] at h2
      norm_num at h2
    · exact h0
  refine ⟨rfl, by simp [MixtureMeasure.numComponents, hok.1], hpos, ?_⟩
  cases cs with
  | nil => simp at hpos
  | cons c cs => exact ⟨c, rfl, rfl⟩

example : ∃ m : MixtureMeasure (Normal XReal) XReal,
    MixtureMeasure.new [⟨fin 0, fin 1⟩, ⟨fin 2, fin 1⟩] ([1/4, 3/4].map fin) = .ok m :=
  ⟨_, (C36_new _ _).1 ⟨rfl, by norm_num⟩⟩

/-- **C97**: without a call of `wrt` the builder returns the log-density with respect to the root: for
every measure whose root is a reference measure, every point and every value (also infinite or NaN), when
the two fields of the builder are at different addresses.  Missing: builders in which the zero-sized root
shares the address of the measure, for which it is false (`C97_default_base_violated`).  The builder made by `ad_log_density`,
also after `with_reverse_ad` or `with_forward_ad`, has the same measure and base. -/
theorem C97_default_base_partial {M T : Type} [i : Measure M T] [Measure i.Root T] [HasLogDensity M T XReal]
    [HasLogDensity i.Root T XReal] (m : M) (h : IsReference (Measure.rootMeasure m)) (x : T)
    (lay : LogDensity.Layout) (hl : lay.Apart) (addr : ℕ) :
    (LogDensity.new m).evalAt lay addr x = (logDensityWrtRoot m x : XReal) ∧
    AutoDiff.adLogDensity (AutoDiff.withAd m) = ((LogDensity.new m).measure, (LogDensity.new m).base) := by
  refine ⟨?_, rfl⟩
  have h1 : ¬ addr + lay.offMeasure = addr + lay.offBase := by
    intro hc; exact hl (Nat.add_left_cancel hc)
  have e : (LogDensity.new m).evalAt lay addr x
      = (logDensityWrtRoot m x -. logDensityWrtRoot (Measure.rootMeasure m) x : XReal) := by
    unfold LogDensity.evalAt
    rw [if_neg h1]
    unfold LogDensity.dispatch
    cases Measure.isExponentialFamily M <;> cases Measure.isExponentialFamily i.Root <;> rfl
  rw [e, h.zero]
  cases (logDensityWrtRoot m x : XReal) with
  | fin a => rw [f_sub, sub_zero]
  | pinf => rfl
  | ninf => rfl
  | nan => rfl

/-- **C97** violated without the condition on addresses: in a legal layout that gives the zero-sized root
the address of the measure, `Normal(0,1).log_density().at(0)` is not the log-density at 0. -/
theorem C97_default_base_violated :
    ∃ lay : LogDensity.Layout, lay.Legal ∧ lay.sizeMeasure = 16 ∧ lay.sizeBase = 0 ∧ ∀ addr,
      LogDensity.evalAt (F := XReal) (B := LebesgueMeasure XReal) lay addr
          (LogDensity.new (⟨fin 0, fin 1⟩ : Normal XReal)) (fin 0)
        ≠ logDensityWrtRoot (⟨fin 0, fin 1⟩ : Normal XReal) (fin 0) := by
  obtain ⟨lay, h1, h2, h3, h4⟩ := C04_zero_sized_base_violated
  refine ⟨lay, h1, h2, h3, fun addr he => h4 addr ?_⟩
  have e : relLogDensity (F := XReal) lay addr (⟨fin 0, fin 1⟩ : Normal XReal)
      ({} : LebesgueMeasure XReal) (fin 0)
      = LogDensity.evalAt (F := XReal) (B := LebesgueMeasure XReal) lay addr
          (LogDensity.new (⟨fin 0, fin 1⟩ : Normal XReal)) (fin 0) := rfl
  rw [e, he]
  have hb : (logDensityWrtRoot ({} : LebesgueMeasure XReal) (fin 0 : XReal) : XReal) = fin 0 := rfl
  rw [hb]
  cases (logDensityWrtRoot (⟨fin 0, fin 1⟩ : Normal XReal) (fin 0 : XReal) : XReal) with
  | fin a => rw [f_sub, sub_zero]
  | pinf => rfl
  | ninf => rfl
  | nan => rfl

example : IsReference (B := LebesgueMeasure XReal) (Measure.rootMeasure (⟨fin 1, fin 2⟩ : Normal XReal)) ∧
    LogDensity.Layout.Apart ⟨0, 16, 16, 0, 16⟩ :=
  ⟨C97_distribution_roots.1 _, by simp [LogDensity.Layout.Apart]⟩

/-- **C97**: the coefficient measures claim exactly the points of positive mass. -/
theorem C97_coefficient_support (n k : ℕ) :
    (Measure.inSupport (⟨n⟩ : BinomialCoefficientMeasure XReal) k = true ↔
      0 < density (logDensityWrtRoot (⟨n⟩ : BinomialCoefficientMeasure XReal) k)) ∧
    (0 < n → (Measure.inSupport (⟨n⟩ : NegativeBinomialCoefficientMeasure XReal) k = true ↔
      0 < density (logDensityWrtRoot (⟨n⟩ : NegativeBinomialCoefficientMeasure XReal) k))) ∧
    (Measure.inSupport ({} : FactorialMeasure XReal) k = true ↔
      0 < density (logDensityWrtRoot ({} : FactorialMeasure XReal) k)) := by
  refine ⟨?_, fun hn => ?_, ?_⟩
  · rw [(C39_binomial_coefficient n k).2.1]
    show decide (k ≤ n) = true ↔ _
    rw [decide_eq_true_iff, Nat.cast_pos]
    exact ⟨Nat.choose_pos, fun h => by
      by_contra hk
      rw [Nat.choose_eq_zero_of_lt (by omega)] at h
      exact absurd h (lt_irrefl 0)⟩
  · rw [C39_negative_binomial_coefficient hn, density_fin]
    exact ⟨fun _ => Real.exp_pos _, fun _ => rfl⟩
  · obtain ⟨v, hv, -⟩ := C38_log_factorial_accurate k
    simp only [logDensityWrtRoot, hv, f_neg, density_fin]
    exact ⟨fun _ => Real.exp_pos _, fun _ => rfl⟩

/-! ### C98 -/

/-- **C98**: the joint log-density of a pair of measures with the same root is the sum of the two
log-densities, so the density is the product of the densities; it does not depend on the order of the pair
and is the value of the product measure at the point repeated. -/
theorem C98_shared_root {M1 M2 T : Type} [HasLogDensity M1 T XReal] [HasLogDensity M2 T XReal] (m1 : M1)
    (m2 : M2) (x : T) :
    (logDensityWrtSharedRoot (m1, m2) x : XReal) = logDensityWrtSharedRoot (m2, m1) x ∧
    (logDensityWrtSharedRoot (m1, m2) x : XReal) =
      logDensityWrtRoot (⟨m1, m2⟩ : ProductMeasure M1 M2) (x, x) ∧
    ((logDensityWrtRoot m1 x : XReal).IsFin ∨ (logDensityWrtRoot m1 x : XReal) = ninf →
      (logDensityWrtRoot m2 x : XReal).IsFin ∨ (logDensityWrtRoot m2 x : XReal) = ninf →
      density (logDensityWrtSharedRoot (m1, m2) x) =
        density (logDensityWrtRoot m1 x) * density (logDensityWrtRoot m2 x)) := by
  refine ⟨?_, rfl, fun h1 h2 => (density_add h1 h2).1⟩
  show (logDensityWrtRoot m1 x +. logDensityWrtRoot m2 x : XReal) = (logDensityWrtRoot m2 x +. logDensityWrtRoot m1 x)
  exact XReal.add_comm' _ _

example : (logDensityWrtRoot (⟨fin 0, fin 1⟩ : Normal XReal) (fin 0) : XReal).IsFin := by
  simp [logDensityWrtRoot, f_div, f_ln _ two_pi_pos', f_ln _ one_pos]

/-- A pair of two standard normal distributions: what is returned is not the logarithm of a probability
density, its total mass is `1/(2√π)`. -/
theorem C98_not_normalised :
    massReal (fun x => logDensityWrtSharedRoot ((⟨fin 0, fin 1⟩ : Normal XReal), (⟨fin 0, fin 1⟩ : Normal XReal)) x)
      = ENNReal.ofReal (1 / (2 * √Real.pi)) := by
  have hd : ∀ x : ℝ, density (logDensityWrtSharedRoot ((⟨fin 0, fin 1⟩ : Normal XReal),
      (⟨fin 0, fin 1⟩ : Normal XReal)) (fin x)) = 1 / (2 * Real.pi) * Real.exp (-1 * x ^ 2) := by
    intro x
    have e : (logDensityWrtSharedRoot ((⟨fin 0, fin 1⟩ : Normal XReal), (⟨fin 0, fin 1⟩ : Normal XReal)) (fin x) : XReal)
        = fin (-x ^ 2 - Real.log (2 * Real.pi)) := by
      simp [logDensityWrtSharedRoot, logDensityWrtRoot, f_div, f_ln _ two_pi_pos', f_ln _ one_pos]
      ring
    rw [e, density_fin, sub_eq_add_neg, Real.exp_add, Real.exp_neg (Real.log _), Real.exp_log two_pi_pos']
    ring_nf
  unfold massReal
  simp only [hd]
  rw [← MeasureTheory.ofReal_integral_eq_lintegral_ofReal]
  · congr 1
    rw [MeasureTheory.integral_const_mul, integral_gaussian, div_one]
    have h := Real.sq_sqrt Real.pi_pos.le
    have h0 : √Real.pi ≠ 0 := (Real.sqrt_pos.mpr Real.pi_pos).ne'
    field_simp
    rw [h]
  · exact (integrable_exp_neg_mul_sq one_pos).const_mul _
  · exact Filter.Eventually.of_forall fun x => by positivity

/-! ### C07: partial evaluation -/

/-- **C07**, parts: the parameter part, the data part and the constant part that can be computed once and
kept are the sums of their terms, they do not depend on the other argument, and together with the mixed
terms they add up to the value; without mixed terms the value at any pair is the sum of the three kept
parts, so changing only the parameters changes the value by the difference of the parameter parts. -/
theorem C07_parts {X Θ : Type} (d : Decomposition X Θ XReal) (x : X) (θ θ' : Θ) (h : d.FiniteAt x θ)
    (h' : d.FiniteAt x θ') :
    d.evaluateDataTerms x = fin (d.dataTerms.map (fun f => (f x).toReal)).sum ∧
    d.evaluateParamTerms θ = fin (d.paramTerms.map (fun f => (f θ).toReal)).sum ∧
    d.constantSum = fin (d.constantTerms.map XReal.toReal).sum ∧
    d.evaluate x θ = (d.evaluateDataTerms x +. d.evaluateParamTerms θ +. d.constantSum
      +. fin (d.mixedTerms.map (fun f => (f x θ).toReal)).sum) ∧
    (d.mixedTerms = [] → d.evaluate x θ = (d.evaluateDataTerms x +. d.evaluateParamTerms θ +. d.constantSum) ∧
      (d.evaluate x θ -. d.evaluate x θ') = (d.evaluateParamTerms θ -. d.evaluateParamTerms θ')) := by
  have e1 : d.evaluateDataTerms x = fin (d.dataTerms.map (fun f => (f x).toReal)).sum := sum_isFin _ _ h.data
  have e2 : d.evaluateParamTerms θ = fin (d.paramTerms.map (fun f => (f θ).toReal)).sum := sum_isFin _ _ h.param
  have e2' : d.evaluateParamTerms θ' = fin (d.paramTerms.map (fun f => (f θ').toReal)).sum :=
    sum_isFin _ _ h'.param
  have e3 : d.constantSum = fin (d.constantTerms.map XReal.toReal).sum := sum_isFin' _ h.const
  refine ⟨e1, e2, e3, ?_, fun hm => ⟨?_, ?_⟩⟩
  · rw [C07_evaluate_is_total d x θ h, e1, e2, e3, f_add, f_add, f_add, Decomposition.total]
    congr 1; ring
  · rw [C07_evaluate_is_total d x θ h, e1, e2, e3, f_add, f_add, Decomposition.total, hm]
    congr 1; simp
  · rw [C07_evaluate_is_total d x θ h, C07_evaluate_is_total d x θ' h', e2, e2', f_sub, f_sub,
      Decomposition.total, Decomposition.total, hm]
    congr 1; simp

example : ∃ d : Decomposition ℝ ℝ XReal, d.mixedTerms = [] ∧ d.paramTerms ≠ [] ∧ ∀ x θ, d.FiniteAt x θ :=
  ⟨⟨[fun x => fin x], [fun θ => fin (2 * θ)], [], [fin 3]⟩, rfl, by simp,
    fun x θ => ⟨by simp, by simp, by simp, by simp⟩⟩

/-! ### C30: differences of natural parameters -/

theorem zipWith_sub_fin (as bs : List ℝ) :
    arraySub (as.map fin) (bs.map fin) = (List.zipWith (· - ·) as bs).map fin := by
  induction as generalizing bs with
  | nil => rfl
  | cons a as ih =>
    cases bs with
    | nil => rfl
    | cons b bs =>
      show (fin a -. fin b) :: arraySub (as.map fin) (bs.map fin) = _
      rw [ih]; rfl

theorem zipWith_mul_sub_sum (as bs ts : List ℝ) (h1 : as.length = ts.length) (h2 : bs.length = ts.length) :
    (List.zipWith (· * ·) (List.zipWith (· - ·) as bs) ts).sum =
      (List.zipWith (· * ·) as ts).sum - (List.zipWith (· * ·) bs ts).sum := by
  induction ts generalizing as bs with
  | nil => simp
  | cons t ts ih =>
    cases as with
    | nil => simp at h1
    | cons a as =>
      cases bs with
      | nil => simp at h2
      | cons b bs =>
        simp only [List.zipWith_cons_cons, List.sum_cons]
        rw [ih as bs (by simpa using h1) (by simpa using h2)]
        ring

/-- **C30**, relative densities of one family: for two members with finite natural parameters and
log-partitions, at a point with finite statistic and finite base log-density common to both, the
difference of the log-densities is `(η₁ - η₂)·T(x) - (A₁ - A₂)` with the array difference of the code;
the base measure drops out. -/
theorem C30_relative_within_family {D X : Type} [ExponentialFamily D X XReal] [ArrayStat D] (d1 d2 : D)
    (η1 η2 : List ℝ) (A1 A2 : ℝ) (h1 : Regular d1 η1 A1) (h2 : Regular d2 η2 A2) (x : X) (t : List ℝ) (b : ℝ)
    (ht1 : sufficientStatistic d1 x = t.map fin) (ht2 : sufficientStatistic d2 x = t.map fin)
    (hb1 : baseLogDensity d1 x = fin b) (hb2 : baseLogDensity d2 x = fin b) :
    (computeExpFamLogDensity d1 x -. computeExpFamLogDensity d2 x) =
      (dot (arraySub (toNatural d1) (toNatural d2)) (sufficientStatistic d1 x)
        -. (logPartition d1 -. logPartition d2)) := by
  have l1 : η1.length = t.length := by
    have := h1.stat x; rw [ht1, List.length_map] at this; exact this.symm
  have l2 : η2.length = t.length := by
    have := h2.stat x; rw [ht2, List.length_map] at this; exact this.symm
  have e1 : computeExpFamLogDensity d1 x = fin ((List.zipWith (· * ·) η1 t).sum - A1 + b) := by
    show expFamLogDensity d1 x = _
    rw [h1.formula, h1.nat, ht1, hb1]
    show (dot (η1.map fin) (t.map fin) -. fin A1) +. fin b = _
    rw [dot_fin, f_sub, f_add]
  have e2 : computeExpFamLogDensity d2 x = fin ((List.zipWith (· * ·) η2 t).sum - A2 + b) := by
    show expFamLogDensity d2 x = _
    rw [h2.formula, h2.nat, ht2, hb2]
    show (dot (η2.map fin) (t.map fin) -. fin A2) +. fin b = _
    rw [dot_fin, f_sub, f_add]
  have n1 : toNatural d1 = η1.map fin := congrArg Prod.fst h1.nat
  have n2 : toNatural d2 = η2.map fin := congrArg Prod.fst h2.nat
  have p1 : logPartition d1 = fin A1 := congrArg Prod.snd h1.nat
  have p2 : logPartition d2 = fin A2 := congrArg Prod.snd h2.nat
  rw [e1, e2, n1, n2, p1, p2, ht1, zipWith_sub_fin, dot_fin, zipWith_mul_sub_sum _ _ _ l1 l2]
  simp only [f_sub]
  congr 1
  ring

/-- two Normal distributions at a point of size 3 -/
example : ∃ η1 A1 η2 A2, Regular (⟨fin 0, fin 1⟩ : Normal XReal) η1 A1 ∧
    Regular (⟨fin 1, fin 2⟩ : Normal XReal) η2 A2 ∧
    sufficientStatistic (⟨fin 0, fin 1⟩ : Normal XReal) (fin 3) = [3, 9].map fin ∧
    sufficientStatistic (⟨fin 1, fin 2⟩ : Normal XReal) (fin 3) = [3, 9].map fin := by
  have key : ∀ μ σ : ℝ, 0 < σ → ∃ η A, Regular (⟨fin μ, fin σ⟩ : Normal XReal) η A := by
    intro μ σ hσ
    have hη : (naturalAndLogPartition (⟨fin μ, fin σ⟩ : Normal XReal)).1
        = [μ * (1 / (σ * σ)), -1/2 * (1 / (σ * σ))].map fin := by
      simp [naturalAndLogPartition, Normal.variance, recip, f_div _ _ (mul_pos hσ hσ).ne']
    obtain ⟨A, hA⟩ := lp_of_ef (d := (⟨fin μ, fin σ⟩ : Normal XReal)) (x := fin 0) (Normal.ef (μ := μ) (x := 0) hσ)
    exact ⟨_, A, ⟨by rw [← hη, ← hA], rfl, fun _ => rfl, fun _ => rfl⟩⟩
  obtain ⟨η1, A1, h1⟩ := key 0 1 one_pos
  obtain ⟨η2, A2, h2⟩ := key 1 2 two_pos
  refine ⟨η1, A1, η2, A2, h1, h2, ?_, ?_⟩ <;> simp [sufficientStatistic] <;> norm_num

/-! ### C36: the remaining constructor -/

/-- **C36**: `a.uniform_mixture(b)` always succeeds with both weights one half, and counts two
components. -/
theorem C36_uniform_mixture {M : Type} (a b : M) :
    (MixtureMeasure.uniformMixture a b : Except Panic (MixtureMeasure M XReal))
      = .ok ⟨[a, b], [fin (1/2), fin (1/2)]⟩ ∧
    (⟨[a, b], [fin (1/2), fin (1/2)]⟩ : MixtureMeasure M XReal).numComponents = 2 := by
  obtain ⟨ws, hw, hl, -, h⟩ := (C36_uniform [a, b]).1 (by simp)
  refine ⟨?_, rfl⟩
  rw [MixtureMeasure.uniformMixture, hw]
  match ws, hl, h with
  | [w1, w2], _, h =>
    have h1 : w1 = 1/2 := by rw [h w1 (by simp)]; norm_num
    have h2 : w2 = 1/2 := by rw [h w2 (by simp)]; norm_num
    rw [h1, h2]
    rfl

/-! ### C27: negative binomial, Gamma scale -/

/-- **C27**, negative binomial: `mean()` and `variance()` are those of the distribution in which the
probability of success and that of failure are exchanged: for every accepted `r`, `p` the pair `r`, `1-p` is
accepted too, and its log-density completed by the coefficient it lacks (C21) is normalised with the
reported mean and variance. -/
theorem C27_negative_binomial_exchanged (r : ℕ) (p : ℝ) (d : NegativeBinomial XReal)
    (h : NegativeBinomial.new r (fin p) = .ok d) :
    ∃ (d' : NegativeBinomial XReal) (m v : ℝ), NegativeBinomial.new r (fin (1 - p)) = .ok d' ∧
      d.mean = fin m ∧ d.variance = fin v ∧
      MomentsNat (fun k => logDensityWrtRoot d' k
        +. logDensityWrtRoot (⟨r⟩ : NegativeBinomialCoefficientMeasure XReal) k) m v := by
  obtain ⟨hr, ⟨h0, h1⟩, rfl⟩ := NegativeBinomial.new_ok h
  have hq : 0 < 1 - p := by linarith
  have hq1 : 1 - p < 1 := by linarith
  have hacc : NegativeBinomial.new r (fin (1 - p)) = .ok ⟨r, fin (1 - p)⟩ := by
    simp [NegativeBinomial.new, hr, h0, h1]
  obtain ⟨s, rfl⟩ : ∃ s, r = s + 1 := ⟨r - 1, by omega⟩
  have hmass : ∀ k : ℕ, density (logDensityWrtRoot (⟨s + 1, fin (1 - p)⟩ : NegativeBinomial XReal) k
        +. logDensityWrtRoot (⟨s + 1⟩ : NegativeBinomialCoefficientMeasure XReal) k)
      = (1 - p) ^ (s + 1) * ((k + s).choose s * p ^ k) := by
    intro k
    have hc : (0 : ℝ) < (k + s).choose s := by exact_mod_cast Nat.choose_pos (Nat.le_add_left s k)
    rw [C39_negative_binomial_coefficient (Nat.succ_pos s), NegativeBinomial.ld hq hq1, f_add, density_fin,
      Real.exp_add, Real.exp_add, exp_nat_mul_log hq, sub_sub_cancel, exp_nat_mul_log h0]
    rw [show k + (s + 1) - 1 = k + s by omega, Nat.choose_symm_add, Real.exp_log hc]
    ring
  have hn : ‖p‖ < 1 := by rw [Real.norm_eq_abs, abs_of_pos h0]; exact h1
  have hq0 : (1 - p) ≠ 0 := hq.ne'
  have s0 := (hasSum_choose_mul_geometric_of_norm_lt_one s hn).mul_left ((1 - p) ^ (s + 1))
  have s1 := (hasSum_choose_mul_geometric_of_norm_lt_one (s + 1) hn).mul_left ((1 - p) ^ (s + 1) * ((s + 1) * p))
  have s2 := (hasSum_choose_mul_geometric_of_norm_lt_one (s + 2) hn).mul_left
    ((1 - p) ^ (s + 1) * ((s + 1) * (s + 2) * p ^ 2))
  have t0 : HasSum (fun k : ℕ => (1 - p) ^ (s + 1) * (((k + s).choose s : ℝ) * p ^ k)) 1 := by
    rwa [mul_one_div, div_self (pow_ne_zero _ hq0)] at s0
  have c1 : ∀ k : ℕ, ((k:ℝ) + 1) * ((k + 1 + s).choose s : ℝ) = (s + 1) * ((k + (s + 1)).choose (s + 1) : ℝ) := by
    intro k
    have := Nat.choose_succ_right_eq (k + 1 + s) s
    rw [show k + 1 + s - s = k + 1 by omega] at this
    have h' : (((k + 1 + s).choose (s + 1) : ℕ) : ℝ) * ((s : ℝ) + 1) = (((k + 1 + s).choose s : ℕ) : ℝ) * (k + 1) := by
      exact_mod_cast this
    rw [show k + (s + 1) = k + 1 + s by ring]
    linarith
  have t1 : HasSum (fun k : ℕ => (k:ℝ) * ((1 - p) ^ (s + 1) * (((k + s).choose s : ℝ) * p ^ k)))
      ((s + 1) * p / (1 - p)) := by
    rw [← hasSum_nat_add_iff' 1]
    simp only [Finset.range_one, Finset.sum_singleton, Nat.cast_zero, zero_mul, sub_zero]
    have e : (1 - p) ^ (s + 1) * (((s:ℝ) + 1) * p) * (1 / (1 - p) ^ (s + 1 + 1)) = (s + 1) * p / (1 - p) := by
      field_simp
      ring
    rw [e] at s1
    refine s1.congr_fun fun k => ?_
    have := c1 k
    push_cast
    rw [pow_succ p k]
    linear_combination (1 - p) ^ (s + 1) * p ^ k * p * this
  have t2 : HasSum (fun k : ℕ => (k:ℝ) * (k - 1) * ((1 - p) ^ (s + 1) * (((k + s).choose s : ℝ) * p ^ k)))
      ((s + 1) * (s + 2) * p ^ 2 / (1 - p) ^ 2) := by
    rw [← hasSum_nat_add_iff' 2]
    simp only [Finset.sum_range_succ, Finset.range_zero, Finset.sum_empty, Nat.cast_zero, zero_mul, Nat.cast_one,
      sub_self, mul_zero, add_zero, sub_zero]
    have e : (1 - p) ^ (s + 1) * (((s:ℝ) + 1) * (s + 2) * p ^ 2) * (1 / (1 - p) ^ (s + 2 + 1)) =
        (s + 1) * (s + 2) * p ^ 2 / (1 - p) ^ 2 := by
      field_simp
      ring
    rw [e] at s2
    refine s2.congr_fun fun k => ?_
    have a1 := c1 (k + 1)
    have a2 : ((k:ℝ) + 1) * ((k + 1 + (s + 1)).choose (s + 1) : ℝ) =
        (s + 2) * ((k + (s + 2)).choose (s + 2) : ℝ) := by
      have := Nat.choose_succ_right_eq (k + 1 + (s + 1)) (s + 1)
      rw [show k + 1 + (s + 1) - (s + 1) = k + 1 by omega] at this
      have h' : (((k + 1 + (s + 1)).choose (s + 2) : ℕ) : ℝ) * ((s : ℝ) + 2) =
          (((k + 1 + (s + 1)).choose (s + 1) : ℕ) : ℝ) * (k + 1) := by
        have : (k + 1 + (s + 1)).choose (s + 2) * (s + 2) = (k + 1 + (s + 1)).choose (s + 1) * (k + 1) := this
        exact_mod_cast this
      rw [show k + (s + 2) = k + 1 + (s + 1) by ring]
      linarith
    push_cast at a1 ⊢
    rw [pow_add p k 2]
    linear_combination (1 - p) ^ (s + 1) * p ^ k * p ^ 2 * ((k + 1) * a1 + (s + 1) * a2)
  have t3 : HasSum (fun k : ℕ => (k:ℝ) ^ 2 * ((1 - p) ^ (s + 1) * (((k + s).choose s : ℝ) * p ^ k)))
      ((s + 1) * (s + 2) * p ^ 2 / (1 - p) ^ 2 + (s + 1) * p / (1 - p)) := by
    refine (t2.add t1).congr_fun fun k => ?_
    ring
  refine ⟨_, (s + 1) * p / (1 - p), (s + 1) * p / ((1 - p) * (1 - p)), hacc, ?_, ?_, ?_⟩
  · simp [NegativeBinomial.mean, f_div _ _ hq0]
  · simp [NegativeBinomial.variance, f_div _ _ (mul_pos hq hq).ne']
  · have := momentsNat_of_raw (ld := fun k => logDensityWrtRoot (⟨s + 1, fin (1 - p)⟩ : NegativeBinomial XReal) k
      +. logDensityWrtRoot (⟨s + 1⟩ : NegativeBinomialCoefficientMeasure XReal) k)
      (by simpa only [hmass] using t0) (by simpa only [hmass] using t1) (by simpa only [hmass] using t3)
    convert this using 1
    field_simp
    ring

example : NegativeBinomial.new 3 (fin (1/4)) = .ok ⟨3, fin (1/4)⟩ := by
  have h : ((4 : ℝ)⁻¹) < 1 := by norm_num
  simp [NegativeBinomial.new, h]

/-- **C27**, Gamma: `scale()` is the reciprocal of the rate, so that mean and variance are `shape·scale` and
`shape·scale²`, and building from shape and scale gives the scale back. -/
theorem C27_gamma_scale (a s : ℝ) (ha : 0 < a) (hs : 0 < s) :
    ∃ d : Gamma XReal, Gamma.fromShapeScale (fin a) (fin s) = .ok d ∧
      d.scale = fin s ∧ d.mean = fin (a * s) ∧ d.variance = fin (a * s ^ 2) := by
  have hi : (0:ℝ) < 1 / s := by positivity
  refine ⟨⟨fin a, fin (1 / s)⟩, ?_, ?_, ?_, ?_⟩
  · simp only [Gamma.fromShapeScale, recip, f_one, f_div _ _ hs.ne', Gamma.new, f_gt, f_zero]
    simp [ha, hs]
  · simp only [Gamma.scale, recip, f_one, f_div _ _ hi.ne', one_div_one_div]
  · rw [Gamma.mean, f_div _ _ hi.ne', div_div_eq_mul_div, div_one]
  · rw [Gamma.variance, f_mul, f_div _ _ (mul_pos hi hi).ne']
    congr 1
    field_simp

end Verif
