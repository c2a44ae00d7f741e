import Verif.Spec.Core
import Verif.Lemmas.Num
import Verif.Model.DistContinuous
import Mathlib.Analysis.Real.Pi.Bounds

/-!
# C01–C07: the density core
-/

namespace Verif
open FloatOps XReal LogDensity

section
variable {M B C T F : Type}

/-- **C01** (for non-zero-sized measure and base, every legal layout): `m.log_density().wrt(b).at(x)`
is the difference of the root log-densities, in any number type, whatever the exponential-family
markers.  Missing from the full claim: zero-sized operands that the compiler places at the same
address, see `C04_zero_sized_base_violated`. -/
theorem C01_relative_log_density_partial [FloatOps F] [Measure M T] [Measure B T]
    [HasLogDensity M T F] [HasLogDensity B T F]
    (lay : Layout) (hlay : lay.Legal) (hM : 0 < lay.sizeMeasure) (hB : 0 < lay.sizeBase)
    (addr : ℕ) (m : M) (b : B) (x : T) :
    relLogDensity (F := F) lay addr m b x = logDensityWrtRoot m x -. logDensityWrtRoot b x := by
  have h : ¬ (addr + lay.offMeasure = addr + lay.offBase) := by
    have := hlay.disjoint; omega
  simp only [relLogDensity, evalAt, h, if_false, LogDensity.wrt, LogDensity.new, dispatch]
  cases Measure.isExponentialFamily M <;> cases Measure.isExponentialFamily B <;> rfl

/-- **C01**, zero-sized operands: the same whenever the two fields are at different addresses. -/
theorem C01_relative_log_density_apart_partial [FloatOps F] [Measure M T] [Measure B T]
    [HasLogDensity M T F] [HasLogDensity B T F]
    (lay : Layout) (hlay : lay.Apart) (addr : ℕ) (m : M) (b : B) (x : T) :
    relLogDensity (F := F) lay addr m b x = logDensityWrtRoot m x -. logDensityWrtRoot b x := by
  have h : ¬ (addr + lay.offMeasure = addr + lay.offBase) := by
    intro h; exact hlay (by omega)
  simp only [relLogDensity, evalAt, h, if_false, LogDensity.wrt, LogDensity.new, dispatch]
  cases Measure.isExponentialFamily M <;> cases Measure.isExponentialFamily B <;> rfl

/-- hypotheses of C01 are met by a 16-byte Normal next to a 16-byte Normal -/
example : Layout.Legal ⟨0, 16, 16, 16, 32⟩ ∧ (0 < (16 : ℕ)) := ⟨⟨by decide, by decide, by decide⟩, by decide⟩
example : Layout.Apart ⟨0, 16, 16, 0, 16⟩ := by simp [Layout.Apart]

/-- **C02**, identity: a measure relative to itself has log-density 0 where it is finite, for every layout
(also when the two fields share an address, where the shortcut returns 0). -/
theorem C02_self [Measure M T] [HasLogDensity M T XReal]
    (lay : Layout) (addr : ℕ) (m : M) (x : T)
    (hm : (logDensityWrtRoot m x : XReal).IsFin) :
    relLogDensity (F := XReal) lay addr m m x = fin 0 := by
  by_cases h : lay.Apart
  · rw [C01_relative_log_density_apart_partial lay h]
    obtain ⟨a, ha⟩ := hm
    simp [ha]
  · have h' : addr + lay.offMeasure = addr + lay.offBase := by
      unfold Layout.Apart at h; omega
    simp [relLogDensity, evalAt, h']

/-- **C02**, antisymmetry, when the fields of both builders are at different addresses.  Missing from the
full claim: zero-sized operands sharing an address, for which it is false (`C02_violated`). -/
theorem C02_antisymm_partial [Measure M T] [Measure B T] [HasLogDensity M T XReal] [HasLogDensity B T XReal]
    (lay lay' : Layout) (hlay : lay.Apart) (hlay' : lay'.Apart) (addr addr' : ℕ) (m : M) (b : B) (x : T)
    (hm : (logDensityWrtRoot m x : XReal).IsFin) (hb : (logDensityWrtRoot b x : XReal).IsFin) :
    relLogDensity (F := XReal) lay' addr' b m x = neg (relLogDensity lay addr m b x) := by
  rw [C01_relative_log_density_apart_partial lay hlay,
    C01_relative_log_density_apart_partial lay' hlay']
  obtain ⟨a, ha⟩ := hm
  obtain ⟨c, hc⟩ := hb
  simp [ha, hc]

/-- **C02**, chain rule.  Only the two base densities need be finite: at points where `m` has
log-density `-∞` (or even NaN) both sides are still equal.  Missing from the full claim: zero-sized operands
sharing an address, for which it is false (`C02_violated`). -/
theorem C02_chain_partial [Measure M T] [Measure B T] [Measure C T] [HasLogDensity M T XReal]
    [HasLogDensity B T XReal] [HasLogDensity C T XReal]
    (l₁ l₂ l₃ : Layout) (h₁ : l₁.Apart) (h₂ : l₂.Apart) (h₃ : l₃.Apart) (a₁ a₂ a₃ : ℕ)
    (m : M) (b : B) (c : C) (x : T)
    (hb : (logDensityWrtRoot b x : XReal).IsFin) (hc : (logDensityWrtRoot c x : XReal).IsFin) :
    (relLogDensity (F := XReal) l₁ a₁ m b x +. relLogDensity l₂ a₂ b c x)
      = relLogDensity l₃ a₃ m c x := by
  rw [C01_relative_log_density_apart_partial l₁ h₁, C01_relative_log_density_apart_partial l₂ h₂,
    C01_relative_log_density_apart_partial l₃ h₃]
  obtain ⟨b', hb⟩ := hb
  obtain ⟨c', hc⟩ := hc
  rw [hb, hc]
  cases (logDensityWrtRoot m x : XReal) with
  | nan => simp
  | ninf => simp
  | pinf => rfl
  | fin a => simp

/-- **C03**: the builder starts with the root measure as base; `wrt` keeps the measure and the last
`wrt` wins, including after any chain of earlier `wrt` calls. -/
theorem C03_wrt {B' : Type} [i : Measure M T] (m : M) (l : LogDensity M B) (b : B) (b' : B') (bs : List B) :
    (LogDensity.new m).base = Measure.rootMeasure m ∧
    (LogDensity.new m).measure = m ∧
    (l.wrt b').measure = l.measure ∧
    (l.wrt b').base = b' ∧
    (l.wrt b').wrt b = l.wrt b ∧
    (bs.foldl LogDensity.wrt l).wrt b' = l.wrt b' := by
  refine ⟨rfl, rfl, rfl, rfl, rfl, ?_⟩
  induction bs generalizing l with
  | nil => rfl
  | cons c bs ih => exact ih (l.wrt c)

/-- **C03**, observable form: evaluating after a chain of `wrt` calls only depends on the last. -/
theorem C03_last_wrt_wins [FloatOps F] [Measure M T] [Measure B T] [HasLogDensity M T F]
    [HasLogDensity B T F] (lay : Layout) (addr : ℕ) (m : M) (b₀ : B) (bs : List B) (b : B) (x : T) :
    ((bs.foldl LogDensity.wrt ((LogDensity.new m).wrt b₀)).wrt b).evalAt (F := F) lay addr x
      = relLogDensity lay addr m b x := by
  rw [(C03_wrt m ((LogDensity.new m).wrt b₀) b b bs).2.2.2.2.2]
  rfl

/-- **C04** (both operands occupy memory): for every legal layout the shortcut never fires. -/
theorem C04_shortcut_never_fires_partial (lay : Layout) (hlay : lay.Legal)
    (hM : 0 < lay.sizeMeasure) (hB : 0 < lay.sizeBase) (addr : ℕ) :
    addr + lay.offMeasure ≠ addr + lay.offBase := by
  have := hlay.disjoint; omega

/-- **C04** violated in general: with a zero-sized base measure (every root measure of the library
is zero-sized) there is a legal layout in which the two fields share an address; then
`Normal(0,1).log_density().at(0)` returns 0 instead of `-½ ln 2π`. -/
theorem C04_zero_sized_base_violated :
    ∃ lay : Layout, lay.Legal ∧ lay.sizeMeasure = 16 ∧ lay.sizeBase = 0 ∧ ∀ addr,
      relLogDensity (F := XReal) lay addr (⟨fin 0, fin 1⟩ : Normal XReal)
          ({} : LebesgueMeasure XReal) (fin 0)
        ≠ (logDensityWrtRoot (⟨fin 0, fin 1⟩ : Normal XReal) (fin 0)
            -. logDensityWrtRoot ({} : LebesgueMeasure XReal) (fin 0)) := by
  refine ⟨⟨0, 16, 0, 0, 16⟩, ⟨by decide, by decide, by decide⟩, rfl, rfl, ?_⟩
  intro addr
  have h2 : Real.log (2 * Real.pi) ≠ 0 := by
    have : (1 : ℝ) < 2 * Real.pi := by
      have := Real.pi_gt_three; linarith
    exact (Real.log_pos this).ne'
  have e1 : relLogDensity (F := XReal) ⟨0, 16, 0, 0, 16⟩ addr (⟨fin 0, fin 1⟩ : Normal XReal)
          ({} : LebesgueMeasure XReal) (fin 0) = fin 0 := by
    simp [relLogDensity, evalAt]
  rw [e1]
  simp [logDensityWrtRoot, f_div, f_ln _ two_pi_pos', f_ln _ one_pos]
  have := Real.pi_gt_three
  constructor <;> intro h <;> linarith

/-- **C02** violated in general: when the compiler gives the zero-sized base the address of the measure in
the builder of `Normal` with respect to Lebesgue measure, and no such coincidence in the builder with the
roles exchanged, neither antisymmetry nor the chain rule (through Lebesgue measure, back to the same normal
distribution) holds at the point 0, where all root log-densities are finite. -/
theorem C02_violated :
    ∃ lay lay' lay'' : Layout,
      (lay.Legal ∧ lay.sizeMeasure = 16 ∧ lay.sizeBase = 0) ∧
      (lay'.Legal ∧ lay'.sizeMeasure = 0 ∧ lay'.sizeBase = 16) ∧
      (lay''.Legal ∧ lay''.sizeMeasure = 16 ∧ lay''.sizeBase = 16) ∧
      ∀ (addr addr' addr'' : ℕ) (m : Normal XReal) (b : LebesgueMeasure XReal), m = ⟨fin 0, fin 1⟩ →
        relLogDensity (F := XReal) lay' addr' b m (fin 0) ≠ neg (relLogDensity lay addr m b (fin 0)) ∧
        (relLogDensity (F := XReal) lay addr m b (fin 0) +. relLogDensity lay' addr' b m (fin 0))
          ≠ relLogDensity lay'' addr'' m m (fin 0) := by
  refine ⟨⟨0, 16, 0, 0, 16⟩, ⟨16, 0, 0, 16, 16⟩, ⟨0, 16, 16, 16, 32⟩, ⟨⟨by decide, by decide, by decide⟩,
    rfl, rfl⟩, ⟨⟨by decide, by decide, by decide⟩, rfl, rfl⟩, ⟨⟨by decide, by decide, by decide⟩, rfl, rfl⟩, ?_⟩
  rintro addr addr' addr'' m b rfl
  have hap : Layout.Apart ⟨16, 0, 0, 16, 16⟩ := by simp [Layout.Apart]
  have h2 : Real.log (2 * Real.pi) ≠ 0 := by
    have : (1 : ℝ) < 2 * Real.pi := by
      have := Real.pi_gt_three; linarith
    exact (Real.log_pos this).ne'
  have e1 : relLogDensity (F := XReal) ⟨0, 16, 0, 0, 16⟩ addr (⟨fin 0, fin 1⟩ : Normal XReal) b (fin 0)
      = fin 0 := by
    simp [relLogDensity, evalAt]
  obtain ⟨r, hr, hr0⟩ : ∃ r : ℝ,
      (logDensityWrtRoot (⟨fin 0, fin 1⟩ : Normal XReal) (fin 0 : XReal) : XReal) = fin r ∧ r ≠ 0 := by
    refine ⟨_, by simp [logDensityWrtRoot, f_div, f_ln _ two_pi_pos', f_ln _ one_pos]; rfl, ?_⟩
    simp
    have := Real.pi_gt_three
    constructor <;> intro h <;> linarith
  have hb : (logDensityWrtRoot b (fin 0 : XReal) : XReal) = fin 0 := rfl
  have e2 : relLogDensity (F := XReal) ⟨16, 0, 0, 16, 16⟩ addr' b (⟨fin 0, fin 1⟩ : Normal XReal) (fin 0)
      = fin (-r) := by
    rw [C01_relative_log_density_apart_partial _ hap, hr, hb]; simp
  have e3 := C02_self ⟨0, 16, 16, 16, 32⟩ addr'' (⟨fin 0, fin 1⟩ : Normal XReal) (fin 0) ⟨r, hr⟩
  rw [e1, e2, e3]
  constructor
  · simp [hr0]
  · simp [hr0]

/-- **C05**: for every history of points, the cached density returns what the wrapped density
returns, evaluates it only at points of the history, at least once and at most once per distinct
point. -/
theorem C05_cached_transparent [DecidableEq T] (inner : T → F) (xs : List T) :
    (Cached.run inner Cached.new xs).1 = xs.map inner ∧
    (Cached.run inner Cached.new xs).2.Nodup ∧
    (∀ x, x ∈ (Cached.run inner Cached.new xs).2 ↔ x ∈ xs) := by
  have key : ∀ (xs : List T) (c : FMap T F), (∀ x v, c.get x = some v → v = inner x) →
      (Cached.run inner c xs).1 = xs.map inner ∧
      (Cached.run inner c xs).2.Nodup ∧
      (∀ x, x ∈ (Cached.run inner c xs).2 ↔ x ∈ xs ∧ c.get x = none) := by
    intro xs
    induction xs with
    | nil => intro c _; simp [Cached.run]
    | cons y ys ih =>
      intro c hc
      cases hy : c.get y with
      | some v =>
        obtain ⟨h1, h2, h3⟩ := ih c hc
        simp only [Cached.run, Cached.evalAt, hy]
        refine ⟨by simp [h1, hc y v hy], by simpa using h2, ?_⟩
        intro x
        simp only [Bool.false_eq_true, if_false, h3, List.mem_cons]
        constructor
        · rintro ⟨a, b⟩; exact ⟨Or.inr a, b⟩
        · rintro ⟨a | a, b⟩
          · subst a; rw [hy] at b; cases b
          · exact ⟨a, b⟩
      | none =>
        have hc' : ∀ x v, (c.insert y (inner y)).get x = some v → v = inner x := by
          intro x v hv
          simp only [FMap.insert] at hv
          split_ifs at hv with h
          · subst h; simpa using hv.symm
          · exact hc x v hv
        obtain ⟨h1, h2, h3⟩ := ih _ hc'
        simp only [Cached.run, Cached.evalAt, hy]
        refine ⟨by simp [h1], ?_, ?_⟩
        · simp only [if_true, List.nodup_cons]
          refine ⟨?_, h2⟩
          rw [h3]
          simp [FMap.insert]
        · intro x
          simp only [if_true, List.mem_cons, h3]
          simp only [FMap.insert]
          by_cases hx : x = y
          · subst hx; simp [hy]
          · simp [hx]
  have := key xs Cached.new (by intro x v h; simp [Cached.new, FMap.empty] at h)
  simpa [Cached.new, FMap.empty] using this

/-- **C06**: batch evaluation is pointwise. -/
theorem C06_batch_pointwise [HasLogDensity M T F] (m : M) (xs : List T) :
    (logDensityBatch (F := F) m xs).length = xs.length ∧
    ∀ i (h : i < xs.length), (logDensityBatch (F := F) m xs)[i]? = some (logDensityAt m xs[i]) := by
  constructor
  · simp [logDensityBatch]
  · intro i h
    simp [logDensityBatch, logDensityAt, h]

end

section
variable {X Θ : Type}

/-- **C07**, single point: `evaluate` is the sum of all data, parameter, mixed and constant terms. -/
theorem C07_evaluate_is_total (d : Decomposition X Θ XReal) (x : X) (θ : Θ) (h : d.FiniteAt x θ) :
    d.evaluate x θ = fin (d.total x θ) := by
  simp [Decomposition.evaluate, Decomposition.total, sum_isFin _ _ h.data, sum_isFin _ _ h.param,
    sum_isFin _ _ h.mixed, sum_isFin' _ h.const]

/-- **C07**, IID: `evaluate_iid` over a data slice of any length is the sum of the single-point
totals. -/
theorem C07_evaluate_iid_is_sum (d : Decomposition X Θ XReal) (xs : List X) (θ : Θ)
    (h : ∀ x ∈ xs, d.FiniteAt x θ) (hθ : ∀ f ∈ d.paramTerms, (f θ).IsFin)
    (hc : ∀ c ∈ d.constantTerms, c.IsFin) :
    d.evaluateIid xs θ = fin ((xs.map (fun x => d.total x θ)).sum) ∧
    d.evaluateIid xs θ = FloatOps.sum (xs.map (fun x => d.evaluate x θ)) := by
  have hd : ∀ x ∈ xs, FloatOps.sum (d.dataTerms.map (fun f => f x))
      = fin ((d.dataTerms.map (fun f => (f x).toReal)).sum) :=
    fun x hx => sum_isFin _ _ (h x hx).data
  have hm : ∀ x ∈ xs, FloatOps.sum (d.mixedTerms.map (fun f => f x θ))
      = fin ((d.mixedTerms.map (fun f => (f x θ).toReal)).sum) :=
    fun x hx => sum_isFin _ _ (h x hx).mixed
  have e1 : d.evaluateIid xs θ = fin ((xs.map (fun x => d.total x θ)).sum) := by
    have l1 : xs.map (fun x => FloatOps.sum (d.dataTerms.map (fun f => f x)))
        = (xs.map (fun x => (d.dataTerms.map (fun f => (f x).toReal)).sum)).map fin := by
      rw [List.map_map]; exact List.map_congr_left hd
    have l2 : xs.map (fun x => FloatOps.sum (d.mixedTerms.map (fun f => f x θ)))
        = (xs.map (fun x => (d.mixedTerms.map (fun f => (f x θ).toReal)).sum)).map fin := by
      rw [List.map_map]; exact List.map_congr_left hm
    simp only [Decomposition.evaluateIid, l1, l2, f_sum, sum_isFin _ _ hθ, sum_isFin' _ hc, f_ofNat,
      f_mul, f_add]
    congr 1
    simp only [Decomposition.total, sum_map_add_real, sum_map_const_real]
  refine ⟨e1, ?_⟩
  rw [e1]
  have l3 : xs.map (fun x => d.evaluate x θ) = (xs.map (fun x => d.total x θ)).map fin := by
    rw [List.map_map]
    exact List.map_congr_left (fun x hx => C07_evaluate_is_total d x θ (h x hx))
  rw [l3, f_sum]

/-- **C07**: each builder call adds exactly its own term to the value. -/
theorem C07_builder_adds_term (d : Decomposition X Θ XReal) (x : X) (θ : Θ)
    (f : X → XReal) (g : Θ → XReal) (k : X → Θ → XReal) (c : XReal) :
    (Decomposition.new : Decomposition X Θ XReal).total x θ = 0 ∧
    (d.addDataTerm f).total x θ = d.total x θ + (f x).toReal ∧
    (d.addParamTerm g).total x θ = d.total x θ + (g θ).toReal ∧
    (d.addMixedTerm k).total x θ = d.total x θ + (k x θ).toReal ∧
    (d.addConstant c).total x θ = d.total x θ + c.toReal := by
  refine ⟨?_, ?_, ?_, ?_, ?_⟩ <;>
    simp [Decomposition.total, Decomposition.new, Decomposition.addDataTerm,
      Decomposition.addParamTerm, Decomposition.addMixedTerm, Decomposition.addConstant] <;> ring

/-- a decomposition with all four kinds of terms meets the hypotheses of C07 -/
example : ∃ d : Decomposition ℝ ℝ XReal, d.dataTerms ≠ [] ∧ d.mixedTerms ≠ [] ∧
    ∀ x θ, d.FiniteAt x θ := by
  refine ⟨⟨[fun x => fin x], [fun θ => fin (2 * θ)], [fun x θ => fin (x * θ)], [fin 3]⟩,
    by simp, by simp, fun x θ => ⟨?_, ?_, ?_, ?_⟩⟩ <;> simp

end

end Verif
