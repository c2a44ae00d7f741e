import Verif.Props.Bayes
import Verif.Props.LogConcave
import Verif.Spec.Markers
import Mathlib.Algebra.Polynomial.Roots
import Mathlib.LinearAlgebra.Dimension.Constructions
import Mathlib.LinearAlgebra.FiniteDimensional.Lemmas
import Mathlib.Analysis.SpecialFunctions.Log.Deriv

/-!
# C143: the type-level markers are right
-/

namespace Verif
open FloatOps XReal Spec

local instance markersNormalRoot : IIDRoot (Measure.Root (Normal XReal)) := inferInstanceAs (IIDRoot (LebesgueMeasure XReal))
local instance markersCauchyRoot : IIDRoot (Measure.Root (Cauchy XReal)) := inferInstanceAs (IIDRoot (LebesgueMeasure XReal))

/-- With more parameters than statistics there is a combination of the log-densities that does not depend on the
point. -/
theorem expFamily_relation {Θ M X : Type} {family : Θ → M → Prop} {val : M → X → XReal} {S : X → Prop}
    (h : IsExponentialFamily family val S) (ℓ : ℕ → X → ℝ)
    (hm : ∀ j, ∃ θ d, family θ d ∧ ∀ x, S x → val d x = fin (ℓ j x)) :
    ∃ (N : ℕ) (c : Fin N → ℝ) (K : ℝ), c ≠ 0 ∧ ∀ x, S x → ∑ j, c j * ℓ j x = K := by
  obtain ⟨n, η, A, T, g, h⟩ := h
  choose θ d hf hv using hm
  let L : (Fin (n + 2) → ℝ) →ₗ[ℝ] (Fin n → ℝ) × ℝ :=
    { toFun := fun c => (fun i => ∑ j, c j * η (θ j) i, ∑ j, c j)
      map_add' := by
        intro c e
        ext <;> simp [add_mul, Finset.sum_add_distrib]
      map_smul' := by
        intro r c
        ext <;> simp [mul_assoc, Finset.mul_sum] }
  have hker : LinearMap.ker L ≠ ⊥ := by
    apply LinearMap.ker_ne_bot_of_finrank_lt
    simp
  obtain ⟨c, hc, hc0⟩ := (Submodule.ne_bot_iff _).1 hker
  rw [LinearMap.mem_ker] at hc
  have h1 : ∀ i, ∑ j, c j * η (θ j) i = 0 := fun i => congrFun (congrArg Prod.fst hc) i
  have h2 : ∑ j, c j = 0 := congrArg Prod.snd hc
  refine ⟨n + 2, c, -∑ j, c j * A (θ j), hc0, fun x hx => ?_⟩
  have e : ∀ j : Fin (n + 2), ℓ j x = ∑ i, η (θ j) i * T x i - A (θ j) + g x := fun j => by
    have := (hv j x hx).symm.trans (h (θ j) (d j) (hf j) x hx)
    exact XReal.fin.inj this
  have e1 : ∑ j, c j * ∑ i, η (θ j) i * T x i = 0 := by
    simp only [Finset.mul_sum]
    rw [Finset.sum_comm]
    apply Finset.sum_eq_zero
    intro i _
    have : ∑ j, c j * (η (θ j) i * T x i) = (∑ j, c j * η (θ j) i) * T x i := by
      rw [Finset.sum_mul]
      exact Finset.sum_congr rfl fun _ _ => by ring
    rw [this, h1, zero_mul]
  calc ∑ j, c j * ℓ j x = ∑ j, (c j * ∑ i, η (θ j) i * T x i - c j * A (θ j) + c j * g x) :=
        Finset.sum_congr rfl fun j _ => by rw [e j]; ring
    _ = _ := by
        rw [Finset.sum_add_distrib, Finset.sum_sub_distrib, e1, ← Finset.sum_mul, h2]
        ring

/-- The functions `log (b + x²)` of different `b` are linearly independent modulo constants. -/
theorem log_add_sq_independent {N : ℕ} {b w : Fin N → ℝ} (hb : ∀ j, 0 < b j) (hinj : Function.Injective b) {K : ℝ}
    (h : ∀ x : ℝ, 0 < x → ∑ j, w j * Real.log (b j + x ^ 2) = K) : w = 0 := by
  classical
  have hd : ∀ t : ℝ, 0 < t → ∑ j, w j / (b j + t) = 0 := by
    intro t ht
    have hx := Real.sqrt_pos.2 ht
    have hq := Real.sq_sqrt ht.le
    set x := √t
    have d1 : HasDerivAt (fun y : ℝ => ∑ j, w j * Real.log (b j + y ^ 2)) (∑ j, w j * (2 * x / (b j + x ^ 2))) x := by
      apply HasDerivAt.fun_sum
      intro j _
      have hp : b j + x ^ 2 ≠ 0 := by have := hb j; positivity
      have := ((hasDerivAt_pow 2 x).const_add (b j)).log hp
      simpa using this.const_mul (w j)
    have d2 : HasDerivAt (fun y : ℝ => ∑ j, w j * Real.log (b j + y ^ 2)) 0 x := by
      refine (hasDerivAt_const x K).congr_of_eventuallyEq ?_
      filter_upwards [lt_mem_nhds hx] with y hy using h y hy
    have := d1.unique d2
    have e : ∑ j, w j * (2 * x / (b j + x ^ 2)) = 2 * x * ∑ j, w j / (b j + t) := by
      rw [Finset.mul_sum, hq]
      exact Finset.sum_congr rfl fun _ _ => by ring
    rw [e] at this
    exact (mul_eq_zero.1 this).resolve_left (by positivity)
  let p : Polynomial ℝ := ∑ j, Polynomial.C (w j) * ∏ i ∈ Finset.univ.erase j, (Polynomial.C (b i) + Polynomial.X)
  have hp : p = 0 := by
    apply Polynomial.eq_zero_of_infinite_isRoot
    refine (Set.Ioi_infinite (0:ℝ)).mono fun t ht => ?_
    have ht : 0 < t := ht
    have hne : ∀ i, b i + t ≠ 0 := fun i => (add_pos (hb i) ht).ne'
    show p.eval t = 0
    have e : p.eval t = (∏ i, (b i + t)) * ∑ j, w j / (b j + t) := by
      simp only [p, Polynomial.eval_finsetSum, Polynomial.eval_mul, Polynomial.eval_C, Polynomial.eval_prod,
        Polynomial.eval_add, Polynomial.eval_X]
      rw [Finset.mul_sum]
      refine Finset.sum_congr rfl fun j _ => ?_
      rw [← Finset.mul_prod_erase _ _ (Finset.mem_univ j)]
      have := hne j
      field_simp
    rw [e, hd t ht, mul_zero]
  funext k
  have hk : p.eval (-b k) = 0 := by rw [hp]; simp
  have e : p.eval (-b k) = w k * ∏ i ∈ Finset.univ.erase k, (b i - b k) := by
    simp only [p, Polynomial.eval_finsetSum, Polynomial.eval_mul, Polynomial.eval_C, Polynomial.eval_prod,
      Polynomial.eval_add, Polynomial.eval_X]
    rw [Finset.sum_eq_single k]
    · simp [sub_eq_add_neg]
    · intro j _ hj
      rw [Finset.prod_eq_zero (Finset.mem_erase.2 ⟨Ne.symm hj, Finset.mem_univ k⟩), mul_zero]
      ring
    · simp
  rw [e] at hk
  refine (mul_eq_zero.1 hk).resolve_right ?_
  refine Finset.prod_ne_zero_iff.2 fun i hi => ?_
  rw [sub_ne_zero]
  exact fun he => (Finset.mem_erase.1 hi).1 (hinj he)

/-- **C143.** The families marked as exponential families are exponential families: on the common support of all the
distributions the constructor accepts (the discrete ones away from probabilities 0 and 1, the binomial and negative
binomial for each number of trials or successes, the categorical for each number of categories). -/
theorem C143_marked :
    (Measure.isExponentialFamily (Normal XReal) = true ∧ IsExponentialFamily
      (fun (θ : ℝ × ℝ) d => Normal.new (fin θ.1) (fin θ.2) = .ok d) logDensityWrtRoot AnyReal) ∧
    (Measure.isExponentialFamily (StdNormal XReal) = true ∧ IsExponentialFamily
      (fun (_ : Unit) (_ : StdNormal XReal) => True) ExponentialFamily.expFamLogDensity AnyReal) ∧
    (Measure.isExponentialFamily (Exponential XReal) = true ∧ IsExponentialFamily
      (fun (r : ℝ) d => Exponential.new (fin r) = .ok d) logDensityWrtRoot (RealIn (Set.Ici 0))) ∧
    (Measure.isExponentialFamily (Gamma XReal) = true ∧ IsExponentialFamily
      (fun (θ : ℝ × ℝ) d => Gamma.new (fin θ.1) (fin θ.2) = .ok d) logDensityWrtRoot (RealIn (Set.Ioi 0))) ∧
    (Measure.isExponentialFamily (Beta XReal) = true ∧ IsExponentialFamily
      (fun (θ : ℝ × ℝ) d => Beta.new (fin θ.1) (fin θ.2) = .ok d) logDensityWrtRoot (RealIn (Set.Ioo 0 1))) ∧
    (Measure.isExponentialFamily (ChiSquared XReal) = true ∧ IsExponentialFamily
      (fun (k : ℝ) d => ChiSquared.new (fin k) = .ok d) logDensityWrtRoot (RealIn (Set.Ioi 0))) ∧
    (Measure.isExponentialFamily (Bernoulli XReal) = true ∧ IsExponentialFamily
      (fun (p : ℝ) d => p ≠ 0 ∧ p ≠ 1 ∧ Bernoulli.new (fin p) = .ok d) logDensityWrtRoot fun x => x = 0 ∨ x = 1) ∧
    (Measure.isExponentialFamily (Poisson XReal) = true ∧ IsExponentialFamily
      (fun (r : ℝ) d => Poisson.new (fin r) = .ok d) logDensityWrtRoot fun _ => True) ∧
    (Measure.isExponentialFamily (Geometric XReal) = true ∧ IsExponentialFamily
      (fun (p : ℝ) d => p ≠ 1 ∧ Geometric.new (fin p) = .ok d) logDensityWrtRoot fun k => 1 ≤ k) ∧
    (Measure.isExponentialFamily (Binomial XReal) = true ∧ ∀ n : ℕ, IsExponentialFamily
      (fun (p : ℝ) d => p ≠ 0 ∧ p ≠ 1 ∧ Binomial.new n (fin p) = .ok d) logDensityWrtRoot fun k => k ≤ n) ∧
    (Measure.isExponentialFamily (NegativeBinomial XReal) = true ∧ ∀ r : ℕ, IsExponentialFamily
      (fun (p : ℝ) d => NegativeBinomial.new r (fin p) = .ok d) logDensityWrtRoot fun _ => True) ∧
    (Measure.isExponentialFamily (Categorical XReal) = true ∧ ∀ n : ℕ, IsExponentialFamily
      (fun (ps : List ℝ) d => ps.length = n ∧ (∀ p ∈ ps, p ≠ 0) ∧ Categorical.new (ps.map fin) = .ok d)
      logDensityWrtRoot fun k => k < n) := by
  refine ⟨⟨rfl, ?_⟩, ⟨rfl, ?_⟩, ⟨rfl, ?_⟩, ⟨rfl, ?_⟩, ⟨rfl, ?_⟩, ⟨rfl, ?_⟩, ⟨rfl, ?_⟩, ⟨rfl, ?_⟩, ⟨rfl, ?_⟩,
    ⟨rfl, fun n => ?_⟩, ⟨rfl, fun r => ?_⟩, ⟨rfl, fun n => ?_⟩⟩
  · refine ⟨2, fun θ => ![θ.1 / θ.2 ^ 2, -1 / (2 * θ.2 ^ 2)],
      fun θ => 1/2 * Real.log (2 * Real.pi) + Real.log θ.2 + θ.1 ^ 2 / (2 * θ.2 ^ 2),
      fun x => ![x.toReal, x.toReal ^ 2], fun _ => 0, ?_⟩
    rintro ⟨μ, σ⟩ d h x ⟨x, rfl⟩
    obtain ⟨hs, rfl⟩ := Normal.new_ok h
    rw [Normal.ld hs]
    have := hs.ne'
    simp only [Fin.sum_univ_two, Matrix.cons_val_zero, Matrix.cons_val_one, XReal.toReal]
    congr 1
    field_simp
    ring
  · refine ⟨1, fun _ => ![-1/2], fun _ => 1/2 * Real.log (2 * Real.pi), fun x => ![x.toReal ^ 2], fun _ => 0, ?_⟩
    rintro _ d - x ⟨x, rfl⟩
    simp only [Fin.sum_univ_one, Matrix.cons_val_zero, XReal.toReal]
    rw [StdNormal.ef]
    congr 1; ring
  · refine ⟨1, fun r => ![-r], fun r => -Real.log r, fun x => ![x.toReal], fun _ => 0, ?_⟩
    rintro r d h x ⟨x, hx, rfl⟩
    obtain ⟨hr, rfl⟩ := Exponential.new_ok h
    rw [Exponential.ld_of_nonneg hr hx]
    simp only [Fin.sum_univ_one, Matrix.cons_val_zero, XReal.toReal]
    congr 1; ring
  · refine ⟨2, fun θ => ![θ.1 - 1, -θ.2], fun θ => Real.log (Real.Gamma θ.1) - θ.1 * Real.log θ.2,
      fun x => ![Real.log x.toReal, x.toReal], fun _ => 0, ?_⟩
    rintro ⟨a, b⟩ d h x ⟨x, hx, rfl⟩
    obtain ⟨ha, hb, rfl⟩ := Gamma.new_ok h
    rw [Gamma.ld_of_pos ha hb hx]
    simp only [Fin.sum_univ_two, Matrix.cons_val_zero, Matrix.cons_val_one, XReal.toReal]
    congr 1; ring
  · refine ⟨2, fun θ => ![θ.1 - 1, θ.2 - 1], fun θ => Real.log (Real.Gamma θ.1) + Real.log (Real.Gamma θ.2)
      - Real.log (Real.Gamma (θ.1 + θ.2)), fun x => ![Real.log x.toReal, Real.log (1 - x.toReal)], fun _ => 0, ?_⟩
    rintro ⟨a, b⟩ d h x ⟨x, ⟨h0, h1⟩, rfl⟩
    obtain ⟨ha, hb, rfl⟩ := Beta.new_ok h
    rw [Beta.ld_of_mem ha hb h0 h1]
    simp only [Fin.sum_univ_two, Matrix.cons_val_zero, Matrix.cons_val_one, XReal.toReal]
    congr 1; ring
  · refine ⟨1, fun k => ![k / 2 - 1], fun k => k / 2 * Real.log 2 + Real.log (Real.Gamma (k / 2)),
      fun x => ![Real.log x.toReal], fun x => -(x.toReal / 2), ?_⟩
    rintro k d h x ⟨x, hx, rfl⟩
    obtain ⟨hk, rfl⟩ := ChiSquared.new_ok h
    rw [ChiSquared.ld_of_pos hk hx]
    simp only [Fin.sum_univ_one, Matrix.cons_val_zero, XReal.toReal]
    congr 1; ring
  · refine ⟨1, fun p => ![Real.log p - Real.log (1 - p)], fun p => -Real.log (1 - p), fun x => ![(x.toNat : ℝ)],
      fun _ => 0, ?_⟩
    rintro p d ⟨h0, h1, h⟩ x hx
    obtain ⟨⟨k0, k1⟩, rfl⟩ := Bernoulli.new_ok h
    rw [Bernoulli.ld_bit (lt_of_le_of_ne k0 h0.symm) (lt_of_le_of_ne k1 h1) hx]
    simp only [Fin.sum_univ_one, Matrix.cons_val_zero, Real.log_one]
    congr 1; ring
  · refine ⟨1, fun r => ![Real.log r], fun r => r, fun k => ![(k : ℝ)], fun k => -Real.log (Nat.factorial k), ?_⟩
    rintro r d h k -
    obtain ⟨hr, rfl⟩ := Poisson.new_ok h
    rw [Poisson.ld hr]
    simp only [Fin.sum_univ_one, Matrix.cons_val_zero]
    congr 1; ring
  · refine ⟨1, fun p => ![Real.log (1 - p)], fun p => -Real.log p, fun k => ![(k : ℝ) - 1], fun k => 0, ?_⟩
    rintro p d ⟨h1, h⟩ k hk
    obtain ⟨⟨k0, k1⟩, rfl⟩ := Geometric.new_ok h
    rw [Geometric.ld_of_pos k0 (lt_of_le_of_ne k1 h1) hk]
    simp only [Fin.sum_univ_one, Matrix.cons_val_zero]
    congr 1; ring
  · refine ⟨1, fun p => ![Real.log p - Real.log (1 - p)], fun p => -(n * Real.log (1 - p)), fun k => ![(k : ℝ)],
      fun k => 0, ?_⟩
    rintro p d ⟨h0, h1, h⟩ k hk
    obtain ⟨⟨k0, k1⟩, rfl⟩ := Binomial.new_ok h
    rw [Binomial.ld_of_le (lt_of_le_of_ne k0 h0.symm) (lt_of_le_of_ne k1 h1) hk]
    simp only [Fin.sum_univ_one, Matrix.cons_val_zero]
    congr 1; ring
  · refine ⟨1, fun p => ![Real.log (1 - p)], fun p => -(r * Real.log p), fun k => ![(k : ℝ)], fun k => 0, ?_⟩
    rintro p d h k -
    obtain ⟨-, ⟨h0, h1⟩, rfl⟩ := NegativeBinomial.new_ok h
    rw [NegativeBinomial.ld h0 h1]
    simp only [Fin.sum_univ_one, Matrix.cons_val_zero]
    congr 1; ring
  · refine ⟨n, fun ps i => Real.log (ps.getD i 0), fun _ => 0, fun k i => if k = i then 1 else 0, fun _ => 0, ?_⟩
    rintro ps d ⟨hl, h0, h⟩ k hk
    obtain ⟨-, k0, -, rfl⟩ := Categorical.new_ok h
    have hk' : k < ps.length := hl ▸ hk
    have hp : 0 < ps[k] := lt_of_le_of_ne (k0 _ (List.getElem_mem hk')) (h0 _ (List.getElem_mem hk')).symm
    rw [Finset.sum_eq_single (⟨k, hk⟩ : Fin n)]
    · simp [logDensityWrtRoot, List.getElem?_eq_getElem hk', f_ln _ hp]
    · intro i _ hi
      have : k ≠ (i : ℕ) := fun e => hi (Fin.ext e.symm)
      simp [this]
    · simp

theorem cauchy_not_expFamily {M X : Type} {family : ℝ × ℝ → M → Prop} {val : M → X → XReal} {S : X → Prop}
    (e : ℝ → X) (hS : ∀ x, 0 < x → S (e x))
    (hm : ∀ s : ℝ, 0 < s → ∃ d, family (0, s) d ∧ ∀ x : ℝ, val d (e x)
      = fin (-Real.log (1 + (x - 0) / s * ((x - 0) / s)) - Real.log s - Real.log Real.pi)) :
    ¬ IsExponentialFamily family val S := by
  intro h
  have h' : IsExponentialFamily family (fun d x => val d (e x)) fun x => 0 < x := by
    obtain ⟨n, η, A, T, g, h⟩ := h
    exact ⟨n, η, A, fun x => T (e x), fun x => g (e x), fun θ d hd x hx => h θ d hd _ (hS x hx)⟩
  obtain ⟨N, c, K, hc, hK⟩ := expFamily_relation h'
    (fun j x => -Real.log (1 + (x - 0) / ((j : ℝ) + 1) * ((x - 0) / ((j : ℝ) + 1))) - Real.log ((j : ℝ) + 1)
      - Real.log Real.pi) (fun j => by
      obtain ⟨d, h1, h2⟩ := hm ((j : ℝ) + 1) (by positivity)
      exact ⟨_, d, h1, fun x _ => h2 x⟩)
  refine hc (log_add_sq_independent (b := fun j : Fin N => ((j : ℝ) + 1) ^ 2) (fun j => by positivity) ?_
    (K := ∑ j, c j * (Real.log ((j : ℝ) + 1) - Real.log Real.pi) - K) fun x hx => ?_)
  · intro i j hij
    have : ((i : ℕ) : ℝ) + 1 = (j : ℕ) + 1 := (pow_left_inj₀ (by positivity) (by positivity) two_ne_zero).1 hij
    exact Fin.ext (by exact_mod_cast add_right_cancel this)
  · rw [← hK x hx, ← Finset.sum_sub_distrib]
    refine Finset.sum_congr rfl fun j _ => ?_
    have hj : (0:ℝ) < (j : ℝ) + 1 := by positivity
    have e : (1 + (x - 0) / ((j : ℝ) + 1) * ((x - 0) / ((j : ℝ) + 1))) = (((j : ℝ) + 1) ^ 2 + x ^ 2) / ((j : ℝ) + 1) ^ 2 := by
      field_simp; ring
    rw [e, Real.log_div (by positivity) (by positivity), Real.log_pow]
    push_cast
    ring

/-- **C143.** The Cauchy and Student-t families are rightly marked as not being exponential families: no finite number
of statistics is enough, even for the Cauchy distributions around 0 alone. -/
theorem C143_unmarked :
    (Measure.isExponentialFamily (Cauchy XReal) = false ∧ ¬ IsExponentialFamily
      (fun (θ : ℝ × ℝ) d => Cauchy.new (fin θ.1) (fin θ.2) = .ok d) logDensityWrtRoot AnyReal) ∧
    (¬ IsExponentialFamily
      (fun (θ : ℝ × ℝ) d => θ.1 = 0 ∧ Cauchy.new (fin 0) (fin θ.2) = .ok d) logDensityWrtRoot AnyReal) ∧
    (Measure.isExponentialFamily (StudentT XReal) = false ∧ ¬ IsExponentialFamily
      (fun (ν : ℝ) d => StudentT.new (fin ν) = .ok d) logDensityWrtRoot AnyReal) := by
  refine ⟨⟨rfl, ?_⟩, ?_, rfl, fun h => ?_⟩
  · exact cauchy_not_expFamily fin (fun x _ => ⟨x, rfl⟩) fun s hs =>
      ⟨⟨fin 0, fin s⟩, by simp [Cauchy.new, hs], fun x => Cauchy.ld hs⟩
  · exact cauchy_not_expFamily fin (fun x _ => ⟨x, rfl⟩) fun s hs =>
      ⟨⟨fin 0, fin s⟩, by simp [Cauchy.new, hs], fun x => Cauchy.ld hs⟩
  · have h' : IsExponentialFamily (fun (ν : ℝ) (d : StudentT XReal) => StudentT.new (fin ν) = .ok d)
        (fun d x => logDensityWrtRoot d (fin x)) fun x : ℝ => 0 < x := by
      obtain ⟨n, η, A, T, g, h⟩ := h
      exact ⟨n, η, A, fun x => T (fin x), fun x => g (fin x), fun θ d hd x hx => h θ d hd _ ⟨x, rfl⟩⟩
    obtain ⟨N, c, K, hc, hK⟩ := expFamily_relation h'
      (fun j x => Real.log (Real.Gamma ((((j : ℝ) + 1) + 1)/2)) - Real.log (Real.Gamma (((j : ℝ) + 1)/2))
        - 1/2 * Real.log (((j : ℝ) + 1) * Real.pi) + -((((j : ℝ) + 1) + 1)/2) * Real.log (1 + x * x / ((j : ℝ) + 1)))
      (fun j => ⟨(j : ℝ) + 1, ⟨fin ((j : ℝ) + 1)⟩, by
        have : (0:ℝ) < (j : ℝ) + 1 := by positivity
        simp [StudentT.new, this], fun x _ => StudentT.ld (by positivity)⟩)
    have hw := log_add_sq_independent (b := fun j : Fin N => (j : ℝ) + 1)
      (w := fun j : Fin N => c j * -((((j : ℝ) + 1) + 1)/2)) (fun j => by positivity) ?_
      (K := K - ∑ j, c j * (Real.log (Real.Gamma ((((j : ℝ) + 1) + 1)/2)) - Real.log (Real.Gamma (((j : ℝ) + 1)/2))
        - 1/2 * Real.log (((j : ℝ) + 1) * Real.pi) + ((((j : ℝ) + 1) + 1)/2) * Real.log ((j : ℝ) + 1))) fun x hx => ?_
    · refine hc (funext fun j => ?_)
      have := congrFun hw j
      have h2 : -((((j : ℝ) + 1) + 1)/2) ≠ 0 := by
        have : (0:ℝ) < (((j : ℝ) + 1) + 1)/2 := by positivity
        linarith
      exact (mul_eq_zero.1 this).resolve_right h2
    · intro i j hij
      exact Fin.ext (by exact_mod_cast add_right_cancel hij)
    · rw [← hK x hx, ← Finset.sum_sub_distrib]
      refine Finset.sum_congr rfl fun j _ => ?_
      have hj : (0:ℝ) < (j : ℝ) + 1 := by positivity
      have e : 1 + x * x / ((j : ℝ) + 1) = ((j : ℝ) + 1 + x ^ 2) / ((j : ℝ) + 1) := by field_simp
      rw [e, Real.log_div (by positivity) hj.ne']
      ring

/-- **C143.** The joint distribution of a sample from an exponential family is one too, for samples of all sizes
together, as `IID` is marked. -/
theorem C143_iid {Θ D X : Type} [i : Measure D X] [IIDRoot i.Root] [HasLogDensity D X XReal] {family : Θ → D → Prop}
    {S : X → Prop} (h : IsExponentialFamily family logDensityWrtRoot S) :
    Measure.isExponentialFamily (IID D) = true ∧
    IsExponentialFamily (fun θ (m : IID D) => family θ m.distribution) IID.iidLogDensityFallback
      fun xs : List X => ∀ x ∈ xs, S x := by
  refine ⟨rfl, ?_⟩
  obtain ⟨n, η, A, T, g, h⟩ := h
  refine ⟨n + 1, fun θ => Fin.cons (-A θ) (η θ), fun _ => 0,
    fun xs => Fin.cons (xs.length : ℝ) fun i => (xs.map fun x => T x i).sum, fun xs => (xs.map g).sum, ?_⟩
  intro θ m hm xs hxs
  have e : xs.map (fun x => (logDensityWrtRoot m.distribution x : XReal))
      = (xs.map fun x => ∑ i, η θ i * T x i - A θ + g x).map fin := by
    rw [List.map_map]
    exact List.map_congr_left fun x hx => h θ _ hm x (hxs x hx)
  unfold IID.iidLogDensityFallback
  rw [e, f_sum]
  congr 1
  clear e hxs
  rw [Fin.sum_univ_succ]
  simp only [Fin.cons_zero, Fin.cons_succ]
  induction xs with
  | nil => simp
  | cons x xs ih =>
    simp only [List.map_cons, List.sum_cons, List.length_cons, ih, mul_add, Finset.sum_add_distrib]
    push_cast
    ring

/-- **C143.** `IID` carries the marker whatever it wraps, so an i.i.d. sample of a Cauchy distribution claims to be an
exponential family and is not. -/
theorem C143_violated :
    Measure.isExponentialFamily (IID (Cauchy XReal)) = true ∧
    ¬ IsExponentialFamily (fun (θ : ℝ × ℝ) (m : IID (Cauchy XReal)) =>
        Cauchy.new (fin θ.1) (fin θ.2) = .ok m.distribution) IID.iidLogDensityFallback
      fun xs : List XReal => ∀ x ∈ xs, AnyReal x := by
  refine ⟨rfl, cauchy_not_expFamily (fun x => [fin x]) (fun x _ y hy => ⟨x, List.mem_singleton.1 hy⟩) fun s hs =>
      ⟨⟨⟨fin 0, fin s⟩⟩, by simp [Cauchy.new, hs], fun x => ?_⟩⟩
  unfold IID.iidLogDensityFallback
  rw [List.map_singleton, Cauchy.ld hs]
  show FloatOps.sum (List.map fin [_]) = _
  rw [f_sum]
  simp

/-- **C143.** Exactly the Lebesgue and counting measures are marked as primitive, and they are their own reference:
everything is in their support and their log-density is zero.  Every other measure is marked as not primitive, and the
base, weighted, product, transformed and Dirac measures as not being exponential families. -/
theorem C143_primitive :
    (∀ T : Type, Measure.isPrimitive (LebesgueMeasure T) = true ∧ Measure.isPrimitive (CountingMeasure T) = true ∧
      Measure.isExponentialFamily (LebesgueMeasure T) = false ∧ Measure.isExponentialFamily (CountingMeasure T) = false ∧
      (∀ x : T, Measure.inSupport ({} : LebesgueMeasure T) x = true ∧ Measure.inSupport ({} : CountingMeasure T) x = true ∧
        (logDensityWrtRoot ({} : LebesgueMeasure T) x : XReal) = fin 0 ∧
        (logDensityWrtRoot ({} : CountingMeasure T) x : XReal) = fin 0)) ∧
    (∀ F : Type, Measure.isPrimitive (Normal F) = false ∧ Measure.isPrimitive (StdNormal F) = false ∧
      Measure.isPrimitive (Cauchy F) = false ∧ Measure.isPrimitive (StudentT F) = false) ∧
    (∀ (F : Type) [FloatOps F], Measure.isPrimitive (Exponential F) = false ∧ Measure.isPrimitive (Gamma F) = false ∧
      Measure.isPrimitive (Beta F) = false ∧ Measure.isPrimitive (ChiSquared F) = false) ∧
    (∀ F : Type, Measure.isPrimitive (Bernoulli F) = false ∧ Measure.isPrimitive (Binomial F) = false ∧
      Measure.isPrimitive (Categorical F) = false ∧ Measure.isPrimitive (Geometric F) = false ∧
      Measure.isPrimitive (NegativeBinomial F) = false ∧ Measure.isPrimitive (Poisson F) = false) ∧
    (∀ F : Type, Measure.isPrimitive (FactorialMeasure F) = false ∧
      Measure.isPrimitive (BinomialCoefficientMeasure F) = false ∧
      Measure.isPrimitive (NegativeBinomialCoefficientMeasure F) = false ∧
      Measure.isExponentialFamily (FactorialMeasure F) = false ∧
      Measure.isExponentialFamily (BinomialCoefficientMeasure F) = false ∧
      Measure.isExponentialFamily (NegativeBinomialCoefficientMeasure F) = false) ∧
    (∀ (T : Type) [BEq T], Measure.isPrimitive (Dirac T) = false ∧ Measure.isExponentialFamily (Dirac T) = false) ∧
    (∀ (M T F : Type) [Measure M T], Measure.isPrimitive (WeightedMeasure M F) = false ∧
      Measure.isExponentialFamily (WeightedMeasure M F) = false ∧
      Measure.isPrimitive (IntegralMeasure M T F) = false ∧
      Measure.isExponentialFamily (IntegralMeasure M T F) = false ∧
      Measure.isPrimitive (ExpFam M) = false ∧ Measure.isExponentialFamily (ExpFam M) = true) ∧
    (∀ (M M' T T' : Type) [Measure M T] [Measure M' T'], Measure.isPrimitive (ProductMeasure M M') = false ∧
      Measure.isExponentialFamily (ProductMeasure M M') = false) ∧
    (∀ (M F : Type) [Measure M F], Measure.isPrimitive (PushforwardMeasure M F) = false ∧
      Measure.isExponentialFamily (PushforwardMeasure M F) = false) ∧
    (∀ (D X : Type) [i : Measure D X] [IIDRoot i.Root], Measure.isPrimitive (IID D) = false ∧
      Measure.isPrimitive (IIDBaseMeasure D) = false ∧ Measure.isExponentialFamily (IIDBaseMeasure D) = false) := by
  refine ⟨fun T => ⟨rfl, rfl, rfl, rfl, fun x => ⟨rfl, rfl, rfl, rfl⟩⟩, fun F => ⟨rfl, rfl, rfl, rfl⟩,
    fun F _ => ⟨rfl, rfl, rfl, rfl⟩, fun F => ⟨rfl, rfl, rfl, rfl, rfl, rfl⟩, fun F => ⟨rfl, rfl, rfl, rfl, rfl, rfl⟩,
    fun T _ => ⟨rfl, rfl⟩, fun M T F _ => ⟨rfl, rfl, rfl, rfl, rfl, rfl⟩, fun M M' T T' _ _ => ⟨rfl, rfl⟩,
    fun M F _ => ⟨rfl, rfl⟩, fun D X _ _ => ⟨rfl, rfl, rfl⟩⟩

/-- the families are not empty, and the joint theorem applies to normal samples -/
example : ∃ d : Normal XReal, Normal.new (fin 1) (fin 2) = .ok d := ⟨⟨fin 1, fin 2⟩, by simp [Normal.new]⟩
example : ∃ d : Cauchy XReal, Cauchy.new (fin 0) (fin 3) = .ok d := ⟨⟨fin 0, fin 3⟩, by simp [Cauchy.new]⟩
example : IsExponentialFamily (fun (θ : ℝ × ℝ) (m : IID (Normal XReal)) =>
    Normal.new (fin θ.1) (fin θ.2) = .ok m.distribution) IID.iidLogDensityFallback
    fun xs : List XReal => ∀ x ∈ xs, AnyReal x := (C143_iid C143_marked.1.2).2

end Verif
