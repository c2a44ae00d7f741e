import Verif.Props.Cumulants

/-!
# C123, continued: chi-squared and discrete families, and the families where the claim fails
-/

namespace Verif
open FloatOps XReal Spec MeasureTheory ProbabilityTheory ExponentialFamily Filter Topology

theorem Poisson.natural_form (a : ℝ) :
    ∃ d' : Poisson XReal, fromNatural [fin a] = .ok d' ∧ RegularLaw Measure.count (id : ℕ → ℕ) d' ∧
      ∃ A : ℝ, (logPartition d' : XReal) = fin A ∧
        ∀ k : ℕ, (logDensityWrtRoot d' k : XReal) = fin (a * k - A + -Real.log (Nat.factorial k)) := by
  have h1 := Real.exp_pos a
  have hn : Poisson.new (fin (Real.exp a)) = .ok (⟨fin (Real.exp a)⟩ : Poisson XReal) := by
    simp [Poisson.new, h1]
  refine ⟨⟨fin (Real.exp a)⟩, by simp [fromNatural, Poisson.new, h1],
    C122_regular.2.2.2.2.2.2.2.2 _ _ hn, Real.exp a, ?_, fun k => ?_⟩
  · simp only [logPartition, naturalAndLogPartition]
  · rw [Poisson.ld h1, Real.log_exp]
    congr 1; ring

theorem ChiSquared.natural_form (a b : ℝ) (ha : -1 < a) :
    ∃ d' : ChiSquared XReal, fromNatural [fin a, fin b] = .ok d' ∧ RegularLaw volume fin d' ∧
      ∃ A : ℝ, (logPartition d' : XReal) = fin A ∧
        ∀ x : ℝ, (0 < x → (logDensityWrtRoot d' (fin x) : XReal) = fin (a * Real.log x + (-1/2) * x - A)) ∧
          (¬ 0 < x → (logDensityWrtRoot d' (fin x) : XReal) = ninf) := by
  have h1 : 0 < 2 * (a + 1) := by linarith
  have h1' : 0 < a + 1 := by linarith
  have hn : ChiSquared.new (fin (2 * (a + 1))) = .ok (⟨fin (2 * (a + 1))⟩ : ChiSquared XReal) := by
    simp [ChiSquared.new, h1']
  have e : 2 * (a + 1) / 2 = a + 1 := by ring
  refine ⟨⟨fin (2 * (a + 1))⟩, by simp [fromNatural, ChiSquared.new, h1'], C122_regular.2.2.2.2.1 _ _ hn,
    Real.log (Real.Gamma (a + 1)) + (a + 1) * Real.log 2, ?_, fun x => ⟨fun hx => ?_, fun hx => ?_⟩⟩
  · simp only [logPartition, naturalAndLogPartition, ChiSquared.shape, f_ofRat, Rat.cast_ofNat,
      f_div _ _ (two_ne_zero (α := ℝ)), e, f_lnGamma _ h1', f_ln _ (two_pos (α := ℝ)), f_mul, f_add]
  · rw [ChiSquared.ld_of_pos h1 hx, e]
    congr 1; ring
  · exact ChiSquared.ld_of_nonpos (not_lt.mp hx)

/-- The byte values, as the 256 numbers below 256. -/
def byteOf (i : Fin 256) : UInt8 := UInt8.ofNat i

theorem byteOf_eq_zero {i : Fin 256} : byteOf i = 0 ↔ i = 0 := by
  constructor
  · intro h
    have h := congrArg UInt8.toNat h
    simp only [byteOf, UInt8.toNat_ofNat', UInt8.toNat_zero] at h
    have hi := i.isLt
    apply Fin.ext
    show (i : ℕ) = 0
    omega
  · rintro rfl; rfl

theorem byteOf_eq_one {i : Fin 256} : byteOf i = 1 ↔ i = 1 := by
  constructor
  · intro h
    have h := congrArg UInt8.toNat h
    simp only [byteOf, UInt8.toNat_ofNat', UInt8.toNat_one] at h
    have hi := i.isLt
    apply Fin.ext
    show (i : ℕ) = 1
    omega
  · rintro rfl; rfl

theorem Bernoulli.regular {p : ℝ} (h0 : 0 < p) (h1 : p < 1) :
    RegularLaw Measure.count byteOf (⟨fin p⟩ : Bernoulli XReal) := by
  have hn : Bernoulli.new (fin p) = .ok (⟨fin p⟩ : Bernoulli XReal) := by
    simp [Bernoulli.new, h0.le, h1.le]
  obtain ⟨k1, k2⟩ := C16_bernoulli_pmf hn
  refine ⟨fun i => ?_, Measurable.of_discrete, ?_⟩
  · simp only [logDensityWrtRoot, f_one, f_sub, f_ln _ h0, f_ln (1 - p) (by linarith)]
    split_ifs
    · exact Or.inl ⟨_, rfl⟩
    · exact Or.inl ⟨_, rfl⟩
    · exact Or.inr rfl
  · have hnn : ∀ i : Fin 256, 0 ≤ density (logDensityWrtRoot (⟨fin p⟩ : Bernoulli XReal) (byteOf i)) := by
      intro i
      rw [k1]
      split_ifs <;> linarith
    unfold mass
    rw [lintegral_count, tsum_fintype, ← ENNReal.ofReal_sum_of_nonneg (fun i _ => hnn i)]
    rw [Finset.sum_range] at k2
    show ENNReal.ofReal (∑ i : Fin 256, density (logDensityWrtRoot (⟨fin p⟩ : Bernoulli XReal) (UInt8.ofNat i))) = 1
    rw [k2, ENNReal.ofReal_one]

theorem Bernoulli.natural_form (a : ℝ) :
    ∃ d' : Bernoulli XReal, fromNatural [fin a] = .ok d' ∧ RegularLaw Measure.count byteOf d' ∧
      ∃ A : ℝ, (logPartition d' : XReal) = fin A ∧
        ∀ i : Fin 256, ((i = 0 ∨ i = 1) → (logDensityWrtRoot d' (byteOf i) : XReal) = fin (a * (i : ℕ) - A)) ∧
          (¬ (i = 0 ∨ i = 1) → (logDensityWrtRoot d' (byteOf i) : XReal) = ninf) := by
  have he := Real.exp_pos a
  have h1 : 0 < 1 + Real.exp a := by linarith
  have hp0 : 0 < Real.exp a / (1 + Real.exp a) := div_pos he h1
  have hp1 : Real.exp a / (1 + Real.exp a) < 1 := by rw [div_lt_one h1]; linarith
  have hc : 1 - Real.exp a / (1 + Real.exp a) = 1 / (1 + Real.exp a) := by field_simp; ring
  have hlo : (⟨fin (Real.exp a / (1 + Real.exp a))⟩ : Bernoulli XReal).logOdds = fin a := by
    simp only [Bernoulli.logOdds, f_one, f_sub, logOdds_fin hp0 hp1]
    rw [hc, Real.log_div he.ne' h1.ne', Real.log_div one_ne_zero h1.ne', Real.log_one, Real.log_exp]
    simp
  refine ⟨⟨fin (Real.exp a / (1 + Real.exp a))⟩,
    by simp [fromNatural, f_div _ _ h1.ne', Bernoulli.new, hp0.le, hp1.le], Bernoulli.regular hp0 hp1,
    Real.log (1 + Real.exp a), ?_, fun i => ⟨?_, fun hi => ?_⟩⟩
  · simp only [logPartition, naturalAndLogPartition, hlo, f_one, f_exp, f_add, f_ln _ h1]
  · rintro (rfl | rfl)
    · have : byteOf 0 = 0 := rfl
      simp only [logDensityWrtRoot, this, if_true, f_one, f_sub, hc, f_ln _ (one_div_pos.mpr h1)]
      rw [Real.log_div one_ne_zero h1.ne', Real.log_one]
      simp
    · have : byteOf 1 = 1 := rfl
      have hne : (1 : UInt8) ≠ 0 := by decide
      simp only [logDensityWrtRoot, this, if_true, hne, if_false, f_ln _ hp0]
      rw [Real.log_div he.ne' h1.ne', Real.log_exp]
      simp
  · have h0 : byteOf i ≠ 0 := fun h => hi (Or.inl (byteOf_eq_zero.mp h))
    have h1 : byteOf i ≠ 1 := fun h => hi (Or.inr (byteOf_eq_one.mp h))
    simp only [logDensityWrtRoot, h0, h1, if_false]
    rfl

/-- The unit vector the categorical statistic produces. -/
def unitAt (n i : ℕ) : List ℝ := if i < n then (List.replicate n (0:ℝ)).set i 1 else List.replicate n 0

theorem sum_zipWith_unitAt (as : List ℝ) (i : ℕ) :
    (List.zipWith (· * ·) as (unitAt as.length i)).sum = if h : i < as.length then as[i] else 0 := by
  unfold unitAt
  split_ifs with h
  · exact zipWith_mul_unit as i h
  · exact zipWith_mul_replicate_zero as _

theorem Categorical.regular {ps : List ℝ} (hne : ps ≠ []) (hpos : ∀ p ∈ ps, 0 < p) (hsum : ps.sum = 1) :
    Categorical.new (ps.map fin) = .ok (⟨ps.map fin⟩ : Categorical XReal) ∧
    RegularLaw Measure.count (id : ℕ → ℕ) (⟨ps.map fin⟩ : Categorical XReal) := by
  have hn : Categorical.new (ps.map fin) = .ok (⟨ps.map fin⟩ : Categorical XReal) := by
    unfold Categorical.new
    rw [if_neg (by simpa using hne), if_neg, if_pos]
    · rw [f_sum, hsum]; simp
    · simp only [Bool.not_eq_true, Bool.not_eq_false', List.all_eq_true, List.mem_map]
      rintro x ⟨y, hy, rfl⟩
      simpa using (hpos y hy).le
  obtain ⟨k1, k2, -⟩ := C19_categorical_pmf hn
  have hld : ∀ i (hi : i < ps.length),
      (logDensityWrtRoot (⟨ps.map fin⟩ : Categorical XReal) i : XReal) = fin (Real.log ps[i]) := by
    intro i hi
    simp [logDensityWrtRoot, hi, f_ln _ (hpos _ (List.getElem_mem hi))]
  refine ⟨hn, fun i => ?_, measurable_from_top, ?_⟩
  · rcases lt_or_ge i ps.length with hi | hi
    · exact Or.inl ⟨_, hld i hi⟩
    · exact Or.inr (k2 i hi)
  · have hnn : ∀ i : ℕ, 0 ≤ density (logDensityWrtRoot (⟨ps.map fin⟩ : Categorical XReal) i) := by
      intro i
      rcases lt_or_ge i ps.length with hi | hi
      · rw [k1 i hi]; exact (hpos _ (List.getElem_mem hi)).le
      · rw [k2 i hi, density_ninf]
    have hs : HasSum (fun i : ℕ => density (logDensityWrtRoot (⟨ps.map fin⟩ : Categorical XReal) i)) 1 := by
      have e : (1:ℝ) = ∑ i ∈ Finset.range ps.length,
          density (logDensityWrtRoot (⟨ps.map fin⟩ : Categorical XReal) i) := by
        rw [Finset.sum_range, ← List.sum_ofFn, ← hsum]
        congr 1
        apply List.ext_getElem (by simp)
        intro i h1 h2
        simp [k1 i h1]
      rw [e]
      apply hasSum_sum_of_ne_finset_zero
      intro i hi
      rw [k2 i (by simpa using hi), density_ninf]
    unfold mass
    show ∫⁻ i : ℕ, ENNReal.ofReal (density (logDensityWrtRoot (⟨ps.map fin⟩ : Categorical XReal) i)) ∂_ = 1
    rw [lintegral_count, ← ENNReal.ofReal_tsum_of_nonneg hnn hs.summable, hs.tsum_eq, ENNReal.ofReal_one]

theorem Categorical.natural_form (η : List ℝ) :
    ∃ d' : Categorical XReal, fromNatural (η.map fin) = .ok d' ∧ RegularLaw Measure.count (id : ℕ → ℕ) d' ∧
      d'.probs.length = η.length + 1 ∧
      ∃ A : ℝ, (logPartition d' : XReal) = fin A ∧
        ∀ i : ℕ, (i ≤ η.length → (logDensityWrtRoot d' i : XReal)
            = fin ((List.zipWith (· * ·) η (unitAt η.length i)).sum - A)) ∧
          (¬ i ≤ η.length → (logDensityWrtRoot d' i : XReal) = ninf) := by
  have hse : 0 ≤ (η.map Real.exp).sum := List.sum_nonneg (by
    simp only [List.mem_map]; rintro x ⟨y, -, rfl⟩; exact (Real.exp_pos y).le)
  obtain ⟨N, hN⟩ : ∃ N, N = 1 + (η.map Real.exp).sum := ⟨_, rfl⟩
  have hNp : 0 < N := by rw [hN]; linarith
  have hpos : ∀ p ∈ η.map (fun a => Real.exp a / N) ++ [1 / N], 0 < p := by
    intro p hp
    simp only [List.mem_append, List.mem_map, List.mem_singleton] at hp
    rcases hp with ⟨a, -, rfl⟩ | rfl
    · exact div_pos (Real.exp_pos a) hNp
    · exact one_div_pos.mpr hNp
  have hps : (η.map (fun a => Real.exp a / N)).sum = (η.map Real.exp).sum / N := by
    have := sum_map_mul_real η N⁻¹ Real.exp
    rw [div_eq_inv_mul, ← this]
    congr 1
    apply List.map_congr_left
    intro p _
    rw [div_eq_inv_mul]
  have hsum : (η.map (fun a => Real.exp a / N) ++ [1 / N]).sum = 1 := by
    rw [List.sum_append, hps]
    simp only [List.sum_cons, List.sum_nil, add_zero]
    rw [← add_div, add_comm, ← hN, div_self hNp.ne']
  obtain ⟨r1, r2⟩ := Categorical.regular (by simp) hpos hsum
  have hprob : fromNatural (η.map fin)
      = .ok (⟨(η.map (fun a => Real.exp a / N) ++ [1 / N]).map fin⟩ : Categorical XReal) := by
    rw [← r1]
    show Categorical.fromNaturalImpl _ = _
    unfold Categorical.fromNaturalImpl
    have he : List.map FloatOps.exp (η.map fin) = (η.map Real.exp).map fin := by
      simp [List.map_map, Function.comp_def]
    have hno : (FloatOps.one : XReal) +. FloatOps.sum (List.map FloatOps.exp (η.map fin)) = fin N := by
      rw [he, f_sum, f_one, f_add, ← hN]
    simp only [hno]
    rw [he, f_one, f_div _ _ hNp.ne']
    simp only [List.map_append, List.map_map, Function.comp_def, List.map_cons, List.map_nil,
      f_div _ _ hNp.ne']
  have hini : ∀ p ∈ η.map (fun a => Real.exp a / N), 0 < p := fun p hp =>
    hpos p (List.mem_append_left _ hp)
  have hnat := Categorical.natural_fin (one_div_pos.mpr hNp) hini
  refine ⟨_, hprob, r2, by simp, Real.log N, ?_, fun i => ⟨fun hi => ?_, fun hi => ?_⟩⟩
  · show (Categorical.natural _).2 = _
    rw [hnat, hsum, Real.log_one, Real.log_div one_ne_zero hNp.ne', Real.log_one]
    show fin (0 - (0 - Real.log N)) = fin (Real.log N)
    congr 1; ring
  · rw [sum_zipWith_unitAt]
    split_ifs with h
    · have : ((η.map (fun a => Real.exp a / N) ++ [1 / N]).map fin)[i]? = some (fin (Real.exp η[i] / N)) := by
        rw [List.getElem?_map, List.getElem?_append_left (by simpa using h)]
        simp [h]
      simp only [logDensityWrtRoot, this]
      rw [f_ln _ (div_pos (Real.exp_pos _) hNp), Real.log_div (Real.exp_pos _).ne' hNp.ne', Real.log_exp]
    · have hi' : i = η.length := by omega
      subst hi'
      have : ((η.map (fun a => Real.exp a / N) ++ [1 / N]).map fin)[η.length]? = some (fin (1 / N)) := by
        rw [List.getElem?_map, List.getElem?_append_right (by simp)]
        simp
      simp only [logDensityWrtRoot, this]
      rw [f_ln _ (one_div_pos.mpr hNp), Real.log_div one_ne_zero hNp.ne', Real.log_one]
  · have : ((η.map (fun a => Real.exp a / N) ++ [1 / N]).map fin)[i]? = none := by
      simp; omega
    simp only [logDensityWrtRoot, this]
    rfl

/-- **C123**, discrete families: every Poisson distribution, Bernoulli for `0 < p < 1`, and categorical
distributions with positive probabilities that sum to exactly one, of any length. -/
theorem C123_discrete_partial :
    (∀ (r : ℝ) (d : Poisson XReal), Poisson.new (fin r) = .ok d →
      ∃ η : List ℝ, toNatural d = η.map fin ∧
        ∀ v : List ℝ, v.length = 1 → Cumulants Measure.count (id : ℕ → ℕ) d η v) ∧
    (∀ (p : ℝ) (d : Bernoulli XReal), Bernoulli.new (fin p) = .ok d → p ≠ 0 → p ≠ 1 →
      ∃ η : List ℝ, toNatural d = η.map fin ∧
        ∀ v : List ℝ, v.length = 1 → Cumulants Measure.count byteOf d η v) ∧
    (∀ (ps : List ℝ) (d : Categorical XReal), Categorical.new (ps.map fin) = .ok d → (∀ p ∈ ps, p ≠ 0) →
      ps.sum = 1 →
      ∃ η : List ℝ, η.length + 1 = ps.length ∧ toNatural d = η.map fin ∧
        ∀ v : List ℝ, v.length = η.length → Cumulants Measure.count (id : ℕ → ℕ) d η v) := by
  refine ⟨?_, ?_, ?_⟩
  · intro r d h
    have hrt := C25_round_trip_partial.2.2.2.2.2.1 r d h
    obtain ⟨hr, rfl⟩ := Poisson.new_ok h
    have hnat : toNatural (⟨fin r⟩ : Poisson XReal) = [Real.log r].map fin := by
      simp [toNatural, naturalAndLogPartition, f_ln _ hr]
    refine ⟨_, hnat, fun v hv => ?_⟩
    obtain ⟨v1, rfl⟩ := one_of_length hv
    refine cumulants_family Measure.count id (fun η => ∃ a, η = [a]) (fun _ => True)
      (fun k : ℕ => [(k : ℝ)]) (fun k => -Real.log (Nat.factorial k)) ?_ _ _ _ ⟨_, rfl⟩
      (by rw [← hnat]; exact hrt) hv (fun k _ => by simp [sufficientStatistic]) measurable_from_top ?_
    · rintro η ⟨a, rfl⟩
      obtain ⟨d', k1, k2, A, k3, k4⟩ := Poisson.natural_form a
      refine ⟨d', k1, k2, A, k3, fun x => ⟨fun _ => ?_, fun hx => absurd trivial hx⟩⟩
      rw [id, k4]; simp
    · exact Eventually.of_forall fun s => ⟨_, rfl⟩
  · intro p d h hp0 hp1
    have hrt := C25_round_trip_partial.2.2.2.2.2.2.1 p d h hp0 hp1
    obtain ⟨⟨h0, h1⟩, rfl⟩ := Bernoulli.new_ok h
    have h0 : 0 < p := lt_of_le_of_ne h0 (Ne.symm hp0)
    have h1 : p < 1 := lt_of_le_of_ne h1 hp1
    obtain ⟨o, ho⟩ : ∃ o, (⟨fin p⟩ : Bernoulli XReal).logOdds = fin o := by
      refine ⟨Real.log p - Real.log (1 - p), ?_⟩
      simp only [Bernoulli.logOdds, f_one, f_sub, logOdds_fin h0 h1]
    have hnat : toNatural (⟨fin p⟩ : Bernoulli XReal) = [o].map fin := by
      simp [toNatural, naturalAndLogPartition, ho]
    refine ⟨_, hnat, fun v hv => ?_⟩
    obtain ⟨v1, rfl⟩ := one_of_length hv
    refine cumulants_family Measure.count byteOf (fun η => ∃ a, η = [a]) (fun i => i = 0 ∨ i = 1)
      (fun i => [((i : ℕ) : ℝ)]) (fun _ => 0) ?_ _ _ _ ⟨_, rfl⟩
      (by rw [← hnat]; exact hrt) hv ?_ Measurable.of_discrete ?_
    · rintro η ⟨a, rfl⟩
      obtain ⟨d', k1, k2, A, k3, k4⟩ := Bernoulli.natural_form a
      refine ⟨d', k1, k2, A, k3, fun x => ⟨fun hx => ?_, (k4 x).2⟩⟩
      rw [(k4 x).1 hx]; simp
    · intro i hi
      have : (byteOf i).toNat = (i : ℕ) := by
        have := i.isLt
        simp only [byteOf, UInt8.toNat_ofNat']; omega
      simp [sufficientStatistic, this]
    · exact Eventually.of_forall fun s => ⟨_, rfl⟩
  · intro ps d h hp hs
    have hrt := (C25_round_trip_partial.2.2.2.2.2.2.2.2 ps d h hp).2 hs
    obtain ⟨hn, hpos, -, rfl⟩ := Categorical.new_ok h
    have hp : ∀ p ∈ ps, 0 < p := fun p hm => lt_of_le_of_ne (hpos p hm) (Ne.symm (hp p hm))
    obtain ⟨ini, l, rfl⟩ : ∃ ini l, ps = ini ++ [l] :=
      ⟨ps.dropLast, ps.getLast hn, (List.dropLast_append_getLast hn).symm⟩
    have hl : 0 < l := hp l (by simp)
    have hini : ∀ p ∈ ini, 0 < p := fun p hm => hp p (by simp [hm])
    have hnat : toNatural (⟨(ini ++ [l]).map fin⟩ : Categorical XReal)
        = (ini.map (fun p => Real.log (p / l))).map fin := by
      show (Categorical.natural _).1 = _
      rw [Categorical.natural_fin hl hini]
    refine ⟨ini.map (fun p => Real.log (p / l)), by simp, hnat, fun v hv => ?_⟩
    refine cumulants_family Measure.count id (fun η => η.length = ini.length) (fun i => i ≤ ini.length)
      (fun i : ℕ => unitAt ini.length i) (fun _ => 0) ?_ _ _ _ (by simp)
      (by rw [← hnat]; exact hrt) hv ?_ measurable_from_top ?_
    · intro η hη
      obtain ⟨d', k1, k2, -, A, k3, k4⟩ := Categorical.natural_form η
      rw [hη] at k4
      refine ⟨d', k1, k2, A, k3, fun x => ⟨fun hx => ?_, (k4 x).2⟩⟩
      rw [id, (k4 x).1 hx]; simp
    · intro i _
      show Categorical.stat _ _ = _
      simp only [Categorical.stat, unitAt, id, List.length_map, List.length_append, List.length_singleton,
        Nat.add_sub_cancel]
      split_ifs <;> simp [List.map_set]
    · refine Eventually.of_forall fun s => ?_
      simp only [along, List.length_zipWith, List.length_map] at hv ⊢
      omega

/-- **C123**, chi-squared, in the direction of the first natural parameter (the one that is used). -/
theorem C123_chi_squared_partial {k : ℝ} {d : ChiSquared XReal} (h : ChiSquared.new (fin k) = .ok d) :
    ∃ η : List ℝ, toNatural d = η.map fin ∧ ∀ v : ℝ, Cumulants volume fin d η [v, 0] := by
  have hrt := C25_round_trip_partial.2.2.2.2.1 k d h
  obtain ⟨hk, rfl⟩ := ChiSquared.new_ok h
  have hnat : toNatural (⟨fin k⟩ : ChiSquared XReal) = [k / 2 - 1, -1/2].map fin := by
    simp only [toNatural, naturalAndLogPartition, ChiSquared.shape, ChiSquared.rate, f_ofRat, Rat.cast_ofNat,
      f_div _ _ (two_ne_zero (α := ℝ)), f_one, f_sub, f_neg]
    push_cast
    norm_num
  have ha' : -1 < k / 2 - 1 := by linarith
  refine ⟨_, hnat, fun v => ?_⟩
  refine cumulants_family volume fin (fun η => ∃ a, η = [a, -1/2] ∧ -1 < a) (fun x => 0 < x)
    (fun x => [Real.log x, x]) (fun _ => 0) ?_ _ _ _ ⟨_, rfl, ha'⟩ (by rw [← hnat]; exact hrt) rfl
    (fun x hx => by simp [sufficientStatistic, f_ln _ hx]) ?_ ?_
  · rintro η ⟨a, rfl, ha⟩
    obtain ⟨d', k1, k2, A, k3, k4⟩ := ChiSquared.natural_form a (-1/2) ha
    refine ⟨d', k1, k2, A, k3, fun x => ⟨fun hx => ?_, (k4 x).2⟩⟩
    rw [(k4 x).1 hx]; simp
  · simp only [List.zipWith_cons_cons, List.zipWith_nil_right, List.sum_cons, List.sum_nil]
    fun_prop
  · filter_upwards [eventually_pos (v := v) ha'] with s hs1
    exact ⟨k / 2 - 1 + s * v, by simp [along], hs1⟩

/-- **C123** fails for every accepted exponential distribution: `from_natural(·).log_partition()` is
`ln(-η)`, with derivative `-1/rate` at `η = -rate` where the mean is `1/rate`, and it is concave. -/
theorem C123_exponential_violated {r : ℝ} {d : Exponential XReal} (h : Exponential.new (fin r) = .ok d) :
    toNatural d = [-r].map fin ∧
    HasDerivAt (fun s => logPartitionAt (Exponential XReal) (along [-r] [1] s)) (-1 / r) 0 ∧
    (∫ x, statAlong d [1] (fin x) ∂(law volume fin d)) = 1 / r ∧
    ¬ Cumulants volume fin d [-r] [1] := by
  have hreg := C122_regular.2.1 r d h
  obtain ⟨m, v, hm, hv, hmv⟩ := C27_continuous_moments.2.1 r d h
  obtain ⟨hr, rfl⟩ := Exponential.new_ok h
  have hm' : m = 1 / r := by
    simp only [Exponential.mean, recip, f_one, f_div _ _ hr.ne'] at hm
    exact (XReal.fin.inj hm).symm
  have hder : HasDerivAt (fun s => logPartitionAt (Exponential XReal) (along [-r] [1] s)) (-1 / r) 0 := by
    have h1 : HasDerivAt (fun s : ℝ => Real.log (r - s)) (-1 / r) 0 := by
      have := ((hasDerivAt_const (0:ℝ) r).sub (hasDerivAt_id (0:ℝ))).log (by simpa using hr.ne')
      simpa using this
    refine h1.congr_of_eventuallyEq ?_
    filter_upwards [eventually_neg (a := -r) (v := 1) (by linarith)] with s hs
    have hs' : 0 < r - s := by linarith
    have e : -(-r + s * 1) = r - s := by ring
    simp only [logPartitionAt, along, List.zipWith_cons_cons, List.zipWith_nil_right, List.map_cons, List.map_nil,
      fromNatural, f_neg, e, Exponential.new, f_zero, f_gt, hs', decide_true, if_true, logPartition,
      naturalAndLogPartition, f_ln _ hs', toReal_fin]
  have hint : (∫ x, statAlong (⟨fin r⟩ : Exponential XReal) [1] (fin x)
      ∂(law volume fin (⟨fin r⟩ : Exponential XReal))) = 1 / r := by
    have := (integral_law_quadratic _ hreg hmv
      (fun x => statAlong (⟨fin r⟩ : Exponential XReal) [1] (fin x)) 0 1 0
      (fun x _ => by simp [statAlong, sufficientStatistic])).2
    rw [this, hm']; ring
  refine ⟨by simp [toNatural, naturalAndLogPartition], hder, hint, fun hc => ?_⟩
  have := hc.mean.unique hder
  rw [hint] at this
  have hr' : 0 < 1 / r := by positivity
  rw [neg_div] at this
  linarith

/-- **C123** fails for every geometric distribution with `p < 1`: the derivative of the log-partition is
`(1-p)/p` where the mean is `1/p`. -/
theorem C123_geometric_violated {p : ℝ} {d : Geometric XReal} (h : Geometric.new (fin p) = .ok d)
    (hp : p ≠ 1) :
    toNatural d = [Real.log (1 - p)].map fin ∧
    HasDerivAt (fun s => logPartitionAt (Geometric XReal) (along [Real.log (1 - p)] [1] s)) ((1 - p) / p) 0 ∧
    (∫ k : ℕ, statAlong d [1] k ∂(law Measure.count (id : ℕ → ℕ) d)) = 1 / p ∧
    ¬ Cumulants Measure.count (id : ℕ → ℕ) d [Real.log (1 - p)] [1] := by
  have hreg := C122_regular.2.2.2.2.2.2.2.1 p d h hp
  obtain ⟨m, v, hm, hv, hmv⟩ := C27_discrete_moments_partial.2.1 p d h hp
  obtain ⟨⟨h0, h1⟩, rfl⟩ := Geometric.new_ok h
  have h1 : p < 1 := lt_of_le_of_ne h1 hp
  have hq : 0 < 1 - p := by linarith
  have hm' : m = 1 / p := by
    simp only [Geometric.mean, recip, f_one, f_div _ _ h0.ne'] at hm
    exact (XReal.fin.inj hm).symm
  have hder : HasDerivAt (fun s => logPartitionAt (Geometric XReal) (along [Real.log (1 - p)] [1] s))
      ((1 - p) / p) 0 := by
    have k1 : HasDerivAt (fun s : ℝ => -Real.log (1 - Real.exp (Real.log (1 - p) + s * 1))) ((1 - p) / p) 0 := by
      have e1 : HasDerivAt (fun s : ℝ => Real.log (1 - p) + s * 1) 1 0 := by
        simpa using ((hasDerivAt_id (0:ℝ)).mul_const (1:ℝ)).const_add (Real.log (1 - p))
      have e2 := ((e1.exp.const_sub 1).log (by simp [Real.exp_log hq, h0.ne'])).neg
      have e3 : (1 - p) / p = -(-(Real.exp (Real.log (1 - p) + 0 * 1) * 1)
          / (1 - Real.exp (Real.log (1 - p) + 0 * 1))) := by
        rw [zero_mul, add_zero, Real.exp_log hq]
        have : 1 - (1 - p) = p := by ring
        rw [this]; ring
      rw [e3]
      exact e2
    refine k1.congr_of_eventuallyEq ?_
    have hlt : Real.log (1 - p) < 0 := Real.log_neg hq (by linarith)
    filter_upwards [eventually_neg (a := Real.log (1 - p)) (v := 1) hlt] with s hs
    have e : Real.exp (Real.log (1 - p) + s * 1) < 1 := by
      have := Real.exp_lt_exp.mpr hs
      rwa [Real.exp_zero] at this
    have e0 := Real.exp_pos (Real.log (1 - p) + s * 1)
    have hs' : 0 < 1 - Real.exp (Real.log (1 - p) + s * 1) := by linarith
    have hs2 : 1 - Real.exp (Real.log (1 - p) + s * 1) ≤ 1 := by linarith
    simp only [logPartitionAt, along, List.zipWith_cons_cons, List.zipWith_nil_right, List.map_cons, List.map_nil,
      fromNatural, f_one, f_exp, f_sub, Geometric.new, f_zero, f_gt, f_le, hs', hs2, decide_true, Bool.and_self,
      if_true, logPartition, naturalAndLogPartition, f_ln _ hs', f_neg, toReal_fin]
  have hint : (∫ k : ℕ, statAlong (⟨fin p⟩ : Geometric XReal) [1] k
      ∂(law Measure.count (id : ℕ → ℕ) (⟨fin p⟩ : Geometric XReal))) = 1 / p := by
    rw [← hm']
    refine (integral_law_nat _ hreg _ ?_).2
    have := hmv.mean
    have e : (fun k : ℕ => density (logDensityWrtRoot (⟨fin p⟩ : Geometric XReal) k)
          * statAlong (⟨fin p⟩ : Geometric XReal) [1] k)
        = fun k : ℕ => (k:ℝ) * density (logDensityWrtRoot (⟨fin p⟩ : Geometric XReal) k) := by
      funext k
      simp [statAlong, sufficientStatistic, mul_comm]
    rw [e]
    exact this
  refine ⟨?_, hder, hint, fun hc => ?_⟩
  · simp [toNatural, naturalAndLogPartition, Geometric.failureProb, f_ln _ hq]
  · have := hc.mean.unique hder
    have h2 : (∫ a : ℕ, statAlong (⟨fin p⟩ : Geometric XReal) [1] (id a)
      ∂(law Measure.count (id : ℕ → ℕ) (⟨fin p⟩ : Geometric XReal))) = 1 / p := hint
    rw [h2, div_eq_div_iff h0.ne' h0.ne'] at this
    nlinarith

/-- **C123** fails for chi-squared in the direction of the second natural parameter, which `from_natural`
ignores: the derivative is zero where the mean is the number of degrees of freedom. -/
theorem C123_chi_squared_violated {k : ℝ} {d : ChiSquared XReal} (h : ChiSquared.new (fin k) = .ok d) :
    ∃ η : List ℝ, toNatural d = η.map fin ∧
      (∀ s, logPartitionAt (ChiSquared XReal) (along η [0, 1] s)
        = logPartitionAt (ChiSquared XReal) (along η [0, 1] 0)) ∧
      (∫ x, statAlong d [0, 1] (fin x) ∂(law volume fin d)) = k ∧
      ¬ Cumulants volume fin d η [0, 1] := by
  have hreg := C122_regular.2.2.2.2.1 k d h
  obtain ⟨m, v, hm, hv, hmv⟩ := C27_continuous_moments.2.2.2.2 k d h
  obtain ⟨hk, rfl⟩ := ChiSquared.new_ok h
  have hm' : m = k := by
    simp only [ChiSquared.mean] at hm
    exact (XReal.fin.inj hm).symm
  have hnat : toNatural (⟨fin k⟩ : ChiSquared XReal) = [k / 2 - 1, -1/2].map fin := by
    simp only [toNatural, naturalAndLogPartition, ChiSquared.shape, ChiSquared.rate, f_ofRat, Rat.cast_ofNat,
      f_div _ _ (two_ne_zero (α := ℝ)), f_one, f_sub, f_neg]
    push_cast
    norm_num
  have hconst : ∀ s, logPartitionAt (ChiSquared XReal) (along [k / 2 - 1, -1/2] [0, 1] s)
      = logPartitionAt (ChiSquared XReal) (along [k / 2 - 1, -1/2] [0, 1] 0) := by
    intro s
    simp [logPartitionAt, along, fromNatural]
  have hint : (∫ x, statAlong (⟨fin k⟩ : ChiSquared XReal) [0, 1] (fin x)
      ∂(law volume fin (⟨fin k⟩ : ChiSquared XReal))) = k := by
    have := (integral_law_quadratic _ hreg hmv
      (fun x => statAlong (⟨fin k⟩ : ChiSquared XReal) [0, 1] (fin x)) 0 1 0
      (fun x _ => by simp [statAlong, sufficientStatistic])).2
    rw [this, hm']; ring
  refine ⟨_, hnat, hconst, hint, fun hc => ?_⟩
  have h0 : HasDerivAt (fun s => logPartitionAt (ChiSquared XReal) (along [k / 2 - 1, -1/2] [0, 1] s)) 0 0 := by
    rw [funext hconst]; exact hasDerivAt_const _ _
  have := hc.mean.unique h0
  rw [hint] at this
  linarith

/-- **C123** fails for the standard normal, whose `from_natural` ignores its argument: the log-partition is
constant, although the statistic `x²` has mean one. -/
theorem C123_std_normal_violated (η v : List ℝ) :
    HasDerivAt (fun s => logPartitionAt (StdNormal XReal) (along η v s)) 0 0 ∧
    (∀ x : ℝ, statAlong ({} : StdNormal XReal) [0, 1] (fin x) = x * x) ∧
    ∫ x, x * x ∂(gaussianReal 0 1) = 1 := by
  refine ⟨?_, fun x => by simp [statAlong, sufficientStatistic], ?_⟩
  · exact hasDerivAt_const _ _
  · have := variance_fun_id_gaussianReal (μ := 0) (v := 1)
    rw [variance_eq_integral (by fun_prop)] at this
    simp only [integral_id_gaussianReal, sub_zero] at this
    simpa [pow_two] using this

/-- The hypotheses are met: e.g. the gamma distribution with shape 2 and rate 3 has natural parameter
`[1, -3]`, and the claim holds in every direction. -/
example : ∃ d : Gamma XReal, Gamma.new (fin 2) (fin 3) = .ok d ∧
    ∃ η : List ℝ, toNatural d = η.map fin ∧ Cumulants volume fin d η [1, 0] ∧ Cumulants volume fin d η [1, 1] := by
  have h : Gamma.new (fin 2) (fin 3) = .ok (⟨fin 2, fin 3⟩ : Gamma XReal) := by simp [Gamma.new]
  obtain ⟨η, h1, h2⟩ := C123_continuous.2.1 2 3 _ h
  exact ⟨_, h, η, h1, h2 _ rfl, h2 _ rfl⟩

example : ∃ d : Categorical XReal, Categorical.new ([1/2, 1/4, 1/4].map fin) = .ok d := by
  refine ⟨_, (Categorical.regular (ps := [1/2, 1/4, 1/4]) (by simp) ?_ (by norm_num)).1⟩
  simp

end Verif
