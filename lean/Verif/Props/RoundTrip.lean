import Verif.Props.ExpFamAgree

/-!
# C25: natural-parameter round trips
-/

namespace Verif
open FloatOps XReal Spec ExponentialFamily

/-- **C25**, distribution → natural parameter → distribution is the identity for every accepted
parameter of Normal, Exponential, Gamma, Beta, ChiSquared, Poisson, for Bernoulli and Geometric with
`0 < p < 1`, and for Categorical with positive entries summing to exactly one.  In general the
Categorical round trip normalises the vector.  Missing from the full claim: Binomial and
NegativeBinomial, which panic, and boundary probabilities (`C25_violated`). -/
theorem C25_round_trip_partial :
    (∀ (μ σ : ℝ) (d : Normal XReal), Normal.new (fin μ) (fin σ) = .ok d →
      fromNatural (toNatural d) = .ok d) ∧
    (∀ (r : ℝ) (d : Exponential XReal), Exponential.new (fin r) = .ok d →
      fromNatural (toNatural d) = .ok d) ∧
    (∀ (a b : ℝ) (d : Gamma XReal), Gamma.new (fin a) (fin b) = .ok d →
      fromNatural (toNatural d) = .ok d) ∧
    (∀ (a b : ℝ) (d : Beta XReal), Beta.new (fin a) (fin b) = .ok d →
      fromNatural (toNatural d) = .ok d) ∧
    (∀ (k : ℝ) (d : ChiSquared XReal), ChiSquared.new (fin k) = .ok d →
      fromNatural (toNatural d) = .ok d) ∧
    (∀ (r : ℝ) (d : Poisson XReal), Poisson.new (fin r) = .ok d →
      fromNatural (toNatural d) = .ok d) ∧
    (∀ (p : ℝ) (d : Bernoulli XReal), Bernoulli.new (fin p) = .ok d → p ≠ 0 → p ≠ 1 →
      fromNatural (toNatural d) = .ok d) ∧
    (∀ (p : ℝ) (d : Geometric XReal), Geometric.new (fin p) = .ok d → p ≠ 1 →
      fromNatural (toNatural d) = .ok d) ∧
    (∀ (ps : List ℝ) (d : Categorical XReal), Categorical.new (ps.map fin) = .ok d →
      (∀ p ∈ ps, p ≠ 0) →
      fromNatural (toNatural d) = .ok (⟨(ps.map (fun p => p / ps.sum)).map fin⟩ : Categorical XReal) ∧
      (ps.sum = 1 → fromNatural (toNatural d) = .ok d)) := by
  refine ⟨?_, ?_, ?_, ?_, ?_, ?_, ?_, ?_, ?_⟩
  · intro μ σ d h
    obtain ⟨hσ, rfl⟩ := Normal.new_ok h
    have hs : (0:ℝ) < σ * σ := mul_pos hσ hσ
    simp only [fromNatural, toNatural, naturalAndLogPartition, Normal.variance, recip, f_mul, f_one,
      f_div _ _ hs.ne', f_ofRat]
    rw [f_div _ _ (by push_cast; simp; exact hσ.ne'), f_neg, f_sqrt _ (by push_cast; field_simp; positivity)]
    have e1 : -(1 / (((2:ℚ):ℝ) * (((-1/2 : ℚ):ℝ) * (1 / (σ * σ))))) = σ * σ := by
      push_cast; field_simp
    rw [e1, f_mul, Real.sqrt_mul_self hσ.le]
    simp [Normal.new, hσ]
    field_simp
  · intro r d h
    obtain ⟨hr, rfl⟩ := Exponential.new_ok h
    simp [fromNatural, toNatural, naturalAndLogPartition, Exponential.new, hr]
  · intro a b d h
    obtain ⟨ha, hb, rfl⟩ := Gamma.new_ok h
    simp [fromNatural, toNatural, naturalAndLogPartition, Gamma.new, ha, hb]
  · intro a b d h
    obtain ⟨ha, hb, rfl⟩ := Beta.new_ok h
    simp [fromNatural, toNatural, naturalAndLogPartition, Beta.new, ha, hb]
  · intro k d h
    obtain ⟨hk, rfl⟩ := ChiSquared.new_ok h
    have e : 2 * (k / 2) = k := by ring
    simp [fromNatural, toNatural, naturalAndLogPartition, ChiSquared.new, ChiSquared.shape,
      f_div _ _ (two_ne_zero (α := ℝ)), e, hk]
  · intro r d h
    obtain ⟨hr, rfl⟩ := Poisson.new_ok h
    simp [fromNatural, toNatural, naturalAndLogPartition, Poisson.new, f_ln _ hr, Real.exp_log hr, hr]
  · intro p d h hp0 hp1
    obtain ⟨⟨h0, h1⟩, rfl⟩ := Bernoulli.new_ok h
    have h0' : 0 < p := lt_of_le_of_ne h0 (Ne.symm hp0)
    have h1' : p < 1 := lt_of_le_of_ne h1 hp1
    have hq : 0 < 1 - p := by linarith
    have e : Real.exp (Real.log p - Real.log (1 - p)) / (1 / (1 - p)) = p := by
      rw [Real.exp_sub, Real.exp_log h0', Real.exp_log hq]
      field_simp
    simp only [fromNatural, toNatural, naturalAndLogPartition, Bernoulli.logOdds, f_one, f_sub,
      logOdds_fin h0' h1', f_exp, f_add, one_add_exp_logOdds h0' h1',
      f_div _ (1 / (1 - p)) (by positivity), e]
    exact h
  · intro p d h hp1
    obtain ⟨⟨h0, h1⟩, rfl⟩ := Geometric.new_ok h
    have hq : 0 < 1 - p := by
      have := lt_of_le_of_ne h1 hp1
      linarith
    simp only [fromNatural, toNatural, naturalAndLogPartition, Geometric.failureProb, f_one, f_sub,
      f_ln _ hq, f_exp, Real.exp_log hq, sub_sub_cancel]
    exact h
  · intro ps d h hne
    obtain ⟨hn, hpos, hsum, rfl⟩ := Categorical.new_ok h
    obtain rfl | ⟨ini, l, rfl⟩ := List.eq_nil_or_concat ps
    · exact absurd rfl hn
    rw [List.concat_eq_append] at *
    have hp : ∀ p ∈ ini ++ [l], 0 < p := fun p hp => lt_of_le_of_ne (hpos p hp) (Ne.symm (hne p hp))
    have hl : 0 < l := hp l (by simp)
    have hini : ∀ p ∈ ini, 0 < p := fun p h => hp p (by simp [h])
    have hs1 := abs_lt.mp hsum
    have hs : 0 < (ini ++ [l]).sum := by linarith [hs1.1, (by norm_num : (1:ℝ)/10^10 < 1)]
    have key : fromNatural (toNatural (⟨(ini ++ [l]).map fin⟩ : Categorical XReal))
        = .ok (⟨((ini ++ [l]).map (fun p => p / (ini ++ [l]).sum)).map fin⟩ : Categorical XReal) := by
      have hnat := Categorical.natural_fin hl hini
      have he : List.map FloatOps.exp ((ini.map (fun p => Real.log (p / l))).map fin)
          = (ini.map (fun p => p / l)).map fin := by
        rw [List.map_map, List.map_map, List.map_map]
        apply List.map_congr_left
        intro p hp
        have hp := hini p hp
        simp [Real.exp_log (div_pos hp hl)]
      have e2 : (ini.map (fun p => p / l)).sum = ini.sum / l := by
        have := sum_map_mul_real ini l⁻¹ id
        rw [List.map_id] at this
        simp only [id] at this
        rw [div_eq_inv_mul, ← this]
        congr 1
        apply List.map_congr_left
        intro p _
        rw [div_eq_inv_mul]
      have e3 : 1 + ini.sum / l = (ini ++ [l]).sum / l := by
        simp; field_simp; ring
      have hN : (ini ++ [l]).sum / l ≠ 0 := (div_pos hs hl).ne'
      show Categorical.fromNaturalImpl (Categorical.natural _).1 = _
      rw [hnat]
      simp only [Categorical.fromNaturalImpl, he, f_sum, e2, f_one, f_add, e3, f_div _ _ hN]
      have e4 : List.map (fun e => e /. fin ((ini ++ [l]).sum / l)) ((ini.map (fun p => p / l)).map fin)
            ++ [fin (1 / ((ini ++ [l]).sum / l))]
          = ((ini ++ [l]).map (fun p => p / (ini ++ [l]).sum)).map fin := by
        simp only [List.map_append, List.map_map, List.map_cons, List.map_nil]
        congr 1
        · apply List.map_congr_left
          intro p _
          simp only [Function.comp]
          rw [f_div _ _ hN]
          congr 1
          field_simp
        · congr 2
          field_simp
      rw [e4]
      have e5 : ((ini ++ [l]).map (fun p => p / (ini ++ [l]).sum)).sum = 1 := by
        have := sum_map_mul_real (ini ++ [l]) (ini ++ [l]).sum⁻¹ id
        rw [List.map_id] at this
        simp only [id] at this
        rw [inv_mul_cancel₀ hs.ne'] at this
        rw [← this]
        congr 1
        apply List.map_congr_left
        intro p _
        rw [div_eq_inv_mul]
      unfold Categorical.new
      rw [if_neg (by simp), if_neg, if_pos]
      · rw [f_sum, e5]; simp
      · simp only [Bool.not_eq_true, Bool.not_eq_false', List.all_eq_true, List.mem_map]
        rintro x ⟨y, ⟨p, hpm, rfl⟩, rfl⟩
        have := (div_pos (hp p hpm) hs).le
        simpa using this
    refine ⟨key, fun h1 => ?_⟩
    rw [key]
    congr 2
    rw [h1]; simp

example : ∃ d, Categorical.new ([1/2, 1/4, 1/4].map fin) = .ok d := by
  refine ⟨⟨[1/2, 1/4, 1/4].map fin⟩, ?_⟩
  unfold Categorical.new
  rw [f_sum]
  simp
  norm_num

/-- **C25**, natural parameter → distribution → natural parameter is the identity on the natural
parameter space: `η₂ < 0` for Normal, `η < 0` for Exponential and Geometric, `η₁ > -1` and `η₂ < 0` for
Gamma, `η > -1` for Beta, every real `η` for Bernoulli and Poisson. -/
theorem C25_natural_round_trip :
    (∀ a b : ℝ, b < 0 → ∃ d : Normal XReal, fromNatural [fin a, fin b] = .ok d ∧
      toNatural d = [fin a, fin b]) ∧
    (∀ a : ℝ, a < 0 → ∃ d : Exponential XReal, fromNatural [fin a] = .ok d ∧ toNatural d = [fin a]) ∧
    (∀ a b : ℝ, -1 < a → b < 0 → ∃ d : Gamma XReal, fromNatural [fin a, fin b] = .ok d ∧
      toNatural d = [fin a, fin b]) ∧
    (∀ a b : ℝ, -1 < a → -1 < b → ∃ d : Beta XReal, fromNatural [fin a, fin b] = .ok d ∧
      toNatural d = [fin a, fin b]) ∧
    (∀ a : ℝ, ∃ d : Bernoulli XReal, fromNatural [fin a] = .ok d ∧ toNatural d = [fin a]) ∧
    (∀ a : ℝ, a < 0 → ∃ d : Geometric XReal, fromNatural [fin a] = .ok d ∧ toNatural d = [fin a]) ∧
    (∀ a : ℝ, ∃ d : Poisson XReal, fromNatural [fin a] = .ok d ∧ toNatural d = [fin a]) := by
  refine ⟨?_, ?_, ?_, ?_, ?_, ?_, ?_⟩
  · intro a b hb
    have h2b : (2:ℝ) * b ≠ 0 := by linarith
    have hv : 0 < -(1 / (2 * b)) := by
      rw [neg_pos]; exact div_neg_of_pos_of_neg one_pos (by linarith)
    have hs : 0 < Real.sqrt (-(1 / (2 * b))) := Real.sqrt_pos.mpr hv
    refine ⟨⟨fin (a * -(1 / (2 * b))), fin (Real.sqrt (-(1 / (2 * b))))⟩, ?_, ?_⟩
    · simp only [fromNatural, recip, f_ofRat, Rat.cast_ofNat, f_one, f_mul, f_div _ _ h2b, f_neg,
        f_sqrt _ hv.le]
      simp only [Normal.new, f_zero, f_gt, hs, decide_true, if_true]
    · simp only [toNatural, naturalAndLogPartition, Normal.variance, f_mul,
        Real.mul_self_sqrt hv.le, recip, f_one, f_div _ _ hv.ne', f_ofRat]
      have hb' : b ≠ 0 := hb.ne
      congr 2
      · field_simp
      · congr 1; push_cast; field_simp
  · intro a ha
    exact ⟨⟨fin (-a)⟩, by simp [fromNatural, Exponential.new, ha],
      by simp [toNatural, naturalAndLogPartition]⟩
  · intro a b ha hb
    have : 0 < a + 1 := by linarith
    exact ⟨⟨fin (a + 1), fin (-b)⟩, by simp [fromNatural, Gamma.new, hb, this],
      by simp [toNatural, naturalAndLogPartition]⟩
  · intro a b ha hb
    have h1 : 0 < a + 1 := by linarith
    have h2 : 0 < b + 1 := by linarith
    exact ⟨⟨fin (a + 1), fin (b + 1)⟩, by simp [fromNatural, Beta.new, h1, h2],
      by simp [toNatural, naturalAndLogPartition]⟩
  · intro a
    have he := Real.exp_pos a
    have h1 : 0 < 1 + Real.exp a := by linarith
    have hp0 : 0 < Real.exp a / (1 + Real.exp a) := div_pos he h1
    have hp1 : Real.exp a / (1 + Real.exp a) < 1 := by rw [div_lt_one h1]; linarith
    refine ⟨⟨fin (Real.exp a / (1 + Real.exp a))⟩, ?_, ?_⟩
    · simp [fromNatural, f_div _ _ h1.ne', Bernoulli.new, hp0.le, hp1.le]
    · simp only [toNatural, naturalAndLogPartition, Bernoulli.logOdds, f_one, f_sub, logOdds_fin hp0 hp1]
      have : 1 - Real.exp a / (1 + Real.exp a) = 1 / (1 + Real.exp a) := by field_simp; ring
      rw [this, Real.log_div he.ne' h1.ne', Real.log_div one_ne_zero h1.ne', Real.log_one, Real.log_exp]
      simp
  · intro a ha
    have h1 : Real.exp a < 1 := by
      rw [← Real.exp_zero]; exact Real.exp_lt_exp.mpr ha
    have h2 := Real.exp_pos a
    refine ⟨⟨fin (1 - Real.exp a)⟩, ?_, ?_⟩
    · simp [fromNatural, Geometric.new, h1, h2.le]
    · simp [toNatural, naturalAndLogPartition, Geometric.failureProb, f_ln _ h2]
  · intro a
    have h2 := Real.exp_pos a
    exact ⟨⟨fin (Real.exp a)⟩, by simp [fromNatural, Poisson.new, h2],
      by simp [toNatural, naturalAndLogPartition, f_ln _ h2]⟩

/-- **C25** violated: Binomial and NegativeBinomial panic on every natural parameter; ChiSquared ignores
its second natural parameter, so a value other than `-1/2` is lost; the standard normal ignores its
parameter altogether; the accepted Bernoulli `p = 1` does not survive the round trip. -/
theorem C25_violated :
    (∀ η : List XReal, ∃ e, fromNatural (D := Binomial XReal) η = .error e) ∧
    (∀ η : List XReal, ∃ e, fromNatural (D := NegativeBinomial XReal) η = .error e) ∧
    (∃ d : ChiSquared XReal, fromNatural [fin 1, fin (-3)] = .ok d ∧ toNatural d = [fin 1, fin (-(1/2))]) ∧
    (∃ d : StdNormal XReal, fromNatural [fin 1, fin (-3)] = .ok d ∧ toNatural d = [fin 0, fin (-1/2)]) ∧
    (∃ d : Bernoulli XReal, Bernoulli.new (fin 1) = .ok d ∧
      ∃ e, fromNatural (D := Bernoulli XReal) (toNatural d) = .error e) := by
  refine ⟨fun η => ⟨_, rfl⟩, fun η => ⟨_, rfl⟩, ?_, ?_, ?_⟩
  · refine ⟨⟨fin 4⟩, ?_, ?_⟩
    · simp [fromNatural, ChiSquared.new]; norm_num
    · simp [toNatural, naturalAndLogPartition, ChiSquared.shape, ChiSquared.rate,
        f_div _ _ (two_ne_zero (α := ℝ))]
      norm_num
  · refine ⟨{}, rfl, ?_⟩
    simp [toNatural, naturalAndLogPartition]
  · refine ⟨⟨fin 1⟩, by simp [Bernoulli.new], ?_⟩
    have h1 : (fin 1 /. fin 0) = pinf := by
      rw [f_div_zero]; simp [infOf]
    have h2 : FloatOps.ln pinf = pinf := rfl
    have h3 : FloatOps.exp pinf = pinf := rfl
    have h4 : (fin 1 +. pinf) = pinf := rfl
    have h5 : (pinf /. pinf) = XReal.nan := rfl
    have h6 : FloatOps.ge XReal.nan (fin 0) = false := rfl
    simp [fromNatural, toNatural, naturalAndLogPartition, Bernoulli.logOdds, h1, h2, h3, h4, h5,
      Bernoulli.new, h6]

end Verif
