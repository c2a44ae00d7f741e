import Verif.Props.Concave

/-!
# C132, the distributions of the library
-/

namespace Verif
open FloatOps XReal Spec MeasureTheory ExponentialFamily

theorem TermConcave.both {D X α : Type} [ExponentialFamily D X XReal] [ArrayStat D] [HasLogDensity D X XReal]
    {accepted : D → Prop} {emb : α → X} {S : α → Prop}
    (h : TermConcave accepted emb S (fun d x => logDensityWrtRoot d x) (fun _ => 1))
    (hI : ∀ d, accepted d → IidIsSum d)
    (hE : ∀ d, accepted d → ∀ a, S a → (expFamLogDensity d (emb a) : XReal) = logDensityWrtRoot d (emb a)) :
    ConcaveInNatural accepted emb S (fun d xs => (IID.ofDist d).iidLogDensityFallback xs) ∧
    ConcaveInNatural accepted emb S (fun d xs => (IID.ofDist d).iidLogDensity xs) := by
  refine ⟨h.joint (fun _ _ => one_pos) fun d _ xs => rfl, ?_⟩
  refine (h.shift (term' := fun d x => expFamLogDensity d x) (fun _ => 0) fun d hd a ha x hx => ?_).joint
    (fun _ _ => one_pos) fun d hd xs => hI d hd xs
  rw [hE d hd a ha, hx, add_zero]

theorem between_one (t a b : ℝ) : between t [a] [b] = [(1 - t) * a + t * b] := rfl

theorem between_two (t a b a' b' : ℝ) :
    between t [a, b] [a', b'] = [(1 - t) * a + t * a', (1 - t) * b + t * b'] := rfl

theorem mix_lt {t a b c : ℝ} (h0 : 0 ≤ t) (h1 : t ≤ 1) (ha : c < a) (hb : c < b) : c < (1 - t) * a + t * b := by
  rcases eq_or_lt_of_le h0 with rfl | h0
  · simpa using ha
  · nlinarith [mul_nonneg (sub_nonneg.2 h1) (sub_pos.2 ha).le, mul_pos h0 (sub_pos.2 hb)]

theorem mix_gt {t a b c : ℝ} (h0 : 0 ≤ t) (h1 : t ≤ 1) (ha : a < c) (hb : b < c) : (1 - t) * a + t * b < c := by
  rcases eq_or_lt_of_le h0 with rfl | h0
  · simpa using ha
  · nlinarith [mul_nonneg (sub_nonneg.2 h1) (sub_pos.2 ha).le, mul_pos h0 (sub_pos.2 hb)]

theorem Normal.concave : TermConcave (fun d : Normal XReal => ∃ μ σ : ℝ, Normal.new (fin μ) (fin σ) = .ok d)
    fin (fun _ => True) (fun d x => logDensityWrtRoot d x) (fun _ => 1) := by
  refine termConcave_family volume fin _ (fun η => ∃ a b, η = [a, b] ∧ b < 0) (fun _ => True)
    (fun x => [x, x * x]) (fun _ => 0) 2 ?_ ?_ ?_ ?_ ?_ ?_
  · rintro η ⟨a, b, rfl, -⟩; rfl
  · rintro η₀ η₁ t ⟨a, b, rfl, hb⟩ ⟨a', b', rfl, hb'⟩ h0 h1
    exact ⟨_, _, between_two _ _ _ _ _, mix_gt h0 h1 hb hb'⟩
  · rintro d ⟨μ, σ, h⟩
    have hrt := C25_round_trip_partial.1 μ σ d h
    obtain ⟨hs, rfl⟩ := Normal.new_ok h
    have hnat : toNatural (⟨fin μ, fin σ⟩ : Normal XReal)
        = [μ * (1 / (σ * σ)), -1/2 * (1 / (σ * σ))].map fin := by
      simp only [toNatural, naturalAndLogPartition, Normal.variance, recip, f_mul, f_one,
        f_div _ _ (mul_pos hs hs).ne', f_ofRat, List.map_cons, List.map_nil]
      push_cast; rfl
    refine ⟨_, ⟨_, _, rfl, ?_⟩, hnat, by rw [← hnat]; exact hrt⟩
    have : 0 < 1 / (σ * σ) := by positivity
    linarith
  · rintro η ⟨a, b, rfl, hb⟩
    obtain ⟨d, h1, h2⟩ := C25_natural_round_trip.1 a b hb
    refine ⟨d, ?_, h1, h2⟩
    have h2b : (2:ℝ) * b ≠ 0 := by linarith
    have hv : 0 < -(1 / (2 * b)) := by
      rw [neg_pos]; exact div_neg_of_pos_of_neg one_pos (by linarith)
    refine ⟨a * -(1 / (2 * b)), Real.sqrt (-(1 / (2 * b))), ?_⟩
    rw [← h1]
    simp only [fromNatural, recip, f_ofRat, Rat.cast_ofNat, f_one, f_mul, f_div _ _ h2b, f_neg, f_sqrt _ hv.le]
  · rintro η ⟨a, b, rfl, hb⟩
    obtain ⟨d', k1, k2, A, k3, k4⟩ := Normal.natural_form a b hb
    refine ⟨d', k1, k2, A, fun x => ⟨fun _ => ?_, fun hx => absurd trivial hx⟩⟩
    rw [k4]; simp
  · rintro d₀ d₁ ⟨μ, σ, h⟩ ⟨μ', σ', h'⟩ hl
    obtain ⟨rfl, rfl⟩ := (C126_continuous.1 _ _ _ _ _ _ h h').1 hl
    rw [h] at h'; injection h'

theorem Gamma.concave : TermConcave (fun d : Gamma XReal => ∃ a b : ℝ, Gamma.new (fin a) (fin b) = .ok d)
    fin (fun x => 0 < x) (fun d x => logDensityWrtRoot d x) (fun _ => 1) := by
  refine termConcave_family volume fin _ (fun η => ∃ a b, η = [a, b] ∧ -1 < a ∧ b < 0) (fun x => 0 < x)
    (fun x => [Real.log x, x]) (fun _ => 0) 2 ?_ ?_ ?_ ?_ ?_ ?_
  · rintro η ⟨a, b, rfl, -⟩; rfl
  · rintro η₀ η₁ t ⟨a, b, rfl, ha, hb⟩ ⟨a', b', rfl, ha', hb'⟩ h0 h1
    exact ⟨_, _, between_two _ _ _ _ _, mix_lt h0 h1 ha ha', mix_gt h0 h1 hb hb'⟩
  · rintro d ⟨a, b, h⟩
    have hrt := C25_round_trip_partial.2.2.1 a b d h
    obtain ⟨ha, hb, rfl⟩ := Gamma.new_ok h
    have hnat : toNatural (⟨fin a, fin b⟩ : Gamma XReal) = [a - 1, -b].map fin := by
      simp [toNatural, naturalAndLogPartition]
    exact ⟨_, ⟨_, _, rfl, by linarith, by linarith⟩, hnat, by rw [← hnat]; exact hrt⟩
  · rintro η ⟨a, b, rfl, ha, hb⟩
    obtain ⟨d, h1, h2⟩ := C25_natural_round_trip.2.2.1 a b ha hb
    refine ⟨d, ⟨a + 1, -b, ?_⟩, h1, h2⟩
    rw [← h1]; simp [fromNatural]
  · rintro η ⟨a, b, rfl, ha, hb⟩
    obtain ⟨d', k1, k2, A, k3, k4⟩ := Gamma.natural_form a b ha hb
    refine ⟨d', k1, k2, A, fun x => ⟨fun hx => ?_, (k4 x).2⟩⟩
    rw [(k4 x).1 hx]; simp
  · rintro d₀ d₁ ⟨μ, σ, h⟩ ⟨μ', σ', h'⟩ hl
    obtain ⟨rfl, rfl⟩ := (C126_continuous.2.2.1 _ _ _ _ _ _ h h').1 hl
    rw [h] at h'; injection h'

theorem Beta.concave : TermConcave (fun d : Beta XReal => ∃ a b : ℝ, Beta.new (fin a) (fin b) = .ok d)
    fin (fun x => 0 < x ∧ x < 1) (fun d x => logDensityWrtRoot d x) (fun _ => 1) := by
  refine termConcave_family volume fin _ (fun η => ∃ a b, η = [a, b] ∧ -1 < a ∧ -1 < b) (fun x => 0 < x ∧ x < 1)
    (fun x => [Real.log x, Real.log (1 - x)]) (fun _ => 0) 2 ?_ ?_ ?_ ?_ ?_ ?_
  · rintro η ⟨a, b, rfl, -⟩; rfl
  · rintro η₀ η₁ t ⟨a, b, rfl, ha, hb⟩ ⟨a', b', rfl, ha', hb'⟩ h0 h1
    exact ⟨_, _, between_two _ _ _ _ _, mix_lt h0 h1 ha ha', mix_lt h0 h1 hb hb'⟩
  · rintro d ⟨a, b, h⟩
    have hrt := C25_round_trip_partial.2.2.2.1 a b d h
    obtain ⟨ha, hb, rfl⟩ := Beta.new_ok h
    have hnat : toNatural (⟨fin a, fin b⟩ : Beta XReal) = [a - 1, b - 1].map fin := by
      simp [toNatural, naturalAndLogPartition]
    exact ⟨_, ⟨_, _, rfl, by linarith, by linarith⟩, hnat, by rw [← hnat]; exact hrt⟩
  · rintro η ⟨a, b, rfl, ha, hb⟩
    obtain ⟨d, h1, h2⟩ := C25_natural_round_trip.2.2.2.1 a b ha hb
    refine ⟨d, ⟨a + 1, b + 1, ?_⟩, h1, h2⟩
    rw [← h1]; simp [fromNatural]
  · rintro η ⟨a, b, rfl, ha, hb⟩
    obtain ⟨d', k1, k2, A, k3, k4⟩ := Beta.natural_form a b ha hb
    refine ⟨d', k1, k2, A, fun x => ⟨fun hx => ?_, (k4 x).2⟩⟩
    rw [(k4 x).1 hx]; simp
  · rintro d₀ d₁ ⟨μ, σ, h⟩ ⟨μ', σ', h'⟩ hl
    obtain ⟨rfl, rfl⟩ := (C126_continuous.2.2.2.1 _ _ _ _ _ _ h h').1 hl
    rw [h] at h'; injection h'

theorem ChiSquared.toNatural_fin (k : ℝ) :
    toNatural (⟨fin k⟩ : ChiSquared XReal) = [k / 2 - 1, -1/2].map fin := by
  simp only [toNatural, naturalAndLogPartition, ChiSquared.shape, ChiSquared.rate, f_ofRat, Rat.cast_ofNat,
    f_div _ _ (two_ne_zero (α := ℝ)), f_one, f_sub, f_neg]
  push_cast
  norm_num

theorem ChiSquared.concave : TermConcave (fun d : ChiSquared XReal => ∃ k : ℝ, ChiSquared.new (fin k) = .ok d)
    fin (fun x => 0 < x) (fun d x => logDensityWrtRoot d x) (fun _ => 1) := by
  refine termConcave_family volume fin _ (fun η => ∃ a, η = [a, -1/2] ∧ -1 < a) (fun x => 0 < x)
    (fun x => [Real.log x, x]) (fun _ => 0) 2 ?_ ?_ ?_ ?_ ?_ ?_
  · rintro η ⟨a, rfl, -⟩; rfl
  · rintro η₀ η₁ t ⟨a, rfl, ha⟩ ⟨a', rfl, ha'⟩ h0 h1
    refine ⟨_, ?_, mix_lt h0 h1 ha ha'⟩
    rw [between_two]
    congr 2; ring
  · rintro d ⟨k, h⟩
    have hrt := C25_round_trip_partial.2.2.2.2.1 k d h
    obtain ⟨hk, rfl⟩ := ChiSquared.new_ok h
    have hnat := ChiSquared.toNatural_fin k
    exact ⟨_, ⟨_, rfl, by linarith⟩, hnat, by rw [← hnat]; exact hrt⟩
  · rintro η ⟨a, rfl, ha⟩
    have h1 : 0 < a + 1 := by linarith
    have hn : ChiSquared.new (fin (2 * (a + 1))) = .ok (⟨fin (2 * (a + 1))⟩ : ChiSquared XReal) := by
      simp [ChiSquared.new, h1]
    refine ⟨_, ⟨_, hn⟩, by rw [← hn]; simp [fromNatural], ?_⟩
    rw [ChiSquared.toNatural_fin]
    congr 2; ring
  · rintro η ⟨a, rfl, ha⟩
    obtain ⟨d', k1, k2, A, k3, k4⟩ := ChiSquared.natural_form a (-1/2) ha
    refine ⟨d', k1, k2, A, fun x => ⟨fun hx => ?_, (k4 x).2⟩⟩
    rw [(k4 x).1 hx]; simp
  · rintro d₀ d₁ ⟨μ, h⟩ ⟨μ', h'⟩ hl
    obtain rfl := (C126_continuous.2.2.2.2.1 _ _ _ _ h h').1 hl
    rw [h] at h'; injection h'

theorem Exponential.concave : TermConcave (fun d : Exponential XReal => ∃ r : ℝ, Exponential.new (fin r) = .ok d)
    fin (fun x => 0 ≤ x) (fun d x => logDensityWrtRoot d x) (fun _ => 1) := by
  refine termConcave_family volume fin _ (fun η => ∃ a, η = [a] ∧ a < 0) (fun x => 0 ≤ x)
    (fun x => [x]) (fun _ => 0) 1 ?_ ?_ ?_ ?_ ?_ ?_
  · rintro η ⟨a, rfl, -⟩; rfl
  · rintro η₀ η₁ t ⟨a, rfl, ha⟩ ⟨a', rfl, ha'⟩ h0 h1
    exact ⟨_, between_one _ _ _, mix_gt h0 h1 ha ha'⟩
  · rintro d ⟨k, h⟩
    have hrt := C25_round_trip_partial.2.1 k d h
    obtain ⟨hk, rfl⟩ := Exponential.new_ok h
    have hnat : toNatural (⟨fin k⟩ : Exponential XReal) = [-k].map fin := by
      simp [toNatural, naturalAndLogPartition]
    exact ⟨_, ⟨_, rfl, by linarith⟩, hnat, by rw [← hnat]; exact hrt⟩
  · rintro η ⟨a, rfl, ha⟩
    obtain ⟨d, h1, h2⟩ := C25_natural_round_trip.2.1 a ha
    refine ⟨d, ⟨-a, ?_⟩, h1, h2⟩
    rw [← h1]; simp [fromNatural]
  · rintro η ⟨a, rfl, ha⟩
    have hn : Exponential.new (fin (-a)) = .ok (⟨fin (-a)⟩ : Exponential XReal) := by
      simp [Exponential.new, ha]
    refine ⟨_, by simp [fromNatural, Exponential.new, ha], C122_regular.2.1 _ _ hn, -Real.log (-a),
      fun x => ⟨fun hx => ?_, fun hx => ?_⟩⟩
    · rw [Exponential.ld_of_nonneg (by linarith) hx]
      simp; ring
    · rw [Exponential.ld_of_neg (not_le.1 hx)]
  · rintro d₀ d₁ ⟨μ, h⟩ ⟨μ', h'⟩ hl
    obtain rfl := (C126_continuous.2.1 _ _ _ _ h h').1 hl
    rw [h] at h'; injection h'

/-- **C132**, continuous families, by the sum of the log-densities and by the exponential-family formula. -/
theorem C132_continuous :
    (ConcaveInNatural (fun d : Normal XReal => ∃ μ σ : ℝ, Normal.new (fin μ) (fin σ) = .ok d) fin (fun _ => True)
        (fun d xs => (IID.ofDist d).iidLogDensityFallback xs) ∧
      ConcaveInNatural (fun d : Normal XReal => ∃ μ σ : ℝ, Normal.new (fin μ) (fin σ) = .ok d) fin (fun _ => True)
        (fun d xs => (IID.ofDist d).iidLogDensity xs)) ∧
    (ConcaveInNatural (fun d : Gamma XReal => ∃ a b : ℝ, Gamma.new (fin a) (fin b) = .ok d) fin (fun x => 0 < x)
        (fun d xs => (IID.ofDist d).iidLogDensityFallback xs) ∧
      ConcaveInNatural (fun d : Gamma XReal => ∃ a b : ℝ, Gamma.new (fin a) (fin b) = .ok d) fin (fun x => 0 < x)
        (fun d xs => (IID.ofDist d).iidLogDensity xs)) ∧
    (ConcaveInNatural (fun d : Beta XReal => ∃ a b : ℝ, Beta.new (fin a) (fin b) = .ok d) fin
        (fun x => 0 < x ∧ x < 1) (fun d xs => (IID.ofDist d).iidLogDensityFallback xs) ∧
      ConcaveInNatural (fun d : Beta XReal => ∃ a b : ℝ, Beta.new (fin a) (fin b) = .ok d) fin
        (fun x => 0 < x ∧ x < 1) (fun d xs => (IID.ofDist d).iidLogDensity xs)) ∧
    (ConcaveInNatural (fun d : ChiSquared XReal => ∃ k : ℝ, ChiSquared.new (fin k) = .ok d) fin (fun x => 0 < x)
        (fun d xs => (IID.ofDist d).iidLogDensityFallback xs) ∧
      ConcaveInNatural (fun d : ChiSquared XReal => ∃ k : ℝ, ChiSquared.new (fin k) = .ok d) fin (fun x => 0 < x)
        (fun d xs => (IID.ofDist d).iidLogDensity xs)) ∧
    ConcaveInNatural (fun d : Exponential XReal => ∃ r : ℝ, Exponential.new (fin r) = .ok d) fin (fun x => 0 ≤ x)
        (fun d xs => (IID.ofDist d).iidLogDensityFallback xs) := by
  refine ⟨?_, ?_, ?_, ?_, ?_⟩
  · refine Normal.concave.both ?_ ?_
    · rintro d ⟨μ, σ, h⟩; exact C28_iid_is_sum_partial.1 _ _ _ h
    · rintro d ⟨μ, σ, h⟩ x -; exact C24_continuous_agree.1 _ _ _ h x
  · refine Gamma.concave.both ?_ ?_
    · rintro d ⟨a, b, h⟩; exact C28_iid_is_sum_partial.2.2.2.1 _ _ _ h
    · rintro d ⟨a, b, h⟩ x hx
      exact C24_continuous_agree.2.1 _ _ _ h x (by simpa [Measure.inSupport] using hx)
  · refine Beta.concave.both ?_ ?_
    · rintro d ⟨a, b, h⟩; exact C28_iid_is_sum_partial.2.2.2.2.1 _ _ _ h
    · rintro d ⟨a, b, h⟩ x hx
      exact C24_continuous_agree.2.2.1 _ _ _ h x (by simpa [Measure.inSupport] using hx)
  · refine ChiSquared.concave.both ?_ ?_
    · rintro d ⟨k, h⟩; exact C28_iid_is_sum_partial.2.2.2.2.2.1 _ _ h
    · rintro d ⟨k, h⟩ x hx
      exact C24_continuous_agree.2.2.2.1 _ _ h x (by simpa [Measure.inSupport] using hx)
  · exact Exponential.concave.joint (fun _ _ => one_pos) fun d _ xs => rfl

end Verif
