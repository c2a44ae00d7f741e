import Verif.Props.ConcaveDist

/-!
# C132, discrete distributions, the consequences for maximisation, and where concavity fails
-/

namespace Verif
open FloatOps XReal Spec MeasureTheory ExponentialFamily

theorem Poisson.concave : TermConcave (fun d : Poisson XReal => ∃ r : ℝ, Poisson.new (fin r) = .ok d)
    (id : ℕ → ℕ) (fun _ => True) (fun d x => logDensityWrtRoot d x) (fun _ => 1) := by
  refine termConcave_family Measure.count id _ (fun η => ∃ a, η = [a]) (fun _ => True)
    (fun k : ℕ => [(k : ℝ)]) (fun k => -Real.log (Nat.factorial k)) 1 ?_ ?_ ?_ ?_ ?_ ?_
  · rintro η ⟨a, rfl⟩; rfl
  · rintro η₀ η₁ t ⟨a, rfl⟩ ⟨a', rfl⟩ h0 h1
    exact ⟨_, between_one _ _ _⟩
  · rintro d ⟨r, h⟩
    have hrt := C25_round_trip_partial.2.2.2.2.2.1 r d h
    obtain ⟨hr, rfl⟩ := Poisson.new_ok h
    have hnat : toNatural (⟨fin r⟩ : Poisson XReal) = [Real.log r].map fin := by
      simp [toNatural, naturalAndLogPartition, f_ln _ hr]
    exact ⟨_, ⟨_, rfl⟩, hnat, by rw [← hnat]; exact hrt⟩
  · rintro η ⟨a, rfl⟩
    obtain ⟨d, h1, h2⟩ := C25_natural_round_trip.2.2.2.2.2.2 a
    refine ⟨d, ⟨Real.exp a, ?_⟩, h1, h2⟩
    rw [← h1]; simp [fromNatural]
  · rintro η ⟨a, rfl⟩
    obtain ⟨d', k1, k2, A, k3, k4⟩ := Poisson.natural_form a
    refine ⟨d', k1, k2, A, fun x => ⟨fun _ => ?_, fun hx => absurd trivial hx⟩⟩
    rw [id, k4]; simp
  · rintro d₀ d₁ ⟨μ, h⟩ ⟨μ', h'⟩ hl
    obtain rfl := (C126_discrete.2.1 _ _ _ _ h h').1 hl
    rw [h] at h'; injection h'

theorem Bernoulli.toNatural_fin {p : ℝ} (h0 : 0 < p) (h1 : p < 1) :
    toNatural (⟨fin p⟩ : Bernoulli XReal) = [Real.log p - Real.log (1 - p)].map fin := by
  simp [toNatural, naturalAndLogPartition, Bernoulli.logOdds, logOdds_fin h0 h1]

theorem Bernoulli.inner {p : ℝ} {d : Bernoulli XReal} (h : Bernoulli.new (fin p) = .ok d) (hp0 : p ≠ 0)
    (hp1 : p ≠ 1) : 0 < p ∧ p < 1 ∧ d = ⟨fin p⟩ := by
  obtain ⟨⟨h0, h1⟩, rfl⟩ := Bernoulli.new_ok h
  exact ⟨lt_of_le_of_ne h0 (Ne.symm hp0), lt_of_le_of_ne h1 hp1, rfl⟩

theorem Bernoulli.concave :
    TermConcave (fun d : Bernoulli XReal => ∃ p : ℝ, Bernoulli.new (fin p) = .ok d ∧ p ≠ 0 ∧ p ≠ 1)
    byteOf (fun i => i = 0 ∨ i = 1) (fun d x => logDensityWrtRoot d x) (fun _ => 1) := by
  refine termConcave_family Measure.count byteOf _ (fun η => ∃ a, η = [a]) (fun i => i = 0 ∨ i = 1)
    (fun i => [((i : ℕ) : ℝ)]) (fun _ => 0) 1 ?_ ?_ ?_ ?_ ?_ ?_
  · rintro η ⟨a, rfl⟩; rfl
  · rintro η₀ η₁ t ⟨a, rfl⟩ ⟨a', rfl⟩ h0 h1
    exact ⟨_, between_one _ _ _⟩
  · rintro d ⟨p, h, hp0, hp1⟩
    have hrt := C25_round_trip_partial.2.2.2.2.2.2.1 p d h hp0 hp1
    obtain ⟨h0, h1, rfl⟩ := Bernoulli.inner h hp0 hp1
    have hnat := Bernoulli.toNatural_fin h0 h1
    exact ⟨_, ⟨_, rfl⟩, hnat, by rw [← hnat]; exact hrt⟩
  · rintro η ⟨a, rfl⟩
    obtain ⟨d, h1, h2⟩ := C25_natural_round_trip.2.2.2.2.1 a
    have he := Real.exp_pos a
    have hp : 0 < 1 + Real.exp a := by linarith
    refine ⟨d, ⟨Real.exp a / (1 + Real.exp a), ?_, (div_pos he hp).ne', ?_⟩, h1, h2⟩
    · rw [← h1]; simp [fromNatural, f_div _ _ hp.ne']
    · refine (ne_of_lt ?_); rw [div_lt_one hp]; linarith
  · rintro η ⟨a, rfl⟩
    obtain ⟨d', k1, k2, A, k3, k4⟩ := Bernoulli.natural_form a
    refine ⟨d', k1, k2, A, fun x => ⟨fun hx => ?_, (k4 x).2⟩⟩
    rw [(k4 x).1 hx]; simp
  · rintro d₀ d₁ ⟨μ, h, -⟩ ⟨μ', h', -⟩ hl
    obtain rfl := (C126_discrete.1 _ _ _ _ h h').1 hl
    rw [h] at h'; injection h'

/-- The point between two probabilities on the log-odds scale. -/
theorem odds_between {p₀ p₁ t : ℝ} (h0 : 0 < p₀) (h1 : p₀ < 1) (h0' : 0 < p₁) (h1' : p₁ < 1) (ht0 : 0 ≤ t)
    (ht1 : t ≤ 1) : ∃ p c : ℝ, 0 < p ∧ p < 1 ∧ 0 ≤ c ∧ (p₀ ≠ p₁ → 0 < t → t < 1 → 0 < c) ∧
      Real.log p = (1 - t) * Real.log p₀ + t * Real.log p₁ + c ∧
      Real.log (1 - p) = (1 - t) * Real.log (1 - p₀) + t * Real.log (1 - p₁) + c := by
  have n₀ : Bernoulli.new (fin p₀) = .ok (⟨fin p₀⟩ : Bernoulli XReal) := by simp [Bernoulli.new, h0.le, h1.le]
  have n₁ : Bernoulli.new (fin p₁) = .ok (⟨fin p₁⟩ : Bernoulli XReal) := by simp [Bernoulli.new, h0'.le, h1'.le]
  obtain ⟨η₀, η₁, d, c, e₀, e₁, ⟨p, hp, hp0, hp1⟩, -, hc, hcs, hv⟩ := Bernoulli.concave _ _
    ⟨p₀, n₀, h0.ne', h1.ne⟩ ⟨p₁, n₁, h0'.ne', h1'.ne⟩ t ht0 ht1
  obtain ⟨k0, k1, rfl⟩ := Bernoulli.inner hp hp0 hp1
  refine ⟨p, c, k0, k1, hc, fun hne => hcs fun h => hne ?_, ?_, ?_⟩
  · injection h with h; injection h
  · obtain ⟨x₀, x₁, a₀, a₁, a⟩ := hv 1 (Or.inr rfl)
    have b : ∀ q : ℝ, 0 < q → (logDensityWrtRoot (⟨fin q⟩ : Bernoulli XReal) (byteOf 1) : XReal)
        = fin (Real.log q) := by
      intro q hq
      simp [logDensityWrtRoot, show byteOf 1 = 1 from rfl, f_ln _ hq]
    have a₀ := (b _ h0).symm.trans a₀; have a₁ := (b _ h0').symm.trans a₁; have a := (b _ k0).symm.trans a
    injection a₀ with a₀; injection a₁ with a₁; injection a with a
    rw [a, a₀, a₁, one_mul]
  · obtain ⟨x₀, x₁, a₀, a₁, a⟩ := hv 0 (Or.inl rfl)
    have b : ∀ q : ℝ, q < 1 → (logDensityWrtRoot (⟨fin q⟩ : Bernoulli XReal) (byteOf 0) : XReal)
        = fin (Real.log (1 - q)) := by
      intro q hq
      simp [logDensityWrtRoot, show byteOf 0 = 0 from rfl, f_ln (1 - q) (by linarith)]
    have a₀ := (b _ h1).symm.trans a₀; have a₁ := (b _ h1').symm.trans a₁; have a := (b _ k1).symm.trans a
    injection a₀ with a₀; injection a₁ with a₁; injection a with a
    rw [a, a₀, a₁, one_mul]

theorem Binomial.inner {n : ℕ} {p : ℝ} {d : Binomial XReal} (h : Binomial.new n (fin p) = .ok d) (hp0 : p ≠ 0)
    (hp1 : p ≠ 1) : 0 < p ∧ p < 1 ∧ d = ⟨n, fin p⟩ := by
  obtain ⟨⟨h0, h1⟩, rfl⟩ := Binomial.new_ok h
  exact ⟨lt_of_le_of_ne h0 (Ne.symm hp0), lt_of_le_of_ne h1 hp1, rfl⟩

theorem Binomial.concave (n : ℕ) :
    TermConcave (fun d : Binomial XReal => ∃ p : ℝ, Binomial.new n (fin p) = .ok d ∧ p ≠ 0 ∧ p ≠ 1)
    (id : ℕ → ℕ) (fun k => k ≤ n) (fun d x => logDensityWrtRoot d x) (fun _ => n) := by
  rintro d₀ d₁ ⟨p₀, h, z0, z1⟩ ⟨p₁, h', z0', z1'⟩ t ht0 ht1
  obtain ⟨h0, h1, rfl⟩ := Binomial.inner h z0 z1
  obtain ⟨h0', h1', rfl⟩ := Binomial.inner h' z0' z1'
  obtain ⟨p, c, k0, k1, hc, hcs, e1, e2⟩ := odds_between h0 h1 h0' h1' ht0 ht1
  have nat : ∀ q : ℝ, 0 < q → q < 1 → toNatural (⟨n, fin q⟩ : Binomial XReal)
      = [Real.log q - Real.log (1 - q)].map fin := by
    intro q hq0 hq1
    simp [toNatural, naturalAndLogPartition, Binomial.logOdds, logOdds_fin hq0 hq1]
  refine ⟨_, _, ⟨n, fin p⟩, c, nat _ h0 h1, nat _ h0' h1', ⟨p, by simp [Binomial.new, k0.le, k1.le], k0.ne', k1.ne⟩,
    ?_, hc, fun hne => hcs fun h => hne (by rw [h]), fun k hk => ⟨_, _, Binomial.ld_of_le h0 h1 hk,
      Binomial.ld_of_le h0' h1' hk, ?_⟩⟩
  · rw [nat _ k0 k1, between_one, e1, e2]
    congr 2; ring
  · refine (Binomial.ld_of_le k0 k1 hk).trans ?_
    rw [e1, e2]
    congr 1; simp only [id]; ring

theorem NegativeBinomial.concave (r : ℕ) :
    TermConcave (fun d : NegativeBinomial XReal => ∃ p : ℝ, NegativeBinomial.new r (fin p) = .ok d)
      (id : ℕ → ℕ) (fun _ => True) (fun d x => logDensityWrtRoot d x) (fun k => r + k) ∧
    TermConcave (fun d : NegativeBinomial XReal => ∃ p : ℝ, NegativeBinomial.new r (fin p) = .ok d)
      (id : ℕ → ℕ) (fun _ => True) (fun d x => expFamLogDensity d x) (fun _ => r) := by
  have nat : ∀ q : ℝ, 0 < q → q < 1 → toNatural (⟨r, fin q⟩ : NegativeBinomial XReal)
      = [Real.log q - Real.log (1 - q)].map fin := by
    intro q hq0 hq1
    simp [toNatural, naturalAndLogPartition, NegativeBinomial.logOdds, logOdds_fin hq0 hq1]
  constructor
  · rintro d₀ d₁ ⟨p₀, h⟩ ⟨p₁, h'⟩ t ht0 ht1
    obtain ⟨hr, ⟨h0, h1⟩, rfl⟩ := NegativeBinomial.new_ok h
    obtain ⟨-, ⟨h0', h1'⟩, rfl⟩ := NegativeBinomial.new_ok h'
    obtain ⟨p, c, k0, k1, hc, hcs, e1, e2⟩ := odds_between h0 h1 h0' h1' ht0 ht1
    refine ⟨_, _, ⟨r, fin p⟩, c, nat _ h0 h1, nat _ h0' h1', ⟨p, by simp [NegativeBinomial.new, k0, k1]; omega⟩,
      ?_, hc, fun hne => hcs fun h => hne (by rw [h]), fun k hk => ⟨_, _, NegativeBinomial.ld h0 h1,
        NegativeBinomial.ld h0' h1', ?_⟩⟩
    · rw [nat _ k0 k1, between_one, e1, e2]
      congr 2; ring
    · refine (NegativeBinomial.ld k0 k1).trans ?_
      rw [e1, e2]
      congr 1; simp only [id]; ring
  · rintro d₀ d₁ ⟨p₀, h⟩ ⟨p₁, h'⟩ t ht0 ht1
    obtain ⟨hr, ⟨h0, h1⟩, rfl⟩ := NegativeBinomial.new_ok h
    obtain ⟨-, ⟨h0', h1'⟩, rfl⟩ := NegativeBinomial.new_ok h'
    obtain ⟨p, c, k0, k1, hc, hcs, e1, e2⟩ := odds_between h0 h1 h0' h1' ht0 ht1
    refine ⟨_, _, ⟨r, fin p⟩, c, nat _ h0 h1, nat _ h0' h1', ⟨p, by simp [NegativeBinomial.new, k0, k1]; omega⟩,
      ?_, hc, fun hne => hcs fun h => hne (by rw [h]), fun k hk => ⟨_, _, NegativeBinomial.ef hr h0 h1 _,
        NegativeBinomial.ef hr h0' h1' _, ?_⟩⟩
    · rw [nat _ k0 k1, between_one, e1, e2]
      congr 2; ring
    · refine (NegativeBinomial.ef hr k0 k1 _).trans ?_
      rw [e1, e2]
      congr 1; simp only [id]; ring

theorem Geometric.concave :
    TermConcave (fun d : Geometric XReal => ∃ p : ℝ, Geometric.new (fin p) = .ok d ∧ p ≠ 1)
    (id : ℕ → ℕ) (fun k => 1 ≤ k) (fun d x => logDensityWrtRoot d x) (fun _ => 1) := by
  refine termConcave_family Measure.count id _ (fun η => ∃ a, η = [a] ∧ a < 0) (fun k => 1 ≤ k)
    (fun k : ℕ => [(k : ℝ)]) (fun _ => 0) 1 ?_ ?_ ?_ ?_ ?_ ?_
  · rintro η ⟨a, rfl, -⟩; rfl
  · rintro η₀ η₁ t ⟨a, rfl, ha⟩ ⟨a', rfl, ha'⟩ h0 h1
    exact ⟨_, between_one _ _ _, mix_gt h0 h1 ha ha'⟩
  · rintro d ⟨p, h, hp1⟩
    have hrt := C25_round_trip_partial.2.2.2.2.2.2.2.1 p d h hp1
    obtain ⟨⟨h0, h1⟩, rfl⟩ := Geometric.new_ok h
    have h1 : p < 1 := lt_of_le_of_ne h1 hp1
    have hnat : toNatural (⟨fin p⟩ : Geometric XReal) = [Real.log (1 - p)].map fin := by
      simp [toNatural, naturalAndLogPartition, Geometric.failureProb, f_ln (1 - p) (by linarith)]
    exact ⟨_, ⟨_, rfl, Real.log_neg (by linarith) (by linarith)⟩, hnat, by rw [← hnat]; exact hrt⟩
  · rintro η ⟨a, rfl, ha⟩
    obtain ⟨d, h1, h2⟩ := C25_natural_round_trip.2.2.2.2.2.1 a ha
    have he := Real.exp_pos a
    refine ⟨d, ⟨1 - Real.exp a, ?_, by linarith⟩, h1, h2⟩
    rw [← h1]; simp [fromNatural]
  · rintro η ⟨a, rfl, ha⟩
    have he := Real.exp_pos a
    have he1 : Real.exp a < 1 := by rw [← Real.exp_zero]; exact Real.exp_lt_exp.mpr ha
    have hn : Geometric.new (fin (1 - Real.exp a)) = .ok (⟨fin (1 - Real.exp a)⟩ : Geometric XReal) := by
      simp [Geometric.new, he1, he.le]
    refine ⟨_, by rw [← hn]; simp [fromNatural], C122_regular.2.2.2.2.2.2.2.1 _ _ hn (by linarith),
      a - Real.log (1 - Real.exp a), fun k => ⟨fun hk => ?_, fun hk => ?_⟩⟩
    · refine (Geometric.ld_of_pos (by linarith) (by linarith) hk).trans ?_
      rw [sub_sub_cancel, Real.log_exp]
      simp; ring
    · simp only [id, logDensityWrtRoot, hk, if_false]; rfl
  · rintro d₀ d₁ ⟨μ, h, -⟩ ⟨μ', h', -⟩ hl
    obtain rfl := (C126_discrete.2.2.1 _ _ _ _ h h').1 hl
    rw [h] at h'; injection h'

/-- A change of the statistics by something linear in the natural parameters does not change the gap. -/
theorem TermConcave.shiftLin {D X α : Type} [ExponentialFamily D X XReal] {accepted : D → Prop} {emb : α → X}
    {S : α → Prop} {term term' : D → X → XReal} {w : α → ℝ} (h : TermConcave accepted emb S term w)
    (s : α → List ℝ) (N : ℕ) (hN : ∀ d, accepted d → (toNatural d).length = N)
    (hb : ∀ d, accepted d → ∀ η : List ℝ, toNatural d = η.map fin → ∀ a, S a → ∀ x : ℝ, term d (emb a) = fin x →
      term' d (emb a) = fin (x + (List.zipWith (· * ·) η (s a)).sum)) :
    TermConcave accepted emb S term' w := by
  intro d₀ d₁ a₀ a₁ t ht0 ht1
  obtain ⟨η₀, η₁, d, c, e₀, e₁, a, e, hc, hcs, hv⟩ := h d₀ d₁ a₀ a₁ t ht0 ht1
  refine ⟨η₀, η₁, d, c, e₀, e₁, a, e, hc, hcs, fun y hy => ?_⟩
  obtain ⟨x₀, x₁, k₀, k₁, k⟩ := hv y hy
  refine ⟨_, _, hb _ a₀ _ e₀ y hy _ k₀, hb _ a₁ _ e₁ y hy _ k₁, ?_⟩
  have l₀ := hN _ a₀
  have l₁ := hN _ a₁
  rw [e₀, List.length_map] at l₀
  rw [e₁, List.length_map] at l₁
  rw [hb _ a _ e y hy _ k, dot_between _ _ _ _ (l₀.trans l₁.symm)]
  congr 1; ring

theorem Categorical.accept_iff {N : ℕ} {d : Categorical XReal}
    (h : ∃ ps : List ℝ, Categorical.new (ps.map fin) = .ok d ∧ (∀ p ∈ ps, p ≠ 0) ∧ ps.sum = 1 ∧ ps.length = N + 1) :
    ∃ η : List ℝ, η.length = N ∧ toNatural d = η.map fin ∧ fromNatural (η.map fin) = .ok d := by
  obtain ⟨ps, h, hp, hs, hl⟩ := h
  have hrt := (C25_round_trip_partial.2.2.2.2.2.2.2.2 ps d h hp).2 hs
  obtain ⟨η, e1, e2, -⟩ := C123_discrete_partial.2.2 ps d h hp hs
  exact ⟨η, by omega, e2, by rw [← e2]; exact hrt⟩

theorem Categorical.of_natural (η : List ℝ) :
    ∃ (d : Categorical XReal) (ps : List ℝ), Categorical.new (ps.map fin) = .ok d ∧ (∀ p ∈ ps, p ≠ 0) ∧ ps.sum = 1 ∧
      ps.length = η.length + 1 ∧ fromNatural (η.map fin) = .ok d ∧ toNatural d = η.map fin := by
  have hse : 0 ≤ (η.map Real.exp).sum := List.sum_nonneg (by
    simp only [List.mem_map]; rintro x ⟨y, -, rfl⟩; exact (Real.exp_pos y).le)
  obtain ⟨N, hN⟩ : ∃ N, N = 1 + (η.map Real.exp).sum := ⟨_, rfl⟩
  have hNp : 0 < N := by rw [hN]; linarith
  have hpos : ∀ p ∈ η.map (fun a => Real.exp a / N) ++ [1 / N], 0 < p := by
    intro p hp
    simp only [List.mem_append, List.mem_map, List.mem_singleton] at hp
    rcases hp with ⟨a, -, rfl⟩ | rfl
    · exact div_pos (Real.exp_pos a) hNp
    · exact one_div_pos.mpr hNp
  have hps : (η.map (fun a => Real.exp a / N)).sum = (η.map Real.exp).sum / N := by
    have := sum_map_mul_real η N⁻¹ Real.exp
    rw [div_eq_inv_mul, ← this]
    congr 1
    apply List.map_congr_left
    intro p _
    rw [div_eq_inv_mul]
  have hsum : (η.map (fun a => Real.exp a / N) ++ [1 / N]).sum = 1 := by
    rw [List.sum_append, hps]
    simp only [List.sum_cons, List.sum_nil, add_zero]
    rw [← add_div, add_comm, ← hN, div_self hNp.ne']
  obtain ⟨r1, -⟩ := Categorical.regular (by simp) hpos hsum
  have hini : ∀ p ∈ η.map (fun a => Real.exp a / N), 0 < p := fun p hp => hpos p (List.mem_append_left _ hp)
  have hnat : toNatural (⟨(η.map (fun a => Real.exp a / N) ++ [1 / N]).map fin⟩ : Categorical XReal) = η.map fin := by
    show (Categorical.natural _).1 = _
    rw [Categorical.natural_fin (one_div_pos.mpr hNp) hini, List.map_map, List.map_map]
    refine List.map_congr_left fun a _ => ?_
    have : Real.exp a / N / (1 / N) = Real.exp a := by field_simp
    simp only [Function.comp, this, Real.log_exp]
  refine ⟨_, _, r1, fun p hp => (hpos p hp).ne', hsum, by simp, ?_, hnat⟩
  have := (C25_round_trip_partial.2.2.2.2.2.2.2.2 _ _ r1 fun p hp => (hpos p hp).ne').2 hsum
  rwa [hnat] at this

theorem Categorical.concave (N : ℕ) :
    TermConcave (fun d : Categorical XReal => ∃ ps : List ℝ, Categorical.new (ps.map fin) = .ok d ∧
      (∀ p ∈ ps, p ≠ 0) ∧ ps.sum = 1 ∧ ps.length = N + 1)
    (id : ℕ → ℕ) (fun i => i ≤ N) (fun d x => logDensityWrtRoot d x) (fun _ => 1) := by
  refine termConcave_family Measure.count id _ (fun η => η.length = N) (fun i => i ≤ N)
    (fun i : ℕ => unitAt N i) (fun _ => 0) N (fun η h => h) ?_ (fun d h => Categorical.accept_iff h) ?_ ?_ ?_
  · intro η₀ η₁ t h0 h1 _ _
    simp [between, h0, h1]
  · intro η hη
    obtain ⟨d, ps, h1, h2, h3, h4, h5, h6⟩ := Categorical.of_natural η
    exact ⟨d, ⟨ps, h1, h2, h3, by rw [h4, hη]⟩, h5, h6⟩
  · intro η hη
    obtain ⟨d', k1, k2, -, A, k3, k4⟩ := Categorical.natural_form η
    rw [hη] at k4
    refine ⟨d', k1, k2, A, fun x => ⟨fun hx => ?_, (k4 x).2⟩⟩
    rw [id, (k4 x).1 hx]; simp
  · rintro d₀ d₁ ⟨ps, h, -, -, hl⟩ ⟨ps', h', -, -, hl'⟩ he
    obtain rfl := ((C126_discrete.2.2.2.1 _ _ _ _ h h').2 (Or.inl (hl.trans hl'.symm))).1 he
    rw [h] at h'; injection h'

/-- **C132**, discrete families, by the sum of the log-densities: Poisson, Bernoulli for `0 < p < 1`, categorical
with positive probabilities summing to one, geometric for `p < 1`, binomial with a fixed number of trials, negative
binomial with a fixed number of successes. -/
theorem C132_discrete_sum :
    ConcaveInNatural (fun d : Poisson XReal => ∃ r : ℝ, Poisson.new (fin r) = .ok d) (id : ℕ → ℕ) (fun _ => True)
      (fun d xs => (IID.ofDist d).iidLogDensityFallback xs) ∧
    ConcaveInNatural (fun d : Bernoulli XReal => ∃ p : ℝ, Bernoulli.new (fin p) = .ok d ∧ p ≠ 0 ∧ p ≠ 1) byteOf
      (fun i => i = 0 ∨ i = 1) (fun d xs => (IID.ofDist d).iidLogDensityFallback xs) ∧
    (∀ N : ℕ, ConcaveInNatural (fun d : Categorical XReal => ∃ ps : List ℝ, Categorical.new (ps.map fin) = .ok d ∧
        (∀ p ∈ ps, p ≠ 0) ∧ ps.sum = 1 ∧ ps.length = N + 1) (id : ℕ → ℕ) (fun i => i ≤ N)
      (fun d xs => (IID.ofDist d).iidLogDensityFallback xs)) ∧
    ConcaveInNatural (fun d : Geometric XReal => ∃ p : ℝ, Geometric.new (fin p) = .ok d ∧ p ≠ 1) (id : ℕ → ℕ)
      (fun k => 1 ≤ k) (fun d xs => (IID.ofDist d).iidLogDensityFallback xs) ∧
    (∀ n : ℕ, 0 < n → ConcaveInNatural
      (fun d : Binomial XReal => ∃ p : ℝ, Binomial.new n (fin p) = .ok d ∧ p ≠ 0 ∧ p ≠ 1) (id : ℕ → ℕ)
      (fun k => k ≤ n) (fun d xs => (IID.ofDist d).iidLogDensityFallback xs)) ∧
    (∀ r : ℕ, ConcaveInNatural (fun d : NegativeBinomial XReal => ∃ p : ℝ, NegativeBinomial.new r (fin p) = .ok d)
      (id : ℕ → ℕ) (fun _ => True) (fun d xs => (IID.ofDist d).iidLogDensityFallback xs)) := by
  refine ⟨Poisson.concave.joint (fun _ _ => one_pos) fun d _ xs => rfl,
    Bernoulli.concave.joint (fun _ _ => one_pos) fun d _ xs => rfl,
    fun N => (Categorical.concave N).joint (fun _ _ => one_pos) fun d _ xs => rfl,
    Geometric.concave.joint (fun _ _ => one_pos) fun d _ xs => rfl,
    fun n hn => (Binomial.concave n).joint (fun _ _ => by exact_mod_cast hn) fun d _ xs => rfl, fun r => ?_⟩
  rcases Nat.eq_zero_or_pos r with rfl | hr
  · rintro d₀ d₁ ⟨p, h⟩
    exact absurd (NegativeBinomial.new_ok h).1 (by omega)
  · refine (NegativeBinomial.concave r).1.joint (fun k _ => ?_) fun d _ xs => rfl
    have : (0:ℝ) < r := by exact_mod_cast hr
    positivity

/-- **C132**, discrete families, by the exponential-family formula for samples. -/
theorem C132_discrete_expfam :
    ConcaveInNatural (fun d : Poisson XReal => ∃ r : ℝ, Poisson.new (fin r) = .ok d) (id : ℕ → ℕ) (fun _ => True)
      (fun d xs => (IID.ofDist d).iidLogDensity xs) ∧
    ConcaveInNatural (fun d : Bernoulli XReal => ∃ p : ℝ, Bernoulli.new (fin p) = .ok d ∧ p ≠ 0 ∧ p ≠ 1) byteOf
      (fun i => i = 0 ∨ i = 1) (fun d xs => (IID.ofDist d).iidLogDensity xs) ∧
    ConcaveInNatural (fun d : Geometric XReal => ∃ p : ℝ, Geometric.new (fin p) = .ok d ∧ p ≠ 1) (id : ℕ → ℕ)
      (fun k => 1 ≤ k) (fun d xs => (IID.ofDist d).iidLogDensity xs) ∧
    (∀ n : ℕ, 0 < n → ConcaveInNatural
      (fun d : Binomial XReal => ∃ p : ℝ, Binomial.new n (fin p) = .ok d ∧ p ≠ 0 ∧ p ≠ 1) (id : ℕ → ℕ)
      (fun k => k ≤ n) (fun d xs => (IID.ofDist d).iidLogDensity xs)) ∧
    (∀ r : ℕ, ConcaveInNatural (fun d : NegativeBinomial XReal => ∃ p : ℝ, NegativeBinomial.new r (fin p) = .ok d)
      (id : ℕ → ℕ) (fun _ => True) (fun d xs => (IID.ofDist d).iidLogDensity xs)) := by
  refine ⟨?_, ?_, ?_, fun n hn => ?_, fun r => ?_⟩
  · choose v hv hb using C38_log_factorial_accurate
    refine (Poisson.concave.shift (term' := fun d x => expFamLogDensity d x)
      (fun k => Real.log (Nat.factorial k) - v k) ?_).joint (fun _ _ => one_pos) ?_
    · rintro d ⟨r, h⟩ k - x hx
      obtain ⟨hr, rfl⟩ := Poisson.new_ok h
      have := (Poisson.ld hr k).symm.trans hx
      injection this with this
      rw [← this]
      simp only [expFamLogDensity, expFamLogDensityDefault, f_ln _ hr, f_ofNat, logDensityWrtRoot, hv, id,
        f_neg, dot_one_fin, f_add, f_sub]
      congr 1
      ring
    · rintro d ⟨r, h⟩ xs
      exact C28_iid_is_sum_partial.2.2.2.2.2.2.2.2.2.2 _ _ h xs
  · refine (Bernoulli.concave.both ?_ ?_).2
    · rintro d ⟨p, h, hp0, hp1⟩; exact C28_iid_is_sum_partial.2.2.2.2.2.2.1 _ _ h hp0 hp1
    · rintro d ⟨p, h, hp0, hp1⟩ i hi
      refine C24_discrete_agree_partial.1 _ _ h hp0 hp1 _ ?_
      rcases hi with rfl | rfl <;> simp [Measure.inSupport, byteOf]
  · refine (Geometric.concave.shiftLin (term' := fun d x => expFamLogDensity d x) (fun _ => [1]) 1 ?_ ?_).joint
      (fun _ _ => one_pos) ?_
    · rintro d -; rfl
    · rintro d ⟨p, h, hp⟩ η hη k hk x hx
      obtain ⟨⟨h0, h1⟩, rfl⟩ := Geometric.new_ok h
      have h1 : p < 1 := lt_of_le_of_ne h1 hp
      have hnat : toNatural (⟨fin p⟩ : Geometric XReal) = [Real.log (1 - p)].map fin := by
        simp [toNatural, naturalAndLogPartition, Geometric.failureProb, f_ln (1 - p) (by linarith)]
      rw [hnat] at hη
      have hη := List.map_injective_iff.2 (fun _ _ h => XReal.fin.inj h) hη
      have := (Geometric.ld_of_pos h0 h1 hk).symm.trans hx
      injection this with this
      rw [← this, ← hη]
      refine (Geometric.ef h0 h1 k).trans ?_
      simp; ring
    · rintro d ⟨p, h, hp⟩ xs
      exact C28_iid_is_sum_partial.2.2.2.2.2.2.2.2.1 _ _ h hp xs
  · refine ((Binomial.concave n).shift (term' := fun d x => expFamLogDensity d x)
      (fun k => Real.log (n.choose k)) ?_).joint (fun _ _ => by exact_mod_cast hn) ?_
    · rintro d ⟨p, h, hp0, hp1⟩ k hk x hx
      obtain ⟨h0, h1, rfl⟩ := Binomial.inner h hp0 hp1
      have := (Binomial.ld_of_le h0 h1 hk).symm.trans hx
      injection this with this
      rw [← this]
      refine (Binomial.ef h0 h1 hk).trans ?_
      congr 1; ring
    · rintro d ⟨p, h, hp0, hp1⟩ xs
      exact C28_iid_is_sum_partial.2.2.2.2.2.2.2.1 _ _ _ h hp0 hp1 xs
  · rcases Nat.eq_zero_or_pos r with rfl | hr
    · rintro d₀ d₁ ⟨p, h⟩
      exact absurd (NegativeBinomial.new_ok h).1 (by omega)
    · refine (NegativeBinomial.concave r).2.joint (fun k _ => by exact_mod_cast hr) ?_
      rintro d ⟨p, h⟩ xs
      exact C28_iid_is_sum_partial.2.2.2.2.2.2.2.2.2.1 _ _ _ h xs

/-- **C132**, what concavity is for.  A distribution that beats some point on the way to every other accepted
distribution (a local maximum does) has the largest log-likelihood of all; and at most one accepted distribution
has it, once there is an observation. -/
theorem C132_maximum {D X Y : Type} [ExponentialFamily D X XReal] {accepted : D → Prop} {sample : Y → X}
    {support : Y → Prop} {joint : D → List X → XReal} (h : ConcaveInNatural accepted sample support joint)
    {ys : List Y} (hys : ∀ y ∈ ys, support y) {d₀ : D} (h₀ : accepted d₀) :
    ((∀ d₁, accepted d₁ → ∃ t : ℝ, 0 < t ∧ t ≤ 1 ∧ ∀ (η₀ η₁ : List ℝ) (d : D), toNatural d₀ = η₀.map fin →
        toNatural d₁ = η₁.map fin → accepted d → toNatural d = (between t η₀ η₁).map fin → ∃ v v₀ : ℝ,
        joint d (ys.map sample) = fin v ∧ joint d₀ (ys.map sample) = fin v₀ ∧ v ≤ v₀) →
      ∀ d₁, accepted d₁ → ∃ v₁ v₀ : ℝ, joint d₁ (ys.map sample) = fin v₁ ∧ joint d₀ (ys.map sample) = fin v₀ ∧
        v₁ ≤ v₀) ∧
    (ys ≠ [] → (∀ d, accepted d → ∃ v v₀ : ℝ, joint d (ys.map sample) = fin v ∧
        joint d₀ (ys.map sample) = fin v₀ ∧ v ≤ v₀) →
      ∀ d₁, accepted d₁ → joint d₁ (ys.map sample) = joint d₀ (ys.map sample) → d₁ = d₀) := by
  constructor
  · intro hl d₁ h₁
    obtain ⟨t, ht0, ht1, hle⟩ := hl d₁ h₁
    obtain ⟨η₀, η₁, d, e₀, e₁, a, e, hv⟩ := h d₀ d₁ h₀ h₁ t ht0.le ht1
    obtain ⟨v₀, v₁, v, k₀, k₁, k, hc, -⟩ := hv ys hys
    obtain ⟨v', v₀', k', k₀', hle⟩ := hle η₀ η₁ d e₀ e₁ a e
    rw [k] at k'; injection k' with k'
    rw [k₀] at k₀'; injection k₀' with k₀'
    subst k' k₀'
    refine ⟨v₁, v₀, k₁, k₀, ?_⟩
    have : t * v₁ ≤ t * v₀ := by linarith
    exact le_of_mul_le_mul_left this ht0
  · intro hne hmax d₁ h₁ heq
    by_contra hd
    obtain ⟨η₀, η₁, d, e₀, e₁, a, e, hv⟩ := h d₀ d₁ h₀ h₁ (1/2) (by norm_num) (by norm_num)
    obtain ⟨v₀, v₁, v, k₀, k₁, k, -, hs⟩ := hv ys hys
    have hs := hs (fun he => hd he.symm) hne (by norm_num) (by norm_num)
    obtain ⟨v', v₀', k', k₀', hle⟩ := hmax d a
    rw [k] at k'; injection k' with k'
    rw [k₀] at k₀'; injection k₀' with k₀'
    rw [k₀, k₁] at heq; injection heq with heq
    subst k' k₀' heq
    linarith

/-- **C132** fails for the exponential distribution by the exponential-family formula: the sign of the log-partition
makes the joint log-likelihood lie strictly below every chord. -/
theorem C132_exponential_violated :
    (∀ (r₀ r₁ t : ℝ) (d₀ d₁ d : Exponential XReal), r₀ ≠ r₁ → 0 < t → t < 1 → Exponential.new (fin r₀) = .ok d₀ →
      Exponential.new (fin r₁) = .ok d₁ → Exponential.new (fin ((1 - t) * r₀ + t * r₁)) = .ok d →
      toNatural d = (between t [-r₀] [-r₁]).map fin ∧
      ∀ xs : List ℝ, xs ≠ [] → ∃ v₀ v₁ v : ℝ, (IID.ofDist d₀).iidLogDensity (xs.map fin) = fin v₀ ∧
        (IID.ofDist d₁).iidLogDensity (xs.map fin) = fin v₁ ∧ (IID.ofDist d).iidLogDensity (xs.map fin) = fin v ∧
        v < (1 - t) * v₀ + t * v₁) ∧
    ¬ ConcaveInNatural (fun d : Exponential XReal => ∃ r : ℝ, Exponential.new (fin r) = .ok d) fin (fun x => 0 ≤ x)
        (fun d xs => (IID.ofDist d).iidLogDensity xs) := by
  have key : ∀ (r₀ r₁ t : ℝ) (d₀ d₁ d : Exponential XReal), r₀ ≠ r₁ → 0 < t → t < 1 → Exponential.new (fin r₀) = .ok d₀ →
      Exponential.new (fin r₁) = .ok d₁ → Exponential.new (fin ((1 - t) * r₀ + t * r₁)) = .ok d →
      toNatural d = (between t [-r₀] [-r₁]).map fin ∧
      ∀ xs : List ℝ, xs ≠ [] → ∃ v₀ v₁ v : ℝ, (IID.ofDist d₀).iidLogDensity (xs.map fin) = fin v₀ ∧
        (IID.ofDist d₁).iidLogDensity (xs.map fin) = fin v₁ ∧ (IID.ofDist d).iidLogDensity (xs.map fin) = fin v ∧
        v < (1 - t) * v₀ + t * v₁ := by
    intro r₀ r₁ t d₀ d₁ d hne ht0 ht1 h₀ h₁ h
    have I₀ := C28_iid_is_sum_partial.2.2.1 _ _ h₀
    have I₁ := C28_iid_is_sum_partial.2.2.1 _ _ h₁
    have I := C28_iid_is_sum_partial.2.2.1 _ _ h
    obtain ⟨p₀, rfl⟩ := Exponential.new_ok h₀
    obtain ⟨p₁, rfl⟩ := Exponential.new_ok h₁
    obtain ⟨p, rfl⟩ := Exponential.new_ok h
    refine ⟨?_, fun xs hx => ?_⟩
    · rw [between_one]
      simp only [toNatural, naturalAndLogPartition, f_neg, List.map_cons, List.map_nil]
      congr 2; ring
    · have key : ∀ {r : ℝ}, 0 < r → IidIsSum (⟨fin r⟩ : Exponential XReal) →
          (IID.ofDist (⟨fin r⟩ : Exponential XReal)).iidLogDensity (xs.map fin)
            = fin (xs.length * -Real.log r - r * xs.sum) := by
        intro r hr hI
        refine (iid_of_terms hI (support := fun _ => True) (v := fun x => -Real.log r - r * x)
          (fun x _ => Exponential.ef hr) fun _ _ => trivial).trans ?_
        congr 1
        clear hx
        induction xs with
        | nil => simp
        | cons x xs ih => simp only [List.map_cons, List.sum_cons, ih, List.length_cons]; push_cast; ring
      refine ⟨_, _, _, key p₀ I₀, key p₁ I₁, key p I, ?_⟩
      have hlog := strictConcaveOn_log_Ioi.2 (Set.mem_Ioi.2 p₀) (Set.mem_Ioi.2 p₁) hne (sub_pos.2 ht1) ht0 (by ring)
      simp only [smul_eq_mul] at hlog
      have hn : (0:ℝ) < xs.length := by exact_mod_cast List.length_pos_iff.2 hx
      have := mul_lt_mul_of_pos_left hlog hn
      linarith
  refine ⟨key, fun hc => ?_⟩
  have n1 : Exponential.new (fin 1) = .ok (⟨fin 1⟩ : Exponential XReal) := by simp [Exponential.new]
  have n3 : Exponential.new (fin 3) = .ok (⟨fin 3⟩ : Exponential XReal) := by simp [Exponential.new]
  have n2 : Exponential.new (fin ((1 - 1/2) * 1 + 1/2 * 3)) = .ok (⟨fin ((1 - 1/2) * 1 + 1/2 * 3)⟩ : Exponential XReal) := by
    norm_num [Exponential.new]
  obtain ⟨η₀, η₁, d, e₀, e₁, ⟨r, a⟩, e, hv⟩ := hc _ _ ⟨1, n1⟩ ⟨3, n3⟩ (1/2) (by norm_num) (by norm_num)
  obtain ⟨hr, rfl⟩ := Exponential.new_ok a
  obtain ⟨v₀, v₁, v, k₀, k₁, k, hle, -⟩ := hv [0] (by simp)
  obtain ⟨e', hlt⟩ := key _ _ (1/2) _ _ _ (by norm_num) (by norm_num) (by norm_num) n1 n3 n2
  obtain ⟨w₀, w₁, w, l₀, l₁, l, hlt⟩ := hlt [0] (by simp)
  have x₀ : η₀ = [-1] := by
    refine List.map_injective_iff.2 (fun _ _ h => XReal.fin.inj h) (e₀.symm.trans ?_)
    simp [toNatural, naturalAndLogPartition]
  have x₁ : η₁ = [-3] := by
    refine List.map_injective_iff.2 (fun _ _ h => XReal.fin.inj h) (e₁.symm.trans ?_)
    simp [toNatural, naturalAndLogPartition]
  subst x₀ x₁
  have hr2 : r = (1 - 1/2) * 1 + 1/2 * 3 := by
    simp only [between_one, toNatural, naturalAndLogPartition, f_neg, List.map_cons, List.map_nil] at e
    injection e with e
    injection e with e
    linarith
  subst hr2
  have k₀ := XReal.fin.inj (l₀.symm.trans k₀)
  have k₁ := XReal.fin.inj (l₁.symm.trans k₁)
  have k := XReal.fin.inj (l.symm.trans k)
  subst k₀ k₁ k
  linarith

/-- The conditions are met: two gamma distributions, half way, three observations. -/
example : ∃ d₀ d₁ : Gamma XReal, Gamma.new (fin 1) (fin 2) = .ok d₀ ∧ Gamma.new (fin 3) (fin 4) = .ok d₁ ∧ d₀ ≠ d₁ ∧
    ∃ (d : Gamma XReal) (v₀ v₁ v : ℝ), (IID.ofDist d₀).iidLogDensity ([1, 2, 3].map fin) = fin v₀ ∧
      (IID.ofDist d₁).iidLogDensity ([1, 2, 3].map fin) = fin v₁ ∧
      (IID.ofDist d).iidLogDensity ([1, 2, 3].map fin) = fin v ∧ (1 - 1/2) * v₀ + 1/2 * v₁ < v := by
  have n1 : Gamma.new (fin 1) (fin 2) = .ok (⟨fin 1, fin 2⟩ : Gamma XReal) := by simp [Gamma.new]
  have n2 : Gamma.new (fin 3) (fin 4) = .ok (⟨fin 3, fin 4⟩ : Gamma XReal) := by simp [Gamma.new]
  have hne : (⟨fin 1, fin 2⟩ : Gamma XReal) ≠ ⟨fin 3, fin 4⟩ := by
    intro h; injection h with h _; injection h with h; norm_num at h
  refine ⟨_, _, n1, n2, hne, ?_⟩
  obtain ⟨η₀, η₁, d, -, -, -, -, hv⟩ := C132_continuous.2.1.2 _ _ ⟨_, _, n1⟩ ⟨_, _, n2⟩ (1/2) (by norm_num) (by norm_num)
  obtain ⟨v₀, v₁, v, k₀, k₁, k, -, hs⟩ := hv [1, 2, 3] (by simp)
  exact ⟨d, v₀, v₁, v, k₀, k₁, k, hs hne (by simp) (by norm_num) (by norm_num)⟩

end Verif
