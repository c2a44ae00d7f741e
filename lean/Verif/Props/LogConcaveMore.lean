import Verif.Props.LogConcave

/-!
# C133, continued: counts, transforms, unimodality, mixtures
-/

namespace Verif
open FloatOps XReal Spec

/-- Log-concavity of counts from decreasing ratios of neighbouring probabilities. -/
theorem logConcaveCount_of_ratio {M : Type} [HasLogDensity M ℕ XReal] {m : M} {q : ℕ → ℝ}
    (hp : ∀ k, 0 ≤ density (logDensityWrtRoot m k : XReal)) (hq : Antitone q)
    (h : ∀ k, density (logDensityWrtRoot m k : XReal) ≠ 0 →
      density (logDensityWrtRoot m (k + 1) : XReal) = density (logDensityWrtRoot m k : XReal) * q k)
    (hz : ∀ i j, density (logDensityWrtRoot m i : XReal) ≠ 0 → i ≤ j → density (logDensityWrtRoot m j : XReal) = 0 →
      density (logDensityWrtRoot m (j + 1) : XReal) = 0) :
    LogConcaveCount m := by
  intro i j hij
  by_cases hi : density (logDensityWrtRoot m i : XReal) = 0
  · rw [hi, zero_mul]; exact mul_nonneg (hp _) (hp _)
  by_cases hj : density (logDensityWrtRoot m (j + 1) : XReal) = 0
  · rw [hz i (j + 1) hi (by omega) hj, hj, mul_zero, mul_zero]
  · rw [h i hi, h (j + 1) hj]
    have h1 := mul_le_mul_of_nonneg_left (hq (show i ≤ j + 1 by omega)) (mul_nonneg (hp i) (hp (j + 1)))
    linarith

/-- **C133**, counts: Poisson, geometric, binomial and negative binomial probabilities are log-concave. -/
theorem C133_counts :
    (∀ (r : ℝ) (d : Poisson XReal), Poisson.new (fin r) = .ok d → LogConcaveCount d) ∧
    (∀ (p : ℝ) (d : Geometric XReal), Geometric.new (fin p) = .ok d → p < 1 → LogConcaveCount d) ∧
    (∀ (n : ℕ) (p : ℝ) (d : Binomial XReal), Binomial.new n (fin p) = .ok d → 0 < p → p < 1 →
      LogConcaveCount d.withBase) ∧
    (∀ (r : ℕ) (p : ℝ) (d : NegativeBinomial XReal), NegativeBinomial.new r (fin p) = .ok d →
      LogConcaveCount d.withBase) := by
  refine ⟨?_, ?_, ?_, ?_⟩
  · intro r d h
    obtain ⟨hr, rfl⟩ := Poisson.new_ok h
    refine logConcaveCount_of_ratio (q := fun k => r / ((k : ℝ) + 1)) (fun k => ?_) ?_ (fun k _ => ?_) ?_
    · rw [Poisson.ld hr, density_fin]; exact (Real.exp_pos _).le
    · intro a b hab
      have : (a : ℝ) ≤ b := by exact_mod_cast hab
      exact div_le_div_of_nonneg_left hr.le (by positivity) (by linarith)
    · have hk : (0:ℝ) < (k : ℝ) + 1 := by positivity
      have hf : (0:ℝ) < (Nat.factorial k : ℝ) := by positivity
      rw [Poisson.ld hr, Poisson.ld hr, density_fin, density_fin, Nat.factorial_succ]
      push_cast
      rw [Real.log_mul hk.ne' hf.ne', ← Real.exp_log (div_pos hr hk), ← Real.exp_add, Real.log_div hr.ne' hk.ne']
      congr 1; ring
    · intro i j _ _ hj
      rw [Poisson.ld hr, density_fin] at hj
      exact absurd hj (Real.exp_pos _).ne'
  · intro p d h h1
    obtain ⟨⟨h0, _⟩, rfl⟩ := Geometric.new_ok h
    have hz : (logDensityWrtRoot (⟨fin p⟩ : Geometric XReal) 0 : XReal) = ninf := by simp [logDensityWrtRoot]
    refine logConcaveCount_of_ratio (q := fun _ => 1 - p) (fun k => ?_) antitone_const (fun k hk => ?_) ?_
    · rcases Nat.eq_zero_or_pos k with rfl | hk
      · rw [hz, density_ninf]
      · rw [Geometric.ld_of_pos h0 h1 hk, density_fin]; exact (Real.exp_pos _).le
    · rcases Nat.eq_zero_or_pos k with rfl | hk'
      · rw [hz, density_ninf] at hk; exact absurd rfl hk
      · rw [Geometric.ld_of_pos h0 h1 hk', Geometric.ld_of_pos h0 h1 (by omega), density_fin, density_fin]
        have e : Real.exp (Real.log (1 - p)) = 1 - p := Real.exp_log (sub_pos.2 h1)
        conv_rhs => rw [← e, ← Real.exp_add]
        rw [e]
        congr 1; push_cast; ring
    · intro i j hi hij hj
      rcases Nat.eq_zero_or_pos i with rfl | hi'
      · rw [hz, density_ninf] at hi; exact absurd rfl hi
      · rw [Geometric.ld_of_pos h0 h1 (le_trans hi' hij), density_fin] at hj
        exact absurd hj (Real.exp_pos _).ne'
  · intro n p d h h0 h1
    obtain ⟨_, rfl⟩ := Binomial.new_ok h
    have hp' : (0:ℝ) < 1 - p := by linarith
    have hq0 : (0:ℝ) < p / (1 - p) := div_pos h0 hp'
    have hz : ∀ k, n < k → density (logDensityWrtRoot (⟨n, fin p⟩ : Binomial XReal).withBase k : XReal) = 0 :=
      fun k hk => by rw [(Binomial.withBase_ld h0 h1 k).2 hk, density_ninf]
    have hpos : ∀ k, k ≤ n → density (logDensityWrtRoot (⟨n, fin p⟩ : Binomial XReal).withBase k : XReal)
        = (n.choose k : ℝ) * Real.exp (k * Real.log p + (n - k) * Real.log (1 - p)) := fun k hk => by
      rw [(Binomial.withBase_ld h0 h1 k).1 hk, density_fin, Real.exp_add,
        Real.exp_log (by exact_mod_cast Nat.choose_pos hk)]
    refine logConcaveCount_of_ratio (q := fun k => (((n : ℝ) + 1) / ((k : ℝ) + 1) - 1) * (p / (1 - p))) (fun k => ?_) ?_
      (fun k hk => ?_) ?_
    · rcases le_or_gt k n with hk | hk
      · rw [hpos k hk]; positivity
      · rw [hz k hk]
    · intro a b hab
      have hab' : (a : ℝ) ≤ b := by exact_mod_cast hab
      have : ((n : ℝ) + 1) / ((b : ℝ) + 1) ≤ ((n : ℝ) + 1) / ((a : ℝ) + 1) :=
        div_le_div_of_nonneg_left (by positivity) (by positivity) (by linarith)
      exact mul_le_mul_of_nonneg_right (by linarith) hq0.le
    · have hkn : k ≤ n := by
        by_contra hc
        exact hk (hz k (by omega))
      rcases eq_or_lt_of_le hkn with rfl | hlt
      · rw [hz (k + 1) (by omega), div_self (by positivity)]; ring
      · rw [hpos k hkn, hpos (k + 1) hlt]
        have hc : (n.choose (k + 1) : ℝ) * ((k : ℝ) + 1) = (n.choose k : ℝ) * ((n : ℝ) - k) := by
          have := Nat.choose_succ_right_eq n k
          have h2 : ((n - k : ℕ) : ℝ) = (n : ℝ) - k := Nat.cast_sub hkn
          rw [← h2]; exact_mod_cast this
        have hk1 : (0:ℝ) < (k : ℝ) + 1 := by positivity
        have e1 : Real.exp (((k + 1 : ℕ) : ℝ) * Real.log p + ((n : ℝ) - ((k + 1 : ℕ) : ℝ)) * Real.log (1 - p))
            = Real.exp ((k : ℝ) * Real.log p + ((n : ℝ) - k) * Real.log (1 - p)) * (p / (1 - p)) := by
          conv_rhs => rw [← Real.exp_log hq0, ← Real.exp_add, Real.log_div h0.ne' hp'.ne']
          congr 1; push_cast; ring
        have e2 : (n.choose (k + 1) : ℝ) = (n.choose k : ℝ) * (((n : ℝ) + 1) / ((k : ℝ) + 1) - 1) := by
          field_simp
          linarith
        rw [e1, e2]; ring
    · intro i j hi hij hj
      refine hz _ ?_
      by_contra hc
      rw [hpos j (by omega)] at hj
      have : (0:ℝ) < n.choose j := by exact_mod_cast Nat.choose_pos (show j ≤ n by omega)
      exact absurd hj (by positivity)
  · intro r p d h
    obtain ⟨hr, ⟨h0, h1⟩, rfl⟩ := NegativeBinomial.new_ok h
    have hp' : (0:ℝ) < 1 - p := by linarith
    have hcp : ∀ k : ℕ, (0:ℝ) < (k + r - 1).choose k := fun k => by
      exact_mod_cast Nat.choose_pos (show k ≤ k + r - 1 by omega)
    refine logConcaveCount_of_ratio (q := fun k => (1 + ((r : ℝ) - 1) / ((k : ℝ) + 1)) * (1 - p)) (fun k => ?_) ?_
      (fun k _ => ?_) ?_
    · rw [NegativeBinomial.withBase_ld hr h0 h1, density_fin]; exact (Real.exp_pos _).le
    · intro a b hab
      have hab' : (a : ℝ) ≤ b := by exact_mod_cast hab
      have hr1 : (1:ℝ) ≤ r := by exact_mod_cast hr
      have : ((r : ℝ) - 1) / ((b : ℝ) + 1) ≤ ((r : ℝ) - 1) / ((a : ℝ) + 1) :=
        div_le_div_of_nonneg_left (by linarith) (by positivity) (by linarith)
      exact mul_le_mul_of_nonneg_right (by linarith) hp'.le
    · obtain ⟨s, rfl⟩ : ∃ s, r = s + 1 := ⟨r - 1, by omega⟩
      have e2 : ((k + 1 + (s + 1) - 1).choose (k + 1) : ℝ)
          = ((k + (s + 1) - 1).choose k : ℝ) * (1 + (((s + 1 : ℕ) : ℝ) - 1) / ((k : ℝ) + 1)) := by
        have h3 : (k + 1 + (s + 1) - 1).choose (k + 1) * (k + 1) = (k + (s + 1) - 1).choose k * (k + s + 1) := by
          have := Nat.add_one_mul_choose_eq (k + s) k
          rw [show k + 1 + (s + 1) - 1 = k + s + 1 by omega, show k + (s + 1) - 1 = k + s by omega]
          linarith
        have h4 : ((k + 1 + (s + 1) - 1).choose (k + 1) : ℝ) * ((k : ℝ) + 1)
            = ((k + (s + 1) - 1).choose k : ℝ) * ((k : ℝ) + s + 1) := by exact_mod_cast h3
        have hk1 : (0:ℝ) < (k : ℝ) + 1 := by positivity
        push_cast
        field_simp
        linarith
      rw [NegativeBinomial.withBase_ld hr h0 h1, NegativeBinomial.withBase_ld hr h0 h1, density_fin, density_fin,
        Real.exp_add (Real.log _), Real.exp_add (Real.log _), Real.exp_log (hcp _), Real.exp_log (hcp _), e2]
      have e1 : Real.exp (((s + 1 : ℕ) : ℝ) * Real.log p + ((k + 1 : ℕ) : ℝ) * Real.log (1 - p))
          = Real.exp (((s + 1 : ℕ) : ℝ) * Real.log p + (k : ℝ) * Real.log (1 - p)) * (1 - p) := by
        conv_rhs => rw [← Real.exp_log hp', ← Real.exp_add, Real.exp_log hp']
        congr 1; push_cast; ring
      rw [e1]; ring
    · intro i j _ _ hj
      rw [NegativeBinomial.withBase_ld hr h0 h1, density_fin] at hj
      exact absurd hj (Real.exp_pos _).ne'

/-- **C133**, unimodality: a log-concave density has no valley; between two points it is at least the smaller of the
two values. -/
theorem C133_unimodal {M : Type} [HasLogDensity M XReal XReal] {m : M} (h : LogConcave m)
    (hp : ∀ x : ℝ, 0 ≤ density (logDensityWrtRoot m (fin x) : XReal)) {x y z : ℝ} (hxz : x ≤ z) (hzy : z ≤ y) :
    min (density (logDensityWrtRoot m (fin x) : XReal)) (density (logDensityWrtRoot m (fin y) : XReal))
      ≤ density (logDensityWrtRoot m (fin z) : XReal) := by
  rcases eq_or_lt_of_le (hxz.trans hzy) with rfl | hlt
  · obtain rfl : x = z := le_antisymm hxz hzy
    simp
  have hd : 0 < y - x := sub_pos.2 hlt
  have h0 : 0 ≤ (z - x) / (y - x) := div_nonneg (by linarith) hd.le
  have h1 : (z - x) / (y - x) ≤ 1 := (div_le_one hd).2 (by linarith)
  have := h x y ((z - x) / (y - x)) h0 h1
  have e : (1 - (z - x) / (y - x)) * x + (z - x) / (y - x) * y = z := by field_simp; ring
  rw [e] at this
  refine le_trans ?_ this
  set P := density (logDensityWrtRoot m (fin x) : XReal)
  set Q := density (logDensityWrtRoot m (fin y) : XReal)
  set t := (z - x) / (y - x)
  have hm : 0 ≤ min P Q := le_min (hp x) (hp y)
  have h2 : min P Q ^ (1 - t) * min P Q ^ t = min P Q := by
    rcases eq_or_lt_of_le hm with hz | hpos
    · rw [← hz]
      rcases eq_or_ne t 0 with ht | ht
      · rw [ht]; norm_num
      · rw [Real.zero_rpow ht, mul_zero]
    · rw [← Real.rpow_add hpos, sub_add_cancel, Real.rpow_one]
  rw [← h2]
  exact mul_le_mul (Real.rpow_le_rpow hm (min_le_left _ _) (by linarith))
    (Real.rpow_le_rpow hm (min_le_right _ _) h0) (Real.rpow_nonneg hm _) (Real.rpow_nonneg (hp x) _)

/-- Some step of a sequence goes up if a later value is larger. -/
theorem exists_step_up {f : ℕ → ℝ} {i j : ℕ} (hij : i ≤ j) (h : f i < f j) : ∃ s, i ≤ s ∧ s < j ∧ f s < f (s + 1) := by
  induction j, hij using Nat.le_induction with
  | base => exact absurd h (lt_irrefl _)
  | succ j hj ih =>
    by_cases h1 : f i < f j
    · obtain ⟨s, h2, h3, h4⟩ := ih h1
      exact ⟨s, h2, by omega, h4⟩
    · exact ⟨j, hj, by omega, by linarith [not_lt.1 h1]⟩

/-- **C133**, the same for counts. -/
theorem C133_counts_unimodal {M : Type} [HasLogDensity M ℕ XReal] {m : M} (h : LogConcaveCount m)
    (hp : ∀ k : ℕ, 0 ≤ density (logDensityWrtRoot m k : XReal)) {i j k : ℕ} (hij : i ≤ j) (hjk : j ≤ k) :
    min (density (logDensityWrtRoot m i : XReal)) (density (logDensityWrtRoot m k : XReal))
      ≤ density (logDensityWrtRoot m j : XReal) := by
  by_contra hc
  obtain ⟨h1, h2⟩ := lt_min_iff.1 (not_le.1 hc)
  obtain ⟨s, _, hs, h3⟩ := exists_step_up (f := fun k => -density (logDensityWrtRoot m k : XReal)) hij (by simpa using h1)
  obtain ⟨u, hu, _, h4⟩ := exists_step_up (f := fun k => density (logDensityWrtRoot m k : XReal)) hjk h2
  obtain ⟨v, rfl⟩ : ∃ v, u = v + 1 := ⟨u - 1, by omega⟩
  have h5 := h s v (by omega)
  exact absurd h5 (not_le.2 (mul_lt_mul'' (neg_lt_neg_iff.1 h3) h4 (hp _) (hp _)))

/-- **C133**, affine maps with nonzero slope keep log-concavity. -/
theorem C133_linear {M : Type} [HasLogDensity M XReal XReal] {m : M} (h : LogConcave m)
    (hm : ∀ x : ℝ, IsLogDens (logDensityWrtRoot m (fin x))) {a : ℝ} (ha : a ≠ 0) (b : ℝ) :
    LogConcave (pushforward m (Transform.linearT (fin a) (fin b))) := by
  have key : ∀ y : ℝ, density (logDensityWrtRoot (pushforward m (Transform.linearT (fin a) (fin b))) (fin y) : XReal)
      = density (logDensityWrtRoot m (fin ((y - b) / a)) : XReal) * |a|⁻¹ := by
    intro y
    have hinv : ((fin y -. fin b) /. fin a : XReal) = fin ((y - b) / a) := by rw [f_sub, f_div _ _ ha]
    have hj : FloatOps.neg (FloatOps.ln (FloatOps.abs (fin a))) = fin (-Real.log |a|) := by
      rw [f_abs, f_ln _ (abs_pos.mpr ha), f_neg]
    show density (logDensityWrtRoot m ((fin y -. fin b) /. fin a) +. FloatOps.neg (FloatOps.ln (FloatOps.abs (fin a)))) = _
    rw [hinv, hj]
    rcases hm ((y - b) / a) with ⟨v, hv⟩ | hv
    · rw [hv, f_add, density_fin, density_fin, Real.exp_add, Real.exp_neg, Real.exp_log (abs_pos.2 ha)]
    · rw [hv]
      show density ninf = _
      simp
  have hnn : ∀ x : ℝ, 0 ≤ density (logDensityWrtRoot m (fin x) : XReal) := fun x => density_nonneg_of_proper (hm x)
  have hi : 0 < |a|⁻¹ := inv_pos.2 (abs_pos.2 ha)
  intro x y t h0 h1
  rw [key, key, key, Real.mul_rpow (hnn _) hi.le, Real.mul_rpow (hnn _) hi.le]
  have e1 : (|a|⁻¹ : ℝ) ^ (1 - t) * (|a|⁻¹ : ℝ) ^ t = |a|⁻¹ := by
    rw [← Real.rpow_add hi, sub_add_cancel, Real.rpow_one]
  have e2 : ((1 - t) * x + t * y - b) / a = (1 - t) * ((x - b) / a) + t * ((y - b) / a) := by field_simp; ring
  rw [e2]
  have := mul_le_mul_of_nonneg_right (h ((x - b) / a) ((y - b) / a) t h0 h1) hi.le
  calc _ = density (logDensityWrtRoot m (fin ((x - b) / a)) : XReal) ^ (1 - t)
        * density (logDensityWrtRoot m (fin ((y - b) / a)) : XReal) ^ t
        * ((|a|⁻¹ : ℝ) ^ (1 - t) * (|a|⁻¹ : ℝ) ^ t) := by ring
    _ ≤ _ := by rw [e1]; exact this

theorem exp_mid {x y t : ℝ} (h0 : 0 ≤ t) (h1 : t ≤ 1) :
    Real.exp ((1 - t) * x + t * y) ≤ (1 - t) * Real.exp x + t * Real.exp y := by
  have := convexOn_exp.2 (Set.mem_univ x) (Set.mem_univ y) (sub_nonneg.2 h1) h0 (by ring)
  simpa [smul_eq_mul] using this

/-- `log (1 + exp x)` is convex. -/
theorem softplus_mid {x y t : ℝ} (h0 : 0 ≤ t) (h1 : t ≤ 1) :
    Real.log (1 + Real.exp ((1 - t) * x + t * y))
      ≤ (1 - t) * Real.log (1 + Real.exp x) + t * Real.log (1 + Real.exp y) := by
  have hx : 0 < 1 + Real.exp x := by positivity
  have hy : 0 < 1 + Real.exp y := by positivity
  set G := (1 - t) * Real.log (1 + Real.exp x) + t * Real.log (1 + Real.exp y) with hG
  have k1 := exp_mid (x := -Real.log (1 + Real.exp x)) (y := -Real.log (1 + Real.exp y)) h0 h1
  have k2 := exp_mid (x := x - Real.log (1 + Real.exp x)) (y := y - Real.log (1 + Real.exp y)) h0 h1
  rw [show (1 - t) * -Real.log (1 + Real.exp x) + t * -Real.log (1 + Real.exp y) = -G by rw [hG]; ring,
    Real.exp_neg (Real.log _), Real.exp_neg (Real.log _), Real.exp_log hx, Real.exp_log hy] at k1
  rw [show (1 - t) * (x - Real.log (1 + Real.exp x)) + t * (y - Real.log (1 + Real.exp y))
      = ((1 - t) * x + t * y) + -G by rw [hG]; ring, Real.exp_add, Real.exp_sub, Real.exp_sub, Real.exp_log hx,
    Real.exp_log hy] at k2
  have ex : (1 + Real.exp x)⁻¹ + Real.exp x / (1 + Real.exp x) = 1 := by field_simp
  have ey : (1 + Real.exp y)⁻¹ + Real.exp y / (1 + Real.exp y) = 1 := by field_simp
  have e3 : (1 - t) * (1 + Real.exp x)⁻¹ + t * (1 + Real.exp y)⁻¹ + ((1 - t) * (Real.exp x / (1 + Real.exp x))
      + t * (Real.exp y / (1 + Real.exp y))) = 1 := by linear_combination (1 - t) * ex + t * ey
  have k3 : (1 + Real.exp ((1 - t) * x + t * y)) * Real.exp (-G) ≤ 1 := by linarith
  rw [Real.log_le_iff_le_exp (by positivity)]
  rw [Real.exp_neg, ← div_eq_mul_inv, div_le_one (Real.exp_pos _)] at k3
  exact k3

/-- **C133**, the library's transforms to the whole line make every gamma, exponential, chi-squared and beta density
log-concave, whatever the parameters. -/
theorem C133_unconstrained :
    (∀ (a b : ℝ) (d : Gamma XReal), Gamma.new (fin a) (fin b) = .ok d → LogConcave (pushforward d (Transform.logT (F := XReal)))) ∧
    (∀ (r : ℝ) (d : Exponential XReal), Exponential.new (fin r) = .ok d → LogConcave (pushforward d (Transform.logT (F := XReal)))) ∧
    (∀ (k : ℝ) (d : ChiSquared XReal), ChiSquared.new (fin k) = .ok d → LogConcave (pushforward d (Transform.logT (F := XReal)))) ∧
    (∀ (a b : ℝ) (d : Beta XReal), Beta.new (fin a) (fin b) = .ok d → LogConcave (pushforward d (Transform.logitT (F := XReal)))) := by
  refine ⟨?_, ?_, ?_, ?_⟩
  · intro a b d h
    obtain ⟨ha, hb, rfl⟩ := Gamma.new_ok h
    refine (logConcave_iff (S := fun _ => True) (u := fun y => (a * Real.log b - Real.log (Real.Gamma a) + a * y - b * Real.exp y)) (fun x _ => ?_)
      (fun x hx => absurd trivial hx)
      fun _ _ _ _ _ _ _ => trivial).2 ?_
    · show (logDensityWrtRoot (⟨fin a, fin b⟩ : Gamma XReal) (fin (Real.exp x)) +. fin x : XReal) = _
      rw [Gamma.ld_of_pos ha hb (Real.exp_pos x), f_add, Real.log_exp]
      congr 1; ring
    · intro x y t _ _ h0 h1
      have := mul_le_mul_of_nonneg_left (exp_mid (x := x) (y := y) h0 h1) hb.le
      linarith
  · intro r d h
    obtain ⟨hr, rfl⟩ := Exponential.new_ok h
    refine (logConcave_iff (S := fun _ => True) (u := fun y => (Real.log r + y - r * Real.exp y)) (fun x _ => ?_)
      (fun x hx => absurd trivial hx)
      fun _ _ _ _ _ _ _ => trivial).2 ?_
    · show (logDensityWrtRoot (⟨fin r⟩ : Exponential XReal) (fin (Real.exp x)) +. fin x : XReal) = _
      rw [Exponential.ld_of_nonneg hr (Real.exp_pos x).le, f_add]
      congr 1; ring
    · intro x y t _ _ h0 h1
      have := mul_le_mul_of_nonneg_left (exp_mid (x := x) (y := y) h0 h1) hr.le
      linarith
  · intro k d h
    obtain ⟨hk, rfl⟩ := ChiSquared.new_ok h
    refine (logConcave_iff (S := fun _ => True) (u := fun y => (k / 2 * y - Real.exp y / 2 - (k / 2 * Real.log 2 + Real.log (Real.Gamma (k / 2))))) (fun x _ => ?_)
      (fun x hx => absurd trivial hx)
      fun _ _ _ _ _ _ _ => trivial).2 ?_
    · show (logDensityWrtRoot (⟨fin k⟩ : ChiSquared XReal) (fin (Real.exp x)) +. fin x : XReal) = _
      rw [ChiSquared.ld_of_pos hk (Real.exp_pos x), f_add, Real.log_exp]
      congr 1; ring
    · intro x y t _ _ h0 h1
      have := exp_mid (x := x) (y := y) h0 h1
      linarith
  · intro a b d h
    obtain ⟨ha, hb, rfl⟩ := Beta.new_ok h
    have hpos : ∀ y : ℝ, 0 < 1 + Real.exp y := fun y => by linarith [Real.exp_pos y]
    refine (logConcave_iff (S := fun _ => True) (u := fun y => (a * y - (a + b) * Real.log (1 + Real.exp y) - (Real.log (Real.Gamma a) + Real.log (Real.Gamma b) - Real.log (Real.Gamma (a + b))))) (fun x _ => ?_)
      (fun x hx => absurd trivial hx)
      fun _ _ _ _ _ _ _ => trivial).2 ?_
    · show (logDensityWrtRoot (⟨fin a, fin b⟩ : Beta XReal) (fin (Real.exp x) /. (fin 1 +. fin (Real.exp x)))
        +. (fin (-x) -. FloatOps.ln (fin 1 +. fin (Real.exp (-x))) -. FloatOps.ln (fin 1 +. fin (Real.exp (-x)))) : XReal) = _
      rw [f_add, f_div _ _ (hpos x).ne', f_add, f_ln _ (hpos (-x)), f_sub, f_sub,
        Beta.ld_of_mem ha hb (div_pos (Real.exp_pos x) (hpos x)) ((div_lt_one (hpos x)).2 (by linarith)), f_add]
      have e1 : 1 - Real.exp x / (1 + Real.exp x) = 1 / (1 + Real.exp x) := by
        have := (hpos x).ne'
        field_simp; ring
      have e2 : 1 + Real.exp (-x) = (1 + Real.exp x) / Real.exp x := by
        rw [Real.exp_neg]; have := (Real.exp_pos x).ne'; field_simp; ring
      rw [e1, e2, Real.log_div (Real.exp_pos x).ne' (hpos x).ne', Real.log_div one_ne_zero (hpos x).ne',
        Real.log_div (hpos x).ne' (Real.exp_pos x).ne', Real.log_exp, Real.log_one]
      congr 1; ring
    · intro x y t _ _ h0 h1
      have := mul_le_mul_of_nonneg_left (softplus_mid (x := x) (y := y) h0 h1) (by linarith : 0 ≤ a + b)
      linarith

/-- **C133** does not survive mixing: the half-and-half mixture of two normals, both log-concave, is not. -/
theorem C133_mixture_violated : ∃ c₁ c₂ : Normal XReal, Normal.new (fin 0) (fin 1) = .ok c₁ ∧
    Normal.new (fin 10) (fin 1) = .ok c₂ ∧ LogConcave c₁ ∧ LogConcave c₂ ∧
    ¬ LogConcave (⟨[c₁, c₂], [fin (1/2), fin (1/2)]⟩ : MixtureMeasure (Normal XReal) XReal) := by
  have n1 : Normal.new (fin 0) (fin 1) = .ok (⟨fin 0, fin 1⟩ : Normal XReal) := by simp [Normal.new]
  have n2 : Normal.new (fin 10) (fin 1) = .ok (⟨fin 10, fin 1⟩ : Normal XReal) := by simp [Normal.new]
  refine ⟨_, _, n1, n2, C133_continuous.1 _ _ _ n1, C133_continuous.1 _ _ _ n2, fun hc => ?_⟩
  have key : ∀ x : ℝ, density (logDensityWrtRoot (⟨[⟨fin 0, fin 1⟩, ⟨fin 10, fin 1⟩], [fin (1/2), fin (1/2)]⟩ :
      MixtureMeasure (Normal XReal) XReal) (fin x) : XReal)
      = 1/2 * density (logDensityWrtRoot (⟨fin 0, fin 1⟩ : Normal XReal) (fin x) : XReal)
        + 1/2 * density (logDensityWrtRoot (⟨fin 10, fin 1⟩ : Normal XReal) (fin x) : XReal) := by
    intro x
    have := (C34_mixture_density_partial [(⟨fin 0, fin 1⟩ : Normal XReal), ⟨fin 10, fin 1⟩] [1/2, 1/2] (fin x) rfl
      (by intro w hw; simp at hw; rw [hw]; norm_num) (by
        intro c hc
        rcases List.mem_cons.1 hc with rfl | hc
        · exact Or.inl ⟨_, Normal.ld one_pos⟩
        · obtain rfl := List.mem_singleton.1 hc
          exact Or.inl ⟨_, Normal.ld one_pos⟩)).1
    simpa using this
  have hcv := C133_unimodal hc (fun x => by
    rw [key, Normal.ld one_pos, Normal.ld one_pos, density_fin, density_fin]; positivity) (x := 0) (y := 10) (z := 5)
    (by norm_num) (by norm_num)
  rw [key, key, key] at hcv
  simp only [Normal.ld one_pos, density_fin] at hcv
  norm_num at hcv
  generalize -(1 / 2 * Real.log (2 * Real.pi)) = c at hcv
  have h50 : Real.exp (c - 50) = Real.exp c * Real.exp (-50) := by rw [← Real.exp_add]; rfl
  have h12 : Real.exp (c - 25 / 2) = Real.exp c * Real.exp (-(25 / 2)) := by rw [← Real.exp_add]; rfl
  have hs : Real.exp (-(25 / 2 : ℝ)) < 1 / 2 := by
    rw [Real.exp_neg, one_div, inv_lt_inv₀ (Real.exp_pos _) (by norm_num)]
    have := Real.add_one_le_exp (25 / 2 : ℝ)
    linarith
  have h1 := mul_lt_mul_of_pos_left hs (Real.exp_pos c)
  have h2 := mul_pos (Real.exp_pos c) (Real.exp_pos (-50))
  rw [h50, h12] at hcv
  rcases hcv with h | h <;> linarith

example : ∃ d : Gamma XReal, Gamma.new (fin (1/2)) (fin 1) = .ok d ∧ ¬ LogConcave d ∧
    LogConcave (pushforward d (Transform.logT (F := XReal))) := by
  have n : Gamma.new (fin (1/2)) (fin 1) = .ok (⟨fin (1/2), fin 1⟩ : Gamma XReal) := by simp [Gamma.new]
  refine ⟨_, n, fun h => ?_, C133_unconstrained.1 _ _ _ n⟩
  have := (C133_continuous.2.2.1 _ _ _ n).1 h
  norm_num at this

/-- The hypotheses of `C133_unimodal` and `C133_linear` at a concrete distribution. -/
example : ∃ d : Normal XReal, Normal.new (fin 1) (fin 2) = .ok d ∧ LogConcave d ∧
    (∀ x : ℝ, IsLogDens (logDensityWrtRoot d (fin x))) ∧
    LogConcave (pushforward d (Transform.linearT (fin (-3)) (fin 7))) := by
  have n : Normal.new (fin 1) (fin 2) = .ok (⟨fin 1, fin 2⟩ : Normal XReal) := by simp [Normal.new]
  have h := C133_continuous.1 _ _ _ n
  have hd : ∀ x : ℝ, IsLogDens (logDensityWrtRoot (⟨fin 1, fin 2⟩ : Normal XReal) (fin x)) :=
    fun x => Or.inl ⟨_, Normal.ld two_pos⟩
  exact ⟨_, n, h, hd, C133_linear h hd (by norm_num) 7⟩

/-- The hypotheses of `C133_counts_unimodal` at a concrete distribution. -/
example : ∃ d : Poisson XReal, Poisson.new (fin 4) = .ok d ∧ LogConcaveCount d ∧
    ∀ k : ℕ, 0 ≤ density (logDensityWrtRoot d k : XReal) := by
  have n : Poisson.new (fin 4) = .ok (⟨fin 4⟩ : Poisson XReal) := by simp [Poisson.new]
  refine ⟨_, n, C133_counts.1 _ _ n, fun k => ?_⟩
  rw [Poisson.ld (by norm_num), density_fin]
  exact (Real.exp_pos _).le

end Verif
