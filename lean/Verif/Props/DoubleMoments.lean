import Verif.Spec.Double
import Verif.Spec.DoubleMoments
import Verif.Lemmas.Rel
import Verif.Props.Double
import Verif.Model.DistContinuous
import Verif.Model.DistDiscrete

/-!
# C118: reported means and variances in floating point

The exact formulas on the right-hand sides are the moments of the reported densities by C27.
-/

namespace Verif
open Format FloatOps Spec

variable {f : Format} {L : Libm}

theorem Rel.accurate (hf : f.Std) {k j : ℕ} {a : ℚ} {x : ℝ} (h : Rel f k j a x) (hk : k ≤ 1000) {c : ℝ}
    (hc : 2 * k ≤ c) : Accurate f c (.fin a) x := by
  refine ⟨a, rfl, h.rep, (h.err hf hk).trans ?_⟩
  rw [abs_of_pos h.pos]
  have := u_pos f
  have := h.pos
  gcongr

theorem Spec.Moderate.rel {K : ℕ} {a : ℚ} (h : Moderate f K a) : Rel f 0 K a a :=
  Rel.exact h.1 h.2.1 h.2.2

theorem rel_one (hf : f.Std) (j : ℕ) : Rel f 0 j 1 (1 : ℝ) := by
  have := Rel.exact (j := 0) hf.rep_one (by norm_num) (by norm_num)
  have := this.mono hf le_rfl (Nat.zero_le j)
  simpa using this

/-- **C118**, continuous distributions: for parameters of moderate size every reported mean, variance
and scale is accurate to a few units of roundoff. -/
theorem C118_continuous_partial (hf : f.Std) {K : ℕ} (hK : 5 * K + 8 ≤ f.emax) {a b : ℚ}
    (ha : Moderate f K a) (hb : Moderate f K b) :
    (∀ (m : Flt f L) (d : Normal (Flt f L)), Normal.new m (Flt.fin b) = .ok d →
      d.mean = m ∧ Accurate f 2 d.variance (b ^ 2)) ∧
    (∀ d : Exponential (Flt f L), Exponential.new (Flt.fin a) = .ok d →
      Accurate f 2 d.mean (1 / a) ∧ Accurate f 6 d.variance (1 / a ^ 2)) ∧
    (∀ d : Gamma (Flt f L), Gamma.new (Flt.fin a) (Flt.fin b) = .ok d →
      Accurate f 2 d.mean (a / b) ∧ Accurate f 4 d.variance (a / b ^ 2) ∧
        Accurate f 2 d.scale (1 / b)) ∧
    (∀ d : Beta (Flt f L), Beta.new (Flt.fin a) (Flt.fin b) = .ok d →
      Accurate f 4 d.mean (a / (a + b)) ∧
        Accurate f 16 d.variance (a * b / ((a + b) ^ 2 * (a + b + 1)))) ∧
    (∀ d : ChiSquared (Flt f L), ChiSquared.new (Flt.fin a) = .ok d →
      d.mean = Flt.fin a ∧ Accurate f 2 d.variance (2 * a)) := by
  have ra := ha.rel
  have rb := hb.rel
  refine ⟨fun m d h => ?_, fun d h => ?_, fun d h => ?_, fun d h => ?_, fun d h => ?_⟩
  · obtain rfl : d = ⟨m, Flt.fin b⟩ := by
      unfold Normal.new at h; split_ifs at h; exact (Except.ok.inj h).symm
    refine ⟨rfl, ?_⟩
    obtain ⟨r, e, hr⟩ := rb.mul hf rb (by norm_num) (by norm_num) (by omega)
    rw [show Normal.variance (⟨m, Flt.fin b⟩ : Normal (Flt f L)) = .fin r from e, _root_.sq]
    exact hr.accurate hf (by norm_num) (by norm_num)
  · obtain rfl : d = ⟨Flt.fin a⟩ := by
      unfold Exponential.new at h; split_ifs at h; exact (Except.ok.inj h).symm
    obtain ⟨r, e, hr⟩ := (rel_one hf 0).div hf ra (by norm_num) (by norm_num) (by push_cast; omega)
    obtain ⟨s, e2, hs⟩ := hr.mul hf hr (by norm_num) (by norm_num) (by push_cast; omega)
    have e' : Exponential.mean (⟨Flt.fin a⟩ : Exponential (Flt f L)) = .fin r := e
    refine ⟨?_, ?_⟩
    · rw [e']; exact hr.accurate hf (by norm_num) (by norm_num)
    · have : Exponential.variance (⟨Flt.fin a⟩ : Exponential (Flt f L)) = .fin s := by
        show Flt.mul f (Flt.div f (.fin 1) (.fin a)) (Flt.div f (.fin 1) (.fin a)) = _
        rw [e, e2]
      rw [this]
      have h2 : (1 : ℝ) / a ^ 2 = 1 / a * (1 / a) := by rw [_root_.sq, one_div_mul_one_div]
      rw [h2]
      exact hs.accurate hf (by norm_num) (by norm_num)
  · obtain rfl : d = ⟨Flt.fin a, Flt.fin b⟩ := by
      unfold Gamma.new at h; split_ifs at h; exact (Except.ok.inj h).symm
    obtain ⟨r, e, hr⟩ := ra.div hf rb (by norm_num) (by norm_num) (by omega)
    obtain ⟨t, et, ht⟩ := rb.mul hf rb (by norm_num) (by norm_num) (by omega)
    obtain ⟨s, es, hs⟩ := ra.div hf ht (by norm_num) (by norm_num) (by push_cast; omega)
    obtain ⟨w, ew, hw⟩ := (rel_one hf 0).div hf rb (by norm_num) (by norm_num) (by push_cast; omega)
    refine ⟨?_, ?_, ?_⟩
    · rw [show Gamma.mean (⟨Flt.fin a, Flt.fin b⟩ : Gamma (Flt f L)) = .fin r from e]
      exact hr.accurate hf (by norm_num) (by norm_num)
    · have : Gamma.variance (⟨Flt.fin a, Flt.fin b⟩ : Gamma (Flt f L)) = .fin s := by
        show Flt.div f (.fin a) (Flt.mul f (.fin b) (.fin b)) = _
        rw [et, es]
      rw [this, _root_.sq]
      exact hs.accurate hf (by norm_num) (by norm_num)
    · rw [show Gamma.scale (⟨Flt.fin a, Flt.fin b⟩ : Gamma (Flt f L)) = .fin w from ew]
      exact hw.accurate hf (by norm_num) (by norm_num)
  · obtain rfl : d = ⟨Flt.fin a, Flt.fin b⟩ := by
      unfold Beta.new at h; split_ifs at h; exact (Except.ok.inj h).symm
    obtain ⟨s, es, hs⟩ := ra.add hf rb (by norm_num) (by omega)
    obtain ⟨r, er, hr⟩ := ra.div hf hs (by norm_num) (by norm_num) (by push_cast; omega)
    obtain ⟨n, en, hn⟩ := ra.mul hf rb (by norm_num) (by norm_num) (by omega)
    obtain ⟨t, et, ht⟩ := hs.mul hf hs (by norm_num) (by norm_num) (by push_cast; omega)
    obtain ⟨w, ew, hw⟩ := hs.add hf ((rel_one hf (K + 1)).mono hf (Nat.zero_le _) le_rfl) (by norm_num)
      (by push_cast; omega)
    obtain ⟨z, ez, hz⟩ := ht.mul hf hw (by norm_num) (by norm_num) (by push_cast; omega)
    obtain ⟨v, ev, hv⟩ := hn.div hf hz (by norm_num) (by norm_num) (by push_cast; omega)
    refine ⟨?_, ?_⟩
    · have : Beta.mean (⟨Flt.fin a, Flt.fin b⟩ : Beta (Flt f L)) = .fin r := by
        show Flt.div f (.fin a) (Flt.add f (.fin a) (.fin b)) = _
        rw [es, er]
      rw [this]
      exact hr.accurate hf (by norm_num) (by norm_num)
    · have : Beta.variance (⟨Flt.fin a, Flt.fin b⟩ : Beta (Flt f L)) = .fin v := by
        show Flt.div f (Flt.mul f (.fin a) (.fin b)) (Flt.mul f (Flt.mul f (Flt.add f (.fin a) (.fin b))
          (Flt.add f (.fin a) (.fin b))) (Flt.add f (Flt.add f (.fin a) (.fin b)) (.fin 1))) = _
        rw [es, en, et, ew, ez, ev]
      rw [this, _root_.sq]
      exact hv.accurate hf (by norm_num) (by norm_num)
  · obtain rfl : d = ⟨Flt.fin a⟩ := by
      unfold ChiSquared.new at h; split_ifs at h; exact (Except.ok.inj h).symm
    refine ⟨rfl, ?_⟩
    have r2 : Rel f 0 1 2 (2 : ℝ) := by
      have := Rel.exact (j := 1) hf.rep_two (by norm_num) (by norm_num)
      simpa using this
    obtain ⟨r, e, hr⟩ := r2.mul hf ra (by norm_num) (by norm_num) (by push_cast; omega)
    have : ChiSquared.variance (⟨Flt.fin a⟩ : ChiSquared (Flt f L)) = .fin r := by
      show Flt.mul f (f.round 2) (.fin a) = _
      rw [f.round_exact hf.rep_two, e]
    rw [this]
    exact hr.accurate hf (by norm_num) (by norm_num)

/-- **C118**, discrete distributions: for a probability that is not tiny and counts of moderate size
every reported mean and variance is accurate to a few units of roundoff, also for probabilities next
to one, where `1 - p` is tiny. -/
theorem C118_discrete_partial (hf : f.Std) {K : ℕ} (hK : 5 * K + 8 ≤ f.emax) {p : ℚ}
    (hp : Moderate f K p) (hp1 : p < 1) {n : ℕ} (hn0 : 0 < n) (hn : n ≤ 2 ^ K) :
    (∀ d : Bernoulli (Flt f L), Bernoulli.new (Flt.fin p) = .ok d →
      d.mean = Flt.fin p ∧ Accurate f 4 d.variance (p * (1 - p))) ∧
    (∀ d : Binomial (Flt f L), Binomial.new n (Flt.fin p) = .ok d →
      Accurate f 4 d.mean (n * p) ∧ Accurate f 8 d.variance (n * p * (1 - p))) ∧
    (∀ d : Geometric (Flt f L), Geometric.new (Flt.fin p) = .ok d →
      Accurate f 2 d.mean (1 / p) ∧ Accurate f 6 d.variance ((1 - p) / p ^ 2)) ∧
    (∀ d : NegativeBinomial (Flt f L), NegativeBinomial.new n (Flt.fin p) = .ok d →
      Accurate f 8 d.mean (n * p / (1 - p)) ∧ Accurate f 12 d.variance (n * p / (1 - p) ^ 2)) := by
  have rp := hp.rel
  have hp0 : 0 ≤ p := by
    have := hp.2.1
    have h2 : (0 : ℚ) < 1 / 2 ^ K := by positivity
    linarith
  have hpl := hf.prec_le
  have hprec : 2 * K + 2 * (f.prec : ℤ) + 4 ≤ f.emax := by
    rcases hf with rfl | rfl <;> simp only [f64, f32] at hK ⊢ <;> omega
  obtain ⟨q, eq, hq⟩ := Rel.one_sub hf hp.1 hp0 hp1
  obtain ⟨m, em, hm⟩ := Rel.nat hf hn0 hn (by omega)
  obtain ⟨t, et, ht⟩ := hm.mul hf rp (by norm_num) (by norm_num) (by omega)
  refine ⟨fun d h => ?_, fun d h => ?_, fun d h => ?_, fun d h => ?_⟩
  · obtain rfl : d = ⟨Flt.fin p⟩ := by
      unfold Bernoulli.new at h; split_ifs at h; exact (Except.ok.inj h).symm
    refine ⟨rfl, ?_⟩
    obtain ⟨r, e, hr⟩ := rp.mul hf hq (by norm_num) (by norm_num) (by omega)
    have : Bernoulli.variance (⟨Flt.fin p⟩ : Bernoulli (Flt f L)) = .fin r := by
      show Flt.mul f (.fin p) (Flt.sub f (.fin 1) (.fin p)) = _
      rw [eq, e]
    rw [this]
    exact hr.accurate hf (by norm_num) (by norm_num)
  · obtain rfl : d = ⟨n, Flt.fin p⟩ := by
      unfold Binomial.new at h; split_ifs at h; exact (Except.ok.inj h).symm
    obtain ⟨r, e, hr⟩ := ht.mul hf hq (by norm_num) (by norm_num) (by push_cast; omega)
    refine ⟨?_, ?_⟩
    · have : Binomial.mean (⟨n, Flt.fin p⟩ : Binomial (Flt f L)) = .fin t := by
        show Flt.mul f (f.round n) (.fin p) = _
        rw [em, et]
      rw [this]
      exact ht.accurate hf (by norm_num) (by norm_num)
    · have : Binomial.variance (⟨n, Flt.fin p⟩ : Binomial (Flt f L)) = .fin r := by
        show Flt.mul f (Flt.mul f (f.round n) (.fin p)) (Flt.sub f (.fin 1) (.fin p)) = _
        rw [em, et, eq, e]
      rw [this]
      exact hr.accurate hf (by norm_num) (by norm_num)
  · obtain rfl : d = ⟨Flt.fin p⟩ := by
      unfold Geometric.new at h; split_ifs at h; exact (Except.ok.inj h).symm
    obtain ⟨r, e, hr⟩ := (rel_one hf 0).div hf rp (by norm_num) (by norm_num) (by push_cast; omega)
    obtain ⟨s, es, hs⟩ := rp.mul hf rp (by norm_num) (by norm_num) (by omega)
    obtain ⟨v, ev, hv⟩ := hq.div hf hs (by norm_num) (by norm_num) (by push_cast; omega)
    refine ⟨?_, ?_⟩
    · rw [show Geometric.mean (⟨Flt.fin p⟩ : Geometric (Flt f L)) = .fin r from e]
      exact hr.accurate hf (by norm_num) (by norm_num)
    · have : Geometric.variance (⟨Flt.fin p⟩ : Geometric (Flt f L)) = .fin v := by
        show Flt.div f (Flt.sub f (.fin 1) (.fin p)) (Flt.mul f (.fin p) (.fin p)) = _
        rw [eq, es, ev]
      rw [this, _root_.sq]
      exact hv.accurate hf (by norm_num) (by norm_num)
  · obtain rfl : d = ⟨n, Flt.fin p⟩ := by
      unfold NegativeBinomial.new at h; split_ifs at h <;> exact (Except.ok.inj h).symm
    obtain ⟨r, e, hr⟩ := ht.div hf hq (by norm_num) (by norm_num) (by push_cast; omega)
    obtain ⟨s, es, hs⟩ := hq.mul hf hq (by norm_num) (by norm_num) (by omega)
    obtain ⟨v, ev, hv⟩ := ht.div hf hs (by norm_num) (by norm_num) (by push_cast; omega)
    refine ⟨?_, ?_⟩
    · have : NegativeBinomial.mean (⟨n, Flt.fin p⟩ : NegativeBinomial (Flt f L)) = .fin r := by
        show Flt.div f (Flt.mul f (f.round n) (.fin p)) (Flt.sub f (.fin 1) (.fin p)) = _
        rw [em, et, eq, e]
      rw [this]
      exact hr.accurate hf (by norm_num) (by norm_num)
    · have : NegativeBinomial.variance (⟨n, Flt.fin p⟩ : NegativeBinomial (Flt f L)) = .fin v := by
        show Flt.div f (Flt.mul f (f.round n) (.fin p)) (Flt.mul f (Flt.sub f (.fin 1) (.fin p))
          (Flt.sub f (.fin 1) (.fin p))) = _
        rw [em, et, eq, es, ev]
      rw [this, _root_.sq]
      exact hv.accurate hf (by norm_num) (by norm_num)

example : (5 * (24 : ℕ) + 8 : ℤ) ≤ f32.emax ∧ (5 * (203 : ℕ) + 8 : ℤ) ≤ f64.emax := by decide
example : Moderate f32 24 (3 / 4) := by
  refine ⟨?_, by norm_num, by norm_num⟩
  have := Std.rep_of (f := f32) (Or.inr rfl) 3 (-2) (by norm_num) (by norm_num) (by norm_num)
  norm_num at this
  exact this

/-- Outside that range intermediate results overflow although the moment itself is an ordinary number:
the variance of a Gamma distribution with shape `2^1000` and rate `2^600`, which is `2^-200`, is
reported as zero, and the variance of a Beta distribution with both parameters `2^600` as NaN. -/
theorem C118_overflow_violated :
    (∃ a b : ℚ, f64.Representable a ∧ f64.Representable b ∧ ∃ d : Gamma (Flt f64 L),
      Gamma.new (Flt.fin a) (Flt.fin b) = .ok d ∧ d.variance = Flt.fin (f := f64) (L := L) 0 ∧
        (a : ℝ) / b ^ 2 = 1 / 2 ^ 200) ∧
    (∃ a : ℚ, f64.Representable a ∧ ∃ d : Beta (Flt f64 L),
      Beta.new (Flt.fin a) (Flt.fin a) = .ok d ∧ d.variance = Flt.nan (f := f64) (L := L) ∧
        0 < a) := by
  have hf : f64.Std := Or.inl rfl
  obtain ⟨b, hb⟩ : ∃ b : ℚ, b = 2 ^ (600 : ℤ) := ⟨_, rfl⟩
  obtain ⟨a, ha⟩ : ∃ a : ℚ, a = 2 ^ (1000 : ℤ) := ⟨_, rfl⟩
  have hb0 : 0 < b := by rw [hb]; positivity
  have ha0 : 0 < a := by rw [ha]; positivity
  have hrep : ∀ e : ℤ, -1074 ≤ e → e < 1024 → f64.Representable (2 ^ e) := fun e h1 h2 => by
    refine ⟨⟨1, e, by norm_num [f64], h1, by push_cast; ring⟩, ?_⟩
    rw [abs_of_pos (by positivity)]
    exact zpow_lt_zpow_right₀ (by norm_num) h2
  have hbr : f64.Representable b := by rw [hb]; exact hrep _ (by norm_num) (by norm_num)
  have har : f64.Representable a := by rw [ha]; exact hrep _ (by norm_num) (by norm_num)
  have hbb : f64.round (b * b) = .inf false := by
    apply round_overflow hf
    rw [hb, ← zpow_add₀ (by norm_num)]
    exact zpow_le_zpow_right₀ (by norm_num) (by decide)
  have hpos : ∀ q : ℚ, 0 < q → FloatOps.gt (Flt.fin (f := f64) (L := L) q) FloatOps.zero = true :=
    fun q h => by
      show decide (0 < q) = true
      simpa using h
  refine ⟨⟨a, b, har, hbr, ⟨Flt.fin a, Flt.fin b⟩, ?_, ?_, ?_⟩, ⟨b, hbr, ⟨Flt.fin b, Flt.fin b⟩, ?_, ?_, hb0⟩⟩
  · simp [Gamma.new, hpos a ha0, hpos b hb0]
  · show Flt.div f64 (.fin a) (f64.round (b * b)) = .fin 0
    rw [hbb]; rfl
  · rw [ha, hb]
    push_cast
    rw [← zpow_natCast, ← zpow_mul, ← zpow_sub₀ (by norm_num), one_div, ← zpow_natCast, ← zpow_neg]
    norm_num
  · simp [Beta.new, hpos b hb0]
  · have rb : Rel f64 0 600 b b := Rel.exact hbr
      (by rw [hb]; refine le_trans (b := 1) ?_ ?_
          · rw [div_le_one (by positivity)]; exact one_le_pow₀ (by norm_num)
          · exact one_le_zpow₀ (by norm_num) (by norm_num))
      (by rw [hb]; exact le_of_eq (by rw [← zpow_natCast]; rfl))
    obtain ⟨s, es, hs⟩ := rb.add hf rb (by norm_num) (by decide)
    obtain ⟨w, ew, hw⟩ := hs.add hf ((rel_one hf 601).mono hf (Nat.zero_le _) le_rfl) (by norm_num)
      (by decide)
    have hs0 := hs.apos hf
    have hw0 := hw.apos hf
    have hss : f64.round (s * s) = .inf false := by
      have hsb : s = b + b := by
        have : f64.round (b + b) = .fin (b + b) := by
          apply f64.round_exact
          have : b + b = 2 ^ (601 : ℤ) := by
            rw [hb, show (601 : ℤ) = 600 + 1 by norm_num, zpow_add₀ (by norm_num)]; ring
          rw [this]; exact hrep _ (by norm_num) (by norm_num)
        have e : Flt.add f64 (.fin b) (.fin b) = f64.round (b + b) := rfl
        rw [e, this] at es
        exact (FVal.fin.inj es).symm
      apply round_overflow hf
      rw [hsb, hb]
      have : (2 ^ (600 : ℤ) + 2 ^ (600 : ℤ)) * (2 ^ (600 : ℤ) + 2 ^ (600 : ℤ)) = (2 : ℚ) ^ (1202 : ℤ) := by
        rw [← two_mul, show (1202 : ℤ) = (1 + 600) + (1 + 600) by norm_num, zpow_add₀ (by norm_num),
          zpow_add₀ (by norm_num)]
        norm_num
      rw [this]
      exact zpow_le_zpow_right₀ (by norm_num) (by decide)
    show Flt.div f64 (f64.round (b * b)) (Flt.mul f64 (Flt.mul f64 (Flt.add f64 (.fin b) (.fin b))
          (Flt.add f64 (.fin b) (.fin b))) (Flt.add f64 (Flt.add f64 (.fin b) (.fin b)) (.fin 1))) = .nan
    rw [es, ew, hbb]
    show Flt.div f64 (.inf false) (Flt.mul f64 (f64.round (s * s)) (.fin w)) = .nan
    rw [hss]
    show Flt.div f64 (.inf false) (if w = 0 then .nan else .inf (xor false (decide (w < 0)))) = .nan
    rw [if_neg hw0.ne']
    rfl

end Verif
