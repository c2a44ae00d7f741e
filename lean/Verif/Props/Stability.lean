import Verif.Lemmas.Scheffe
import Verif.Props.SumsDiscrete
import Verif.Props.Moments
import Verif.Props.Identifiable

/-!
# C128: a small change of the parameters changes every probability by little
-/

namespace Verif
open FloatOps XReal Spec MeasureTheory ProbabilityTheory Filter Topology

theorem continuousAt_Gamma_pos {s : ℝ} (h : 0 < s) : ContinuousAt Real.Gamma s :=
  (Real.differentiableAt_Gamma fun m => by have : (0 : ℝ) ≤ m := m.cast_nonneg; linarith).continuousAt

theorem eventually_pair {a b : ℝ} {Q : ℝ × ℝ → Prop} (h : ∀ᶠ q in 𝓝 (a, b), Q q) :
    ∃ δ > 0, ∀ a' b' : ℝ, |a' - a| < δ → |b' - b| < δ → Q (a', b') := by
  obtain ⟨δ, hδ, h⟩ := Metric.eventually_nhds_iff.mp h
  refine ⟨δ, hδ, fun a' b' h1 h2 => h ?_⟩
  rw [Prod.dist_eq]
  exact max_lt h1 h2

theorem eventually_one {a : ℝ} {Q : ℝ → Prop} (h : ∀ᶠ q in 𝓝 a, Q q) :
    ∃ δ > 0, ∀ a' : ℝ, |a' - a| < δ → Q a' := by
  obtain ⟨δ, hδ, h⟩ := Metric.eventually_nhds_iff.mp h
  exact ⟨δ, hδ, fun a' h1 => h h1⟩

theorem close_of_continuous {N X α : Type} [MeasurableSpace α] {m : MeasureTheory.Measure α} [HasLogDensity N X XReal]
    {emb : α → X} {ι : Type} [TopologicalSpace ι] [FirstCountableTopology ι] {D : ι → N} {i : ι}
    (hD : ∀ᶠ j in 𝓝 i, RegularLaw m emb (D j)) {pdf : ι → α → ℝ}
    (hp : ∀ᶠ j in 𝓝 i, ∀ a, density (logDensityWrtRoot (D j) (emb a) : XReal) = pdf j a)
    (hc : ∀ᵐ a ∂m, ContinuousAt (fun j => pdf j a) i) {ε : ℝ} (hε : 0 < ε) :
    ∀ᶠ j in 𝓝 i, Close (law m emb (D j)) (law m emb (D i)) ε := by
  refine law_close hD.self_of_nhds hD ?_ hε
  filter_upwards [hc] with a ha
  rw [hp.self_of_nhds a]
  exact ha.tendsto.congr' (hp.mono fun j hj => (hj a).symm)

/-- **C128** (continuous): for each distribution and each `ε` there is a `δ` such that the distributions of the
family whose parameters differ by less than `δ` give every event the same probability up to `ε`. -/
theorem C128_continuous (ε : ℝ) (hε : 0 < ε) :
    (∀ (μ σ : ℝ) (d : Normal XReal), Normal.new (fin μ) (fin σ) = .ok d →
      ∃ δ > 0, ∀ (μ' σ' : ℝ) (d' : Normal XReal), Normal.new (fin μ') (fin σ') = .ok d' →
        |μ' - μ| < δ → |σ' - σ| < δ → Close (law volume fin d') (law volume fin d) ε) ∧
    (∀ (r : ℝ) (d : Exponential XReal), Exponential.new (fin r) = .ok d →
      ∃ δ > 0, ∀ (r' : ℝ) (d' : Exponential XReal), Exponential.new (fin r') = .ok d' →
        |r' - r| < δ → Close (law volume fin d') (law volume fin d) ε) ∧
    (∀ (a b : ℝ) (d : Gamma XReal), Gamma.new (fin a) (fin b) = .ok d →
      ∃ δ > 0, ∀ (a' b' : ℝ) (d' : Gamma XReal), Gamma.new (fin a') (fin b') = .ok d' →
        |a' - a| < δ → |b' - b| < δ → Close (law volume fin d') (law volume fin d) ε) ∧
    (∀ (a b : ℝ) (d : Beta XReal), Beta.new (fin a) (fin b) = .ok d →
      ∃ δ > 0, ∀ (a' b' : ℝ) (d' : Beta XReal), Beta.new (fin a') (fin b') = .ok d' →
        |a' - a| < δ → |b' - b| < δ → Close (law volume fin d') (law volume fin d) ε) ∧
    (∀ (k : ℝ) (d : ChiSquared XReal), ChiSquared.new (fin k) = .ok d →
      ∃ δ > 0, ∀ (k' : ℝ) (d' : ChiSquared XReal), ChiSquared.new (fin k') = .ok d' →
        |k' - k| < δ → Close (law volume fin d') (law volume fin d) ε) ∧
    (∀ (l s : ℝ) (d : Cauchy XReal), Cauchy.new (fin l) (fin s) = .ok d →
      ∃ δ > 0, ∀ (l' s' : ℝ) (d' : Cauchy XReal), Cauchy.new (fin l') (fin s') = .ok d' →
        |l' - l| < δ → |s' - s| < δ → Close (law volume fin d') (law volume fin d) ε) ∧
    (∀ (ν : ℝ) (d : StudentT XReal), StudentT.new (fin ν) = .ok d →
      ∃ δ > 0, ∀ (ν' : ℝ) (d' : StudentT XReal), StudentT.new (fin ν') = .ok d' →
        |ν' - ν| < δ → Close (law volume fin d') (law volume fin d) ε) := by
  have hγ : ∀ (a b x : ℝ), 0 < a → 0 < b → ContinuousAt (fun q : ℝ × ℝ => gammaPDFReal q.1 q.2 x) (a, b) ∨ x = 0 := by
    intro a b x ha hb
    by_cases hx0 : x = 0
    · exact Or.inr hx0
    left
    unfold gammaPDFReal
    by_cases hx : 0 ≤ x
    · simp only [if_pos hx]
      have h1 : ContinuousAt (fun q : ℝ × ℝ => q.2 ^ q.1) (a, b) :=
        continuousAt_snd.rpow continuousAt_fst (Or.inl hb.ne')
      have h2 : ContinuousAt (fun q : ℝ × ℝ => Real.Gamma q.1) (a, b) :=
        ContinuousAt.comp (f := fun q : ℝ × ℝ => q.1) (continuousAt_Gamma_pos ha) continuousAt_fst
      have h3 : ContinuousAt (fun q : ℝ × ℝ => x ^ (q.1 - 1)) (a, b) :=
        continuousAt_const.rpow (continuousAt_fst.sub continuousAt_const) (Or.inl hx0)
      have h4 : ContinuousAt (fun q : ℝ × ℝ => Real.exp (-(q.2 * x))) (a, b) := by fun_prop
      exact ((h1.div h2 (Real.Gamma_pos_of_pos ha).ne').mul h3).mul h4
    · simp only [if_neg hx]; exact continuousAt_const
  refine ⟨?_, ?_, ?_, ?_, ?_, ?_, ?_⟩
  · intro μ σ d h
    obtain ⟨hs, rfl⟩ := Normal.new_ok h
    have hn : ∀ q : ℝ × ℝ, 0 < q.2 → Normal.new (fin q.1) (fin q.2) = .ok (⟨fin q.1, fin q.2⟩ : Normal XReal) := by
      intro q hq; simp [Normal.new, hq]
    have hpos : ∀ᶠ q : ℝ × ℝ in 𝓝 (μ, σ), 0 < q.2 := continuousAt_snd.eventually (lt_mem_nhds hs)
    refine Exists.elim (eventually_pair (close_of_continuous (D := fun q : ℝ × ℝ => (⟨fin q.1, fin q.2⟩ : Normal XReal))
      (m := volume) (emb := fin) (hpos.mono fun q hq => C122_regular.1 _ _ _ (hn q hq))
      (hpos.mono fun q hq => (C09_normal_density (hn q hq)).1) (Eventually.of_forall fun x => ?_) hε)) ?_
    rotate_left
    · rintro δ ⟨hδ, H⟩
      refine ⟨δ, hδ, fun μ' σ' d' h' h1 h2 => ?_⟩
      obtain ⟨hs', rfl⟩ := Normal.new_ok h'
      exact H μ' σ' h1 h2
    · unfold gaussianPDFReal
      have hv : ContinuousAt (fun q : ℝ × ℝ => ((q.2 ^ 2).toNNReal : ℝ)) (μ, σ) := by
        simp only [Real.coe_toNNReal']; fun_prop
      have hv0 : (((σ ^ 2).toNNReal : NNReal) : ℝ) ≠ 0 := by
        rw [Real.coe_toNNReal _ (by positivity)]; positivity
      have hv1 : 0 < (((σ ^ 2).toNNReal : NNReal) : ℝ) := lt_of_le_of_ne NNReal.zero_le_coe hv0.symm
      refine ContinuousAt.mul (ContinuousAt.inv₀ ?_ ?_) ?_
      · exact (continuousAt_const.mul hv).sqrt
      · exact (Real.sqrt_pos.mpr (by positivity)).ne'
      · refine ContinuousAt.rexp (ContinuousAt.div ?_ (continuousAt_const.mul hv) (by positivity))
        fun_prop
  · intro r d h
    obtain ⟨hr, rfl⟩ := Exponential.new_ok h
    have hn : ∀ q : ℝ, 0 < q → Exponential.new (fin q) = .ok (⟨fin q⟩ : Exponential XReal) := by
      intro q hq; simp [Exponential.new, hq]
    have hpos : ∀ᶠ q : ℝ in 𝓝 r, 0 < q := lt_mem_nhds hr
    refine Exists.elim (eventually_one (close_of_continuous (D := fun q : ℝ => (⟨fin q⟩ : Exponential XReal))
      (m := volume) (emb := fin) (hpos.mono fun q hq => C122_regular.2.1 _ _ (hn q hq))
      (hpos.mono fun q hq => (C10_exponential_density (hn q hq)).2.2.1) ?_ hε)) ?_
    rotate_left
    · rintro δ ⟨hδ, H⟩
      refine ⟨δ, hδ, fun r' d' h' h1 => ?_⟩
      obtain ⟨-, rfl⟩ := Exponential.new_ok h'
      exact H r' h1
    · filter_upwards [volume.ae_ne (0 : ℝ)] with x hx
      exact ContinuousAt.comp (f := fun q : ℝ => ((1, q) : ℝ × ℝ)) ((hγ 1 r x one_pos hr).resolve_right hx)
        (by fun_prop)
  · intro a b d h
    obtain ⟨ha, hb, rfl⟩ := Gamma.new_ok h
    have hn : ∀ q : ℝ × ℝ, 0 < q.1 ∧ 0 < q.2 → Gamma.new (fin q.1) (fin q.2) = .ok (⟨fin q.1, fin q.2⟩ : Gamma XReal) := by
      intro q hq; simp [Gamma.new, hq.1, hq.2]
    have hpos : ∀ᶠ q : ℝ × ℝ in 𝓝 (a, b), 0 < q.1 ∧ 0 < q.2 :=
      (continuousAt_fst.eventually (lt_mem_nhds ha)).and (continuousAt_snd.eventually (lt_mem_nhds hb))
    refine Exists.elim (eventually_pair (law_close (D := fun q : ℝ × ℝ => (⟨fin q.1, fin q.2⟩ : Gamma XReal))
      (μ := volume) (emb := fin) (l := 𝓝 (a, b)) (C122_regular.2.2.1 _ _ _ h)
      (hpos.mono fun q hq => C122_regular.2.2.1 _ _ _ (hn q hq)) ?_ hε)) ?_
    rotate_left
    · rintro δ ⟨hδ, H⟩
      refine ⟨δ, hδ, fun a' b' d' h' h1 h2 => ?_⟩
      obtain ⟨-, -, rfl⟩ := Gamma.new_ok h'
      exact H a' b' h1 h2
    · filter_upwards [volume.ae_ne (0 : ℝ)] with x hx
      rw [(C11_gamma_density h).1 x hx]
      exact ((hγ a b x ha hb).resolve_right hx).tendsto.congr'
        (hpos.mono fun q hq => ((C11_gamma_density (hn q hq)).1 x hx).symm)
  · intro a b d h
    obtain ⟨ha, hb, rfl⟩ := Beta.new_ok h
    have hn : ∀ q : ℝ × ℝ, 0 < q.1 ∧ 0 < q.2 → Beta.new (fin q.1) (fin q.2) = .ok (⟨fin q.1, fin q.2⟩ : Beta XReal) := by
      intro q hq; simp [Beta.new, hq.1, hq.2]
    have hpos : ∀ᶠ q : ℝ × ℝ in 𝓝 (a, b), 0 < q.1 ∧ 0 < q.2 :=
      (continuousAt_fst.eventually (lt_mem_nhds ha)).and (continuousAt_snd.eventually (lt_mem_nhds hb))
    refine Exists.elim (eventually_pair (close_of_continuous (D := fun q : ℝ × ℝ => (⟨fin q.1, fin q.2⟩ : Beta XReal))
      (m := volume) (emb := fin) (hpos.mono fun q hq => C122_regular.2.2.2.1 _ _ _ (hn q hq))
      (hpos.mono fun q hq => (C12_beta_density (hn q hq)).1) (Eventually.of_forall fun x => ?_) hε)) ?_
    rotate_left
    · rintro δ ⟨hδ, H⟩
      refine ⟨δ, hδ, fun a' b' d' h' h1 h2 => ?_⟩
      obtain ⟨-, -, rfl⟩ := Beta.new_ok h'
      exact H a' b' h1 h2
    · unfold betaPDFReal
      by_cases hx : 0 < x ∧ x < 1
      · simp only [if_pos hx]
        unfold ProbabilityTheory.beta
        have g1 : ContinuousAt (fun q : ℝ × ℝ => Real.Gamma q.1) (a, b) :=
          ContinuousAt.comp (f := fun q : ℝ × ℝ => q.1) (continuousAt_Gamma_pos ha) continuousAt_fst
        have g2 : ContinuousAt (fun q : ℝ × ℝ => Real.Gamma q.2) (a, b) :=
          ContinuousAt.comp (f := fun q : ℝ × ℝ => q.2) (continuousAt_Gamma_pos hb) continuousAt_snd
        have g3 : ContinuousAt (fun q : ℝ × ℝ => Real.Gamma (q.1 + q.2)) (a, b) :=
          ContinuousAt.comp (f := fun q : ℝ × ℝ => q.1 + q.2) (continuousAt_Gamma_pos (add_pos ha hb)) (by fun_prop)
        have p1 := Real.Gamma_pos_of_pos ha
        have p2 := Real.Gamma_pos_of_pos hb
        have p3 := Real.Gamma_pos_of_pos (add_pos ha hb)
        refine ((continuousAt_const.div ((g1.mul g2).div g3 p3.ne') (div_pos (mul_pos p1 p2) p3).ne').mul ?_).mul ?_
        · exact continuousAt_const.rpow (continuousAt_fst.sub continuousAt_const) (Or.inl hx.1.ne')
        · exact continuousAt_const.rpow (continuousAt_snd.sub continuousAt_const) (Or.inl (by linarith [hx.2]))
      · simp only [if_neg hx]; exact continuousAt_const
  · intro k d h
    obtain ⟨hk, rfl⟩ := ChiSquared.new_ok h
    have hn : ∀ q : ℝ, 0 < q → ChiSquared.new (fin q) = .ok (⟨fin q⟩ : ChiSquared XReal) := by
      intro q hq; simp [ChiSquared.new, hq]
    have hg : ∀ q : ℝ, 0 < q → Gamma.new (fin (q/2)) (fin (1/2)) = .ok (⟨fin (q/2), fin (1/2)⟩ : Gamma XReal) := by
      intro q hq; simp [Gamma.new, hq]
    have hd : ∀ q : ℝ, 0 < q → ∀ x : ℝ, x ≠ 0 → density (logDensityWrtRoot (⟨fin q⟩ : ChiSquared XReal) (fin x) : XReal)
        = gammaPDFReal (q/2) (1/2) x := by
      intro q hq x hx
      rw [(C13_chi_squared_is_gamma (hn q hq) (hg q hq)).2.1 x]
      exact (C11_gamma_density (hg q hq)).1 x hx
    have hpos : ∀ᶠ q : ℝ in 𝓝 k, 0 < q := lt_mem_nhds hk
    refine Exists.elim (eventually_one (law_close (D := fun q : ℝ => (⟨fin q⟩ : ChiSquared XReal))
      (μ := volume) (emb := fin) (l := 𝓝 k) (C122_regular.2.2.2.2.1 _ _ h)
      (hpos.mono fun q hq => C122_regular.2.2.2.2.1 _ _ (hn q hq)) ?_ hε)) ?_
    rotate_left
    · rintro δ ⟨hδ, H⟩
      refine ⟨δ, hδ, fun k' d' h' h1 => ?_⟩
      obtain ⟨-, rfl⟩ := ChiSquared.new_ok h'
      exact H k' h1
    · filter_upwards [volume.ae_ne (0 : ℝ)] with x hx
      rw [hd k hk x hx]
      have hc : ContinuousAt (fun q : ℝ => gammaPDFReal (q/2) (1/2) x) k :=
        ContinuousAt.comp (f := fun q : ℝ => ((q/2, 1/2) : ℝ × ℝ))
          ((hγ (k/2) (1/2) x (by positivity) (by norm_num)).resolve_right hx) (by fun_prop)
      exact hc.tendsto.congr' (hpos.mono fun q hq => (hd q hq x hx).symm)
  · intro l s d h
    obtain ⟨hs, rfl⟩ := Cauchy.new_ok h
    have hn : ∀ q : ℝ × ℝ, 0 < q.2 → Cauchy.new (fin q.1) (fin q.2) = .ok (⟨fin q.1, fin q.2⟩ : Cauchy XReal) := by
      intro q hq; simp [Cauchy.new, hq]
    have hpos : ∀ᶠ q : ℝ × ℝ in 𝓝 (l, s), 0 < q.2 := continuousAt_snd.eventually (lt_mem_nhds hs)
    refine Exists.elim (eventually_pair (close_of_continuous (D := fun q : ℝ × ℝ => (⟨fin q.1, fin q.2⟩ : Cauchy XReal))
      (m := volume) (emb := fin) (hpos.mono fun q hq => C122_regular.2.2.2.2.2.1 _ _ _ (hn q hq))
      (hpos.mono fun q hq => (C14_cauchy_density (hn q hq)).1) (Eventually.of_forall fun x => ?_) hε)) ?_
    rotate_left
    · rintro δ ⟨hδ, H⟩
      refine ⟨δ, hδ, fun l' s' d' h' h1 h2 => ?_⟩
      obtain ⟨-, rfl⟩ := Cauchy.new_ok h'
      exact H l' s' h1 h2
    · unfold cauchyPDFReal
      have hv : ContinuousAt (fun q : ℝ × ℝ => (q.2.toNNReal : ℝ)) (l, s) := by
        simp only [Real.coe_toNNReal']; fun_prop
      have hv0 : 0 < ((s.toNNReal : NNReal) : ℝ) := by rw [Real.coe_toNNReal _ hs.le]; exact hs
      refine (continuousAt_const.mul hv).mul (ContinuousAt.inv₀ ?_ (by positivity))
      exact ContinuousAt.add (by fun_prop) (hv.pow 2)
  · intro ν d h
    obtain ⟨hs, rfl⟩ := StudentT.new_ok h
    have hn : ∀ q : ℝ, 0 < q → StudentT.new (fin q) = .ok (⟨fin q⟩ : StudentT XReal) := by
      intro q hq; simp [StudentT.new, hq]
    have hpos : ∀ᶠ q : ℝ in 𝓝 ν, 0 < q := lt_mem_nhds hs
    refine Exists.elim (eventually_one (close_of_continuous (D := fun q : ℝ => (⟨fin q⟩ : StudentT XReal))
      (m := volume) (emb := fin) (hpos.mono fun q hq => C122_regular.2.2.2.2.2.2.1 _ _ (hn q hq))
      (hpos.mono fun q hq => (C15_student_t_density (hn q hq)).1) (Eventually.of_forall fun x => ?_) hε)) ?_
    rotate_left
    · rintro δ ⟨hδ, H⟩
      refine ⟨δ, hδ, fun ν' d' h' h1 => ?_⟩
      obtain ⟨-, rfl⟩ := StudentT.new_ok h'
      exact H ν' h1
    · unfold studentTPDFReal
      have g1 : ContinuousAt (fun q : ℝ => Real.Gamma ((q + 1) / 2)) ν :=
        ContinuousAt.comp (f := fun q : ℝ => (q + 1) / 2) (continuousAt_Gamma_pos (by positivity)) (by fun_prop)
      have g2 : ContinuousAt (fun q : ℝ => Real.Gamma (q / 2)) ν :=
        ContinuousAt.comp (f := fun q : ℝ => q / 2) (continuousAt_Gamma_pos (by positivity)) (by fun_prop)
      have p2 : 0 < Real.Gamma (ν / 2) := Real.Gamma_pos_of_pos (by positivity)
      have p3 : 0 < √(ν * Real.pi) := Real.sqrt_pos.mpr (by positivity)
      refine (g1.div (ContinuousAt.mul ?_ g2) (mul_pos p3 p2).ne').mul (ContinuousAt.rpow ?_ ?_ (Or.inl ?_))
      · exact ContinuousAt.sqrt (by fun_prop)
      · exact continuousAt_const.add (continuousAt_const.div continuousAt_id hs.ne')
      · fun_prop
      · positivity

theorem Binomial.withBase_density {n : ℕ} {p : ℝ} (h0 : 0 < p) (h1 : p < 1) (k : ℕ) :
    density (logDensityWrtRoot (⟨n, fin p⟩ : Binomial XReal).withBase (id k) : XReal)
      = if k ≤ n then n.choose k * p ^ k * (1 - p) ^ (n - k) else 0 := by
  have hn : Binomial.new n (fin p) = .ok (⟨n, fin p⟩ : Binomial XReal) := by simp [Binomial.new, h0.le, h1.le]
  rw [id]
  split_ifs with hk
  · rw [← (C20_binomial_pmf_partial hn h0.ne' h1.ne).1 k hk]
    congr 1
    exact XReal.add_comm' _ _
  · rw [(Binomial.withBase_ld h0 h1 k).2 (not_le.mp hk)]; rfl

theorem NegativeBinomial.withBase_density {r : ℕ} {p : ℝ} (hr : 0 < r) (h0 : 0 < p) (h1 : p < 1) (k : ℕ) :
    density (logDensityWrtRoot (⟨r, fin p⟩ : NegativeBinomial XReal).withBase (id k) : XReal)
      = (k + r - 1).choose k * p ^ r * (1 - p) ^ k := by
  have hn : NegativeBinomial.new r (fin p) = .ok (⟨r, fin p⟩ : NegativeBinomial XReal) := by
    simp [NegativeBinomial.new, h0, h1, hr.ne']
  rw [id, ← (C21_negative_binomial_pmf_partial hn).1 k]
  congr 1
  exact XReal.add_comm' _ _

/-- **C128** (discrete): the same for counts. The geometric distribution with probability one, and the binomial
distributions with probability zero and one, are left out (their log-masses are NaN, C17, C20). -/
theorem C128_discrete_partial (ε : ℝ) (hε : 0 < ε) :
    (∀ (r : ℝ) (d : Poisson XReal), Poisson.new (fin r) = .ok d →
      ∃ δ > 0, ∀ (r' : ℝ) (d' : Poisson XReal), Poisson.new (fin r') = .ok d' →
        |r' - r| < δ → Close (law Measure.count (id : ℕ → ℕ) d') (law Measure.count id d) ε) ∧
    (∀ (p : ℝ) (d : Geometric XReal), Geometric.new (fin p) = .ok d → p ≠ 1 →
      ∃ δ > 0, ∀ (p' : ℝ) (d' : Geometric XReal), Geometric.new (fin p') = .ok d' →
        |p' - p| < δ → Close (law Measure.count (id : ℕ → ℕ) d') (law Measure.count id d) ε) ∧
    (∀ (n : ℕ) (p : ℝ) (d : Binomial XReal), Binomial.new n (fin p) = .ok d → p ≠ 0 → p ≠ 1 →
      ∃ δ > 0, ∀ (p' : ℝ) (d' : Binomial XReal), Binomial.new n (fin p') = .ok d' →
        |p' - p| < δ → Close (law Measure.count (id : ℕ → ℕ) d'.withBase) (law Measure.count id d.withBase) ε) ∧
    (∀ (r : ℕ) (p : ℝ) (d : NegativeBinomial XReal), NegativeBinomial.new r (fin p) = .ok d →
      ∃ δ > 0, ∀ (p' : ℝ) (d' : NegativeBinomial XReal), NegativeBinomial.new r (fin p') = .ok d' →
        |p' - p| < δ → Close (law Measure.count (id : ℕ → ℕ) d'.withBase) (law Measure.count id d.withBase) ε) := by
  refine ⟨?_, ?_, ?_, ?_⟩
  · intro r d h
    obtain ⟨hr, rfl⟩ := Poisson.new_ok h
    have hn : ∀ q : ℝ, 0 < q → Poisson.new (fin q) = .ok (⟨fin q⟩ : Poisson XReal) := by
      intro q hq; simp [Poisson.new, hq]
    have hpos : ∀ᶠ q : ℝ in 𝓝 r, 0 < q := lt_mem_nhds hr
    refine Exists.elim (eventually_one (close_of_continuous (D := fun q : ℝ => (⟨fin q⟩ : Poisson XReal))
      (m := Measure.count) (emb := (id : ℕ → ℕ)) (hpos.mono fun q hq => C122_regular.2.2.2.2.2.2.2.2 _ _ (hn q hq))
      (hpos.mono fun q hq => (C18_poisson_pmf (hn q hq)).1) (Eventually.of_forall fun k => ?_) hε)) ?_
    · fun_prop
    · rintro δ ⟨hδ, H⟩
      refine ⟨δ, hδ, fun r' d' h' h1 => ?_⟩
      obtain ⟨-, rfl⟩ := Poisson.new_ok h'
      exact H r' h1
  · intro p d h hp1
    obtain ⟨⟨h0, h1⟩, rfl⟩ := Geometric.new_ok h
    have hp1 : p < 1 := lt_of_le_of_ne h1 hp1
    have hn : ∀ q : ℝ, 0 < q ∧ q < 1 → Geometric.new (fin q) = .ok (⟨fin q⟩ : Geometric XReal) := by
      intro q hq; simp [Geometric.new, hq.1, hq.2.le]
    have hpos : ∀ᶠ q : ℝ in 𝓝 p, 0 < q ∧ q < 1 := (lt_mem_nhds h0).and (gt_mem_nhds hp1)
    have hd : ∀ q : ℝ, 0 < q ∧ q < 1 → ∀ k : ℕ, density (logDensityWrtRoot (⟨fin q⟩ : Geometric XReal) (id k) : XReal)
        = if k = 0 then 0 else (1 - q) ^ (k - 1) * q := by
      intro q hq k
      obtain ⟨e1, e2, -⟩ := C17_geometric_pmf_partial (hn q hq) hq.2.ne
      rcases Nat.eq_zero_or_pos k with rfl | hk
      · rw [if_pos rfl, id, e2]; rfl
      · rw [if_neg hk.ne']; exact e1 k hk
    refine Exists.elim (eventually_one (close_of_continuous (D := fun q : ℝ => (⟨fin q⟩ : Geometric XReal))
      (m := Measure.count) (emb := (id : ℕ → ℕ))
      (hpos.mono fun q hq => C122_regular.2.2.2.2.2.2.2.1 _ _ (hn q hq) hq.2.ne)
      (hpos.mono fun q hq => hd q hq) (Eventually.of_forall fun k => ?_) hε)) ?_
    · by_cases hk : k = 0
      · simp only [if_pos hk]; exact continuousAt_const
      · simp only [if_neg hk]; fun_prop
    · rintro δ ⟨hδ, H⟩
      refine ⟨δ, hδ, fun r' d' h' h1 => ?_⟩
      obtain ⟨-, rfl⟩ := Geometric.new_ok h'
      exact H r' h1
  · intro n p d h hp0 hp1
    obtain ⟨⟨h0, h1⟩, rfl⟩ := Binomial.new_ok h
    have hp0 : 0 < p := lt_of_le_of_ne h0 hp0.symm
    have hp1 : p < 1 := lt_of_le_of_ne h1 hp1
    have hpos : ∀ᶠ q : ℝ in 𝓝 p, 0 < q ∧ q < 1 := (lt_mem_nhds hp0).and (gt_mem_nhds hp1)
    refine Exists.elim (eventually_one (close_of_continuous
      (D := fun q : ℝ => (⟨n, fin q⟩ : Binomial XReal).withBase)
      (m := Measure.count) (emb := (id : ℕ → ℕ))
      (hpos.mono fun q hq => Binomial.regular hq.1 hq.2)
      (hpos.mono fun q hq => Binomial.withBase_density hq.1 hq.2) (Eventually.of_forall fun k => ?_) hε)) ?_
    · by_cases hk : k ≤ n
      · simp only [if_pos hk]; fun_prop
      · simp only [if_neg hk]; exact continuousAt_const
    · rintro δ ⟨hδ, H⟩
      refine ⟨δ, hδ, fun r' d' h' h1 => ?_⟩
      obtain ⟨-, rfl⟩ := Binomial.new_ok h'
      exact H r' h1
  · intro r p d h
    obtain ⟨hr, ⟨hp0, hp1⟩, rfl⟩ := NegativeBinomial.new_ok h
    have hpos : ∀ᶠ q : ℝ in 𝓝 p, 0 < q ∧ q < 1 := (lt_mem_nhds hp0).and (gt_mem_nhds hp1)
    refine Exists.elim (eventually_one (close_of_continuous
      (D := fun q : ℝ => (⟨r, fin q⟩ : NegativeBinomial XReal).withBase)
      (m := Measure.count) (emb := (id : ℕ → ℕ))
      (hpos.mono fun q hq => NegativeBinomial.regular hr hq.1 hq.2)
      (hpos.mono fun q hq => NegativeBinomial.withBase_density hr hq.1 hq.2) (Eventually.of_forall fun k => ?_) hε)) ?_
    · fun_prop
    · rintro δ ⟨hδ, H⟩
      refine ⟨δ, hδ, fun r' d' h' h1 => ?_⟩
      obtain ⟨-, -, rfl⟩ := NegativeBinomial.new_ok h'
      exact H r' h1

theorem law_real_tsum {M X α : Type} [MeasurableSpace α] [MeasurableSingletonClass α] [HasLogDensity M X XReal]
    (emb : α → X) (m : M) (hp : ∀ a, 0 ≤ density (logDensityWrtRoot m (emb a) : XReal)) {A : Set α} (hA : MeasurableSet A) :
    (law Measure.count emb m).real A
      = ∑' a, A.indicator (fun a => density (logDensityWrtRoot m (emb a) : XReal)) a := by
  rw [Measure.real, law, withDensity_apply _ hA, ← lintegral_indicator hA, lintegral_count, ENNReal.tsum_toReal_eq]
  · refine tsum_congr fun a => ?_
    by_cases ha : a ∈ A
    · rw [Set.indicator_of_mem ha, Set.indicator_of_mem ha, ENNReal.toReal_ofReal (hp a)]
    · rw [Set.indicator_of_notMem ha, Set.indicator_of_notMem ha]; rfl
  · intro a
    by_cases ha : a ∈ A
    · rw [Set.indicator_of_mem ha]; exact ENNReal.ofReal_ne_top
    · rw [Set.indicator_of_notMem ha]; exact ENNReal.zero_ne_top

/-- **C128** (Bernoulli and categorical): the probabilities of all events differ by at most the difference of the
success probabilities, which is attained; for categorical distributions by at most the sum of the differences
(missing categories count as probability zero). -/
theorem C128_finite :
    (∀ (p p' : ℝ) (d d' : Bernoulli XReal), Bernoulli.new (fin p) = .ok d → Bernoulli.new (fin p') = .ok d' →
      Close (law Measure.count byteOf d') (law Measure.count byteOf d) |p' - p| ∧
      |(law Measure.count byteOf d').real {1} - (law Measure.count byteOf d).real {1}| = |p' - p|) ∧
    (∀ (ps ps' : List ℝ) (d d' : Categorical XReal), Categorical.new (ps.map fin) = .ok d →
      Categorical.new (ps'.map fin) = .ok d' →
      Close (law Measure.count (id : ℕ → ℕ) d') (law Measure.count id d)
        (∑ i ∈ Finset.range (max ps.length ps'.length), |ps'.getD i 0 - ps.getD i 0|)) := by
  refine ⟨?_, ?_⟩
  · have key : ∀ (p : ℝ) (d : Bernoulli XReal), Bernoulli.new (fin p) = .ok d → ∀ A : Set (Fin 256), MeasurableSet A →
        (law Measure.count byteOf d).real A = A.indicator (fun _ => p) 1 + A.indicator (fun _ => 1 - p) 0 := by
      intro p d h A hA
      have k := (C16_bernoulli_pmf h).1
      obtain ⟨⟨h0, h1⟩, rfl⟩ := Bernoulli.new_ok h
      have kd : ∀ a : Fin 256, density (logDensityWrtRoot (⟨fin p⟩ : Bernoulli XReal) (byteOf a) : XReal)
          = if a = 1 then p else if a = 0 then 1 - p else 0 := by
        intro a
        rw [k]
        simp only [byteOf_eq_zero, byteOf_eq_one]
      rw [law_real_tsum _ _ (fun a => by rw [kd]; split_ifs <;> linarith) hA, tsum_fintype,
        ← Finset.add_sum_erase _ _ (Finset.mem_univ (1 : Fin 256)),
        ← Finset.add_sum_erase _ _ (Finset.mem_erase.mpr ⟨by decide, Finset.mem_univ (0 : Fin 256)⟩),
        Finset.sum_eq_zero, add_zero]
      · congr 1
        · by_cases h : (1 : Fin 256) ∈ A
          · rw [Set.indicator_of_mem h, Set.indicator_of_mem h, kd, if_pos rfl]
          · rw [Set.indicator_of_notMem h, Set.indicator_of_notMem h]
        · by_cases h : (0 : Fin 256) ∈ A
          · rw [Set.indicator_of_mem h, Set.indicator_of_mem h, kd, if_neg (by decide), if_pos rfl]
          · rw [Set.indicator_of_notMem h, Set.indicator_of_notMem h]
      · intro a ha
        simp only [Finset.mem_erase, Finset.mem_univ, and_true] at ha
        by_cases h : a ∈ A
        · rw [Set.indicator_of_mem h, kd, if_neg ha.2, if_neg ha.1]
        · rw [Set.indicator_of_notMem h]
    intro p p' d d' h h'
    refine ⟨fun A hA => ?_, ?_⟩
    · rw [key p d h A hA, key p' d' h' A hA]
      by_cases h1 : (1 : Fin 256) ∈ A <;> by_cases h0 : (0 : Fin 256) ∈ A
      · simp only [Set.indicator_of_mem h1, Set.indicator_of_mem h0]
        rw [show p' + (1 - p') - (p + (1 - p)) = 0 by ring, abs_zero]; exact abs_nonneg _
      · simp only [Set.indicator_of_mem h1, Set.indicator_of_notMem h0]
        rw [add_zero, add_zero]
      · simp only [Set.indicator_of_notMem h1, Set.indicator_of_mem h0]
        rw [show 0 + (1 - p') - (0 + (1 - p)) = -(p' - p) by ring, abs_neg]
      · simp only [Set.indicator_of_notMem h1, Set.indicator_of_notMem h0]
        simp
    · rw [key p d h _ (measurableSet_singleton _), key p' d' h' _ (measurableSet_singleton _)]
      have h0 : (0 : Fin 256) ∉ ({1} : Set (Fin 256)) := by simp
      simp only [Set.indicator_of_mem (Set.mem_singleton (1 : Fin 256)), Set.indicator_of_notMem h0, add_zero]
  · intro ps ps' d d' h h' A hA
    have k := Categorical.density_getD h
    have k' := Categorical.density_getD h'
    have hpos := (Categorical.new_ok h).2.1
    have hpos' := (Categorical.new_ok h').2.1
    have nn : ∀ (qs : List ℝ), (∀ p ∈ qs, 0 ≤ p) → ∀ i : ℕ, 0 ≤ qs.getD i 0 := by
      intro qs hq i
      rcases lt_or_ge i qs.length with hi | hi
      · rw [List.getD_eq_getElem _ _ hi]; exact hq _ (List.getElem_mem hi)
      · rw [List.getD_eq_default _ _ hi]
    have sum_eq : ∀ (qs : List ℝ) (c : Categorical XReal), (∀ i : ℕ, density (logDensityWrtRoot c i : XReal) = qs.getD i 0) →
        (∀ p ∈ qs, 0 ≤ p) → qs.length ≤ max ps.length ps'.length → (law Measure.count (id : ℕ → ℕ) c).real A
          = ∑ i ∈ Finset.range (max ps.length ps'.length), A.indicator (fun i => qs.getD i 0) i := by
      intro qs c hc hq hl
      rw [law_real_tsum _ _ (fun a => by rw [id, hc]; exact nn qs hq a) hA, tsum_eq_sum (s := Finset.range (max ps.length ps'.length))]
      · refine Finset.sum_congr rfl fun i _ => ?_
        simp only [id, hc]
      · intro i hi
        simp only [id, hc]
        have : qs.getD i 0 = 0 := List.getD_eq_default _ _ (hl.trans (by simpa using hi))
        by_cases h : i ∈ A
        · rw [Set.indicator_of_mem h, this]
        · rw [Set.indicator_of_notMem h]
    rw [sum_eq ps d k hpos (le_max_left _ _), sum_eq ps' d' k' hpos' (le_max_right _ _), ← Finset.sum_sub_distrib]
    refine (Finset.abs_sum_le_sum_abs _ _).trans (Finset.sum_le_sum fun i _ => ?_)
    by_cases h : i ∈ A
    · rw [Set.indicator_of_mem h, Set.indicator_of_mem h]
    · rw [Set.indicator_of_notMem h, Set.indicator_of_notMem h, sub_zero, abs_zero]; exact abs_nonneg _

/-- **C128 is violated at the end of the parameter range of the geometric distribution.** With probability one
the log-masses describe no distribution: the whole space gets 0, and 1 for every smaller probability. -/
theorem C128_geometric_violated :
    ∃ d : Geometric XReal, Geometric.new (fin 1) = .ok d ∧
      ∀ (p : ℝ) (d' : Geometric XReal), Geometric.new (fin p) = .ok d' → p ≠ 1 →
        (law Measure.count (id : ℕ → ℕ) d).real Set.univ = 0 ∧ (law Measure.count (id : ℕ → ℕ) d').real Set.univ = 1 := by
  refine ⟨⟨fin 1⟩, by simp [Geometric.new], fun p d' h hp => ⟨?_, ?_⟩⟩
  · have h0 : ∀ k : ℕ, ENNReal.ofReal (density (logDensityWrtRoot (⟨fin 1⟩ : Geometric XReal) k : XReal)) = 0 := by
      intro k
      rw [ENNReal.ofReal_eq_zero]
      rcases k with _ | _ | k
      · simp [logDensityWrtRoot, density]
      · have : (logDensityWrtRoot (⟨fin 1⟩ : Geometric XReal) 1 : XReal) = XReal.nan := by
          obtain ⟨d, hd, hn⟩ := C17_geometric_one_violated
          obtain ⟨-, rfl⟩ := Geometric.new_ok hd
          exact hn
        rw [show (0 + 1 : ℕ) = 1 from rfl, this]; norm_num [density]
      · have e1 : (logDensityWrtRoot (⟨fin 1⟩ : Geometric XReal) (k + 1 + 1) : XReal) = ninf := by
          have hm : (fin ((k : ℝ) + 1) *. ninf) = (ninf : XReal) := by
            show XReal.mul (fin ((k : ℝ) + 1)) ninf = ninf
            have h1 : ¬ (k : ℝ) < -1 := by have : (0 : ℝ) ≤ k := k.cast_nonneg; linarith
            have h2 : (-1 : ℝ) < k := by have : (0 : ℝ) ≤ k := k.cast_nonneg; linarith
            simp [XReal.mul, infOf, h1, h2]
          have hl : (FloatOps.ln (fin 1) : XReal) = fin 0 := by rw [f_ln 1 one_pos, Real.log_one]
          simp [logDensityWrtRoot, hm, hl]
        rw [e1]; simp [density]
    rw [Measure.real, law, withDensity_apply _ MeasurableSet.univ]
    simp only [id, h0, lintegral_zero]; rfl
  · have hr := C122_regular.2.2.2.2.2.2.2.1 _ _ h hp
    rw [Measure.real, law, withDensity_apply _ MeasurableSet.univ, Measure.restrict_univ]
    have h1 : (∫⁻ k, ENNReal.ofReal (density (logDensityWrtRoot d' (id k) : XReal)) ∂(Measure.count : MeasureTheory.Measure ℕ)) = 1 :=
      hr.mass_one
    rw [h1]; rfl

/-- **C128 is violated at both ends of the parameter range of the binomial distribution.** With probability zero
or one the log-masses describe no distribution, whatever the number of trials: the whole space gets 0, and 1 for
every probability in between. -/
theorem C128_binomial_violated (n : ℕ) (p : ℝ) (hp : p = 0 ∨ p = 1) :
    ∃ d : Binomial XReal, Binomial.new n (fin p) = .ok d ∧
      (law Measure.count (id : ℕ → ℕ) d.withBase).real Set.univ = 0 ∧
      ∀ (p' : ℝ) (d' : Binomial XReal), Binomial.new n (fin p') = .ok d' → p' ≠ 0 → p' ≠ 1 →
        (law Measure.count (id : ℕ → ℕ) d'.withBase).real Set.univ = 1 := by
  refine ⟨⟨n, fin p⟩, by rcases hp with rfl | rfl <;> simp [Binomial.new], ?_, fun p' d' h h0 h1 => ?_⟩
  · have h0 : ∀ k : ℕ, ENNReal.ofReal
        (density (logDensityWrtRoot (⟨n, fin p⟩ : Binomial XReal).withBase k : XReal)) = 0 := by
      intro k
      rw [ENNReal.ofReal_eq_zero]
      have hd : (logDensityWrtRoot (⟨n, fin p⟩ : Binomial XReal).withBase k : XReal) =
          logDensityWrtRoot (⟨n⟩ : BinomialCoefficientMeasure XReal) k
            +. logDensityWrtRoot (⟨n, fin p⟩ : Binomial XReal) k := rfl
      rw [hd]
      rcases lt_or_ge n k with hk | hk
      · have e2 : (logDensityWrtRoot (⟨n, fin p⟩ : Binomial XReal) k : XReal) = ninf := by
          simp [logDensityWrtRoot, not_le.mpr hk]
        have e1 : (logDensityWrtRoot (⟨n⟩ : BinomialCoefficientMeasure XReal) k : XReal) = ninf := by
          simp [logDensityWrtRoot, hk]
        rw [e1, e2]
        have : (ninf +. ninf : XReal) = ninf := rfl
        rw [this]; simp [density]
      · have e1 : (logDensityWrtRoot (⟨n⟩ : BinomialCoefficientMeasure XReal) k : XReal)
            = fin (Real.log (n.choose k)) := by
          simp [logDensityWrtRoot, not_lt.mpr hk, logBinomialCoefficient_fin hk]
        have hl1 : (FloatOps.ln (fin 1) : XReal) = fin 0 := by rw [f_ln 1 one_pos, Real.log_one]
        have hl0 : (FloatOps.ln (fin 0) : XReal) = ninf := by
          show XReal.ln (fin 0) = ninf
          simp [XReal.ln]
        have hz : (fin 0 *. ninf : XReal) = XReal.nan := by
          show XReal.mul (fin 0) ninf = XReal.nan
          simp [XReal.mul, infOf]
        have hpos : ∀ a : ℝ, 0 < a → (fin a *. ninf : XReal) = ninf := by
          intro a ha
          show XReal.mul (fin a) ninf = ninf
          simp [XReal.mul, infOf, ha, not_lt.2 ha.le]
        have hfin : ∀ a b : ℝ, (fin a *. fin b : XReal) = fin (a * b) := fun a b => f_mul a b
        have e2 : (logDensityWrtRoot (⟨n, fin p⟩ : Binomial XReal) k : XReal) = ninf ∨
            (logDensityWrtRoot (⟨n, fin p⟩ : Binomial XReal) k : XReal) = XReal.nan := by
          rcases hp with rfl | rfl
          · rcases Nat.eq_zero_or_pos k with rfl | hk0
            · right
              simp [logDensityWrtRoot, hl0, hz, hl1]
            · left
              have : (0 : ℝ) < k := by exact_mod_cast hk0
              simp [logDensityWrtRoot, hl0, hpos _ this, hl1, hk]
          · rcases hk.lt_or_eq with hlt | rfl
            · left
              have : (0 : ℝ) < (n : ℝ) - k := sub_pos.2 (by exact_mod_cast hlt)
              simp [logDensityWrtRoot, hl0, hpos _ this, hl1, hk]
            · right
              simp [logDensityWrtRoot, hl0, hz, hl1]
        rcases e2 with e2 | e2
        · rw [e1, e2]
          have : (fin (Real.log (n.choose k)) +. ninf : XReal) = ninf := rfl
          rw [this]; simp [density]
        · rw [e1, e2]
          have : (fin (Real.log (n.choose k)) +. XReal.nan : XReal) = XReal.nan := rfl
          rw [this]; norm_num [density]
    rw [Measure.real, law, withDensity_apply _ MeasurableSet.univ]
    simp only [id, h0, lintegral_zero]; rfl
  · obtain ⟨⟨a, b⟩, rfl⟩ := Binomial.new_ok h
    have hr := Binomial.regular (n := n) (lt_of_le_of_ne a (Ne.symm h0)) (lt_of_le_of_ne b h1)
    have pr := law_prob _ _ _ hr
    exact probReal_univ

/-! ## The hypotheses are satisfiable -/

/-- two different Student distributions and two different binomial distributions -/
example : ∃ (d d' : StudentT XReal) (e e' : Binomial XReal), StudentT.new (fin 3) = .ok d ∧ StudentT.new (fin 4) = .ok d' ∧
    Binomial.new 5 (fin (1/3)) = .ok e ∧ Binomial.new 5 (fin (1/2)) = .ok e' := by
  refine ⟨⟨fin 3⟩, ⟨fin 4⟩, ⟨5, fin (1/3)⟩, ⟨5, fin (1/2)⟩, ?_, ?_, ?_, ?_⟩ <;>
    norm_num [StudentT.new, Binomial.new]

end Verif
