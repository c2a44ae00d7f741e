import Verif.Spec.Joint
import Verif.Props.RadonNikodymDist
import Verif.Props.CumulantsDiscrete
import Verif.Props.Pushforward
import Verif.Props.Mixture
import Verif.Props.Iid
import Mathlib.MeasureTheory.Integral.Pi
import Mathlib.Probability.Independence.Basic

/-!
# C124: combinators denote the operations on measures
-/

namespace Verif
open FloatOps XReal Spec MeasureTheory ProbabilityTheory ExponentialFamily

theorem lintegral_fin_prod {n : ℕ} {α : Type} [MeasurableSpace α] (μ : Fin n → MeasureTheory.Measure α)
    [∀ i, SigmaFinite (μ i)] (f : Fin n → α → ENNReal) (hf : ∀ i, Measurable (f i)) :
    ∫⁻ x : Fin n → α, ∏ i, f i (x i) ∂(Measure.pi μ) = ∏ i, ∫⁻ a, f i a ∂(μ i) := by
  induction n with
  | zero => simp
  | succ n ih =>
    have hm : Measurable fun x : Fin n → α => ∏ i, f i.succ (x i) :=
      Finset.measurable_fun_prod _ fun i _ => (hf i.succ).comp (measurable_pi_apply i)
    calc
      _ = ∫⁻ x : α × (Fin n → α), f 0 x.1 * ∏ i : Fin n, f i.succ (x.2 i)
            ∂((μ 0).prod (Measure.pi fun i => μ i.succ)) := by
        rw [← ((measurePreserving_piFinSuccAbove μ 0).symm).lintegral_comp_emb
          (MeasurableEquiv.measurableEmbedding _)]
        simp_rw [MeasurableEquiv.piFinSuccAbove_symm_apply, Fin.insertNthEquiv,
          Fin.prod_univ_succ, Fin.insertNth_zero, Equiv.coe_fn_mk, Fin.cons_succ,
          Fin.zero_succAbove, Fin.cons_zero]
        rfl
      _ = (∫⁻ a, f 0 a ∂μ 0) * ∏ i : Fin n, ∫⁻ a, f i.succ a ∂(μ i.succ) := by
        rw [lintegral_prod_mul (hf 0).aemeasurable hm.aemeasurable, ih _ _ fun i => hf i.succ]
      _ = _ := by rw [Fin.prod_univ_succ]

theorem density_sum (l : List XReal) (h : ∀ v ∈ l, v.IsFin ∨ v = ninf) :
    density (FloatOps.sum l) = (l.map density).prod ∧ ((FloatOps.sum l).IsFin ∨ FloatOps.sum l = ninf) := by
  induction l with
  | nil => exact ⟨by simp [density], Or.inl ⟨0, rfl⟩⟩
  | cons a l ih =>
    obtain ⟨h1, h2⟩ := ih fun v hv => h v (List.mem_cons_of_mem _ hv)
    rw [XReal.sum_cons, List.map_cons, List.prod_cons, ← h1]
    exact density_add (h a (List.mem_cons_self ..)) h2

/-- **C124**, product: the law of a product measure is the product of the laws. -/
theorem C124_product {M1 M2 X1 X2 α β : Type} [MeasurableSpace α] [MeasurableSpace β]
    [HasLogDensity M1 X1 XReal] [HasLogDensity M2 X2 XReal]
    (μ : MeasureTheory.Measure α) (ν : MeasureTheory.Measure β) [SFinite μ] [SFinite ν]
    (e1 : α → X1) (e2 : β → X2) (m1 : M1) (m2 : M2) (h1 : Proper e1 m1) (h2 : Proper e2 m2)
    (hm1 : MeasurableDensity e1 m1) (hm2 : MeasurableDensity e2 m2) :
    law (μ.prod ν) (fun p => (e1 p.1, e2 p.2)) (⟨m1, m2⟩ : ProductMeasure M1 M2)
      = (law μ e1 m1).prod (law ν e2 m2) := by
  unfold law
  rw [prod_withDensity hm1.ennreal_ofReal hm2.ennreal_ofReal]
  congr 1
  funext p
  have := (density_add (h1 p.1) (h2 p.2)).1
  show ENNReal.ofReal (density (logDensityWrtRoot m1 (e1 p.1) +. logDensityWrtRoot m2 (e2 p.2))) = _
  rw [this, ENNReal.ofReal_mul (density_nonneg_of_proper (h1 p.1))]

/-- **C124**, weights: a log-weight `w` multiplies the law by `e^w`; a log-density function multiplies it by
its exponential. -/
theorem C124_weighted {M X α : Type} [MeasurableSpace α] [HasLogDensity M X XReal]
    (μ : MeasureTheory.Measure α) [SFinite μ] (e : α → X) (m : M) (h : Proper e m) (hm : MeasurableDensity e m) :
    (∀ w : ℝ, law μ e (⟨m, fin w⟩ : WeightedMeasure M XReal) = ENNReal.ofReal (Real.exp w) • law μ e m) ∧
    (∀ (g : X → XReal) (l : α → ℝ), Measurable l → (∀ a, g (e a) = fin (l a)) →
      law μ e (⟨m, g⟩ : IntegralMeasure M X XReal)
        = (law μ e m).withDensity fun a => ENNReal.ofReal (Real.exp (l a))) := by
  constructor
  · intro w
    unfold law
    rw [← withDensity_smul _ hm.ennreal_ofReal]
    congr 1
    funext a
    have := (density_add (Or.inl (isFin_fin w)) (h a)).1
    show ENNReal.ofReal (density (fin w +. logDensityWrtRoot m (e a))) = _
    rw [this, show density (fin w) = Real.exp w from rfl, ENNReal.ofReal_mul (Real.exp_pos w).le]
    rfl
  · intro g l hl hg
    unfold law
    rw [← withDensity_mul _ hm.ennreal_ofReal (by fun_prop)]
    congr 1
    funext a
    have := (density_add (Or.inl (isFin_fin (l a))) (h a)).1
    show ENNReal.ofReal (density (g (e a) +. logDensityWrtRoot m (e a))) = _
    rw [hg, this, show density (fin (l a)) = Real.exp (l a) from rfl,
      ENNReal.ofReal_mul (Real.exp_pos (l a)).le, mul_comm]
    rfl

/-- **C124**, mixtures: the law of a mixture with non-negative weights is the weighted sum of the laws of
the components.  Missing from the full claim: negative weights, which the constructor accepts
(`C34_negative_weight_violated`). -/
theorem C124_mixture_partial {M T α : Type} [MeasurableSpace α] [HasLogDensity M T XReal]
    (μ : MeasureTheory.Measure α) (e : α → T) (cs : List M) (ws : List ℝ) (hlen : cs.length = ws.length)
    (hw : ∀ w ∈ ws, 0 ≤ w) (hc : ∀ c ∈ cs, Proper e c) (hm : ∀ c ∈ cs, MeasurableDensity e c) :
    law μ e (⟨cs, ws.map fin⟩ : MixtureMeasure M XReal)
      = (List.zipWith (fun c w => ENNReal.ofReal w • law μ e c) cs ws).sum := by
  have h1 : ∀ a, density (logDensityWrtRoot (⟨cs, ws.map fin⟩ : MixtureMeasure M XReal) (e a))
      = (List.zipWith (fun c w => w * density (logDensityWrtRoot c (e a))) cs ws).sum := fun a =>
    (C34_mixture_density_partial cs ws (e a) hlen hw (fun c h => hc c h a)).1
  unfold law
  simp only [h1]
  clear h1
  induction cs generalizing ws with
  | nil => simp
  | cons c cs ih =>
    obtain _ | ⟨w, ws⟩ := ws
    · simp at hlen
    have hc0 := hc c (List.mem_cons_self ..)
    have hw0 := hw w (List.mem_cons_self ..)
    have hmc := hm c (List.mem_cons_self ..)
    have hnn : ∀ a, 0 ≤ (List.zipWith (fun c w => w * density (logDensityWrtRoot c (e a))) cs ws).sum := by
      intro a
      refine List.sum_nonneg ?_
      intro x hx
      obtain ⟨i, hi, rfl⟩ := List.mem_iff_getElem.mp hx
      simp only [List.length_zipWith] at hi
      rw [List.getElem_zipWith]
      exact mul_nonneg (hw _ (List.mem_cons_of_mem _ (List.getElem_mem _)))
        (density_nonneg_of_proper (hc _ (List.mem_cons_of_mem _ (List.getElem_mem _)) a))
    rw [List.zipWith_cons_cons, List.sum_cons, ← ih ws (by simpa using hlen)
      (fun w h => hw w (List.mem_cons_of_mem _ h)) (fun c h => hc c (List.mem_cons_of_mem _ h))
      (fun c h => hm c (List.mem_cons_of_mem _ h)), ← withDensity_smul _ hmc.ennreal_ofReal,
      ← withDensity_add_left (by exact (hmc.ennreal_ofReal.const_mul _))]
    congr 1
    funext a
    rw [List.zipWith_cons_cons, List.sum_cons]
    rw [ENNReal.ofReal_add (mul_nonneg hw0 (density_nonneg_of_proper (hc0 a))) (hnn a),
      ENNReal.ofReal_mul hw0]
    rfl

/-- **C124**, transformations, in general: on its image the law of a transformed measure is the image of the
law under the transformation. -/
theorem C124_pushforward {M : Type} [HasLogDensity M XReal XReal] (base : M) (t : Transform XReal)
    {dom img : Set ℝ} (hb : Proper (fun x : ℝ => fin x) base) (hi : MutuallyInverse t dom img)
    (hj : JacobianCorrect t img) (hdom : MeasurableSet dom) (himg : MeasurableSet img) (g : ℝ → ℝ)
    (hg : Measurable g) (hfg : ∀ x ∈ dom, t.forward (fin x) = fin (g x)) :
    (law volume fin (pushforward base t)).restrict img = ((law volume fin base).restrict dom).map g := by
  have hp := isPushforward_of hb hi hj
  ext A hA
  rw [Measure.restrict_apply hA, Measure.map_apply hg hA, Measure.restrict_apply (hg hA)]
  unfold law
  rw [withDensity_apply _ (hA.inter himg), withDensity_apply _ ((hg hA).inter hdom)]
  have := hp (A ∩ img) Set.inter_subset_right (hA.inter himg)
  rw [this]
  congr 2
  ext x
  constructor
  · rintro ⟨hx, y, hy, e⟩
    rw [hfg x hx] at e
    refine ⟨?_, hx⟩
    show g x ∈ A
    rw [XReal.fin.inj e]; exact hy.1
  · rintro ⟨hx, hd⟩
    obtain ⟨y, hy, e, -⟩ := hi.1 x hd
    have := hfg x hd
    rw [e] at this
    refine ⟨hd, y, ⟨?_, hy⟩, e⟩
    rw [XReal.fin.inj this]; exact hx

/-- **C124**, the four shipped transformations of any measure on the line with a proper log-density:
logarithm, exponential, affine map, logit.  Missing from the full claim: points off the image, where the
log-density can be NaN (`C33_off_image_violated`). -/
theorem C124_transforms_partial {M : Type} [HasLogDensity M XReal XReal] (base : M)
    (hb : Proper (fun x : ℝ => fin x) base) :
    law volume fin (pushforward base (Transform.logT : Transform XReal))
      = ((law volume fin base).restrict (Set.Ioi 0)).map Real.log ∧
    (law volume fin (pushforward base (Transform.expT : Transform XReal))).restrict (Set.Ioi 0)
      = (law volume fin base).map Real.exp ∧
    (∀ a b : ℝ, a ≠ 0 → law volume fin (pushforward base (Transform.linearT (fin a) (fin b)))
      = (law volume fin base).map (fun x => a * x + b)) ∧
    law volume fin (pushforward base (Transform.logitT : Transform XReal))
      = ((law volume fin base).restrict (Set.Ioo 0 1)).map (fun x => Real.log (x / (1 - x))) := by
  refine ⟨?_, ?_, fun a b ha => ?_, ?_⟩
  · have := C124_pushforward base Transform.logT hb C33_log_transform.1 C33_log_transform.2.1 measurableSet_Ioi
      MeasurableSet.univ Real.log Real.measurable_log (fun x hx => f_ln x hx)
    rwa [Measure.restrict_univ] at this
  · have := C124_pushforward base Transform.expT hb C33_exp_transform.1 C33_exp_transform.2.1 MeasurableSet.univ
      measurableSet_Ioi Real.exp Real.measurable_exp (fun x hx => rfl)
    rwa [Measure.restrict_univ] at this
  · have := C124_pushforward base (Transform.linearT (fin a) (fin b)) hb (C33_linear_transform a b ha).1
      (C33_linear_transform a b ha).2.1 MeasurableSet.univ MeasurableSet.univ (fun x => a * x + b)
      (by fun_prop) (fun x hx => rfl)
    rwa [Measure.restrict_univ, Measure.restrict_univ] at this
  · have := C124_pushforward base Transform.logitT hb C33_logit_transform.1 C33_logit_transform.2.1
      measurableSet_Ioo MeasurableSet.univ (fun x => Real.log (x / (1 - x)))
      (Real.measurable_log.comp (measurable_id.div (measurable_const.sub measurable_id))) (fun x hx => by
        have h1 : 0 < 1 - x := by linarith [hx.2]
        show FloatOps.ln (fin x /. (fin 1 -. fin x)) = _
        rw [f_sub, f_div _ _ h1.ne', f_ln _ (div_pos hx.1 h1)])
    rwa [Measure.restrict_univ] at this

theorem law_prob {M X α : Type} [MeasurableSpace α] [HasLogDensity M X XReal]
    (μ : MeasureTheory.Measure α) (e : α → X) (m : M) (h : RegularLaw μ e m) :
    IsProbabilityMeasure (law μ e m) := by
  constructor
  rw [law, withDensity_apply _ MeasurableSet.univ, Measure.restrict_univ]
  exact h.mass_one

/-- **C124**, samples: if on `S` the log-density `ld` of a list of observations is the sum of the log-densities
of the single observations, then on `Sⁿ` the law of a sample of `n` observations is the `n`-fold product of
the law of one: the observations are independent and identically distributed. -/
theorem C124_sample {M X α : Type} [MeasurableSpace α] [HasLogDensity M X XReal]
    (μ : MeasureTheory.Measure α) [SigmaFinite μ] (e : α → X) (m : M) (h : RegularLaw μ e m)
    (S : Set α) (hS : MeasurableSet S) (ld : List X → XReal)
    (hld : ∀ l : List α, (∀ a ∈ l, a ∈ S) →
      ld (l.map e) = FloatOps.sum (l.map fun a => logDensityWrtRoot m (e a))) (n : ℕ) :
    (jointLaw μ e n ld).restrict (Set.univ.pi fun _ => S) = Measure.pi fun _ => (law μ e m).restrict S := by
  have hp := law_prob μ e m h
  refine (Measure.pi_eq fun s hs => ?_).symm
  have hbox : (Set.univ.pi s) ∩ (Set.univ.pi fun _ : Fin n => S) = Set.univ.pi fun i => s i ∩ S := by
    ext v
    simp only [Set.mem_inter_iff, Set.mem_univ_pi]
    exact forall_and.symm
  have hsS : ∀ i, MeasurableSet (s i ∩ S) := fun i => (hs i).inter hS
  rw [Measure.restrict_apply (MeasurableSet.univ_pi hs), hbox, jointLaw,
    withDensity_apply _ (MeasurableSet.univ_pi hsS)]
  have hmeas := h.measurable.ennreal_ofReal
  have e1 : ∀ v ∈ Set.univ.pi (fun i : Fin n => s i ∩ S),
      ENNReal.ofReal (density (ld (List.ofFn fun i => e (v i))))
        = ∏ i, ENNReal.ofReal (density (logDensityWrtRoot m (e (v i)))) := by
    intro v hv
    have hl := hld (List.ofFn v) (by
      intro a ha
      obtain ⟨i, rfl⟩ := (List.mem_ofFn).mp ha
      exact (hv i trivial).2)
    rw [List.map_ofFn] at hl
    have hl2 : ld (List.ofFn fun i => e (v i)) = _ := hl
    rw [hl2, (density_sum _ (by
      intro x hx
      obtain ⟨a, -, rfl⟩ := List.mem_map.mp hx
      exact h.proper a)).1, List.map_map, List.map_ofFn, List.prod_ofFn]
    exact ENNReal.ofReal_prod_of_nonneg fun i _ => density_nonneg_of_proper (h.proper (v i))
  rw [setLIntegral_congr_fun (MeasurableSet.univ_pi hsS) e1, Measure.restrict_pi_pi,
    lintegral_fin_prod _ _ fun _ => hmeas]
  refine Finset.prod_congr rfl fun i _ => ?_
  rw [Measure.restrict_apply (hs i), law, withDensity_apply _ (hsS i)]

theorem law_restrict {M X α : Type} [MeasurableSpace α] [HasLogDensity M X XReal]
    (μ : MeasureTheory.Measure α) (e : α → X) (m : M) (S : Set α) (hS : MeasurableSet S)
    (h : ∀ a ∉ S, (logDensityWrtRoot m (e a) : XReal) = ninf) :
    (law μ e m).restrict S = law μ e m := by
  refine Measure.restrict_eq_self_of_ae_mem ?_
  show law μ e m {a | a ∉ S} = 0
  rw [show {a | a ∉ S} = Sᶜ from rfl, law, withDensity_apply _ hS.compl]
  refine (setLIntegral_congr_fun hS.compl (g := fun _ => 0) fun a ha => ?_).trans (by simp)
  show ENNReal.ofReal (density _) = 0
  rw [h a ha]; simp [density]

/-- **C124**, samples through the sum of log-densities, for every distribution with a regular law: the law of
a sample of any size is the product law.  So it is a probability measure, the observations are independent,
and each has the law of the distribution. -/
theorem C124_iid_fallback {M X α : Type} [MeasurableSpace α] [HasLogDensity M X XReal]
    (μ : MeasureTheory.Measure α) [SigmaFinite μ] (e : α → X) (m : M) (h : RegularLaw μ e m) (n : ℕ) :
    jointLaw μ e n (IID.ofDist m).iidLogDensityFallback = Measure.pi (fun _ => law μ e m) ∧
    IsProbabilityMeasure (jointLaw μ e n (IID.ofDist m).iidLogDensityFallback) ∧
    iIndepFun (fun (i : Fin n) (v : Fin n → α) => v i) (jointLaw μ e n (IID.ofDist m).iidLogDensityFallback) ∧
    ∀ i : Fin n, (jointLaw μ e n (IID.ofDist m).iidLogDensityFallback).map (fun v => v i) = law μ e m := by
  have hp := law_prob μ e m h
  have key : jointLaw μ e n (IID.ofDist m).iidLogDensityFallback = Measure.pi (fun _ => law μ e m) := by
    have := C124_sample μ e m h Set.univ MeasurableSet.univ (IID.ofDist m).iidLogDensityFallback
      (fun l _ => by unfold IID.iidLogDensityFallback; rw [List.map_map]; rfl) n
    simpa using this
  rw [key]
  refine ⟨rfl, inferInstance, ?_, fun i => (measurePreserving_eval (fun _ : Fin n => law μ e m) i).map_eq⟩
  exact iIndepFun_pi (μ := fun _ : Fin n => law μ e m) (X := fun _ a => a) fun i => aemeasurable_id

/-- **C124**, samples through the exponential-family formula and through the optimised methods: the law of a
sample of any size is the product law on the support, for Normal, Cauchy, Student-t, Gamma, Beta, ChiSquared
and Bernoulli.  Missing from the full claim: the families whose exponential-family formula is not their
log-density (`C124_iid_violated`). -/
theorem C124_iid_partial (n : ℕ) :
    (∀ (μ σ : ℝ) (d : Normal XReal), Normal.new (fin μ) (fin σ) = .ok d →
      jointLaw volume fin n (IID.ofDist d).iidLogDensity = Measure.pi (fun _ => law volume fin d) ∧
      jointLaw volume fin n d.logDensityIid = Measure.pi (fun _ => law volume fin d)) ∧
    (∀ (l s : ℝ) (d : Cauchy XReal), Cauchy.new (fin l) (fin s) = .ok d →
      jointLaw volume fin n d.logDensityIid = Measure.pi (fun _ => law volume fin d)) ∧
    (∀ (ν : ℝ) (d : StudentT XReal), StudentT.new (fin ν) = .ok d →
      jointLaw volume fin n d.logDensityIid = Measure.pi (fun _ => law volume fin d)) ∧
    (∀ (a b : ℝ) (d : Gamma XReal), Gamma.new (fin a) (fin b) = .ok d →
      (jointLaw volume fin n (IID.ofDist d).iidLogDensity).restrict (Set.univ.pi fun _ => Set.Ioi 0)
        = Measure.pi (fun _ => law volume fin d)) ∧
    (∀ (a b : ℝ) (d : Beta XReal), Beta.new (fin a) (fin b) = .ok d →
      (jointLaw volume fin n (IID.ofDist d).iidLogDensity).restrict (Set.univ.pi fun _ => Set.Ioo 0 1)
        = Measure.pi (fun _ => law volume fin d)) ∧
    (∀ (k : ℝ) (d : ChiSquared XReal), ChiSquared.new (fin k) = .ok d →
      (jointLaw volume fin n (IID.ofDist d).iidLogDensity).restrict (Set.univ.pi fun _ => Set.Ioi 0)
        = Measure.pi (fun _ => law volume fin d)) ∧
    (∀ (p : ℝ) (d : Bernoulli XReal), Bernoulli.new (fin p) = .ok d → p ≠ 0 → p ≠ 1 →
      (jointLaw Measure.count byteOf n (IID.ofDist d).iidLogDensity).restrict
          (Set.univ.pi fun _ => {i | Measure.inSupport d (byteOf i) = true})
        = Measure.pi (fun _ => law Measure.count byteOf d)) := by
  have huniv : ∀ {D : Type} [HasLogDensity D XReal XReal] (d : D) (hr : RegularLaw volume fin d)
      (ld : List XReal → XReal), (∀ xs : List ℝ, ld (xs.map fin)
        = FloatOps.sum (xs.map (fun x => (logDensityWrtRoot d (fin x) : XReal)))) →
      jointLaw volume fin n ld = Measure.pi (fun _ => law volume fin d) := by
    intro D _ d hr ld h
    have := C124_sample volume fin d hr Set.univ MeasurableSet.univ ld (fun l _ => h l) n
    simpa using this
  have hef : ∀ {D X α : Type} [MeasurableSpace α] [HasLogDensity D X XReal] [ExponentialFamily D X XReal]
      [ArrayStat D] (μ : MeasureTheory.Measure α) [SigmaFinite μ] (e : α → X) (d : D) (hr : RegularLaw μ e d)
      (S : Set α) (hS : MeasurableSet S) (hs : IidIsSum d)
      (hag : ∀ a ∈ S, (expFamLogDensity d (e a) : XReal) = logDensityWrtRoot d (e a))
      (hout : ∀ a ∉ S, (logDensityWrtRoot d (e a) : XReal) = ninf),
      (jointLaw μ e n (IID.ofDist d).iidLogDensity).restrict (Set.univ.pi fun _ => S)
        = Measure.pi (fun _ => law μ e d) := by
    intro D X α _ _ _ _ μ _ e d hr S hS hs hag hout
    rw [C124_sample μ e d hr S hS _ (fun l hl => ?_) n, law_restrict μ e d S hS hout]
    rw [hs, List.map_map]
    congr 1
    exact List.map_congr_left fun a ha => hag a (hl a ha)
  obtain ⟨r1, r2, r3, r4, r5, r6, r7, -, -⟩ := C122_regular
  obtain ⟨s1, -, -, s4, s5, s6, s7, -⟩ := C28_iid_is_sum_partial
  obtain ⟨a1, a2, a3, a4, -⟩ := C24_continuous_agree
  refine ⟨fun μ σ d h => ⟨?_, ?_⟩, fun l s d h => ?_, fun ν d h => ?_, fun a b d h => ?_, fun a b d h => ?_,
    fun k d h => ?_, fun p d h h0 h1 => ?_⟩
  · have := hef volume fin d (r1 μ σ d h) Set.univ MeasurableSet.univ (s1 μ σ d h)
      (fun x _ => a1 μ σ d h x) (fun x hx => absurd trivial hx)
    simpa using this
  · exact huniv d (r1 μ σ d h) _ fun xs => (C08_normal h 0 xs).2
  · exact huniv d (r6 l s d h) _ fun xs => (C08_cauchy h 0 xs).2.2
  · exact huniv d (r7 ν d h) _ fun xs => (C08_student_t h 0 xs).2
  · refine hef volume fin d (r3 a b d h) _ measurableSet_Ioi (s4 a b d h) (fun x hx => a2 a b d h x ?_)
      (fun x hx => (C11_gamma_density h).2.1 x (not_lt.mp hx))
    simpa [Measure.inSupport] using hx
  · refine hef volume fin d (r4 a b d h) _ measurableSet_Ioo (s5 a b d h) (fun x hx => a3 a b d h x ?_)
      (fun x hx => (C12_beta_density h).2.1 x hx)
    simpa [Measure.inSupport] using hx
  · refine hef volume fin d (r5 k d h) _ measurableSet_Ioi (s6 k d h) (fun x hx => a4 k d h x ?_)
      (fun x hx => ?_)
    · simpa [Measure.inSupport] using hx
    · obtain ⟨hk, rfl⟩ := ChiSquared.new_ok h
      have hg : Gamma.new (fin (k / 2)) (fin (1 / 2)) = .ok (⟨fin (k / 2), fin (1 / 2)⟩ : Gamma XReal) := by
        simp [Gamma.new, hk]
      rw [(C13_chi_squared_is_gamma h hg).2.1 x]
      exact (C11_gamma_density hg).2.1 x (not_lt.mp hx)
  · have hd := Bernoulli.new_ok h
    have hr : RegularLaw Measure.count byteOf d := by
      obtain ⟨⟨k0, k1⟩, rfl⟩ := hd
      exact Bernoulli.regular (lt_of_le_of_ne k0 (Ne.symm h0)) (lt_of_le_of_ne k1 h1)
    refine hef Measure.count byteOf d hr _ (Set.toFinite _).measurableSet (s7 p d h h0 h1)
      (fun i hi => C24_discrete_agree_partial.1 p d h h0 h1 _ hi) (fun i hi => ?_)
    obtain ⟨⟨k0, k1⟩, rfl⟩ := hd
    have : ¬ (byteOf i = 0 ∨ byteOf i = 1) := by simpa [Measure.inSupport] using hi
    push Not at this
    simp [logDensityWrtRoot, this.1, this.2]

/-- **C124** fails for Exponential through the exponential-family formula: on non-negative samples of size
`n` the law has total mass `r^{-2n}` instead of `1`. -/
theorem C124_iid_violated {r : ℝ} {d : Exponential XReal} (h : Exponential.new (fin r) = .ok d) (n : ℕ) :
    (jointLaw volume fin n (IID.ofDist d).iidLogDensity).restrict (Set.univ.pi fun _ => Set.Ici 0)
      = ENNReal.ofReal ((1 / r ^ 2) ^ n) • Measure.pi (fun _ : Fin n => law volume fin d) ∧
    (r ≠ 1 → n ≠ 0 → (jointLaw volume fin n (IID.ofDist d).iidLogDensity).restrict
      (Set.univ.pi fun _ => Set.Ici 0) ≠ Measure.pi (fun _ : Fin n => law volume fin d)) := by
  have hr := C122_regular.2.1 r d h
  have hp := law_prob volume fin d hr
  have hrpos := (Exponential.new_ok h).1
  have hbox : MeasurableSet (Set.univ.pi fun _ : Fin n => Set.Ici (0:ℝ)) :=
    MeasurableSet.univ_pi fun _ => measurableSet_Ici
  have h1 : (jointLaw volume fin n (IID.ofDist d).iidLogDensityFallback).restrict
      (Set.univ.pi fun _ => Set.Ici 0) = Measure.pi (fun _ : Fin n => law volume fin d) := by
    rw [(C124_iid_fallback volume fin d hr n).1, Measure.restrict_pi_pi,
      law_restrict volume fin d _ measurableSet_Ici fun x hx => ?_]
    exact (C10_exponential_density h).2.1 x (not_le.mp hx)
  have key : (jointLaw volume fin n (IID.ofDist d).iidLogDensity).restrict (Set.univ.pi fun _ => Set.Ici 0)
      = ENNReal.ofReal ((1 / r ^ 2) ^ n) • Measure.pi (fun _ : Fin n => law volume fin d) := by
    rw [← h1, ← Measure.restrict_smul]
    unfold jointLaw
    rw [← withDensity_smul' _ _ ENNReal.ofReal_ne_top, restrict_withDensity hbox, restrict_withDensity hbox]
    refine withDensity_congr_ae ((ae_restrict_iff' hbox).mpr (Filter.Eventually.of_forall fun v hv => ?_))
    obtain ⟨a, b, ha, hb, hab⟩ := C28_fallback.2 r d h (List.ofFn v) (fun x hx => by
      obtain ⟨i, rfl⟩ := List.mem_ofFn.mp hx
      exact hv i trivial)
    rw [List.map_ofFn] at ha hb
    have ha' : (IID.ofDist d).iidLogDensity (List.ofFn fun i => fin (v i)) = fin a := ha
    have hb' : (IID.ofDist d).iidLogDensityFallback (List.ofFn fun i => fin (v i)) = fin b := hb
    show ENNReal.ofReal _ = ENNReal.ofReal _ * ENNReal.ofReal _
    rw [ha', hb', ← ENNReal.ofReal_mul (by positivity)]
    congr 1
    show Real.exp a = (1 / r ^ 2) ^ n * Real.exp b
    rw [List.length_ofFn] at hab
    have hl : Real.log ((1 / r ^ 2) ^ n) = -(n * (2 * Real.log r)) := by
      rw [Real.log_pow, Real.log_div one_ne_zero (by positivity), Real.log_one, Real.log_pow]
      push_cast; ring
    rw [show a = Real.log ((1 / r ^ 2) ^ n) + b by rw [hl]; linarith, Real.exp_add,
      Real.exp_log (by positivity)]
  refine ⟨key, fun h1 hn hc => ?_⟩
  have hm := congrArg (fun m => m Set.univ) (key.symm.trans hc)
  simp only [Measure.smul_apply, measure_univ, smul_eq_mul, mul_one] at hm
  rw [ENNReal.ofReal_eq_one] at hm
  have h2 := (pow_eq_one_iff_of_nonneg (by positivity) hn).mp hm
  have h3 : r ^ 2 = 1 := by field_simp at h2; linarith
  exact h1 ((pow_eq_one_iff_of_nonneg hrpos.le two_ne_zero).mp h3)

example : ∃ d, Exponential.new (fin 2) = .ok d := ⟨⟨fin 2⟩, by simp [Exponential.new]⟩
example : ∃ d, Normal.new (fin 1) (fin 2) = .ok d ∧ RegularLaw volume fin d :=
  ⟨⟨fin 1, fin 2⟩, by simp [Normal.new], C122_regular.1 1 2 _ (by simp [Normal.new])⟩

/-- **C124**, an application: the exponential of a Normal variable is log-normal. -/
theorem C124_lognormal {μ σ : ℝ} {d : Normal XReal} (h : Normal.new (fin μ) (fin σ) = .ok d) :
    (law volume fin (pushforward d (Transform.expT : Transform XReal))).restrict (Set.Ioi 0)
      = (gaussianReal μ (σ ^ 2).toNNReal).map Real.exp := by
  rw [(C124_transforms_partial d (C122_regular.1 μ σ d h).proper).2.1]
  congr 1
  obtain ⟨h1, -, -⟩ := C09_normal_density h
  obtain ⟨hσ, -⟩ := Normal.new_ok h
  have hv : (σ ^ 2).toNNReal ≠ 0 := by
    simpa [Real.toNNReal_eq_zero] using hσ.ne'
  rw [gaussianReal_of_var_ne_zero _ hv, law]
  congr 1
  funext x
  rw [h1 x]
  rfl

end Verif
