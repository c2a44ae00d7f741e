import Verif.Props.Autodiff
import Verif.Props.CoreDensity
import Verif.Props.Tagless
import Verif.Model.Combinators

/-!
# C120: automatic differentiation through the builder, the combinators, samples and final-tagless programs
-/

namespace Verif
open FloatOps XReal Spec Filter Topology ProbabilityTheory
open Verif.Spec.Tracks (const ofRat ofNat)

variable {t : ℝ}

/-! ### The builder and the combinators -/

/-- **C120.** `m.log_density().wrt(b).at(x)` on dual numbers differentiates the relative log-density. -/
theorem C120_relative {M B T : Type} [Measure M T] [Measure B T] [HasLogDensity M T (Dual XReal)]
    [HasLogDensity B T (Dual XReal)] {lay : LogDensity.Layout} (hlay : lay.Apart) (addr : ℕ) {m : M} {b : B} {x : T}
    {g h : ℝ → ℝ} (hm : Tracks g t (logDensityWrtRoot m x)) (hb : Tracks h t (logDensityWrtRoot b x)) :
    Tracks (fun s => g s - h s) t (relLogDensity (F := Dual XReal) lay addr m b x) := by
  rw [C01_relative_log_density_apart_partial lay hlay]
  exact hm.sub hb

/-- **C120.** Products of measures. -/
theorem C120_product {M1 M2 X1 X2 : Type} [HasLogDensity M1 X1 (Dual XReal)] [HasLogDensity M2 X2 (Dual XReal)]
    {m : ProductMeasure M1 M2} {x : X1 × X2} {g h : ℝ → ℝ}
    (h1 : Tracks g t (logDensityWrtRoot m.measure1 x.1)) (h2 : Tracks h t (logDensityWrtRoot m.measure2 x.2)) :
    Tracks (fun s => g s + h s) t (logDensityWrtRoot m x) := h1.add h2

theorem runningMax_mem (v : Dual XReal) (vs : List (Dual XReal)) (hv : ∃ a, v.val = fin a) :
    runningMax (v :: vs) ∈ v :: vs := by
  have key : ∀ (l : List (Dual XReal)) (acc : Dual XReal),
      l.foldl (fun acc x => if FloatOps.gt x acc then x else acc) acc = acc ∨
      l.foldl (fun acc x => if FloatOps.gt x acc then x else acc) acc ∈ l := by
    intro l
    induction l with
    | nil => intro acc; exact .inl rfl
    | cons a l ih =>
      intro acc
      rw [List.foldl_cons]
      split_ifs with hc
      · rcases ih a with h | h
        · rw [h]; exact .inr List.mem_cons_self
        · exact .inr (List.mem_cons_of_mem _ h)
      · rcases ih acc with h | h
        · exact .inl h
        · exact .inr (List.mem_cons_of_mem _ h)
  obtain ⟨a, ha⟩ := hv
  have hc : FloatOps.gt v (negInf : Dual XReal) = true := by
    rw [Dual.gt_eq, ha]; rfl
  rw [runningMax, List.foldl_cons, if_pos hc]
  rcases key vs v with h | h
  · rw [h]; exact List.mem_cons_self
  · exact List.mem_cons_of_mem _ h

/-- **C120.** `log_sum_exp`: the shift by the largest entry, which is chosen by comparing values and may jump
from one entry to another, does not disturb the derivative, ties included. -/
theorem C120_log_sum_exp {ι : Type} {vs : List ι} (hne : vs ≠ []) {f : ι → ℝ → ℝ} {d : ι → Dual XReal}
    (hv : ∀ i ∈ vs, Tracks (f i) t (d i)) :
    Tracks (fun s => Real.log ((vs.map fun i => Real.exp (f i s)).sum)) t (logSumExp (vs.map d)) := by
  obtain ⟨i0, is, rfl⟩ := List.exists_cons_of_ne_nil hne
  have hmem : runningMax ((i0 :: is).map d) ∈ (i0 :: is).map d := by
    rw [List.map_cons]
    exact runningMax_mem _ _ ⟨_, (hv i0 List.mem_cons_self).val⟩
  obtain ⟨j, hj, hje⟩ := List.mem_map.mp hmem
  have hm : Tracks (f j) t (runningMax ((i0 :: is).map d)) := hje ▸ hv j hj
  unfold logSumExp
  rw [if_neg (by simp)]
  have hinf : ¬ (FloatOps.isInf (runningMax ((i0 :: is).map d)) &&
      (runningMax ((i0 :: is).map d) <. FloatOps.zero)) = true := by
    have : FloatOps.isInf (runningMax ((i0 :: is).map d)) = false := by
      show FloatOps.isInf (runningMax ((i0 :: is).map d)).val = false
      rw [hm.val]; rfl
    rw [this]; simp
  simp only
  rw [if_neg hinf, List.map_map]
  have hsum := Tracks.foldl_sum (t := t) (i0 :: is) (f := fun i s => Real.exp (f i s - f j s))
    (d := fun i => FloatOps.exp (d i -. runningMax ((i0 :: is).map d)))
    (fun i hi => ((hv i hi).sub hm).exp) (Tracks.zero t)
  have hpos : ∀ s, 0 < ((i0 :: is).map fun i => Real.exp (f i s - f j s)).sum := by
    intro s
    rw [List.map_cons, List.sum_cons]
    refine add_pos_of_pos_of_nonneg (Real.exp_pos _) (List.sum_nonneg ?_)
    intro y hy
    obtain ⟨i, -, rfl⟩ := List.mem_map.mp hy
    exact (Real.exp_pos _).le
  refine (hm.add (hsum.ln (by simpa using hpos t))).congr fun s => ?_
  have e : ((i0 :: is).map fun i => Real.exp (f i s)).sum =
      Real.exp (f j s) * ((i0 :: is).map fun i => Real.exp (f i s - f j s)).sum := by
    rw [← List.sum_map_mul_left]
    congr 1
    refine List.map_congr_left fun i _ => ?_
    rw [← Real.exp_add]; congr 1; ring
  rw [e, Real.log_mul (Real.exp_pos _).ne' (hpos s).ne', Real.log_exp, zero_add]

theorem eventually_all_pos {ι : Type} {f : ι → ℝ → ℝ} (cs : List ι)
    (hc : ∀ c ∈ cs, ContinuousAt (f c) t ∧ 0 < f c t) : ∀ᶠ s in 𝓝 t, ∀ c ∈ cs, 0 < f c s := by
  induction cs with
  | nil => exact Eventually.of_forall fun s c hc => absurd hc List.not_mem_nil
  | cons c cs ih =>
    have h1 := (hc c List.mem_cons_self).1.eventually (lt_mem_nhds (hc c List.mem_cons_self).2)
    have h2 := ih fun c' hc' => hc c' (List.mem_cons_of_mem _ hc')
    filter_upwards [h1, h2] with s hs1 hs2 c' hc'
    rcases List.mem_cons.mp hc' with rfl | hc'
    · exact hs1
    · exact hs2 c' hc'

/-- **C120.** Mixtures, with weights that may vary too: `cs` lists the components, each with the function its
log-density describes and the function its weight describes. -/
theorem C120_mixture {M T : Type} [HasLogDensity M T (Dual XReal)] {x : T}
    (cs : List ((M × (ℝ → ℝ)) × (Dual XReal × (ℝ → ℝ)))) (hne : cs ≠ [])
    (hc : ∀ c ∈ cs, Tracks c.1.2 t (logDensityWrtRoot c.1.1 x) ∧ Tracks c.2.2 t c.2.1 ∧ 0 < c.2.2 t)
    {m : MixtureMeasure M (Dual XReal)}
    (h : MixtureMeasure.new (cs.map fun c => c.1.1) (cs.map fun c => c.2.1) = .ok m) :
    Tracks (fun s => Real.log ((cs.map fun c => c.2.2 s * Real.exp (c.1.2 s)).sum)) t
      (logDensityWrtRoot m x) := by
  unfold MixtureMeasure.new at h
  split_ifs at h
  obtain rfl := (Except.ok.inj h)
  have e : (logDensityWrtRoot (⟨cs.map fun c => c.1.1, cs.map fun c => c.2.1⟩ : MixtureMeasure M (Dual XReal)) x
      : Dual XReal) =
      logSumExp (cs.map fun c => FloatOps.ln c.2.1 +. logDensityWrtRoot c.1.1 x) := by
    show MixtureMeasure.logDensity _ x = _
    unfold MixtureMeasure.logDensity
    rw [if_neg (by simpa using hne), List.zip_map', List.map_map]
    rfl
  rw [e]
  have key := C120_log_sum_exp (t := t) hne (f := fun c s => Real.log (c.2.2 s) + c.1.2 s)
    (d := fun c => FloatOps.ln c.2.1 +. logDensityWrtRoot c.1.1 x)
    (fun c hm => ((hc c hm).2.1.ln (hc c hm).2.2).add (hc c hm).1)
  refine key.congr' ?_
  have hall := eventually_all_pos cs fun c hm => ⟨(hc c hm).2.1.continuousAt, (hc c hm).2.2⟩
  filter_upwards [hall] with s hs
  congr 2
  refine List.map_congr_left fun c hm => ?_
  rw [Real.exp_add, Real.exp_log (hs c hm)]

/-- The code of a measure on dual numbers differentiates the function `L` on the set `S`. -/
def Differentiates {M : Type} [HasLogDensity M (Dual XReal) (Dual XReal)] (m : M) (L : ℝ → ℝ) (S : Set ℝ) : Prop :=
  ∀ (y : ℝ → ℝ) (t : ℝ) (dy : Dual XReal), Tracks y t dy → y t ∈ S →
    Tracks (fun s => L (y s)) t (logDensityWrtRoot m dy)

/-- **C120.** Pushforward along the four transforms: the derivative of the transformed log-density, base
measure and Jacobian both. -/
theorem C120_pushforward {M : Type} [HasLogDensity M (Dual XReal) (Dual XReal)] {m : M} {L : ℝ → ℝ} {S : Set ℝ}
    (hm : Differentiates m L S) {y : ℝ → ℝ} {dy : Dual XReal} (hy : Tracks y t dy) :
    (Real.exp (y t) ∈ S → Tracks (fun s => L (Real.exp (y s)) + y s) t
      (logDensityWrtRoot (pushforward m (Transform.logT (F := Dual XReal))) dy)) ∧
    (0 < y t → Real.log (y t) ∈ S → Tracks (fun s => L (Real.log (y s)) - Real.log (y s)) t
      (logDensityWrtRoot (pushforward m (Transform.expT (F := Dual XReal))) dy)) ∧
    (∀ (a b : ℝ → ℝ) (da db : Dual XReal), Tracks a t da → Tracks b t db → a t ≠ 0 → (y t - b t) / a t ∈ S →
      Tracks (fun s => L ((y s - b s) / a s) - Real.log |a s|) t
        (logDensityWrtRoot (pushforward m (Transform.linearT da db)) dy)) ∧
    (Real.exp (y t) / (1 + Real.exp (y t)) ∈ S →
      Tracks (fun s => L (Real.exp (y s) / (1 + Real.exp (y s))) +
          Real.log (Real.exp (y s) / (1 + Real.exp (y s)) * (1 - Real.exp (y s) / (1 + Real.exp (y s))))) t
        (logDensityWrtRoot (pushforward m (Transform.logitT (F := Dual XReal))) dy)) := by
  refine ⟨fun h => ?_, fun h0 h => ?_, fun a b da db ha hb h0 h => ?_, fun h => ?_⟩
  · exact (hm _ _ _ hy.exp h).add hy
  · exact ((hm _ _ _ (hy.ln h0) h).add (hy.ln h0).neg).congr fun s => sub_eq_add_neg _ _
  · exact ((hm _ _ _ ((hy.sub hb).div ha h0) h).add ((ha.abs h0).ln (abs_pos.mpr h0)).neg).congr
      fun s => sub_eq_add_neg _ _
  · have hp : ∀ z : ℝ, 0 < 1 + Real.exp z := fun z => by positivity
    have h1 := hy.exp.div ((Tracks.one t).add hy.exp) (hp _).ne'
    have h2 := ((Tracks.one t).add hy.neg.exp).ln (hp _)
    refine ((hm _ _ _ h1 h).add ((hy.neg.sub h2).sub h2)).congr fun s => ?_
    congr 1
    have e1 : 1 - Real.exp (y s) / (1 + Real.exp (y s)) = 1 / (1 + Real.exp (y s)) := by
      have := (hp (y s)).ne'
      field_simp
      ring
    have e2 : 1 + Real.exp (-y s) = (1 + Real.exp (y s)) / Real.exp (y s) := by
      rw [Real.exp_neg]
      have := (Real.exp_pos (y s)).ne'
      field_simp
      ring
    rw [e1, e2, Real.log_mul (by positivity) (by positivity), Real.log_div (by positivity) (by positivity),
      Real.log_div (by positivity) (by positivity), Real.log_div (by positivity) (by positivity), Real.log_exp,
      Real.log_one]
    ring

/-- the hypothesis is met by every normal distribution, everywhere, and by every exponential distribution on
the positive numbers -/
theorem C120_normal_differentiates {μ σ : ℝ} {d : Normal (Dual XReal)}
    (h : Normal.new (Dual.const (fin μ)) (Dual.const (fin σ)) = .ok d) :
    Differentiates d (fun x => Real.log (gaussianPDFReal μ (σ ^ 2).toNNReal x)) Set.univ :=
  fun _ t _ hy _ => C120_normal (const μ t) (const σ t) hy h

theorem C120_exponential_differentiates {r : ℝ} {d : Exponential (Dual XReal)}
    (h : Exponential.new (Dual.const (fin r)) = .ok d) :
    Differentiates d (fun x => Real.log (exponentialPDFReal r x)) (Set.Ioi 0) :=
  fun _ t _ hy h0 => C120_exponential (const r t) hy h0 h

example : Normal.new (Dual.const (fin 1)) (Dual.const (fin 2)) = .ok
    (⟨Dual.const (fin 1), Dual.const (fin 2)⟩ : Normal (Dual XReal)) := by
  simp [Normal.new, Dual.gt_eq, Dual.zero_eq, Dual.const]
example : Exponential.new (Dual.const (fin 2)) = .ok (⟨Dual.const (fin 2)⟩ : Exponential (Dual XReal)) := by
  simp [Exponential.new, Dual.gt_eq, Dual.zero_eq, Dual.const]

/-! ### Samples -/

/-- **C120.** Samples, evaluated point by point (`iid_log_density_fallback`). -/
theorem C120_iid_fallback {D X : Type} [HasLogDensity D X (Dual XReal)] {d : D} {xs : List X} {L : X → ℝ → ℝ}
    (h : ∀ x ∈ xs, Tracks (L x) t (logDensityWrtRoot d x)) :
    Tracks (fun s => (xs.map fun x => L x s).sum) t ((IID.mk d).iidLogDensityFallback xs) :=
  Tracks.sum xs h

theorem list_sum_const_add (ps : List ((ℝ → ℝ) × Dual XReal)) (f : ((ℝ → ℝ) × Dual XReal) → ℝ) (c : ℝ) :
    (ps.map fun p => c + f p).sum = ps.length * c + (ps.map f).sum := by
  induction ps with
  | nil => simp
  | cons p ps ih =>
    simp only [List.map_cons, List.sum_cons, List.length_cons, ih]
    push_cast
    ring

/-- **C120.** A normal sample, evaluated through the decomposition (`log_density_iid`): the points are given
with the functions they describe. -/
theorem C120_normal_iid {μ σ : ℝ → ℝ} {dμ dσ : Dual XReal} (hμ : Tracks μ t dμ) (hσ : Tracks σ t dσ)
    (ps : List ((ℝ → ℝ) × Dual XReal)) (hp : ∀ p ∈ ps, Tracks p.1 t p.2)
    {d : Normal (Dual XReal)} (h : Normal.new dμ dσ = .ok d) :
    Tracks (fun s => (ps.map fun p => Real.log (gaussianPDFReal (μ s) (σ s ^ 2).toNNReal (p.1 s))).sum) t
      (d.logDensityIid (ps.map (·.2))) := by
  have h' := h
  unfold Normal.new at h
  split_ifs at h with h0
  obtain rfl := (Except.ok.inj h)
  have h0' := Tracks.log_pos hσ h0
  have hmix := Tracks.sum (t := t) ps (f := fun p s => -(((1/2 : ℚ)) : ℝ) * ((p.1 s - μ s) / σ s) * ((p.1 s - μ s) / σ s))
    (d := fun p => FloatOps.sum [FloatOps.neg (FloatOps.ofRat (1/2)) *. ((p.2 -. dμ) /. dσ) *. ((p.2 -. dμ) /. dσ)])
    (fun p hm => by
      have hz := ((hp p hm).sub hμ).div hσ h0'.ne'
      have := (Tracks.zero t).add (((ofRat (1/2) t).neg.mul hz).mul hz)
      exact this.congr fun s => by ring)
  have hpar := (Tracks.zero t).add (hσ.ln h0').neg
  have hcon := (Tracks.zero t).add ((ofRat (1/2) t).neg.mul (((ofRat 2 t).mul (Tracks.pi t)).ln (by simp [Real.pi_pos])))
  have hdat := Tracks.sum (t := t) ps (f := fun _ _ => (0 : ℝ)) (d := fun _ => FloatOps.sum [])
    (fun p _ => Tracks.zero t)
  have hn := ofNat ps.length t
  have key := ((hdat.add (hn.mul hpar)).add hmix).add (hn.mul hcon)
  simp only [Normal.logDensityIid, Normal.decomposition, Decomposition.evaluateIid, Decomposition.new,
    Decomposition.addParamTerm, Decomposition.addMixedTerm, Decomposition.addConstant, Normal.params,
    List.nil_append, List.map_cons, List.map_nil, List.length_map, List.map_map]
  refine Tracks.congr' key ((hσ.pos h0').mono fun s hs => ?_)
  have e1 : ∀ p : (ℝ → ℝ) × Dual XReal, Real.log (gaussianPDFReal (μ s) (σ s ^ 2).toNNReal (p.1 s)) =
      (-(1/2) * Real.log (2 * Real.pi) - Real.log (σ s)) +
        (-(((1/2 : ℚ)) : ℝ) * ((p.1 s - μ s) / σ s) * ((p.1 s - μ s) / σ s)) := by
    intro p
    have e := (C09_normal_density (μ := μ s) (σ := σ s) (d := ⟨fin (μ s), fin (σ s)⟩)
      (by simp [Normal.new, hs])).1 (p.1 s)
    rw [Normal.ld hs, density_fin] at e
    rw [← e, Real.log_exp]
    push_cast
    ring
  simp only [e1]
  rw [list_sum_const_add]
  simp
  ring

/-- **C120.** A Cauchy sample through the decomposition. -/
theorem C120_cauchy_iid {l c : ℝ → ℝ} {dl dc : Dual XReal} (hl : Tracks l t dl) (hc : Tracks c t dc)
    (ps : List ((ℝ → ℝ) × Dual XReal)) (hp : ∀ p ∈ ps, Tracks p.1 t p.2)
    {d : Cauchy (Dual XReal)} (h : Cauchy.new dl dc = .ok d) :
    Tracks (fun s => (ps.map fun p => Real.log (cauchyPDFReal (l s) (c s).toNNReal (p.1 s))).sum) t
      (d.logDensityIid (ps.map (·.2))) := by
  unfold Cauchy.new at h
  split_ifs at h with h0
  obtain rfl := (Except.ok.inj h)
  have h0' := Tracks.log_pos hc h0
  have hpz : ∀ z : ℝ, 0 < 1 + z * z := fun z => by nlinarith [mul_self_nonneg z]
  have hmix := Tracks.sum (t := t) ps (f := fun p s => -Real.log (1 + (p.1 s - l s) / c s * ((p.1 s - l s) / c s)))
    (d := fun p => FloatOps.sum [FloatOps.neg (FloatOps.ln (FloatOps.one +. ((p.2 -. dl) /. dc) *. ((p.2 -. dl) /. dc)))])
    (fun p hm => by
      have hz := ((hp p hm).sub hl).div hc h0'.ne'
      have := (Tracks.zero t).add (((Tracks.one t).add (hz.mul hz)).ln (hpz _)).neg
      exact this.congr fun s => by ring)
  have hpar := (Tracks.zero t).add (hc.ln h0').neg
  have hcon := (Tracks.zero t).add ((Tracks.pi t).ln Real.pi_pos).neg
  have hdat := Tracks.sum (t := t) ps (f := fun _ _ => (0 : ℝ)) (d := fun _ => FloatOps.sum [])
    (fun p _ => Tracks.zero t)
  have hn := ofNat ps.length t
  have key := ((hdat.add (hn.mul hpar)).add hmix).add (hn.mul hcon)
  simp only [Cauchy.logDensityIid, Cauchy.decomposition, Decomposition.evaluateIid, Decomposition.new,
    Decomposition.addParamTerm, Decomposition.addMixedTerm, Decomposition.addConstant, Cauchy.params,
    List.nil_append, List.map_cons, List.map_nil, List.length_map, List.map_map]
  refine Tracks.congr' key ((hc.pos h0').mono fun s hs => ?_)
  have e1 : ∀ p : (ℝ → ℝ) × Dual XReal, Real.log (cauchyPDFReal (l s) (c s).toNNReal (p.1 s)) =
      (-Real.log Real.pi - Real.log (c s)) +
        -Real.log (1 + (p.1 s - l s) / c s * ((p.1 s - l s) / c s)) := by
    intro p
    have e := (C14_cauchy_density (l := l s) (s := c s) (d := ⟨fin (l s), fin (c s)⟩)
      (by simp [Cauchy.new, hs])).1 (p.1 s)
    rw [Cauchy.ld hs, density_fin] at e
    rw [← e, Real.log_exp]
    ring
  simp only [e1]
  rw [list_sum_const_add]
  simp
  ring

/-! ### Final-tagless programs -/

theorem graphValue_tracks {σ : String → Dual XReal} {ρ : String → ℝ → ℝ} (g : JitRepr (Dual XReal))
    (hv : ∀ n, Tracks (ρ n) t (σ n)) (hs : SmoothAt ρ t g) :
    Tracks (curveValue ρ g) t (graphValue σ g) := by
  induction g with
  | constant c =>
    obtain ⟨r, rfl⟩ := hs
    exact const r t
  | named n => exact hv n
  | add l r ihl ihr => exact (ihl hs.1).add (ihr hs.2)
  | sub l r ihl ihr => exact (ihl hs.1).sub (ihr hs.2)
  | mul l r ihl ihr => exact (ihl hs.1).mul (ihr hs.2)
  | div l r ihl ihr => exact (ihl hs.1).div (ihr hs.2.1) hs.2.2
  | pow l r ihl ihr =>
    obtain ⟨h1, h2, h3 | ⟨n, hn, rfl⟩⟩ := hs
    · exact (ihl h1).powf_pos (ihr h2) h3
    · exact (ihl h1).powf_nat hn
  | neg e ih => exact (ih hs).neg
  | ln e ih => exact (ih hs.1).ln hs.2
  | exp e ih => exact (ih hs).exp
  | sqrt e ih => exact (ih hs.1).sqrt hs.2
  | sin e ih => exact (ih hs).sin
  | cos e ih => exact (ih hs).cos

/-- **C120.** Any final-tagless program, run by the direct evaluator on dual numbers, returns the value and the
derivative of the function its formula describes. -/
theorem C120_tagless (p : Program (Dual XReal)) (hp : Parametric p) {σ : String → Dual XReal}
    {ρ : String → ℝ → ℝ} (hv : ∀ n, Tracks (ρ n) t (σ n))
    (hs : SmoothAt ρ t (p (JitRepr (Dual XReal)) jitEval .named)) :
    Tracks (curveValue ρ (p (JitRepr (Dual XReal)) jitEval .named)) t (p (Dual XReal) directEval σ) := by
  rw [C65_interpreters_agree p hp]
  exact graphValue_tracks _ hv hs

/-- the hypotheses are met: `ln (x² + 1) / x` at `x = 2` -/
example : ∃ p : Program (Dual XReal), Parametric p ∧
    (p = fun _ E a => E.div (E.ln (E.add (E.pow (a "x") (E.constant (Dual.const (fin (2 : ℕ)))))
      (E.constant (Dual.const (fin 1))))) (a "x")) ∧
    (∀ n : String, Tracks (fun s => s) 2 ((fun _ => ⟨fin 2, fin 1⟩ : String → Dual XReal) n)) ∧
    SmoothAt (fun _ s => s) 2 (p (JitRepr (Dual XReal)) jitEval .named) := by
  refine ⟨_, ?_, rfl, fun _ => Tracks.id 2, ?_⟩
  · intro R S rel E E' a b h hab
    exact h.div _ _ _ _ (h.ln _ _ (h.add _ _ _ _ (h.pow _ _ _ _ (hab _) (h.constant _)) (h.constant _))) (hab _)
  · refine ⟨⟨⟨⟨trivial, ⟨_, rfl⟩, .inr ⟨2, by norm_num, rfl⟩⟩, ⟨_, rfl⟩⟩, ?_⟩, trivial, ?_⟩
    · simp [curveValue, jitEval, Dual.const]
      positivity
    · simp [curveValue]

end Verif
