import Verif.Props.Bayesian
import Verif.Spec.Conjugate

/-!
# C114: the posterior expression of a normal model is the textbook posterior
-/

namespace Verif
open Classical Spec XReal ProbabilityTheory Bayes MeasureTheory

/-- The posterior expression for several observations: one likelihood per observed variable, added by
`posterior_log_density` to what came before, starting from the prior of the mean. -/
noncomputable def observeAll (mv sv : String) (prior : Expr XReal) (obs : List String) : Expr XReal :=
  obs.foldl (fun acc xv => posteriorLogDensity (normalLikelihood xv mv sv) acc) prior

theorem Belief.update_var_pos {w : ℝ} (hw : 0 < w) {b : Belief} (hb : 0 < b.var) (x : ℝ) :
    0 < (b.update w x).var := by
  show 0 < b.var - b.var / (b.var + w) * b.var
  have : b.var - b.var / (b.var + w) * b.var = b.var * w / (b.var + w) := by field_simp; ring
  rw [this]; positivity

theorem pdf_eq {m v x : ℝ} (hv : 0 < v) :
    gaussianPDFReal m v.toNNReal x = (√(2 * Real.pi * v))⁻¹ * Real.exp (-(x - m) ^ 2 / (2 * v)) := by
  rw [gaussianPDFReal, Real.coe_toNNReal v hv.le]

theorem pdf_pos {m v x : ℝ} (hv : 0 < v) : 0 < gaussianPDFReal m v.toNNReal x :=
  gaussianPDFReal_pos _ _ _ (by simpa using hv)

/-- Likelihood times prior is the predictive density times the updated belief. -/
theorem bayes_step {w : ℝ} (hw : 0 < w) {b : Belief} (hb : 0 < b.var) (m x : ℝ) :
    gaussianPDFReal m w.toNNReal x * gaussianPDFReal b.mean b.var.toNNReal m =
      gaussianPDFReal b.mean (b.var + w).toNNReal x *
        gaussianPDFReal (b.update w x).mean (b.update w x).var.toNNReal m := by
  have hv' := Belief.update_var_pos hw hb x
  have hs : 0 < b.var + w := by linarith
  rw [pdf_eq hw, pdf_eq hb, pdf_eq hs, pdf_eq hv']
  obtain ⟨m0, v⟩ := b
  dsimp only at hb hs
  have ev : (Belief.update w ⟨m0, v⟩ x).var = v * w / (v + w) := by
    show v - v / (v + w) * v = _
    field_simp; ring
  have em : (Belief.update w ⟨m0, v⟩ x).mean = (m0 * w + v * x) / (v + w) := by
    show m0 + v / (v + w) * (x - m0) = _
    field_simp; ring
  rw [ev, em]
  have h1 : (√(2 * Real.pi * w))⁻¹ * (√(2 * Real.pi * v))⁻¹
      = (√(2 * Real.pi * (v + w)))⁻¹ * (√(2 * Real.pi * (v * w / (v + w))))⁻¹ := by
    rw [← mul_inv, ← mul_inv, ← Real.sqrt_mul (by positivity), ← Real.sqrt_mul (by positivity)]
    congr 2
    field_simp
  have h2 : -(x - m) ^ 2 / (2 * w) + -(m - m0) ^ 2 / (2 * v)
      = -(x - m0) ^ 2 / (2 * (v + w)) + -(m - (m0 * w + v * x) / (v + w)) ^ 2 / (2 * (v * w / (v + w))) := by
    field_simp
    ring
  have e : ∀ a b c d : ℝ, a * b * (c * d) = a * c * (b * d) := fun a b c d => by ring
  dsimp only
  rw [e, ← Real.exp_add, h1, h2, Real.exp_add, ← e]

theorem evidence_pos {w : ℝ} (hw : 0 < w) : ∀ (xs : List ℝ) {b : Belief}, 0 < b.var → 0 < b.evidence w xs
  | [], _, _ => one_pos
  | x :: xs, _, hb => mul_pos (pdf_pos (by linarith)) (evidence_pos hw xs (Belief.update_var_pos hw hb x))

theorem bayes_steps {s : ℝ} (hs : 0 < s) (mv sv : String) {m : ℝ} {ρ : String → Option ℝ} (hm : ρ mv = some m)
    (hs' : ρ sv = some s) {obs : List String} {xs : List ℝ}
    (hobs : List.Forall₂ (fun n x => ρ n = some x) obs xs) :
    ∀ (prior : Expr XReal) (b : Belief) (c : ℝ), 0 < b.var → 0 < c →
      Denotes ρ prior (Real.log (c * gaussianPDFReal b.mean b.var.toNNReal m)) →
      Denotes ρ (observeAll mv sv prior obs) (Real.log (c * b.evidence (s ^ 2) xs * gaussianPDFReal
        (xs.foldl (Belief.update (s ^ 2)) b).mean (xs.foldl (Belief.update (s ^ 2)) b).var.toNNReal m)) := by
  induction hobs with
  | nil =>
    intro prior b c hb hc h
    show Denotes ρ prior (Real.log (c * 1 * gaussianPDFReal b.mean b.var.toNNReal m))
    rwa [mul_one]
  | @cons n x obs xs hx hobs ih =>
    intro prior b c hb hc hp
    have hw : 0 < s ^ 2 := by positivity
    have hb' := Belief.update_var_pos hw hb x
    have hc' : 0 < c * gaussianPDFReal b.mean (b.var + s ^ 2).toNNReal x :=
      mul_pos hc (pdf_pos (by linarith))
    have h := ih (posteriorLogDensity (normalLikelihood n mv sv) prior) (b.update (s ^ 2) x) _ hb' hc' ?_
    · rwa [mul_assoc c] at h
    have hl := C71_normal_likelihood n mv sv hx hm hs' hs
    have := C71_posterior _ _ hl.1 hp.1
    have hg : gauss m s x ≠ 0 := (pdf_pos hw).ne'
    rw [← Real.log_mul hg (mul_pos hc (pdf_pos hb)).ne'] at this
    have e : gauss m s x * (c * gaussianPDFReal b.mean b.var.toNNReal m)
        = c * gaussianPDFReal b.mean (b.var + s ^ 2).toNNReal x *
          gaussianPDFReal (b.update (s ^ 2) x).mean (b.update (s ^ 2) x).var.toNNReal m := by
      rw [mul_assoc, ← bayes_step hw hb m x]
      show gaussianPDFReal m (s ^ 2).toNNReal x * _ = _
      ring
    rwa [e] at this

/-- **C114**: for any number of observations with known scale and a normal prior on the mean, the
posterior expression built from `normal_prior`, `normal_likelihood` and `posterior_log_density` denotes
the logarithm of the evidence times the textbook posterior density of the mean. -/
theorem C114_posterior (mv sv : String) (m₀ s₀ s m : ℝ) (h₀ : 0 < s₀) (hs : 0 < s) (obs : List String)
    (xs : List ℝ) (ρ : String → Option ℝ) (hm : ρ mv = some m) (hsv : ρ sv = some s)
    (hobs : List.Forall₂ (fun n x => ρ n = some x) obs xs) :
    Denotes ρ (observeAll mv sv (normalPrior mv (fin m₀) (fin s₀)) obs)
      (Real.log (Belief.evidence (s ^ 2) ⟨m₀, s₀ ^ 2⟩ xs *
        gaussianPDFReal (xs.foldl (Belief.update (s ^ 2)) ⟨m₀, s₀ ^ 2⟩).mean
          (xs.foldl (Belief.update (s ^ 2)) ⟨m₀, s₀ ^ 2⟩).var.toNNReal m)) := by
  have h := bayes_steps hs mv sv hm hsv hobs (normalPrior mv (fin m₀) (fin s₀)) ⟨m₀, s₀ ^ 2⟩ 1
    (by positivity) one_pos ?_
  · rwa [one_mul] at h
  rw [one_mul]
  exact C71_normal_prior mv m₀ s₀ hm h₀

/-- The updated belief in closed form: precisions add, and the mean is the average of prior mean and
observations weighted by their precisions; so the order of the observations does not matter. -/
theorem C114_closed_form (m₀ v w : ℝ) (hv : 0 < v) (hw : 0 < w) (xs : List ℝ) :
    0 < (xs.foldl (Belief.update w) ⟨m₀, v⟩).var ∧
    1 / (xs.foldl (Belief.update w) ⟨m₀, v⟩).var = 1 / v + xs.length / w ∧
    (xs.foldl (Belief.update w) ⟨m₀, v⟩).mean = (m₀ / v + xs.sum / w) / (1 / v + xs.length / w) := by
  have key : ∀ (xs : List ℝ) (b : Belief), 0 < b.var → 0 < (xs.foldl (Belief.update w) b).var ∧
      1 / (xs.foldl (Belief.update w) b).var = 1 / b.var + xs.length / w ∧
      (xs.foldl (Belief.update w) b).mean / (xs.foldl (Belief.update w) b).var = b.mean / b.var + xs.sum / w := by
    intro xs
    induction xs with
    | nil => intro b hb; simp [hb]
    | cons x xs ih =>
      intro b hb
      obtain ⟨h1, h2, h3⟩ := ih (b.update w x) (Belief.update_var_pos hw hb x)
      have ev : (b.update w x).var = b.var * w / (b.var + w) := by
        show b.var - b.var / (b.var + w) * b.var = _
        field_simp; ring
      have em : (b.update w x).mean = (b.mean * w + b.var * x) / (b.var + w) := by
        show b.mean + b.var / (b.var + w) * (x - b.mean) = _
        field_simp; ring
      refine ⟨h1, ?_, ?_⟩
      · rw [List.foldl_cons, h2, ev, List.length_cons]
        push_cast
        field_simp
        ring
      · rw [List.foldl_cons, h3, ev, em, List.sum_cons]
        field_simp
        ring
  obtain ⟨h1, h2, h3⟩ := key xs ⟨m₀, v⟩ hv
  refine ⟨h1, h2, ?_⟩
  rw [← h2, ← h3]
  field_simp

/-- **C114** (normalisation): integrating the exponential of the posterior expression over the mean gives
the evidence, and dividing by it gives exactly the textbook posterior density. -/
theorem C114_normalised (mv sv : String) (m₀ s₀ s : ℝ) (h₀ : 0 < s₀) (hs : 0 < s) (obs : List String)
    (xs : List ℝ) (ρ : ℝ → String → Option ℝ) (hm : ∀ m, ρ m mv = some m) (hsv : ∀ m, ρ m sv = some s)
    (hobs : ∀ m, List.Forall₂ (fun n x => ρ m n = some x) obs xs) :
    ∃ post : ℝ → ℝ,
      (∀ m, Denotes (ρ m) (observeAll mv sv (normalPrior mv (fin m₀) (fin s₀)) obs) (post m)) ∧
      0 < ∫ m, Real.exp (post m) ∧
      ∫ m, Real.exp (post m) = Belief.evidence (s ^ 2) ⟨m₀, s₀ ^ 2⟩ xs ∧
      ∀ m, Real.exp (post m) / ∫ t, Real.exp (post t) =
        gaussianPDFReal (xs.foldl (Belief.update (s ^ 2)) ⟨m₀, s₀ ^ 2⟩).mean
          (xs.foldl (Belief.update (s ^ 2)) ⟨m₀, s₀ ^ 2⟩).var.toNNReal m := by
  have h := fun m => C114_posterior mv sv m₀ s₀ s m h₀ hs obs xs (ρ m) (hm m) (hsv m) (hobs m)
  have hv := (C114_closed_form m₀ (s₀ ^ 2) (s ^ 2) (by positivity) (by positivity) xs).1
  have hc : 0 < Belief.evidence (s ^ 2) ⟨m₀, s₀ ^ 2⟩ xs :=
    evidence_pos (by positivity) xs (show 0 < s₀ ^ 2 by positivity)
  generalize Belief.evidence (s ^ 2) ⟨m₀, s₀ ^ 2⟩ xs = c at hc h ⊢
  set b := xs.foldl (Belief.update (s ^ 2)) ⟨m₀, s₀ ^ 2⟩ with hb
  have he : ∀ m, Real.exp (Real.log (c * gaussianPDFReal b.mean b.var.toNNReal m))
      = c * gaussianPDFReal b.mean b.var.toNNReal m := fun m => Real.exp_log (mul_pos hc (pdf_pos hv))
  have hi : ∫ m, Real.exp (Real.log (c * gaussianPDFReal b.mean b.var.toNNReal m)) = c := by
    simp_rw [he]
    rw [integral_const_mul, integral_gaussianPDFReal_eq_one _ (by simpa using hv), mul_one]
  refine ⟨_, h, ?_, hi, fun m => ?_⟩
  · rw [hi]; exact hc
  · rw [hi, he]; field_simp

/-- the hypotheses are met: two observations -/
example : ∃ ρ : ℝ → String → Option ℝ, (∀ m, ρ m "mu" = some m) ∧ (∀ m, ρ m "sigma" = some 2) ∧
    ∀ m, List.Forall₂ (fun n x => ρ m n = some x) ["x1", "x2"] [1, 3] :=
  ⟨fun m n => if n = "mu" then some m else if n = "sigma" then some 2 else if n = "x1" then some 1 else some 3,
    fun m => by simp, fun m => by simp, fun m => by simp⟩

end Verif
