import Verif.Props.Product
import Verif.Spec.Pushforward
import Mathlib.MeasureTheory.Function.Jacobian
import Mathlib.Analysis.SpecialFunctions.Log.Deriv
import Mathlib.Analysis.SpecialFunctions.ExpDeriv

/-!
# C33: pushforward measures
-/

namespace Verif
open FloatOps XReal Spec MeasureTheory

/-- The change-of-variables formula for any transform that is correct in the sense of the
specification, any base measure with a proper log-density. -/
theorem isPushforward_of {M : Type} [HasLogDensity M XReal XReal] {base : M} {t : Transform XReal}
    {dom img : Set ℝ} (hb : Proper (fun x : ℝ => fin x) base) (hi : MutuallyInverse t dom img)
    (hj : JacobianCorrect t img) : IsPushforward base t dom img := by
  intro A hA hmA
  choose! d hd0 hd hJ using hj
  set inv : ℝ → ℝ := fun z => (t.inverse (fin z)).toReal with hinv
  have hinvA : ∀ y ∈ A, t.inverse (fin y) = fin (inv y) := by
    intro y hy
    obtain ⟨x, -, h1, -⟩ := hi.2 y (hA hy)
    rw [hinv]; simp [h1]
  have hinj : Set.InjOn inv A := by
    intro y hy z hz h
    obtain ⟨x, -, h1, h2⟩ := hi.2 y (hA hy)
    obtain ⟨x', -, h1', h2'⟩ := hi.2 z (hA hz)
    have e : x = x' := by
      have := h
      simp only [hinv, h1, h1', toReal_fin] at this
      exact this
    subst e
    rw [h2] at h2'
    exact XReal.fin.inj h2'
  have hset : {x | x ∈ dom ∧ ∃ y ∈ A, t.forward (fin x) = fin y} = inv '' A := by
    ext x
    constructor
    · rintro ⟨hx, y, hy, hf⟩
      refine ⟨y, hy, ?_⟩
      obtain ⟨y', -, h1, h2⟩ := hi.1 x hx
      rw [hf] at h1
      rw [XReal.fin.inj h1]
      simp [hinv, h2]
    · rintro ⟨y, hy, rfl⟩
      obtain ⟨x, hx, h1, h2⟩ := hi.2 y (hA hy)
      have : inv y = x := by simp [hinv, h1]
      exact ⟨this ▸ hx, y, hy, by rw [this, h2]⟩
  rw [hset, lintegral_image_eq_lintegral_abs_deriv_mul hmA
    (fun y hy => (hd y (hA hy)).hasDerivWithinAt) hinj]
  refine setLIntegral_congr_fun hmA fun y hy => ?_
  show ENNReal.ofReal (density (logDensityWrtRoot base (t.inverse (fin y)) +. t.logAbsDetJacobian (fin y))) = _
  rw [hinvA y hy, hJ y (hA hy), (density_add (hb (inv y)) (Or.inl (isFin_fin _))).1, density_fin,
    Real.exp_log (abs_pos.mpr (hd0 y (hA hy))), mul_comm, ENNReal.ofReal_mul (abs_nonneg _)]

/-- **C33**, log transform: `(0,∞) → ℝ`. -/
theorem C33_log_transform :
    MutuallyInverse Transform.logT (Set.Ioi 0) Set.univ ∧ JacobianCorrect Transform.logT Set.univ ∧
    ∀ {M : Type} [HasLogDensity M XReal XReal] (base : M), Proper (fun x : ℝ => fin x) base →
      IsPushforward base Transform.logT (Set.Ioi 0) Set.univ := by
  have h1 : MutuallyInverse Transform.logT (Set.Ioi 0) Set.univ := by
    refine ⟨fun x hx => ⟨Real.log x, trivial, f_ln x hx, ?_⟩, fun y _ => ⟨Real.exp y, Real.exp_pos y, rfl, ?_⟩⟩
    · show fin (Real.exp (Real.log x)) = _
      rw [Real.exp_log hx]
    · show FloatOps.ln (fin (Real.exp y)) = _
      rw [f_ln _ (Real.exp_pos y), Real.log_exp]
  have h2 : JacobianCorrect Transform.logT Set.univ := by
    intro y _
    refine ⟨Real.exp y, (Real.exp_pos y).ne', Real.hasDerivAt_exp y, ?_⟩
    show fin y = _
    rw [abs_of_pos (Real.exp_pos y), Real.log_exp]
  exact ⟨h1, h2, fun base hb => isPushforward_of hb h1 h2⟩

/-- **C33**, exp transform: `ℝ → (0,∞)`. -/
theorem C33_exp_transform :
    MutuallyInverse Transform.expT Set.univ (Set.Ioi 0) ∧ JacobianCorrect Transform.expT (Set.Ioi 0) ∧
    ∀ {M : Type} [HasLogDensity M XReal XReal] (base : M), Proper (fun x : ℝ => fin x) base →
      IsPushforward base Transform.expT Set.univ (Set.Ioi 0) := by
  have h1 : MutuallyInverse Transform.expT Set.univ (Set.Ioi 0) := by
    refine ⟨fun x _ => ⟨Real.exp x, Real.exp_pos x, rfl, ?_⟩, fun y hy => ⟨Real.log y, trivial, f_ln y hy, ?_⟩⟩
    · show FloatOps.ln (fin (Real.exp x)) = _
      rw [f_ln _ (Real.exp_pos x), Real.log_exp]
    · show fin (Real.exp (Real.log y)) = _
      rw [Real.exp_log hy]
  have h2 : JacobianCorrect Transform.expT (Set.Ioi 0) := by
    intro y hy
    have hy : 0 < y := hy
    refine ⟨y⁻¹, (inv_pos.mpr hy).ne', ?_, ?_⟩
    · refine (Real.hasDerivAt_log hy.ne').congr_of_eventuallyEq ?_
      filter_upwards [lt_mem_nhds hy] with z hz
      show (FloatOps.ln (fin z)).toReal = _
      rw [f_ln z hz, toReal_fin]
    · show FloatOps.neg (FloatOps.ln (fin y)) = _
      rw [f_ln y hy, f_neg, abs_of_pos (inv_pos.mpr hy), Real.log_inv]
  exact ⟨h1, h2, fun base hb => isPushforward_of hb h1 h2⟩

/-- **C33**, linear transform `a x + b` for every nonzero `a` (either sign) and every `b`. -/
theorem C33_linear_transform (a b : ℝ) (ha : a ≠ 0) :
    MutuallyInverse (Transform.linearT (fin a) (fin b)) Set.univ Set.univ ∧
    JacobianCorrect (Transform.linearT (fin a) (fin b)) Set.univ ∧
    ∀ {M : Type} [HasLogDensity M XReal XReal] (base : M), Proper (fun x : ℝ => fin x) base →
      IsPushforward base (Transform.linearT (fin a) (fin b)) Set.univ Set.univ := by
  have hfwd : ∀ x, (Transform.linearT (fin a) (fin b)).forward (fin x) = fin (a * x + b) := fun _ => rfl
  have hinv : ∀ y, (Transform.linearT (fin a) (fin b)).inverse (fin y) = fin ((y - b) / a) := by
    intro y
    show ((fin y -. fin b) /. fin a) = _
    rw [f_sub, f_div _ _ ha]
  have h1 : MutuallyInverse (Transform.linearT (fin a) (fin b)) Set.univ Set.univ := by
    refine ⟨fun x _ => ⟨_, trivial, hfwd x, ?_⟩, fun y _ => ⟨_, trivial, hinv y, ?_⟩⟩
    · rw [hinv]; congr 1; field_simp; ring
    · rw [hfwd]; congr 1; field_simp; ring
  have h2 : JacobianCorrect (Transform.linearT (fin a) (fin b)) Set.univ := by
    intro y _
    refine ⟨a⁻¹, inv_ne_zero ha, ?_, ?_⟩
    · simp only [hinv, toReal_fin]
      have := ((hasDerivAt_id y).sub_const b).div_const a
      simpa using this
    · show FloatOps.neg (FloatOps.ln (FloatOps.abs (fin a))) = _
      rw [f_abs, f_ln _ (abs_pos.mpr ha), f_neg, abs_inv, Real.log_inv]
  exact ⟨h1, h2, fun base hb => isPushforward_of hb h1 h2⟩

/-- **C33**, logit transform: `(0,1) → ℝ`. -/
theorem C33_logit_transform :
    MutuallyInverse Transform.logitT (Set.Ioo 0 1) Set.univ ∧ JacobianCorrect Transform.logitT Set.univ ∧
    ∀ {M : Type} [HasLogDensity M XReal XReal] (base : M), Proper (fun x : ℝ => fin x) base →
      IsPushforward base Transform.logitT (Set.Ioo 0 1) Set.univ := by
  have hp : ∀ y : ℝ, 0 < 1 + Real.exp y := fun y => by linarith [Real.exp_pos y]
  have hinv : ∀ y : ℝ, (Transform.logitT : Transform XReal).inverse (fin y)
      = fin (Real.exp y / (1 + Real.exp y)) := by
    intro y
    show (fin (Real.exp y) /. (fin 1 +. fin (Real.exp y))) = _
    rw [f_add, f_div _ _ (hp y).ne']
  have hfwd : ∀ x : ℝ, x ∈ Set.Ioo (0:ℝ) 1 → (Transform.logitT : Transform XReal).forward (fin x)
      = fin (Real.log (x / (1 - x))) := by
    intro x hx
    have h1 : 0 < 1 - x := by linarith [hx.2]
    show FloatOps.ln (fin x /. (fin 1 -. fin x)) = _
    rw [f_sub, f_div _ _ h1.ne', f_ln _ (div_pos hx.1 h1)]
  have hmem : ∀ y : ℝ, Real.exp y / (1 + Real.exp y) ∈ Set.Ioo (0:ℝ) 1 := by
    intro y
    refine ⟨div_pos (Real.exp_pos y) (hp y), ?_⟩
    rw [div_lt_one (hp y)]; linarith
  have h1 : MutuallyInverse Transform.logitT (Set.Ioo 0 1) Set.univ := by
    refine ⟨fun x hx => ⟨_, trivial, hfwd x hx, ?_⟩, fun y _ => ⟨_, hmem y, hinv y, ?_⟩⟩
    · have h1 : 0 < 1 - x := by linarith [hx.2]
      rw [hinv, Real.exp_log (div_pos hx.1 h1)]
      congr 1
      field_simp
      ring
    · rw [hfwd _ (hmem y)]
      congr 1
      have : Real.exp y / (1 + Real.exp y) / (1 - Real.exp y / (1 + Real.exp y)) = Real.exp y := by
        have := hp y
        field_simp
        ring
      rw [this, Real.log_exp]
  have h2 : JacobianCorrect Transform.logitT Set.univ := by
    intro y _
    have hd : 0 < Real.exp y / (1 + Real.exp y) ^ 2 := div_pos (Real.exp_pos y) (pow_pos (hp y) 2)
    refine ⟨Real.exp y / (1 + Real.exp y) ^ 2, hd.ne', ?_, ?_⟩
    · simp only [hinv, toReal_fin]
      have := (Real.hasDerivAt_exp y).div ((Real.hasDerivAt_exp y).const_add 1) (hp y).ne'
      have e : Real.exp y * (1 + Real.exp y) - Real.exp y * Real.exp y = Real.exp y := by ring
      rw [e] at this
      exact this
    · show (FloatOps.neg (fin y) -. FloatOps.ln (fin 1 +. FloatOps.exp (FloatOps.neg (fin y)))
        -. FloatOps.ln (fin 1 +. FloatOps.exp (FloatOps.neg (fin y)))) = _
      simp only [f_neg, f_exp, f_add]
      rw [f_ln _ (hp _), f_sub, f_sub, abs_of_pos hd]
      congr 1
      have e : 1 + Real.exp (-y) = (1 + Real.exp y) / Real.exp y := by
        rw [Real.exp_neg]
        have := (Real.exp_pos y).ne'
        field_simp
        ring
      rw [e, Real.log_div (hp y).ne' (Real.exp_pos y).ne', Real.log_div (Real.exp_pos y).ne'
        (pow_pos (hp y) 2).ne', Real.log_pow, Real.log_exp]
      push_cast
      ring
  exact ⟨h1, h2, fun base hb => isPushforward_of hb h1 h2⟩

/-- **C33**, instance: pushing any accepted Normal through `exp` gives a density of total mass one on the
positive reals (the log-normal). -/
theorem C33_log_normal (μ σ : ℝ) (d : Normal XReal) (h : Normal.new (fin μ) (fin σ) = .ok d) :
    ∫⁻ y in Set.Ioi (0:ℝ), ENNReal.ofReal (density (logDensityWrtRoot (pushforward d (Transform.expT : Transform XReal)) (fin y)))
      = 1 := by
  have hm := (C09_normal_density h).2.2
  have hp := (C09_normal_density h).2.1
  rw [C33_exp_transform.2.2 d hp (Set.Ioi 0) (le_refl _) measurableSet_Ioi]
  have : {x : ℝ | x ∈ Set.univ ∧ ∃ y ∈ Set.Ioi (0:ℝ), (Transform.expT : Transform XReal).forward (fin x) = fin y}
      = Set.univ := by
    ext x
    simp only [Set.mem_univ, true_and, Set.mem_ofPred_eq, iff_true]
    exact ⟨Real.exp x, Real.exp_pos x, rfl⟩
  rw [this, setLIntegral_univ]
  exact hm

example : ∃ d, Normal.new (fin 0) (fin 1) = .ok d ∧ Proper (fun x : ℝ => fin x) d := by
  have h : Normal.new (fin 0) (fin 1) = .ok ⟨fin 0, fin 1⟩ := by simp [Normal.new]
  exact ⟨_, h, (C09_normal_density h).2.1⟩

/-- **C33** violated off the image: for every accepted Normal, every `y ≤ 0` is reported to be in the
support of its exponential, but the log-density there is NaN rather than `-∞`. -/
theorem C33_off_image_violated (μ σ : ℝ) (d : Normal XReal) (h : Normal.new (fin μ) (fin σ) = .ok d)
    (y : ℝ) (hy : y ≤ 0) :
    Measure.inSupport (pushforward d (Transform.expT : Transform XReal)) (fin y) = true ∧
    (logDensityWrtRoot (pushforward d (Transform.expT : Transform XReal)) (fin y) : XReal) = XReal.nan := by
  obtain ⟨hσ, rfl⟩ := Normal.new_ok h
  refine ⟨rfl, ?_⟩
  show (logDensityWrtRoot (⟨fin μ, fin σ⟩ : Normal XReal) (FloatOps.ln (fin y)) +.
    FloatOps.neg (FloatOps.ln (fin y))) = _
  rcases hy.lt_or_eq with hy | rfl
  · rw [f_ln_neg y hy]
    exact add_nan _
  · rw [f_ln_zero]
    have hz : ((ninf -. fin μ) /. fin σ) = ninf := by
      show XReal.div ninf (fin σ) = _
      simp [XReal.div, not_lt.mpr hσ.le]
    have hm : (fin (1/2) *. ninf *. ninf) = pinf := by
      have : (fin (1/2) *. ninf) = ninf := by
        show infOf (-(1/2)) = _
        norm_num [infOf]
      rw [this]; rfl
    have hld : (logDensityWrtRoot (⟨fin μ, fin σ⟩ : Normal XReal) ninf : XReal) = ninf := by
      show (FloatOps.neg (FloatOps.ofRat (1/2)) *. FloatOps.ln (FloatOps.ofRat 2 *. FloatOps.pi)
        -. FloatOps.ln (fin σ) -. FloatOps.ofRat (1/2) *. ((ninf -. fin μ) /. fin σ) *.
          ((ninf -. fin μ) /. fin σ)) = _
      rw [hz]
      simp only [f_ofRat, f_pi, f_mul, f_neg]
      push_cast
      rw [f_ln _ two_pi_pos', hm, f_ln σ hσ, f_mul, f_sub]
      rfl
    rw [hld]
    rfl

end Verif
