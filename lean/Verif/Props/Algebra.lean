import Verif.Spec.Algebra
import Verif.Props.Mixture
import Verif.Props.Pushforward
import Verif.Props.CoreDensity

/-!
# C137: the algebra of the combinators
-/

namespace Verif
open FloatOps XReal Spec

/-! ### Arithmetic of log-densities -/

theorem alg_add_fin (v : XReal) (a b : ℝ) : (v +. fin a) +. fin b = v +. fin (a + b) := by
  cases v with
  | fin x => rw [f_add, f_add, f_add, add_assoc]
  | _ => rfl

theorem alg_add_zero (v : XReal) : v +. fin 0 = v := by
  cases v with
  | fin x => rw [f_add, add_zero]
  | _ => rfl

theorem alg_sub_cancel (v w : XReal) (a : ℝ) : (v +. fin a) -. (w +. fin a) = v -. w := by
  cases v <;> cases w <;> first | rfl | skip
  rename_i x y
  show fin ((x + a) - (y + a)) = fin (x - y)
  congr 1; ring

theorem alg_eq_of_density {a b : XReal} (ha : IsLogDens a) (hb : IsLogDens b) (h : density a = density b) :
    a = b := by
  rcases ha with ⟨x, rfl⟩ | rfl <;> rcases hb with ⟨y, rfl⟩ | rfl
  · rw [density_fin, density_fin] at h
    rw [Real.exp_injective h]
  · exact absurd h (Real.exp_pos x).ne'
  · exact absurd h.symm (Real.exp_pos y).ne'
  · rfl

/-! ### Pushforwards -/

/-- **C137**, changes of variables compose as the maps do.  For every measure on the line, whatever its
log-density: pushing forward by exp and then by log, or by log and then by exp, gives the measure back;
pushing forward by two affine maps is pushing forward by their composition, and by the identity changes
nothing; shifting the logarithm is scaling the variable; reflecting the unit interval is reflecting the
log-odds. -/
theorem C137_pushforwards_compose {M : Type} [HasLogDensity M XReal XReal] (m : M) :
    (∀ y : ℝ, SameAt (pushforward (pushforward m (Transform.expT : Transform XReal)) (Transform.logT : Transform XReal)) m (fin y)) ∧
    (∀ y : ℝ, 0 < y →
      SameAt (pushforward (pushforward m (Transform.logT : Transform XReal)) (Transform.expT : Transform XReal)) m (fin y)) ∧
    (∀ a b c d y : ℝ, a ≠ 0 → c ≠ 0 →
      SameAt (pushforward (pushforward m (Transform.linearT (fin a) (fin b))) (Transform.linearT (fin c) (fin d)))
        (pushforward m (Transform.linearT (fin (c * a)) (fin (c * b + d)))) (fin y)) ∧
    (∀ y : ℝ, SameAt (pushforward m (Transform.linearT (fin 1) (fin 0))) m (fin y)) ∧
    (∀ a b y : ℝ, a ≠ 0 →
      SameAt (pushforward (pushforward m (Transform.linearT (fin a) (fin b)))
        (Transform.linearT (fin a⁻¹) (fin (-(a⁻¹ * b))))) m (fin y)) ∧
    (∀ c y : ℝ, 0 < c → 0 < y →
      SameAt (pushforward (pushforward (pushforward m (Transform.logT : Transform XReal))
          (Transform.linearT (fin 1) (fin (Real.log c)))) (Transform.expT : Transform XReal))
        (pushforward m (Transform.linearT (fin c) (fin 0))) (fin y)) ∧
    (∀ y : ℝ,
      SameAt (pushforward (pushforward m (Transform.linearT (fin (-1)) (fin 1))) (Transform.logitT : Transform XReal))
        (pushforward (pushforward m (Transform.logitT : Transform XReal)) (Transform.linearT (fin (-1)) (fin 0)))
        (fin y)) := by
  have lin : ∀ {N : Type} [HasLogDensity N XReal XReal] (n : N) (a b y : ℝ), a ≠ 0 →
      (logDensityWrtRoot (pushforward n (Transform.linearT (fin a) (fin b))) (fin y) : XReal)
        = logDensityWrtRoot n (fin ((y - b) / a)) +. fin (-Real.log |a|) := by
    intro N _ n a b y ha
    show logDensityWrtRoot n ((fin y -. fin b) /. fin a) +. FloatOps.neg (FloatOps.ln (FloatOps.abs (fin a))) = _
    rw [f_sub, f_div _ _ ha, f_abs, f_ln _ (abs_pos.mpr ha), f_neg]
  have lg : ∀ {N : Type} [HasLogDensity N XReal XReal] (n : N) (y : ℝ),
      (logDensityWrtRoot (pushforward n (Transform.logT : Transform XReal)) (fin y) : XReal)
        = logDensityWrtRoot n (fin (Real.exp y)) +. fin y := fun n y => rfl
  have ex : ∀ {N : Type} [HasLogDensity N XReal XReal] (n : N) (y : ℝ), 0 < y →
      (logDensityWrtRoot (pushforward n (Transform.expT : Transform XReal)) (fin y) : XReal)
        = logDensityWrtRoot n (fin (Real.log y)) +. fin (-Real.log y) := by
    intro N _ n y hy
    show logDensityWrtRoot n (FloatOps.ln (fin y)) +. FloatOps.neg (FloatOps.ln (fin y)) = _
    rw [f_ln _ hy, f_neg]
  have lo : ∀ {N : Type} [HasLogDensity N XReal XReal] (n : N) (y : ℝ),
      (logDensityWrtRoot (pushforward n (Transform.logitT : Transform XReal)) (fin y) : XReal)
        = logDensityWrtRoot n (fin (Real.exp y / (1 + Real.exp y)))
          +. fin (-y - Real.log (1 + Real.exp (-y)) - Real.log (1 + Real.exp (-y))) := by
    intro N _ n y
    have h1 : (1 + Real.exp y) ≠ 0 := by positivity
    have h2 : 0 < 1 + Real.exp (-y) := by positivity
    show logDensityWrtRoot n (fin (Real.exp y) /. (fin 1 +. fin (Real.exp y)))
      +. (fin (-y) -. FloatOps.ln (fin 1 +. fin (Real.exp (-y))) -. FloatOps.ln (fin 1 +. fin (Real.exp (-y)))) = _
    rw [f_add, f_add, f_div _ _ h1, f_ln _ h2, f_sub, f_sub]
  have comp : ∀ a b c d y : ℝ, a ≠ 0 → c ≠ 0 →
      SameAt (pushforward (pushforward m (Transform.linearT (fin a) (fin b))) (Transform.linearT (fin c) (fin d)))
        (pushforward m (Transform.linearT (fin (c * a)) (fin (c * b + d)))) (fin y) := by
    intro a b c d y ha hc
    unfold SameAt
    rw [lin _ c d y hc, lin _ a b _ ha, lin _ (c * a) _ y (mul_ne_zero hc ha), alg_add_fin, abs_mul,
      Real.log_mul (abs_pos.mpr hc).ne' (abs_pos.mpr ha).ne']
    congr 2
    · congr 1; field_simp; ring
    · ring
  have one : ∀ y : ℝ, SameAt (pushforward m (Transform.linearT (fin 1) (fin 0))) m (fin y) := by
    intro y
    unfold SameAt
    rw [lin _ 1 0 y one_ne_zero]
    simp only [sub_zero, div_one, abs_one, Real.log_one, neg_zero, alg_add_zero]
  refine ⟨fun y => ?_, fun y hy => ?_, comp, one, fun a b y ha => ?_, fun c y hc hy => ?_, fun y => ?_⟩
  · unfold SameAt
    rw [lg, ex _ _ (Real.exp_pos y), Real.log_exp, alg_add_fin, neg_add_cancel, alg_add_zero]
  · unfold SameAt
    rw [ex _ _ hy, lg, Real.exp_log hy, alg_add_fin, add_neg_cancel, alg_add_zero]
  · have := comp a b a⁻¹ (-(a⁻¹ * b)) y ha (inv_ne_zero ha)
    rw [inv_mul_cancel₀ ha, add_neg_cancel] at this
    exact this.trans (one y)
  · unfold SameAt
    rw [ex _ _ hy, lin _ 1 _ _ one_ne_zero, lg, lin _ c 0 y hc.ne', alg_add_fin, alg_add_fin, div_one,
      Real.exp_sub, Real.exp_log hy, Real.exp_log hc, abs_one, Real.log_one, abs_of_pos hc, sub_zero]
    congr 2; ring
  · unfold SameAt
    rw [lo, lin _ (-1) 1 _ (by norm_num), lin _ (-1) 0 y (by norm_num), lo, alg_add_fin, alg_add_fin]
    have e1 : ((y - 0) / -1 : ℝ) = -y := by ring
    have h1 : (0 : ℝ) < 1 + Real.exp y := by positivity
    have h2 : (0 : ℝ) < 1 + Real.exp (-y) := by positivity
    rw [e1, neg_neg]
    have e2 : Real.exp (-y) / (1 + Real.exp (-y)) = (Real.exp y / (1 + Real.exp y) - 1) / -1 := by
      rw [Real.exp_neg]
      have := Real.exp_pos y
      field_simp
      ring
    have e3 : Real.log (1 + Real.exp y) = y + Real.log (1 + Real.exp (-y)) := by
      have : 1 + Real.exp y = Real.exp y * (1 + Real.exp (-y)) := by
        rw [mul_add, ← Real.exp_add]; simp [add_comm]
      rw [this, Real.log_mul (Real.exp_pos y).ne' h2.ne', Real.log_exp]
    rw [e2, e3]
    congr 2; ring

/-- the theorem is not about an empty class: a log-normal is not its normal, and log undoes exp -/
example : ∃ m : Normal XReal, ∃ y : ℝ,
    SameAt (pushforward (pushforward m (Transform.expT : Transform XReal)) (Transform.logT : Transform XReal)) m (fin y) ∧
    ¬ SameAt (pushforward m (Transform.expT : Transform XReal)) m (fin y) := by
  refine ⟨⟨fin 0, fin 1⟩, 1, (C137_pushforwards_compose _).1 1, ?_⟩
  have e : (logDensityWrtRoot (pushforward (⟨fin 0, fin 1⟩ : Normal XReal) (Transform.expT : Transform XReal)) (fin 1) : XReal)
      = logDensityWrtRoot (⟨fin 0, fin 1⟩ : Normal XReal) (fin 0) := by
    show logDensityWrtRoot (⟨fin 0, fin 1⟩ : Normal XReal) (FloatOps.ln (fin 1)) +. FloatOps.neg (FloatOps.ln (fin 1)) = _
    rw [f_ln 1 one_pos, Real.log_one, f_neg, neg_zero, alg_add_zero]
  unfold SameAt
  rw [e, Normal.ld one_pos, Normal.ld one_pos]
  norm_num
  intro h
  linarith

/-! ### Relative densities -/

/-- **C137**, relative log-densities do not depend on the coordinates.  Pushing both measures forward by
the same transform leaves the relative log-density as it was, at the corresponding points; weights shift it
by their difference; and the relative log-density of two products is the sum of those of the factors. -/
theorem C137_relative_densities {M B T N C : Type} [Measure M XReal] [Measure B XReal] [HasLogDensity M XReal XReal]
    [HasLogDensity B XReal XReal] [Measure N T] [Measure C T] [HasLogDensity N T XReal] [HasLogDensity C T XReal]
    (lay : LogDensity.Layout) (hlay : lay.Apart) (addr : ℕ) (m : M) (b : B) (n : N) (c : C) (t : Transform XReal) :
    (∀ y : XReal, (t.logAbsDetJacobian y).IsFin →
      relLogDensity (F := XReal) lay addr (pushforward m t) (pushforward b t) y
        = relLogDensity lay addr m b (t.inverse y)) ∧
    (∀ (v w : ℝ) (x : T),
      relLogDensity (F := XReal) lay addr (⟨n, fin v⟩ : WeightedMeasure N XReal) (⟨c, fin w⟩ : WeightedMeasure C XReal) x
        = fin (v - w) +. relLogDensity lay addr n c x) ∧
    (∀ (x : XReal) (z : T),
      relLogDensity (F := XReal) lay addr (⟨m, n⟩ : ProductMeasure M N) (⟨b, c⟩ : ProductMeasure B C) (x, z)
        = relLogDensity lay addr m b x +. relLogDensity lay addr n c z) := by
  refine ⟨fun y hy => ?_, fun v w x => ?_, fun x z => ?_⟩
  · obtain ⟨j, hj⟩ := hy
    rw [C01_relative_log_density_apart_partial lay hlay, C01_relative_log_density_apart_partial lay hlay]
    show (logDensityWrtRoot m (t.inverse y) +. t.logAbsDetJacobian y)
      -. (logDensityWrtRoot b (t.inverse y) +. t.logAbsDetJacobian y) = _
    rw [hj, alg_sub_cancel]
  · rw [C01_relative_log_density_apart_partial lay hlay, C01_relative_log_density_apart_partial lay hlay]
    show (fin v +. logDensityWrtRoot n x) -. (fin w +. logDensityWrtRoot c x) = _
    generalize (logDensityWrtRoot n x : XReal) = p
    generalize (logDensityWrtRoot c x : XReal) = q
    cases p <;> cases q <;> first | rfl | skip
    rename_i p q
    show fin ((v + p) - (w + q)) = fin ((v - w) + (p - q))
    congr 1; ring
  · rw [C01_relative_log_density_apart_partial lay hlay, C01_relative_log_density_apart_partial lay hlay,
      C01_relative_log_density_apart_partial lay hlay]
    show (logDensityWrtRoot m x +. logDensityWrtRoot n z) -. (logDensityWrtRoot b x +. logDensityWrtRoot c z) = _
    generalize (logDensityWrtRoot m x : XReal) = p
    generalize (logDensityWrtRoot n z : XReal) = q
    generalize (logDensityWrtRoot b x : XReal) = r
    generalize (logDensityWrtRoot c z : XReal) = s
    cases p <;> cases q <;> cases r <;> cases s <;> first | rfl | skip
    rename_i p q r s
    show fin ((p + q) - (r + s)) = fin ((p - r) + (q - s))
    congr 1; ring

/-- hypotheses: a layout with the fields apart, and a transform with a finite Jacobian at a point -/
example : LogDensity.Layout.Apart ⟨0, 16, 16, 16, 32⟩ ∧
    ((Transform.expT : Transform XReal).logAbsDetJacobian (fin 2)).IsFin := by
  refine ⟨by unfold LogDensity.Layout.Apart; decide, ?_⟩
  show (FloatOps.neg (FloatOps.ln (fin 2)) : XReal).IsFin
  rw [f_ln 2 two_pos, f_neg]
  exact isFin_fin _

/-! ### Mixtures -/

theorem mix_density {M T : Type} [HasLogDensity M T XReal] (l : List (M × ℝ)) (x : T) (h : MixableAt l x) :
    density (logDensityWrtRoot (mix l) x) = (l.map fun p => p.2 * density (logDensityWrtRoot p.1 x)).sum ∧
    IsLogDens (logDensityWrtRoot (mix l) x) := by
  have e : (mix l) = (⟨l.map Prod.fst, (l.map Prod.snd).map fin⟩ : MixtureMeasure M XReal) := by
    simp [mix, List.map_map, Function.comp_def]
  rw [e]
  have := C34_mixture_density_partial (l.map Prod.fst) (l.map Prod.snd) x (by simp)
    (by
      intro w hw
      obtain ⟨p, hp, rfl⟩ := List.mem_map.mp hw
      exact (h p hp).1)
    (by
      intro c hc
      obtain ⟨p, hp, rfl⟩ := List.mem_map.mp hc
      exact (h p hp).2)
  refine ⟨this.1.trans ?_, this.2.2⟩
  rw [List.zipWith_map, List.zipWith_self]

/-- **C137**, mixtures.  For all components with proper log-densities at the point and all nonnegative
weights: a single component with weight one is that component; the order of the pairs does not matter;
repeated components add their weights; a component of weight zero can be dropped; and a mixture of
mixtures is the mixture of all components with multiplied weights. -/
theorem C137_mixtures {M T : Type} [HasLogDensity M T XReal] (x : T) :
    (∀ c : M, MixableAt [(c, 1)] x → SameAt (mix [(c, 1)]) c x) ∧
    (∀ l l' : List (M × ℝ), l.Perm l' → MixableAt l x → SameAt (mix l) (mix l') x) ∧
    (∀ (c : M) (v w : ℝ) (l : List (M × ℝ)), MixableAt ((c, v) :: (c, w) :: l) x →
      SameAt (mix ((c, v) :: (c, w) :: l)) (mix ((c, v + w) :: l)) x) ∧
    (∀ (c : M) (l : List (M × ℝ)), MixableAt ((c, 0) :: l) x → SameAt (mix ((c, 0) :: l)) (mix l) x) ∧
    (∀ l : List (List (M × ℝ) × ℝ), (∀ p ∈ l, 0 ≤ p.2 ∧ MixableAt p.1 x) →
      SameAt (mix (l.map fun p => (mix p.1, p.2)))
        (mix (l.flatMap fun p => p.1.map fun q => (q.1, p.2 * q.2))) x) := by
  refine ⟨fun c h => ?_, fun l l' hp h => ?_, fun c v w l h => ?_, fun c l h => ?_, fun l h => ?_⟩
  · have := mix_density _ x h
    refine alg_eq_of_density this.2 (h (c, 1) (by simp)).2 (this.1.trans ?_)
    simp
  · have h1 := mix_density _ x h
    have h2 := mix_density l' x fun p hp' => h p (hp.mem_iff.mpr hp')
    exact alg_eq_of_density h1.2 h2.2 (h1.1.trans ((hp.map _).sum_eq.trans h2.1.symm))
  · have h1 := mix_density _ x h
    have h2 := mix_density ((c, v + w) :: l) x (by
      intro p hp
      rcases List.mem_cons.mp hp with rfl | hp
      · exact ⟨add_nonneg (h (c, v) (by simp)).1 (h (c, w) (by simp)).1, (h (c, v) (by simp)).2⟩
      · exact h p (by simp [hp]))
    refine alg_eq_of_density h1.2 h2.2 (h1.1.trans (Eq.trans ?_ h2.1.symm))
    simp only [List.map_cons, List.sum_cons]
    ring
  · have h1 := mix_density _ x h
    have h2 := mix_density l x fun p hp => h p (by simp [hp])
    refine alg_eq_of_density h1.2 h2.2 (h1.1.trans (Eq.trans ?_ h2.1.symm))
    simp
  · have h1 := mix_density (l.map fun p => (mix p.1, p.2)) x (by
      intro p hp
      obtain ⟨q, hq, rfl⟩ := List.mem_map.mp hp
      exact ⟨(h q hq).1, (mix_density q.1 x (h q hq).2).2⟩)
    have h2 := mix_density (l.flatMap fun p => p.1.map fun q => (q.1, p.2 * q.2)) x (by
      intro p hp
      obtain ⟨q, hq, hp⟩ := List.mem_flatMap.mp hp
      obtain ⟨r, hr, rfl⟩ := List.mem_map.mp hp
      exact ⟨mul_nonneg (h q hq).1 ((h q hq).2 r hr).1, ((h q hq).2 r hr).2⟩)
    refine alg_eq_of_density h1.2 h2.2 (h1.1.trans (Eq.trans ?_ h2.1.symm))
    clear h1 h2
    induction l with
    | nil => rfl
    | cons p l ih =>
      have ih := ih fun q hq => h q (by simp [hq])
      have e := (mix_density p.1 x (h p (by simp)).2).1
      simp only [List.map_cons, List.sum_cons, List.flatMap_cons, List.map_append, List.sum_append, e,
        List.map_map, Function.comp_def, mul_assoc, List.sum_map_mul_left]
      rw [← ih, List.map_map]
      rfl

/-- hypotheses: two normals with weights 1/4 and 3/4 -/
example (x : ℝ) : MixableAt [((⟨fin 0, fin 1⟩ : Normal XReal), (1/4 : ℝ)), (⟨fin 2, fin 3⟩, 3/4)] (fin x) := by
  intro p hp
  simp only [List.mem_cons, List.not_mem_nil, or_false] at hp
  rcases hp with rfl | rfl
  · exact ⟨by norm_num, Or.inl (by rw [Normal.ld one_pos]; exact isFin_fin _)⟩
  · exact ⟨by norm_num, Or.inl (by rw [Normal.ld (by norm_num)]; exact isFin_fin _)⟩

/-- **C137**, mixing commutes with the other combinators.  Under the same hypotheses the pushforward of
a mixture is the mixture of the pushforwards, a weighted mixture is the mixture of the weighted
components, and the product of a mixture with a measure is the mixture of the products. -/
theorem C137_mixing_commutes {M N T S : Type} [HasLogDensity M T XReal] [HasLogDensity N S XReal]
    (l : List (M × ℝ)) (x : T) (hl : MixableAt l x) :
    (∀ w : ℝ, SameAt (⟨mix l, fin w⟩ : WeightedMeasure (MixtureMeasure M XReal) XReal)
      (mix (l.map fun p => ((⟨p.1, fin w⟩ : WeightedMeasure M XReal), p.2))) x) ∧
    (∀ (n : N) (z : S), IsLogDens (logDensityWrtRoot n z) →
      SameAt (⟨mix l, n⟩ : ProductMeasure (MixtureMeasure M XReal) N)
        (mix (l.map fun p => ((⟨p.1, n⟩ : ProductMeasure M N), p.2))) (x, z)) ∧
    (∀ {P : Type} [HasLogDensity P XReal XReal] (k : List (P × ℝ)) (t : Transform XReal) (y : XReal),
      MixableAt k (t.inverse y) → (t.logAbsDetJacobian y).IsFin →
      SameAt (pushforward (mix k) t) (mix (k.map fun p => (pushforward p.1 t, p.2))) y) := by
  refine ⟨fun w => ?_, fun n z hn => ?_, fun k t y hk hj => ?_⟩
  · have h1 := mix_density l x hl
    have h2 := mix_density (l.map fun p => ((⟨p.1, fin w⟩ : WeightedMeasure M XReal), p.2)) x (by
      intro p hp
      obtain ⟨q, hq, rfl⟩ := List.mem_map.mp hp
      exact ⟨(hl q hq).1, (density_add (Or.inl (isFin_fin w)) (hl q hq).2).2⟩)
    have h3 := density_add (Or.inl (isFin_fin w)) h1.2
    refine alg_eq_of_density h3.2 h2.2 (h3.1.trans (Eq.trans ?_ h2.1.symm))
    rw [h1.1, List.map_map, ← List.sum_map_mul_left]
    congr 1
    refine List.map_congr_left fun p hp => ?_
    have := (density_add (Or.inl (isFin_fin w)) (hl p hp).2).1
    show _ = p.2 * density (fin w +. logDensityWrtRoot p.1 x)
    rw [this]; ring
  · have h1 := mix_density l x hl
    have h2 := mix_density (l.map fun p => ((⟨p.1, n⟩ : ProductMeasure M N), p.2)) (x, z) (by
      intro p hp
      obtain ⟨q, hq, rfl⟩ := List.mem_map.mp hp
      exact ⟨(hl q hq).1, (density_add (hl q hq).2 hn).2⟩)
    have h3 := density_add h1.2 hn
    refine alg_eq_of_density h3.2 h2.2 (h3.1.trans (Eq.trans ?_ h2.1.symm))
    rw [h1.1, List.map_map, ← List.sum_map_mul_right]
    congr 1
    refine List.map_congr_left fun p hp => ?_
    have := (density_add (hl p hp).2 hn).1
    show _ = p.2 * density (logDensityWrtRoot p.1 x +. logDensityWrtRoot n z)
    rw [this]; ring
  · have hj : IsLogDens (t.logAbsDetJacobian y) := Or.inl hj
    have h1 := mix_density k (t.inverse y) hk
    have h2 := mix_density (k.map fun p => (pushforward p.1 t, p.2)) y (by
      intro p hp
      obtain ⟨q, hq, rfl⟩ := List.mem_map.mp hp
      exact ⟨(hk q hq).1, (density_add (hk q hq).2 hj).2⟩)
    have h3 := density_add h1.2 hj
    refine alg_eq_of_density h3.2 h2.2 (h3.1.trans (Eq.trans ?_ h2.1.symm))
    rw [h1.1, List.map_map, ← List.sum_map_mul_right]
    congr 1
    refine List.map_congr_left fun p hp => ?_
    have := (density_add (hk p hp).2 hj).1
    show _ = p.2 * density (logDensityWrtRoot p.1 (t.inverse y) +. t.logAbsDetJacobian y)
    rw [this]; ring

/-- **C137**, products and weights: the grouping of a product does not matter, its order does not
matter, and a weight on a factor is a weight on the product; weights add. -/
theorem C137_products {M N P X Y Z : Type} [HasLogDensity M X XReal] [HasLogDensity N Y XReal]
    [HasLogDensity P Z XReal] (m : M) (n : N) (p : P) (x : X) (y : Y) (z : Z) :
    ((logDensityWrtRoot (⟨⟨m, n⟩, p⟩ : ProductMeasure (ProductMeasure M N) P) ((x, y), z) : XReal)
      = logDensityWrtRoot (⟨m, ⟨n, p⟩⟩ : ProductMeasure M (ProductMeasure N P)) (x, y, z)) ∧
    ((logDensityWrtRoot (⟨m, n⟩ : ProductMeasure M N) (x, y) : XReal)
      = logDensityWrtRoot (⟨n, m⟩ : ProductMeasure N M) (y, x)) ∧
    (∀ w : ℝ, SameAt (⟨⟨m, fin w⟩, n⟩ : ProductMeasure (WeightedMeasure M XReal) N)
      (⟨⟨m, n⟩, fin w⟩ : WeightedMeasure (ProductMeasure M N) XReal) (x, y)) ∧
    (∀ v w : ℝ, SameAt (⟨⟨m, fin v⟩, fin w⟩ : WeightedMeasure (WeightedMeasure M XReal) XReal)
      (⟨m, fin (v + w)⟩ : WeightedMeasure M XReal) x) := by
  refine ⟨?_, ?_, fun w => ?_, fun v w => ?_⟩
  · exact XReal.add_assoc' _ _ _
  · exact XReal.add_comm' _ _
  · exact XReal.add_assoc' _ _ _
  · show fin w +. (fin v +. logDensityWrtRoot m x) = fin (v + w) +. logDensityWrtRoot m x
    rw [← f_add, XReal.add_comm' (fin v) (fin w), XReal.add_assoc']

end Verif
