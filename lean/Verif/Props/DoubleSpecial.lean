import Verif.Props.DoubleMonotone

/-!
# C112: log-densities at points outside the support, at infinity and at NaN
-/

namespace Verif
open Format FloatOps

/-- **C112** (support): in every arithmetic and at every point, NaN and infinities included, a point
that `in_support` rejects has log-density `-∞`. -/
theorem C112_off_support {F : Type} [FloatOps F] :
    (∀ (d : Exponential F) (x : F), Measure.inSupport d x = false → logDensityWrtRoot d x = (negInf : F)) ∧
    (∀ (d : Gamma F) (x : F), Measure.inSupport d x = false → logDensityWrtRoot d x = (negInf : F)) ∧
    (∀ (d : Beta F) (x : F), Measure.inSupport d x = false → logDensityWrtRoot d x = (negInf : F)) ∧
    (∀ (d : ChiSquared F) (x : F), Measure.inSupport d x = false → logDensityWrtRoot d x = (negInf : F)) ∧
    (∀ (d : Bernoulli F) (x : UInt8), Measure.inSupport d x = false → logDensityWrtRoot d x = (negInf : F)) ∧
    (∀ (d : Binomial F) (x : ℕ), Measure.inSupport d x = false → logDensityWrtRoot d x = (negInf : F)) ∧
    (∀ (d : Geometric F) (x : ℕ), Measure.inSupport d x = false → logDensityWrtRoot d x = (negInf : F)) ∧
    (∀ (d : Categorical F) (x : ℕ), Measure.inSupport d x = false → logDensityWrtRoot d x = (negInf : F)) := by
  refine ⟨?_, ?_, ?_, ?_, ?_, ?_, ?_, ?_⟩ <;> intro d x h
  · exact if_neg (by rw [show ge x zero = false from h]; simp)
  · exact if_neg (by rw [show gt x zero = false from h]; simp)
  · exact if_neg (by rw [show (gt x zero && (x <. one)) = false from h]; simp)
  · exact if_neg (by rw [show gt x zero = false from h]; simp)
  · have h : (x == 0 || x == 1) = false := h
    simp only [Bool.or_eq_false_iff, beq_eq_false_iff_ne] at h
    show (if x = 0 then _ else if x = 1 then _ else _) = _
    rw [if_neg h.1, if_neg h.2]
  · exact if_neg (of_decide_eq_false h)
  · exact if_neg (of_decide_eq_false h)
  · have h : ¬ x < d.probs.length := of_decide_eq_false h
    show (match d.probs[x]? with | some p => _ | none => _) = _
    rw [List.getElem?_eq_none (not_lt.mp h)]

variable {f : Format} {L : Libm}

/-- NaN is in the support of no distribution that tests the support. -/
theorem C112_nan_not_in_support (e : Exponential (Flt f L)) (g : Gamma (Flt f L)) (b : Beta (Flt f L))
    (c : ChiSquared (Flt f L)) :
    Measure.inSupport e (Flt.nan (f := f) (L := L)) = false ∧
    Measure.inSupport g (Flt.nan (f := f) (L := L)) = false ∧
    Measure.inSupport b (Flt.nan (f := f) (L := L)) = false ∧
    Measure.inSupport c (Flt.nan (f := f) (L := L)) = false :=
  ⟨rfl, rfl, rfl, rfl⟩

/-- **C112** (NaN): the distributions on the whole line map NaN to NaN, whatever their parameters. -/
theorem C112_nan (n : Normal (Flt f L)) (c : Cauchy (Flt f L)) (t : StudentT (Flt f L)) :
    logDensityWrtRoot n (Flt.nan (f := f) (L := L)) = Flt.nan (f := f) (L := L) ∧
    logDensityWrtRoot c (Flt.nan (f := f) (L := L)) = Flt.nan (f := f) (L := L) ∧
    logDensityWrtRoot t (Flt.nan (f := f) (L := L)) = Flt.nan (f := f) (L := L) := by
  have hs : ∀ a : FVal, Flt.sub f .nan a = .nan := fun a => by cases a <;> rfl
  have hs' : ∀ a : FVal, Flt.sub f a .nan = .nan := fun a => by cases a <;> rfl
  have hd : ∀ a : FVal, Flt.div f .nan a = .nan := fun a => by cases a <;> rfl
  have hm : ∀ a : FVal, Flt.mul f a .nan = .nan := fun a => by cases a <;> rfl
  have ha : ∀ a : FVal, Flt.add f a .nan = .nan := fun a => by cases a <;> rfl
  have k1 : ∀ c μ σ h : FVal, Flt.sub f c (Flt.mul f (Flt.mul f h (Flt.div f (Flt.sub f .nan μ) σ))
      (Flt.div f (Flt.sub f .nan μ) σ)) = .nan := fun c μ σ h => by rw [hs, hd, hm, hs']
  have k2 : ∀ l s g p : FVal, Flt.sub f (Flt.sub f (Flt.neg (Flt.ln L (Flt.add f (.fin 1)
          (Flt.mul f (Flt.div f (Flt.sub f .nan l) s) (Flt.div f (Flt.sub f .nan l) s))))) g) p = .nan := by
    intro l s g p
    rw [hs, hd, hm, ha]
    show Flt.sub f (Flt.sub f .nan _) _ = _
    rw [hs, hs]
  have k3 : ∀ n m ν : FVal, Flt.add f n (Flt.mul f m
      (Flt.ln L (Flt.add f (.fin 1) (Flt.div f (Flt.mul f .nan .nan) ν)))) = .nan := by
    intro n m ν
    rw [hm, hd, ha]
    show Flt.add f _ (Flt.mul f _ .nan) = _
    rw [hm, ha]
  exact ⟨k1 _ _ _ _, k2 _ _ _ _, k3 _ _ _⟩

theorem flt_add_fin_inv {a b : FVal} {r : ℚ} (h : Flt.add f a b = .fin r) : ∃ p q, a = .fin p ∧ b = .fin q := by
  cases a <;> cases b <;> simp_all [Flt.add]
  split_ifs at h

theorem flt_mul_fin_inv {a b : FVal} {r : ℚ} (h : Flt.mul f a b = .fin r) : ∃ p q, a = .fin p ∧ b = .fin q := by
  cases a <;> cases b <;> simp_all [Flt.mul]
  all_goals split_ifs at h

theorem flt_student_inf (hf : f.Std) {ν r : ℚ} (hν : 0 < ν) {n t : FVal}
    (h : Flt.add f n (Flt.mul f (Flt.neg (Flt.div f (Flt.add f (.fin ν) (.fin 1)) (f.round 2))) t) = .fin r) :
    Flt.add f n (Flt.mul f (Flt.neg (Flt.div f (Flt.add f (.fin ν) (.fin 1)) (f.round 2))) (.inf false)) =
      .inf true := by
  obtain ⟨p, q, rfl, hq⟩ := flt_add_fin_inv h
  obtain ⟨m, -, hm, -⟩ := flt_mul_fin_inv hq
  have hm0 : m < 0 := by
    have h1 := Flt.div_le_div (f := f) (c := 2) (prec1 hf) (by norm_num)
      (Flt.round_mono (f := f) (prec1 hf) (show (1 : ℚ) ≤ ν + 1 by linarith))
    have e : Flt.div f (.fin 1) (.fin 2) = .fin (1/2) := by
      simp only [Flt.div, if_neg (two_ne_zero (α := ℚ)), round_half hf]
    rw [f.round_exact hf.rep_one, e] at h1
    have h2 := Flt.neg_le_neg h1
    rw [round_two hf] at hm
    have : Flt.neg (Flt.div f (f.round (ν + 1)) (.fin 2)) = .fin m := hm
    rw [this] at h2
    have := Flt.le_fin.mp h2
    linarith
  rw [hm]
  show Flt.add f _ (if m = 0 then _ else FVal.inf (xor (decide (m < 0)) false)) = _
  rw [if_neg hm0.ne, decide_eq_true hm0]
  rfl

/-- **C112** (infinity): the log-density at an infinite point is `-∞`. -/
theorem C112_infinite (hf : f.Std) (hL : L.Accurate f) {a b : ℚ} (hb : f.Representable b) (s : Bool) :
    (∀ d : Normal (Flt f L), Normal.new (Flt.fin a) (Flt.fin b) = .ok d →
      logDensityWrtRoot d (show Flt f L from FVal.inf s) = Flt.negInf (f := f) (L := L)) ∧
    (∀ d : Cauchy (Flt f L), Cauchy.new (Flt.fin a) (Flt.fin b) = .ok d →
      logDensityWrtRoot d (show Flt f L from FVal.inf s) = Flt.negInf (f := f) (L := L)) ∧
    (∀ d : Exponential (Flt f L), Exponential.new (Flt.fin b) = .ok d →
      logDensityWrtRoot d (show Flt f L from FVal.inf s) = Flt.negInf (f := f) (L := L)) ∧
    (∀ (d : StudentT (Flt f L)) (x r : ℚ), StudentT.new (Flt.fin b) = .ok d →
      logDensityWrtRoot d (Flt.fin x) = Flt.fin (f := f) (L := L) r →
      logDensityWrtRoot d (show Flt f L from FVal.inf s) = Flt.negInf (f := f) (L := L)) := by
  have hmi : ∀ {c : ℚ}, 0 < c → Flt.mul f (.fin c) (.inf false) = .inf false := by
    intro c hc
    show (if c = 0 then _ else _) = _
    rw [if_neg hc.ne', decide_eq_false (by linarith : ¬ c < 0)]; rfl
  have hdi : ∀ {c : ℚ}, 0 < c → ∀ s, Flt.div f (.inf s) (.fin c) = .inf s := by
    intro c hc s
    show FVal.inf (xor s (decide (c < 0))) = _
    rw [decide_eq_false (by linarith : ¬ c < 0), Bool.xor_false]
  refine ⟨?_, ?_, ?_, ?_⟩
  · intro d h
    have := C111_normal_infinite hf hL hb h
    cases s
    · exact this.1
    · exact this.2
  · intro d h
    obtain ⟨hs0, rfl⟩ := Cauchy.new_flt h
    obtain ⟨c, hc, -⟩ := near_ln_pi hf hL
    obtain ⟨g, hg, -, -⟩ := near_ln_rep hf hL hs0 hb
    rw [cauchy_flt, hc, hg]
    have e1 : Flt.div f (Flt.sub f (show Flt f L from FVal.inf s) (.fin a)) (.fin b) = .inf s := hdi hs0 s
    rw [e1]
    have e2 : Flt.mul f (.inf s) (.inf s) = .inf false := by cases s <;> rfl
    rw [e2]
    rfl
  · intro d h
    obtain ⟨hr0, rfl⟩ := Exponential.new_flt h
    obtain ⟨g, hg, -, -⟩ := near_ln_rep hf hL hr0 hb
    cases s
    · show Flt.sub f (Flt.ln L (.fin b)) (Flt.mul f (.fin b) (.inf false)) = .inf true
      rw [hg, hmi hr0]; rfl
    · rfl
  · intro d x r h hr
    obtain ⟨hν0, rfl⟩ := StudentT.new_flt h
    rw [student_flt] at hr ⊢
    have e1 : Flt.mul f (show Flt f L from FVal.inf s) (show Flt f L from FVal.inf s) = .inf false := by
      cases s <;> rfl
    have e2 : Flt.ln L (Flt.add f (.fin 1) (.inf false)) = .inf false := rfl
    rw [e1, hdi hν0, e2]
    exact flt_student_inf hf hν0 hr

theorem flt_pos_inf_nan {m : FVal} (h0 : Flt.le (.fin 0) m = true) (n : FVal) :
    Flt.sub f (Flt.add f n (Flt.mul f m (.inf false))) (.inf false) = .nan := by
  have ha : ∀ a : FVal, Flt.add f a .nan = .nan := fun a => by cases a <;> rfl
  have : Flt.mul f m (.inf false) = .nan ∨ Flt.mul f m (.inf false) = .inf false := by
    rcases Flt.nonneg_cases h0 with rfl | ⟨q, hq, rfl⟩
    · right; rfl
    · rcases hq.eq_or_lt with rfl | hq
      · left; rfl
      · right
        show (if q = 0 then _ else FVal.inf (xor (decide (q < 0)) false)) = _
        rw [if_neg hq.ne', decide_eq_false (by linarith : ¬ q < 0)]; rfl
  rcases this with h | h <;> rw [h]
  · rw [ha]; rfl
  · cases n with
    | nan => rfl
    | inf s => cases s <;> rfl
    | fin q => rfl

/-- **C112** (infinity) for the Gamma distribution: below shape one the log-density at `+∞` is `-∞`
if it is finite anywhere; from shape one on see `C112_gamma_violated`. -/
theorem C112_gamma_infinite_partial (hf : f.Std) {a b x r : ℚ} (ha : f.Representable a) (ha1 : a < 1)
    (d : Gamma (Flt f L)) (h : Gamma.new (Flt.fin a) (Flt.fin b) = .ok d) (hx : 0 < x)
    (hr : logDensityWrtRoot d (Flt.fin x) = Flt.fin (f := f) (L := L) r) :
    logDensityWrtRoot d (Flt.posInf (f := f) (L := L)) = Flt.negInf (f := f) (L := L) := by
  obtain ⟨ha0, hb0, rfl⟩ := Gamma.new_flt h
  rw [gamma_flt, if_pos hx] at hr
  obtain ⟨p, -, hp, -⟩ := flt_add_fin_inv (show Flt.add f _ (Flt.neg _) = _ from hr)
  obtain ⟨n, t, hn, ht⟩ := flt_add_fin_inv hp
  obtain ⟨m, l, hm, -⟩ := flt_mul_fin_inv ht
  have hm0 : m < 0 := by
    obtain ⟨q, hq, nq⟩ := App.compl hf ha ha0.le ha1
    have e : Flt.sub f (.fin a) (.fin 1) = .fin (-q) := by
      have h1 : f.round (1 - a) = .fin q := by rw [← sub_fin]; exact hq
      rw [sub_fin, show a - 1 = -(1 - a) by ring, round_neg, h1]; rfl
    have hmq : m = -q := by rw [e] at hm; injection hm with hm; exact hm.symm
    have h1' : (a : ℝ) < 1 := by exact_mod_cast ha1
    have he := (abs_le.mp nq.err).1
    have hu := hf.u_le
    have h2 : 1 * f.u * (1 - (a : ℝ)) ≤ 1/2 * (1 - a) :=
      mul_le_mul_of_nonneg_right (by norm_num at hu ⊢; linarith) (by linarith)
    have h3 : (0 : ℝ) < q := by linarith
    have h4 : 0 < q := by exact_mod_cast h3
    rw [hmq]; linarith
  show Flt.sub f (Flt.add f (Flt.sub f (Flt.mul f (.fin a) (Flt.ln L (.fin b))) (L.lnGamma (.fin a)))
      (Flt.mul f (Flt.sub f (.fin a) (.fin 1)) (.inf false))) (Flt.mul f (.fin b) (.inf false)) = .inf true
  rw [hn, hm]
  have e1 : Flt.mul f (.fin m) (.inf false) = .inf true := by
    show (if m = 0 then _ else FVal.inf (xor (decide (m < 0)) false)) = _
    rw [if_neg hm0.ne, decide_eq_true hm0]; rfl
  have e2 : Flt.mul f (.fin b) (.inf false) = .inf false := by
    show (if b = 0 then _ else FVal.inf (xor (decide (b < 0)) false)) = _
    rw [if_neg hb0.ne', decide_eq_false (by linarith : ¬ b < 0)]; rfl
  rw [e1, e2]; rfl

/-- **C112** fails for the Gamma distribution: `+∞` counts as a point of the support, and from shape
one on the log-density there is NaN, for every rate. -/
theorem C112_gamma_violated (hf : f.Std) {a b : ℚ} (ha1 : 1 ≤ a)
    (d : Gamma (Flt f L)) (h : Gamma.new (Flt.fin a) (Flt.fin b) = .ok d) :
    Measure.inSupport d (Flt.posInf (f := f) (L := L)) = true ∧
    logDensityWrtRoot d (Flt.posInf (f := f) (L := L)) = Flt.nan (f := f) (L := L) := by
  obtain ⟨ha0, hb0, rfl⟩ := Gamma.new_flt h
  refine ⟨rfl, ?_⟩
  show Flt.sub f (Flt.add f (Flt.sub f (Flt.mul f (.fin a) (Flt.ln L (.fin b))) (L.lnGamma (.fin a)))
      (Flt.mul f (Flt.sub f (.fin a) (.fin 1)) (.inf false))) (Flt.mul f (.fin b) (.inf false)) = .nan
  have e2 : Flt.mul f (.fin b) (.inf false) = .inf false := by
    show (if b = 0 then _ else FVal.inf (xor (decide (b < 0)) false)) = _
    rw [if_neg hb0.ne', decide_eq_false (by linarith : ¬ b < 0)]; rfl
  have h0 := Flt.round_nonneg (f := f) (prec1 hf) (q := a - 1) (by linarith)
  rw [e2, sub_fin]
  generalize Flt.sub f (Flt.mul f (.fin a) (Flt.ln L (.fin b))) (L.lnGamma (.fin a)) = n
  exact flt_pos_inf_nan h0 n

/-- The same for the chi-squared distribution from two degrees of freedom on. -/
theorem C112_chi_squared_violated (hf : f.Std) {k : ℚ} (hk : 2 ≤ k)
    (d : ChiSquared (Flt f L)) (h : ChiSquared.new (Flt.fin k) = .ok d) :
    Measure.inSupport d (Flt.posInf (f := f) (L := L)) = true ∧
    logDensityWrtRoot d (Flt.posInf (f := f) (L := L)) = Flt.nan (f := f) (L := L) := by
  obtain ⟨hk0, rfl⟩ := ChiSquared.new_flt h
  refine ⟨rfl, ?_⟩
  have e11 : Flt.add f (.fin 1) (.fin 1) = .fin 2 := by
    show f.round (1 + 1) = _
    rw [show (1 : ℚ) + 1 = 2 by norm_num]; exact f.round_exact hf.rep_two
  show Flt.sub f (Flt.add f (Flt.sub f
          (Flt.mul f (Flt.neg (Flt.div f (.fin k) (Flt.add f (.fin 1) (.fin 1))))
            (Flt.ln L (Flt.add f (.fin 1) (.fin 1))))
          (L.lnGamma (Flt.div f (.fin k) (Flt.add f (.fin 1) (.fin 1)))))
          (Flt.mul f (Flt.sub f (Flt.div f (.fin k) (Flt.add f (.fin 1) (.fin 1))) (.fin 1)) (.inf false)))
        (Flt.div f (.inf false) (Flt.add f (.fin 1) (.fin 1))) = .nan
  generalize Flt.sub f (Flt.mul f (Flt.neg (Flt.div f (.fin k) (Flt.add f (.fin 1) (.fin 1))))
      (Flt.ln L (Flt.add f (.fin 1) (.fin 1))))
    (L.lnGamma (Flt.div f (.fin k) (Flt.add f (.fin 1) (.fin 1)))) = n
  rw [e11]
  have e2 : Flt.div f (.inf false) (.fin 2) = .inf false := by
    show FVal.inf (xor false (decide ((2 : ℚ) < 0))) = _
    rw [decide_eq_false (by norm_num)]; rfl
  have h1 : Flt.le (.fin 1) (Flt.div f (.fin k) (.fin 2)) = true := by
    have h2 : Flt.div f (.fin k) (.fin 2) = f.round (k / 2) := by
      simp only [Flt.div, if_neg (two_ne_zero (α := ℚ))]
    have := Flt.round_mono (f := f) (prec1 hf) (show (1 : ℚ) ≤ k / 2 by linarith)
    rw [f.round_exact hf.rep_one] at this
    rw [h2]; exact this
  have h0 : Flt.le (.fin 0) (Flt.sub f (Flt.div f (.fin k) (.fin 2)) (.fin 1)) = true := by
    cases hv : Flt.div f (.fin k) (.fin 2) with
    | nan => rw [hv] at h1; simp [Flt.le] at h1
    | inf s => rw [hv] at h1; cases s <;> simp_all [Flt.le, Flt.sub, Flt.neg, Flt.add]
    | fin q =>
      rw [hv] at h1
      rw [sub_fin]
      exact Flt.round_nonneg (prec1 hf) (by have := Flt.le_fin.mp h1; linarith)
  rw [e2]
  exact flt_pos_inf_nan h0 n

/-- the hypotheses are met -/
example : ∃ L : Libm, L.Accurate f64 ∧
    (∃ d : Gamma (Flt f64 L), Gamma.new (Flt.fin 2) (Flt.fin 1) = .ok d) ∧
    (∃ d : ChiSquared (Flt f64 L), ChiSquared.new (Flt.fin 3) = .ok d) ∧
    (∃ d : Normal (Flt f64 L), Normal.new (Flt.fin 0) (Flt.fin 1) = .ok d) := by
  obtain ⟨L, hL⟩ := exists_libm (f := f64) (.inl rfl)
  exact ⟨L, hL, ⟨_, rfl⟩, ⟨_, rfl⟩, ⟨_, rfl⟩⟩

end Verif
