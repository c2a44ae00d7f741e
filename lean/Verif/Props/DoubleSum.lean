import Verif.Props.Double
import Verif.Lemmas.FltSum

/-!
# C91: sums over samples in floating point
-/

namespace Verif
open Format FloatOps ProbabilityTheory

variable {f : Format} {L : Libm}

/-- **C91**: a finite sum of `n` floating-point numbers, added from the left, is within
`(1+u)^n - 1` of the exact sum, relative to the sum of absolute values. -/
theorem C91_sum (hf : f.Std) (xs : List ℚ) (hx : ∀ x ∈ xs, f.Representable x) {r : ℚ}
    (h : FloatOps.sum (xs.map (Flt.fin (f := f) (L := L))) = Flt.fin (f := f) (L := L) r) :
    |(r : ℝ) - (xs.map (fun x : ℚ => (x : ℝ))).sum| ≤
      ((1 + f.u) ^ xs.length - 1) * (xs.map (fun x : ℚ => |(x : ℝ)|)).sum := by
  rw [sum_flt] at h
  have := (foldl_add_err hf xs hx (rep_zero f) (S := 0) (T := 0) (k := 0) (by simp) (by simp) h).2
  simpa [Format.grow] using this

/-- The sum is finite when the absolute values sum to less than an eighth of the range and there are
fewer than `1/(2u)` of them. -/
theorem C91_sum_finite (hf : f.Std) (xs : List ℚ) (hx : ∀ x ∈ xs, f.Representable x)
    (hn : xs.length * f.u ≤ 1/2) (hs : (xs.map (fun x : ℚ => |(x : ℝ)|)).sum ≤ 2 ^ (f.emax - 3)) :
    ∃ r : ℚ, FloatOps.sum (xs.map (Flt.fin (f := f) (L := L))) = Flt.fin (f := f) (L := L) r := by
  rw [sum_flt]
  refine foldl_add_fin hf xs hx (rep_zero f) (S := 0) (T := 0) (k := 0) (by simp) (by simp) ?_ (by simpa using hs)
  rw [zero_add]
  have := grow_le hn
  linarith

example : (∀ x ∈ [1, 2, (1 / 2 : ℚ)], f64.Representable x) ∧
    (([1, 2, (1 / 2 : ℚ)].length : ℕ) : ℝ) * f64.u ≤ 1/2 := by
  have hf : f64.Std := .inl rfl
  refine ⟨by simp; exact ⟨hf.rep_one, hf.rep_two, by simpa using hf.rep_half⟩, ?_⟩
  have := hf.u_le
  norm_num at *
  linarith

/-! ### Normal samples -/

/-- the score term of the decomposition -/
def quadTerm (f : Format) (μ σ x : FVal) : FVal :=
  Flt.mul f (Flt.mul f (Flt.neg (f.round (1/2))) (Flt.div f (Flt.sub f x μ) σ))
    (Flt.div f (Flt.sub f x μ) σ)

theorem normal_iid_flt (μ σ : Flt f L) (xs : List (Flt f L)) :
    (Normal.logDensityIid ⟨μ, σ⟩ xs : Flt f L) =
      Flt.add f (Flt.add f (Flt.add f ((xs.map fun _ => FVal.fin 0).foldl (Flt.add f) (.fin 0))
          (Flt.mul f (f.round xs.length) (Flt.add f (.fin 0) (Flt.neg (Flt.ln L σ)))))
        ((xs.map fun x => Flt.add f (.fin 0) (quadTerm f μ σ x)).foldl (Flt.add f) (.fin 0)))
        (Flt.mul f (f.round xs.length) (Flt.add f (.fin 0)
          (Flt.mul f (Flt.neg (f.round (1/2)))
            (Flt.ln L (Flt.mul f (f.round 2) (f.round Flt.piLit)))))) := by
  simp only [Normal.logDensityIid, Decomposition.evaluateIid, Normal.decomposition,
    Decomposition.addConstant, Decomposition.addParamTerm, Decomposition.addMixedTerm,
    Decomposition.new, Normal.params, FloatOps.sum, List.map_cons, List.map_nil, List.foldl_cons,
    List.foldl_nil, List.nil_append, FloatOps.ofNat]
  rfl

theorem sum_zeros (n : List (Flt f L)) :
    (n.map fun _ => (FVal.fin 0)).foldl (Flt.add f) (.fin 0) = .fin 0 := by
  induction n with
  | nil => rfl
  | cons a n ih =>
    have : Flt.add f (.fin 0) (.fin 0) = .fin 0 := by
      show f.round (0 + 0) = _
      rw [add_zero]; exact f.round_exact (rep_zero f)
    rw [List.map_cons, List.foldl_cons, this, ih]

theorem quad_cases (hf : f.Std) {μ σ x : ℚ} (hμ : f.Representable μ) (hx : f.Representable x)
    (hσ0 : 0 < σ) :
    (∃ q : ℚ, Flt.add f (.fin 0) (quadTerm f (.fin μ) (.fin σ) (.fin x)) = .fin q ∧ q ≤ 0 ∧
      Near f 18 q (-((((x : ℝ) - μ) / σ) ^ 2 / 2)) ((|((x : ℝ) - μ) / σ| + f.u) ^ 2 / 2)) ∨
    (Flt.add f (.fin 0) (quadTerm f (.fin μ) (.fin σ) (.fin x)) = .inf true ∧
      ((2 : ℝ) ^ (f.emax - 1) < |(x : ℝ) - μ| ∨
        (2 : ℝ) ^ (f.emax - 2) < (|((x : ℝ) - μ) / σ| + f.u) ^ 2)) := by
  have e : quadTerm f (.fin μ) (.fin σ) (.fin x) = Flt.neg (Flt.mul f (Flt.mul f (f.round (1/2))
      (Flt.div f (Flt.sub f (.fin x) (.fin μ)) (.fin σ))) (Flt.div f (Flt.sub f (.fin x) (.fin μ)) (.fin σ))) := by
    unfold quadTerm; rw [mul_neg_left, mul_neg_left]
  rw [e]
  rcases normal_quad hf hμ hx hσ0 with ⟨q, hq, hq0, hn⟩ | ⟨hq, h⟩
  · left
    rw [hq]
    refine ⟨-q, ?_, by linarith, hn.neg⟩
    exact zero_add_rep (rep_neg hn.rep)
  · right
    rw [hq]
    exact ⟨rfl, h⟩

theorem near_list (g : ℚ → FVal) {k : ℝ} (v M : ℚ → ℝ) (xs qs : List ℚ) (h : xs.map g = qs.map FVal.fin)
    (hN : ∀ x ∈ xs, ∀ q, g x = .fin q → Near f k q (v x) (M x)) :
    |(qs.map (fun q : ℚ => (q : ℝ))).sum - (xs.map v).sum| ≤ k * f.u * (xs.map M).sum ∧
    (qs.map (fun q : ℚ => |(q : ℝ)|)).sum ≤ (1 + k * f.u) * (xs.map M).sum ∧
    |(xs.map v).sum| ≤ (xs.map M).sum ∧
    (∀ q ∈ qs, f.Representable q) ∧ qs.length = xs.length := by
  induction xs generalizing qs with
  | nil =>
    obtain rfl : qs = [] := by simpa using h.symm
    simp
  | cons x xs ih =>
    cases qs with
    | nil => simp at h
    | cons q qs =>
      simp only [List.map_cons, List.cons.injEq] at h
      obtain ⟨h1, h2, h2', h3, h4⟩ := ih qs h.2 fun y hy => hN y (by simp [hy])
      have hn := hN x (by simp) q h.1
      simp only [List.map_cons, List.sum_cons, List.length_cons, List.mem_cons, forall_eq_or_imp]
      refine ⟨?_, ?_, ?_, ⟨hn.rep, h3⟩, by rw [h4]⟩
      · have e : (q : ℝ) + (qs.map (fun q : ℚ => (q : ℝ))).sum - (v x + (xs.map v).sum) =
            ((q : ℝ) - v x) + ((qs.map (fun q : ℚ => (q : ℝ))).sum - (xs.map v).sum) := by ring
        rw [e]
        refine (abs_add_le _ _).trans ?_
        rw [mul_add]
        exact add_le_add hn.err h1
      · have h5 := abs_sub_abs_le_abs_sub (q : ℝ) (v x)
        have h6 := hn.err
        have h7 := hn.mag
        rw [mul_add]
        refine add_le_add ?_ h2
        linarith
      · exact (abs_add_le _ _).trans (add_le_add hn.mag h2')

/-- adding a moderate number to a number that is not large and positive -/
theorem add_dominated (hf : f.Std) {p m : ℚ} {k : ℤ} (hp : f.Representable p) (hm : f.Representable m)
    (h1 : |(p : ℝ)| ≤ 2 ^ k) (h2 : (m : ℝ) ≤ 2 ^ k) (hk0 : 0 ≤ k) (hk : k ≤ 100) :
    (∃ t : ℚ, Flt.add f (.fin p) (.fin m) = .fin t ∧ f.Representable t ∧ (t : ℝ) ≤ 2 ^ (k + 1) ∧
      |(t : ℝ)| ≤ 2 * (2 ^ k + |(m : ℝ)|)) ∨
    (Flt.add f (.fin p) (.fin m) = .inf true ∧ (2 : ℝ) ^ (f.emax - 2) < |(m : ℝ)|) := by
  have e : Flt.add f (.fin p) (.fin m) = f.round (p + m) := rfl
  rw [e]
  have hk1 : (2 : ℝ) ^ (k + 1) = 2 * 2 ^ k := by
    rw [add_comm, zpow_add₀ (by norm_num)]; norm_num
  have hkp : (0 : ℝ) < 2 ^ k := by positivity
  have hp' := abs_le.mp h1
  rcases f.round_cases (p + m) with ⟨t, ht⟩ | ht
  · left
    obtain ⟨htr, hte⟩ := near_round_add hf hp hm ht
    push_cast at hte
    refine ⟨t, ht, htr, ?_, ?_⟩
    · rcases le_total 0 (p + m) with h0 | h0
      · have h0' : (0 : ℝ) ≤ p + m := by exact_mod_cast h0
        have hs : |((p + m : ℚ) : ℝ)| ≤ 2 ^ (k + 1) := by
          push_cast; rw [abs_of_nonneg h0', hk1]; linarith
        obtain ⟨t', ht', hl⟩ := f.round_le (prec1 hf) (q := p + m) (k := k + 1) (rat_le hs)
          (by have := hf.emin_le; omega) (by have := hf.emax_ge; omega)
        rw [ht] at ht'
        obtain rfl := FVal.fin.inj ht'
        exact (le_abs_self _).trans (real_le hl)
      · have : (t : ℝ) ≤ 0 := by exact_mod_cast round_nonpos ht h0
        linarith [show (0 : ℝ) < 2 ^ (k + 1) by positivity]
    · have hu : f.u ≤ 1 := hf.u_le.trans (by norm_num)
      have h3 := abs_sub_abs_le_abs_sub (t : ℝ) (p + m)
      have h4 : f.u * |(p : ℝ) + m| ≤ 1 * |(p : ℝ) + m| := by gcongr
      have h5 := abs_add_le (p : ℝ) m
      linarith
  · right
    have hover := (f.round_inf (prec1 hf) (emin_lt_emax hf) ht).1
    have hover' : (2 : ℝ) ^ (f.emax - 1) < |((p + m : ℚ) : ℝ)| := real_lt hover
    push_cast at hover'
    have h3 : (2 : ℝ) ^ (f.emax - 1) = 2 * 2 ^ (f.emax - 2) := by
      rw [show f.emax - 1 = 1 + (f.emax - 2) by ring, zpow_add₀ (by norm_num)]; norm_num
    have h4 : 4 * (2 : ℝ) ^ k ≤ 2 ^ (f.emax - 2) := by
      have : (4 : ℝ) * 2 ^ k = 2 ^ (k + 2) := by
        rw [add_comm, zpow_add₀ (by norm_num)]; norm_num
      rw [this]
      exact zpow_le_zpow_right₀ (by norm_num) (by have := hf.emax_ge; omega)
    have hneg : (p : ℝ) + m < 0 := by
      by_contra hc
      rw [abs_of_nonneg (not_lt.mp hc)] at hover'
      linarith
    have hneg' : decide (p + m < 0) = true := by
      have : p + m < 0 := by exact_mod_cast hneg
      simpa using this
    rw [ht, hneg']
    refine ⟨rfl, ?_⟩
    have h5 := abs_add_le (p : ℝ) m
    linarith

/-- **C91**, Normal: the joint log-density of samples (`log_density_iid`) is never NaN or `+∞`.  It is
within `100 + 12 n` units of roundoff of the sum of the Gaussian log-densities, relative to the sizes
of the terms; or it is `-∞`, and then a sample's distance from the mean or the sum of the squared
scores is at the edge of the format's range. -/
theorem C91_normal_iid (hf : f.Std) (hL : L.Accurate f) {μ σ : ℚ} {xs : List ℚ}
    (hμ : f.Representable μ) (hσ : f.Representable σ) (hx : ∀ x ∈ xs, f.Representable x)
    (hne : xs ≠ []) (hn : xs.length * f.u ≤ 1/1000) {d : Normal (Flt f L)}
    (h : Normal.new (Flt.fin μ) (Flt.fin σ) = .ok d) :
    (∃ r : ℚ, d.logDensityIid (xs.map Flt.fin) = Flt.fin (f := f) (L := L) r ∧ f.Representable r ∧
      |(r : ℝ) - (xs.map fun x : ℚ => Real.log (gaussianPDFReal μ ((σ : ℝ) ^ 2).toNNReal x)).sum| ≤
        (100 + 12 * xs.length) * f.u *
          (xs.map fun x : ℚ => 1 + |Real.log σ| + (((x : ℝ) - μ) / σ) ^ 2 / 2).sum) ∨
    (d.logDensityIid (xs.map Flt.fin) = Flt.negInf (f := f) (L := L) ∧
      ((∃ x ∈ xs, (2 : ℝ) ^ (f.emax - 1) < |(x : ℝ) - μ|) ∨
        (2 : ℝ) ^ (f.emax - 6) < (xs.map fun x : ℚ => (((x : ℝ) - μ) / σ) ^ 2).sum)) := by
  obtain ⟨hσ0, rfl⟩ := Normal.new_flt h
  have hσR : (0 : ℝ) < σ := by exact_mod_cast hσ0
  have hu := u_pos f
  have hul := hf.u_le
  set n : ℕ := xs.length with hnn
  have hn1 : 1 ≤ n := by rw [hnn]; exact List.length_pos_of_ne_nil hne
  have hn1' : (1 : ℝ) ≤ n := by exact_mod_cast hn1
  have hnu : (n : ℝ) ≤ 2 ^ 53 / 1000 := by
    have := u_ge hf
    have h2 : (n : ℝ) * (1 / 2 ^ 53) ≤ 1/1000 := (mul_le_mul_of_nonneg_left this (by positivity)).trans hn
    norm_num at h2 ⊢
    linarith
  have hnrep : f.Representable n := by
    refine ⟨⟨n, 0, ?_, by have := hf.emin_le; omega, by simp⟩, ?_⟩
    · have : (n : ℝ) < 2 ^ f.prec := by
        unfold Format.u at hn
        rw [mul_one_div, div_le_iff₀ (by positivity)] at hn
        have : (0 : ℝ) < 2 ^ f.prec := by positivity
        linarith
      have : (n : ℕ) < 2 ^ f.prec := by exact_mod_cast this
      rw [abs_of_nonneg (by positivity)]
      exact_mod_cast this
    · have h1 : (n : ℚ) ≤ 2 ^ (100 : ℤ) := by
        have : (n : ℝ) ≤ ((2 ^ (100 : ℤ) : ℚ) : ℝ) := by rw [cast_zpow]; exact hnu.trans (by norm_num)
        exact_mod_cast this
      rw [abs_of_nonneg (by positivity)]
      exact lt_of_le_of_lt h1 (zpow_lt_zpow_right₀ (by norm_num) (by have := hf.emax_ge; omega))
  have hrn : f.round (n : ℚ) = .fin n := f.round_exact hnrep
  have hNn : Near f 0 n n n := Near.exact' hnrep (by simp)
  -- the parameter term
  obtain ⟨g, hg, hgn, hg2⟩ := near_ln_rep hf hL hσ0 hσ
  have hgn' : Near f 2 (-g) (-Real.log σ) (1 + |Real.log σ|) :=
    hgn.neg.mono le_rfl (by linarith) (by norm_num)
  have hls := log_rep_le hf hσ0 hσ
  have hl0 := abs_nonneg (Real.log σ)
  obtain ⟨p, hp, hpn⟩ := Near.mul_ex hf hNn hgn' le_rfl (by norm_num) (by norm_num) (by norm_num)
    (u_cube_le hf (by nlinarith)) (by
      have := mul_le_mul hnu (show 1 + |Real.log σ| ≤ 1101 by linarith) (by positivity) (by positivity)
      exact this.trans (by norm_num))
  -- the constant
  obtain ⟨c, hc, hcn⟩ := near_const hf hL
  obtain ⟨b0, b4⟩ := log_two_pi_bounds
  obtain ⟨c', hc', hcn'⟩ := Near.mul_ex hf hNn hcn le_rfl (by norm_num) (by norm_num) (by norm_num)
    (u_cube_le hf (by nlinarith)) (by
      have := mul_le_mul hnu (show 1/2 * (1 + Real.log (2 * Real.pi)) ≤ 2 by linarith) (by linarith) (by positivity)
      exact this.trans (by norm_num))
  have hpsz : |(p : ℝ)| ≤ 2 ^ (61 : ℤ) := by
    refine (hpn.size hf (by norm_num)).trans ?_
    have := mul_le_mul hnu (show 1 + |Real.log σ| ≤ 1101 by linarith) (by positivity) (by positivity)
    norm_num at this ⊢; linarith
  have hcsz : |(c' : ℝ)| ≤ 2 ^ (62 : ℤ) := by
    refine (hcn'.size hf (by norm_num)).trans ?_
    have := mul_le_mul hnu (show 1/2 * (1 + Real.log (2 * Real.pi)) ≤ 2 by linarith) (by linarith) (by positivity)
    norm_num at this ⊢; linarith
  -- the result
  set z : ℚ → ℝ := fun x => ((x : ℝ) - μ) / σ with hz
  set M : ℚ → ℝ := fun x => (|z x| + f.u) ^ 2 / 2 with hM
  set G : ℚ → FVal := fun x => Flt.add f (.fin 0) (quadTerm f (.fin μ) (.fin σ) (.fin x)) with hG
  have hcase := fun x (hx' : x ∈ xs) => quad_cases hf hμ (hx x hx') hσ0
  have hres : Normal.logDensityIid (⟨Flt.fin μ, Flt.fin σ⟩ : Normal (Flt f L)) (xs.map Flt.fin) =
      Flt.add f (Flt.add f (.fin p) ((xs.map G).foldl (Flt.add f) (.fin 0))) (.fin c') := by
    rw [normal_iid_flt, sum_zeros, List.length_map, ← hnn, hrn, hc]
    have hgs : Flt.ln L (Flt.fin (f := f) (L := L) σ) = .fin g := hg
    have h1 : Flt.add f (.fin 0) (Flt.neg (.fin g)) = .fin (-g) := zero_add_rep hgn'.rep
    have h2 : Flt.add f (.fin 0) (.fin c) = .fin c := zero_add_rep hcn.rep
    rw [hgs, h1, h2, hp, hc', zero_add_rep hpn.rep]
    have h3 : (xs.map (Flt.fin (f := f) (L := L))).map
        (fun x => Flt.add f (.fin 0) (quadTerm f (.fin μ) (.fin σ) x)) = xs.map G := by
      exact List.map_map (f := Flt.fin (f := f) (L := L))
    exact congrArg (fun l => Flt.add f (Flt.add f (.fin p) (l.foldl (Flt.add f) (.fin 0))) (.fin c')) h3
  rw [hres]
  have hMz : ∀ x, M x ≤ z x ^ 2 + f.u ^ 2 := by
    intro x
    have h1 := sq_abs (z x)
    have h2 := sq_nonneg (|z x| - f.u)
    simp only [hM]
    nlinarith
  have hsumM : ∀ ys : List ℚ, (ys.map M).sum ≤ (ys.map fun x => z x ^ 2).sum + ys.length * f.u ^ 2 := by
    intro ys
    induction ys with
    | nil => simp
    | cons y ys ih =>
      simp only [List.map_cons, List.sum_cons, List.length_cons]
      push_cast
      linarith [hMz y]
  have hbig : (2 : ℝ) ^ (100 : ℤ) ≤ 2 ^ (f.emax - 6) :=
    zpow_le_zpow_right₀ (by norm_num) (by have := hf.emax_ge; omega)
  have hun : (n : ℝ) * f.u ^ 2 ≤ 1 := by nlinarith
  have pw : ∀ k : ℕ, ∀ j : ℤ, j = (f.emax - 6) + k → (2 : ℝ) ^ j = 2 ^ k * 2 ^ (f.emax - 6) := fun k j hj =>
    pow_split _ k j hj
  -- terms that are not finite
  have hterm : ∀ x ∈ xs, G x = .inf true → (∃ x ∈ xs, (2 : ℝ) ^ (f.emax - 1) < |(x : ℝ) - μ|) ∨
      (2 : ℝ) ^ (f.emax - 6) < (xs.map fun x : ℚ => z x ^ 2).sum := by
    intro x hx' hG'
    rcases hcase x hx' with ⟨q, hq, -⟩ | ⟨-, h1 | h1⟩
    · simp only [hG] at hG'; rw [hq] at hG'; cases hG'
    · exact .inl ⟨x, hx', h1⟩
    · right
      have h2 : z x ^ 2 ≤ (xs.map fun x : ℚ => z x ^ 2).sum :=
        List.single_le_sum (by simp; intros; positivity) _ (List.mem_map.mpr ⟨x, hx', rfl⟩)
      have h3 := hMz x
      simp only [hM, hz] at h3
      rw [pw 4 (f.emax - 2) (by push_cast; ring)] at h1
      have h4 : f.u ^ 2 ≤ 1 := by nlinarith
      have h5 : (2 : ℝ) ^ (100 : ℤ) = 2 ^ 100 := by norm_cast
      rw [h5] at hbig
      norm_num at hbig h1
      simp only [hz] at h2 ⊢
      linarith
  have hn2 : (n : ℝ) * f.u ≤ 1/2 := by linarith
  have hgr := grow_le (f := f) hn2
  have hgr0 := grow_nonneg (f := f) n
  -- a large sum of the terms
  have hsumbig : ∀ qs : List ℚ, xs.map G = qs.map FVal.fin →
      7 * (2 : ℝ) ^ (f.emax - 6) < 2 * (qs.map fun q : ℚ => |(q : ℝ)|).sum →
      (2 : ℝ) ^ (f.emax - 6) < (xs.map fun x : ℚ => z x ^ 2).sum := by
    intro qs hqs h1
    have hl := near_list (f := f) (k := 18) G (fun x => -(z x ^ 2 / 2)) M xs qs hqs (by
      intro x hx' q hq
      rcases hcase x hx' with ⟨q', hq', -, hn'⟩ | ⟨h2, -⟩
      · simp only [hG] at hq; rw [hq'] at hq; obtain rfl := FVal.fin.inj hq; exact hn'
      · simp only [hG] at hq; rw [h2] at hq; cases hq)
    have h2 := hl.2.1
    have h3 := hsumM xs
    rw [← hnn] at h3
    have hM0 : 0 ≤ (xs.map M).sum := List.sum_nonneg (by simp [hM]; intros; positivity)
    have h4 : (1 + 18 * f.u) * (xs.map M).sum ≤ 2 * (xs.map M).sum := by
      gcongr; norm_num at hul; linarith
    have h5 : (2 : ℝ) ^ (100 : ℤ) = 2 ^ 100 := by norm_cast
    rw [h5] at hbig
    norm_num at hbig h1
    linarith
  rcases foldl_neg hf (xs.map G) (by
      intro y hy
      obtain ⟨x, hx', rfl⟩ := List.mem_map.mp hy
      rcases hcase x hx' with ⟨q, hq, hq0, hqn⟩ | ⟨h1, -⟩
      · exact .inr ⟨q, hq, hq0, hqn.rep⟩
      · exact .inl h1) (le_refl (0 : ℚ)) with ⟨m, hm, hm0, qs, hqs, hq0⟩ | ⟨hm, hm2⟩
  · -- the sum of the terms is finite
    rw [hm]
    have hl := near_list (f := f) (k := 18) G (fun x => -(z x ^ 2 / 2)) M xs qs hqs (by
      intro x hx' q hq
      rcases hcase x hx' with ⟨q', hq', -, hn'⟩ | ⟨h2, -⟩
      · simp only [hG] at hq; rw [hq'] at hq; obtain rfl := FVal.fin.inj hq; exact hn'
      · simp only [hG] at hq; rw [h2] at hq; cases hq)
    obtain ⟨l1, l2, l3, l4, l5⟩ := hl
    rw [hqs] at hm
    obtain ⟨hmr, hme⟩ := foldl_add_err hf qs l4 (rep_zero f) (S := 0) (T := 0) (k := 0) (by simp) (by simp) hm
    rw [zero_add, zero_add, zero_add, l5, ← hnn] at hme
    have hM0 : 0 ≤ (xs.map M).sum := List.sum_nonneg (by simp [hM]; intros; positivity)
    have hq0' : 0 ≤ (qs.map fun q : ℚ => |(q : ℝ)|).sum := List.sum_nonneg (by simp)
    have h18 : (1 + 18 * f.u) * (xs.map M).sum ≤ 2 * (xs.map M).sum := by
      gcongr; norm_num at hul; linarith
    have hmn : Near f (24 + 4 * n) m (xs.map fun x => -(z x ^ 2 / 2)).sum (xs.map M).sum := by
      refine ⟨hmr, l3, ?_⟩
      have h1 := abs_sub_le (m : ℝ) (qs.map fun q : ℚ => (q : ℝ)).sum (xs.map fun x => -(z x ^ 2 / 2)).sum
      have h2 : f.grow n * (qs.map fun q : ℚ => |(q : ℝ)|).sum ≤ (2 * n * f.u) * (2 * (xs.map M).sum) :=
        mul_le_mul hgr (l2.trans h18) hq0' (by positivity)
      have h3 : 0 ≤ f.u * (xs.map M).sum := by positivity
      linarith
    have hkn : (28 + 4 * (n : ℝ)) * f.u ≤ 1 := by norm_num at hul; linarith
    have hm0' : (m : ℝ) ≤ 0 := by exact_mod_cast hm0
    have hmbig : 7 * (2 : ℝ) ^ (f.emax - 6) < |(m : ℝ)| →
        (2 : ℝ) ^ (f.emax - 6) < (xs.map fun x : ℚ => z x ^ 2).sum := by
      intro h1
      refine hsumbig qs hqs (h1.trans_le ?_)
      have h2 := abs_sub_abs_le_abs_sub (m : ℝ) (qs.map fun q : ℚ => (q : ℝ)).sum
      have h3 : |(qs.map fun q : ℚ => (q : ℝ)).sum| ≤ (qs.map fun q : ℚ => |(q : ℝ)|).sum := by
        have : ∀ l : List ℚ, |(l.map fun q : ℚ => (q : ℝ)).sum| ≤ (l.map fun q : ℚ => |(q : ℝ)|).sum := by
          intro l
          induction l with
          | nil => simp
          | cons a l ih =>
            simp only [List.map_cons, List.sum_cons]
            exact (abs_add_le _ _).trans (by gcongr)
        exact this qs
      have h4 : f.grow n * (qs.map fun q : ℚ => |(q : ℝ)|).sum ≤ 1 * (qs.map fun q : ℚ => |(q : ℝ)|).sum := by
        gcongr; linarith
      linarith
    rcases add_dominated hf hpn.rep hmr hpsz (hm0'.trans (by positivity)) (by norm_num) (by norm_num) with
        ⟨t, ht, htr, ht1, ht2⟩ | ⟨ht, ht1⟩
    · rw [ht]
      have htn := Near.add_many hf (hpn.mono (k' := 24 + 4 * n) (by linarith) le_rfl (by norm_num)) hmn
        (by linarith) ht
      have hcomm : Flt.add f (.fin t) (.fin c') = Flt.add f (.fin c') (.fin t) := by
        show f.round (t + c') = f.round (c' + t); rw [add_comm]
      rw [hcomm]
      rcases add_dominated hf hcn'.rep htr hcsz (ht1.trans (by norm_num)) (by norm_num) (by norm_num) with
          ⟨r, hr, hrr, -⟩ | ⟨hr, hr1⟩
      · left
        refine ⟨r, hr, hrr, ?_⟩
        have hrn := Near.add_many hf (hcn'.mono (k' := 24 + 4 * n + 2) (by linarith) le_rfl (by linarith))
          htn (by linarith) hr
        have eT : (xs.map fun x : ℚ => Real.log (gaussianPDFReal μ ((σ : ℝ) ^ 2).toNNReal x)).sum =
            n * (-(1/2) * Real.log (2 * Real.pi)) + (n * -Real.log σ + (xs.map fun x => -(z x ^ 2 / 2)).sum) := by
          rw [hnn]
          clear * - hσR hz
          induction xs with
          | nil => simp
          | cons x xs ih =>
            rw [List.map_cons, List.sum_cons, ih, log_gaussian_flt hσR]
            simp only [List.map_cons, List.sum_cons, List.length_cons]
            push_cast; simp only [hz]; ring
        rw [eT]
        refine hrn.err.trans ?_
        have eS : (xs.map fun x : ℚ => 1 + |Real.log σ| + (((x : ℝ) - μ) / σ) ^ 2 / 2).sum =
            n * (1 + |Real.log σ|) + (xs.map fun x => z x ^ 2 / 2).sum := by
          rw [hnn]
          clear * - hz
          induction xs with
          | nil => simp
          | cons x xs ih =>
            simp only [List.map_cons, List.sum_cons, List.length_cons, ih, hz]
            push_cast; ring
        rw [eS]
        have hS2 : (xs.map M).sum ≤ 2 * (xs.map fun x => z x ^ 2 / 2).sum + 1/100 := by
          have := hsumM xs
          have e2 : (xs.map fun x => z x ^ 2).sum = 2 * (xs.map fun x => z x ^ 2 / 2).sum := by
            clear * -
            induction xs with
            | nil => simp
            | cons x xs ih => simp only [List.map_cons, List.sum_cons, ih]; ring
          rw [e2, ← hnn] at this
          have : (n : ℝ) * f.u ^ 2 ≤ 1/100 := by
            have h9 : (n : ℝ) * f.u * f.u ≤ 1/1000 * 1 := by
              gcongr; norm_num at hul; linarith
            rw [pow_two, ← mul_assoc]; linarith
          linarith
        have hz0 : 0 ≤ (xs.map fun x => z x ^ 2 / 2).sum := List.sum_nonneg (by simp; intros; positivity)
        have hfin : n * (1/2 * (1 + Real.log (2 * Real.pi))) + (n * (1 + |Real.log σ|) + (xs.map M).sum) ≤
            3 * (n * (1 + |Real.log σ|) + (xs.map fun x => z x ^ 2 / 2).sum) := by
          have h1 : (n : ℝ) * (1/2 * (1 + Real.log (2 * Real.pi))) ≤ n * (7/4) := by gcongr; linarith
          have h2 : (n : ℝ) * 1 ≤ n * (1 + |Real.log σ|) := by gcongr; linarith
          linarith
        have hk : 0 ≤ (24 + 4 * (n : ℝ) + 2 + 2) * f.u := by positivity
        have h1 := mul_le_mul_of_nonneg_left hfin hk
        have h2 : 0 ≤ f.u * (n * (1 + |Real.log σ|) + (xs.map fun x => z x ^ 2 / 2).sum) := by positivity
        linarith
      · right
        rw [hr]
        refine ⟨rfl, .inr (hmbig ?_)⟩
        have h1 : (2 : ℝ) ^ (f.emax - 2) = 2 ^ 4 * 2 ^ (f.emax - 6) := pw 4 _ (by push_cast; ring)
        rw [h1] at hr1
        have h5 : (2 : ℝ) ^ (100 : ℤ) = 2 ^ 100 := by norm_cast
        have h6 : (2 : ℝ) ^ (61 : ℤ) = 2 ^ 61 := by norm_cast
        rw [h5] at hbig
        rw [h6] at ht2
        norm_num at hbig hr1 ht2 ⊢
        linarith
    · right
      rw [ht]
      have h1 : (2 : ℝ) ^ (f.emax - 2) = 2 ^ 4 * 2 ^ (f.emax - 6) := pw 4 _ (by push_cast; ring)
      rw [h1] at ht1
      have h2 : (0 : ℝ) < 2 ^ (f.emax - 6) := by positivity
      exact ⟨rfl, .inr (hmbig (by linarith))⟩
  · -- not finite
    right
    rw [hm]
    refine ⟨rfl, ?_⟩
    rcases hm2 with h1 | ⟨qs, hqs, hq⟩
    · obtain ⟨x, hx', h2⟩ := List.mem_map.mp h1
      exact hterm x hx' h2
    · right
      refine hsumbig qs hqs ?_
      by_contra hc
      have hlen : qs.length = n := by
        have := congrArg List.length hqs
        simpa [hnn] using this.symm
      have h0 : 0 ≤ (qs.map fun q : ℚ => |(q : ℝ)|).sum := List.sum_nonneg (by simp)
      obtain ⟨r, hr⟩ := foldl_add_fin hf qs (fun q hq' => (hq q hq').2) (rep_zero f) (S := 0) (T := 0)
        (k := 0) (by simp) (by simp) (by rw [zero_add, hlen]; linarith) (by
          have h2 : (2 : ℝ) ^ (f.emax - 3) = 2 ^ 3 * 2 ^ (f.emax - 6) := pw 3 _ (by push_cast; ring)
          have h3 : (0 : ℝ) < 2 ^ (f.emax - 6) := by positivity
          rw [h2]
          linarith [not_lt.mp hc])
      rw [hqs, hr] at hm
      cases hm

example : ∃ L : Libm, L.Accurate f64 ∧ (∀ x ∈ [1, (2 : ℚ)], f64.Representable x) ∧
    (([1, (2 : ℚ)].length : ℕ) : ℝ) * f64.u ≤ 1/1000 ∧
    ∃ d : Normal (Flt f64 L), Normal.new (Flt.fin 0) (Flt.fin 1) = .ok d := by
  have hf : f64.Std := .inl rfl
  obtain ⟨L, hL⟩ := exists_libm hf
  refine ⟨L, hL, by simp; exact ⟨hf.rep_one, hf.rep_two⟩, ?_, _, rfl⟩
  have := hf.u_le
  norm_num at *
  linarith

/-- **C91**: if a distribution's log-density at each sample is within `ε` of the true value, the
finite joint log-density computed by the IID wrapper without the exponential-family route is within
the accumulated `ε` plus `(1+u)^n - 1` of the sum of sizes. -/
theorem C91_iid_fallback (hf : f.Std) {D X : Type} [HasLogDensity D X (Flt f L)] (d : D) (xs : List X)
    (truth ε : X → ℝ)
    (hd : ∀ x ∈ xs, ∃ q : ℚ, logDensityWrtRoot d x = Flt.fin (f := f) (L := L) q ∧
      f.Representable q ∧ |(q : ℝ) - truth x| ≤ ε x) {r : ℚ}
    (h : (IID.ofDist d).iidLogDensityFallback xs = Flt.fin (f := f) (L := L) r) :
    |(r : ℝ) - (xs.map truth).sum| ≤ (xs.map ε).sum +
      ((1 + f.u) ^ xs.length - 1) * (xs.map fun x => |truth x| + ε x).sum := by
  have hl : ∃ qs : List ℚ, xs.map (fun x => (logDensityWrtRoot d x : Flt f L)) = qs.map Flt.fin ∧
      qs.length = xs.length ∧ (∀ q ∈ qs, f.Representable q) ∧
      |(qs.map fun q : ℚ => (q : ℝ)).sum - (xs.map truth).sum| ≤ (xs.map ε).sum ∧
      (qs.map fun q : ℚ => |(q : ℝ)|).sum ≤ (xs.map fun x => |truth x| + ε x).sum := by
    clear h
    induction xs with
    | nil => exact ⟨[], by simp⟩
    | cons x xs ih =>
      obtain ⟨qs, e1, e2, e3, e4, e5⟩ := ih (fun y hy => hd y (List.mem_cons_of_mem _ hy))
      obtain ⟨q, g1, g2, g3⟩ := hd x List.mem_cons_self
      refine ⟨q :: qs, ?_, by simp [e2], ?_, ?_, ?_⟩
      · simp only [List.map_cons, e1, g1]
      · intro p hp
        rcases List.mem_cons.mp hp with rfl | hp
        exacts [g2, e3 p hp]
      · simp only [List.map_cons, List.sum_cons]
        rw [add_sub_add_comm]
        exact (abs_add_le _ _).trans (add_le_add g3 e4)
      · simp only [List.map_cons, List.sum_cons]
        have := abs_sub_abs_le_abs_sub (q : ℝ) (truth x)
        linarith
  obtain ⟨qs, e1, e2, e3, e4, e5⟩ := hl
  have h' : FloatOps.sum (qs.map (Flt.fin (f := f) (L := L))) = Flt.fin (f := f) (L := L) r := by
    rw [← e1]; exact h
  have h2 := C91_sum hf qs e3 h'
  rw [e2] at h2
  have h3 : 0 ≤ (1 + f.u) ^ xs.length - 1 := grow_nonneg (f := f) xs.length
  have h4 := mul_le_mul_of_nonneg_left e5 h3
  have h5 := abs_sub_le (r : ℝ) (qs.map fun q : ℚ => (q : ℝ)).sum (xs.map truth).sum
  linarith

end Verif
