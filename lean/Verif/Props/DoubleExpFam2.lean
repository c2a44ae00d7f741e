import Verif.Lemmas.AppSum
import Verif.Props.DoubleExpFam

/-!
# C144: the exponential-family path of Gamma, Beta and chi-squared in floating point, for samples of any size
-/

namespace Verif
open Format FloatOps ProbabilityTheory ExponentialFamily

variable {f : Format} {L : Libm}

/-- what the joint exponential-family log-density computes from two natural parameters, a log-partition and two
statistics per observation, with a base measure of log-density zero -/
theorem App.iid_two {ι : Type} (hf : f.Std) (xs : List ι) {v1 v2 vA : Flt f L} {t1 t2 : ι → Flt f L}
    {a1 a2 A N1 N2 NA : ℝ} {x1 x2 S1 S2 : ι → ℝ} {k1 k2 kA s1 s2 m : ℝ} (hne : xs ≠ [])
    (g1 : App f k1 v1 a1 N1) (g2 : App f k2 v2 a2 N2) (gA : App f kA vA A NA)
    (h1 : ∀ i ∈ xs, App f s1 (t1 i) (x1 i) (S1 i)) (h2 : ∀ i ∈ xs, App f s2 (t2 i) (x2 i) (S2 i))
    (p1 : 0 ≤ k1) (p2 : 0 ≤ k2) (pA : 0 ≤ kA) (q1 : 0 ≤ s1) (q2 : 0 ≤ s2)
    (m1 : k1 + s1 + 12 ≤ m) (m2 : k2 + s2 + 12 ≤ m) (mA : kA + 6 ≤ m) (hm : m ≤ 1000) (hn : xs.length * f.u ≤ 1/1000)
    (b1 : (xs.map S1).sum ≤ 2 ^ 90) (b2 : (xs.map S2).sum ≤ 2 ^ 90)
    (hB : xs.length * (N1 * (xs.map S1).sum + N2 * (xs.map S2).sum + NA + 3) ≤ 2 ^ 90) :
    App f m (Flt.add f (Flt.sub f (Flt.add f (Flt.add f (.fin 0) (Flt.mul f v1 (FloatOps.sum (xs.map t1) : Flt f L)))
        (Flt.mul f v2 (FloatOps.sum (xs.map t2) : Flt f L))) (Flt.mul f (f.round (xs.length : ℚ)) vA)) (.fin 0))
      (a1 * (xs.map x1).sum + a2 * (xs.map x2).sum - xs.length * A)
      (xs.length * (N1 * (xs.map S1).sum + N2 * (xs.map S2).sum + NA + 3)) := by
  have hn1 : (1 : ℝ) ≤ xs.length := by exact_mod_cast List.length_pos_of_ne_nil hne
  have e1 := App.sum hf xs q1 (m := s1 + 4) le_rfl (by linarith) hn h1 b1
  have e2 := App.sum hf xs q2 (m := s2 + 4) le_rfl (by linarith) hn h2 b2
  have z1 := e1.nonneg
  have z2 := e2.nonneg
  have y1 := g1.nonneg
  have y2 := g2.nonneg
  have yA := gA.nonneg
  have w1 := mul_nonneg y1 z1
  have w2 := mul_nonneg y2 z2
  have wA := mul_nonneg (by positivity : (0:ℝ) ≤ xs.length) yA
  have hB' : N1 * (xs.length * (xs.map S1).sum) + N2 * (xs.length * (xs.map S2).sum) + xs.length * NA + 3 * xs.length
      ≤ 2 ^ 90 := by linarith
  have c1 := App.mul hf g1 e1 p1 (by linarith) (m := m - 4) (by linarith) (by linarith) (by linarith)
  have c2 := App.mul hf g2 e2 p2 (by linarith) (m := m - 4) (by linarith) (by linarith) (by linarith)
  have cA := App.mul hf (App.count hf hn) gA le_rfl pA (m := m - 2) (by linarith) (by linarith) (by linarith)
  have d1 := App.add hf c1 c2 (m := m - 2) ⟨by linarith, by linarith⟩ ⟨by linarith, by linarith⟩ (by linarith) (by linarith)
  have d2 := App.sub hf d1 cA (m := m) ⟨by linarith, by linarith⟩ ⟨by linarith, by linarith⟩ (by linarith) (by linarith)
  rw [(App.add_zero c1).2, (App.add_zero d2).1]
  exact d2.mono ⟨by linarith, le_rfl⟩ (by linarith)

theorem iid_two_eq {D : Type} [e : ExponentialFamily D (Flt f L) (Flt f L)] [ArrayStat D] (hdim : ArrayStat.dim D = 2)
    {d : D} {v1 v2 vA : Flt f L} {g1 g2 : Flt f L → Flt f L} (hn : naturalAndLogPartition d = ([v1, v2], vA))
    (hs : sufficientStatistic d = fun x => [g1 x, g2 x]) (hb : ∀ x, baseLogDensity d x = Flt.fin (f := f) (L := L) 0)
    (xs : List (Flt f L)) (hne : xs ≠ []) :
    (IID.ofDist d).iidLogDensity xs = (Flt.add f (Flt.sub f (Flt.add f (Flt.add f (.fin 0)
        (Flt.mul f v1 (FloatOps.sum (xs.map g1) : Flt f L)))
        (Flt.mul f v2 (FloatOps.sum (xs.map g2) : Flt f L))) (Flt.mul f (f.round (xs.length : ℚ)) vA)) (.fin 0) :
        Flt f L) := by
  unfold IID.iidLogDensity computeIidExpFamLogDensity IID.ofDist
  rw [if_neg (by simpa using hne)]
  simp only [hn, hs, hb, hdim, sumStats_two, sum_const_zero]
  rfl

theorem ef_two_eq {D : Type} [e : ExponentialFamily D (Flt f L) (Flt f L)]
    {d : D} {v1 v2 vA : Flt f L} {g1 g2 : Flt f L → Flt f L} (hn : naturalAndLogPartition d = ([v1, v2], vA))
    (hs : ∀ x, sufficientStatistic d x = [g1 x, g2 x]) (hb : ∀ x, baseLogDensity d x = Flt.fin (f := f) (L := L) 0)
    (he : ∀ x, expFamLogDensity d x = expFamLogDensityDefault (naturalAndLogPartition d) (sufficientStatistic d x)
      (baseLogDensity d x)) (x : Flt f L) :
    expFamLogDensity d x = (Flt.add f (Flt.sub f (Flt.add f (Flt.add f (.fin 0) (Flt.mul f v1 (g1 x)))
        (Flt.mul f v2 (g2 x))) vA) (.fin 0) : Flt f L) := by
  rw [he, hn, hs, hb]
  rfl

/-- the joint value of one observation is the value of the observation, to the last bit -/
theorem two_single (hf : f.Std) {v1 v2 vA t1 t2 : Flt f L} {kA A NA k1 k2 x1 x2 X1 X2 : ℝ} (gA : App f kA vA A NA)
    (h1 : App f k1 t1 x1 X1) (h2 : App f k2 t2 x2 X2) :
    (Flt.add f (Flt.sub f (Flt.add f (Flt.add f (.fin 0) (Flt.mul f v1 (FloatOps.sum [t1] : Flt f L)))
        (Flt.mul f v2 (FloatOps.sum [t2] : Flt f L))) (Flt.mul f (f.round ((1 : ℕ) : ℚ)) vA)) (.fin 0) : Flt f L) =
      (Flt.add f (Flt.sub f (Flt.add f (Flt.add f (.fin 0) (Flt.mul f v1 t1)) (Flt.mul f v2 t2)) vA) (.fin 0) :
        Flt f L) := by
  have e1 : (FloatOps.sum [t1] : Flt f L) = t1 := (App.add_zero h1).2
  have e2 : (FloatOps.sum [t2] : Flt f L) = t2 := (App.add_zero h2).2
  have e3 : Flt.mul f (f.round ((1 : ℕ) : ℚ)) vA = vA := by
    obtain ⟨r, rfl, hr⟩ := gA
    rw [Nat.cast_one, f.round_exact hf.rep_one]
    exact one_mul_rep hr.rep
  rw [e1, e2, e3]

/-- the size of the terms of the joint Gamma log-density -/
noncomputable def gammaSize (a b : ℝ) (xs : List ℚ) : ℝ :=
  1 + a * |Real.log b| + |Real.log (Real.Gamma a)| + (a + 1) * (xs.map fun x : ℚ => |Real.log x|).sum
    + b * (xs.map fun x : ℚ => (x : ℝ)).sum

theorem sum_log_gamma {a b : ℝ} (ha : 0 < a) (hb : 0 < b) (xs : List ℚ) (hx : ∀ x ∈ xs, (0:ℚ) < x) :
    (xs.map fun x : ℚ => Real.log (gammaPDFReal a b x)).sum =
      (a - 1) * (xs.map fun x : ℚ => Real.log x).sum + -b * (xs.map fun x : ℚ => (x : ℝ)).sum
        - xs.length * (Real.log (Real.Gamma a) - a * Real.log b) := by
  induction xs with
  | nil => simp
  | cons x xs ih =>
    have := ih fun y hy => hx y (List.mem_cons_of_mem _ hy)
    have h0 : (0:ℝ) < x := by exact_mod_cast hx x List.mem_cons_self
    simp only [List.map_cons, List.sum_cons, this, log_gamma_pdf ha hb h0, List.length_cons]
    push_cast
    ring

theorem sum_nonneg_of {xs : List ℚ} {g : ℚ → ℝ} (h : ∀ x ∈ xs, 0 ≤ g x) : 0 ≤ (xs.map g).sum :=
  List.sum_nonneg (by simpa using h)

/-- the natural parameters and the log-partition of a Gamma distribution in floating point -/
theorem gamma_natural_app (hf : f.Std) (hL : L.Accurate f) (hG : L.GammaAccurate f) {a b : ℚ}
    (ha : f.Representable a) (hb : f.Representable b) (ha0 : 0 < a) (hb0 : 0 < b)
    (h1 : |Real.log (Real.Gamma a)| ≤ 2 ^ 80) (h2 : (a : ℝ) * |Real.log b| ≤ 2 ^ 80) :
    App f 2 (Flt.sub f (.fin a) (.fin 1)) ((a : ℝ) - 1) ((a : ℝ) + 1) ∧ App f 0 (Flt.neg (.fin b)) (-(b : ℝ)) b ∧
    App f 10 (Flt.sub f (L.lnGamma (.fin a)) (Flt.mul f (.fin a) (Flt.ln L (.fin b))))
      (Real.log (Real.Gamma a) - a * Real.log b) (1 + |Real.log (Real.Gamma a)| + ((a : ℝ) * |Real.log b| + 1)) := by
  have haR : (0 : ℝ) < a := by exact_mod_cast ha0
  have hone : App f 0 (.fin 1) 1 1 := ⟨1, rfl, Near.one hf⟩
  have p90 : (2 : ℝ) ^ 90 = 1024 * 2 ^ 80 := by norm_num
  have p81 : (2 : ℝ) ^ 81 = 2 * 2 ^ 80 := by norm_num
  have p80 : (1 : ℝ) ≤ 2 ^ 80 := by norm_num
  have haB := gamma_arg_le haR h1
  have t3 := App.mul hf (App.pos ha0 ha) (App.ln_exact hf hL hb0 hb) (m := 6) le_rfl (by norm_num)
    (by norm_num) (by norm_num) (by linarith)
  exact ⟨App.sub hf (App.pos ha0 ha) hone (m := 2) (by norm_num) (by norm_num) (by norm_num) (by linarith),
    (App.pos hb0 hb).neg, App.sub hf (App.lnGamma_exact hf hG ha0 ha (by linarith)) t3 (m := 10) (by norm_num)
    (by norm_num) (by norm_num) (by linarith)⟩

/-- **C144** (Gamma): the joint log-density by the exponential-family path is within `80 n` units of roundoff of the sum
of the logarithms of the density, relative to the size of the terms.  Missing, here and for the other families: samples
so large that `n u > 1/1000` or whose terms are beyond `2^80`, and accuracy relative to the joint value itself. -/
theorem C144_gamma_joint_partial (hf : f.Std) (hL : L.Accurate f) (hG : L.GammaAccurate f) {a b : ℚ}
    (ha : f.Representable a) (hb : f.Representable b) {d : Gamma (Flt f L)}
    (h : Gamma.new (Flt.fin a) (Flt.fin b) = .ok d) (xs : List ℚ) (hne : xs ≠ [])
    (hx : ∀ x ∈ xs, f.Representable x ∧ 0 < x) (hn : xs.length * f.u ≤ 1/1000)
    (hB : xs.length * gammaSize a b xs ≤ 2 ^ 80) (hS : (xs.map fun x : ℚ => (x : ℝ)).sum ≤ 2 ^ 80) :
    ∃ r : ℚ, (IID.ofDist d).iidLogDensity (xs.map (Flt.fin (f := f) (L := L))) = Flt.fin (f := f) (L := L) r ∧
      f.Representable r ∧
      |(r : ℝ) - (xs.map fun x : ℚ => Real.log (gammaPDFReal a b x)).sum| ≤ 80 * xs.length * f.u * gammaSize a b xs := by
  obtain ⟨ha0, hb0, rfl⟩ := Gamma.new_flt h
  have haR : (0 : ℝ) < a := by exact_mod_cast ha0
  have hbR : (0 : ℝ) < b := by exact_mod_cast hb0
  rw [sum_log_gamma haR hbR xs fun x h => (hx x h).2]
  have hn1 : (1 : ℝ) ≤ xs.length := by exact_mod_cast List.length_pos_of_ne_nil hne
  have hu := u_pos f
  have n1 : 0 ≤ (a : ℝ) * |Real.log b| := by positivity
  have n2 := abs_nonneg (Real.log (Real.Gamma a))
  have z3 : 0 ≤ (xs.map fun x : ℚ => |Real.log x|).sum := sum_nonneg_of fun _ _ => abs_nonneg _
  have z4 : 0 ≤ (xs.map fun x : ℚ => (x : ℝ)).sum := sum_nonneg_of fun x h => by exact_mod_cast (hx x h).2.le
  have n3 : 0 ≤ ((a : ℝ) + 1) * (xs.map fun x : ℚ => |Real.log x|).sum := by positivity
  have n4 : 0 ≤ (b : ℝ) * (xs.map fun x : ℚ => (x : ℝ)).sum := by positivity
  have p90 : (2 : ℝ) ^ 90 = 1024 * 2 ^ 80 := by norm_num
  have p81 : (2 : ℝ) ^ 81 = 2 * 2 ^ 80 := by norm_num
  have p80 : (1 : ℝ) ≤ 2 ^ 80 := by norm_num
  have hG1 : gammaSize a b xs ≤ 2 ^ 80 := by
    refine le_trans (le_mul_of_one_le_left ?_ hn1) hB
    unfold gammaSize; linarith
  have hG0 := hG1
  unfold gammaSize at hG0
  obtain ⟨t1, t2, t4⟩ := gamma_natural_app hf hL hG ha hb ha0 hb0 (by linarith) (by linarith)
  have hL1 : ∀ i ∈ xs, App f 2 (Flt.ln L (.fin i)) (Real.log i) |Real.log i| := fun i hi =>
    App.ln_exact hf hL (hx i hi).2 (hx i hi).1
  have hL2 : ∀ i ∈ xs, App f 0 (.fin i) (i : ℝ) (i : ℝ) := fun i hi => App.pos (hx i hi).2 (hx i hi).1
  have s1 : (xs.map fun x : ℚ => |Real.log x|).sum ≤ 2 ^ 90 := by
    have : (xs.map fun x : ℚ => |Real.log x|).sum ≤ ((a : ℝ) + 1) * (xs.map fun x : ℚ => |Real.log x|).sum :=
      le_mul_of_one_le_left z3 (by linarith)
    linarith
  have hG2 : 1 ≤ gammaSize a b xs := by unfold gammaSize; linarith
  have hnG : (xs.length : ℝ) ≤ xs.length * gammaSize a b xs := le_mul_of_one_le_right (by linarith) hG2
  have hsize : xs.length * (((a : ℝ) + 1) * (xs.map fun x : ℚ => |Real.log x|).sum
      + b * (xs.map fun x : ℚ => (x : ℝ)).sum + (1 + |Real.log (Real.Gamma a)| + ((a : ℝ) * |Real.log b| + 1)) + 3)
      ≤ 5 * (xs.length * gammaSize a b xs) := by
    have : xs.length * (((a : ℝ) + 1) * (xs.map fun x : ℚ => |Real.log x|).sum
      + b * (xs.map fun x : ℚ => (x : ℝ)).sum + (1 + |Real.log (Real.Gamma a)| + ((a : ℝ) * |Real.log b| + 1)) + 3)
      = xs.length * gammaSize a b xs + 4 * xs.length := by unfold gammaSize; ring
    linarith
  have key := App.iid_two (L := L) hf xs (t1 := fun i => Flt.ln L (.fin i)) (t2 := fun i => .fin i) hne t1 t2 t4 hL1 hL2
    (by norm_num) (by norm_num) (by norm_num) (by norm_num) (by norm_num) (m := 16) (by norm_num) (by norm_num)
    (by norm_num) (by norm_num) hn s1 (hS.trans (by norm_num)) (hsize.trans (by linarith))
  rw [iid_two_eq (d := (⟨Flt.fin a, Flt.fin b⟩ : Gamma (Flt f L))) rfl rfl rfl (fun _ => rfl) _ (by simpa using hne)]
  simp only [List.map_map, List.length_map]
  obtain ⟨r, r1, r2, r3⟩ := App.result (L := L) key
  refine ⟨r, r1, r2, r3.trans ?_⟩
  have := mul_le_mul_of_nonneg_left hsize (by positivity : 0 ≤ 16 * f.u)
  refine this.trans (le_of_eq (by ring))

/-- **C144** (Gamma): the exponential-family path for one observation, which is the joint value of a sample of one to
the last bit. -/
theorem C144_gamma_partial (hf : f.Std) (hL : L.Accurate f) (hG : L.GammaAccurate f) {a b x : ℚ}
    (ha : f.Representable a) (hb : f.Representable b) {d : Gamma (Flt f L)}
    (h : Gamma.new (Flt.fin a) (Flt.fin b) = .ok d) (hx : f.Representable x) (hx0 : 0 < x)
    (hB : gammaSize a b [x] ≤ 2 ^ 80) (hS : (x : ℝ) ≤ 2 ^ 80) :
    expFamLogDensity d (Flt.fin x) = (IID.ofDist d).iidLogDensity [Flt.fin (f := f) (L := L) x] ∧
    ∃ r : ℚ, expFamLogDensity d (Flt.fin x) = Flt.fin (f := f) (L := L) r ∧ f.Representable r ∧
      |(r : ℝ) - Real.log (gammaPDFReal a b x)| ≤ 80 * f.u * gammaSize a b [x] := by
  have hj := C144_gamma_joint_partial hf hL hG ha hb h [x] (by simp) (by simpa using ⟨hx, hx0⟩)
    (by have := hf.u_le; norm_num at this ⊢; linarith) (by simpa using hB) (by simpa using hS)
  have e : expFamLogDensity d (Flt.fin x) = (IID.ofDist d).iidLogDensity [Flt.fin (f := f) (L := L) x] := by
    obtain ⟨ha0, hb0, rfl⟩ := Gamma.new_flt h
    have z0 := abs_nonneg (Real.log (Real.Gamma a))
    have haR : (0 : ℝ) < a := by exact_mod_cast ha0
    have hbR : (0 : ℝ) < b := by exact_mod_cast hb0
    have hxR : (0 : ℝ) < x := by exact_mod_cast hx0
    have z1 : 0 ≤ (a : ℝ) * |Real.log b| := by positivity
    have z2 : 0 ≤ ((a : ℝ) + 1) * |Real.log x| := by positivity
    have z3 : 0 ≤ (b : ℝ) * x := by positivity
    simp only [gammaSize, List.map_cons, List.map_nil, List.sum_cons, List.sum_nil, add_zero] at hB
    obtain ⟨-, -, t4⟩ := gamma_natural_app hf hL hG ha hb ha0 hb0 (by linarith) (by linarith)
    rw [iid_two_eq (d := (⟨Flt.fin a, Flt.fin b⟩ : Gamma (Flt f L))) rfl rfl rfl (fun _ => rfl) _ (by simp)]
    exact (two_single hf t4 (App.ln_exact hf hL hx0 hx) (App.pos hx0 hx)).symm
  refine ⟨e, ?_⟩
  rw [e]
  simpa using hj

/-! ### Chi-squared -/

/-- the size of the terms of the joint chi-squared log-density, for half the degrees of freedom `s` -/
noncomputable def chiSize (s : ℝ) (xs : List ℚ) : ℝ :=
  1 + s * (1 + |Real.log s|) + |Real.log (Real.Gamma s)| + (s + 1) * (xs.map fun x : ℚ => |Real.log x|).sum
    + 1 / 2 * (xs.map fun x : ℚ => (x : ℝ)).sum

theorem chi_natural_app (hf : f.Std) (hL : L.Accurate f) (hG : L.GammaAccurate f) {k : ℚ}
    (hk : f.Representable k) (hk0 : 0 < k) (hk1 : 1 / 2 ^ 50 ≤ k)
    (h1 : |Real.log (Real.Gamma ((k : ℝ) / 2))| + (k : ℝ) / 2 * (1 + |Real.log ((k : ℝ) / 2)|) ≤ 2 ^ 80) :
    App f 8 (Flt.sub f (Flt.div f (.fin k) (f.round 2)) (.fin 1)) ((k : ℝ) / 2 - 1) ((k : ℝ) / 2 + 1) ∧
    App f 0 (Flt.neg (f.round (1/2))) (-(1/2 : ℝ)) (1/2) ∧
    App f 23 (Flt.add f (L.lnGamma (Flt.div f (.fin k) (f.round 2)))
        (Flt.mul f (Flt.div f (.fin k) (f.round 2)) (Flt.ln L (f.round 2))))
      (Real.log (Real.Gamma ((k : ℝ) / 2)) + (k : ℝ) / 2 * Real.log 2)
      (1 + |Real.log (Real.Gamma ((k : ℝ) / 2))| + (k : ℝ) / 2 * (1 + |Real.log ((k : ℝ) / 2)|)
        + ((k : ℝ) / 2 * Real.log 2 + 1)) := by
  have hkR : (0 : ℝ) < k := by exact_mod_cast hk0
  have hk1' : (1 : ℝ) / 2 ^ 50 ≤ k := by
    have := Rat.cast_le (K := ℝ) |>.mpr hk1
    push_cast at this; exact this
  rw [round_two hf]
  set s : ℝ := (k : ℝ) / 2 with hs
  have hs0 : 0 < s := by positivity
  have n2 := abs_nonneg (Real.log (Real.Gamma s))
  have p90 : (2 : ℝ) ^ 90 = 1024 * 2 ^ 80 := by norm_num
  have p89 : (2 : ℝ) ^ 89 = 512 * 2 ^ 80 := by norm_num
  have p80 : (1 : ℝ) ≤ 2 ^ 80 := by norm_num
  have hl2 := Real.log_two_lt_d9
  have hl2' := Real.log_two_gt_d9
  have hone : App f 0 (.fin 1) 1 1 := ⟨1, rfl, Near.one hf⟩
  have htwo : App f 0 (.fin 2) 2 2 := ⟨2, rfl, Near.two hf⟩
  have hsB : s ≤ s * (1 + |Real.log s|) := le_mul_of_one_le_right hs0.le (by
    have := abs_nonneg (Real.log s); linarith)
  have t0 : App f 6 (Flt.div f (.fin k) (.fin 2)) s s :=
    App.div_rel hf (App.pos hk0 hk) htwo (by norm_num) le_rfl le_rfl (by norm_num) (by norm_num)
      (u_cube_le_tiny hf (by
        have : (1 : ℝ) / 2 ^ 60 ≤ 1 / 2 ^ 50 / 2 := by norm_num
        exact this.trans (div_le_div_of_nonneg_right hk1' (by norm_num)))) (by rw [← hs]; linarith)
  have tl : App f 2 (Flt.ln L (.fin 2)) (Real.log 2) (Real.log 2) := by
    have := App.ln_exact hf hL (q := 2) (by norm_num) hf.rep_two
    push_cast at this
    rwa [abs_of_pos (by linarith)] at this
  have sl : s * Real.log 2 ≤ s := by nlinarith
  have t1 := App.mul hf t0 tl (m := 12) (by norm_num) (by norm_num) (by norm_num) (by norm_num) (by linarith)
  refine ⟨App.sub hf t0 hone (m := 8) (by norm_num) (by norm_num) (by norm_num) (by linarith), ?_,
    App.add hf (App.lnGamma hf hG t0 hs0 (m := 21) (by norm_num) (by norm_num) (by norm_num) (by linarith)) t1
      (m := 23) (by norm_num) (by norm_num) (by norm_num) (by linarith)⟩
  have hh := (App.pos (f := f) (q := 1/2) (by norm_num) hf.rep_half).neg
  rw [f.round_exact hf.rep_half]
  push_cast at hh
  exact hh

/-- **C144** (chi-squared): the joint log-density by the exponential-family path, for degrees of freedom from `2^-50`
on. -/
theorem C144_chi_squared_joint_partial (hf : f.Std) (hL : L.Accurate f) (hG : L.GammaAccurate f) {k : ℚ}
    (hk : f.Representable k) (hk1 : 1 / 2 ^ 50 ≤ k) {d : ChiSquared (Flt f L)}
    (h : ChiSquared.new (Flt.fin k) = .ok d) (xs : List ℚ) (hne : xs ≠ [])
    (hx : ∀ x ∈ xs, f.Representable x ∧ 0 < x) (hn : xs.length * f.u ≤ 1/1000)
    (hB : xs.length * chiSize ((k : ℝ) / 2) xs ≤ 2 ^ 80) :
    ∃ r : ℚ, (IID.ofDist d).iidLogDensity (xs.map (Flt.fin (f := f) (L := L))) = Flt.fin (f := f) (L := L) r ∧
      f.Representable r ∧
      |(r : ℝ) - (xs.map fun x : ℚ => Real.log (gammaPDFReal ((k : ℝ) / 2) (1 / 2) x)).sum| ≤
        145 * xs.length * f.u * chiSize ((k : ℝ) / 2) xs := by
  obtain ⟨hk0, rfl⟩ := ChiSquared.new_flt h
  have hkR : (0 : ℝ) < k := by exact_mod_cast hk0
  rw [sum_log_gamma (by positivity) (by norm_num) xs fun x h => (hx x h).2, one_div, Real.log_inv, ← one_div]
  set s : ℝ := (k : ℝ) / 2 with hs
  have hs0 : 0 < s := by positivity
  have hn1 : (1 : ℝ) ≤ xs.length := by exact_mod_cast List.length_pos_of_ne_nil hne
  have hu := u_pos f
  have n1 : 0 ≤ s * (1 + |Real.log s|) := by positivity
  have n2 := abs_nonneg (Real.log (Real.Gamma s))
  have z3 : 0 ≤ (xs.map fun x : ℚ => |Real.log x|).sum := sum_nonneg_of fun _ _ => abs_nonneg _
  have z4 : 0 ≤ (xs.map fun x : ℚ => (x : ℝ)).sum := sum_nonneg_of fun x h => by exact_mod_cast (hx x h).2.le
  have n3 : 0 ≤ (s + 1) * (xs.map fun x : ℚ => |Real.log x|).sum := by positivity
  have p90 : (2 : ℝ) ^ 90 = 1024 * 2 ^ 80 := by norm_num
  have p80 : (1 : ℝ) ≤ 2 ^ 80 := by norm_num
  have hl2 := Real.log_two_lt_d9
  have hl2' := Real.log_two_gt_d9
  have hsB : s ≤ s * (1 + |Real.log s|) := le_mul_of_one_le_right hs0.le (by
    have := abs_nonneg (Real.log s); linarith)
  have sl : s * Real.log 2 ≤ s := by nlinarith
  have hG1 : chiSize s xs ≤ 2 ^ 80 := by
    refine le_trans (le_mul_of_one_le_left ?_ hn1) hB
    unfold chiSize; linarith
  have hG2 : 1 ≤ chiSize s xs := by unfold chiSize; linarith
  have hG0 := hG1
  unfold chiSize at hG0
  obtain ⟨t1, t2, t4⟩ := chi_natural_app hf hL hG hk hk0 hk1 (by rw [← hs]; linarith)
  rw [← hs] at t1 t4
  have hL1 : ∀ i ∈ xs, App f 2 (Flt.ln L (.fin i)) (Real.log i) |Real.log i| := fun i hi =>
    App.ln_exact hf hL (hx i hi).2 (hx i hi).1
  have hL2 : ∀ i ∈ xs, App f 0 (.fin i) (i : ℝ) (i : ℝ) := fun i hi => App.pos (hx i hi).2 (hx i hi).1
  have s1 : (xs.map fun x : ℚ => |Real.log x|).sum ≤ 2 ^ 90 := by
    have : (xs.map fun x : ℚ => |Real.log x|).sum ≤ (s + 1) * (xs.map fun x : ℚ => |Real.log x|).sum :=
      le_mul_of_one_le_left z3 (by linarith)
    linarith
  have s2 : (xs.map fun x : ℚ => (x : ℝ)).sum ≤ 2 ^ 90 := by linarith
  have hsize : xs.length * ((s + 1) * (xs.map fun x : ℚ => |Real.log x|).sum
      + 1 / 2 * (xs.map fun x : ℚ => (x : ℝ)).sum + (1 + |Real.log (Real.Gamma s)| + s * (1 + |Real.log s|)
        + (s * Real.log 2 + 1)) + 3)
      ≤ xs.length * (5 * chiSize s xs) := by
    refine mul_le_mul_of_nonneg_left ?_ (by linarith)
    unfold chiSize
    linarith
  have key := App.iid_two (L := L) hf xs (t1 := fun i => Flt.ln L (.fin i)) (t2 := fun i => .fin i) hne t1 t2 t4 hL1 hL2
    (by norm_num) (by norm_num) (by norm_num) (by norm_num) (by norm_num) (m := 29) (by norm_num) (by norm_num)
    (by norm_num) (by norm_num) hn s1 s2 (hsize.trans (by linarith))
  rw [iid_two_eq (d := (⟨Flt.fin k⟩ : ChiSquared (Flt f L))) rfl rfl rfl (fun _ => rfl) _ (by simpa using hne)]
  simp only [List.map_map, List.length_map]
  obtain ⟨r, r1, r2, r3⟩ := App.result (L := L) key
  refine ⟨r, r1, r2, ?_⟩
  rw [mul_neg, sub_neg_eq_add]
  refine r3.trans ?_
  have := mul_le_mul_of_nonneg_left hsize (by positivity : 0 ≤ 29 * f.u)
  refine this.trans (le_of_eq (by ring))

/-! ### Beta -/

/-- the size of the terms of the joint Beta log-density -/
noncomputable def betaSize (a b : ℝ) (xs : List ℚ) : ℝ :=
  1 + |Real.log (Real.Gamma (a + b))| + (a + b) * (1 + |Real.log (a + b)|) + |Real.log (Real.Gamma a)|
    + |Real.log (Real.Gamma b)| + (a + 1) * (xs.map fun x : ℚ => |Real.log x|).sum
    + (b + 1) * (xs.map fun x : ℚ => 1 + |Real.log (1 - x)|).sum

theorem sum_log_beta {a b : ℝ} (ha : 0 < a) (hb : 0 < b) (xs : List ℚ) (hx : ∀ x ∈ xs, (0:ℚ) < x ∧ x < 1) :
    (xs.map fun x : ℚ => Real.log (betaPDFReal a b x)).sum =
      (a - 1) * (xs.map fun x : ℚ => Real.log x).sum + (b - 1) * (xs.map fun x : ℚ => Real.log (1 - x)).sum
        - xs.length * (Real.log (Real.Gamma a) + Real.log (Real.Gamma b) - Real.log (Real.Gamma (a + b))) := by
  induction xs with
  | nil => simp
  | cons x xs ih =>
    have := ih fun y hy => hx y (List.mem_cons_of_mem _ hy)
    have h0 : (0:ℝ) < x := by exact_mod_cast (hx x List.mem_cons_self).1
    have h1 : (x:ℝ) < 1 := by exact_mod_cast (hx x List.mem_cons_self).2
    simp only [List.map_cons, List.sum_cons, this, log_beta_pdf ha hb h0 h1, List.length_cons]
    push_cast
    ring

/-- **C144** (Beta): the joint log-density by the exponential-family path. -/
theorem C144_beta_joint_partial (hf : f.Std) (hL : L.Accurate f) (hG : L.GammaAccurate f) {a b : ℚ}
    (ha : f.Representable a) (hb : f.Representable b) {d : Beta (Flt f L)}
    (h : Beta.new (Flt.fin a) (Flt.fin b) = .ok d) (xs : List ℚ) (hne : xs ≠ [])
    (hx : ∀ x ∈ xs, f.Representable x ∧ 0 < x ∧ x < 1) (hn : xs.length * f.u ≤ 1/1000)
    (hB : xs.length * betaSize a b xs ≤ 2 ^ 80) :
    ∃ r : ℚ, (IID.ofDist d).iidLogDensity (xs.map (Flt.fin (f := f) (L := L))) = Flt.fin (f := f) (L := L) r ∧
      f.Representable r ∧
      |(r : ℝ) - (xs.map fun x : ℚ => Real.log (betaPDFReal a b x)).sum| ≤ 114 * xs.length * f.u * betaSize a b xs := by
  obtain ⟨ha0, hb0, rfl⟩ := Beta.new_flt h
  have haR : (0 : ℝ) < a := by exact_mod_cast ha0
  have hbR : (0 : ℝ) < b := by exact_mod_cast hb0
  rw [sum_log_beta haR hbR xs fun x h => (hx x h).2]
  have hn1 : (1 : ℝ) ≤ xs.length := by exact_mod_cast List.length_pos_of_ne_nil hne
  have hu := u_pos f
  have hs0 : 0 < (a : ℝ) + b := by positivity
  have n1 : 0 ≤ ((a : ℝ) + b) * (1 + |Real.log ((a : ℝ) + b)|) := by positivity
  have n2 := abs_nonneg (Real.log (Real.Gamma ((a : ℝ) + b)))
  have n3 := abs_nonneg (Real.log (Real.Gamma a))
  have n4 := abs_nonneg (Real.log (Real.Gamma b))
  have z5 : 0 ≤ (xs.map fun x : ℚ => |Real.log x|).sum := sum_nonneg_of fun _ _ => abs_nonneg _
  have z6 : 0 ≤ (xs.map fun x : ℚ => 1 + |Real.log (1 - x)|).sum := sum_nonneg_of fun _ _ => by positivity
  have n5 : 0 ≤ ((a : ℝ) + 1) * (xs.map fun x : ℚ => |Real.log x|).sum := by positivity
  have n6 : 0 ≤ ((b : ℝ) + 1) * (xs.map fun x : ℚ => 1 + |Real.log (1 - x)|).sum := by positivity
  have p90 : (2 : ℝ) ^ 90 = 1024 * 2 ^ 80 := by norm_num
  have p89 : (2 : ℝ) ^ 89 = 512 * 2 ^ 80 := by norm_num
  have p80 : (1 : ℝ) ≤ 2 ^ 80 := by norm_num
  have hsB : (a : ℝ) + b ≤ ((a : ℝ) + b) * (1 + |Real.log ((a : ℝ) + b)|) := le_mul_of_one_le_right hs0.le (by
    have := abs_nonneg (Real.log ((a : ℝ) + b)); linarith)
  have hG1 : betaSize a b xs ≤ 2 ^ 80 := by
    refine le_trans (le_mul_of_one_le_left ?_ hn1) hB
    unfold betaSize; linarith
  have hG0 := hG1
  unfold betaSize at hG0
  have hone : App f 0 (.fin 1) 1 1 := ⟨1, rfl, Near.one hf⟩
  have t0 := App.add_pos hf ha hb hs0.le (by linarith)
  have t1 := App.lnGamma hf hG t0 hs0 (m := 11) (by norm_num) (by norm_num) (by norm_num) (by linarith)
  have t2 := App.add hf (App.lnGamma_exact hf hG ha0 ha (by linarith)) (App.lnGamma_exact hf hG hb0 hb (by linarith))
    (m := 10) (by norm_num) (by norm_num) (by norm_num) (by linarith)
  have t3 := App.sub hf t2 t1 (m := 13) (by norm_num) (by norm_num) (by norm_num) (by linarith)
  have t4 := App.sub hf (App.pos ha0 ha) hone (m := 2) (by norm_num) (by norm_num) (by norm_num) (by linarith)
  have t5 := App.sub hf (App.pos hb0 hb) hone (m := 2) (by norm_num) (by norm_num) (by norm_num) (by linarith)
  have hL1 : ∀ i ∈ xs, App f 2 (Flt.ln L (.fin i)) (Real.log i) |Real.log i| := fun i hi =>
    App.ln_exact hf hL (hx i hi).2.1 (hx i hi).1
  have hL2 : ∀ i ∈ xs, App f 5 (Flt.ln L (Flt.sub f (.fin 1) (.fin i))) (Real.log (1 - i)) (1 + |Real.log (1 - i)|) := by
    intro i hi
    obtain ⟨hr, -, hx1⟩ := hx i hi
    have hxR1 : (i : ℝ) < 1 := by exact_mod_cast hx1
    have hxR0 : (0 : ℝ) < i := by exact_mod_cast (hx i hi).2.1
    have t8 : App f 1 (Flt.sub f (.fin 1) (.fin i)) (1 - (i : ℝ)) (1 - (i : ℝ)) := by
      have := App.add_pos hf hf.rep_one (rep_neg hr) (by push_cast; linarith) (by push_cast; linarith)
      push_cast at this
      rw [← sub_eq_add_neg] at this
      exact this
    exact App.ln hf hL t8 (by linarith) (m := 5) (by norm_num) (by norm_num) (by norm_num)
  have s1 : (xs.map fun x : ℚ => |Real.log x|).sum ≤ 2 ^ 90 := by
    have : (xs.map fun x : ℚ => |Real.log x|).sum ≤ ((a : ℝ) + 1) * (xs.map fun x : ℚ => |Real.log x|).sum :=
      le_mul_of_one_le_left z5 (by linarith)
    linarith
  have s2 : (xs.map fun x : ℚ => 1 + |Real.log (1 - x)|).sum ≤ 2 ^ 90 := by
    have : (xs.map fun x : ℚ => 1 + |Real.log (1 - x)|).sum ≤
        ((b : ℝ) + 1) * (xs.map fun x : ℚ => 1 + |Real.log (1 - x)|).sum := le_mul_of_one_le_left z6 (by linarith)
    linarith
  have hsize : xs.length * (((a : ℝ) + 1) * (xs.map fun x : ℚ => |Real.log x|).sum
      + ((b : ℝ) + 1) * (xs.map fun x : ℚ => 1 + |Real.log (1 - x)|).sum
      + (1 + |Real.log (Real.Gamma a)| + (1 + |Real.log (Real.Gamma b)|) + (1 + |Real.log (Real.Gamma ((a : ℝ) + b))|
        + ((a : ℝ) + b) * (1 + |Real.log ((a : ℝ) + b)|))) + 3)
      ≤ xs.length * (6 * betaSize a b xs) := by
    refine mul_le_mul_of_nonneg_left ?_ (by linarith)
    unfold betaSize
    linarith
  have key := App.iid_two (L := L) hf xs (t1 := fun i => Flt.ln L (.fin i))
    (t2 := fun i => Flt.ln L (Flt.sub f (.fin 1) (.fin i))) hne t4 t5 t3 hL1 hL2
    (by norm_num) (by norm_num) (by norm_num) (by norm_num) (by norm_num) (m := 19) (by norm_num) (by norm_num)
    (by norm_num) (by norm_num) hn s1 s2 (hsize.trans (by linarith))
  rw [iid_two_eq (d := (⟨Flt.fin a, Flt.fin b⟩ : Beta (Flt f L))) rfl rfl rfl (fun _ => rfl) _ (by simpa using hne)]
  simp only [List.map_map, List.length_map]
  obtain ⟨r, r1, r2, r3⟩ := App.result (L := L) key
  refine ⟨r, r1, r2, r3.trans ?_⟩
  have := mul_le_mul_of_nonneg_left hsize (by positivity : 0 ≤ 19 * f.u)
  refine this.trans (le_of_eq (by ring))

/-! ### Normal -/

/-- the size of the terms of the joint normal log-density -/
noncomputable def normalSize (μ σ : ℝ) (xs : List ℚ) : ℝ :=
  (xs.map fun x : ℚ => 1 + |Real.log σ| + (x / σ) ^ 2 + (μ / σ) ^ 2).sum

theorem map_sum_le {xs : List ℚ} {g h : ℚ → ℝ} (H : ∀ x ∈ xs, g x ≤ h x) : (xs.map g).sum ≤ (xs.map h).sum :=
  List.sum_le_sum H

theorem sum_log_normal {μ σ : ℝ} (hσ : 0 < σ) (xs : List ℚ) :
    (xs.map fun x : ℚ => Real.log (gaussianPDFReal μ (σ ^ 2).toNNReal x)).sum =
      μ * (1 / (σ * σ)) * (xs.map fun x : ℚ => (x : ℝ)).sum
        + -(1/2) * (1 / (σ * σ)) * (xs.map fun x : ℚ => (x : ℝ) * x).sum
        - xs.length * (Real.log (2 * Real.pi * (σ * σ)) * (1/2) + 1/2 * (μ * μ) * (1 / (σ * σ))) := by
  have hl : Real.log (2 * Real.pi * (σ * σ)) = Real.log (2 * Real.pi) + 2 * Real.log σ := by
    rw [Real.log_mul (by positivity) (by positivity), Real.log_mul hσ.ne' hσ.ne']; ring
  induction xs with
  | nil => simp
  | cons x xs ih =>
    rw [List.map_cons, List.sum_cons, ih, log_gaussian_flt hσ, List.length_cons, hl]
    simp only [List.map_cons, List.sum_cons]
    generalize (List.map (fun x : ℚ => (x : ℝ)) xs).sum = S1
    generalize (List.map (fun x : ℚ => (x : ℝ) * x) xs).sum = S2
    push_cast
    field_simp
    ring

/-- the natural parameters and the log-partition of a normal distribution in floating point -/
theorem normal_natural_app (hf : f.Std) (hL : L.Accurate f) {μ σ : ℚ}
    (hμ : f.Representable μ) (hσ : f.Representable σ) (hσ0 : 0 < σ) (s1 : (1 : ℝ) / 2 ^ 10 ≤ σ) (s2 : (σ : ℝ) ≤ 2 ^ 10)
    (m2 : |(μ : ℝ)| ≤ 2 ^ 30) :
    App f 18 (Flt.mul f (.fin μ) (Flt.div f (.fin 1) (Flt.mul f (.fin σ) (.fin σ)))) (μ * (1 / ((σ : ℝ) * σ)))
      ((|(μ : ℝ)| + σ) * (1 / ((σ : ℝ) * σ))) ∧
    App f 18 (Flt.mul f (f.round (-1/2)) (Flt.div f (.fin 1) (Flt.mul f (.fin σ) (.fin σ))))
      (-(1/2) * (1 / ((σ : ℝ) * σ))) (1/2 * (1 / ((σ : ℝ) * σ))) ∧
    App f 41 (Flt.add f
          (Flt.mul f (Flt.ln L (Flt.mul f (Flt.mul f (f.round 2) (f.round Flt.piLit)) (Flt.mul f (.fin σ) (.fin σ))))
            (f.round (1/2)))
          (Flt.mul f (Flt.mul f (f.round (1/2)) (Flt.mul f (.fin μ) (.fin μ)))
            (Flt.div f (.fin 1) (Flt.mul f (.fin σ) (.fin σ)))))
      (Real.log (2 * Real.pi * ((σ : ℝ) * σ)) * (1/2) + 1/2 * ((μ : ℝ) * μ) * (1 / ((σ : ℝ) * σ)))
      ((1 + |Real.log (2 * Real.pi * ((σ : ℝ) * σ))|) * (1/2)
        + 1/2 * ((|(μ : ℝ)| + σ) * (|(μ : ℝ)| + σ)) * (1 / ((σ : ℝ) * σ))) := by
  have hσR : (0 : ℝ) < σ := by exact_mod_cast hσ0
  have hone : App f 0 (.fin 1) 1 1 := ⟨1, rfl, Near.one hf⟩
  have hpi := Real.pi_gt_three
  have hpi4 := Real.pi_le_four
  have hM : 0 ≤ |(μ : ℝ)| := abs_nonneg _
  have q1 : (1 : ℝ) / 2 ^ 20 ≤ (σ : ℝ) * σ := by
    have := mul_le_mul s1 s1 (by norm_num) hσR.le
    norm_num at this ⊢; linarith
  have q2 : (σ : ℝ) * σ ≤ 2 ^ 20 := by
    have := mul_le_mul s2 s2 hσR.le (by norm_num)
    norm_num at this ⊢; linarith
  have v0 : (0 : ℝ) < (σ : ℝ) * σ := by positivity
  have i1 : 1 / ((σ : ℝ) * σ) ≤ 2 ^ 20 := by
    rw [div_le_iff₀ v0]
    have := mul_le_mul_of_nonneg_left q1 (by norm_num : (0:ℝ) ≤ 2 ^ 20)
    norm_num at this ⊢; linarith
  have i2 : (1 : ℝ) / 2 ^ 20 ≤ 1 / ((σ : ℝ) * σ) := one_div_le_one_div_of_le v0 q2
  have i0 : 0 < 1 / ((σ : ℝ) * σ) := by positivity
  have tσ := App.pos (f := f) hσ0 hσ
  have tμ : App f 0 (.fin μ) (μ : ℝ) (|(μ : ℝ)| + σ) := (App.exact hμ).mono ⟨le_rfl, le_rfl⟩ (by linarith)
  have b1 : |(μ : ℝ)| + σ ≤ 2 ^ 31 := by norm_num at m2 s2 ⊢; linarith
  have b0 : (1 : ℝ) / 2 ^ 10 ≤ |(μ : ℝ)| + σ := by linarith
  have b2 : (|(μ : ℝ)| + σ) * (1 / ((σ : ℝ) * σ)) ≤ 2 ^ 51 := by
    have := mul_le_mul b1 i1 i0.le (by norm_num); norm_num at this ⊢; linarith
  have b3 : (1 : ℝ) / 2 ^ 30 ≤ (|(μ : ℝ)| + σ) * (1 / ((σ : ℝ) * σ)) := by
    have := mul_le_mul b0 i2 (by norm_num) (by linarith); norm_num at this ⊢; linarith
  have b4 : (|(μ : ℝ)| + σ) * (|(μ : ℝ)| + σ) ≤ 2 ^ 62 := by
    have := mul_le_mul b1 b1 (by linarith) (by norm_num); norm_num at this ⊢; linarith
  have b5 : (1 : ℝ) / 2 ^ 20 ≤ (|(μ : ℝ)| + σ) * (|(μ : ℝ)| + σ) := by
    have := mul_le_mul b0 b0 (by norm_num) (by linarith); norm_num at this ⊢; linarith
  have tv := App.mul_rel hf tσ tσ le_rfl le_rfl (m := 4) (by norm_num) (by norm_num)
    (u_cube_le_tiny hf (le_trans (by norm_num) q1)) (le_trans q2 (by norm_num))
  have ti := App.div_rel hf hone tv v0 le_rfl (by norm_num) (m := 14) (by norm_num) (by norm_num)
    (u_cube_le_tiny hf (le_trans (by norm_num) i2)) (le_trans i1 (by norm_num))
  have t1 := App.mul_rel hf tμ ti le_rfl (by norm_num) (m := 18) (by norm_num) (by norm_num)
    (u_cube_le_tiny hf (le_trans (by norm_num) b3)) (le_trans b2 (by norm_num))
  have rneg : f.round (-1/2) = .fin (-(1/2)) := by
    rw [show (-1/2 : ℚ) = -(1/2) by norm_num]
    exact f.round_exact (rep_neg hf.rep_half)
  have th : App f 0 (f.round (1/2)) (1/2) (1/2) := by
    rw [round_half hf]
    have := App.pos (f := f) (q := 1/2) (by norm_num) hf.rep_half
    push_cast at this; exact this
  have tn : App f 0 (f.round (-1/2)) (-(1/2)) (1/2) := by
    rw [rneg]
    have := (App.pos (f := f) (q := 1/2) (by norm_num) hf.rep_half).neg
    push_cast at this; exact this
  have t2 := App.mul_rel hf tn ti le_rfl (by norm_num) (m := 18) (by norm_num) (by norm_num)
    (u_cube_le_tiny hf (by norm_num at i2 ⊢; linarith)) (by norm_num at i1 ⊢; linarith)
  have tp : App f 8 (Flt.mul f (f.round 2) (f.round Flt.piLit)) (2 * Real.pi) (2 * Real.pi) := near_two_pi hf
  have w1 : (1 : ℝ) / 2 ^ 20 ≤ 2 * Real.pi * ((σ : ℝ) * σ) :=
    q1.trans (le_mul_of_one_le_left v0.le (by linarith))
  have w2 : 2 * Real.pi * ((σ : ℝ) * σ) ≤ 2 ^ 23 := by
    have := mul_le_mul (by linarith : 2 * Real.pi ≤ 8) q2 v0.le (by norm_num); norm_num at this ⊢; linarith
  have t3 := App.mul_rel hf tp tv (by norm_num) (by norm_num) (m := 16) (by norm_num) (by norm_num)
    (u_cube_le_tiny hf (le_trans (by norm_num) w1)) (le_trans w2 (by norm_num))
  have t4 := App.ln hf hL t3 (by positivity) (m := 35) (by norm_num) (by norm_num) (by norm_num)
  have l0 := abs_nonneg (Real.log (2 * Real.pi * ((σ : ℝ) * σ)))
  have l1 : |Real.log (2 * Real.pi * ((σ : ℝ) * σ))| ≤ 2 ^ 23 := by
    have hpos : 0 < 2 * Real.pi * ((σ : ℝ) * σ) := by positivity
    rw [abs_le]
    constructor
    · have := Real.one_sub_inv_le_log_of_pos hpos
      have h3 : (2 * Real.pi * ((σ : ℝ) * σ))⁻¹ ≤ 2 ^ 20 := by
        rw [inv_le_comm₀ hpos (by norm_num)]
        norm_num at w1 ⊢; linarith
      have h4 : (2 : ℝ) ^ 20 ≤ 2 ^ 23 := by norm_num
      linarith
    · have := Real.log_le_sub_one_of_pos hpos
      linarith
  have t5 := App.mul_rel hf t4 th (by norm_num) le_rfl (m := 39) (by norm_num) (by norm_num)
    (u_cube_le_tiny hf (by norm_num; linarith)) (by norm_num at l1 ⊢; linarith)
  have t6 := App.mul_rel hf tμ tμ le_rfl le_rfl (m := 4) (by norm_num) (by norm_num)
    (u_cube_le_tiny hf (le_trans (by norm_num) b5)) (le_trans b4 (by norm_num))
  have t7 := App.mul_rel hf th t6 le_rfl (by norm_num) (m := 8) (by norm_num) (by norm_num)
    (u_cube_le_tiny hf (by norm_num at b5 ⊢; linarith)) (by norm_num at b4 ⊢; linarith)
  have b6 : 1/2 * ((|(μ : ℝ)| + σ) * (|(μ : ℝ)| + σ)) * (1 / ((σ : ℝ) * σ)) ≤ 2 ^ 82 := by
    have := mul_le_mul b1 b2 (by positivity) (by norm_num); norm_num at this ⊢; linarith
  have b7 : (1 : ℝ) / 2 ^ 41 ≤ 1/2 * ((|(μ : ℝ)| + σ) * (|(μ : ℝ)| + σ)) * (1 / ((σ : ℝ) * σ)) := by
    have := mul_le_mul b0 b3 (by norm_num) (by linarith); norm_num at this ⊢; linarith
  have t8 := App.mul_rel hf t7 ti (by norm_num) (by norm_num) (m := 26) (by norm_num) (by norm_num)
    (u_cube_le_tiny hf (le_trans (by norm_num) b7)) (le_trans b6 (by norm_num))
  have t9 := App.add hf t5 t8 (m := 41) (by norm_num) (by norm_num) (by norm_num) (by norm_num at l1 b6 ⊢; linarith)
  exact ⟨t1, t2, t9⟩

theorem log_two_pi_sq_le {σ : ℝ} (hσ : 0 < σ) : |Real.log (2 * Real.pi * (σ * σ))| ≤ 21/10 + 2 * |Real.log σ| := by
  have hpi := Real.pi_gt_three
  have hpi4 := Real.pi_le_four
  rw [Real.log_mul (by positivity) (by positivity), Real.log_mul hσ.ne' hσ.ne']
  have h1 : Real.log (2 * Real.pi) ≤ Real.log (2 ^ 3) := Real.log_le_log (by positivity) (by linarith)
  rw [Real.log_pow] at h1
  have h2 := Real.log_two_lt_d9
  have h3 : 0 ≤ Real.log (2 * Real.pi) := Real.log_nonneg (by linarith)
  push_cast at h1
  have h4 := abs_le.mp (le_refl |Real.log σ|)
  rw [abs_le]
  constructor <;> linarith

/-- one observation's share of the size of the normal terms -/
theorem normal_share {μ σ x : ℝ} (hσ : 0 < σ) :
    (|μ| + σ) * (1 / (σ * σ)) * |x| + 1/2 * (1 / (σ * σ)) * ((|x| + σ) * (|x| + σ))
      + ((1 + |Real.log (2 * Real.pi * (σ * σ))|) * (1/2) + 1/2 * ((|μ| + σ) * (|μ| + σ)) * (1 / (σ * σ))) + 3
      ≤ 8 * (1 + |Real.log σ| + (x / σ) ^ 2 + (μ / σ) ^ 2) := by
  have hl := log_two_pi_sq_le hσ
  have hl0 := abs_nonneg (Real.log σ)
  have e1 : (|μ| + σ) * (1 / (σ * σ)) * |x| = (|μ| / σ + 1) * (|x| / σ) := by field_simp
  have e2 : 1/2 * (1 / (σ * σ)) * ((|x| + σ) * (|x| + σ)) = 1/2 * (|x| / σ + 1) ^ 2 := by field_simp
  have e3 : 1/2 * ((|μ| + σ) * (|μ| + σ)) * (1 / (σ * σ)) = 1/2 * (|μ| / σ + 1) ^ 2 := by field_simp
  have e4 : (x / σ) ^ 2 = (|x| / σ) ^ 2 := by rw [div_pow, div_pow, sq_abs]
  have e5 : (μ / σ) ^ 2 = (|μ| / σ) ^ 2 := by rw [div_pow, div_pow, sq_abs]
  rw [e1, e2, e3, e4, e5]
  generalize |x| / σ = t
  generalize |μ| / σ = m
  nlinarith [sq_nonneg (t - 1), sq_nonneg (m - 1), sq_nonneg (t - m)]

/-- **C144** (normal): the joint log-density by the exponential-family path is within `376 n` units of roundoff of the
sum of the logarithms of the density, relative to the squares of the observations and of the mean in standard
deviations.  Missing: standard deviations outside `[2^-10, 2^10]`, and accuracy relative to the density itself, which
fails already for one observation (`C90_cancellation_violated`). -/
theorem C144_normal_joint_partial (hf : f.Std) (hL : L.Accurate f) {μ σ : ℚ}
    (hμ : f.Representable μ) (hσ : f.Representable σ) {d : Normal (Flt f L)}
    (h : Normal.new (Flt.fin μ) (Flt.fin σ) = .ok d) (hσ1 : 1 / 2 ^ 10 ≤ σ) (hσ2 : σ ≤ 2 ^ 10)
    (xs : List ℚ) (hne : xs ≠ []) (hx : ∀ x ∈ xs, f.Representable x) (hn : xs.length * f.u ≤ 1/1000)
    (hB : xs.length * normalSize μ σ xs ≤ 2 ^ 40) :
    ∃ r : ℚ, (IID.ofDist d).iidLogDensity (xs.map (Flt.fin (f := f) (L := L))) = Flt.fin (f := f) (L := L) r ∧
      f.Representable r ∧
      |(r : ℝ) - (xs.map fun x : ℚ => Real.log (gaussianPDFReal μ ((σ : ℝ) ^ 2).toNNReal x)).sum| ≤
        376 * xs.length * f.u * normalSize μ σ xs := by
  obtain ⟨hσ0, rfl⟩ := Normal.new_flt h
  have hσR : (0 : ℝ) < σ := by exact_mod_cast hσ0
  have s1 : (1 : ℝ) / 2 ^ 10 ≤ σ := by
    have := (Rat.cast_le (K := ℝ)).mpr hσ1; push_cast at this; exact this
  have s2 : (σ : ℝ) ≤ 2 ^ 10 := by
    have := (Rat.cast_le (K := ℝ)).mpr hσ2; push_cast at this; exact this
  rw [sum_log_normal hσR xs]
  have hn1 : (1 : ℝ) ≤ xs.length := by exact_mod_cast List.length_pos_of_ne_nil hne
  have hu := u_pos f
  have hS0 : 0 ≤ normalSize μ σ xs := sum_nonneg_of fun _ _ => by positivity
  have hS1 : normalSize μ σ xs ≤ 2 ^ 40 := (le_mul_of_one_le_left hS0 hn1).trans hB
  have hmem : ∀ x ∈ xs, 1 + |Real.log σ| + ((x : ℝ) / σ) ^ 2 + ((μ : ℝ) / σ) ^ 2 ≤ normalSize μ σ xs := by
    intro x hx
    unfold normalSize
    exact List.single_le_sum (by simp only [List.mem_map]; rintro _ ⟨y, -, rfl⟩; positivity) _
      (List.mem_map_of_mem (f := fun x : ℚ => 1 + |Real.log σ| + ((x : ℝ) / σ) ^ 2 + ((μ : ℝ) / σ) ^ 2) hx)
  have small : ∀ y : ℝ, (y / σ) ^ 2 ≤ 2 ^ 40 → |y| ≤ 2 ^ 30 := by
    intro y hy
    have h1 : |y / σ| ≤ 2 ^ 20 := by
      rw [show (2 : ℝ) ^ 40 = (2 ^ 20) ^ 2 by norm_num] at hy
      exact abs_le_of_sq_le_sq hy (by norm_num)
    rw [abs_div, abs_of_pos hσR, div_le_iff₀ hσR] at h1
    have := mul_le_mul_of_nonneg_left s2 (by norm_num : (0 : ℝ) ≤ 2 ^ 20)
    norm_num at this h1 ⊢; linarith
  have hl0 := abs_nonneg (Real.log (σ : ℝ))
  obtain ⟨x0, hx0⟩ := List.exists_mem_of_ne_nil xs hne
  have m2 : |(μ : ℝ)| ≤ 2 ^ 30 := small _ (by
    have := hmem x0 hx0; have := sq_nonneg ((x0 : ℝ) / σ); linarith)
  have x2 : ∀ x ∈ xs, |(x : ℝ)| ≤ 2 ^ 30 := fun x hx => small _ (by
    have := hmem x hx; have := sq_nonneg ((μ : ℝ) / σ); linarith)
  obtain ⟨g1, g2, gA⟩ := normal_natural_app hf hL hμ hσ hσ0 s1 s2 m2
  have h1 : ∀ i ∈ xs, App f 0 (.fin i) (i : ℝ) |(i : ℝ)| := fun i hi => App.exact (hx i hi)
  have h2 : ∀ i ∈ xs, App f 4 (Flt.mul f (.fin i) (.fin i)) ((i : ℝ) * i) ((|(i : ℝ)| + σ) * (|(i : ℝ)| + σ)) := by
    intro i hi
    have hi0 := abs_nonneg (i : ℝ)
    have hi2 := x2 i hi
    have e : App f 0 (.fin i) (i : ℝ) (|(i : ℝ)| + σ) := (h1 i hi).mono ⟨le_rfl, le_rfl⟩ (by linarith)
    have c1 := mul_le_mul (by linarith : (1:ℝ) / 2 ^ 10 ≤ |(i : ℝ)| + σ) (by linarith : (1:ℝ) / 2 ^ 10 ≤ |(i : ℝ)| + σ)
      (by norm_num) (by linarith)
    have hb : |(i : ℝ)| + σ ≤ 2 ^ 31 := by norm_num at hi2 s2 ⊢; linarith
    have c2 := mul_le_mul hb hb (by linarith) (by norm_num)
    exact App.mul_rel hf e e le_rfl le_rfl (by norm_num) (by norm_num)
      (u_cube_le_tiny hf (le_trans (by norm_num) c1)) (le_trans c2 (by norm_num))
  have shares : ∀ g : ℚ → ℝ, (∀ x ∈ xs, g x ≤ 2 ^ 25 * (1 + |Real.log σ| + ((x : ℝ) / σ) ^ 2 + ((μ : ℝ) / σ) ^ 2)) →
      (xs.map g).sum ≤ 2 ^ 90 := by
    intro g hg
    have := map_sum_le hg
    rw [List.sum_map_mul_left] at this
    have h5 := mul_le_mul_of_nonneg_left hS1 (by norm_num : (0 : ℝ) ≤ 2 ^ 25)
    refine this.trans (h5.trans (by norm_num))
  have sq1 : ∀ x : ℝ, |x| = σ * |x / σ| := fun x => by rw [abs_div, abs_of_pos hσR]; field_simp
  have b1 := shares (fun x : ℚ => |(x : ℝ)|) fun x _ => by
    have h3 := sq_nonneg ((μ : ℝ) / σ)
    rw [sq1, ← sq_abs ((x : ℝ) / σ)]
    have h4 : (σ : ℝ) * |(x : ℝ) / σ| ≤ 2 ^ 25 * |(x : ℝ) / σ| :=
      mul_le_mul_of_nonneg_right (s2.trans (by norm_num)) (abs_nonneg _)
    refine h4.trans (mul_le_mul_of_nonneg_left ?_ (by norm_num))
    linarith [sq_nonneg (|(x : ℝ) / σ| - 1), sq_nonneg |(x : ℝ) / σ|]
  have b2 := shares (fun x : ℚ => (|(x : ℝ)| + σ) * (|(x : ℝ)| + σ)) fun x _ => by
    have h3 := sq_nonneg ((μ : ℝ) / σ)
    rw [sq1 (x : ℝ), ← sq_abs ((x : ℝ) / σ)]
    generalize |(x : ℝ) / σ| = t
    have h6 : (σ : ℝ) * σ ≤ 2 ^ 20 := by
      have := mul_le_mul s2 s2 hσR.le (by norm_num); norm_num at this ⊢; linarith
    have h7 := mul_le_mul_of_nonneg_right h6 (sq_nonneg (t + 1))
    have h8 : ((σ : ℝ) * t + σ) * (σ * t + σ) = σ * σ * (t + 1) ^ 2 := by ring
    rw [h8]
    refine h7.trans ?_
    norm_num
    linarith [sq_nonneg (t - 1), sq_nonneg t]
  have hsize : xs.length * ((|(μ : ℝ)| + σ) * (1 / ((σ : ℝ) * σ)) * (xs.map fun x : ℚ => |(x : ℝ)|).sum
      + 1/2 * (1 / ((σ : ℝ) * σ)) * (xs.map fun x : ℚ => (|(x : ℝ)| + σ) * (|(x : ℝ)| + σ)).sum
      + ((1 + |Real.log (2 * Real.pi * ((σ : ℝ) * σ))|) * (1/2)
        + 1/2 * ((|(μ : ℝ)| + σ) * (|(μ : ℝ)| + σ)) * (1 / ((σ : ℝ) * σ))) + 3)
      ≤ xs.length * (8 * normalSize μ σ xs) := by
    refine mul_le_mul_of_nonneg_left ?_ (by linarith)
    have key := map_sum_le (xs := xs) fun x _ => normal_share (μ := (μ : ℝ)) (x := (x : ℝ)) hσR
    rw [List.sum_map_mul_left] at key
    refine le_trans ?_ key
    simp only [List.sum_map_add, List.sum_map_mul_left, List.map_const', List.sum_replicate, nsmul_eq_mul]
    have hA : 0 ≤ (1 + |Real.log (2 * Real.pi * ((σ : ℝ) * σ))|) * (1/2)
        + 1/2 * ((|(μ : ℝ)| + σ) * (|(μ : ℝ)| + σ)) * (1 / ((σ : ℝ) * σ)) := by positivity
    have := le_mul_of_one_le_left hA hn1
    linarith
  have key := App.iid_two (L := L) hf xs (t1 := fun i => .fin i)
    (t2 := fun i => Flt.mul f (.fin i) (.fin i)) hne g1 g2 gA h1 h2
    (by norm_num) (by norm_num) (by norm_num) (by norm_num) (by norm_num) (m := 47) (by norm_num) (by norm_num)
    (by norm_num) (by norm_num) hn b1 b2 (hsize.trans (by norm_num at hB ⊢; linarith))
  rw [iid_two_eq (d := (⟨Flt.fin μ, Flt.fin σ⟩ : Normal (Flt f L))) rfl rfl rfl (fun _ => rfl) _ (by simpa using hne)]
  simp only [List.map_map, List.length_map]
  obtain ⟨r, r1, r2, r3⟩ := App.result (L := L) key
  refine ⟨r, r1, r2, r3.trans ?_⟩
  have := mul_le_mul_of_nonneg_left hsize (by positivity : 0 ≤ 47 * f.u)
  refine this.trans (le_of_eq (by ring))

/-! ### The hypotheses can be met -/

/-- Two observations, exactly representable, in either format. -/
theorem two_obs (hf : f.Std) : ((2 : ℕ) : ℝ) * f.u ≤ 1/1000 := by
  have := hf.u_le; norm_num at *; linarith

example (hf : f.Std) : ∃ L : Libm, L.Accurate f ∧ ∃ d : Normal (Flt f L),
    Normal.new (Flt.fin 0) (Flt.fin 1) = .ok d ∧
    ∃ r : ℚ, (IID.ofDist d).iidLogDensity ([1, 2].map (Flt.fin (f := f) (L := L))) = Flt.fin (f := f) (L := L) r ∧
      |(r : ℝ) - (Real.log (gaussianPDFReal 0 1 1) + Real.log (gaussianPDFReal 0 1 2))| ≤ 752 * f.u * 7 := by
  obtain ⟨L, hL⟩ := exists_libm hf
  refine ⟨L, hL, ⟨Flt.fin 0, Flt.fin 1⟩, rfl, ?_⟩
  have hs : normalSize ((0 : ℚ) : ℝ) ((1 : ℚ) : ℝ) [1, 2] = 7 := by simp [normalSize]; norm_num
  obtain ⟨r, h1, -, h2⟩ := C144_normal_joint_partial (L := L) hf hL f.rep_zero hf.rep_one
    (d := ⟨Flt.fin 0, Flt.fin 1⟩) rfl
    (by norm_num) (by norm_num) [1, 2] (by simp)
    (by simp [hf.rep_one, hf.rep_two]) (two_obs hf) (by rw [hs]; norm_num)
  refine ⟨r, h1, ?_⟩
  rw [hs] at h2
  simpa using h2.trans (le_of_eq (by norm_num))

example (hf : f.Std) : ∃ L : Libm, L.Accurate f ∧ L.GammaAccurate f ∧ ∃ d : Gamma (Flt f L),
    Gamma.new (Flt.fin 1) (Flt.fin 1) = .ok d ∧
    ∃ r : ℚ, (IID.ofDist d).iidLogDensity ([1, 2].map (Flt.fin (f := f) (L := L))) = Flt.fin (f := f) (L := L) r ∧
      |(r : ℝ) - (Real.log (gammaPDFReal 1 1 1) + Real.log (gammaPDFReal 1 1 2))| ≤ 160 * f.u * 6 := by
  obtain ⟨L, hL, hG⟩ := exists_libm_gamma hf
  refine ⟨L, hL, hG, ⟨Flt.fin 1, Flt.fin 1⟩, rfl, ?_⟩
  have hlog : |Real.log 2| ≤ 1 := by
    rw [abs_of_pos (Real.log_pos (by norm_num))]; have := Real.log_two_lt_d9; linarith
  have hs : gammaSize ((1 : ℚ) : ℝ) ((1 : ℚ) : ℝ) [1, 2] ≤ 6 := by
    simp [gammaSize]; linarith
  obtain ⟨r, h1, -, h2⟩ := C144_gamma_joint_partial (L := L) hf hL hG hf.rep_one hf.rep_one
    (d := ⟨Flt.fin 1, Flt.fin 1⟩) rfl [1, 2] (by simp)
    (by simp [hf.rep_one, hf.rep_two]) (two_obs hf)
    ((mul_le_mul_of_nonneg_left hs (by positivity)).trans (by norm_num)) (by norm_num)
  refine ⟨r, h1, ?_⟩
  have := u_pos f
  have h3 := mul_le_mul_of_nonneg_left hs (by positivity : 0 ≤ 160 * f.u)
  have h4 := h2.trans ((le_of_eq (by norm_num)).trans h3)
  simpa using h4

example (hf : f.Std) : ∃ L : Libm, L.Accurate f ∧ L.GammaAccurate f ∧ ∃ d : ChiSquared (Flt f L),
    ChiSquared.new (Flt.fin 2) = .ok d ∧
    ∃ r : ℚ, (IID.ofDist d).iidLogDensity ([1, 2].map (Flt.fin (f := f) (L := L))) = Flt.fin (f := f) (L := L) r ∧
      |(r : ℝ) - (Real.log (gammaPDFReal 1 (1/2) 1) + Real.log (gammaPDFReal 1 (1/2) 2))| ≤ 290 * f.u * 6 := by
  obtain ⟨L, hL, hG⟩ := exists_libm_gamma hf
  refine ⟨L, hL, hG, ⟨Flt.fin 2⟩, rfl, ?_⟩
  have hlog : |Real.log 2| ≤ 1 := by
    rw [abs_of_pos (Real.log_pos (by norm_num))]; have := Real.log_two_lt_d9; linarith
  have hs : chiSize (((2 : ℚ) : ℝ) / 2) [1, 2] ≤ 6 := by
    simp [chiSize]; linarith
  obtain ⟨r, h1, -, h2⟩ := C144_chi_squared_joint_partial (L := L) hf hL hG hf.rep_two (by norm_num)
    (d := ⟨Flt.fin 2⟩) rfl [1, 2] (by simp)
    (by simp [hf.rep_one, hf.rep_two]) (two_obs hf)
    ((mul_le_mul_of_nonneg_left hs (by positivity)).trans (by norm_num))
  refine ⟨r, h1, ?_⟩
  have := u_pos f
  have h3 := mul_le_mul_of_nonneg_left hs (by positivity : 0 ≤ 290 * f.u)
  have h4 := h2.trans ((le_of_eq (by norm_num)).trans h3)
  simpa using h4

example (hf : f.Std) : ∃ L : Libm, L.Accurate f ∧ L.GammaAccurate f ∧ ∃ d : Beta (Flt f L),
    Beta.new (Flt.fin 1) (Flt.fin 1) = .ok d ∧
    ∃ r : ℚ, (IID.ofDist d).iidLogDensity ([1/2, 1/2].map (Flt.fin (f := f) (L := L))) = Flt.fin (f := f) (L := L) r ∧
      |(r : ℝ) - (Real.log (betaPDFReal 1 1 (1/2)) + Real.log (betaPDFReal 1 1 (1/2)))| ≤ 228 * f.u * 17 := by
  obtain ⟨L, hL, hG⟩ := exists_libm_gamma hf
  refine ⟨L, hL, hG, ⟨Flt.fin 1, Flt.fin 1⟩, rfl, ?_⟩
  have hlog : |Real.log 2| ≤ 1 := by
    rw [abs_of_pos (Real.log_pos (by norm_num))]; have := Real.log_two_lt_d9; linarith
  have hs : betaSize ((1 : ℚ) : ℝ) ((1 : ℚ) : ℝ) [1/2, 1/2] ≤ 17 := by
    have e1 : (1 : ℝ) - 2⁻¹ = 2⁻¹ := by norm_num
    have e2 : (1 : ℝ) + 1 = 2 := by norm_num
    simp [betaSize, e1, e2]; linarith
  obtain ⟨r, h1, -, h2⟩ := C144_beta_joint_partial (L := L) hf hL hG hf.rep_one hf.rep_one
    (d := ⟨Flt.fin 1, Flt.fin 1⟩) rfl [1/2, 1/2] (by simp)
    (by simp; exact ⟨by simpa using hf.rep_half, by norm_num⟩) (two_obs hf)
    ((mul_le_mul_of_nonneg_left hs (by positivity)).trans (by norm_num))
  refine ⟨r, h1, ?_⟩
  have := u_pos f
  have h3 := mul_le_mul_of_nonneg_left hs (by positivity : 0 ≤ 228 * f.u)
  have h4 := h2.trans ((le_of_eq (by norm_num)).trans h3)
  simpa using h4

end Verif
