import Verif.Props.DoubleExpFam3
import Verif.Props.DoubleTagless

/-!
# C144: the joint exponential-family value of Bernoulli and binomial samples in floating point
-/

namespace Verif
open Format FloatOps ProbabilityTheory ExponentialFamily

variable {f : Format} {L : Libm}

/-- what the joint exponential-family log-density computes from one natural parameter, a log-partition, one statistic
and a base log-density per observation -/
theorem App.iid_one {ι : Type} (hf : f.Std) (xs : List ι) {v1 vA : Flt f L} {t b : ι → Flt f L}
    {a1 A N1 NA : ℝ} {x1 S1 y B : ι → ℝ} {k1 kA s1 kb m : ℝ} (hne : xs ≠ [])
    (g1 : App f k1 v1 a1 N1) (gA : App f kA vA A NA)
    (h1 : ∀ i ∈ xs, App f s1 (t i) (x1 i) (S1 i)) (hb : ∀ i ∈ xs, App f kb (b i) (y i) (B i))
    (p1 : 0 ≤ k1) (pA : 0 ≤ kA) (q1 : 0 ≤ s1) (qb : 0 ≤ kb)
    (m1 : k1 + s1 + 12 ≤ m) (mA : kA + 8 ≤ m) (mb : kb + 6 ≤ m) (hm : m ≤ 1000) (hn : xs.length * f.u ≤ 1/1000)
    (b1 : (xs.map S1).sum ≤ 2 ^ 90) (b2 : (xs.map B).sum ≤ 2 ^ 90)
    (hB : xs.length * (N1 * (xs.map S1).sum + NA + (xs.map B).sum + 2) ≤ 2 ^ 90) :
    App f m (Flt.add f (Flt.sub f (Flt.add f (.fin 0) (Flt.mul f v1 (FloatOps.sum (xs.map t) : Flt f L)))
        (Flt.mul f (f.round (xs.length : ℚ)) vA)) (FloatOps.sum (xs.map b) : Flt f L))
      (a1 * (xs.map x1).sum - xs.length * A + (xs.map y).sum)
      (xs.length * (N1 * (xs.map S1).sum + NA + (xs.map B).sum + 2)) := by
  have hn1 : (1 : ℝ) ≤ xs.length := by exact_mod_cast List.length_pos_of_ne_nil hne
  have e1 := App.sum hf xs q1 (m := s1 + 4) le_rfl (by linarith) hn h1 b1
  have e2 := App.sum hf xs qb (m := kb + 4) le_rfl (by linarith) hn hb b2
  have z1 := e1.nonneg
  have z2 := e2.nonneg
  have y1 := g1.nonneg
  have yA := gA.nonneg
  have w1 := mul_nonneg y1 z1
  have wA := mul_nonneg (by positivity : (0:ℝ) ≤ xs.length) yA
  have hB' : N1 * (xs.length * (xs.map S1).sum) + xs.length * NA + xs.length * (xs.map B).sum + 2 * xs.length
      ≤ 2 ^ 90 := by linarith
  have c1 := App.mul hf g1 e1 p1 (by linarith) (m := m - 4) (by linarith) (by linarith) (by linarith)
  have cA := App.mul hf (App.count hf hn) gA le_rfl pA (m := m - 4) (by linarith) (by linarith) (by linarith)
  have d1 := App.sub hf c1 cA (m := m - 2) ⟨by linarith, by linarith⟩ ⟨by linarith, by linarith⟩ (by linarith) (by linarith)
  have d2 := App.add hf d1 e2 (m := m) ⟨by linarith, by linarith⟩ ⟨by linarith, by linarith⟩ (by linarith) (by linarith)
  rw [(App.add_zero c1).2]
  exact d2.mono ⟨by linarith, le_rfl⟩ (by linarith)

theorem iid_one_eq {D X : Type} [e : ExponentialFamily D X (Flt f L)] [ArrayStat D] (hdim : ArrayStat.dim D = 1)
    {d : D} {v1 vA : Flt f L} {g : X → Flt f L} (hn : naturalAndLogPartition d = ([v1], vA))
    (hs : sufficientStatistic d = fun x => [g x]) (xs : List X) (hne : xs ≠ []) :
    (IID.ofDist d).iidLogDensity xs = (Flt.add f (Flt.sub f (Flt.add f (.fin 0)
        (Flt.mul f v1 (FloatOps.sum (xs.map g) : Flt f L))) (Flt.mul f (f.round (xs.length : ℚ)) vA))
        (FloatOps.sum (xs.map fun x => baseLogDensity d x) : Flt f L) : Flt f L) := by
  unfold IID.iidLogDensity computeIidExpFamLogDensity IID.ofDist
  rw [if_neg (by simpa using hne)]
  simp only [hn, hs, hdim, sumStats_one]
  rfl

/-- the logarithm of `1 + exp` changes no faster than its argument -/
theorem softplus_lipschitz {x y δ : ℝ} (h : |y - x| ≤ δ) :
    |Real.log (1 + Real.exp y) - Real.log (1 + Real.exp x)| ≤ δ := by
  have key : ∀ a b : ℝ, b ≤ a + δ → Real.log (1 + Real.exp b) ≤ Real.log (1 + Real.exp a) + δ := by
    intro a b hab
    have hδ : 0 ≤ δ := (abs_nonneg _).trans h
    rw [← Real.log_exp δ, ← Real.log_mul (by positivity) (by positivity)]
    refine Real.log_le_log (by positivity) ?_
    have h1 : Real.exp b ≤ Real.exp a * Real.exp δ := by rw [← Real.exp_add]; exact Real.exp_le_exp.mpr hab
    have h2 := Real.one_le_exp hδ
    linarith
  rw [abs_le] at h ⊢
  constructor
  · have := key y x (by linarith); linarith
  · have := key x y (by linarith); linarith

theorem softplus_log_odds {p : ℝ} (h0 : 0 < p) (h1 : p < 1) :
    Real.log (1 + Real.exp (Real.log (p / (1 - p)))) = -Real.log (1 - p) := by
  have hq : 0 < 1 - p := by linarith
  rw [Real.exp_log (by positivity), ← Real.log_inv]
  congr 1
  field_simp
  ring

/-- the log-odds and the log-partition of one trial in floating point -/
theorem log_odds_app (hf : f.Std) (hL : L.Accurate f) {p : ℚ} (hp : f.Representable p) (h0 : 1 / 2 ^ 60 ≤ p)
    (h1 : p < 1) :
    App f 19 (Flt.ln L (Flt.div f (.fin p) (Flt.sub f (.fin 1) (.fin p)))) (Real.log ((p : ℝ) / (1 - p)))
      (1 + |Real.log ((p : ℝ) / (1 - p))|) ∧
    App f 28 (Flt.ln L (Flt.add f (.fin 1) (Flt.exp L (Flt.ln L (Flt.div f (.fin p) (Flt.sub f (.fin 1) (.fin p)))))))
      (-Real.log (1 - (p : ℝ))) (2 + |Real.log ((p : ℝ) / (1 - p))| + |Real.log (1 - (p : ℝ))|) ∧
    |Real.log ((p : ℝ) / (1 - p))| ≤ 1140 := by
  have hp0 : 0 < p := lt_of_lt_of_le (by norm_num) h0
  have hpR : (0 : ℝ) < p := by exact_mod_cast hp0
  have hp1 : (p : ℝ) < 1 := by exact_mod_cast h1
  have h0R : (1 : ℝ) / 2 ^ 60 ≤ p := by
    have := (Rat.cast_le (K := ℝ)).mpr h0; push_cast at this; exact this
  have hq : 0 < 1 - (p : ℝ) := by linarith
  have hu := u_pos f
  have hul := hf.u_le
  have hd := rep_ne_one hf hp h1.ne
  rw [abs_of_neg (by linarith)] at hd
  have hug := u_ge hf
  have r1 : (p : ℝ) ≤ p / (1 - p) := by
    rw [le_div_iff₀ hq]; nlinarith
  have r2 : (p : ℝ) / (1 - p) ≤ 2 ^ 53 := by
    rw [div_le_iff₀ hq]
    have : (1 : ℝ) / 2 ^ 53 ≤ 1 - p := by linarith
    have := mul_le_mul_of_nonneg_left this (by norm_num : (0 : ℝ) ≤ 2 ^ 53)
    norm_num at this ⊢; linarith
  have r0 : 0 < (p : ℝ) / (1 - p) := by positivity
  have tq := App.compl hf hp hp0.le h1
  have td := App.div_rel hf (App.pos hp0 hp) tq hq le_rfl (by norm_num) (m := 8) (by norm_num) (by norm_num)
    (u_cube_le_tiny hf (h0R.trans r1)) (r2.trans (by norm_num))
  have tl := App.ln hf hL td r0 (m := 19) (by norm_num) (by norm_num) (by norm_num)
  set η := Real.log ((p : ℝ) / (1 - p)) with hη
  have ha := abs_nonneg η
  have hηB : |η| ≤ 1140 := by
    rw [hη, Real.log_div hpR.ne' hq.ne']
    have h3 := log_rep_le hf hp0 hp
    have h4 := log_compl_le hf hp hp0.le h1
    exact (abs_sub _ _).trans (by linarith)
  refine ⟨tl, ?_, hηB⟩
  have hA : Real.log (1 + Real.exp η) = -Real.log (1 - (p : ℝ)) := softplus_log_odds hpR hp1
  have hA0 : 0 ≤ -Real.log (1 - (p : ℝ)) := by
    rw [← hA]; exact Real.log_nonneg (by linarith [Real.exp_pos η])
  obtain ⟨a, e1, e2⟩ := tl
  rw [e1]
  have hlip := softplus_lipschitz e2.err
  have hηu : η ≤ Real.log (2 ^ 53) := Real.log_le_log r0 r2
  rcases C95_softplus_partial (L := L) hf hL e2.rep with ⟨r, hr, hrr, hre⟩ | ⟨-, hb⟩
  · refine ⟨r, hr, hrr, ?_, ?_⟩
    · rw [abs_neg]; linarith
    · rw [abs_of_nonpos (by linarith : Real.log (1 - (p : ℝ)) ≤ 0)]
      rw [hA] at hlip
      have h3 := abs_sub_le (r : ℝ) (Real.log (1 + Real.exp a)) (-Real.log (1 - (p : ℝ)))
      have h4 := (abs_le.mp hlip).2
      have h5 : 8 * f.u * (1 + Real.log (1 + Real.exp a)) ≤
          8 * f.u * (1 + (-Real.log (1 - (p : ℝ)) + 19 * f.u * (1 + |η|))) := by gcongr; linarith
      have h6 : f.u * (f.u * (1 + |η|)) ≤ f.u * (1/1000 * (1 + |η|)) := by
        gcongr; exact hul.trans (by norm_num)
      have h7 : 0 ≤ f.u * |η| := by positivity
      have h8 : 0 ≤ f.u * (-Real.log (1 - (p : ℝ))) := by positivity
      nlinarith
  · exfalso
    have h3 := (abs_le.mp e2.err).2
    have h4 := two_pow_emax hf
    have h5 : 19 * f.u * (1 + |η|) ≤ 19 * (1 / 2 ^ 24) * (1 + 1140) := by gcongr
    rw [Real.log_pow] at hηu
    have h6 := Real.log_two_gt_d9
    have h7 : (a : ℝ) ≤ Real.log 2 * 60 := by
      have h8 : (19 : ℝ) * (1 / 2 ^ 24) * (1 + 1140) ≤ 1 := by norm_num
      push_cast at hηu
      linarith
    have h9 : Real.exp a ≤ 2 ^ 60 := by
      refine (Real.exp_le_exp.mpr h7).trans (le_of_eq ?_)
      rw [Real.exp_mul, Real.exp_log (by norm_num)]
      norm_num
    have h10 : (2 : ℝ) ^ 60 < 2 ^ 127 := by norm_num
    linarith

/-! ### Bernoulli -/

/-- the size of the terms of the joint Bernoulli log-mass of a sample with `s` ones -/
noncomputable def bernoulliSize (p s : ℝ) : ℝ := (s + 4) * (1 + |Real.log (p / (1 - p))|) + |Real.log (1 - p)|

/-- the probability of an outcome of a Bernoulli trial -/
noncomputable def bernoulliMass (p : ℝ) (y : UInt8) : ℝ := if y = 1 then p else 1 - p

theorem sum_log_bernoulli {p : ℝ} (h0 : 0 < p) (h1 : p < 1) (ys : List UInt8) (hy : ∀ y ∈ ys, y = 0 ∨ y = 1) :
    (ys.map fun y => Real.log (bernoulliMass p y)).sum =
      Real.log (p / (1 - p)) * (ys.map fun y => ((y.toNat : ℕ) : ℝ)).sum - ys.length * -Real.log (1 - p)
        + (ys.map fun _ => (0 : ℝ)).sum := by
  induction ys with
  | nil => simp
  | cons y ys ih =>
    have hq : 0 < 1 - p := by linarith
    have := ih fun z hz => hy z (List.mem_cons_of_mem _ hz)
    simp only [List.map_cons, List.sum_cons, this, List.length_cons]
    rcases hy y List.mem_cons_self with rfl | rfl
    · simp [bernoulliMass]
      ring
    · simp [bernoulliMass]
      rw [Real.log_div h0.ne' hq.ne']
      ring

/-- **C144** (Bernoulli): the joint log-mass of a sample of zeros and ones by the exponential-family path, through the
log-odds, is within `36 n` units of roundoff of the sum of the logarithms of the masses, relative to the size of the
terms, for probabilities from `2^-60` on and less than one.  Missing: smaller probabilities, and the end points, where
the log-odds are infinite; bytes other than zero and one are not rejected by this path. -/
theorem C144_bernoulli_joint_partial (hf : f.Std) (hL : L.Accurate f) {p : ℚ} (hp : f.Representable p)
    (hp0 : 1 / 2 ^ 60 ≤ p) (hp1 : p ≠ 1) {d : Bernoulli (Flt f L)} (h : Bernoulli.new (Flt.fin p) = .ok d)
    (ys : List UInt8) (hne : ys ≠ []) (hy : ∀ y ∈ ys, y = 0 ∨ y = 1) (hn : ys.length * f.u ≤ 1/1000)
    (hB : ys.length * bernoulliSize p (ys.map fun y => ((y.toNat : ℕ) : ℝ)).sum ≤ 2 ^ 80) :
    ∃ r : ℚ, (IID.ofDist d).iidLogDensity ys = Flt.fin (f := f) (L := L) r ∧ f.Representable r ∧
      |(r : ℝ) - (ys.map fun y => Real.log (bernoulliMass p y)).sum| ≤
        36 * ys.length * f.u * bernoulliSize p (ys.map fun y => ((y.toNat : ℕ) : ℝ)).sum := by
  obtain ⟨-, h1, rfl⟩ := Bernoulli.new_flt h
  have hlt : p < 1 := lt_of_le_of_ne h1 hp1
  have hpp : 0 < p := lt_of_lt_of_le (by norm_num) hp0
  have hpR : (0 : ℝ) < p := by exact_mod_cast hpp
  have hltR : (p : ℝ) < 1 := by exact_mod_cast hlt
  rw [sum_log_bernoulli hpR hltR ys hy]
  obtain ⟨g1, gA, -⟩ := log_odds_app hf hL hp hp0 hlt
  have hn1 : (1 : ℝ) ≤ ys.length := by exact_mod_cast List.length_pos_of_ne_nil hne
  have hu := u_pos f
  have hug := u_ge hf
  have a0 := abs_nonneg (Real.log ((p : ℝ) / (1 - p)))
  have a1 := abs_nonneg (Real.log (1 - (p : ℝ)))
  have small : ∀ y ∈ ys, y.toNat ≤ 1 := fun y h => by rcases hy y h with rfl | rfl <;> decide
  have hprec : 1 ≤ 2 ^ f.prec := Nat.one_le_two_pow
  set s := (ys.map fun y => ((y.toNat : ℕ) : ℝ)).sum with hs
  have hs0 : 0 ≤ s := List.sum_nonneg (by simp)
  have hs1 : s ≤ ys.length := by
    have : s ≤ (ys.map fun _ => (1 : ℝ)).sum := List.sum_le_sum fun y h => by exact_mod_cast small y h
    simpa using this
  have hnB : (ys.length : ℝ) ≤ 2 ^ 53 := by
    have h3 := mul_le_mul_of_nonneg_left hug (by linarith : (0 : ℝ) ≤ ys.length)
    have h4 : (ys.length : ℝ) * (1 / 2 ^ 53) ≤ 1 := by linarith
    rw [mul_one_div, div_le_one (by norm_num)] at h4
    exact h4
  have hz : (ys.map fun _ => (0 : ℝ)).sum = 0 := by simp
  have hsize : ys.length * ((1 + |Real.log ((p : ℝ) / (1 - p))|) * s
      + (2 + |Real.log ((p : ℝ) / (1 - p))| + |Real.log (1 - (p : ℝ))|) + (ys.map fun _ => (0 : ℝ)).sum + 2)
      ≤ ys.length * bernoulliSize p s := by
    refine mul_le_mul_of_nonneg_left ?_ (by linarith)
    rw [hz]
    unfold bernoulliSize
    linarith
  have key := App.iid_one (L := L) hf ys (t := fun y => (.fin ((y.toNat : ℕ) : ℚ))) (b := fun _ => .fin 0)
    (y := fun _ => 0) (B := fun _ => 0) hne g1 gA
    (fun y h => App.nat hf ((small y h).trans hprec)) (fun _ _ => by simpa using App.exact (f := f) f.rep_zero)
    (by norm_num) (by norm_num) le_rfl le_rfl (m := 36) (by norm_num) (by norm_num) (by norm_num) (by norm_num) hn
    (hs1.trans (hnB.trans (by norm_num))) (by rw [hz]; norm_num) (hsize.trans (hB.trans (by norm_num)))
  rw [iid_one_eq (d := (⟨Flt.fin p⟩ : Bernoulli (Flt f L))) rfl rfl rfl ys hne]
  have hstat : ys.map (fun y => (FloatOps.ofNat y.toNat : Flt f L)) = ys.map (fun y => Flt.fin ((y.toNat : ℕ) : ℚ)) :=
    List.map_congr_left fun y h => ofNat_flt hf ((small y h).trans hprec)
  rw [hstat]
  obtain ⟨r, r1, r2, r3⟩ := App.result (L := L) key
  refine ⟨r, r1, r2, r3.trans ?_⟩
  have := mul_le_mul_of_nonneg_left hsize (by positivity : 0 ≤ 36 * f.u)
  refine this.trans (le_of_eq (by ring))

/-! ### Binomial -/

/-- the size of the terms of the joint binomial log-mass of `m` samples of `N` trials with `s` successes altogether -/
noncomputable def binomialSize (p : ℝ) (N m : ℕ) (s : ℝ) : ℝ :=
  (s + 2 * N) * (1 + |Real.log (p / (1 - p))|) + N * |Real.log (1 - p)| + m * (3 + 2 * Real.log (N.factorial : ℝ)) + 3

theorem sum_log_binomial {p : ℝ} (h0 : 0 < p) (h1 : p < 1) {N : ℕ} (ks : List ℕ) (hk : ∀ k ∈ ks, k ≤ N) :
    (ks.map fun k => Real.log (N.choose k * p ^ k * (1 - p) ^ (N - k))).sum =
      Real.log (p / (1 - p)) * (ks.map fun k : ℕ => (k : ℝ)).sum - ks.length * (N * -Real.log (1 - p))
        + (ks.map fun k => Real.log (N.factorial : ℝ) - Real.log (k.factorial : ℝ)
          - Real.log ((N - k).factorial : ℝ)).sum := by
  induction ks with
  | nil => simp
  | cons k ks ih =>
    have hq : 0 < 1 - p := by linarith
    have := ih fun z hz => hk z (List.mem_cons_of_mem _ hz)
    have hkN := hk k List.mem_cons_self
    have hc : (0 : ℝ) < N.choose k := by exact_mod_cast Nat.choose_pos hkN
    simp only [List.map_cons, List.sum_cons, this, List.length_cons]
    rw [← log_choose hkN, Real.log_mul (mul_pos hc (pow_pos h0 _)).ne' (pow_pos hq _).ne',
      Real.log_mul hc.ne' (pow_pos h0 _).ne', Real.log_pow, Real.log_pow, Real.log_div h0.ne' hq.ne', Nat.cast_sub hkN]
    push_cast
    ring

/-- **C144** (binomial): the joint log-mass by the exponential-family path, through the log-odds and with the binomial
coefficients of the base measure, for probabilities from `2^-60` on and less than one.  Missing: smaller probabilities
and the end points, where the log-odds are infinite. -/
theorem C144_binomial_joint_partial (hf : f.Std) (hL : L.Accurate f) (hG : L.GammaAccurate f) {p : ℚ}
    (hp : f.Representable p) (hp0 : 1 / 2 ^ 60 ≤ p) (hp1 : p ≠ 1) {N : ℕ} (hN : N < 2 ^ f.prec) {d : Binomial (Flt f L)}
    (h : Binomial.new N (Flt.fin p) = .ok d)
    (ks : List ℕ) (hne : ks ≠ []) (hk : ∀ k ∈ ks, k ≤ N) (hn : ks.length * f.u ≤ 1/1000)
    (hB : ks.length * binomialSize p N ks.length (ks.map fun k : ℕ => (k : ℝ)).sum ≤ 2 ^ 80) :
    ∃ r : ℚ, (IID.ofDist d).iidLogDensity ks = Flt.fin (f := f) (L := L) r ∧ f.Representable r ∧
      |(r : ℝ) - (ks.map fun k => Real.log (N.choose k * (p : ℝ) ^ k * (1 - (p : ℝ)) ^ (N - k))).sum| ≤
        40 * ks.length * f.u * binomialSize p N ks.length (ks.map fun k : ℕ => (k : ℝ)).sum := by
  obtain ⟨-, h1, rfl⟩ := Binomial.new_flt h
  have hlt : p < 1 := lt_of_le_of_ne h1 hp1
  have hpp : 0 < p := lt_of_lt_of_le (by norm_num) hp0
  have hpR : (0 : ℝ) < p := by exact_mod_cast hpp
  have hltR : (p : ℝ) < 1 := by exact_mod_cast hlt
  rw [sum_log_binomial hpR hltR ks hk]
  obtain ⟨g1, gA, -⟩ := log_odds_app hf hL hp hp0 hlt
  have hn1 : (1 : ℝ) ≤ ks.length := by exact_mod_cast List.length_pos_of_ne_nil hne
  have hu := u_pos f
  have a0 := abs_nonneg (Real.log ((p : ℝ) / (1 - p)))
  have a1 := abs_nonneg (Real.log (1 - (p : ℝ)))
  have hF := log_fact_nonneg N
  set s := (ks.map fun k : ℕ => (k : ℝ)).sum with hs
  have hs0 : 0 ≤ s := List.sum_nonneg (by simp)
  have hN0 : (0 : ℝ) ≤ N := by positivity
  have hz : (ks.map fun _ => 3 + 2 * Real.log (N.factorial : ℝ)).sum = ks.length * (3 + 2 * Real.log (N.factorial : ℝ)) := by
    simp
    ring
  have i1 : 0 ≤ s * (1 + |Real.log ((p : ℝ) / (1 - p))|) := by positivity
  have i2 : 0 ≤ (N : ℝ) * |Real.log ((p : ℝ) / (1 - p))| := by positivity
  have i3 : 0 ≤ (N : ℝ) * |Real.log (1 - (p : ℝ))| := by positivity
  have i4 : 0 ≤ (ks.length : ℝ) * (3 + 2 * Real.log (N.factorial : ℝ)) := by positivity
  have hS1 : binomialSize p N ks.length s ≤ 2 ^ 80 := by
    refine (le_mul_of_one_le_left ?_ hn1).trans hB
    unfold binomialSize; positivity
  have hS2 := hS1
  unfold binomialSize at hS2
  have p90 : (2 : ℝ) ^ 90 = 1024 * 2 ^ 80 := by norm_num
  have p80 : (1 : ℝ) ≤ 2 ^ 80 := by norm_num
  have gN := App.mul hf (App.nat hf hN.le) gA le_rfl (by norm_num) (m := 32) (by norm_num) (by norm_num) (by linarith)
  have hsize : ks.length * ((1 + |Real.log ((p : ℝ) / (1 - p))|) * s
      + (N * (2 + |Real.log ((p : ℝ) / (1 - p))| + |Real.log (1 - (p : ℝ))|) + 1)
      + (ks.map fun _ => 3 + 2 * Real.log (N.factorial : ℝ)).sum + 2)
      ≤ ks.length * binomialSize p N ks.length s := by
    refine mul_le_mul_of_nonneg_left ?_ (by linarith)
    rw [hz]
    unfold binomialSize
    linarith
  have hsB : s ≤ 2 ^ 90 := by
    have : s ≤ s * (1 + |Real.log ((p : ℝ) / (1 - p))|) := le_mul_of_one_le_right hs0 (by linarith)
    linarith
  have key := App.iid_one (L := L) hf ks (t := fun k => (.fin ((k : ℕ) : ℚ)))
    (b := fun k => Flt.sub f (Flt.sub f (L.lnGamma (.fin ((N + 1 : ℕ) : ℚ))) (L.lnGamma (.fin ((k + 1 : ℕ) : ℚ))))
        (L.lnGamma (.fin ((N - k + 1 : ℕ) : ℚ)))) hne g1 gN
    (fun k h => App.nat hf ((hk k h).trans hN.le))
    (fun k h => App.coef hf hG (a := N) (b := k) (c := N - k) (by omega) (by have := hk k h; omega))
    (by norm_num) (by norm_num) le_rfl (by norm_num) (m := 40) (by norm_num) (by norm_num) (by norm_num) (by norm_num) hn
    hsB (by rw [hz]; linarith) (hsize.trans (hB.trans (by norm_num)))
  rw [iid_one_eq (d := (⟨N, Flt.fin p⟩ : Binomial (Flt f L))) (v1 := Flt.ln L (Flt.div f (.fin p) (Flt.sub f (.fin 1) (.fin p))))
    (vA := Flt.mul f (FloatOps.ofNat N : Flt f L) (Flt.ln L (Flt.add f (.fin 1)
      (Flt.exp L (Flt.ln L (Flt.div f (.fin p) (Flt.sub f (.fin 1) (.fin p)))))))) (g := fun k => FloatOps.ofNat k)
    rfl rfl rfl ks hne]
  have hstat : ks.map (fun k => (FloatOps.ofNat k : Flt f L)) = ks.map (fun k : ℕ => Flt.fin (k : ℚ)) :=
    List.map_congr_left fun k h => ofNat_flt hf ((hk k h).trans hN.le)
  have hbase : ks.map (fun k => baseLogDensity (⟨N, Flt.fin p⟩ : Binomial (Flt f L)) k) = ks.map (fun k =>
      (Flt.sub f (Flt.sub f (L.lnGamma (.fin ((N + 1 : ℕ) : ℚ))) (L.lnGamma (.fin ((k + 1 : ℕ) : ℚ))))
        (L.lnGamma (.fin ((N - k + 1 : ℕ) : ℚ))) : Flt f L)) :=
    List.map_congr_left fun k h => binomial_coefficient_flt hf hN (hk k h)
  rw [hstat, hbase, ofNat_flt hf hN.le]
  obtain ⟨r, r1, r2, r3⟩ := App.result (L := L) key
  refine ⟨r, r1, r2, r3.trans ?_⟩
  have := mul_le_mul_of_nonneg_left hsize (by positivity : 0 ≤ 40 * f.u)
  refine this.trans (le_of_eq (by ring))

/-! ### The hypotheses can be met -/

example (hf : f.Std) : ∃ L : Libm, L.Accurate f ∧ ∃ d : Bernoulli (Flt f L), Bernoulli.new (Flt.fin (1/2)) = .ok d ∧
    ∃ r : ℚ, (IID.ofDist d).iidLogDensity [1, 0] = Flt.fin (f := f) (L := L) r ∧
      |(r : ℝ) - (Real.log (1/2) + Real.log (1 - 1/2))| ≤ 72 * f.u * 6 := by
  obtain ⟨L, hL⟩ := exists_libm hf
  have hd : Bernoulli.new (Flt.fin (f := f) (L := L) (1/2)) = .ok ⟨Flt.fin (1/2)⟩ := by
    unfold Bernoulli.new
    exact if_pos (by show (decide ((0 : ℚ) ≤ 1/2) && decide ((1/2 : ℚ) ≤ 1)) = true; norm_num)
  refine ⟨L, hL, _, hd, ?_⟩
  have hlog : |Real.log 2| ≤ 1 := by
    rw [abs_of_pos (Real.log_pos (by norm_num))]; have := Real.log_two_lt_d9; linarith
  have hs : bernoulliSize ((1/2 : ℚ) : ℝ) (([1, 0] : List UInt8).map fun y => ((y.toNat : ℕ) : ℝ)).sum ≤ 6 := by
    have e1 : (1 : ℝ) - 2⁻¹ = 2⁻¹ := by norm_num
    simp [bernoulliSize, e1]; linarith
  obtain ⟨r, h1, -, h2⟩ := C144_bernoulli_joint_partial (L := L) hf hL hf.rep_half (by norm_num) (by norm_num) hd
    [1, 0] (by simp) (by simp) (two_obs hf) ((mul_le_mul_of_nonneg_left hs (by positivity)).trans (by norm_num))
  refine ⟨r, h1, ?_⟩
  have := u_pos f
  have h3 := mul_le_mul_of_nonneg_left hs (by positivity : 0 ≤ 72 * f.u)
  have h4 := h2.trans ((le_of_eq (by norm_num)).trans h3)
  simpa [bernoulliMass] using h4

example (hf : f.Std) : ∃ L : Libm, L.Accurate f ∧ L.GammaAccurate f ∧ ∃ d : Binomial (Flt f L),
    Binomial.new 1 (Flt.fin (1/2)) = .ok d ∧
    ∃ r : ℚ, (IID.ofDist d).iidLogDensity [1, 0] = Flt.fin (f := f) (L := L) r ∧
      |(r : ℝ) - (Real.log (1/2) + Real.log (1/2))| ≤ 80 * f.u * 13 := by
  obtain ⟨L, hL, hG⟩ := exists_libm_gamma hf
  have hd : Binomial.new 1 (Flt.fin (f := f) (L := L) (1/2)) = .ok ⟨1, Flt.fin (1/2)⟩ := by
    unfold Binomial.new
    exact if_pos (by show (decide ((0 : ℚ) ≤ 1/2) && decide ((1/2 : ℚ) ≤ 1)) = true; norm_num)
  refine ⟨L, hL, hG, _, hd, ?_⟩
  have hlog : |Real.log 2| ≤ 1 := by
    rw [abs_of_pos (Real.log_pos (by norm_num))]; have := Real.log_two_lt_d9; linarith
  have hs : binomialSize ((1/2 : ℚ) : ℝ) 1 ([1, 0] : List ℕ).length (([1, 0] : List ℕ).map fun k : ℕ => (k : ℝ)).sum
      ≤ 13 := by
    have e1 : (1 : ℝ) - 2⁻¹ = 2⁻¹ := by norm_num
    simp [binomialSize, e1]; linarith
  obtain ⟨r, h1, -, h2⟩ := C144_binomial_joint_partial (L := L) hf hL hG hf.rep_half (by norm_num) (by norm_num)
    (N := 1) (Nat.one_lt_two_pow (by rcases hf with rfl | rfl <;> decide)) hd
    [1, 0] (by simp) (by simp) (two_obs hf) ((mul_le_mul_of_nonneg_left hs (by positivity)).trans (by norm_num))
  refine ⟨r, h1, ?_⟩
  have := u_pos f
  have h3 := mul_le_mul_of_nonneg_left hs (by positivity : 0 ≤ 80 * f.u)
  have h4 := h2.trans ((le_of_eq (by norm_num)).trans h3)
  have e1 : (1 : ℝ) - 2⁻¹ = 2⁻¹ := by norm_num
  simpa [e1] using h4

end Verif
