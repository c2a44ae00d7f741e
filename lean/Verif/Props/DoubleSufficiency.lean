import Verif.Props.DoubleExpFam4

/-!
# C147: the joint exponential-family value depends on the sample through its sufficient statistic

For count data whose total is below `2 ^ prec` (`2 ^ 53` in `f64`) the sum of the statistics is exact. The joint value of
a Bernoulli or geometric sample is then a function of the size of the sample and of its total alone, to the last bit.
For the other families the order of the observations changes the rounding of the sums, and the joint value by no more
than twice the accuracy of the joint value (C144).
-/

namespace Verif
open Format FloatOps ProbabilityTheory ExponentialFamily

variable {f : Format} {L : Libm}

/-- the floating-point sum of counts is exact while the total is below `2 ^ prec` -/
theorem sum_counts (hf : f.Std) (ns : List ℕ) (h : ns.sum < 2 ^ f.prec) :
    (FloatOps.sum (ns.map fun n => (FloatOps.ofNat n : Flt f L))) = Flt.fin (f := f) (L := L) (ns.sum : ℚ) := by
  have key : ∀ (ns : List ℕ) (a : ℕ), a + ns.sum < 2 ^ f.prec →
      (ns.map fun n => (FloatOps.ofNat n : Flt f L)).foldl FloatOps.add (Flt.fin (a : ℚ)) =
        Flt.fin (f := f) (L := L) ((a + ns.sum : ℕ) : ℚ) := by
    intro ns
    induction ns with
    | nil => intro a _; simp
    | cons n ns ih =>
      intro a h
      simp only [List.map_cons, List.sum_cons, List.foldl_cons] at h ⊢
      have e : ((Flt.fin (a : ℚ) : Flt f L) +. FloatOps.ofNat n) = Flt.fin (f := f) (L := L) ((a + n : ℕ) : ℚ) := by
        rw [ofNat_flt hf (by omega : n ≤ 2 ^ f.prec)]
        show f.round ((a : ℚ) + n) = _
        rw [← Nat.cast_add]
        exact f.round_exact (rep_nat hf (by omega : a + n ≤ 2 ^ f.prec))
      have := ih (a + n) (by omega)
      rw [add_assoc] at this
      rw [← this]
      exact congrArg (fun v => List.foldl FloatOps.add v _) e
  have := key ns 0 (by simpa using h)
  rw [Nat.cast_zero, Nat.zero_add] at this
  exact this

/-- **C147** (Bernoulli): whatever the parameter, two samples of the same size with the same number of successes have
the same joint value. -/
theorem C147_bernoulli (hf : f.Std) (d : Bernoulli (Flt f L)) (xs ys : List UInt8) (hn : xs.length = ys.length)
    (hs : (xs.map UInt8.toNat).sum = (ys.map UInt8.toNat).sum) (hx : (xs.map UInt8.toNat).sum < 2 ^ f.prec) :
    ((IID.ofDist d).iidLogDensity xs : Flt f L) = (IID.ofDist d).iidLogDensity ys := by
  rcases eq_or_ne xs [] with rfl | hne
  · rw [List.length_eq_zero_iff.mp hn.symm]
  have hne' : ys ≠ [] := by rintro rfl; simp at hn; exact hne hn
  have e : ∀ zs : List UInt8, zs.map (fun y => (FloatOps.ofNat y.toNat : Flt f L)) =
      (zs.map UInt8.toNat).map fun n => (FloatOps.ofNat n : Flt f L) := fun zs => by simp
  have b : ∀ zs : List UInt8, (FloatOps.sum (zs.map fun x => baseLogDensity d x) : Flt f L) = Flt.fin 0 :=
    fun zs => sum_const_zero zs
  rw [iid_one_eq (d := d) rfl rfl rfl xs hne, iid_one_eq (d := d) rfl rfl rfl ys hne', b, b, e, e,
    sum_counts hf _ hx, sum_counts hf _ (hs ▸ hx), hs, hn]

/-- **C147** (geometric): the same for the numbers of trials of a geometric sample. -/
theorem C147_geometric (hf : f.Std) (d : Geometric (Flt f L)) (xs ys : List ℕ) (hn : xs.length = ys.length)
    (hs : xs.sum = ys.sum) (hx : xs.sum < 2 ^ f.prec) :
    ((IID.ofDist d).iidLogDensity xs : Flt f L) = (IID.ofDist d).iidLogDensity ys := by
  rcases eq_or_ne xs [] with rfl | hne
  · rw [List.length_eq_zero_iff.mp hn.symm]
  have hne' : ys ≠ [] := by rintro rfl; simp at hn; exact hne hn
  have b : ∀ zs : List ℕ, (FloatOps.sum (zs.map fun x => baseLogDensity d x) : Flt f L) = Flt.fin 0 :=
    fun zs => sum_const_zero zs
  rw [iid_one_eq (d := d) rfl rfl rfl xs hne, iid_one_eq (d := d) rfl rfl rfl ys hne', b, b,
    sum_counts hf _ hx, sum_counts hf _ (hs ▸ hx), hs, hn]

example : ([1, 0, 1, 1] : List UInt8).length = ([1, 1, 1, 0] : List UInt8).length ∧
    (([1, 0, 1, 1] : List UInt8).map UInt8.toNat).sum = (([1, 1, 1, 0] : List UInt8).map UInt8.toNat).sum ∧
    (([1, 0, 1, 1] : List UInt8).map UInt8.toNat).sum < 2 ^ f64.prec := by decide

example : ([1, 5, 3] : List ℕ).sum = ([4, 4, 1] : List ℕ).sum ∧ ([1, 5, 3] : List ℕ).sum < 2 ^ f64.prec := by decide

private theorem two_close {r s t c : ℝ} (h1 : |r - t| ≤ c) (h2 : |s - t| ≤ c) : |r - s| ≤ 2 * c := by
  rw [abs_le] at *
  constructor <;> linarith [h1.1, h1.2, h2.1, h2.2]

/-- **C147** (Gamma): the order of the sample. -/
theorem C147_gamma_order (hf : f.Std) (hL : L.Accurate f) (hG : L.GammaAccurate f) {a b : ℚ}
    (ha : f.Representable a) (hb : f.Representable b) {d : Gamma (Flt f L)}
    (h : Gamma.new (Flt.fin a) (Flt.fin b) = .ok d) {xs ys : List ℚ} (hp : ys.Perm xs) (hne : xs ≠ [])
    (hx : ∀ x ∈ xs, f.Representable x ∧ 0 < x) (hn : xs.length * f.u ≤ 1/1000)
    (hB : xs.length * gammaSize a b xs ≤ 2 ^ 80) (hS : (xs.map fun x : ℚ => (x : ℝ)).sum ≤ 2 ^ 80) :
    ∃ r s : ℚ, (IID.ofDist d).iidLogDensity (xs.map (Flt.fin (f := f) (L := L))) = Flt.fin (f := f) (L := L) r ∧
      (IID.ofDist d).iidLogDensity (ys.map (Flt.fin (f := f) (L := L))) = Flt.fin (f := f) (L := L) s ∧
      |(r : ℝ) - s| ≤ 2 * (80 * xs.length * f.u * gammaSize a b xs) := by
  have e : gammaSize a b ys = gammaSize a b xs := by unfold gammaSize; rw [(hp.map _).sum_eq, (hp.map _).sum_eq]
  obtain ⟨r, r1, -, r2⟩ := C144_gamma_joint_partial hf hL hG ha hb h xs hne hx hn hB hS
  obtain ⟨s, s1, -, s2⟩ := C144_gamma_joint_partial hf hL hG ha hb h ys (fun h => hne (h ▸ hp).symm.eq_nil)
    (fun y hy => hx y (hp.mem_iff.mp hy)) (by rw [hp.length_eq]; exact hn) (by rw [e, hp.length_eq]; exact hB)
    (by rw [(hp.map _).sum_eq]; exact hS)
  rw [e, hp.length_eq, (hp.map _).sum_eq] at s2
  exact ⟨r, s, r1, s1, two_close r2 s2⟩

/-- **C147** (chi-squared): the order of the sample. -/
theorem C147_chi_squared_order (hf : f.Std) (hL : L.Accurate f) (hG : L.GammaAccurate f) {k : ℚ}
    (hk : f.Representable k) (hk1 : 1 / 2 ^ 50 ≤ k) {d : ChiSquared (Flt f L)}
    (h : ChiSquared.new (Flt.fin k) = .ok d) {xs ys : List ℚ} (hp : ys.Perm xs) (hne : xs ≠ [])
    (hx : ∀ x ∈ xs, f.Representable x ∧ 0 < x) (hn : xs.length * f.u ≤ 1/1000)
    (hB : xs.length * chiSize ((k : ℝ) / 2) xs ≤ 2 ^ 80) :
    ∃ r s : ℚ, (IID.ofDist d).iidLogDensity (xs.map (Flt.fin (f := f) (L := L))) = Flt.fin (f := f) (L := L) r ∧
      (IID.ofDist d).iidLogDensity (ys.map (Flt.fin (f := f) (L := L))) = Flt.fin (f := f) (L := L) s ∧
      |(r : ℝ) - s| ≤ 2 * (145 * xs.length * f.u * chiSize ((k : ℝ) / 2) xs) := by
  have e : chiSize ((k : ℝ) / 2) ys = chiSize ((k : ℝ) / 2) xs := by
    unfold chiSize; rw [(hp.map _).sum_eq, (hp.map _).sum_eq]
  obtain ⟨r, r1, -, r2⟩ := C144_chi_squared_joint_partial hf hL hG hk hk1 h xs hne hx hn hB
  obtain ⟨s, s1, -, s2⟩ := C144_chi_squared_joint_partial hf hL hG hk hk1 h ys
    (fun h => hne (h ▸ hp).symm.eq_nil)
    (fun y hy => hx y (hp.mem_iff.mp hy)) (by rw [hp.length_eq]; exact hn) (by rw [e, hp.length_eq]; exact hB)
  rw [e, hp.length_eq, (hp.map _).sum_eq] at s2
  exact ⟨r, s, r1, s1, two_close r2 s2⟩

/-- **C147** (Beta): the order of the sample. -/
theorem C147_beta_order (hf : f.Std) (hL : L.Accurate f) (hG : L.GammaAccurate f) {a b : ℚ}
    (ha : f.Representable a) (hb : f.Representable b) {d : Beta (Flt f L)}
    (h : Beta.new (Flt.fin a) (Flt.fin b) = .ok d) {xs ys : List ℚ} (hp : ys.Perm xs) (hne : xs ≠ [])
    (hx : ∀ x ∈ xs, f.Representable x ∧ 0 < x ∧ x < 1) (hn : xs.length * f.u ≤ 1/1000)
    (hB : xs.length * betaSize a b xs ≤ 2 ^ 80) :
    ∃ r s : ℚ, (IID.ofDist d).iidLogDensity (xs.map (Flt.fin (f := f) (L := L))) = Flt.fin (f := f) (L := L) r ∧
      (IID.ofDist d).iidLogDensity (ys.map (Flt.fin (f := f) (L := L))) = Flt.fin (f := f) (L := L) s ∧
      |(r : ℝ) - s| ≤ 2 * (114 * xs.length * f.u * betaSize a b xs) := by
  have e : betaSize a b ys = betaSize a b xs := by unfold betaSize; rw [(hp.map _).sum_eq, (hp.map _).sum_eq]
  obtain ⟨r, r1, -, r2⟩ := C144_beta_joint_partial hf hL hG ha hb h xs hne hx hn hB
  obtain ⟨s, s1, -, s2⟩ := C144_beta_joint_partial hf hL hG ha hb h ys (fun h => hne (h ▸ hp).symm.eq_nil)
    (fun y hy => hx y (hp.mem_iff.mp hy)) (by rw [hp.length_eq]; exact hn) (by rw [e, hp.length_eq]; exact hB)
  rw [e, hp.length_eq, (hp.map _).sum_eq] at s2
  exact ⟨r, s, r1, s1, two_close r2 s2⟩

/-- **C147** (normal): the order of the sample. -/
theorem C147_normal_order (hf : f.Std) (hL : L.Accurate f) {μ σ : ℚ}
    (hμ : f.Representable μ) (hσ : f.Representable σ) {d : Normal (Flt f L)}
    (h : Normal.new (Flt.fin μ) (Flt.fin σ) = .ok d) (hσ1 : 1 / 2 ^ 10 ≤ σ) (hσ2 : σ ≤ 2 ^ 10)
    {xs ys : List ℚ} (hp : ys.Perm xs) (hne : xs ≠ []) (hx : ∀ x ∈ xs, f.Representable x)
    (hn : xs.length * f.u ≤ 1/1000) (hB : xs.length * normalSize μ σ xs ≤ 2 ^ 40) :
    ∃ r s : ℚ, (IID.ofDist d).iidLogDensity (xs.map (Flt.fin (f := f) (L := L))) = Flt.fin (f := f) (L := L) r ∧
      (IID.ofDist d).iidLogDensity (ys.map (Flt.fin (f := f) (L := L))) = Flt.fin (f := f) (L := L) s ∧
      |(r : ℝ) - s| ≤ 2 * (376 * xs.length * f.u * normalSize μ σ xs) := by
  have e : normalSize μ σ ys = normalSize μ σ xs := by unfold normalSize; rw [(hp.map _).sum_eq]
  obtain ⟨r, r1, -, r2⟩ := C144_normal_joint_partial hf hL hμ hσ h hσ1 hσ2 xs hne hx hn hB
  obtain ⟨s, s1, -, s2⟩ := C144_normal_joint_partial hf hL hμ hσ h hσ1 hσ2 ys
    (fun h => hne (h ▸ hp).symm.eq_nil)
    (fun y hy => hx y (hp.mem_iff.mp hy)) (by rw [hp.length_eq]; exact hn) (by rw [e, hp.length_eq]; exact hB)
  rw [e, hp.length_eq, (hp.map _).sum_eq] at s2
  exact ⟨r, s, r1, s1, two_close r2 s2⟩

/-- **C147** (standard normal): the order of the sample. -/
theorem C147_std_normal_order (hf : f.Std) (hL : L.Accurate f) {xs ys : List ℚ} (hp : ys.Perm xs) (hne : xs ≠ [])
    (hx : ∀ x ∈ xs, f.Representable x) (hn : xs.length * f.u ≤ 1/1000)
    (hB : (xs.length : ℝ) * (xs.map fun x : ℚ => 1 + (x : ℝ) ^ 2).sum ≤ 2 ^ 80) :
    ∃ r s : ℚ, (IID.ofDist ({} : StdNormal (Flt f L))).iidLogDensity (xs.map (Flt.fin (f := f) (L := L))) =
        Flt.fin (f := f) (L := L) r ∧
      (IID.ofDist ({} : StdNormal (Flt f L))).iidLogDensity (ys.map (Flt.fin (f := f) (L := L))) =
        Flt.fin (f := f) (L := L) s ∧
      |(r : ℝ) - s| ≤ 2 * (145 * xs.length * f.u * (xs.map fun x : ℚ => 1 + (x : ℝ) ^ 2).sum) := by
  obtain ⟨r, r1, -, r2⟩ := C144_std_normal_joint_partial (L := L) hf hL xs hne hx hn hB
  obtain ⟨s, s1, -, s2⟩ := C144_std_normal_joint_partial (L := L) hf hL ys
    (fun h => hne (h ▸ hp).symm.eq_nil)
    (fun y hy => hx y (hp.mem_iff.mp hy)) (by rw [hp.length_eq]; exact hn)
    (by rw [hp.length_eq, (hp.map _).sum_eq]; exact hB)
  rw [hp.length_eq, (hp.map _).sum_eq, (hp.map _).sum_eq] at s2
  exact ⟨r, s, r1, s1, two_close r2 s2⟩

/-- **C147** (Poisson): the order of the sample. -/
theorem C147_poisson_order (hL : L.Accurate f64) {l : ℚ} (hl : f64.Representable l)
    {d : Poisson (Flt f64 L)} (h : Poisson.new (Flt.fin l) = .ok d) {ks js : List ℕ} (hp : js.Perm ks) (hne : ks ≠ [])
    (hk : ∀ k ∈ ks, k ≤ 2 ^ 53) (hn : ks.length * f64.u ≤ 1/1000) (hB : ks.length * poissonSize l ks ≤ 2 ^ 80) :
    ∃ r s : ℚ, (IID.ofDist d).iidLogDensity ks = Flt.fin (f := f64) (L := L) r ∧
      (IID.ofDist d).iidLogDensity js = Flt.fin (f := f64) (L := L) s ∧
      |(r : ℝ) - s| ≤ 2 * (116 * ks.length * f64.u * poissonSize l ks) := by
  have e : poissonSize l js = poissonSize l ks := by unfold poissonSize; rw [(hp.map _).sum_eq]
  obtain ⟨r, r1, -, r2⟩ := C144_poisson_joint_partial hL hl h ks hne hk hn hB
  obtain ⟨s, s1, -, s2⟩ := C144_poisson_joint_partial hL hl h js (fun h => hne (h ▸ hp).symm.eq_nil)
    (fun y hy => hk y (hp.mem_iff.mp hy)) (by rw [hp.length_eq]; exact hn) (by rw [e, hp.length_eq]; exact hB)
  rw [e, hp.length_eq, (hp.map _).sum_eq] at s2
  exact ⟨r, s, r1, s1, two_close r2 s2⟩

/-- **C147** (binomial): the order of the sample. -/
theorem C147_binomial_order (hf : f.Std) (hL : L.Accurate f) (hG : L.GammaAccurate f) {p : ℚ}
    (hp : f.Representable p) (hp0 : 1 / 2 ^ 60 ≤ p) (hp1 : p ≠ 1) {N : ℕ} (hN : N < 2 ^ f.prec) {d : Binomial (Flt f L)}
    (h : Binomial.new N (Flt.fin p) = .ok d) {ks js : List ℕ} (hk : js.Perm ks) (hne : ks ≠ [])
    (hkN : ∀ k ∈ ks, k ≤ N) (hn : ks.length * f.u ≤ 1/1000)
    (hB : ks.length * binomialSize p N ks.length (ks.map fun k : ℕ => (k : ℝ)).sum ≤ 2 ^ 80) :
    ∃ r s : ℚ, (IID.ofDist d).iidLogDensity ks = Flt.fin (f := f) (L := L) r ∧
      (IID.ofDist d).iidLogDensity js = Flt.fin (f := f) (L := L) s ∧
      |(r : ℝ) - s| ≤
        2 * (40 * ks.length * f.u * binomialSize p N ks.length (ks.map fun k : ℕ => (k : ℝ)).sum) := by
  obtain ⟨r, r1, -, r2⟩ := C144_binomial_joint_partial hf hL hG hp hp0 hp1 hN h ks hne hkN hn hB
  obtain ⟨s, s1, -, s2⟩ := C144_binomial_joint_partial hf hL hG hp hp0 hp1 hN h js
    (fun h => hne (h ▸ hk).symm.eq_nil)
    (fun y hy => hkN y (hk.mem_iff.mp hy)) (by rw [hk.length_eq]; exact hn)
    (by rw [hk.length_eq, (hk.map _).sum_eq]; exact hB)
  rw [hk.length_eq, (hk.map _).sum_eq, (hk.map _).sum_eq] at s2
  exact ⟨r, s, r1, s1, two_close r2 s2⟩

/-! The hypotheses on the samples are those of C144, whose examples meet them; here a Gamma and a normal sample and
their reversals. -/

example (hf : f.Std) : ∃ L : Libm, L.Accurate f ∧ L.GammaAccurate f ∧ ∃ d : Gamma (Flt f L),
    Gamma.new (Flt.fin 1) (Flt.fin 1) = .ok d ∧
    ∃ r s : ℚ, (IID.ofDist d).iidLogDensity ([1, 2].map (Flt.fin (f := f) (L := L))) = Flt.fin (f := f) (L := L) r ∧
      (IID.ofDist d).iidLogDensity ([2, 1].map (Flt.fin (f := f) (L := L))) = Flt.fin (f := f) (L := L) s := by
  obtain ⟨L, hL, hG⟩ := exists_libm_gamma hf
  refine ⟨L, hL, hG, ⟨Flt.fin 1, Flt.fin 1⟩, rfl, ?_⟩
  have hlog : |Real.log 2| ≤ 1 := by
    rw [abs_of_pos (Real.log_pos (by norm_num))]; have := Real.log_two_lt_d9; linarith
  have hs : gammaSize ((1 : ℚ) : ℝ) ((1 : ℚ) : ℝ) [1, 2] ≤ 6 := by
    simp [gammaSize]; linarith
  obtain ⟨r, s, h1, h2, -⟩ := C147_gamma_order (L := L) hf hL hG hf.rep_one hf.rep_one
    (d := ⟨Flt.fin 1, Flt.fin 1⟩) rfl (xs := [1, 2]) (ys := [2, 1]) (List.Perm.swap 1 2 []) (by simp)
    (by simp [hf.rep_one, hf.rep_two]) (two_obs hf)
    ((mul_le_mul_of_nonneg_left hs (by positivity)).trans (by norm_num)) (by norm_num)
  exact ⟨r, s, h1, h2⟩

example (hf : f.Std) : ∃ L : Libm, L.Accurate f ∧ ∃ d : Normal (Flt f L),
    Normal.new (Flt.fin 0) (Flt.fin 1) = .ok d ∧
    ∃ r s : ℚ, (IID.ofDist d).iidLogDensity ([1, 2].map (Flt.fin (f := f) (L := L))) = Flt.fin (f := f) (L := L) r ∧
      (IID.ofDist d).iidLogDensity ([2, 1].map (Flt.fin (f := f) (L := L))) = Flt.fin (f := f) (L := L) s := by
  obtain ⟨L, hL⟩ := exists_libm hf
  refine ⟨L, hL, ⟨Flt.fin 0, Flt.fin 1⟩, rfl, ?_⟩
  have hs : normalSize ((0 : ℚ) : ℝ) ((1 : ℚ) : ℝ) [1, 2] = 7 := by simp [normalSize]; norm_num
  obtain ⟨r, s, h1, h2, -⟩ := C147_normal_order (L := L) hf hL f.rep_zero hf.rep_one
    (d := ⟨Flt.fin 0, Flt.fin 1⟩) rfl
    (by norm_num) (by norm_num) (xs := [1, 2]) (ys := [2, 1]) (List.Perm.swap 1 2 []) (by simp)
    (by simp [hf.rep_one, hf.rep_two]) (two_obs hf) (by rw [hs]; norm_num)
  exact ⟨r, s, h1, h2⟩

end Verif
