import Verif.Props.DoubleSufficiency
import Verif.Props.DoubleSum

/-!
# C148: the two ways to compute a joint log-density agree in floating point

The joint log-density of a sample can be computed from the sufficient statistics (`iid().log_density`) or as the sum of
the values of the observations (the fallback, or `log_density_iid` of the normal distribution). The two computations
round differently. Here: by how much they can differ.
-/

namespace Verif
open Format FloatOps ProbabilityTheory ExponentialFamily

variable {f : Format} {L : Libm}

private theorem two_near {r s t c e : ℝ} (h1 : |r - t| ≤ c) (h2 : |s - t| ≤ e) : |r - s| ≤ c + e := by
  rw [abs_le] at *
  constructor <;> linarith [h1.1, h1.2, h2.1, h2.2]

/-- the sum of the values of the observations -/
theorem fallback_app (hf : f.Std) {D X : Type} [HasLogDensity D X (Flt f L)] (d : D) (xs : List X) {t T : X → ℝ} {k : ℝ}
    (hk : 0 ≤ k) (hk' : k ≤ 900) (hn : xs.length * f.u ≤ 1/1000) (hB : (xs.map T).sum ≤ 2 ^ 90)
    (h : ∀ x ∈ xs, |t x| ≤ T x ∧ ∃ r : ℚ, logDensityWrtRoot d x = Flt.fin (f := f) (L := L) r ∧ f.Representable r ∧
      |(r : ℝ) - t x| ≤ k * f.u * T x) :
    ∃ s : ℚ, (IID.ofDist d).iidLogDensityFallback xs = Flt.fin (f := f) (L := L) s ∧
      |(s : ℝ) - (xs.map t).sum| ≤ (k + 4) * xs.length * f.u * (xs.map T).sum := by
  have key := App.sum (L := L) hf xs (v := fun x => (logDensityWrtRoot d x : Flt f L)) (x := t) (X := T) (k := k)
    (m := k + 4) hk le_rfl (by linarith) hn
    (fun x hx => by
      obtain ⟨h1, r, h2, h3, h4⟩ := h x hx
      exact ⟨r, h2, h3, h1, h4⟩) hB
  obtain ⟨s, h1, -, h2⟩ := App.result (L := L) key
  exact ⟨s, h1, h2.trans (le_of_eq (by ring))⟩

/-- **C148** (Gamma). -/
theorem C148_gamma (hf : f.Std) (hL : L.Accurate f) (hG : L.GammaAccurate f) {a b : ℚ}
    (ha : f.Representable a) (hb : f.Representable b) {d : Gamma (Flt f L)}
    (h : Gamma.new (Flt.fin a) (Flt.fin b) = .ok d) (xs : List ℚ) (hne : xs ≠ [])
    (hx : ∀ x ∈ xs, f.Representable x ∧ 0 < x) (hn : xs.length * f.u ≤ 1/1000)
    (hB : xs.length * (xs.map fun x => gammaSize a b [x]).sum ≤ 2 ^ 80)
    (hS : (xs.map fun x : ℚ => (x : ℝ)).sum ≤ 2 ^ 80) :
    ∃ r s : ℚ, (IID.ofDist d).iidLogDensity (xs.map (Flt.fin (f := f) (L := L))) = Flt.fin (f := f) (L := L) r ∧
      (IID.ofDist d).iidLogDensityFallback (xs.map (Flt.fin (f := f) (L := L))) = Flt.fin (f := f) (L := L) s ∧
      |(r : ℝ) - s| ≤ 140 * xs.length * f.u * (xs.map fun x => gammaSize a b [x]).sum := by
  obtain ⟨ha0, hb0, -⟩ := Gamma.new_flt h
  have haR : (0 : ℝ) < a := by exact_mod_cast ha0
  have hbR : (0 : ℝ) < b := by exact_mod_cast hb0
  have hn1 : (1 : ℝ) ≤ xs.length := by exact_mod_cast List.length_pos_of_ne_nil hne
  have hu := u_pos f
  set S := (xs.map fun x => gammaSize a b [x]).sum with hSdef
  have c0 : 0 ≤ (a : ℝ) * |Real.log b| := by positivity
  have c1 := abs_nonneg (Real.log (Real.Gamma a))
  have hsplit : S = xs.length * (1 + a * |Real.log b| + |Real.log (Real.Gamma a)|)
      + ((a : ℝ) + 1) * (xs.map fun x : ℚ => |Real.log x|).sum + b * (xs.map fun x : ℚ => (x : ℝ)).sum := by
    rw [hSdef]
    clear * -
    induction xs with
    | nil => simp
    | cons x xs ih =>
      rw [List.map_cons, List.sum_cons, ih]
      simp only [List.map_cons, List.sum_cons, List.length_cons, gammaSize, List.map_nil, List.sum_nil]
      push_cast
      ring
  have hle : gammaSize a b xs ≤ S := by
    rw [hsplit]
    unfold gammaSize
    nlinarith
  have hs0 : ∀ x ∈ xs, 0 ≤ gammaSize a b [x] := fun x h => by
    have : (0 : ℝ) < x := by exact_mod_cast (hx x h).2
    simp only [gammaSize, List.map_cons, List.map_nil, List.sum_cons, List.sum_nil]
    positivity
  have hSnn : 0 ≤ S := sum_nonneg_of hs0
  have hSB : S ≤ 2 ^ 80 := (le_mul_of_one_le_left hSnn hn1).trans hB
  have hone : ∀ x ∈ xs, gammaSize a b [x] ≤ S := fun x h =>
    List.single_le_sum (by simp only [List.mem_map]; rintro _ ⟨y, hy, rfl⟩; exact hs0 y hy) _
      (List.mem_map_of_mem (f := fun x => gammaSize a b [x]) h)
  obtain ⟨r, r1, -, r2⟩ := C144_gamma_joint_partial hf hL hG ha hb h xs hne hx hn
    ((mul_le_mul_of_nonneg_left hle (by positivity)).trans hB) hS
  obtain ⟨s, s1, s2⟩ := fallback_app (L := L) hf d (xs.map (Flt.fin (f := f) (L := L)))
    (t := fun v => match v with | .fin q => Real.log (gammaPDFReal a b q) | _ => 0)
    (T := fun v => match v with | .fin q => gammaSize a b [q] | _ => 0) (k := 56) (by norm_num) (by norm_num)
    (by simpa using hn) (by simpa [Function.comp_def] using hSB.trans (by norm_num))
    (by
      intro v hv
      obtain ⟨x, hxm, rfl⟩ := List.mem_map.mp hv
      have hxR : (0 : ℝ) < x := by exact_mod_cast (hx x hxm).2
      have hsz : gammaSize a b [x] = 1 + (a : ℝ) * |Real.log b| + |Real.log (Real.Gamma a)|
          + ((a : ℝ) + 1) * |Real.log x| + b * x := by simp [gammaSize]
      constructor
      · show |Real.log (gammaPDFReal a b x)| ≤ gammaSize a b [x]
        have := sum_log_gamma haR hbR [x] (by simpa using (hx x hxm).2)
        simp only [List.map_cons, List.map_nil, List.sum_cons, List.sum_nil, add_zero, List.length_singleton,
          Nat.cast_one, one_mul] at this
        rw [this, hsz]
        have e1 : |((a : ℝ) - 1) * Real.log x| ≤ ((a : ℝ) + 1) * |Real.log x| := by
          rw [abs_mul]
          refine mul_le_mul_of_nonneg_right ?_ (abs_nonneg _)
          rw [abs_le]; constructor <;> linarith
        have e2 : |(a : ℝ) * Real.log b| = a * |Real.log b| := by rw [abs_mul, abs_of_pos haR]
        have e3 := neg_abs_le (((a : ℝ) - 1) * Real.log x)
        have e4 := le_abs_self (((a : ℝ) - 1) * Real.log x)
        have e5 := neg_abs_le ((a : ℝ) * Real.log b)
        have e6 := le_abs_self ((a : ℝ) * Real.log b)
        have e7 := neg_abs_le (Real.log (Real.Gamma a))
        have e8 := le_abs_self (Real.log (Real.Gamma a))
        have e9 : 0 ≤ (b : ℝ) * x := by positivity
        rw [abs_le]
        constructor <;> linarith
      · obtain ⟨q, q1, q2, q3⟩ := (C100_gamma_partial hf hL hG ha hb (hx x hxm).1 h
          (by rw [← hsz]; exact (hone x hxm).trans hSB)).1 (hx x hxm).2
        refine ⟨q, q1, q2, ?_⟩
        rw [← hsz] at q3
        exact q3)
  refine ⟨r, s, r1, s1, ?_⟩
  simp only [List.map_map, Function.comp_def, List.length_map] at s2
  have h2 : 80 * xs.length * f.u * gammaSize a b xs ≤ 80 * xs.length * f.u * S :=
    mul_le_mul_of_nonneg_left hle (by positivity)
  refine (two_near (r2.trans h2) s2).trans (le_of_eq ?_)
  rw [hSdef]
  ring

/-- **C148** (Bernoulli). -/
theorem C148_bernoulli (hf : f.Std) (hL : L.Accurate f) {p : ℚ} (hp : f.Representable p)
    (hp0 : 1 / 2 ^ 60 ≤ p) (hp1 : p ≠ 1) {d : Bernoulli (Flt f L)} (h : Bernoulli.new (Flt.fin p) = .ok d)
    (ys : List UInt8) (hne : ys ≠ []) (hy : ∀ y ∈ ys, y = 0 ∨ y = 1) (hn : ys.length * f.u ≤ 1/1000)
    (hB : ys.length * bernoulliSize p (ys.map fun y => ((y.toNat : ℕ) : ℝ)).sum ≤ 2 ^ 80)
    (hB' : (ys.map fun y => 1 + |Real.log (bernoulliMass p y)|).sum ≤ 2 ^ 90) :
    ∃ r s : ℚ, (IID.ofDist d).iidLogDensity ys = Flt.fin (f := f) (L := L) r ∧
      (IID.ofDist d).iidLogDensityFallback ys = Flt.fin (f := f) (L := L) s ∧
      |(r : ℝ) - s| ≤ 36 * ys.length * f.u * bernoulliSize p (ys.map fun y => ((y.toNat : ℕ) : ℝ)).sum +
        9 * ys.length * f.u * (ys.map fun y => 1 + |Real.log (bernoulliMass p y)|).sum := by
  obtain ⟨-, h1, -⟩ := Bernoulli.new_flt h
  have hltR : (p : ℝ) < 1 := by exact_mod_cast lt_of_le_of_ne h1 hp1
  have hpR : (0 : ℝ) < p := by exact_mod_cast lt_of_lt_of_le (by norm_num) hp0
  obtain ⟨r, r1, -, r2⟩ := C144_bernoulli_joint_partial hf hL hp hp0 hp1 h ys hne hy hn hB
  obtain ⟨s, s1, s2⟩ := fallback_app (L := L) hf d ys (t := fun y => Real.log (bernoulliMass p y))
    (T := fun y => 1 + |Real.log (bernoulliMass p y)|) (k := 5) (by norm_num) (by norm_num) hn hB'
    (by
      intro y hym
      refine ⟨by linarith, ?_⟩
      have hm : 0 < bernoulliMass p y := by
        rcases hy y hym with rfl | rfl <;> simp [bernoulliMass] <;> linarith
      refine (C101_bernoulli hf hL hp h y (m := bernoulliMass p y) ?_).1 hm
      rcases hy y hym with rfl | rfl <;> simp [bernoulliMass])
  refine ⟨r, s, r1, s1, (two_near r2 s2).trans (le_of_eq ?_)⟩
  ring

/-- **C148** (Poisson). -/
theorem C148_poisson (hL : L.Accurate f64) {l : ℚ} (hl : f64.Representable l) (hlB : l ≤ 2 ^ 80)
    {d : Poisson (Flt f64 L)} (h : Poisson.new (Flt.fin l) = .ok d) (ks : List ℕ) (hne : ks ≠ [])
    (hk : ∀ k ∈ ks, k ≤ 2 ^ 40) (hn : ks.length * f64.u ≤ 1/1000) (hB : ks.length * poissonSize l ks ≤ 2 ^ 80)
    (hB' : (ks.map fun k : ℕ => 1 + k * |Real.log l| + l + (k + 1) * Real.log (k.factorial : ℝ)).sum ≤ 2 ^ 90) :
    ∃ r s : ℚ, (IID.ofDist d).iidLogDensity ks = Flt.fin (f := f64) (L := L) r ∧
      (IID.ofDist d).iidLogDensityFallback ks = Flt.fin (f := f64) (L := L) s ∧
      |(r : ℝ) - s| ≤ 116 * ks.length * f64.u * poissonSize l ks + 14 * ks.length * f64.u *
        (ks.map fun k : ℕ => 1 + k * |Real.log l| + l + (k + 1) * Real.log (k.factorial : ℝ)).sum := by
  have hf : f64.Std := .inl rfl
  obtain ⟨h0, -⟩ := Poisson.new_flt h
  have hlR : (0 : ℝ) < l := by exact_mod_cast h0
  obtain ⟨r, r1, -, r2⟩ := C144_poisson_joint_partial hL hl h ks hne
    (fun k h => (hk k h).trans (by norm_num)) hn hB
  obtain ⟨s, s1, s2⟩ := fallback_app (L := L) hf d ks
    (t := fun k : ℕ => Real.log ((l : ℝ) ^ k * Real.exp (-l) / k.factorial))
    (T := fun k : ℕ => 1 + k * |Real.log l| + l + (k + 1) * Real.log (k.factorial : ℝ)) (k := 10)
    (by norm_num) (by norm_num) hn hB'
    (by
      intro k hkm
      constructor
      · have := sum_log_poisson hlR [k]
        simp only [List.map_cons, List.map_nil, List.sum_cons, List.sum_nil, add_zero, List.length_singleton,
          Nat.cast_one, one_mul] at this
        rw [this]
        have e1 : |Real.log (l : ℝ) * k| = k * |Real.log l| := by rw [abs_mul, Nat.abs_cast, mul_comm]
        have e2 := neg_abs_le (Real.log (l : ℝ) * k)
        have e3 := le_abs_self (Real.log (l : ℝ) * k)
        have e4 := log_fact_nonneg k
        have e5 : 0 ≤ (k : ℝ) * Real.log (k.factorial : ℝ) := by positivity
        rw [abs_le]
        constructor <;> linarith
      · refine C101_poisson_partial hf hL hl hlB h ?_ (hk k hkm)
        have h1 : (k : ℝ) ≤ 2 ^ 40 := by exact_mod_cast hk k hkm
        have h2 : f64.u = 1 / 2 ^ 53 := by norm_num [Format.u, f64]
        rw [h2]
        linarith)
  exact ⟨r, s, r1, s1, (two_near r2 s2).trans (le_of_eq (by ring))⟩

/-- **C148** (normal): the exponential-family value and `log_density_iid`. -/
theorem C148_normal (hf : f.Std) (hL : L.Accurate f) {μ σ : ℚ}
    (hμ : f.Representable μ) (hσ : f.Representable σ) {d : Normal (Flt f L)}
    (h : Normal.new (Flt.fin μ) (Flt.fin σ) = .ok d) (hσ1 : 1 / 2 ^ 10 ≤ σ) (hσ2 : σ ≤ 2 ^ 10)
    (xs : List ℚ) (hne : xs ≠ []) (hx : ∀ x ∈ xs, f.Representable x) (hn : xs.length * f.u ≤ 1/1000)
    (hB : xs.length * normalSize μ σ xs ≤ 2 ^ 40) :
    ∃ r s : ℚ, (IID.ofDist d).iidLogDensity (xs.map (Flt.fin (f := f) (L := L))) = Flt.fin (f := f) (L := L) r ∧
      d.logDensityIid (xs.map Flt.fin) = Flt.fin (f := f) (L := L) s ∧
      |(r : ℝ) - s| ≤ 488 * xs.length * f.u * normalSize μ σ xs := by
  obtain ⟨hσ0, -⟩ := Normal.new_flt h
  have hσR : (0 : ℝ) < σ := by exact_mod_cast hσ0
  have hn1 : (1 : ℝ) ≤ xs.length := by exact_mod_cast List.length_pos_of_ne_nil hne
  have hu := u_pos f
  have hS0 : 0 ≤ normalSize μ σ xs := sum_nonneg_of fun _ _ => by positivity
  have hS1 : normalSize μ σ xs ≤ 2 ^ 40 := (le_mul_of_one_le_left hS0 hn1).trans hB
  have hsq : ∀ x : ℚ, (((x : ℝ) - μ) / σ) ^ 2 / 2 ≤ ((x : ℝ) / σ) ^ 2 + ((μ : ℝ) / σ) ^ 2 := fun x => by
    rw [sub_div]
    nlinarith [sq_nonneg ((x : ℝ) / σ + (μ : ℝ) / σ)]
  have hle : (xs.map fun x : ℚ => 1 + |Real.log σ| + (((x : ℝ) - μ) / σ) ^ 2 / 2).sum ≤ normalSize μ σ xs :=
    map_sum_le fun x _ => by have := hsq x; linarith
  have hz : (xs.map fun x : ℚ => (((x : ℝ) - μ) / σ) ^ 2).sum ≤ 2 * normalSize μ σ xs := by
    unfold normalSize
    rw [← List.sum_map_mul_left]
    refine map_sum_le fun x _ => ?_
    have := hsq x
    have := abs_nonneg (Real.log (σ : ℝ))
    linarith
  have hbig : (2 : ℝ) ^ (100 : ℤ) ≤ 2 ^ (f.emax - 6) :=
    zpow_le_zpow_right₀ (by norm_num) (by rcases hf with rfl | rfl <;> decide)
  have hbig' : (2 : ℝ) ^ (f.emax - 6) ≤ 2 ^ (f.emax - 1) := zpow_le_zpow_right₀ (by norm_num) (by omega)
  have h100 : (2 : ℝ) ^ (100 : ℤ) = 2 ^ 100 := by norm_num
  obtain ⟨r, r1, -, r2⟩ := C144_normal_joint_partial hf hL hμ hσ h hσ1 hσ2 xs hne hx hn hB
  rcases C91_normal_iid hf hL hμ hσ hx hne hn h with ⟨s, s1, -, s2⟩ | ⟨-, hbad⟩
  · refine ⟨r, s, r1, s1, (two_near r2 s2).trans ?_⟩
    have h1 : (100 + 12 * (xs.length : ℝ)) * f.u *
        (xs.map fun x : ℚ => 1 + |Real.log σ| + (((x : ℝ) - μ) / σ) ^ 2 / 2).sum ≤
        (112 * xs.length) * f.u * normalSize μ σ xs :=
      mul_le_mul (mul_le_mul_of_nonneg_right (by linarith) hu.le) hle
        (sum_nonneg_of fun _ _ => by positivity) (by positivity)
    linarith
  · exfalso
    rcases hbad with ⟨x, hxm, hbad⟩ | hbad
    · have h1 : (((x : ℝ) - μ) / σ) ^ 2 ≤ (xs.map fun x : ℚ => (((x : ℝ) - μ) / σ) ^ 2).sum :=
        List.single_le_sum (by simp only [List.mem_map]; rintro _ ⟨y, -, rfl⟩; positivity) _
          (List.mem_map_of_mem (f := fun x : ℚ => (((x : ℝ) - μ) / σ) ^ 2) hxm)
      have s2 : (σ : ℝ) ≤ 2 ^ 10 := by
        have := (Rat.cast_le (K := ℝ)).mpr hσ2; push_cast at this; exact this
      have h2 : ((x : ℝ) - μ) ^ 2 = (((x : ℝ) - μ) / σ) ^ 2 * σ ^ 2 := by field_simp
      have h3 : (σ : ℝ) ^ 2 ≤ (2 ^ 10) ^ 2 := by gcongr
      have h4 : (((x : ℝ) - μ) / σ) ^ 2 ≤ 2 ^ 41 := by linarith
      have h5 : ((x : ℝ) - μ) ^ 2 ≤ 2 ^ 41 * (2 ^ 10) ^ 2 := by
        rw [h2]; exact mul_le_mul h4 h3 (by positivity) (by positivity)
      have h6 : |(x : ℝ) - μ| ≤ 2 ^ 31 := abs_le_of_sq_le_sq (h5.trans (by norm_num)) (by positivity)
      have : (2 : ℝ) ^ 31 ≤ 2 ^ 100 := by norm_num
      linarith
    · have : (2 : ℝ) ^ 41 ≤ 2 ^ 100 := by norm_num
      linarith

/-! The hypotheses of these theorems are met by the samples of the examples beside C144; here a sample of each.
-/

example (hf : f.Std) : ∃ L : Libm, L.Accurate f ∧ ∃ d : Normal (Flt f L),
    Normal.new (Flt.fin 0) (Flt.fin 1) = .ok d ∧
    ∃ r s : ℚ, (IID.ofDist d).iidLogDensity ([1, 2].map (Flt.fin (f := f) (L := L))) = Flt.fin (f := f) (L := L) r ∧
      d.logDensityIid ([1, 2].map Flt.fin) = Flt.fin (f := f) (L := L) s ∧
      |(r : ℝ) - s| ≤ 976 * f.u * 7 := by
  obtain ⟨L, hL⟩ := exists_libm hf
  refine ⟨L, hL, ⟨Flt.fin 0, Flt.fin 1⟩, rfl, ?_⟩
  have hs : normalSize ((0 : ℚ) : ℝ) ((1 : ℚ) : ℝ) [1, 2] = 7 := by simp [normalSize]; norm_num
  obtain ⟨r, s, h1, h2, h3⟩ := C148_normal (L := L) hf hL f.rep_zero hf.rep_one
    (d := ⟨Flt.fin 0, Flt.fin 1⟩) rfl
    (by norm_num) (by norm_num) [1, 2] (by simp)
    (by simp [hf.rep_one, hf.rep_two]) (two_obs hf) (by rw [hs]; norm_num)
  refine ⟨r, s, h1, h2, ?_⟩
  rw [hs] at h3
  exact h3.trans (le_of_eq (by norm_num))

example (hf : f.Std) : ∃ L : Libm, L.Accurate f ∧ L.GammaAccurate f ∧ ∃ d : Gamma (Flt f L),
    Gamma.new (Flt.fin 1) (Flt.fin 1) = .ok d ∧
    ∃ r s : ℚ, (IID.ofDist d).iidLogDensity ([1, 2].map (Flt.fin (f := f) (L := L))) = Flt.fin (f := f) (L := L) r ∧
      (IID.ofDist d).iidLogDensityFallback ([1, 2].map (Flt.fin (f := f) (L := L))) = Flt.fin (f := f) (L := L) s := by
  obtain ⟨L, hL, hG⟩ := exists_libm_gamma hf
  refine ⟨L, hL, hG, ⟨Flt.fin 1, Flt.fin 1⟩, rfl, ?_⟩
  have hlog : |Real.log 2| ≤ 1 := by
    rw [abs_of_pos (Real.log_pos (by norm_num))]; have := Real.log_two_lt_d9; linarith
  have hs : (([1, 2] : List ℚ).map fun x => gammaSize ((1 : ℚ) : ℝ) ((1 : ℚ) : ℝ) [x]).sum ≤ 7 := by
    simp [gammaSize]; linarith
  obtain ⟨r, s, h1, h2, -⟩ := C148_gamma (L := L) hf hL hG hf.rep_one hf.rep_one
    (d := ⟨Flt.fin 1, Flt.fin 1⟩) rfl [1, 2] (by simp)
    (by simp [hf.rep_one, hf.rep_two]) (two_obs hf)
    ((mul_le_mul_of_nonneg_left hs (by positivity)).trans (by norm_num)) (by norm_num)
  exact ⟨r, s, h1, h2⟩

example (hf : f.Std) : ∃ L : Libm, L.Accurate f ∧ ∃ d : Bernoulli (Flt f L), Bernoulli.new (Flt.fin (1/2)) = .ok d ∧
    ∃ r s : ℚ, (IID.ofDist d).iidLogDensity [1, 0] = Flt.fin (f := f) (L := L) r ∧
      (IID.ofDist d).iidLogDensityFallback [1, 0] = Flt.fin (f := f) (L := L) s := by
  obtain ⟨L, hL⟩ := exists_libm hf
  have hd : Bernoulli.new (Flt.fin (f := f) (L := L) (1/2)) = .ok ⟨Flt.fin (1/2)⟩ := by
    unfold Bernoulli.new
    exact if_pos (by show (decide ((0 : ℚ) ≤ 1/2) && decide ((1/2 : ℚ) ≤ 1)) = true; norm_num)
  refine ⟨L, hL, _, hd, ?_⟩
  have hlog : |Real.log 2| ≤ 1 := by
    rw [abs_of_pos (Real.log_pos (by norm_num))]; have := Real.log_two_lt_d9; linarith
  have e1 : (1 : ℝ) - 2⁻¹ = 2⁻¹ := by norm_num
  have hs : bernoulliSize ((1/2 : ℚ) : ℝ) (([1, 0] : List UInt8).map fun y => ((y.toNat : ℕ) : ℝ)).sum ≤ 6 := by
    simp [bernoulliSize, e1]; linarith
  obtain ⟨r, s, h1, h2, -⟩ := C148_bernoulli (L := L) hf hL hf.rep_half (by norm_num) (by norm_num) hd
    [1, 0] (by simp) (by simp) (two_obs hf) ((mul_le_mul_of_nonneg_left hs (by positivity)).trans (by norm_num))
    (by simp [bernoulliMass, e1]; linarith)
  exact ⟨r, s, h1, h2⟩

example : ∃ L : Libm, L.Accurate f64 ∧ ∃ d : Poisson (Flt f64 L), Poisson.new (Flt.fin 1) = .ok d ∧
    ∃ r s : ℚ, (IID.ofDist d).iidLogDensity [1, 0] = Flt.fin (f := f64) (L := L) r ∧
      (IID.ofDist d).iidLogDensityFallback [1, 0] = Flt.fin (f := f64) (L := L) s := by
  have hf : f64.Std := .inl rfl
  obtain ⟨L, hL⟩ := exists_libm hf
  refine ⟨L, hL, ⟨Flt.fin 1⟩, rfl, ?_⟩
  have hs : poissonSize ((1 : ℚ) : ℝ) [1, 0] = 242 := by simp [poissonSize]; norm_num
  obtain ⟨r, s, h1, h2, -⟩ := C148_poisson (L := L) hL hf.rep_one (by norm_num) (d := ⟨Flt.fin 1⟩) rfl
    [1, 0] (by simp) (by simp) (two_obs hf) (by rw [hs]; norm_num) (by simp; norm_num)
  exact ⟨r, s, h1, h2⟩

end Verif
