import Verif.Props.CoreDensity
import Verif.Props.Double
import Verif.Lemmas.FltOrder
import Verif.Lemmas.LibmExists

/-!
# C110: relative log-densities in floating point
-/

namespace Verif
open Format FloatOps ProbabilityTheory LogDensity

variable {f : Format} {L : Libm} {M B C T : Type}

/-- Two numbers of the format of the same sign, within a factor two of each other, have a difference
in the format (Sterbenz). -/
theorem rep_sub_sterbenz {a b : ℚ} (ha : f.Representable a) (hb : f.Representable b)
    (h1 : |a - b| ≤ |a|) (h2 : |a - b| ≤ |b|) : f.Representable (a - b) := by
  obtain ⟨⟨m, e, hm, he, rfl⟩, hma⟩ := ha
  obtain ⟨⟨n, d, hn, hd, rfl⟩, hmb⟩ := hb
  refine ⟨?_, lt_of_le_of_lt h1 hma⟩
  have main : ∀ (p q : ℤ) (k : ℕ) (g : ℤ), |(p : ℚ) * 2 ^ (g + k) - q * 2 ^ g| ≤ |(q : ℚ) * 2 ^ g| →
      |q| < 2 ^ f.prec → f.emin ≤ g →
      ∃ r : ℤ, |r| < 2 ^ f.prec ∧ (p : ℚ) * 2 ^ (g + k) - q * 2 ^ g = r * 2 ^ g := by
    intro p q k g h hq _
    have e1 : (p : ℚ) * 2 ^ (g + k) - q * 2 ^ g = ((p * 2 ^ k - q : ℤ) : ℚ) * 2 ^ g := by
      rw [zpow_add₀ (by norm_num), zpow_natCast]; push_cast; ring
    refine ⟨p * 2 ^ k - q, ?_, e1⟩
    rw [e1, abs_mul, abs_mul] at h
    have := le_of_mul_le_mul_right h (by positivity)
    have : |p * 2 ^ k - q| ≤ |q| := by exact_mod_cast this
    exact lt_of_le_of_lt this hq
  rcases le_total d e with h | h
  · obtain ⟨k, rfl⟩ := Int.le.dest h
    obtain ⟨r, hr, e1⟩ := main m n k d h2 hn hd
    exact ⟨r, d, hr, hd, e1⟩
  · obtain ⟨k, rfl⟩ := Int.le.dest h
    obtain ⟨r, hr, e1⟩ := main n m k e (by rw [abs_sub_comm]; exact h1) hm he
    exact ⟨-r, e, by rwa [abs_neg], he, by push_cast; linarith⟩

theorem Flt.sub_antisymm (a b : FVal) : Flt.sub f b a = Flt.neg (Flt.sub f a b) := by
  cases a with
  | nan => cases b <;> rfl
  | inf s =>
    cases b with
    | nan => rfl
    | inf t => cases s <;> cases t <;> rfl
    | fin q => cases s <;> rfl
  | fin p =>
    cases b with
    | nan => rfl
    | inf t => cases t <;> rfl
    | fin q =>
      show f.round (q + -p) = Flt.neg (f.round (p + -q))
      rw [← round_neg]; congr 1; ring

section
variable [Measure M T] [Measure B T] [HasLogDensity M T (Flt f L)] [HasLogDensity B T (Flt f L)]

/-- **C110** (accuracy): the relative log-density of two measures computed in floating point is as
accurate as the two log-densities, up to one rounding. -/
theorem C110_accurate (hf : f.Std) (lay : Layout) (hlay : lay.Apart) (addr : ℕ) (m : M) (b : B) (x : T)
    {p q : ℚ} {P Q δ ε : ℝ}
    (hp : logDensityWrtRoot m x = Flt.fin (f := f) (L := L) p) (rp : f.Representable p) (ep : |(p : ℝ) - P| ≤ δ)
    (hq : logDensityWrtRoot b x = Flt.fin (f := f) (L := L) q) (rq : f.Representable q) (eq : |(q : ℝ) - Q| ≤ ε)
    (hlt : |p - q| ≤ 2 ^ (f.emax - 1)) :
    ∃ r : ℚ, relLogDensity (F := Flt f L) lay addr m b x = Flt.fin r ∧ f.Representable r ∧
      |(r : ℝ) - (P - Q)| ≤ δ + ε + f.u * (|P - Q| + δ + ε) := by
  rw [C01_relative_log_density_apart_partial lay hlay, hp, hq]
  obtain ⟨r, hr, -⟩ := f.round_le (prec1 hf) hlt (by have := emin_lt_emax hf; omega) (by omega)
  obtain ⟨hrep, he⟩ := near_round_add hf rp (rep_neg rq) (by rw [← sub_eq_add_neg]; exact hr)
  push_cast at he
  refine ⟨r, (sub_fin p q).trans hr, hrep, ?_⟩
  have hu := u_pos f
  have h1 : |((p : ℝ) - q) - (P - Q)| ≤ δ + ε := by
    have := abs_sub ((p : ℝ) - P) ((q : ℝ) - Q)
    rw [show ((p : ℝ) - q) - (P - Q) = ((p : ℝ) - P) - ((q : ℝ) - Q) by ring]
    linarith
  have h2 : |(p : ℝ) + -q| ≤ |P - Q| + δ + ε := by
    have := abs_add_le (((p : ℝ) - q) - (P - Q)) (P - Q)
    rw [show ((p : ℝ) - q) - (P - Q) + (P - Q) = p + -q by ring] at this
    linarith
  have h3 := mul_le_mul_of_nonneg_left h2 hu.le
  have h4 := abs_add_le ((r : ℝ) - (p + -q)) (((p : ℝ) - q) - (P - Q))
  rw [show (r : ℝ) - (p + -q) + (((p : ℝ) - q) - (P - Q)) = r - (P - Q) by ring] at h4
  linarith

/-- **C110** (exactness): nothing is lost in the subtraction when the two log-densities are within a
factor two of each other. -/
theorem C110_exact (lay : Layout) (hlay : lay.Apart) (addr : ℕ) (m : M) (b : B) (x : T) {p q : ℚ}
    (hp : logDensityWrtRoot m x = Flt.fin (f := f) (L := L) p) (rp : f.Representable p)
    (hq : logDensityWrtRoot b x = Flt.fin (f := f) (L := L) q) (rq : f.Representable q)
    (h1 : |p - q| ≤ |p|) (h2 : |p - q| ≤ |q|) :
    relLogDensity (F := Flt f L) lay addr m b x = Flt.fin (p - q) := by
  rw [C01_relative_log_density_apart_partial lay hlay, hp, hq]
  exact (sub_fin p q).trans (f.round_exact (rep_sub_sterbenz rp rq h1 h2))

/-- **C110** (antisymmetry): exchanging the two measures changes the sign of the computed value and
nothing else, for all values including infinities and NaN. -/
theorem C110_antisymm (lay lay' : Layout) (hlay : lay.Apart) (hlay' : lay'.Apart) (addr addr' : ℕ)
    (m : M) (b : B) (x : T) :
    relLogDensity (F := Flt f L) lay' addr' b m x = FloatOps.neg (relLogDensity lay addr m b x) := by
  rw [C01_relative_log_density_apart_partial lay hlay, C01_relative_log_density_apart_partial lay' hlay']
  exact Flt.sub_antisymm _ _

/-- **C110** (support): where the first measure has density zero and the second has not, the value is
`-∞`; where only the second has, `+∞`. -/
theorem C110_support (lay : Layout) (hlay : lay.Apart) (addr : ℕ) (m : M) (b : B) (x : T) (p : ℚ) :
    (logDensityWrtRoot m x = Flt.negInf (f := f) (L := L) → logDensityWrtRoot b x = Flt.fin (f := f) (L := L) p →
      relLogDensity (F := Flt f L) lay addr m b x = Flt.negInf) ∧
    (logDensityWrtRoot m x = Flt.fin (f := f) (L := L) p → logDensityWrtRoot b x = Flt.negInf (f := f) (L := L) →
      relLogDensity (F := Flt f L) lay addr m b x = Flt.posInf) := by
  rw [C01_relative_log_density_apart_partial lay hlay]
  exact ⟨fun h1 h2 => by rw [h1, h2]; rfl, fun h1 h2 => by rw [h1, h2]; rfl⟩

end

/-- **C110** (self): the relative log-density of a measure with respect to itself is exactly zero
wherever its log-density is finite. -/
theorem C110_self_partial [Measure M T] [HasLogDensity M T (Flt f L)] (lay : Layout) (hlay : lay.Apart)
    (addr : ℕ) (m : M) (x : T) {p : ℚ} (hp : logDensityWrtRoot m x = Flt.fin (f := f) (L := L) p) :
    relLogDensity (F := Flt f L) lay addr m m x = Flt.fin 0 := by
  rw [C01_relative_log_density_apart_partial lay hlay, hp]
  refine (sub_fin p p).trans ?_
  rw [sub_self]; exact f.round_exact f.rep_zero

/-- **C110** (self) fails off the support: the log-density of an Exponential with respect to itself at
`-1` is NaN. -/
theorem C110_self_violated (lay : Layout) (hlay : lay.Apart) (addr : ℕ) :
    ∃ d : Exponential (Flt f L), Exponential.new (Flt.fin 1) = .ok d ∧
      relLogDensity (F := Flt f L) lay addr d d (Flt.fin (-1)) = Flt.nan := by
  refine ⟨⟨Flt.fin 1⟩, rfl, ?_⟩
  rw [C01_relative_log_density_apart_partial lay hlay, exponential_flt, if_neg (by norm_num)]
  rfl

/-- **C110** (chain rule): the relative log-densities of `m` to `b` and of `b` to `c` add up to that of
`m` to `c` within three roundings of the two and one of the third. -/
theorem C110_chain (hf : f.Std) [Measure M T] [Measure B T] [Measure C T] [HasLogDensity M T (Flt f L)]
    [HasLogDensity B T (Flt f L)] [HasLogDensity C T (Flt f L)]
    (l₁ l₂ l₃ : Layout) (h₁ : l₁.Apart) (h₂ : l₂.Apart) (h₃ : l₃.Apart) (a₁ a₂ a₃ : ℕ)
    (m : M) (b : B) (c : C) (x : T) {p q s : ℚ}
    (hp : logDensityWrtRoot m x = Flt.fin (f := f) (L := L) p) (rp : f.Representable p)
    (hq : logDensityWrtRoot b x = Flt.fin (f := f) (L := L) q) (rq : f.Representable q)
    (hs : logDensityWrtRoot c x = Flt.fin (f := f) (L := L) s) (rs : f.Representable s)
    (hlt : |p - q| + |q - s| ≤ 2 ^ (f.emax - 2)) :
    ∃ r r' : ℚ, (relLogDensity (F := Flt f L) l₁ a₁ m b x +. relLogDensity l₂ a₂ b c x) = Flt.fin r ∧
      relLogDensity (F := Flt f L) l₃ a₃ m c x = Flt.fin r' ∧
      |(r : ℝ) - r'| ≤ 4 * f.u * (|(p : ℝ) - q| + |(q : ℝ) - s|) := by
  rw [C01_relative_log_density_apart_partial l₁ h₁, C01_relative_log_density_apart_partial l₂ h₂,
    C01_relative_log_density_apart_partial l₃ h₃, hp, hq, hs]
  have hr := emin_lt_emax hf
  have hpr := prec1 hf
  have hem := hf.emax_ge
  have hem' := hf.emin_le
  have b1 : |p - q| ≤ 2 ^ (f.emax - 2) := le_trans (by linarith [abs_nonneg (q - s)]) hlt
  have b2 : |q - s| ≤ 2 ^ (f.emax - 2) := le_trans (by linarith [abs_nonneg (p - q)]) hlt
  have b3 : |p - s| ≤ 2 ^ (f.emax - 2) := by
    have := abs_sub_le p q s
    linarith
  obtain ⟨u, hu, bu⟩ := f.round_le hpr b1 (by omega) (by omega)
  obtain ⟨v, hv, bv⟩ := f.round_le hpr b2 (by omega) (by omega)
  obtain ⟨w, hw, -⟩ := f.round_le hpr b3 (by omega) (by omega)
  obtain ⟨ru, eu⟩ := near_round_add hf rp (rep_neg rq) (by rw [← sub_eq_add_neg]; exact hu)
  obtain ⟨rv, ev⟩ := near_round_add hf rq (rep_neg rs) (by rw [← sub_eq_add_neg]; exact hv)
  obtain ⟨rw', ew⟩ := near_round_add hf rp (rep_neg rs) (by rw [← sub_eq_add_neg]; exact hw)
  have b4 : |u + v| ≤ 2 ^ (f.emax - 1) := by
    have e : (2 : ℚ) ^ (f.emax - 1) = 2 ^ (f.emax - 2) + 2 ^ (f.emax - 2) := by
      rw [show f.emax - 1 = (f.emax - 2) + 1 by ring, zpow_add₀ (by norm_num)]; ring
    have := abs_add_le u v
    rw [e]; linarith
  obtain ⟨t, ht, -⟩ := f.round_le hpr b4 (by omega) (by omega)
  obtain ⟨rt, et⟩ := near_round_add hf ru rv ht
  refine ⟨t, w, ?_, (sub_fin p s).trans hw, ?_⟩
  · show Flt.add f (Flt.sub f (.fin p) (.fin q)) (Flt.sub f (.fin q) (.fin s)) = .fin t
    rw [sub_fin, sub_fin, hu, hv]; exact ht
  push_cast at eu ev ew et
  have hup := u_pos f
  have hul := hf.u_le
  rw [← sub_eq_add_neg] at eu ev ew
  set A := |(p : ℝ) - q| with hA
  set D := |(q : ℝ) - s| with hD
  have hA0 : 0 ≤ A := abs_nonneg _
  have hD0 : 0 ≤ D := abs_nonneg _
  have c1 : |(p : ℝ) - s| ≤ A + D := abs_sub_le _ _ _
  have c2 : |(u : ℝ) + v| ≤ (1 + f.u) * (A + D) := by
    have k1 := abs_add_le ((u : ℝ) - (p - q)) ((p : ℝ) - q)
    have k2 := abs_add_le ((v : ℝ) - (q - s)) ((q : ℝ) - s)
    rw [sub_add_cancel] at k1 k2
    have := abs_add_le (u : ℝ) v
    rw [← hA] at k1
    rw [← hD] at k2
    nlinarith
  have c3 : f.u * |(u : ℝ) + v| ≤ f.u * ((1 + f.u) * (A + D)) := mul_le_mul_of_nonneg_left c2 hup.le
  have c4 : f.u * |(p : ℝ) - s| ≤ f.u * (A + D) := mul_le_mul_of_nonneg_left c1 hup.le
  have c5 : f.u * ((1 + f.u) * (A + D)) ≤ 2 * (f.u * (A + D)) := by
    have h1 : (1 + f.u) * (A + D) ≤ 2 * (A + D) :=
      mul_le_mul_of_nonneg_right (by norm_num at hul; linarith) (by linarith)
    have := mul_le_mul_of_nonneg_left h1 hup.le
    linarith
  have c6 : f.u * A + f.u * D = f.u * (A + D) := by ring
  have e1 := abs_le.mp et
  have e2 := abs_le.mp eu
  have e3 := abs_le.mp ev
  have e4 := abs_le.mp ew
  rw [abs_le]
  constructor <;> linarith [e1.1, e1.2, e2.1, e2.2, e3.1, e3.2, e4.1, e4.2]

/-- **C110** for two Normals: the logarithm of the likelihood ratio. -/
theorem C110_normal_ratio (hf : f.Std) (hL : L.Accurate f) (lay : Layout) (hlay : lay.Apart) (addr : ℕ)
    {μ σ ν τ x : ℚ} (hμ : f.Representable μ) (hσ : f.Representable σ) (hν : f.Representable ν)
    (hτ : f.Representable τ) (hx : f.Representable x) {d e : Normal (Flt f L)}
    (hd : Normal.new (Flt.fin μ) (Flt.fin σ) = .ok d) (he : Normal.new (Flt.fin ν) (Flt.fin τ) = .ok e)
    (b1 : |(x : ℝ) - μ| ≤ 2 ^ (f.emax - 1)) (b2 : |(x : ℝ) - ν| ≤ 2 ^ (f.emax - 1))
    (b3 : (((x : ℝ) - μ) / σ) ^ 2 + (((x : ℝ) - ν) / τ) ^ 2 ≤ 2 ^ (f.emax - 4)) :
    ∃ r : ℚ, relLogDensity (F := Flt f L) lay addr d e (Flt.fin x) = Flt.fin r ∧ f.Representable r ∧
      |(r : ℝ) - Real.log (gaussianPDFReal μ ((σ : ℝ) ^ 2).toNNReal x /
          gaussianPDFReal ν ((τ : ℝ) ^ 2).toNNReal x)| ≤
        70 * f.u * (2 + |Real.log σ| + |Real.log τ| + (((x : ℝ) - μ) / σ) ^ 2 / 2
          + (((x : ℝ) - ν) / τ) ^ 2 / 2) := by
  have hσ0 := (Normal.new_flt hd).1
  have hτ0 := (Normal.new_flt he).1
  have hσR : (0 : ℝ) < σ := by exact_mod_cast hσ0
  have hτR : (0 : ℝ) < τ := by exact_mod_cast hτ0
  have q1 := sq_nonneg (((x : ℝ) - μ) / σ)
  have q2 := sq_nonneg (((x : ℝ) - ν) / τ)
  obtain ⟨p, hp, rp, ep⟩ : ∃ p : ℚ, logDensityWrtRoot d (Flt.fin x) = Flt.fin (L := L) (f := f) p ∧
      f.Representable p ∧ |(p : ℝ) - Real.log (gaussianPDFReal μ ((σ : ℝ) ^ 2).toNNReal x)| ≤
        64 * f.u * (1 + |Real.log σ| + (((x : ℝ) - μ) / σ) ^ 2 / 2) := by
    rcases C88_normal hf hL hμ hσ hx hd with h | ⟨-, h | h⟩
    · exact h
    · exact absurd h (not_lt.mpr b1)
    · exact absurd h (not_lt.mpr (by linarith))
  obtain ⟨q, hq, rq, eq⟩ : ∃ p : ℚ, logDensityWrtRoot e (Flt.fin x) = Flt.fin (L := L) (f := f) p ∧
      f.Representable p ∧ |(p : ℝ) - Real.log (gaussianPDFReal ν ((τ : ℝ) ^ 2).toNNReal x)| ≤
        64 * f.u * (1 + |Real.log τ| + (((x : ℝ) - ν) / τ) ^ 2 / 2) := by
    rcases C88_normal hf hL hν hτ hx he with h | ⟨-, h | h⟩
    · exact h
    · exact absurd h (not_lt.mpr b2)
    · exact absurd h (not_lt.mpr (by linarith))
  have g1 : gaussianPDFReal μ ((σ : ℝ) ^ 2).toNNReal x ≠ 0 :=
    (gaussianPDFReal_pos _ _ _ (by simp [hσR.ne'])).ne'
  have g2 : gaussianPDFReal ν ((τ : ℝ) ^ 2).toNNReal x ≠ 0 :=
    (gaussianPDFReal_pos _ _ _ (by simp [hτR.ne'])).ne'
  rw [Real.log_div g1 g2]
  have l1 := log_rep_le hf hσ0 hσ
  have l2 := log_rep_le hf hτ0 hτ
  have n1 := abs_nonneg (Real.log σ)
  have n2 := abs_nonneg (Real.log τ)
  have hu := u_pos f
  have hul := hf.u_le
  have hPQ : |Real.log (gaussianPDFReal μ ((σ : ℝ) ^ 2).toNNReal x) -
      Real.log (gaussianPDFReal ν ((τ : ℝ) ^ 2).toNNReal x)| ≤
      |Real.log σ| + |Real.log τ| + (((x : ℝ) - μ) / σ) ^ 2 / 2 + (((x : ℝ) - ν) / τ) ^ 2 / 2 := by
    rw [log_gaussian_flt hσR, log_gaussian_flt hτR, abs_le]
    have a1 := abs_le.mp (le_refl |Real.log (σ : ℝ)|)
    have a2 := abs_le.mp (le_refl |Real.log (τ : ℝ)|)
    constructor <;> linarith [a1.1, a1.2, a2.1, a2.2]
  set P := Real.log (gaussianPDFReal μ ((σ : ℝ) ^ 2).toNNReal x) with hP
  set Q := Real.log (gaussianPDFReal ν ((τ : ℝ) ^ 2).toNNReal x) with hQ
  set A := (((x : ℝ) - μ) / σ) ^ 2 with hA
  set D := (((x : ℝ) - ν) / τ) ^ 2 with hD
  set X := 2 + |Real.log (σ : ℝ)| + |Real.log (τ : ℝ)| + A / 2 + D / 2 with hX
  have hX0 : 0 ≤ X := by rw [hX]; linarith
  have e64 : 64 * f.u * (1 + |Real.log (σ : ℝ)| + A / 2) + 64 * f.u * (1 + |Real.log (τ : ℝ)| + D / 2)
      = 64 * f.u * X := by rw [hX]; ring
  have uX : f.u * X ≤ 1 / 2 ^ 24 * X := mul_le_mul_of_nonneg_right hul hX0
  have hpq : |(p : ℝ) - q| ≤ 2 * X := by
    have k1 := abs_le.mp ep
    have k2 := abs_le.mp eq
    have k3 := abs_le.mp hPQ
    have k4 : |Real.log (σ : ℝ)| + |Real.log (τ : ℝ)| + A / 2 + D / 2 ≤ X := by rw [hX]; linarith
    norm_num at uX
    rw [abs_le]
    constructor <;> linarith [k1.1, k1.2, k2.1, k2.2, k3.1, k3.2]
  have hlt : |p - q| ≤ 2 ^ (f.emax - 1) := by
    refine rat_le ?_
    push_cast
    refine hpq.trans ?_
    have e1 : (2 : ℝ) ^ (f.emax - 1) = 8 * 2 ^ (f.emax - 4) := by
      rw [show f.emax - 1 = 3 + (f.emax - 4) by ring, zpow_add₀ (by norm_num)]; norm_num
    have hbig : (2 : ℝ) ^ (120 : ℤ) ≤ 2 ^ (f.emax - 4) :=
      zpow_le_zpow_right₀ (by norm_num) (by have := hf.emax_ge; omega)
    have : (10000 : ℝ) ≤ 2 ^ (120 : ℤ) := by norm_num
    rw [e1]
    linarith
  obtain ⟨r, hr, rr, er⟩ := C110_accurate hf lay hlay addr d e (Flt.fin x) hp rp ep hq rq eq hlt
  refine ⟨r, hr, rr, er.trans ?_⟩
  have k : f.u * (|P - Q| + 64 * f.u * (1 + |Real.log (σ : ℝ)| + A / 2)
      + 64 * f.u * (1 + |Real.log (τ : ℝ)| + D / 2)) ≤ f.u * (2 * X) := by
    refine mul_le_mul_of_nonneg_left ?_ hu.le
    norm_num at uX
    have k4 : |Real.log (σ : ℝ)| + |Real.log (τ : ℝ)| + A / 2 + D / 2 ≤ X := by rw [hX]; linarith
    linarith
  have : 0 ≤ f.u * X := by positivity
  linarith

/-- the hypotheses are met -/
example : ∃ L : Libm, L.Accurate f64 ∧ Layout.Apart ⟨0, 16, 16, 16, 32⟩ ∧
    (∃ d : Normal (Flt f64 L), Normal.new (Flt.fin 0) (Flt.fin 1) = .ok d) ∧
    (∃ e : Normal (Flt f64 L), Normal.new (Flt.fin 2) (Flt.fin 1) = .ok e) ∧
    ((((1 : ℚ) : ℝ) - (0 : ℚ)) / (1 : ℚ)) ^ 2 + ((((1 : ℚ) : ℝ) - (2 : ℚ)) / (1 : ℚ)) ^ 2 ≤
      (2 : ℝ) ^ (f64.emax - 4) := by
  obtain ⟨L, hL⟩ := exists_libm (f := f64) (.inl rfl)
  refine ⟨L, hL, by simp [Layout.Apart], ⟨_, rfl⟩, ⟨_, rfl⟩, ?_⟩
  have : (2 : ℝ) ^ (1 : ℤ) ≤ 2 ^ (f64.emax - 4) := zpow_le_zpow_right₀ (by norm_num) (by decide)
  norm_num at this ⊢
  linarith

end Verif
