import Verif.Props.DoubleBayes
import Verif.Props.DoubleSpecial
import Verif.Model.Combinators
import Verif.Model.Derived

/-!
# C117: products, weights and transformed measures in floating point
-/

namespace Verif
open FloatOps Format ProbabilityTheory Bayes

variable {f : Format} {L : Libm}

/-- one floating-point addition of two approximations -/
theorem flt_add_acc (hf : f.Std) {p q : ℚ} {P Q δ ε : ℝ} (rp : f.Representable p) (ep : |(p : ℝ) - P| ≤ δ)
    (rq : f.Representable q) (eq : |(q : ℝ) - Q| ≤ ε) (hlt : |p + q| ≤ 2 ^ (f.emax - 1)) :
    ∃ r : ℚ, Flt.add f (.fin p) (.fin q) = .fin r ∧ f.Representable r ∧
      |(r : ℝ) - (P + Q)| ≤ δ + ε + f.u * (|P + Q| + δ + ε) := by
  obtain ⟨r, hr, -⟩ := f.round_le (prec1 hf) hlt (by have := emin_lt_emax hf; omega) (by omega)
  obtain ⟨hrep, he⟩ := near_round_add hf rp rq hr
  refine ⟨r, hr, hrep, ?_⟩
  have hu := u_pos f
  have h1 : |((p : ℝ) + q) - (P + Q)| ≤ δ + ε := by
    have := abs_add_le ((p : ℝ) - P) ((q : ℝ) - Q)
    rw [show ((p : ℝ) + q) - (P + Q) = ((p : ℝ) - P) + ((q : ℝ) - Q) by ring]
    linarith
  have h2 : |(p : ℝ) + q| ≤ |P + Q| + δ + ε := by
    have := abs_add_le (((p : ℝ) + q) - (P + Q)) (P + Q)
    rw [show ((p : ℝ) + q) - (P + Q) + (P + Q) = p + q by ring] at this
    linarith
  have h3 := mul_le_mul_of_nonneg_left h2 hu.le
  have h4 := abs_add_le ((r : ℝ) - (p + q)) (((p : ℝ) + q) - (P + Q))
  rw [show (r : ℝ) - (p + q) + (((p : ℝ) + q) - (P + Q)) = r - (P + Q) by ring] at h4
  linarith

theorem flt_add_comm (a b : FVal) : Flt.add f a b = Flt.add f b a := by
  cases a with
  | nan => cases b <;> rfl
  | inf s =>
    cases b with
    | nan => rfl
    | inf t => cases s <;> cases t <;> rfl
    | fin q => rfl
  | fin p =>
    cases b with
    | nan => rfl
    | inf t => rfl
    | fin q => show f.round (p + q) = f.round (q + p); rw [add_comm]

section
variable {M N X Y : Type} [HasLogDensity M X (Flt f L)] [HasLogDensity N Y (Flt f L)]

/-- **C117** (product): the log-density of a product measure is as accurate as its parts, up to one
rounding; it is minus infinity when one part is minus infinity and the other a number or minus infinity;
exchanging the factors changes nothing. -/
theorem C117_product (hf : f.Std) (m : M) (n : N) (x : X) (y : Y) :
    (∀ (p q : ℚ) (P Q δ ε : ℝ), logDensityWrtRoot m x = Flt.fin (f := f) (L := L) p → f.Representable p →
      |(p : ℝ) - P| ≤ δ → logDensityWrtRoot n y = Flt.fin (f := f) (L := L) q → f.Representable q →
      |(q : ℝ) - Q| ≤ ε → |p + q| ≤ 2 ^ (f.emax - 1) →
      ∃ r : ℚ, logDensityWrtRoot (ProductMeasure.mk m n) (x, y) = Flt.fin (f := f) (L := L) r ∧
        f.Representable r ∧ |(r : ℝ) - (P + Q)| ≤ δ + ε + f.u * (|P + Q| + δ + ε)) ∧
    (logDensityWrtRoot m x = Flt.negInf (f := f) (L := L) →
      (logDensityWrtRoot n y = Flt.negInf (f := f) (L := L) ∨
        ∃ q : ℚ, logDensityWrtRoot n y = Flt.fin (f := f) (L := L) q) →
      logDensityWrtRoot (ProductMeasure.mk m n) (x, y) = Flt.negInf (f := f) (L := L)) ∧
    (logDensityWrtRoot (ProductMeasure.mk m n) (x, y) : Flt f L) =
      logDensityWrtRoot (ProductMeasure.mk n m) (y, x) := by
  refine ⟨?_, ?_, ?_⟩
  · intro p q P Q δ ε hp rp ep hq rq eq hlt
    show ∃ r : ℚ, Flt.add f (logDensityWrtRoot m x : Flt f L) (logDensityWrtRoot n y : Flt f L) = _ ∧ _
    rw [hp, hq]
    exact flt_add_acc hf rp ep rq eq hlt
  · intro h1 h2
    show Flt.add f (logDensityWrtRoot m x : Flt f L) (logDensityWrtRoot n y : Flt f L) = _
    rcases h2 with h2 | ⟨q, h2⟩ <;> rw [h1, h2] <;> rfl
  · exact flt_add_comm _ _

/-- **C117** (weights): a log-weight adds one rounding, and a log-weight of zero changes nothing. -/
theorem C117_weighted (hf : f.Std) (m : M) (x : X) :
    (∀ (w p : ℚ) (P δ : ℝ), f.Representable w → logDensityWrtRoot m x = Flt.fin (f := f) (L := L) p →
      f.Representable p → |(p : ℝ) - P| ≤ δ → |w + p| ≤ 2 ^ (f.emax - 1) →
      ∃ r : ℚ, logDensityWrtRoot (WeightedMeasure.mk m (Flt.fin w : Flt f L)) x = Flt.fin (f := f) (L := L) r ∧
        f.Representable r ∧ |(r : ℝ) - (w + P)| ≤ δ + f.u * (|w + P| + δ)) ∧
    (f.Valid (logDensityWrtRoot m x : Flt f L) →
      (logDensityWrtRoot (WeightedMeasure.mk m (Flt.fin 0 : Flt f L)) x : Flt f L) = logDensityWrtRoot m x) := by
  constructor
  · intro w p P δ rw' hp rp ep hlt
    show ∃ r : ℚ, Flt.add f (.fin w) (logDensityWrtRoot m x : Flt f L) = _ ∧ _
    rw [hp]
    obtain ⟨r, h1, h2, h3⟩ := flt_add_acc hf (P := (w : ℝ)) (δ := 0) rw' (by simp) rp ep hlt
    exact ⟨r, h1, h2, by simpa using h3⟩
  · intro hv
    have key : ∀ v : FVal, f.Valid v → Flt.add f (.fin 0) v = v := by
      intro v hv
      cases v with
      | nan => rfl
      | inf s => rfl
      | fin q =>
        show f.round (0 + q) = _
        rw [zero_add]
        exact f.round_exact hv
    exact key _ hv
end

/-! ### Transformed normal variables -/

theorem gauss_shift {μ σ x x' e : ℝ} (hσ : 0 < σ) (h : |x' - x| ≤ e) :
    |Real.log (gaussianPDFReal μ (σ ^ 2).toNNReal x') - Real.log (gaussianPDFReal μ (σ ^ 2).toNNReal x)| ≤
      e / σ * |(x - μ) / σ| + (e / σ) ^ 2 / 2 := by
  rw [log_gaussian_flt hσ, log_gaussian_flt hσ]
  set z := (x - μ) / σ with hz
  have hw : (x' - μ) / σ = z + (x' - x) / σ := by rw [hz]; ring
  rw [hw]
  set t := (x' - x) / σ with ht
  have htE : |t| ≤ e / σ := by
    rw [ht, abs_div, abs_of_pos hσ]
    gcongr
  generalize e / σ = E at htE
  have e1 : ∀ c d : ℝ, c - d - (z + t) ^ 2 / 2 - (c - d - z ^ 2 / 2) = -(t * z) - t ^ 2 / 2 := fun c d => by ring
  rw [e1]
  have h1 : |t * z| ≤ E * |z| := by rw [abs_mul]; gcongr
  have h2 : t ^ 2 ≤ E ^ 2 := by rw [← sq_abs t]; gcongr
  have h3 := sq_nonneg t
  have h4 := abs_le.mp h1
  exact abs_le.mpr ⟨by linarith, by linarith⟩

theorem push_arith {u T E w G J p j : ℝ} (hu : 0 < u) (hul : u ≤ 1 / 2 ^ 24) (hT : 1 ≤ T) (hE0 : 0 ≤ E)
    (hE1 : E ≤ 1) (hw0 : 0 ≤ w) (hwT : w ≤ T) (e1 : |p - G| ≤ 128 * (u * T) + E * (1 + w))
    (e2 : |j - J| ≤ 2 * (u * T)) (hG : |G + J| ≤ 3 * T) :
    |p + j| ≤ 16 * T ∧
    u * (|G + J| + (128 * (u * T) + E * (1 + w)) + 2 * (u * T)) ≤ 4 * (u * T) + E * (1 + w) := by
  have hu1 : u ≤ 1 / 1000 := hul.trans (by norm_num)
  have huT : 0 ≤ u * T := by positivity
  have huT1 : u * T ≤ T / 1000 := by nlinarith
  have h0 : 0 ≤ E * (1 + w) := by positivity
  have hEz : E * (1 + w) ≤ 2 * T := by
    have : E * (1 + w) ≤ 1 * (1 + w) := by gcongr
    linarith
  constructor
  · have h1 := abs_add_le ((p - G) + (j - J)) (G + J)
    rw [show (p - G) + (j - J) + (G + J) = p + j by ring] at h1
    have h2 := abs_add_le (p - G) (j - J)
    linarith
  · have h5 : u * (E * (1 + w)) ≤ 1 * (E * (1 + w)) := mul_le_mul_of_nonneg_right (by linarith) h0
    have h6 : u * (|G + J| + 130 * (u * T)) ≤ u * (4 * T) := by
      gcongr
      linarith
    linarith

/-- the normal log-density at a point known up to `e`, plus the logarithm of a Jacobian -/
theorem push_normal (hf : f.Std) (hL : L.Accurate f) {μ σ x' j : ℚ} {x J e : ℝ} (hμ : f.Representable μ)
    (hσ : f.Representable σ) (hx' : f.Representable x') {d : Normal (Flt f L)}
    (h : Normal.new (Flt.fin μ) (Flt.fin σ) = .ok d) (he : |(x' : ℝ) - x| ≤ e) (hE : e / σ ≤ 1)
    (hz : |(x - μ) / σ| ≤ 2 ^ 45) (hd : |x - μ| ≤ 2 ^ 99) (he2 : e ≤ 2 ^ 99) (hj : f.Representable j)
    (hJ : |(j : ℝ) - J| ≤ 2 * f.u * |J|) (hJ2 : |J| ≤ 2 ^ 20) :
    ∃ r : ℚ, Flt.add f (logDensityWrtRoot d (Flt.fin x' : Flt f L) : Flt f L) (.fin j) = .fin r ∧
      f.Representable r ∧
      |(r : ℝ) - (Real.log (gaussianPDFReal μ ((σ : ℝ) ^ 2).toNNReal x) + J)| ≤
        140 * f.u * (1 + |Real.log σ| + |J| + ((x - μ) / σ) ^ 2) + 2 * (e / σ) * (1 + |(x - μ) / σ|) := by
  have hσ0 := (Normal.new_flt h).1
  have hσR : (0 : ℝ) < σ := by exact_mod_cast hσ0
  have hsh := gauss_shift (μ := μ) hσR he
  have hlog := log_rep_le hf hσ0 hσ
  have hsz := log_gaussian_size (μ := μ) (x := x) hσR
  have hu := u_pos f
  have hul := hf.u_le
  have he0 : 0 ≤ e := (abs_nonneg _).trans he
  have hE0 : 0 ≤ e / σ := div_nonneg he0 hσR.le
  have hbig : (2 : ℝ) ^ (120 : ℤ) ≤ 2 ^ (f.emax - 4) :=
    zpow_le_zpow_right₀ (by norm_num) (by have := hf.emax_ge; omega)
  have hbig1 : (2 : ℝ) ^ (120 : ℤ) ≤ 2 ^ (f.emax - 1) :=
    zpow_le_zpow_right₀ (by norm_num) (by have := hf.emax_ge; omega)
  set z := (x - μ) / σ with hzdef
  set t := ((x' : ℝ) - x) / σ with ht
  have hz' : ((x' : ℝ) - μ) / σ = z + t := by rw [hzdef, ht]; ring
  have htE : |t| ≤ e / σ := by
    rw [ht, abs_div, abs_of_pos hσR]
    gcongr
  have ht1 : |t| ≤ 1 := htE.trans hE
  have ht2 : t ^ 2 ≤ 1 := by rw [← sq_abs]; nlinarith [abs_nonneg t]
  have hzt : (z + t) ^ 2 ≤ 2 * z ^ 2 + 2 := by nlinarith [sq_nonneg (z - t)]
  have hz2 : z ^ 2 ≤ 2 ^ 90 := by
    rw [← sq_abs]
    calc |z| ^ 2 ≤ (2 ^ 45) ^ 2 := by gcongr
      _ = 2 ^ 90 := by norm_num
  rcases C88_normal hf hL hμ hσ hx' h with ⟨p, hp, rp, ep⟩ | ⟨-, hbad⟩
  swap
  · exfalso
    rcases hbad with hbad | hbad
    · have : |(x' : ℝ) - μ| ≤ |(x' : ℝ) - x| + |x - μ| := by
        have := abs_add_le ((x' : ℝ) - x) (x - μ)
        rwa [sub_add_sub_cancel] at this
      norm_num at hbig1 hd he2
      linarith
    · rw [hz'] at hbad
      norm_num at hbig hz2
      linarith
  rw [hz'] at ep
  set G := Real.log (gaussianPDFReal μ ((σ : ℝ) ^ 2).toNNReal x) with hG
  set E := e / σ with hEdef
  set T := 1 + |Real.log (σ : ℝ)| + |J| + z ^ 2 with hT
  have hls := abs_nonneg (Real.log (σ : ℝ))
  have hJ0 := abs_nonneg J
  have hz0 := abs_nonneg z
  have hzz := sq_nonneg z
  have hT1 : 1 ≤ T := by linarith
  have hEz : 0 ≤ E * |z| := mul_nonneg hE0 hz0
  have hE2 : E ^ 2 ≤ E := by nlinarith
  have huT : 0 ≤ f.u * T := by positivity
  -- error of the normal part
  have e1 : |(p : ℝ) - G| ≤ 128 * (f.u * T) + E * (1 + |z|) := by
    have h1 := abs_add_le ((p : ℝ) - Real.log (gaussianPDFReal μ ((σ : ℝ) ^ 2).toNNReal x'))
      (Real.log (gaussianPDFReal μ ((σ : ℝ) ^ 2).toNNReal x') - G)
    rw [sub_add_sub_cancel] at h1
    have h2 : 64 * f.u * (1 + |Real.log (σ : ℝ)| + (z + t) ^ 2 / 2) ≤ 64 * f.u * (2 * T) := by
      gcongr
      linarith
    linarith
  have e2 : |(j : ℝ) - J| ≤ 2 * (f.u * T) := by
    refine hJ.trans ?_
    have : f.u * |J| ≤ f.u * T := by gcongr; linarith
    linarith
  have hGJ : |G + J| ≤ 3 * T := (abs_add_le _ _).trans (by linarith)
  have h1 : |z| ≤ T := by nlinarith [sq_abs z, sq_nonneg (|z| - 1)]
  obtain ⟨a1, a2⟩ := push_arith hu hul hT1 hE0 hE hz0 h1 e1 e2 hGJ
  have hlt : |p + j| ≤ 2 ^ (f.emax - 1) := by
    apply rat_le
    push_cast
    refine a1.trans (le_trans ?_ hbig1)
    have h2 : (16 : ℝ) * (1 + 1100 + 2 ^ 20 + 2 ^ 90) ≤ 2 ^ (120 : ℤ) := by norm_num
    refine le_trans ?_ h2
    rw [hT]
    gcongr
  obtain ⟨r, h1, h2, h3⟩ := flt_add_acc hf rp e1 hj e2 hlt
  refine ⟨r, by rw [hp]; exact h1, h2, h3.trans ?_⟩
  rw [mul_assoc 140, mul_assoc 2]
  linarith

/-- **C117** (linear maps): the log-density at `y` of a normal variable pushed forward by `x ↦ a x + b` is a
number close to the logarithm of the normal density with mean `a μ + b` and standard deviation `|a| σ`.
The second part of the bound comes from rounding the preimage `(y - b) / a`: it is large only when the
preimage is far from zero compared with the standard deviation. -/
theorem C117_linear (hf : f.Std) (hL : L.Accurate f) {μ σ a b y : ℚ} (hμ : f.Representable μ)
    (hσ : f.Representable σ) (ha : f.Representable a) (ha0 : a ≠ 0) (hb : f.Representable b)
    (hy : f.Representable y) {d : Normal (Flt f L)} (h : Normal.new (Flt.fin μ) (Flt.fin σ) = .ok d)
    (hyb : |(y : ℝ) - b| ≤ 2 ^ 98) (hx : |((y : ℝ) - b) / a| ≤ 2 ^ 98) (hxμ : |((y : ℝ) - b) / a - μ| ≤ 2 ^ 99)
    (hz : |(((y : ℝ) - b) / a - μ) / σ| ≤ 2 ^ 45)
    (hE : (3 * f.u * |((y : ℝ) - b) / a| + 2 ^ f.emin) / σ ≤ 1) :
    ∃ r : ℚ, logDensityWrtRoot
        ((PushforwardMeasure.mk d (Transform.linearT (Flt.fin a) (Flt.fin b)).forward
          (Transform.linearT (Flt.fin a) (Flt.fin b)).inverse
          (Transform.linearT (Flt.fin a) (Flt.fin b)).logAbsDetJacobian) : PushforwardMeasure (Normal (Flt f L)) (Flt f L))
        (Flt.fin y) = Flt.fin (f := f) (L := L) r ∧ f.Representable r ∧
      |(r : ℝ) - Real.log (gaussianPDFReal (a * μ + b) ((|(a : ℝ)| * σ) ^ 2).toNNReal y)| ≤
        140 * f.u * (1 + |Real.log σ| + |Real.log (|(a : ℝ)|)| + ((((y : ℝ) - b) / a - μ) / σ) ^ 2) +
        2 * ((3 * f.u * |((y : ℝ) - b) / a| + 2 ^ f.emin) / σ) * (1 + |(((y : ℝ) - b) / a - μ) / σ|) := by
  have hσ0 := (Normal.new_flt h).1
  have hσR : (0 : ℝ) < σ := by exact_mod_cast hσ0
  have haR : (a : ℝ) ≠ 0 := by exact_mod_cast ha0
  have haP : 0 < |(a : ℝ)| := abs_pos.mpr haR
  have haQ : 0 < |a| := abs_pos.mpr ha0
  have hu := u_pos f
  have hul := hf.u_le
  have hη : (0 : ℝ) < 2 ^ f.emin := by positivity
  have harep : f.Representable |a| := by
    rcases abs_choice a with h | h <;> rw [h]
    · exact ha
    · exact rep_neg ha
  -- the preimage
  obtain ⟨s, hs⟩ := round_small hf (q := y - b) (rat_le (by push_cast; refine hyb.trans ?_; norm_num))
  obtain ⟨rs, es⟩ := near_round_add hf hy (rep_neg hb) (by rw [← sub_eq_add_neg]; exact hs)
  push_cast at es
  rw [← sub_eq_add_neg] at es
  have hsx : |(s : ℝ) / a - ((y : ℝ) - b) / a| ≤ f.u * |((y : ℝ) - b) / a| := by
    rw [← sub_div, abs_div, abs_div, ← mul_div_assoc]
    gcongr
  set x := ((y : ℝ) - b) / a with hxdef
  have hsa : |(s : ℝ) / a| ≤ (1 + f.u) * |x| := by
    have := abs_add_le ((s : ℝ) / a - x) x
    rw [sub_add_cancel] at this
    linarith
  have hx0 := abs_nonneg x
  have hu1 : f.u ≤ 1 := hul.trans (by norm_num)
  obtain ⟨x', hx'⟩ := round_small hf (q := s / a) (rat_le (by
    push_cast
    refine hsa.trans ?_
    have h1 : (1 + f.u) * |x| ≤ 2 * 2 ^ 98 := by gcongr; linarith
    refine h1.trans ?_
    norm_num))
  obtain ⟨rx', ex'⟩ := near_round hf hx'
  push_cast at ex'
  have he : |(x' : ℝ) - x| ≤ 3 * f.u * |x| + 2 ^ f.emin := by
    have h1 := abs_add_le ((x' : ℝ) - s / a) ((s : ℝ) / a - x)
    rw [sub_add_sub_cancel] at h1
    have h2 : f.u * |(s : ℝ) / a| ≤ f.u * ((1 + f.u) * |x|) := by gcongr
    have h3 : f.u * (f.u * |x|) ≤ f.u * (1 * |x|) := by gcongr
    linarith
  have he2 : 3 * f.u * |x| + 2 ^ f.emin ≤ (2 : ℝ) ^ 99 := by
    have h1 : (2 : ℝ) ^ f.emin ≤ 1 := hf.eta_le.trans (pow_le_one₀ hu.le hu1)
    have h2 : 3 * f.u * |x| ≤ 1 * |x| := by
      gcongr
      linarith [hul.trans (by norm_num : (1 : ℝ) / 2 ^ 24 ≤ 1 / 3)]
    norm_num at hx ⊢
    linarith
  -- the Jacobian
  obtain ⟨l, hl, hln, -⟩ := near_ln_rep hf hL haQ harep
  have hlog := log_rep_le hf haQ harep
  rw [Rat.cast_abs] at hln hlog
  obtain ⟨r, h1, h2, h3⟩ := push_normal hf hL (j := -l) (J := -Real.log |(a : ℝ)|) hμ hσ rx' h he hE hz hxμ he2
    (rep_neg hln.rep) (by
      rw [abs_neg]
      have := hln.neg.err
      exact this) (by rw [abs_neg]; refine hlog.trans (by norm_num))
  refine ⟨r, ?_, h2, ?_⟩
  · refine Eq.trans ?_ h1
    show Flt.add f (logDensityWrtRoot d (Flt.div f (Flt.sub f (.fin y) (.fin b)) (.fin a) : Flt f L) : Flt f L)
      (Flt.neg (Flt.ln L (.fin |a|))) = _
    rw [hl, sub_fin, hs]
    have : Flt.div f (.fin s) (.fin a) = .fin x' := by simp only [Flt.div, if_neg ha0]; exact hx'
    rw [this]
    rfl
  · have e : Real.log (gaussianPDFReal (a * μ + b) ((|(a : ℝ)| * σ) ^ 2).toNNReal y)
        = Real.log (gaussianPDFReal μ ((σ : ℝ) ^ 2).toNNReal x) + -Real.log |(a : ℝ)| := by
      rw [log_gaussian_flt (by positivity), log_gaussian_flt hσR, Real.log_mul haP.ne' hσR.ne']
      have e1 : (((y : ℝ) - (a * μ + b)) / (|(a : ℝ)| * σ)) ^ 2 = ((x - μ) / σ) ^ 2 := by
        rw [div_pow, mul_pow, sq_abs, hxdef]
        field_simp
        ring
      rw [e1]
      ring
    rw [e]
    rw [abs_neg] at h3
    exact h3

/-- **C117** (log-normal): the log-density at `y > 0` of the exponential of a normal variable. -/
theorem C117_log_normal (hf : f.Std) (hL : L.Accurate f) {μ σ y : ℚ} (hμ : f.Representable μ)
    (hσ : f.Representable σ) (hy : f.Representable y) (hy0 : 0 < y) {d : Normal (Flt f L)}
    (h : Normal.new (Flt.fin μ) (Flt.fin σ) = .ok d) (hxμ : |Real.log y - μ| ≤ 2 ^ 99)
    (hz : |(Real.log y - μ) / σ| ≤ 2 ^ 45) (hE : 2 * f.u * |Real.log y| / σ ≤ 1) :
    ∃ r : ℚ, logDensityWrtRoot
        ((PushforwardMeasure.mk d (Transform.expT (F := Flt f L)).forward (Transform.expT (F := Flt f L)).inverse
          (Transform.expT (F := Flt f L)).logAbsDetJacobian) : PushforwardMeasure (Normal (Flt f L)) (Flt f L))
        (Flt.fin y) = Flt.fin (f := f) (L := L) r ∧ f.Representable r ∧
      |(r : ℝ) - Real.log (gaussianPDFReal μ ((σ : ℝ) ^ 2).toNNReal (Real.log y) / y)| ≤
        140 * f.u * (1 + |Real.log σ| + |Real.log y| + ((Real.log y - μ) / σ) ^ 2) +
        2 * (2 * f.u * |Real.log y| / σ) * (1 + |(Real.log y - μ) / σ|) := by
  have hσ0 := (Normal.new_flt h).1
  have hσR : (0 : ℝ) < σ := by exact_mod_cast hσ0
  have hyR : (0 : ℝ) < y := by exact_mod_cast hy0
  have hu := u_pos f
  have hul := hf.u_le
  obtain ⟨l, hl, hln, -⟩ := near_ln_rep hf hL hy0 hy
  have hlog := log_rep_le hf hy0 hy
  have he2 : 2 * f.u * |Real.log y| ≤ (2 : ℝ) ^ 99 := by
    have h1 : 2 * f.u * |Real.log y| ≤ 1 * 1100 := by
      gcongr
      linarith [hul.trans (by norm_num : (1 : ℝ) / 2 ^ 24 ≤ 1 / 3)]
    refine h1.trans (by norm_num)
  obtain ⟨r, h1, h2, h3⟩ := push_normal hf hL (j := -l) (J := -Real.log y) hμ hσ hln.rep h hln.err hE hz hxμ he2
    (rep_neg hln.rep) (by
      rw [abs_neg]
      exact hln.neg.err) (by rw [abs_neg]; refine hlog.trans (by norm_num))
  refine ⟨r, ?_, h2, ?_⟩
  · refine Eq.trans ?_ h1
    show Flt.add f (logDensityWrtRoot d (Flt.ln L (.fin y) : Flt f L) : Flt f L) (Flt.neg (Flt.ln L (.fin y))) = _
    rw [hl]
    rfl
  · rw [Real.log_div (gaussianPDFReal_pos _ _ _ (by simp [hσR.ne'])).ne' hyR.ne', sub_eq_add_neg (Real.log _)]
    rw [abs_neg] at h3
    exact h3

theorem round_one_low : f32.round (67108867/67108864) = .fin 1 := by
  have := f32.round_eval (q := 67108867/67108864) 0 8388608 (by norm_num [abs_of_pos]) (by norm_num [abs_of_pos])
    (by norm_num [f32]) (by norm_num [f32, abs_le]) (.inl (by norm_num [f32, abs_lt])) (by norm_num [f32, abs_lt])
  rw [this]; norm_num [f32]

theorem round_one_high : f32.round (33554435/33554432) = .fin (8388609/8388608) := by
  have := f32.round_eval (q := 33554435/33554432) 0 8388609 (by norm_num [abs_of_pos]) (by norm_num [abs_of_pos])
    (by norm_num [f32]) (by norm_num [f32, abs_le]) (.inl (by norm_num [f32, abs_lt])) (by norm_num [f32, abs_lt])
  rw [this]; norm_num [f32]

/-- **C117**: grouping matters in floating point.  Three copies of Lebesgue measure with log-weights
`1, 3/2^26, 3/2^26`: in single precision the two ways of nesting the product return different numbers. -/
theorem C117_grouping_violated :
    ∃ (a b c : WeightedMeasure (LebesgueMeasure (Flt f32 L)) (Flt f32 L)) (x : Flt f32 L) (v w : ℚ), v ≠ w ∧
      logDensityWrtRoot (ProductMeasure.mk (ProductMeasure.mk a b) c) ((x, x), x) = Flt.fin (f := f32) (L := L) v ∧
      logDensityWrtRoot (ProductMeasure.mk a (ProductMeasure.mk b c)) (x, (x, x)) = Flt.fin (f := f32) (L := L) w := by
  have hf : f32.Std := .inr rfl
  have r1 : f32.round 1 = .fin 1 := round_one hf
  have r2 : f32.round (3/67108864) = .fin (3/67108864) := f32.round_exact (by
    have := hf.rep_of 3 (-26) (by norm_num) (by norm_num) (by norm_num)
    norm_num at this ⊢; exact this)
  have r3 : f32.round (3/33554432) = .fin (3/33554432) := f32.round_exact (by
    have := hf.rep_of 3 (-25) (by norm_num) (by norm_num) (by norm_num)
    norm_num at this ⊢; exact this)
  have e1 : Flt.add f32 (.fin 1) (.fin 0) = .fin 1 := by
    show f32.round (1 + 0) = _
    rw [add_zero, r1]
  have e2 : Flt.add f32 (.fin (3/67108864)) (.fin 0) = .fin (3/67108864) := by
    show f32.round (3/67108864 + 0) = _
    rw [add_zero, r2]
  have e3 : Flt.add f32 (.fin 1) (.fin (3/67108864)) = .fin 1 := by
    show f32.round (1 + 3/67108864) = _
    rw [show (1 + 3/67108864 : ℚ) = 67108867/67108864 by norm_num, round_one_low]
  have e4 : Flt.add f32 (.fin (3/67108864)) (.fin (3/67108864)) = .fin (3/33554432) := by
    show f32.round (3/67108864 + 3/67108864) = _
    rw [show (3/67108864 + 3/67108864 : ℚ) = 3/33554432 by norm_num, r3]
  have e5 : Flt.add f32 (.fin 1) (.fin (3/33554432)) = .fin (8388609/8388608) := by
    show f32.round (1 + 3/33554432) = _
    rw [show (1 + 3/33554432 : ℚ) = 33554435/33554432 by norm_num, round_one_high]
  refine ⟨⟨{}, Flt.fin 1⟩, ⟨{}, Flt.fin (3/67108864)⟩, ⟨{}, Flt.fin (3/67108864)⟩, Flt.fin 0, 1,
    8388609/8388608, by norm_num, ?_, ?_⟩
  · show Flt.add f32 (Flt.add f32 (Flt.add f32 (.fin 1) (.fin 0)) (Flt.add f32 (.fin (3/67108864)) (.fin 0)))
      (Flt.add f32 (.fin (3/67108864)) (.fin 0)) = _
    rw [e1, e2, e3, e3]
  · show Flt.add f32 (Flt.add f32 (.fin 1) (.fin 0)) (Flt.add f32 (Flt.add f32 (.fin (3/67108864)) (.fin 0))
      (Flt.add f32 (.fin (3/67108864)) (.fin 0))) = _
    rw [e1, e2, e4, e5]

/-- the hypotheses of the linear map are met -/
example : ∃ (μ σ a b y : ℚ) (d : Normal (Flt f64 L)), f64.Representable μ ∧ f64.Representable σ ∧
    f64.Representable a ∧ a ≠ 0 ∧ f64.Representable b ∧ f64.Representable y ∧
    Normal.new (Flt.fin μ) (Flt.fin σ) = .ok d ∧ |((y : ℝ) - b) / a| ≤ 2 ^ 98 ∧
    (3 * f64.u * |((y : ℝ) - b) / a| + 2 ^ f64.emin) / σ ≤ 1 := by
  have hf : f64.Std := .inl rfl
  refine ⟨0, 1, 2, 1, 1, ⟨Flt.fin 0, Flt.fin 1⟩, rep_zero _, hf.rep_one, hf.rep_two, by norm_num, hf.rep_one,
    hf.rep_one, ?_, by norm_num, ?_⟩
  · show (if Flt.lt (.fin 0) (.fin 1) = true then _ else _) = _
    simp [Flt.lt]
  · norm_num
    decide

end Verif
