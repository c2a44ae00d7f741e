import Verif.Props.Identifiable
import Verif.Props.Likelihood
import Verif.Props.Sufficient
import Verif.Props.CumulantsDiscrete
import Verif.Props.SumsDiscrete
import Verif.Spec.Concave

/-!
# C132: log-likelihoods are concave in the natural parameters
-/

namespace Verif
open FloatOps XReal Spec MeasureTheory ExponentialFamily

theorem integrable_density {Q X α : Type} [MeasurableSpace α] [HasLogDensity Q X XReal] {μ : MeasureTheory.Measure α}
    {emb : α → X} {q : Q} (h : RegularLaw μ emb q) :
    Integrable (fun a => density (logDensityWrtRoot q (emb a) : XReal)) μ ∧
      ∫ a, density (logDensityWrtRoot q (emb a) : XReal) ∂μ = 1 := by
  have hnn : 0 ≤ᵐ[μ] fun a => density (logDensityWrtRoot q (emb a) : XReal) :=
    Filter.Eventually.of_forall fun a => density_nonneg_of_proper (h.proper a)
  have h1 : (∫⁻ a, ENNReal.ofReal (density (logDensityWrtRoot q (emb a) : XReal)) ∂μ) = 1 := h.mass_one
  refine ⟨⟨h.measurable.aestronglyMeasurable, ?_⟩, ?_⟩
  · rw [hasFiniteIntegral_iff_ofReal hnn, h1]; exact ENNReal.one_lt_top
  · rw [integral_eq_lintegral_of_nonneg_ae hnn h.measurable.aestronglyMeasurable, h1, ENNReal.toReal_one]

theorem exp_between_le {t u w : ℝ} (h0 : 0 ≤ t) (h1 : t ≤ 1) :
    Real.exp ((1 - t) * u + t * w) ≤ (1 - t) * Real.exp u + t * Real.exp w := by
  have := convexOn_exp.2 (Set.mem_univ u) (Set.mem_univ w) (sub_nonneg.2 h1) h0 (by ring)
  simpa [smul_eq_mul] using this

theorem exp_between_lt {t u w : ℝ} (h0 : 0 < t) (h1 : t < 1) (hne : u ≠ w) :
    Real.exp ((1 - t) * u + t * w) < (1 - t) * Real.exp u + t * Real.exp w := by
  have := strictConvexOn_exp.2 (Set.mem_univ u) (Set.mem_univ w) hne (sub_pos.2 h1) h0 (by ring)
  simpa [smul_eq_mul] using this

/-- The normalising constant of the geometric mean of two densities. -/
theorem mix_const {M X α : Type} [MeasurableSpace α] [HasLogDensity M X XReal] {μ : MeasureTheory.Measure α}
    {emb : α → X} {m₀ m₁ m : M} (r₀ : RegularLaw μ emb m₀) (r₁ : RegularLaw μ emb m₁) (r : RegularLaw μ emb m)
    {S : α → Prop} {u₀ u₁ : α → ℝ} {t c : ℝ} (h0 : 0 ≤ t) (h1 : t ≤ 1)
    (k₀ : ∀ a, S a → (logDensityWrtRoot m₀ (emb a) : XReal) = fin (u₀ a))
    (k₁ : ∀ a, S a → (logDensityWrtRoot m₁ (emb a) : XReal) = fin (u₁ a))
    (k : ∀ a, S a → (logDensityWrtRoot m (emb a) : XReal) = fin ((1 - t) * u₀ a + t * u₁ a + c))
    (n₀ : ∀ a, ¬ S a → (logDensityWrtRoot m₀ (emb a) : XReal) = ninf)
    (n₁ : ∀ a, ¬ S a → (logDensityWrtRoot m₁ (emb a) : XReal) = ninf)
    (n : ∀ a, ¬ S a → (logDensityWrtRoot m (emb a) : XReal) = ninf) :
    0 ≤ c ∧ (law μ emb m₀ ≠ law μ emb m₁ → 0 < t → t < 1 → 0 < c) := by
  obtain ⟨i₀, e₀⟩ := integrable_density r₀
  obtain ⟨i₁, e₁⟩ := integrable_density r₁
  obtain ⟨i, e⟩ := integrable_density r
  have hnn : ∀ a, 0 ≤ (1 - t) * density (logDensityWrtRoot m₀ (emb a) : XReal)
      + t * density (logDensityWrtRoot m₁ (emb a) : XReal)
      - Real.exp (-c) * density (logDensityWrtRoot m (emb a) : XReal) := by
    intro a
    by_cases hs : S a
    · rw [k₀ a hs, k₁ a hs, k a hs, density_fin, density_fin, density_fin, ← Real.exp_add]
      have := exp_between_le (u := u₀ a) (w := u₁ a) h0 h1
      have e : -c + ((1 - t) * u₀ a + t * u₁ a + c) = (1 - t) * u₀ a + t * u₁ a := by ring
      rw [e]; linarith
    · rw [n₀ a hs, n₁ a hs, n a hs]; simp
  have hi := ((i₀.const_mul (1 - t)).add (i₁.const_mul t)).sub (i.const_mul (Real.exp (-c)))
  have hint : ∫ a, ((1 - t) * density (logDensityWrtRoot m₀ (emb a) : XReal)
      + t * density (logDensityWrtRoot m₁ (emb a) : XReal)
      - Real.exp (-c) * density (logDensityWrtRoot m (emb a) : XReal)) ∂μ = 1 - Real.exp (-c) := by
    have hadd : Integrable (fun a => (1 - t) * density (logDensityWrtRoot m₀ (emb a) : XReal)
        + t * density (logDensityWrtRoot m₁ (emb a) : XReal)) μ := (i₀.const_mul (1 - t)).add (i₁.const_mul t)
    rw [integral_sub hadd (i.const_mul _), integral_add (i₀.const_mul _) (i₁.const_mul _), integral_const_mul, integral_const_mul, integral_const_mul,
      e₀, e₁, e]
    ring
  have hc : 0 ≤ c := by
    have := integral_nonneg_of_ae (μ := μ) (Filter.Eventually.of_forall hnn)
    rw [hint] at this
    have : Real.exp (-c) ≤ Real.exp 0 := by rw [Real.exp_zero]; linarith
    have := Real.exp_le_exp.1 this
    linarith
  refine ⟨hc, fun hl ht0 ht1 => ?_⟩
  by_contra hcon
  have hc0 : c = 0 := le_antisymm (not_lt.1 hcon) hc
  rw [hc0, neg_zero, Real.exp_zero, sub_self] at hint
  rw [hc0, neg_zero, Real.exp_zero] at hnn hi
  have hz := (integral_eq_zero_iff_of_nonneg_ae (Filter.Eventually.of_forall hnn) hi).1 hint
  refine hl (withDensity_congr_ae ?_)
  filter_upwards [hz] with a ha
  by_cases hs : S a
  · have hne : u₀ a = u₁ a := by
      by_contra hne
      have := exp_between_lt ht0 ht1 hne
      simp only [k₀ a hs, k₁ a hs, k a hs, density_fin, hc0, add_zero, Pi.zero_apply, one_mul] at ha
      linarith
    rw [k₀ a hs, k₁ a hs, hne]
  · rw [n₀ a hs, n₁ a hs]

theorem dot_between (t : ℝ) (η₀ η₁ T : List ℝ) (h : η₀.length = η₁.length) :
    (List.zipWith (· * ·) (between t η₀ η₁) T).sum
      = (1 - t) * (List.zipWith (· * ·) η₀ T).sum + t * (List.zipWith (· * ·) η₁ T).sum := by
  induction η₀ generalizing η₁ T with
  | nil => cases η₁ with
    | nil => simp [between]
    | cons b η₁ => simp at h
  | cons a η₀ ih => cases η₁ with
    | nil => simp at h
    | cons b η₁ => cases T with
      | nil => simp [between]
      | cons x T =>
        have := ih η₁ T (by simpa using h)
        simp only [between, List.zipWith_cons_cons, List.sum_cons] at this ⊢
        rw [this]; ring

/-- Concavity of one observation's log-likelihood `term`, with an explicit gap. -/
def TermConcave {D X α : Type} [ExponentialFamily D X XReal] (accepted : D → Prop) (emb : α → X) (S : α → Prop)
    (term : D → X → XReal) (w : α → ℝ) : Prop :=
  ∀ d₀ d₁ : D, accepted d₀ → accepted d₁ → ∀ t : ℝ, 0 ≤ t → t ≤ 1 →
    ∃ (η₀ η₁ : List ℝ) (d : D) (c : ℝ), toNatural d₀ = η₀.map fin ∧ toNatural d₁ = η₁.map fin ∧
      accepted d ∧ toNatural d = (between t η₀ η₁).map fin ∧ 0 ≤ c ∧ (d₀ ≠ d₁ → 0 < t → t < 1 → 0 < c) ∧
      ∀ a, S a → ∃ x₀ x₁ : ℝ, term d₀ (emb a) = fin x₀ ∧ term d₁ (emb a) = fin x₁ ∧
        term d (emb a) = fin ((1 - t) * x₀ + t * x₁ + w a * c)

theorem TermConcave.joint {D X α : Type} [ExponentialFamily D X XReal] {accepted : D → Prop} {emb : α → X}
    {S : α → Prop} {term : D → X → XReal} {w : α → ℝ} (h : TermConcave accepted emb S term w)
    (hw : ∀ a, S a → 0 < w a) {joint : D → List X → XReal}
    (hj : ∀ d, accepted d → ∀ xs, joint d xs = FloatOps.sum (xs.map fun x => term d x)) :
    ConcaveInNatural accepted emb S joint := by
  intro d₀ d₁ a₀ a₁ t ht0 ht1
  obtain ⟨η₀, η₁, d, c, e₀, e₁, a, e, hc, hcs, hv⟩ := h d₀ d₁ a₀ a₁ t ht0 ht1
  refine ⟨η₀, η₁, d, e₀, e₁, a, e, fun ys hys => ?_⟩
  have key : ∃ v₀ v₁ g : ℝ, joint d₀ (ys.map emb) = fin v₀ ∧ joint d₁ (ys.map emb) = fin v₁ ∧
      joint d (ys.map emb) = fin ((1 - t) * v₀ + t * v₁ + g * c) ∧ 0 ≤ g ∧ (ys ≠ [] → 0 < g) := by
    rw [hj _ a₀, hj _ a₁, hj _ a]
    clear hc hcs
    have hsum : ∀ (f : α → XReal) (v : α → ℝ), (∀ y ∈ ys, f y = fin (v y)) →
        FloatOps.sum (ys.map f) = fin (ys.map v).sum := by
      intro f v hf
      have : ys.map f = (ys.map v).map fin := by
        rw [List.map_map]; exact List.map_congr_left hf
      rw [this, f_sum]
    have hv' : ∀ y, ∃ x₀ x₁ : ℝ, S y → term d₀ (emb y) = fin x₀ ∧ term d₁ (emb y) = fin x₁ ∧
        term d (emb y) = fin ((1 - t) * x₀ + t * x₁ + w y * c) := by
      intro y
      by_cases hy : S y
      · obtain ⟨x₀, x₁, h⟩ := hv y hy
        exact ⟨x₀, x₁, fun _ => h⟩
      · exact ⟨0, 0, fun h => absurd h hy⟩
    choose x₀ x₁ hx using hv'
    rw [List.map_map, List.map_map, List.map_map]
    refine ⟨_, _, (ys.map w).sum, hsum _ x₀ fun y hy => (hx y (hys y hy)).1,
      hsum _ x₁ fun y hy => (hx y (hys y hy)).2.1, ?_, ?_, ?_⟩
    · refine (hsum _ (fun y => (1 - t) * x₀ y + t * x₁ y + w y * c) fun y hy => (hx y (hys y hy)).2.2).trans ?_
      congr 1
      clear hsum hys hx
      induction ys with
      | nil => simp
      | cons y ys ih => simp only [List.map_cons, List.sum_cons, ih]; ring
    · exact List.sum_nonneg (by simpa using fun y hy => (hw y (hys y hy)).le)
    · intro hne
      cases ys with
      | nil => exact absurd rfl hne
      | cons y ys =>
        have h1 := hw y (hys y List.mem_cons_self)
        have h2 : 0 ≤ (ys.map w).sum :=
          List.sum_nonneg (by simpa using fun z hz => (hw z (hys z (List.mem_cons_of_mem _ hz))).le)
        simp only [List.map_cons, List.sum_cons]
        linarith
  obtain ⟨v₀, v₁, g, k₀, k₁, k, hg, hgs⟩ := key
  refine ⟨v₀, v₁, _, k₀, k₁, k, ?_, fun hne hys' h0 h1 => ?_⟩
  · have := mul_nonneg hg hc; linarith
  · have := mul_pos (hgs hys') (hcs hne h0 h1); linarith

/-- A change of the base measure does not change the gap. -/
theorem TermConcave.shift {D X α : Type} [ExponentialFamily D X XReal] {accepted : D → Prop} {emb : α → X}
    {S : α → Prop} {term term' : D → X → XReal} {w : α → ℝ} (h : TermConcave accepted emb S term w) (b : α → ℝ)
    (hb : ∀ d, accepted d → ∀ a, S a → ∀ x : ℝ, term d (emb a) = fin x → term' d (emb a) = fin (x + b a)) :
    TermConcave accepted emb S term' w := by
  intro d₀ d₁ a₀ a₁ t ht0 ht1
  obtain ⟨η₀, η₁, d, c, e₀, e₁, a, e, hc, hcs, hv⟩ := h d₀ d₁ a₀ a₁ t ht0 ht1
  refine ⟨η₀, η₁, d, c, e₀, e₁, a, e, hc, hcs, fun y hy => ?_⟩
  obtain ⟨x₀, x₁, k₀, k₁, k⟩ := hv y hy
  refine ⟨_, _, hb _ a₀ y hy _ k₀, hb _ a₁ y hy _ k₁, ?_⟩
  rw [hb _ a y hy _ k]
  congr 1; ring

/-- A family given by its natural parameters. -/
theorem termConcave_family {D X α : Type} [MeasurableSpace α] [ExponentialFamily D X XReal]
    [HasLogDensity D X XReal] (μ : MeasureTheory.Measure α) (emb : α → X) (accepted : D → Prop)
    (Ω : List ℝ → Prop) (S : α → Prop) (T : α → List ℝ) (b : α → ℝ) (N : ℕ)
    (hlen : ∀ η, Ω η → η.length = N)
    (hconv : ∀ η₀ η₁ t, Ω η₀ → Ω η₁ → 0 ≤ t → t ≤ 1 → Ω (between t η₀ η₁))
    (H1 : ∀ d, accepted d → ∃ η, Ω η ∧ toNatural d = η.map fin ∧ fromNatural (η.map fin) = .ok d)
    (H2 : ∀ η, Ω η → ∃ d : D, accepted d ∧ fromNatural (η.map fin) = .ok d ∧ toNatural d = η.map fin)
    (H3 : ∀ η, Ω η → ∃ d : D, fromNatural (η.map fin) = .ok d ∧ RegularLaw μ emb d ∧ ∃ A : ℝ,
        ∀ a, (S a → (logDensityWrtRoot d (emb a) : XReal)
            = fin ((List.zipWith (· * ·) η (T a)).sum - A + b a)) ∧
          (¬ S a → (logDensityWrtRoot d (emb a) : XReal) = ninf))
    (hid : ∀ d₀ d₁, accepted d₀ → accepted d₁ → law μ emb d₀ = law μ emb d₁ → d₀ = d₁) :
    TermConcave accepted emb S (fun d x => logDensityWrtRoot d x) (fun _ => 1) := by
  intro d₀ d₁ a₀ a₁ t ht0 ht1
  obtain ⟨η₀, o₀, e₀, f₀⟩ := H1 d₀ a₀
  obtain ⟨η₁, o₁, e₁, f₁⟩ := H1 d₁ a₁
  have o := hconv η₀ η₁ t o₀ o₁ ht0 ht1
  obtain ⟨d, a, f, e⟩ := H2 _ o
  obtain ⟨d', g₀, r₀, A₀, k₀⟩ := H3 _ o₀
  obtain rfl : d' = d₀ := by rw [f₀] at g₀; injection g₀ with g₀; exact g₀.symm
  obtain ⟨d'', g₁, r₁, A₁, k₁⟩ := H3 _ o₁
  obtain rfl : d'' = d₁ := by rw [f₁] at g₁; injection g₁ with g₁; exact g₁.symm
  obtain ⟨d''', g, r, A, k⟩ := H3 _ o
  obtain rfl : d''' = d := by rw [f] at g; injection g with g; exact g.symm
  have hd := fun T => dot_between t η₀ η₁ T (by rw [hlen _ o₀, hlen _ o₁])
  have kk : ∀ a, S a → (logDensityWrtRoot d''' (emb a) : XReal)
      = fin ((1 - t) * ((List.zipWith (· * ·) η₀ (T a)).sum - A₀ + b a)
        + t * ((List.zipWith (· * ·) η₁ (T a)).sum - A₁ + b a) + ((1 - t) * A₀ + t * A₁ - A)) := by
    intro a ha
    rw [(k a).1 ha, hd]
    congr 1; ring
  obtain ⟨hc, hcs⟩ := mix_const r₀ r₁ r ht0 ht1 (fun a ha => (k₀ a).1 ha) (fun a ha => (k₁ a).1 ha) kk
    (fun a => (k₀ a).2) (fun a => (k₁ a).2) (fun a => (k a).2)
  refine ⟨η₀, η₁, d''', _, e₀, e₁, a, e, hc, fun hne => hcs fun hl => hne (hid _ _ a₀ a₁ hl), fun y hy => ?_⟩
  exact ⟨_, _, (k₀ y).1 hy, (k₁ y).1 hy, by simp only [one_mul]; exact kk y hy⟩

end Verif
