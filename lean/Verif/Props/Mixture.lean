import Verif.Props.Product
import Verif.Lemmas.XSum

/-!
# C34, C35, C36: mixtures
-/

namespace Verif
open FloatOps XReal Spec MeasureTheory

/-- A log-density value that stands for a density: finite or `-∞`. -/
def IsLogDens (v : XReal) : Prop := v.IsFin ∨ v = ninf

/-! ### the running maximum -/

theorem ninf_lt_fin (a : ℝ) : (ninf <. fin a) = true := rfl

theorem runningMax_aux (l : List XReal) (acc : XReal) (hacc : IsLogDens acc) (hl : ∀ v ∈ l, IsLogDens v) :
    (l.foldl (fun acc x => if gt x acc then x else acc) acc = ninf ∧ acc = ninf ∧ ∀ v ∈ l, v = ninf) ∨
    ∃ m : ℝ, l.foldl (fun acc x => if gt x acc then x else acc) acc = fin m ∧
      (fin m = acc ∨ fin m ∈ l) ∧ (∀ a, acc = fin a → a ≤ m) ∧ ∀ a, fin a ∈ l → a ≤ m := by
  induction l generalizing acc with
  | nil =>
    rcases hacc with ⟨a, rfl⟩ | rfl
    · right
      refine ⟨a, rfl, Or.inl rfl, ?_, ?_⟩
      · intro b hb; rw [XReal.fin.inj hb]
      · intro b hb; simp at hb
    · left; simp
  | cons v l ih =>
    have hv := hl v (by simp)
    have hl' : ∀ w ∈ l, IsLogDens w := fun w hw => hl w (by simp [hw])
    rw [List.foldl_cons]
    rcases hv with ⟨b, rfl⟩ | rfl
    · rcases hacc with ⟨a, rfl⟩ | rfl
      · by_cases hab : a < b
        · have e : (if gt (fin b) (fin a) then fin b else fin a) = fin b := by simp [hab]
          rw [e]
          rcases ih (fin b) (Or.inl ⟨b, rfl⟩) hl' with ⟨-, h, -⟩ | ⟨m, h1, h2, h3, h4⟩
          · cases h
          · right
            refine ⟨m, h1, Or.inr ?_, ?_, ?_⟩
            · rcases h2 with h2 | h2
              · rw [h2]; simp
              · simp [h2]
            · intro c hc
              rw [← XReal.fin.inj hc]
              exact hab.le.trans (h3 b rfl)
            · intro c hc
              rcases List.mem_cons.mp hc with hc | hc
              · rw [XReal.fin.inj hc]; exact h3 b rfl
              · exact h4 c hc
        · have e : (if gt (fin b) (fin a) then fin b else fin a) = fin a := by simp [hab]
          rw [e]
          rcases ih (fin a) (Or.inl ⟨a, rfl⟩) hl' with ⟨-, h, -⟩ | ⟨m, h1, h2, h3, h4⟩
          · cases h
          · right
            refine ⟨m, h1, ?_, h3, ?_⟩
            · rcases h2 with h2 | h2
              · exact Or.inl h2
              · right; simp [h2]
            · intro c hc
              rcases List.mem_cons.mp hc with hc | hc
              · rw [XReal.fin.inj hc]; exact (not_lt.mp hab).trans (h3 a rfl)
              · exact h4 c hc
      · have e : (if gt (fin b) ninf then fin b else ninf) = fin b := by
          show (if (ninf <. fin b) = true then _ else _) = _
          rw [ninf_lt_fin, if_pos rfl]
        rw [e]
        rcases ih (fin b) (Or.inl ⟨b, rfl⟩) hl' with ⟨-, h, -⟩ | ⟨m, h1, h2, h3, h4⟩
        · cases h
        · right
          refine ⟨m, h1, Or.inr ?_, fun c hc => (by cases hc), ?_⟩
          · rcases h2 with h2 | h2
            · rw [h2]; simp
            · simp [h2]
          · intro c hc
            rcases List.mem_cons.mp hc with hc | hc
            · rw [XReal.fin.inj hc]; exact h3 b rfl
            · exact h4 c hc
    · have e : (if gt ninf acc then ninf else acc) = acc := by
        rcases hacc with ⟨a, rfl⟩ | rfl <;> rfl
      rw [e]
      rcases ih acc hacc hl' with ⟨h1, h2, h3⟩ | ⟨m, h1, h2, h3, h4⟩
      · left
        exact ⟨h1, h2, by simpa using h3⟩
      · right
        refine ⟨m, h1, ?_, h3, ?_⟩
        · rcases h2 with h2 | h2
          · exact Or.inl h2
          · right; simp [h2]
        · intro c hc
          rcases List.mem_cons.mp hc with hc | hc
          · cases hc
          · exact h4 c hc

theorem runningMax_spec (l : List XReal) (hl : ∀ v ∈ l, IsLogDens v) :
    (runningMax l = ninf ∧ ∀ v ∈ l, v = ninf) ∨
    ∃ m : ℝ, runningMax l = fin m ∧ fin m ∈ l ∧ ∀ a, fin a ∈ l → a ≤ m := by
  rcases runningMax_aux l ninf (Or.inr rfl) hl with ⟨h1, -, h3⟩ | ⟨m, h1, h2, -, h4⟩
  · exact Or.inl ⟨h1, h3⟩
  · rcases h2 with h2 | h2
    · cases h2
    · exact Or.inr ⟨m, h1, h2, h4⟩

/-! ### C35 -/

/-- The value of `log_sum_exp`. -/
theorem logSumExp_value (l : List XReal) (hl : ∀ v ∈ l, IsLogDens v) :
    ((∀ v ∈ l, v = ninf) ∧ logSumExp l = ninf) ∨
    ((∃ v ∈ l, v ≠ ninf) ∧ 0 < (l.map density).sum ∧ logSumExp l = fin (Real.log (l.map density).sum)) := by
  rcases runningMax_spec l hl with ⟨h1, h2⟩ | ⟨m, h1, h2, h3⟩
  · left
    refine ⟨h2, ?_⟩
    unfold logSumExp
    rw [h1]
    split_ifs with h
    · rfl
    · rfl
  · right
    have hne : l.isEmpty = false := by cases l <;> simp at h2 ⊢
    have hterm : ∀ v ∈ l, FloatOps.exp (v -. fin m) = fin (density v * Real.exp (-m)) := by
      intro v hv
      rcases hl v hv with ⟨a, rfl⟩ | rfl
      · rw [f_sub, f_exp, density_fin, ← Real.exp_add, sub_eq_add_neg]
      · rw [ninf_sub_fin, f_exp_ninf, density_ninf, zero_mul]
    have hsum : (l.map (fun x => FloatOps.exp (x -. fin m))).foldl FloatOps.add zero
        = fin ((l.map density).sum * Real.exp (-m)) := by
      have : l.map (fun x => FloatOps.exp (x -. fin m))
          = (l.map (fun v => Real.exp (-m) * density v)).map fin := by
        rw [List.map_map]
        apply List.map_congr_left
        intro v hv
        rw [hterm v hv, Function.comp, mul_comm]
      rw [this]
      have := f_sum (l.map (fun v => Real.exp (-m) * density v))
      unfold FloatOps.sum at this
      rw [this, sum_map_mul_real, mul_comm]
    have hpos : 0 < (l.map density).sum := by
      refine lt_of_lt_of_le (Real.exp_pos m) (List.single_le_sum ?_ _ (List.mem_map.mpr ⟨_, h2, rfl⟩))
      intro x hx
      obtain ⟨v, hv, rfl⟩ := List.mem_map.mp hx
      exact density_nonneg_of_proper (hl v hv)
    refine ⟨⟨_, h2, by simp⟩, hpos, ?_⟩
    unfold logSumExp
    rw [h1, hne]
    simp only [Bool.false_eq_true, if_false, f_isInf, Bool.false_and]
    rw [hsum, f_ln _ (mul_pos hpos (Real.exp_pos _)), f_add, Real.log_mul hpos.ne' (Real.exp_pos _).ne',
      Real.log_exp]
    congr 1
    ring

/-- **C35**: whenever `log_sum_exp` exponentiates at all (some value is not `-∞`), every number it passes
to `exp` is at most `0`, and at least one is exactly `0`, for every list of log-densities. -/
theorem C35_exp_arguments_nonpositive (l : List XReal) (hl : ∀ v ∈ l, IsLogDens v)
    (hne : ∃ v ∈ l, v ≠ ninf) :
    (∀ v ∈ l, ((v -. runningMax l) ≤. fin 0) = true) ∧ (∃ v ∈ l, (v -. runningMax l) = fin 0) := by
  rcases runningMax_spec l hl with ⟨-, h2⟩ | ⟨m, h1, h2, h3⟩
  · obtain ⟨v, hv, h⟩ := hne
    exact absurd (h2 v hv) h
  · rw [h1]
    refine ⟨fun v hv => ?_, fin m, h2, by simp⟩
    rcases hl v hv with ⟨a, rfl⟩ | rfl
    · have := h3 a hv
      simp [this]
    · rfl

/-- **C35**: the result lies between the largest value and that plus the logarithm of the number of
values. -/
theorem C35_bounds (l : List XReal) (hl : ∀ v ∈ l, IsLogDens v) (m : ℝ) (hm : fin m ∈ l)
    (hmax : ∀ a, fin a ∈ l → a ≤ m) :
    ∃ s : ℝ, logSumExp l = fin s ∧ m ≤ s ∧ s ≤ m + Real.log l.length := by
  rcases logSumExp_value l hl with ⟨h, -⟩ | ⟨-, hpos, h⟩
  · exact absurd (h _ hm) (by simp)
  · refine ⟨_, h, ?_, ?_⟩
    · rw [Real.le_log_iff_exp_le hpos]
      refine List.single_le_sum ?_ _ (List.mem_map.mpr ⟨_, hm, rfl⟩)
      intro x hx
      obtain ⟨v, hv, rfl⟩ := List.mem_map.mp hx
      exact density_nonneg_of_proper (hl v hv)
    · have hlen : (0 : ℝ) < l.length := by
        exact_mod_cast List.length_pos_of_mem hm
      rw [Real.log_le_iff_le_exp hpos, Real.exp_add, Real.exp_log hlen]
      have : (l.map density).sum ≤ (l.map density).length • Real.exp m := by
        apply List.sum_le_card_nsmul
        intro x hx
        obtain ⟨v, hv, rfl⟩ := List.mem_map.mp hx
        rcases hl v hv with ⟨a, rfl⟩ | rfl
        · exact Real.exp_le_exp.mpr (hmax a hv)
        · exact (Real.exp_pos m).le
      rw [List.length_map, nsmul_eq_mul, mul_comm] at this
      exact this

/-- **C35**: the result does not depend on the order of the values and commutes with adding a constant to
all of them. -/
theorem C35_perm_shift (l : List XReal) (hl : ∀ v ∈ l, IsLogDens v) :
    (∀ l', l.Perm l' → logSumExp l' = logSumExp l) ∧
    (∀ c : ℝ, logSumExp (l.map (fun v => v +. fin c)) = (logSumExp l +. fin c)) := by
  constructor
  · intro l' hp
    have hl' : ∀ v ∈ l', IsLogDens v := fun v hv => hl v (hp.mem_iff.mpr hv)
    have hs := (hp.map density).sum_eq
    rcases logSumExp_value l hl with ⟨h, e⟩ | ⟨⟨v, hv, h⟩, -, e⟩ <;>
      rcases logSumExp_value l' hl' with ⟨h', e'⟩ | ⟨⟨v', hv', h'⟩, -, e'⟩
    · rw [e, e']
    · exact absurd (h v' (hp.mem_iff.mpr hv')) h'
    · exact absurd (h' v (hp.mem_iff.mp hv)) h
    · rw [e, e', hs]
  · intro c
    have hl' : ∀ v ∈ l.map (fun v => v +. fin c), IsLogDens v := by
      intro v hv
      obtain ⟨w, hw, rfl⟩ := List.mem_map.mp hv
      exact (density_add (hl w hw) (Or.inl (isFin_fin c))).2
    have hs : ((l.map (fun v => v +. fin c)).map density).sum = (l.map density).sum * Real.exp c := by
      rw [List.map_map, mul_comm, ← sum_map_mul_real]
      congr 1
      apply List.map_congr_left
      intro v hv
      rw [Function.comp, (density_add (hl v hv) (Or.inl (isFin_fin c))).1, density_fin, mul_comm]
    rcases logSumExp_value l hl with ⟨h, e⟩ | ⟨⟨v, hv, h⟩, hpos, e⟩ <;>
      rcases logSumExp_value _ hl' with ⟨h', e'⟩ | ⟨⟨v', hv', h'⟩, -, e'⟩
    · rw [e, e']; rfl
    · obtain ⟨w, hw, rfl⟩ := List.mem_map.mp hv'
      rw [h w hw] at h'
      exact absurd rfl h'
    · have := h' (v +. fin c) (List.mem_map.mpr ⟨v, hv, rfl⟩)
      rcases hl v hv with ⟨a, rfl⟩ | rfl
      · simp at this
      · exact absurd rfl h
    · rw [e, e', hs, Real.log_mul hpos.ne' (Real.exp_pos c).ne', Real.log_exp, f_add]

example : ∀ v ∈ [fin 3, ninf, fin (-2)], IsLogDens v := by
  intro v hv
  fin_cases hv
  · exact Or.inl ⟨_, rfl⟩
  · exact Or.inr rfl
  · exact Or.inl ⟨_, rfl⟩

/-- **C35** does not extend to NaN or `+∞` values: a NaN alone is swallowed (`-∞`), a single `+∞` turns
the result into NaN. -/
theorem C35_special_values :
    logSumExp [XReal.nan] = ninf ∧ logSumExp [pinf, fin 0] = XReal.nan := by
  constructor
  · rfl
  · have h : runningMax [pinf, fin 0] = pinf := rfl
    unfold logSumExp
    rw [h]
    rfl

/-! ### C34 -/

/-- weight times density, in logarithms -/
theorem ln_add_density {w : ℝ} (hw : 0 ≤ w) {v : XReal} (hv : IsLogDens v) :
    density (FloatOps.ln (fin w) +. v) = w * density v ∧ IsLogDens (FloatOps.ln (fin w) +. v) := by
  rcases hw.lt_or_eq with hw | rfl
  · rw [f_ln w hw]
    have := density_add (Or.inl (isFin_fin (Real.log w))) hv
    rw [density_fin, Real.exp_log hw] at this
    exact this
  · rw [f_ln_zero]
    have := density_add (Or.inr rfl : (ninf).IsFin ∨ ninf = ninf) hv
    rw [density_ninf, zero_mul] at this
    rw [zero_mul]
    exact this

/-- **C34**: for every list of components with proper log-densities at the point and every vector of
nonnegative weights of the same length, the mixture's density is the weighted sum of the densities, and
the log-density is `-∞` exactly when every weighted term vanishes.  Missing from the full claim: negative
weights, which the constructor accepts, see `C34_negative_weight_violated`. -/
theorem C34_mixture_density_partial {M T : Type} [HasLogDensity M T XReal] (cs : List M) (ws : List ℝ)
    (x : T) (hlen : cs.length = ws.length) (hw : ∀ w ∈ ws, 0 ≤ w)
    (hc : ∀ c ∈ cs, IsLogDens (logDensityWrtRoot c x)) :
    density (logDensityWrtRoot (⟨cs, ws.map fin⟩ : MixtureMeasure M XReal) x)
      = (List.zipWith (fun c w => w * density (logDensityWrtRoot c x)) cs ws).sum ∧
    ((logDensityWrtRoot (⟨cs, ws.map fin⟩ : MixtureMeasure M XReal) x : XReal) = ninf ↔
      ∀ p ∈ cs.zip ws, p.2 * density (logDensityWrtRoot p.1 x) = 0) ∧
    IsLogDens (logDensityWrtRoot (⟨cs, ws.map fin⟩ : MixtureMeasure M XReal) x) := by
  have hterms : (cs.zip (ws.map fin)).map (fun p => FloatOps.ln p.2 +. logDensityWrtRoot p.1 x)
      = (cs.zip ws).map (fun p => FloatOps.ln (fin p.2) +. logDensityWrtRoot p.1 x) := by
    rw [List.zip_map_right, List.map_map]
    rfl
  have hp : ∀ p ∈ cs.zip ws, 0 ≤ p.2 ∧ IsLogDens (logDensityWrtRoot p.1 x) := by
    intro p hp
    exact ⟨hw _ (List.of_mem_zip hp).2, hc _ (List.of_mem_zip hp).1⟩
  set l := (cs.zip ws).map (fun p => FloatOps.ln (fin p.2) +. logDensityWrtRoot p.1 x) with hl
  have hld : ∀ v ∈ l, IsLogDens v := by
    intro v hv
    obtain ⟨p, hp', rfl⟩ := List.mem_map.mp hv
    exact (ln_add_density (hp p hp').1 (hp p hp').2).2
  have hmap : l.map density = (cs.zip ws).map (fun p => p.2 * density (logDensityWrtRoot p.1 x)) := by
    rw [hl, List.map_map]
    apply List.map_congr_left
    intro p hp'
    exact (ln_add_density (hp p hp').1 (hp p hp').2).1
  have hzip : (List.zipWith (fun c w => w * density (logDensityWrtRoot c x)) cs ws)
      = (cs.zip ws).map (fun p => p.2 * density (logDensityWrtRoot p.1 x)) := by
    rw [List.zip_eq_zipWith, List.map_zipWith]
  have hval : (logDensityWrtRoot (⟨cs, ws.map fin⟩ : MixtureMeasure M XReal) x : XReal) = logSumExp l := by
    show MixtureMeasure.logDensity _ x = _
    unfold MixtureMeasure.logDensity
    simp only
    rw [hterms]
    by_cases hcs : cs = []
    · subst hcs
      simp [l, logSumExp]
    · rw [if_neg]
      simpa using hcs
  have hz : ∀ p ∈ cs.zip ws, (FloatOps.ln (fin p.2) +. logDensityWrtRoot p.1 x) = ninf ↔
      p.2 * density (logDensityWrtRoot p.1 x) = 0 := by
    intro p hp'
    have h1 := ln_add_density (hp p hp').1 (hp p hp').2
    rw [← h1.1]
    constructor
    · intro h; rw [h]; rfl
    · intro h
      rcases h1.2 with ⟨a, ha⟩ | ha
      · rw [ha, density_fin] at h
        exact absurd h (Real.exp_pos a).ne'
      · exact ha
  rw [hval, hzip, ← hmap]
  rcases logSumExp_value l hld with ⟨h, e⟩ | ⟨⟨v, hv, hne⟩, hpos, e⟩
  · have h0 : ∀ p ∈ cs.zip ws, p.2 * density (logDensityWrtRoot p.1 x) = 0 := by
      intro p hp'
      exact (hz p hp').mp (h _ (List.mem_map.mpr ⟨p, hp', rfl⟩))
    refine ⟨?_, ⟨fun _ => h0, fun _ => e⟩, Or.inr e⟩
    rw [e, density_ninf, hmap, List.sum_eq_zero]
    intro y hy
    obtain ⟨p, hp', rfl⟩ := List.mem_map.mp hy
    exact h0 p hp'
  · refine ⟨by rw [e, density_fin, Real.exp_log hpos], ⟨fun h => ?_, fun h => ?_⟩, Or.inl ⟨_, e⟩⟩
    · rw [e] at h; cases h
    · obtain ⟨p, hp', rfl⟩ := List.mem_map.mp hv
      exact absurd ((hz p hp').mpr (h p hp')) hne

/-- **C34**, mass: for nonnegative weights the total mass of the mixture is the weighted sum of the total
masses of its components. -/
theorem C34_mixture_mass {M T α : Type} [MeasurableSpace α] [HasLogDensity M T XReal]
    (μ : MeasureTheory.Measure α) (e : α → T) (cs : List M) (ws : List ℝ) (hlen : cs.length = ws.length)
    (hw : ∀ w ∈ ws, 0 ≤ w) (hc : ∀ c ∈ cs, Proper e c)
    (hm : ∀ c ∈ cs, Measurable (fun a => density (logDensityWrtRoot c (e a) : XReal))) :
    mass μ e (⟨cs, ws.map fin⟩ : MixtureMeasure M XReal)
      = (List.zipWith (fun c w => ENNReal.ofReal w * mass μ e c) cs ws).sum := by
  have h1 : ∀ a, density (logDensityWrtRoot (⟨cs, ws.map fin⟩ : MixtureMeasure M XReal) (e a))
      = (List.zipWith (fun c w => w * density (logDensityWrtRoot c (e a))) cs ws).sum := fun a =>
    (C34_mixture_density_partial cs ws (e a) hlen hw (fun c h => hc c h a)).1
  unfold mass
  simp only [h1]
  clear h1
  induction cs generalizing ws with
  | nil => simp
  | cons c cs ih =>
    obtain _ | ⟨w, ws⟩ := ws
    · simp at hlen
    have hw0 : 0 ≤ w := hw w (by simp)
    have hmc := hm c (by simp)
    have hpc := hc c (by simp)
    have hrest : ∀ a, 0 ≤ (List.zipWith (fun c w => w * density (logDensityWrtRoot c (e a))) cs ws).sum := by
      intro a
      apply List.sum_nonneg
      intro y hy
      rw [← List.map_uncurry_zip_eq_zipWith] at hy
      obtain ⟨p, hp, rfl⟩ := List.mem_map.mp hy
      have := List.of_mem_zip hp
      exact mul_nonneg (hw _ (by simp [this.2])) (density_nonneg_of_proper (hc _ (by simp [this.1]) a))
    simp only [List.zipWith_cons_cons, List.sum_cons]
    rw [← ih ws (by simpa using hlen) (fun v hv => hw v (by simp [hv])) (fun d hd => hc d (by simp [hd]))
      (fun d hd => hm d (by simp [hd])), ← lintegral_const_mul _ hmc.ennreal_ofReal, ← lintegral_add_left]
    · refine lintegral_congr fun a => ?_
      rw [ENNReal.ofReal_add (mul_nonneg hw0 (density_nonneg_of_proper (hpc a))) (hrest a),
        ENNReal.ofReal_mul hw0]
    · exact hmc.ennreal_ofReal.const_mul _

/-- **C34** violated for negative weights: the constructor accepts weights `-1, 2`, and at every point
where both components have a positive density the mixture's log-density is NaN. -/
theorem C34_negative_weight_violated {M T : Type} [HasLogDensity M T XReal] (c1 c2 : M) :
    ∃ m : MixtureMeasure M XReal, MixtureMeasure.new [c1, c2] [fin (-1), fin 2] = .ok m ∧
      ∀ (x : T) (a b : ℝ), (logDensityWrtRoot c1 x : XReal) = fin a → (logDensityWrtRoot c2 x : XReal) = fin b →
        (logDensityWrtRoot m x : XReal) = XReal.nan := by
  refine ⟨⟨[c1, c2], [fin (-1), fin 2]⟩, ?_, ?_⟩
  · have : (-1 + 2 - 1 : ℝ) = 0 := by norm_num
    simp [MixtureMeasure.new, XReal.sum_nil, this]
  · intro x a b h1 h2
    show MixtureMeasure.logDensity _ x = _
    have hn : FloatOps.ln (fin (-1)) = XReal.nan := f_ln_neg _ (by norm_num)
    have hm : runningMax [XReal.nan, fin (Real.log 2 + b)] = fin (Real.log 2 + b) := rfl
    simp [MixtureMeasure.logDensity, h1, h2, hn, f_ln 2 two_pos, logSumExp, hm]
    rfl

example : ([⟨fin 0, fin 1⟩, ⟨fin 5, fin 2⟩] : List (Normal XReal)).length = [(0:ℝ), 1].length ∧
    ∀ w ∈ [(0:ℝ), 1], 0 ≤ w := by simp

/-! ### C36 -/

/-- **C36**: `MixtureMeasure::new` succeeds iff the lengths agree and the (finite) weights sum to one
within `1e-10`; the result holds the arguments unchanged. -/
theorem C36_new {M : Type} (cs : List M) (ws : List ℝ) :
    (cs.length = ws.length ∧ |ws.sum - 1| < 1/10^10 →
      MixtureMeasure.new cs (ws.map fin) = .ok ⟨cs, ws.map fin⟩) ∧
    (¬ (cs.length = ws.length ∧ |ws.sum - 1| < 1/10^10) →
      ∃ p, MixtureMeasure.new cs (ws.map fin) = .error p) := by
  unfold MixtureMeasure.new
  rw [f_sum]
  simp only [List.length_map, f_one, f_sub, f_abs, f_ofRat, f_lt, ne_eq, ite_not, decide_eq_true_eq]
  push_cast
  constructor
  · rintro ⟨h1, h2⟩
    rw [if_pos h1, if_pos h2]
  · intro h
    by_cases h1 : cs.length = ws.length
    · have h2 : ¬ |ws.sum - 1| < 1/10^10 := fun h2 => h ⟨h1, h2⟩
      rw [if_pos h1, if_neg h2]
      exact ⟨_, rfl⟩
    · rw [if_neg h1]
      exact ⟨_, rfl⟩

/-- **C36**: `uniform` on any non-empty component list succeeds with equal weights summing to exactly one,
and panics on the empty list. -/
theorem C36_uniform {M : Type} (cs : List M) :
    (cs ≠ [] → ∃ ws : List ℝ, (MixtureMeasure.uniform cs : Except Panic (MixtureMeasure M XReal))
        = .ok ⟨cs, ws.map fin⟩ ∧ ws.length = cs.length ∧ ws.sum = 1 ∧
        ∀ w ∈ ws, w = 1 / (cs.length : ℝ)) ∧
    (∃ p, (MixtureMeasure.uniform ([] : List M) : Except Panic (MixtureMeasure M XReal)) = .error p) := by
  constructor
  · intro hne
    have hn : (cs.length : ℝ) ≠ 0 := by
      simpa using hne
    refine ⟨List.replicate cs.length (1 / (cs.length : ℝ)), ?_, by simp, ?_, ?_⟩
    · unfold MixtureMeasure.uniform
      simp only [f_one, f_ofNat, f_div _ _ hn]
      rw [← List.map_replicate]
      apply (C36_new cs _).1
      refine ⟨by simp, ?_⟩
      rw [List.sum_replicate, nsmul_eq_mul, mul_one_div, div_self hn]
      norm_num
    · rw [List.sum_replicate, nsmul_eq_mul, mul_one_div, div_self hn]
    · intro w hw
      exact List.eq_of_mem_replicate hw
  · have : (1 : ℝ) < 1/10^10 ↔ False := by norm_num
    refine ⟨⟨"Weights must sum to 1"⟩, ?_⟩
    simp [MixtureMeasure.uniform, MixtureMeasure.new]
    norm_num

/-- **C36**: `a.mixture(b, w1, w2)` normalises: for all finite weights with nonzero sum it succeeds with
weights `wᵢ/(w1+w2)`, which sum to exactly one; with sum zero it panics. -/
theorem C36_mixture {M : Type} (a b : M) (w1 w2 : ℝ) :
    (w1 + w2 ≠ 0 → MixtureMeasure.mixture a b (fin w1) (fin w2)
        = .ok ⟨[a, b], [fin (w1 / (w1 + w2)), fin (w2 / (w1 + w2))]⟩ ∧
        w1 / (w1 + w2) + w2 / (w1 + w2) = 1) ∧
    (w1 + w2 = 0 → ∃ p, MixtureMeasure.mixture a b (fin w1) (fin w2) = .error p) := by
  constructor
  · intro h
    have h1 : w1 / (w1 + w2) + w2 / (w1 + w2) = 1 := by
      rw [← add_div, div_self h]
    refine ⟨?_, h1⟩
    have := (C36_new [a, b] [w1 / (w1 + w2), w2 / (w1 + w2)]).1 ⟨rfl, by simp [h1]⟩
    unfold MixtureMeasure.mixture
    simp only [f_add, f_div _ _ h]
    exact this
  · intro h
    have h2 : w2 = -w1 := by linarith
    subst h2
    refine ⟨⟨"Weights must sum to 1"⟩, ?_⟩
    have hs : (FloatOps.abs (FloatOps.sum [infOf w1, infOf (-w1)] -. fin 1) <. fin (1/10^10)) = false := by
      have : FloatOps.sum [infOf w1, infOf (-w1)] = XReal.nan := by
        rcases lt_trichotomy w1 0 with h | h | h
        · simp [infOf, h, not_lt.mpr h.le]; rfl
        · subst h; simp [infOf]
        · simp [infOf, h, not_lt.mpr h.le]; rfl
      rw [this]
      rfl
    simp only [MixtureMeasure.mixture, MixtureMeasure.new, f_add, add_neg_cancel, f_div_zero, f_one,
      f_ofRat, List.length_cons, List.length_nil, ne_eq, not_true_eq_false, if_false]
    push_cast
    rw [hs]
    rfl

/-- **C36**: a point is in the support of a mixture iff some component with positive weight contains it. -/
theorem C36_in_support {M T : Type} [Measure M T] (cs : List M) (ws : List ℝ)
    (hlen : cs.length = ws.length) (x : T) :
    (⟨cs, ws.map fin⟩ : MixtureMeasure M XReal).inSupport x = true ↔
      ∃ (i : ℕ) (h1 : i < cs.length) (h2 : i < ws.length),
        0 < ws[i] ∧ Measure.inSupport cs[i] x = true := by
  unfold MixtureMeasure.inSupport
  rw [List.any_eq_true]
  constructor
  · rintro ⟨p, hp, h⟩
    obtain ⟨i, hi, rfl⟩ := List.mem_iff_getElem.mp hp
    have h1 : i < cs.length := by simp at hi; omega
    have h2 : i < ws.length := by omega
    refine ⟨i, h1, h2, ?_⟩
    simpa using h
  · rintro ⟨i, h1, h2, h3, h4⟩
    refine ⟨(cs[i], fin ws[i]), ?_, ?_⟩
    · rw [List.mem_iff_getElem]
      refine ⟨i, by simp; omega, by simp⟩
    · simp [h3, h4]

end Verif
