import Verif.Props.DoubleMixture
import Verif.Lemmas.App
import Verif.Lemmas.FltRange
import Verif.Model.DistDiscrete
import Verif.Spec.DoubleNatural

/-!
# C102: distributions built from natural parameters in floating point
-/

namespace Verif
open Format FloatOps

variable {f : Format} {L : Libm}

/-- the exponential of the library, as long as it does not overflow -/
theorem exp_flt (hf : f.Std) (hL : L.Accurate f) {q : ℚ} (hq : f.Representable q)
    (hB : Real.exp q < 2 ^ (f.emax - 1)) :
    ∃ r, L.exp q = .fin r ∧ f.Representable r ∧ 0 ≤ r ∧
      |(r : ℝ) - Real.exp q| ≤ 2 * f.u * Real.exp q + 2 ^ f.emin := by
  rcases hL.exp q hq with ⟨r, h1, h2, h3⟩ | ⟨-, h⟩
  · refine ⟨r, h1, h2, ?_, h3⟩
    obtain ⟨k, rfl⟩ := h2.multiple
    have hE := Real.exp_pos q
    have hul := hf.u_le
    have h4 := (abs_le.mp h3).1
    push_cast at h4
    have h5 : (-1 : ℝ) < k := by
      have : (0 : ℝ) < 2 ^ f.emin := by positivity
      have h6 : 2 * f.u * Real.exp q < Real.exp q := by norm_num at hul; nlinarith
      by_contra hc
      have : (k : ℝ) * 2 ^ f.emin ≤ -1 * 2 ^ f.emin := by gcongr; linarith
      linarith
    have h6 : -1 < k := by exact_mod_cast h5
    have h7 : (0 : ℚ) ≤ k := by exact_mod_cast (by omega : 0 ≤ k)
    positivity
  · linarith

/-- a quotient `a / N` where `a` is close to `e` and `N` to `Z` -/
theorem quot_near (hf : f.Std) {a N : ℚ} {e Z c : ℝ} (ha0 : 0 ≤ a) (he : 0 ≤ e)
    (hae : |(a : ℝ) - e| ≤ 2 * f.u * e + 2 ^ f.emin) (hZ : 1 ≤ Z) (heZ : e ≤ Z) (hc0 : 0 ≤ c)
    (hN : |(N : ℝ) - Z| ≤ c * f.u * Z) (hc : c * f.u ≤ 1/100) :
    ∃ p, Flt.div f (.fin a) (.fin N) = .fin p ∧ f.Representable p ∧ 0 ≤ p ∧
      |(p : ℝ) - e / Z| ≤ (4/3 * c + 5) * f.u * (e / Z) + 4 * 2 ^ f.emin := by
  have hu := u_pos f
  have hul := hf.u_le
  have hη : (2 : ℝ) ^ f.emin ≤ f.u := by
    refine hf.eta_le.trans ?_
    have : f.u ^ 4 ≤ f.u ^ 1 := pow_le_pow_of_le_one hu.le (hul.trans (by norm_num)) (by norm_num)
    simpa using this
  have hη0 : (0 : ℝ) < 2 ^ f.emin := by positivity
  set ε := (2 : ℝ) ^ f.emin with hε
  have hN1 : 99/100 * Z ≤ N := by
    have := (abs_le.mp hN).1
    nlinarith
  have hN0 : (0 : ℝ) < N := by linarith
  have hN0' : 0 < N := by exact_mod_cast hN0
  have ha0' : (0 : ℝ) ≤ a := by exact_mod_cast ha0
  have hae' := (abs_le.mp hae).2
  set s := e / Z with hs
  have hs0 : 0 ≤ s := by positivity
  have hs1 : s ≤ 1 := by rw [hs, div_le_one (by linarith)]; exact heZ
  have hes : e = s * Z := by rw [hs]; field_simp
  -- the exact quotient
  have hq : |(a : ℝ) / N - s| ≤ (4/3 * c + 3) * f.u * s + 3/2 * ε := by
    have e1 : (a : ℝ) / N - s = ((a - e) - s * (N - Z)) / N := by
      rw [hes]; field_simp; ring
    rw [e1, abs_div, abs_of_pos hN0, div_le_iff₀ hN0]
    have h1 := abs_sub (a - e) (s * (N - Z))
    rw [abs_mul, abs_of_nonneg hs0] at h1
    have h2 : s * |(N : ℝ) - Z| ≤ s * (c * f.u * Z) := by gcongr
    have h3 : (2 * f.u * e + ε) + s * (c * f.u * Z) = ((c + 2) * f.u * s) * Z + ε := by rw [hes]; ring
    have h4 : ((4/3 * c + 3) * f.u * s + 3/2 * ε) * (99/100 * Z) ≤
        ((4/3 * c + 3) * f.u * s + 3/2 * ε) * N := by gcongr
    have h5 : 0 ≤ c * f.u * s * Z := by positivity
    have h6 : 0 ≤ f.u * s * Z := by positivity
    have h7 : ε ≤ ε * Z := by nlinarith
    nlinarith
  have hqs : (a : ℝ) / N ≤ 2 := by
    have := (abs_le.mp hq).2
    have h1 : c * f.u * s ≤ 1/100 * 1 := by gcongr
    have h2 : f.u * s ≤ f.u * 1 := by gcongr
    norm_num at hul
    nlinarith
  obtain ⟨p, hp⟩ := round_small hf (q := a / N) (rat_le (by
    push_cast
    rw [abs_of_nonneg (by positivity)]
    exact hqs.trans (by norm_num)))
  obtain ⟨hr, hre⟩ := near_round hf hp
  push_cast at hre
  rw [abs_of_nonneg (a := (a : ℝ) / N) (by positivity)] at hre
  refine ⟨p, ?_, hr, round_nonneg hp (by positivity), ?_⟩
  · show (if N = 0 then _ else _) = _
    rw [if_neg hN0'.ne', hp]
  · have h1 := abs_sub_le (p : ℝ) (a / N) s
    have h2 := (abs_le.mp hq).2
    have h3 : f.u * ((a : ℝ) / N) ≤ f.u * (s + ((4/3 * c + 3) * f.u * s + 3/2 * ε)) := by
      gcongr; linarith
    have h4 : c * f.u * (f.u * s) ≤ 1/100 * (f.u * s) := by gcongr
    have h5 : f.u * (f.u * s) ≤ 1/100 * (f.u * s) := by
      gcongr; exact hul.trans (by norm_num)
    have h6 : f.u * ε ≤ 1/100 * ε := by gcongr; exact hul.trans (by norm_num)
    have h7 : 0 ≤ f.u * s := by positivity
    nlinarith

theorem eta_small (hf : f.Std) : (2 : ℝ) ^ f.emin ≤ f.u * (f.u * f.u) := by
  have hu := u_pos f
  refine hf.eta_le.trans ?_
  have : f.u ^ 4 ≤ f.u ^ 3 :=
    pow_le_pow_of_le_one hu.le (hf.u_le.trans (by norm_num)) (by norm_num)
  linarith [show f.u ^ 3 = f.u * (f.u * f.u) by ring]

/-- the exponentials of a list and their sum -/
theorem exps_flt (hf : f.Std) (hL : L.Accurate f) (ηs : List ℚ) (hη : ∀ q ∈ ηs, f.Representable q)
    (hB : (ηs.map fun q : ℚ => Real.exp q).sum < 2 ^ (f.emax - 1)) :
    ∃ es : List ℚ, (ηs.map FVal.fin).map (Flt.exp L) = es.map FVal.fin ∧
      List.Forall₂ (fun (e : ℚ) (q : ℚ) => f.Representable e ∧ 0 ≤ e ∧
        |(e : ℝ) - Real.exp q| ≤ 2 * f.u * Real.exp q + 2 ^ f.emin) es ηs ∧
      |(es.map fun e : ℚ => (e : ℝ)).sum - (ηs.map fun q : ℚ => Real.exp q).sum| ≤
        2 * f.u * (ηs.map fun q : ℚ => Real.exp q).sum + ηs.length * 2 ^ f.emin := by
  induction ηs with
  | nil => exact ⟨[], rfl, .nil, by simp⟩
  | cons q ηs ih =>
    have hsum : 0 ≤ (ηs.map fun q : ℚ => Real.exp q).sum :=
      List.sum_nonneg (by simp only [List.mem_map]; rintro _ ⟨a, -, rfl⟩; positivity)
    have hq := Real.exp_pos q
    simp only [List.map_cons, List.sum_cons] at hB
    obtain ⟨es, h1, h2, h3⟩ := ih (fun a ha => hη a (by simp [ha])) (by linarith)
    obtain ⟨e, he, her, he0, hee⟩ := exp_flt hf hL (hη q (by simp)) (by linarith)
    refine ⟨e :: es, ?_, .cons ⟨her, he0, hee⟩ h2, ?_⟩
    · simp only [List.map_cons, List.cons.injEq]
      exact ⟨he, h1⟩
    · simp only [List.map_cons, List.sum_cons, List.length_cons]
      have e1 : ((e : ℝ) + (es.map fun e : ℚ => (e : ℝ)).sum) -
          (Real.exp q + (ηs.map fun q : ℚ => Real.exp q).sum) =
          ((e : ℝ) - Real.exp q) + ((es.map fun e : ℚ => (e : ℝ)).sum -
            (ηs.map fun q : ℚ => Real.exp q).sum) := by ring
      rw [e1]
      have := abs_add_le ((e : ℝ) - Real.exp q) ((es.map fun e : ℚ => (e : ℝ)).sum -
            (ηs.map fun q : ℚ => Real.exp q).sum)
      push_cast
      linarith

/-- the normaliser `1 + Σ exp ηᵢ` -/
theorem normaliser_flt (hf : f.Std) {es : List ℚ} {E : ℝ} (hE0 : 0 ≤ E)
    (hrep : ∀ e ∈ es, f.Representable e) (hpos : ∀ e ∈ es, 0 ≤ e)
    (herr : |(es.map fun e : ℚ => (e : ℝ)).sum - E| ≤ 2 * f.u * E + es.length * 2 ^ f.emin)
    (hn : (es.length : ℝ) * f.u ≤ 1/1000) (hB : E ≤ 2 ^ (f.emax - 5)) :
    ∃ N : ℚ, Flt.add f (.fin 1) ((es.map FVal.fin).foldl (Flt.add f) (.fin 0)) = .fin N ∧
      f.Representable N ∧ |(N : ℝ) - (1 + E)| ≤ (3 * es.length + 4) * f.u * (1 + E) := by
  have hu := u_pos f
  have hul := hf.u_le
  have hη := eta_small hf
  have hη0 : (0 : ℝ) < 2 ^ f.emin := by positivity
  set ε := (2 : ℝ) ^ f.emin
  set n : ℝ := ((es.length : ℕ) : ℝ) with hnn
  have hn0 : 0 ≤ n := by positivity
  set T := (es.map fun e : ℚ => (e : ℝ)).sum with hT
  have habs : (es.map fun x : ℚ => |(x : ℝ)|).sum = T := by
    rw [hT]
    congr 1
    refine List.map_congr_left fun x hx => abs_of_nonneg ?_
    exact_mod_cast hpos x hx
  have hg := grow_le (f := f) (n := es.length) (by linarith)
  have hg0 := grow_nonneg (f := f) es.length
  rw [← hnn] at hg
  have hnε : n * ε ≤ 1/1000 * f.u := by
    calc n * ε ≤ n * (f.u * (f.u * f.u)) := by gcongr
      _ = (n * f.u) * (f.u * f.u) := by ring
      _ ≤ 1/1000 * (f.u * 1) := by
        gcongr
        exact hul.trans (by norm_num)
      _ = _ := by ring
  have hTE := (abs_le.mp herr).2
  have hue : f.u * E ≤ 1/1000 * E := by gcongr; exact hul.trans (by norm_num)
  have hT0 : 0 ≤ T := by rw [← habs]; exact List.sum_nonneg (by simp)
  have hTB : T ≤ 101/100 * E + 1/1000 * f.u := by linarith
  have hpow : (2 : ℝ) ^ (f.emax - 3) = 4 * 2 ^ (f.emax - 5) := by
    rw [show f.emax - 3 = (f.emax - 5) + 2 by ring, zpow_add₀ (by norm_num)]; norm_num; ring
  have hbig : (1 : ℝ) ≤ 2 ^ (f.emax - 5) := one_le_zpow₀ (by norm_num) (by have := hf.emax_ge; omega)
  have hul' : f.u ≤ 1 := hul.trans (by norm_num)
  obtain ⟨S, hS⟩ := foldl_add_fin hf es hrep (rep_zero f) (S := 0) (T := 0) (k := 0) (by simp)
    (by simp) (by rw [zero_add]; linarith) (by rw [habs, zero_add, hpow]; linarith)
  obtain ⟨hSr, hSe⟩ := foldl_add_err hf es hrep (rep_zero f) (S := 0) (T := 0) (k := 0) (by simp)
    (by simp) hS
  simp only [habs, zero_add, ← hT] at hSe
  have hgT : f.grow es.length * T ≤ (2 * n * f.u) * (101/100 * E + 1/1000 * f.u) := by
    gcongr
  have hSE : |(S : ℝ) - E| ≤ (203/100 * n + 2) * f.u * E + 1/100 * f.u := by
    have h1 := abs_sub_le (S : ℝ) T E
    have h2 : n * f.u * f.u ≤ 1/1000 * f.u := by gcongr
    have h3 : 0 ≤ n * f.u * E := by positivity
    nlinarith
  have hSB : |1 + (S : ℝ)| ≤ 1 + (E + ((203/100 * n + 2) * f.u * E + 1/100 * f.u)) := by
    have h1 := abs_add_le 1 (S : ℝ)
    have h2 := abs_sub_abs_le_abs_sub (S : ℝ) E
    rw [abs_of_nonneg hE0] at h2
    rw [abs_one] at h1
    linarith
  have hnE : n * f.u * E ≤ 1/1000 * E := by gcongr
  have hSB' : |1 + (S : ℝ)| ≤ 101/100 * (1 + E) := by linarith
  obtain ⟨N, hN, -⟩ := f.round_le (prec1 hf) (q := 1 + S) (k := f.emax - 3) (rat_le (by
    push_cast
    rw [hpow]
    linarith)) (by have := hf.emin_le; have := hf.emax_ge; omega) (by omega)
  obtain ⟨hNr, hNe⟩ := near_round_add hf hf.rep_one hSr hN
  push_cast at hNe
  refine ⟨N, ?_, hNr, ?_⟩
  · rw [hS]; exact hN
  · have h1 := abs_sub_le (N : ℝ) (1 + S) (1 + E)
    rw [add_sub_add_left_eq_sub] at h1
    have h2 : f.u * |1 + (S : ℝ)| ≤ f.u * (101/100 * (1 + E)) := by gcongr
    have h3 : 0 ≤ n * f.u * E := by positivity
    have h4 : 0 ≤ n * f.u := by positivity
    have h5 : 0 ≤ f.u * E := by positivity
    nlinarith

/-- the test against the tolerance passes -/
theorem tol_pass (hf : f.Std) {s : ℚ} (h : |(s : ℝ) - 1| ≤ 1 / 2 ^ 34) :
    Flt.lt (Flt.abs (Flt.sub f (.fin s) (.fin 1))) (f.round (1 / 10 ^ 10)) = true := by
  obtain ⟨t, ht, ht1, -⟩ := round_tol hf
  have h34 : |s - 1| ≤ 2 ^ (-34 : ℤ) := by
    refine rat_le ?_
    push_cast
    refine h.trans (by norm_num)
  obtain ⟨r, hr, hr2⟩ := f.round_le (prec1 hf) h34 (by have := hf.emin_le; omega)
    (by have := hf.emax_ge; omega)
  have hlt : |r| < t := by
    have : ((2 ^ (-34 : ℤ) : ℚ) : ℝ) < t := by
      rw [cast_zpow]; refine lt_of_lt_of_le ?_ ht1; norm_num
    exact lt_of_le_of_lt hr2 (by exact_mod_cast this)
  rw [ht, sub_fin, hr]
  simp only [Flt.abs, Flt.lt, decide_eq_true_eq]
  exact hlt

theorem categorical_new_flt (ps : List (Flt f L)) :
    Categorical.new ps =
      if ps.isEmpty then .error ⟨"Must have at least one category"⟩
      else if !ps.all (fun p => Flt.le (.fin 0) p) then .error ⟨"All probabilities must be non-negative"⟩
      else if Flt.lt (Flt.abs (Flt.sub f (ps.foldl (Flt.add f) (.fin 0)) (.fin 1))) (f.round (1 / 10 ^ 10))
      then .ok ⟨ps⟩ else .error ⟨"Probabilities must sum to 1"⟩ := rfl

theorem categorical_accepts (hf : f.Std) {ps : List ℚ} {s : ℚ} (hne : ps ≠ []) (h0 : ∀ p ∈ ps, 0 ≤ p)
    (hs : (ps.map FVal.fin).foldl (Flt.add f) (.fin 0) = .fin s) (h : |(s : ℝ) - 1| ≤ 1 / 2 ^ 34) :
    (Categorical.new (ps.map Flt.fin) : Except Panic (Categorical (Flt f L))) =
      .ok ⟨ps.map Flt.fin⟩ := by
  rw [categorical_new_flt, if_neg, if_neg, if_pos]
  · have e : (ps.map (Flt.fin (f := f) (L := L))).foldl (Flt.add f) (.fin 0) = .fin s := hs
    rw [e]
    exact tol_pass hf h
  · rw [Bool.not_eq_true, Bool.not_eq_false', List.all_eq_true]
    intro x hx
    obtain ⟨p, hp, rfl⟩ := List.mem_map.mp hx
    exact decide_eq_true (h0 p hp)
  · cases ps with
    | nil => exact absurd rfl hne
    | cons => simp

/-- sums of approximate probabilities -/
theorem sum_probs {ps : List ℚ} {ss : List ℝ} {c d : ℝ}
    (h : List.Forall₂ (fun (p : ℚ) (s : ℝ) => |(p : ℝ) - s| ≤ c * s + d) ps ss) :
    |(ps.map fun p : ℚ => (p : ℝ)).sum - ss.sum| ≤ c * ss.sum + ps.length * d := by
  induction h with
  | nil => simp
  | @cons p s ps ss h1 h2 ih =>
    simp only [List.map_cons, List.sum_cons, List.length_cons]
    have e1 : ((p : ℝ) + (ps.map fun p : ℚ => (p : ℝ)).sum) - (s + ss.sum) =
        ((p : ℝ) - s) + ((ps.map fun p : ℚ => (p : ℝ)).sum - ss.sum) := by ring
    rw [e1]
    have := abs_add_le ((p : ℝ) - s) ((ps.map fun p : ℚ => (p : ℝ)).sum - ss.sum)
    push_cast
    linarith

theorem softmax_sum (ηs : List ℝ) : (softmax ηs).sum = 1 := by
  have h0 : 0 ≤ (ηs.map Real.exp).sum :=
    List.sum_nonneg (by simp only [List.mem_map]; rintro _ ⟨a, -, rfl⟩; positivity)
  unfold softmax
  simp only [div_eq_mul_inv]
  rw [List.sum_map_mul_right, List.map_append, List.sum_append]
  simp only [List.map_cons, List.map_nil, List.sum_singleton, Real.exp_zero]
  rw [add_comm (ηs.map Real.exp).sum 1, mul_inv_cancel₀ (by linarith)]

/-- probabilities from log-odds, before the constructor -/
theorem softmax_flt (hf : f.Std) (hL : L.Accurate f) (ηs : List ℚ) (hη : ∀ q ∈ ηs, f.Representable q)
    (hn : (ηs.length : ℝ) * f.u ≤ 1/1000)
    (hB : (ηs.map fun q : ℚ => Real.exp q).sum ≤ 2 ^ (f.emax - 5)) :
    ∃ ps : List ℚ,
      (let es := (ηs.map FVal.fin).map (Flt.exp L)
       let N := Flt.add f (.fin 1) (es.foldl (Flt.add f) (.fin 0))
       es.map (fun e => Flt.div f e N) ++ [Flt.div f (.fin 1) N] = ps.map FVal.fin) ∧
      List.Forall₂ (fun (p : ℚ) (s : ℝ) => f.Representable p ∧ 0 ≤ p ∧
        |(p : ℝ) - s| ≤ (4 * ηs.length + 11) * f.u * s + 4 * 2 ^ f.emin)
        ps (softmax (ηs.map fun q : ℚ => (q : ℝ))) := by
  have hu := u_pos f
  have hul := hf.u_le
  have hpow : (2 : ℝ) ^ (f.emax - 5) < 2 ^ (f.emax - 1) :=
    zpow_lt_zpow_right₀ (by norm_num) (by omega)
  obtain ⟨es, he1, he2, he3⟩ := exps_flt hf hL ηs hη (by linarith)
  set E := (ηs.map fun q : ℚ => Real.exp q).sum with hE
  have hE0 : 0 ≤ E :=
    List.sum_nonneg (by simp only [List.mem_map]; rintro _ ⟨a, -, rfl⟩; positivity)
  have hlen := he2.length_eq
  obtain ⟨N, hN, hNr, hNe⟩ := normaliser_flt hf hE0 (es := es)
    (fun e he => by
      obtain ⟨i, hi, rfl⟩ := List.mem_iff_getElem.mp he
      exact ((List.forall₂_iff_get.mp he2).2 i hi (hlen ▸ hi)).1)
    (fun e he => by
      obtain ⟨i, hi, rfl⟩ := List.mem_iff_getElem.mp he
      exact ((List.forall₂_iff_get.mp he2).2 i hi (hlen ▸ hi)).2.1)
    (by rw [hlen]; exact he3) (by rw [hlen]; exact hn) hB
  rw [hlen] at hNe
  have hc : (3 * (ηs.length : ℝ) + 4) * f.u ≤ 1/100 := by norm_num at hul; linarith
  have hS : softmax (ηs.map fun q : ℚ => (q : ℝ)) =
      ηs.map (fun q : ℚ => Real.exp q / (1 + E)) ++ [1 / (1 + E)] := by
    unfold softmax
    simp only [List.map_append, List.map_map, List.map_cons, List.map_nil, Real.exp_zero]
    rfl
  -- one entry
  have entry : ∀ (a : ℚ) (e : ℝ), 0 ≤ a → 0 ≤ e → |(a : ℝ) - e| ≤ 2 * f.u * e + 2 ^ f.emin →
      e ≤ 1 + E → ∃ p, Flt.div f (.fin a) (.fin N) = .fin p ∧ f.Representable p ∧ 0 ≤ p ∧
      |(p : ℝ) - e / (1 + E)| ≤ (4 * ηs.length + 11) * f.u * (e / (1 + E)) + 4 * 2 ^ f.emin := by
    intro a e h1 h2 h3 h4
    obtain ⟨p, hp, hr, hp0, hpe⟩ := quot_near hf h1 h2 h3 (by linarith) h4 (by positivity) hNe hc
    refine ⟨p, hp, hr, hp0, hpe.trans ?_⟩
    have : 0 ≤ f.u * (e / (1 + E)) := by positivity
    nlinarith
  have many : ∀ (as qs : List ℚ), List.Forall₂ (fun (e : ℚ) (q : ℚ) => f.Representable e ∧ 0 ≤ e ∧
        |(e : ℝ) - Real.exp q| ≤ 2 * f.u * Real.exp q + 2 ^ f.emin) as qs →
      (∀ q ∈ qs, Real.exp (q : ℝ) ≤ 1 + E) →
      ∃ ps : List ℚ, (as.map FVal.fin).map (fun e => Flt.div f e (.fin N)) = ps.map FVal.fin ∧
      List.Forall₂ (fun (p : ℚ) (s : ℝ) => f.Representable p ∧ 0 ≤ p ∧
        |(p : ℝ) - s| ≤ (4 * ηs.length + 11) * f.u * s + 4 * 2 ^ f.emin)
        ps (qs.map (fun q : ℚ => Real.exp q / (1 + E))) := by
    intro as qs h
    induction h with
    | nil => intro _; exact ⟨[], rfl, .nil⟩
    | @cons a q as qs h1 h2 ih =>
      intro hq
      obtain ⟨ps, hp1, hp2⟩ := ih fun q hq' => hq q (by simp [hq'])
      obtain ⟨p, hp, hr, hp0, hpe⟩ := entry a _ h1.2.1 (Real.exp_pos q).le h1.2.2 (hq q (by simp))
      refine ⟨p :: ps, ?_, .cons ⟨hr, hp0, hpe⟩ hp2⟩
      simp only [List.map_cons, hp, hp1]
  obtain ⟨ps, hp1, hp2⟩ := many es ηs he2 fun q hq => by
    have : Real.exp (q : ℝ) ≤ E := by
      rw [hE]
      refine List.single_le_sum (l := ηs.map fun q : ℚ => Real.exp q) ?_ _ (List.mem_map.mpr ⟨q, hq, rfl⟩)
      simp only [List.mem_map]; rintro _ ⟨a, -, rfl⟩; positivity
    linarith
  have hε : (0 : ℝ) < 2 ^ f.emin := by positivity
  obtain ⟨p, hp, hr, hp0, hpe⟩ := entry 1 1 (by norm_num) (by norm_num) (by
    push_cast; rw [sub_self, abs_zero]; positivity) (by linarith)
  refine ⟨ps ++ [p], ?_, ?_⟩
  · simp only [he1, hN, hp1, hp, List.map_append, List.map_cons, List.map_nil]
  · rw [hS]
    exact List.rel_append hp2 (.cons ⟨hr, hp0, hpe⟩ .nil)

/-- **C102**: in double precision, a categorical distribution is built from every list of at most
65536 finite log-odds whose exponentials do not come near overflow.  Its probabilities are the
softmax probabilities, with a relative error of a few units of roundoff per category. -/
theorem C102_categorical_partial (hL : L.Accurate f64) {ηs : List ℚ}
    (hη : ∀ q ∈ ηs, f64.Representable q) (hn : ηs.length ≤ 2 ^ 16)
    (hB : (ηs.map fun q : ℚ => Real.exp q).sum ≤ 2 ^ 1000) :
    ∃ ps : List ℚ,
      (ExponentialFamily.fromNatural (ηs.map Flt.fin) : Except Panic (Categorical (Flt f64 L))) =
        .ok ⟨ps.map Flt.fin⟩ ∧
      List.Forall₂ (fun (p : ℚ) (s : ℝ) => 0 ≤ p ∧
        |(p : ℝ) - s| ≤ (4 * ηs.length + 11) * f64.u * s + 4 * 2 ^ (-1074 : ℤ))
        ps (softmax (ηs.map fun q : ℚ => (q : ℝ))) := by
  have hf : f64.Std := .inl rfl
  have hu : f64.u = 1 / 2 ^ 53 := rfl
  have hn' : (ηs.length : ℝ) ≤ 65536 := by exact_mod_cast hn
  obtain ⟨ps, h1, h2⟩ := softmax_flt hf hL ηs hη (by rw [hu]; norm_num; linarith) (hB.trans (by
    rw [← zpow_natCast]
    exact zpow_le_zpow_right₀ (by norm_num) (by norm_num [f64])))
  have hlen : ps.length = ηs.length + 1 := by
    rw [h2.length_eq]; simp [softmax]
  refine ⟨ps, ?_, h2.imp fun _ _ h => ⟨h.2.1, h.2.2⟩⟩
  have hunf : (ExponentialFamily.fromNatural (ηs.map Flt.fin) : Except Panic (Categorical (Flt f64 L))) =
      Categorical.new (ps.map Flt.fin) := congrArg Categorical.new h1
  rw [hunf]
  have hε : (2 : ℝ) ^ (f64.emin) ≤ 1 / 2 ^ 100 := by
    calc (2 : ℝ) ^ f64.emin ≤ 2 ^ (-100 : ℤ) := zpow_le_zpow_right₀ (by norm_num) (by norm_num [f64])
      _ = _ := by norm_num
  have hrep : ∀ p ∈ ps, f64.Representable p ∧ 0 ≤ p := fun p hp => by
    obtain ⟨i, hi, rfl⟩ := List.mem_iff_getElem.mp hp
    have := (List.forall₂_iff_get.mp h2).2 i hi (h2.length_eq ▸ hi)
    exact ⟨this.1, this.2.1⟩
  have hsum := sum_probs (c := (4 * ηs.length + 11) * f64.u) (d := 4 * 2 ^ f64.emin)
    (h2.imp fun _ _ h => h.2.2)
  rw [softmax_sum, mul_one, hlen] at hsum
  have habs : (ps.map fun x : ℚ => |(x : ℝ)|).sum = (ps.map fun x : ℚ => (x : ℝ)).sum := by
    congr 1
    refine List.map_congr_left fun x hx => abs_of_nonneg ?_
    exact_mod_cast (hrep x hx).2
  set T := (ps.map fun x : ℚ => (x : ℝ)).sum with hT
  push_cast at hsum
  have hsum' : |T - 1| ≤ (5 * ηs.length + 20) * f64.u := by
    refine hsum.trans ?_
    rw [hu]
    have h3 : ((ηs.length : ℝ) + 1) * (4 * 2 ^ f64.emin) ≤ (ηs.length + 1) * (4 * (1 / 2 ^ 100)) := by
      gcongr
    have h4 : (0 : ℝ) ≤ ηs.length := by positivity
    norm_num at h3 ⊢
    linarith
  have hT2 : T ≤ 5/4 := by
    have := (abs_le.mp hsum').2
    rw [hu] at this
    norm_num at this
    linarith
  have hg := grow_le (f := f64) (n := ps.length) (by rw [hu, hlen]; push_cast; norm_num; linarith)
  have hg0 := grow_nonneg (f := f64) ps.length
  rw [hlen] at hg
  push_cast at hg
  have hg1 : f64.grow (ηs.length + 1) ≤ 1 := by
    refine hg.trans ?_
    rw [hu]; norm_num; linarith
  obtain ⟨S, hS⟩ := foldl_add_fin hf ps (fun p hp => (hrep p hp).1) (rep_zero f64) (S := 0) (T := 0)
    (k := 0) (by simp) (by simp) (by rw [zero_add, hlen]; exact hg1) (by
      rw [habs, zero_add]
      refine hT2.trans ?_
      calc (5/4 : ℝ) ≤ 2 ^ (1 : ℤ) := by norm_num
        _ ≤ 2 ^ (f64.emax - 3) := zpow_le_zpow_right₀ (by norm_num) (by norm_num [f64]))
  have hSe := (foldl_add_err hf ps (fun p hp => (hrep p hp).1) (rep_zero f64) (S := 0) (T := 0) (k := 0)
    (by simp) (by simp) hS).2
  simp only [habs, zero_add, ← hT, hlen] at hSe
  refine categorical_accepts hf (by intro h; rw [h] at hlen; simp at hlen)
    (fun p hp => (hrep p hp).2) hS ?_
  have h5 : f64.grow (ηs.length + 1) * T ≤ (2 * (ηs.length + 1) * f64.u) * (5/4) :=
    mul_le_mul hg hT2 (by rw [← habs]; exact List.sum_nonneg (by simp))
      (mul_nonneg (mul_nonneg (by norm_num) (by have := Nat.cast_nonneg (α := ℝ) ηs.length; linarith))
        (u_pos f64).le)
  have h6 := abs_sub_le (S : ℝ) T 1
  rw [hu] at h5 hsum'
  norm_num at h5 hsum' ⊢
  linarith

/-- **C102**: the Bernoulli distribution with log-odds `η` exists in floating point for every finite
`η` whose exponential does not come near overflow, and its success probability is `sigmoid η` up to a
few units of roundoff. -/
theorem C102_bernoulli_partial (hf : f.Std) (hL : L.Accurate f) {η : ℚ} (hη : f.Representable η)
    (hB : Real.exp η ≤ 2 ^ (f.emax - 5)) :
    ∃ p : ℚ, (ExponentialFamily.fromNatural [Flt.fin η] : Except Panic (Bernoulli (Flt f L))) =
        .ok ⟨Flt.fin p⟩ ∧ 0 ≤ p ∧ p ≤ 1 ∧
      |(p : ℝ) - sigmoid η| ≤ 15 * f.u * sigmoid η + 4 * 2 ^ f.emin := by
  have hu := u_pos f
  have hul := hf.u_le
  have hpow : (2 : ℝ) ^ (f.emax - 5) < 2 ^ (f.emax - 1) :=
    zpow_lt_zpow_right₀ (by norm_num) (by omega)
  obtain ⟨e, he, her, he0, hee⟩ := exp_flt hf hL hη (by linarith)
  have hE0 := Real.exp_pos η
  have hN := normaliser_flt hf (es := [e]) hE0.le (by simpa using her) (by simpa using he0)
    (by simpa using hee) (by norm_num at hul ⊢; linarith) hB
  obtain ⟨N, hN, hNr, hNe⟩ := hN
  have hN' : Flt.add f (.fin 1) (.fin e) = .fin N := by
    rw [← hN]
    simp only [List.map_cons, List.map_nil, List.foldl_cons, List.foldl_nil]
    rw [zero_add_rep her]
  have h4 : |(N : ℝ) - (1 + Real.exp η)| ≤ 7 * f.u * (1 + Real.exp η) := by
    refine hNe.trans (le_of_eq ?_)
    simp only [List.length_singleton, Nat.cast_one]; ring
  obtain ⟨p, hp, hpr, hp0, hpe⟩ := quot_near hf he0 hE0.le hee (by linarith) (by linarith)
    (by norm_num) h4 (by norm_num at hul ⊢; linarith)
  have heN : e ≤ N := by
    -- rounding `1 + e` is monotone
    have h5 := Format.round_nearest f (q := 1 + e) hN' her
    by_contra hc
    rw [not_le] at hc
    rw [abs_of_pos (by linarith), add_sub_cancel_right, abs_one] at h5
    linarith
  have hN0 : 0 < N := by
    have h6 := (abs_le.mp h4).1
    have h7 : 7 * f.u * (1 + Real.exp η) ≤ 1/2 * (1 + Real.exp η) := by
      gcongr; norm_num at hul; linarith
    have : (0 : ℝ) < N := by linarith
    exact_mod_cast this
  have hp1 : p ≤ 1 := by
    have h5 : f.round (e / N) = .fin p := by
      rw [← hp]
      show _ = if N = 0 then _ else _
      rw [if_neg hN0.ne']
    have h6 := f.round_nearest h5 hf.rep_one
    have h7 : e / N ≤ 1 := by rw [div_le_one hN0]; exact heN
    rw [abs_of_nonpos (a := e / N - 1) (by linarith)] at h6
    have := neg_abs_le (e / N - p)
    linarith
  refine ⟨p, ?_, hp0, hp1, hpe.trans ?_⟩
  · have hunf : (ExponentialFamily.fromNatural [Flt.fin η] : Except Panic (Bernoulli (Flt f L))) =
        Bernoulli.new (F := Flt f L) (Flt.div f (L.exp η) (Flt.add f (.fin 1) (L.exp η))) := rfl
    rw [hunf, he, hN', hp]
    show (if (decide (0 ≤ p) && decide (p ≤ 1)) = true then _ else _) = _
    rw [if_pos (by simp [hp0, hp1])]
  · have : 0 ≤ f.u * (Real.exp η / (1 + Real.exp η)) := by positivity
    unfold sigmoid
    linarith

/-- **C102**: an exponential distribution is built from a natural parameter exactly when it is
negative, and its rate is exact. -/
theorem C102_exponential {η : ℚ} :
    (η < 0 → (ExponentialFamily.fromNatural [Flt.fin η] : Except Panic (Exponential (Flt f L))) =
      .ok ⟨Flt.fin (-η)⟩) ∧
    (¬ η < 0 → ∃ e, (ExponentialFamily.fromNatural [Flt.fin η] :
      Except Panic (Exponential (Flt f L))) = .error e) := by
  have hunf : (ExponentialFamily.fromNatural [Flt.fin η] : Except Panic (Exponential (Flt f L))) =
      if decide (0 < -η) = true then .ok ⟨Flt.fin (-η)⟩ else .error ⟨"Rate parameter must be positive"⟩ :=
    rfl
  rw [hunf]
  constructor
  · intro h; rw [if_pos (by simpa using h)]
  · intro h; rw [if_neg (by simpa using h)]; exact ⟨_, rfl⟩

/-- adding one to a number of the format -/
theorem add_one_flt (hf : f.Std) {η : ℚ} (hη : f.Representable η) :
    ∃ a : ℚ, Flt.add f (.fin η) (.fin 1) = .fin a ∧ f.Representable a ∧ (0 < a ↔ -1 < η) ∧
      |(a : ℝ) - (η + 1)| ≤ f.u * |(η : ℝ) + 1| := by
  obtain ⟨a, ha⟩ := round_add_small hf hη (d := 1) (by
    rw [abs_one]
    exact one_le_zpow₀ (by norm_num) (by have := hf.emax_ge; have := hf.prec_le; rcases hf with rfl | rfl <;> decide))
  obtain ⟨hr, he⟩ := near_round_add hf hη hf.rep_one ha
  have hu := u_pos f
  have hul := hf.u_le
  norm_num at hul
  push_cast at he
  refine ⟨a, ha, hr, ?_, he⟩
  have h1 : (0 < a ↔ (0 : ℝ) < a) := by norm_cast
  have h2 : (-1 < η ↔ (-1 : ℝ) < η) := by norm_cast
  rw [h1, h2]
  have h3 := abs_le.mp he
  constructor
  · intro h
    by_contra hc
    rw [abs_of_nonpos (by linarith)] at h3
    nlinarith
  · intro h
    rw [abs_of_pos (by linarith)] at h3
    nlinarith

/-- **C102**: a gamma distribution is built from natural parameters exactly when they are in range;
the rate is exact and the shape correctly rounded. -/
theorem C102_gamma (hf : f.Std) {η₁ η₂ : ℚ} (h₁ : f.Representable η₁) :
    (-1 < η₁ → η₂ < 0 → ∃ a : ℚ, |(a : ℝ) - (η₁ + 1)| ≤ f.u * (η₁ + 1) ∧
      (ExponentialFamily.fromNatural [Flt.fin η₁, Flt.fin η₂] : Except Panic (Gamma (Flt f L))) =
        .ok ⟨Flt.fin a, Flt.fin (-η₂)⟩) ∧
    (¬ (-1 < η₁ ∧ η₂ < 0) → ∃ e, (ExponentialFamily.fromNatural [Flt.fin η₁, Flt.fin η₂] :
      Except Panic (Gamma (Flt f L))) = .error e) := by
  obtain ⟨a, ha, -, hpos, he⟩ := add_one_flt hf h₁
  have hunf : (ExponentialFamily.fromNatural [Flt.fin η₁, Flt.fin η₂] : Except Panic (Gamma (Flt f L))) =
      Gamma.new (F := Flt f L) (Flt.add f (.fin η₁) (.fin 1)) (Flt.fin (-η₂)) := rfl
  have hunf2 : Gamma.new (F := Flt f L) (Flt.fin a) (Flt.fin (-η₂)) =
      if decide (0 < a) = true then if decide (0 < -η₂) = true then .ok ⟨Flt.fin a, Flt.fin (-η₂)⟩
        else .error ⟨"Rate parameter must be positive"⟩
      else .error ⟨"Shape parameter must be positive"⟩ := rfl
  rw [hunf, ha, hunf2]
  constructor
  · intro h1 h2
    have h1' : (-1 : ℝ) < η₁ := by exact_mod_cast h1
    rw [abs_of_pos (a := (η₁ : ℝ) + 1) (by linarith)] at he
    refine ⟨a, he, ?_⟩
    rw [if_pos (by simpa using hpos.mpr h1), if_pos (by simpa using h2)]
  · intro h
    split_ifs with h1 h2
    · exact absurd ⟨hpos.mp (by simpa using h1), by simpa using h2⟩ h
    · exact ⟨_, rfl⟩
    · exact ⟨_, rfl⟩

/-- **C102**: a beta distribution is built from natural parameters exactly when both exceed `-1`; its
parameters are correctly rounded. -/
theorem C102_beta (hf : f.Std) {η₁ η₂ : ℚ} (h₁ : f.Representable η₁) (h₂ : f.Representable η₂) :
    (-1 < η₁ → -1 < η₂ → ∃ a b : ℚ, |(a : ℝ) - (η₁ + 1)| ≤ f.u * (η₁ + 1) ∧
      |(b : ℝ) - (η₂ + 1)| ≤ f.u * (η₂ + 1) ∧
      (ExponentialFamily.fromNatural [Flt.fin η₁, Flt.fin η₂] : Except Panic (Beta (Flt f L))) =
        .ok ⟨Flt.fin a, Flt.fin b⟩) ∧
    (¬ (-1 < η₁ ∧ -1 < η₂) → ∃ e, (ExponentialFamily.fromNatural [Flt.fin η₁, Flt.fin η₂] :
      Except Panic (Beta (Flt f L))) = .error e) := by
  obtain ⟨a, ha, -, hpos, he⟩ := add_one_flt hf h₁
  obtain ⟨b, hb, -, hpos', he'⟩ := add_one_flt hf h₂
  have hunf : (ExponentialFamily.fromNatural [Flt.fin η₁, Flt.fin η₂] : Except Panic (Beta (Flt f L))) =
      Beta.new (F := Flt f L) (Flt.add f (.fin η₁) (.fin 1)) (Flt.add f (.fin η₂) (.fin 1)) := rfl
  have hunf2 : Beta.new (F := Flt f L) (Flt.fin a) (Flt.fin b) =
      if decide (0 < a) = true then if decide (0 < b) = true then .ok ⟨Flt.fin a, Flt.fin b⟩
        else .error ⟨"Beta parameter must be positive"⟩
      else .error ⟨"Alpha parameter must be positive"⟩ := rfl
  rw [hunf, ha, hb, hunf2]
  constructor
  · intro h1 h2
    have h1' : (-1 : ℝ) < η₁ := by exact_mod_cast h1
    have h2' : (-1 : ℝ) < η₂ := by exact_mod_cast h2
    rw [abs_of_pos (a := (η₁ : ℝ) + 1) (by linarith)] at he
    rw [abs_of_pos (a := (η₂ : ℝ) + 1) (by linarith)] at he'
    refine ⟨a, b, he, he', ?_⟩
    rw [if_pos (by simpa using hpos.mpr h1), if_pos (by simpa using hpos'.mpr h2)]
  · intro h
    split_ifs with h1 h2
    · exact absurd ⟨hpos.mp (by simpa using h1), hpos'.mp (by simpa using h2)⟩ h
    · exact ⟨_, rfl⟩
    · exact ⟨_, rfl⟩

end Verif
