import Verif.Props.DoubleRoundTrip

/-!
# C103: categorical distributions to log-odds and back in floating point
-/

namespace Verif
open Format FloatOps ExponentialFamily

variable {f : Format} {L : Libm}

theorem exp_sub_one_band {ε x : ℝ} (h : |x| ≤ ε) (hε : ε ≤ 1/10) :
    1 - (ε + ε ^ 2) ≤ Real.exp x ∧ Real.exp x ≤ 1 + (ε + ε ^ 2) := by
  have h1 := Real.abs_exp_sub_one_sub_id_le (x := x) (by linarith)
  have h2 := abs_le.mp h1
  have h3 := abs_le.mp h
  have h4 : x ^ 2 ≤ ε ^ 2 := sq_le_sq.mpr (h.trans (le_abs_self _))
  constructor <;> linarith

/-- A small change of the log-odds changes the probabilities by a small relative amount. -/
theorem softmax_perturb {ε : ℝ} (h0 : 0 ≤ ε) (hε : ε ≤ 1/20) {ηs ls : List ℝ}
    (h : List.Forall₂ (fun η l => |η - l| ≤ ε) ηs ls) :
    List.Forall₂ (fun s t => |s - t| ≤ 3 * ε * t ∧ 0 < t) (softmax ηs) (softmax ls) := by
  have hsum : Real.exp (-ε) * (1 + (ls.map Real.exp).sum) ≤ 1 + (ηs.map Real.exp).sum ∧
      1 + (ηs.map Real.exp).sum ≤ Real.exp ε * (1 + (ls.map Real.exp).sum) := by
    have e1 : Real.exp (-ε) ≤ 1 := by simpa using h0
    have e2 : 1 ≤ Real.exp ε := by simpa using h0
    have : Real.exp (-ε) * (ls.map Real.exp).sum ≤ (ηs.map Real.exp).sum ∧
        (ηs.map Real.exp).sum ≤ Real.exp ε * (ls.map Real.exp).sum := by
      induction h with
      | nil => simp
      | @cons η l _ _ hd _ ih =>
        have hd' := abs_le.mp hd
        have a : Real.exp (-ε) * Real.exp l ≤ Real.exp η := by
          rw [← Real.exp_add]; exact Real.exp_le_exp.mpr (by linarith)
        have b : Real.exp η ≤ Real.exp ε * Real.exp l := by
          rw [← Real.exp_add]; exact Real.exp_le_exp.mpr (by linarith)
        simp only [List.map_cons, List.sum_cons, mul_add]
        constructor <;> linarith [ih.1, ih.2]
    constructor <;> linarith [this.1, this.2]
  have hN : 0 < 1 + (ls.map Real.exp).sum := by
    have : 0 ≤ (ls.map Real.exp).sum := List.sum_nonneg fun x hx => by
      obtain ⟨y, _, rfl⟩ := List.mem_map.mp hx; exact (Real.exp_pos y).le
    linarith
  have hN' : 0 < 1 + (ηs.map Real.exp).sum := lt_of_lt_of_le (by positivity) hsum.1
  unfold softmax
  set N := 1 + (ls.map Real.exp).sum
  set N' := 1 + (ηs.map Real.exp).sum
  rw [List.forall₂_map_left_iff, List.forall₂_map_right_iff]
  refine (List.rel_append h (.cons (by simpa using h0) .nil)).imp fun η l hd => ?_
  have hd' := abs_le.mp hd
  have ht : 0 < Real.exp l / N := by positivity
  refine ⟨?_, ht⟩
  have up : Real.exp η / N' ≤ Real.exp (2 * ε) * (Real.exp l / N) := by
    rw [div_le_iff₀ hN']
    have : Real.exp η ≤ Real.exp (2 * ε) * (Real.exp l / N) * (Real.exp (-ε) * N) := by
      have e : Real.exp (2 * ε) * (Real.exp l / N) * (Real.exp (-ε) * N) = Real.exp (2 * ε + l + -ε) := by
        rw [Real.exp_add, Real.exp_add]; field_simp
      rw [e]; exact Real.exp_le_exp.mpr (by linarith)
    exact this.trans (mul_le_mul_of_nonneg_left hsum.1 (by positivity))
  have lo : Real.exp (-(2 * ε)) * (Real.exp l / N) ≤ Real.exp η / N' := by
    rw [le_div_iff₀ hN']
    have : Real.exp (-(2 * ε)) * (Real.exp l / N) * (Real.exp ε * N) ≤ Real.exp η := by
      have e : Real.exp (-(2 * ε)) * (Real.exp l / N) * (Real.exp ε * N) = Real.exp (-(2 * ε) + l + ε) := by
        rw [Real.exp_add, Real.exp_add]; field_simp
      rw [e]; exact Real.exp_le_exp.mpr (by linarith)
    exact (mul_le_mul_of_nonneg_left hsum.2 (by positivity)).trans this
  have b1 := exp_sub_one_band (x := 2 * ε) (ε := 2 * ε) (by rw [abs_of_nonneg (by linarith)]) (by linarith)
  have b2 := exp_sub_one_band (x := -(2 * ε)) (ε := 2 * ε) (by rw [abs_neg, abs_of_nonneg (by linarith)]) (by linarith)
  have hq : (2 * ε) ^ 2 ≤ ε := by nlinarith
  have u1 := mul_le_mul_of_nonneg_right b1.2 ht.le
  have u2 := mul_le_mul_of_nonneg_right b2.1 ht.le
  have u3 := mul_le_mul_of_nonneg_right hq ht.le
  rw [abs_le]
  constructor <;> linarith

/-- The log-odds of two probabilities as computed. -/
theorem log_odds_flt (hf : f.Std) (hL : L.Accurate f) {p q : ℚ} (hp : f.Representable p) (hq : f.Representable q)
    (p0 : 1 / 2 ^ 60 ≤ (p : ℝ)) (p1 : (p : ℝ) ≤ 1) (q0 : 1 / 2 ^ 60 ≤ (q : ℝ)) (q1 : (q : ℝ) ≤ 1) :
    ∃ η : ℚ, FloatOps.ln ((Flt.fin p : Flt f L) /. Flt.fin q) = Flt.fin η ∧ f.Representable η ∧
      |(η : ℝ) - Real.log (p / q)| ≤ 100 * f.u := by
  have hu := u_pos f
  have hul := hf.u_le
  norm_num at hul
  have hp0 : (0 : ℝ) < p := lt_of_lt_of_le (by norm_num) p0
  have hq0 : (0 : ℝ) < q := lt_of_lt_of_le (by norm_num) q0
  have hp0' : 0 < p := by exact_mod_cast hp0
  have hq0' : 0 < q := by exact_mod_cast hq0
  have hole : (p : ℝ) ≤ p / q := by rw [le_div_iff₀ hq0]; nlinarith
  have hB : (p : ℝ) / q ≤ 2 ^ 60 := by
    rw [div_le_iff₀ hq0]
    have : (1 : ℝ) ≤ 2 ^ 60 * q := by
      have := mul_le_mul_of_nonneg_left q0 (by positivity : (0 : ℝ) ≤ 2 ^ 60)
      norm_num at this ⊢; linarith
    linarith
  obtain ⟨o, ho, hon⟩ := App.div_rel hf (App.pos hp0' hp) (App.pos hq0' hq) hq0 le_rfl le_rfl (m := 8)
    (by norm_num) (by norm_num) (u_cube_le_tiny hf (p0.trans hole)) (hB.trans (by norm_num))
  set O := (p : ℝ) / q with hO
  have hO0 : 0 < O := by positivity
  have hoab := abs_le.mp hon.err
  have hOu : f.u * O ≤ 1/16777216 * O := mul_le_mul_of_nonneg_right hul hO0.le
  have ho0 : (0 : ℝ) < o := by linarith
  have ho0' : 0 < o := by exact_mod_cast ho0
  obtain ⟨η, hη, hηr, hηe⟩ := hL.ln o ho0' hon.rep
  set l := Real.log O with hl
  have hlo' : |Real.log o - l| ≤ 9 * f.u := by
    rw [hl, ← Real.log_div ho0.ne' hO0.ne', abs_le]
    have h1 : 1 - 8 * f.u ≤ (o : ℝ) / O := by rw [le_div_iff₀ hO0]; linarith
    have h2 : (o : ℝ) / O ≤ 1 + 8 * f.u := by rw [div_le_iff₀ hO0]; linarith
    have h3 : 0 < (o : ℝ) / O := by positivity
    constructor
    · have h4 := Real.one_sub_inv_le_log_of_pos h3
      have h5 : ((o : ℝ) / O)⁻¹ ≤ 1 + 9 * f.u := by
        rw [inv_le_comm₀ h3 (by linarith)]
        refine le_trans ?_ h1
        rw [inv_le_iff_one_le_mul₀ (by linarith)]
        nlinarith
      linarith
    · have h4 := Real.log_le_sub_one_of_pos h3
      linarith
  have hl42 : |l| ≤ 42 := by
    have l2 := Real.log_two_lt_d9
    have h60 : (60 : ℝ) * Real.log 2 = Real.log (2 ^ 60) := by rw [Real.log_pow]; norm_num
    have up : l ≤ 60 * Real.log 2 := by
      rw [hl, h60]
      exact Real.log_le_log hO0 hB
    have lo : -(60 * Real.log 2) ≤ l := by
      rw [hl, h60, ← Real.log_inv]
      refine Real.log_le_log (by positivity) (le_trans ?_ (p0.trans hole))
      rw [one_div]
    rw [abs_le]; constructor <;> linarith
  have hll : |Real.log (o : ℝ)| ≤ |l| + 9 * f.u := by
    have := abs_add_le (Real.log (o : ℝ) - l) l
    rw [sub_add_cancel] at this
    linarith
  refine ⟨η, ?_, hηr, ?_⟩
  · show Flt.ln L (Flt.div f (.fin p) (.fin q)) = _
    rw [ho]
    simp only [Flt.ln, if_pos ho0', hη]
  · have h1 := abs_sub_le (η : ℝ) (Real.log o) l
    have h2 : 2 * f.u * |Real.log (o : ℝ)| ≤ 2 * f.u * (|l| + 9 * f.u) := by gcongr
    have h3 : f.u * f.u ≤ 1/16777216 * f.u := mul_le_mul_of_nonneg_right hul hu.le
    have h4 : f.u * |l| ≤ f.u * 42 := by gcongr
    linarith

theorem softmax_log_odds {ps : List ℝ} {q : ℝ} (hp : ∀ p ∈ ps, 0 < p) (hq : 0 < q) :
    softmax (ps.map fun p => Real.log (p / q)) = (ps ++ [q]).map fun p => p / (ps ++ [q]).sum := by
  have e : (ps.map fun p => Real.log (p / q)).map Real.exp = ps.map fun p => p / q := by
    rw [List.map_map]
    exact List.map_congr_left fun p h => Real.exp_log (div_pos (hp p h) hq)
  have hs : 1 + (ps.map fun p => p / q).sum = (ps ++ [q]).sum / q := by
    have : (ps.map fun p => p / q).sum = ps.sum / q := by
      simp only [div_eq_mul_inv, List.sum_map_mul_right, List.map_id']
    rw [this, List.sum_append, List.sum_singleton]
    field_simp
    ring
  have hS : 0 < (ps ++ [q]).sum := by
    have : 0 ≤ ps.sum := List.sum_nonneg fun p h => (hp p h).le
    rw [List.sum_append, List.sum_singleton]; linarith
  unfold softmax
  rw [e, hs, List.map_append, List.map_append, List.map_map]
  congr 1
  · refine List.map_congr_left fun p h => ?_
    simp only [Function.comp]
    rw [Real.exp_log (div_pos (hp p h) hq)]
    field_simp
  · simp

/-- **C103**: a categorical distribution with at most 65537 probabilities, each at least `2^-60`, survives the trip
to log-odds and back in double precision: every probability is the old one divided by the sum of the old
ones, to within a few units of roundoff per category. -/
theorem C103_categorical_partial (hL : L.Accurate f64) {ps : List ℚ} {d : Categorical (Flt f64 L)}
    (hd : Categorical.new (ps.map Flt.fin) = .ok d) (hr : ∀ p ∈ ps, f64.Representable p)
    (hlo : ∀ p ∈ ps, 1 / 2 ^ 60 ≤ (p : ℝ)) (hhi : ∀ p ∈ ps, (p : ℝ) ≤ 1) (hn : ps.length ≤ 2 ^ 16 + 1) :
    ∃ ps' : List ℚ, (fromNatural (toNatural d) : Except Panic (Categorical (Flt f64 L))) = .ok ⟨ps'.map Flt.fin⟩ ∧
      List.Forall₂ (fun p' p : ℚ => |(p' : ℝ) - p / (ps.sum : ℚ)| ≤ (4 * ps.length + 320) * f64.u * (p / (ps.sum : ℚ)))
        ps' ps := by
  have hf : f64.Std := .inl rfl
  have hu : f64.u = 1 / 2 ^ 53 := rfl
  rcases List.eq_nil_or_concat ps with rfl | ⟨xs, q, rfl⟩
  · simp [Categorical.new] at hd
  rw [List.concat_eq_append] at *
  have hd' : d = ⟨(xs ++ [q]).map Flt.fin⟩ := by
    unfold Categorical.new at hd
    split at hd <;> try split at hd
    all_goals first | (simp at hd; done) | skip
    split at hd
    · exact (Except.ok.inj hd).symm
    · simp at hd
  have hqm : q ∈ xs ++ [q] := by simp
  have hq0 : (0 : ℝ) < q := lt_of_lt_of_le (by norm_num) (hlo q hqm)
  have hx0 : ∀ p ∈ xs, (0 : ℝ) < p := fun p h => lt_of_lt_of_le (by norm_num) (hlo p (by simp [h]))
  -- the log-odds
  have key : ∃ ηs : List ℚ, (xs.map fun p => FloatOps.ln ((Flt.fin p : Flt f64 L) /. Flt.fin q)) = ηs.map Flt.fin ∧
      (∀ η ∈ ηs, f64.Representable η) ∧
      List.Forall₂ (fun (η p : ℚ) => |(η : ℝ) - Real.log (p / q)| ≤ 100 * f64.u) ηs xs := by
    have : ∀ p ∈ xs, ∃ η : ℚ, FloatOps.ln ((Flt.fin p : Flt f64 L) /. Flt.fin q) = Flt.fin η ∧ f64.Representable η ∧
        |(η : ℝ) - Real.log (p / q)| ≤ 100 * f64.u := fun p h =>
      log_odds_flt hf hL (hr p (by simp [h])) (hr q hqm) (hlo p (by simp [h])) (hhi p (by simp [h])) (hlo q hqm) (hhi q hqm)
    clear hd hd' hr hlo hhi hn hqm hx0
    induction xs with
    | nil => exact ⟨[], rfl, by simp, .nil⟩
    | cons p xs ih =>
      obtain ⟨ηs, a, b, c⟩ := ih fun p h => this p (by simp [h])
      obtain ⟨η, a', b', c'⟩ := this p (by simp)
      exact ⟨η :: ηs, by simp [a, a'], by simpa using ⟨b', b⟩, .cons c' c⟩
  obtain ⟨ηs, e1, e2, e3⟩ := key
  have hnat : toNatural d = ηs.map Flt.fin := by
    rw [hd', ← e1]
    show Categorical.logOdds _ = _
    simp [Categorical.logOdds, List.map_append, Function.comp_def]
  have hlen : ηs.length = xs.length := e3.length_eq
  rw [List.length_append, List.length_singleton] at hn
  have hpert := softmax_perturb (ε := 100 * f64.u) (ηs := ηs.map fun η : ℚ => (η : ℝ))
    (ls := (xs.map fun p : ℚ => (p : ℝ)).map fun p => Real.log (p / q)) (by rw [hu]; norm_num) (by rw [hu]; norm_num) (by
      rw [List.forall₂_map_left_iff, List.map_map, List.forall₂_map_right_iff]; exact e3)
  rw [softmax_log_odds (by simpa using hx0) hq0] at hpert
  have hS : ((xs.map fun p : ℚ => (p : ℝ)) ++ [(q : ℝ)]).sum = ((xs ++ [q]).sum : ℚ) := by
    push_cast; simp
  have hmap : ((xs.map fun p : ℚ => (p : ℝ)) ++ [(q : ℝ)]) = (xs ++ [q]).map fun p : ℚ => (p : ℝ) := by simp
  rw [hS, hmap, List.map_map, List.forall₂_map_right_iff] at hpert
  have hB : (ηs.map fun η : ℚ => Real.exp η).sum ≤ 2 ^ 1000 := by
    have : ∀ η ∈ ηs, Real.exp η ≤ 2 ^ 61 := by
      intro η h
      obtain ⟨i, hi, rfl⟩ := List.mem_iff_getElem.mp h
      have hc := (List.forall₂_iff_get.mp e3).2 i hi (hlen ▸ hi)
      have hm : xs.get ⟨i, hlen ▸ hi⟩ ∈ xs ++ [q] := by simp
      have p0 := hx0 _ (List.get_mem xs ⟨i, hlen ▸ hi⟩)
      have p1 := hhi _ hm
      set p := xs.get ⟨i, hlen ▸ hi⟩
      have h1 := (abs_le.mp hc).2
      have h2 : (p : ℝ) / q ≤ 2 ^ 60 := by
        rw [div_le_iff₀ hq0]
        have := mul_le_mul_of_nonneg_left (hlo q hqm) (by positivity : (0 : ℝ) ≤ 2 ^ 60)
        norm_num at this ⊢; linarith
      have h3 : (ηs.get ⟨i, hi⟩ : ℝ) ≤ Real.log (p / q) + Real.log 2 := by
        have := Real.log_two_gt_d9
        rw [hu] at h1; norm_num at h1 ⊢; linarith
      calc Real.exp (ηs.get ⟨i, hi⟩ : ℝ) ≤ Real.exp (Real.log (p / q) + Real.log 2) := Real.exp_le_exp.mpr h3
        _ = p / q * 2 := by rw [Real.exp_add, Real.exp_log (by positivity), Real.exp_log (by norm_num)]
        _ ≤ _ := by norm_num at h2 ⊢; linarith
    have := List.sum_le_card_nsmul (ηs.map fun η : ℚ => Real.exp η) (2 ^ 61) (by simpa using this)
    refine this.trans ?_
    rw [List.length_map, nsmul_eq_mul]
    have : (ηs.length : ℝ) ≤ 2 ^ 16 := by rw [hlen]; exact_mod_cast (by omega : xs.length ≤ 2 ^ 16)
    calc (ηs.length : ℝ) * 2 ^ 61 ≤ 2 ^ 16 * 2 ^ 61 := by gcongr
      _ ≤ 2 ^ 1000 := by rw [← pow_add]; exact pow_le_pow_right₀ (by norm_num) (by norm_num)
  obtain ⟨ps', h1, h2⟩ := C102_categorical_partial hL e2 (by rw [hlen]; omega) hB
  refine ⟨ps', by rw [hnat]; exact h1, ?_⟩
  have hcomb := List.forall₂_iff_get.mp h2
  have hcomb' := List.forall₂_iff_get.mp hpert
  rw [List.forall₂_iff_get]
  have hl' : ps'.length = (xs ++ [q]).length := hcomb.1.trans hcomb'.1
  refine ⟨hl', fun i hi hj => ?_⟩
  have a := (hcomb.2 i hi (hcomb.1 ▸ hi)).2
  have b := hcomb'.2 i (hcomb.1 ▸ hi) hj
  simp only [Function.comp] at b
  obtain ⟨b, b0⟩ := b
  have hm : (xs ++ [q]).get ⟨i, hj⟩ ∈ xs ++ [q] := List.get_mem _ _
  have lo := hlo _ hm
  set t := (((xs ++ [q]).get ⟨i, hj⟩ : ℚ) : ℝ) / ((xs ++ [q]).sum : ℚ)
  set s := (softmax (ηs.map fun q : ℚ => (q : ℝ))).get ⟨i, hcomb.1 ▸ hi⟩
  have hSle : (((xs ++ [q]).sum : ℚ) : ℝ) ≤ 2 ^ 17 := by
    have := List.sum_le_card_nsmul ((xs ++ [q]).map fun p : ℚ => (p : ℝ)) 1 (by
      intro y hy; obtain ⟨z, hz, rfl⟩ := List.mem_map.mp hy; exact hhi z hz)
    rw [← hmap, hS, hmap, List.length_map, nsmul_eq_mul, mul_one, List.length_append, List.length_singleton] at this
    refine this.trans ?_
    exact_mod_cast (by omega : xs.length + 1 ≤ 2 ^ 17)
  have hS0 : (0 : ℝ) < ((xs ++ [q]).sum : ℚ) := by
    rw [← hS, List.sum_append, List.sum_singleton]
    have : 0 ≤ (xs.map fun p : ℚ => (p : ℝ)).sum := List.sum_nonneg fun y hy => by
      obtain ⟨z, hz, rfl⟩ := List.mem_map.mp hy; exact (hx0 z hz).le
    linarith
  have ht : 1 / 2 ^ 77 ≤ t := by
    rw [le_div_iff₀ hS0]
    refine le_trans ?_ lo
    calc (1 : ℝ) / 2 ^ 77 * ((xs ++ [q]).sum : ℚ) ≤ 1 / 2 ^ 77 * 2 ^ 17 := by gcongr
      _ = 1 / 2 ^ 60 := by norm_num
  have htiny : 4 * (2 : ℝ) ^ (-1074 : ℤ) ≤ f64.u * t := by
    calc 4 * (2 : ℝ) ^ (-1074 : ℤ) ≤ 4 * 2 ^ (-140 : ℤ) := by
          exact mul_le_mul_of_nonneg_left (zpow_le_zpow_right₀ (by norm_num) (by norm_num)) (by norm_num)
      _ ≤ f64.u * (1 / 2 ^ 77) := by rw [hu]; norm_num
      _ ≤ _ := by rw [hu]; gcongr
  have hs : s ≤ t + 300 * f64.u * t := by have := (abs_le.mp b).2; linarith
  have hn' : (xs.length : ℝ) ≤ 65536 := by exact_mod_cast (by omega : xs.length ≤ 65536)
  have hx : (0 : ℝ) ≤ xs.length := Nat.cast_nonneg _
  have h3 := abs_sub_le ((ps'.get ⟨i, hi⟩ : ℚ) : ℝ) s t
  rw [hlen] at a
  have hu0 : 0 < f64.u := u_pos f64
  have h4 : (4 * (xs.length : ℝ) + 11) * f64.u * s ≤ (4 * (xs.length : ℝ) + 11) * f64.u * (t + 300 * f64.u * t) := by gcongr
  have h5 : (4 * (xs.length : ℝ) + 11) * f64.u * (300 * f64.u * t) ≤ f64.u * t := by
    have : (4 * (xs.length : ℝ) + 11) * (300 * f64.u) ≤ 1 := by rw [hu]; norm_num; linarith
    calc _ = ((4 * (xs.length : ℝ) + 11) * (300 * f64.u)) * (f64.u * t) := by ring
      _ ≤ 1 * (f64.u * t) := by gcongr
      _ = _ := one_mul _
  rw [List.length_append, List.length_singleton]
  push_cast
  have h6 : 0 ≤ f64.u * t := by positivity
  linarith

/-- the hypotheses hold: probabilities 1/2, 1/4, 1/4 -/
example : ∃ (L : Libm) (d : Categorical (Flt f64 L)), L.Accurate f64 ∧
    Categorical.new ([1/2, 1/4, 1/4].map (Flt.fin (f := f64) (L := L))) = .ok d ∧
    (∀ p ∈ [1/2, 1/4, (1/4 : ℚ)], f64.Representable p ∧ 1 / 2 ^ 60 ≤ (p : ℝ) ∧ (p : ℝ) ≤ 1) := by
  have hf : f64.Std := .inl rfl
  obtain ⟨L, hL⟩ := exists_libm hf
  have r2 : f64.Representable (1/2) := hf.rep_half
  have r4 : f64.Representable (1/4) := by
    have := hf.rep_of 1 (-2) (by norm_num) (by norm_num) (by norm_num)
    norm_num at this ⊢; exact this
  have r3 : f64.Representable (3/4) := by
    have := hf.rep_of 3 (-2) (by norm_num) (by norm_num) (by norm_num)
    norm_num at this ⊢; exact this
  refine ⟨L, _, hL, categorical_accepts hf (s := 1) (by simp) (by norm_num) ?_ (by norm_num), ?_⟩
  · have h1 : Flt.add f64 (.fin 0) (.fin (1/2)) = .fin (1/2) := by
      show f64.round (0 + 1/2) = _; rw [zero_add]; exact f64.round_exact r2
    have h2 : Flt.add f64 (.fin (1/2)) (.fin (1/4)) = .fin (3/4) := by
      show f64.round (1/2 + 1/4) = _
      rw [show (1/2 + 1/4 : ℚ) = 3/4 by norm_num]; exact f64.round_exact r3
    have h3 : Flt.add f64 (.fin (3/4)) (.fin (1/4)) = .fin 1 := by
      show f64.round (3/4 + 1/4) = _
      rw [show (3/4 + 1/4 : ℚ) = 1 by norm_num]; exact f64.round_exact hf.rep_one
    simp only [List.map_cons, List.map_nil, List.foldl_cons, List.foldl_nil]
    rw [h1, h2, h3]
  · simp only [List.mem_cons, List.not_mem_nil, or_false]
    rintro p (rfl | rfl | rfl)
    · exact ⟨r2, by norm_num, by norm_num⟩
    · exact ⟨r4, by norm_num, by norm_num⟩
    · exact ⟨r4, by norm_num, by norm_num⟩

/-- **C103 violated**: a categorical distribution whose last category has probability zero is accepted, but the
round trip panics. -/
theorem C103_categorical_violated (hf : f.Std) :
    ∃ d : Categorical (Flt f L), Categorical.new ([1, 0].map (Flt.fin (f := f) (L := L))) = .ok d ∧
      ∃ e, (fromNatural (toNatural d) : Except Panic (Categorical (Flt f L))) = .error e := by
  refine ⟨_, categorical_accepts hf (s := 1) (by simp) (by norm_num) ?_ (by norm_num), ?_⟩
  · have h1 : Flt.add f (.fin 0) (.fin 1) = .fin 1 := by
      show f.round (0 + 1) = _; rw [zero_add]; exact f.round_exact hf.rep_one
    have h2 : Flt.add f (.fin 1) (.fin 0) = .fin 1 := by
      show f.round (1 + 0) = _; rw [add_zero]; exact f.round_exact hf.rep_one
    simp only [List.map_cons, List.map_nil, List.foldl_cons, List.foldl_nil]
    rw [h1, h2]
  · exact ⟨_, rfl⟩

end Verif
