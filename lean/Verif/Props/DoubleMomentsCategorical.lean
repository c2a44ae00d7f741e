import Verif.Props.DoubleSum
import Verif.Props.DoubleNatural
import Verif.Props.DoubleDiscrete

/-!
# C118: mean and variance of a categorical distribution in floating point
-/

namespace Verif
open Format FloatOps

variable {f : Format} {L : Libm}

theorem mapIdx_ofFn {α β : Type} (g : ℕ → α → β) (l : List α) :
    l.mapIdx g = List.ofFn fun i : Fin l.length => g i l[i] := by
  apply List.ext_getElem <;> simp

/-- a sum of computed terms -/
theorem sum_near {n : ℕ} (hf : f.Std) (T : Fin n → Flt f L) (y w : Fin n → ℝ)
    (hT : ∀ i, ∃ t : ℚ, T i = Flt.fin t ∧ f.Representable t ∧ |(t : ℝ) - y i| ≤ w i)
    (hn : n * f.u ≤ 1/2) (hs : ∑ i, (|y i| + w i) ≤ 2 ^ (f.emax - 3)) :
    ∃ r : ℚ, FloatOps.sum (List.ofFn T) = Flt.fin (f := f) (L := L) r ∧ f.Representable r ∧
      |(r : ℝ) - ∑ i, y i| ≤ ∑ i, w i + 2 * n * f.u * ∑ i, (|y i| + w i) := by
  choose t ht hr he using hT
  have e1 : List.ofFn T = (List.ofFn t).map (Flt.fin (f := f) (L := L)) := by
    rw [List.map_ofFn]; congr 1; funext i; exact ht i
  have hx : ∀ x ∈ List.ofFn t, f.Representable x := by
    intro x hx
    obtain ⟨i, rfl⟩ := (List.mem_ofFn' t x).mp hx
    exact hr i
  have hs1 : ((List.ofFn t).map (fun x : ℚ => (x : ℝ))).sum = ∑ i, (t i : ℝ) := by
    rw [List.map_ofFn, List.sum_ofFn]; rfl
  have hs2 : ((List.ofFn t).map (fun x : ℚ => |(x : ℝ)|)).sum = ∑ i, |(t i : ℝ)| := by
    rw [List.map_ofFn, List.sum_ofFn]; rfl
  have hle : ∑ i, |(t i : ℝ)| ≤ ∑ i, (|y i| + w i) := by
    refine Finset.sum_le_sum fun i _ => ?_
    have := abs_sub_abs_le_abs_sub (t i : ℝ) (y i)
    linarith [he i]
  have hlen : (List.ofFn t).length = n := List.length_ofFn
  obtain ⟨r, hsum⟩ := C91_sum_finite (L := L) hf (List.ofFn t) hx (by rw [hlen]; exact hn)
    (by rw [hs2]; exact hle.trans hs)
  have hrep : f.Representable r := by
    rw [sum_flt] at hsum
    exact (foldl_add_err hf _ hx (rep_zero f) (S := 0) (T := 0) (k := 0) (by simp) (by simp) hsum).1
  refine ⟨r, by rw [e1]; exact hsum, hrep, ?_⟩
  have h1 := C91_sum hf (List.ofFn t) hx hsum
  rw [hs1, hs2, hlen] at h1
  have h2 : |∑ i, (t i : ℝ) - ∑ i, y i| ≤ ∑ i, w i := by
    rw [← Finset.sum_sub_distrib]
    exact (Finset.abs_sum_le_sum_abs _ _).trans (Finset.sum_le_sum fun i _ => he i)
  have h3 := grow_le (f := f) hn
  have h0 : 0 ≤ ∑ i, |(t i : ℝ)| := Finset.sum_nonneg fun i _ => abs_nonneg _
  have h4 : ((1 + f.u) ^ n - 1) * ∑ i, |(t i : ℝ)| ≤ 2 * n * f.u * ∑ i, (|y i| + w i) := by
    have hg := grow_nonneg (f := f) n
    exact mul_le_mul h3 hle h0 (hg.trans h3)
  have h5 := abs_sub_le (r : ℝ) (∑ i, (t i : ℝ)) (∑ i, y i)
  linarith

/-- what the constructor guarantees about the exact sum -/
theorem categorical_total (hf : f.Std) {ps : List ℚ} (hp : ∀ p ∈ ps, f.Representable p)
    (hn : 256 * ps.length * f.u ≤ 1) {d : Categorical (Flt f L)}
    (h : Categorical.new (ps.map (Flt.fin (f := f) (L := L))) = .ok d) :
    d = ⟨ps.map (Flt.fin (f := f) (L := L))⟩ ∧ 0 < ps.length ∧ (∀ p ∈ ps, 0 ≤ p) ∧
      ∑ i : Fin ps.length, (ps[i] : ℝ) ≤ 51/50 := by
  have hu := u_pos f
  rw [categorical_new_flt] at h
  split_ifs at h with h1 h2 h3
  have hnn : ∀ p ∈ ps, 0 ≤ p := by
    intro p hp
    simp only [Bool.not_eq_true', Bool.not_eq_false, List.all_map, List.all_eq_true] at h2
    have : decide ((0 : ℚ) ≤ p) = true := h2 p hp
    simpa using this
  refine ⟨(Except.ok.inj h).symm, ?_, hnn, ?_⟩
  · cases ps with
    | nil => simp at h1
    | cons => simp
  have hfold : (ps.map (Flt.fin (f := f) (L := L))).foldl (Flt.add f) (.fin 0) =
    (ps.map FVal.fin).foldl (Flt.add f) (.fin 0) := rfl
  rw [hfold] at h3
  obtain ⟨t, ht, -, ht2⟩ := round_tol hf
  rw [ht] at h3
  cases hs : (ps.map FVal.fin).foldl (Flt.add f) (.fin 0) with
  | nan => rw [hs] at h3; simp [Flt.sub, Flt.add, Flt.abs, Flt.lt] at h3
  | inf b => rw [hs] at h3; cases b <;> simp [Flt.sub, Flt.neg, Flt.add, Flt.abs, Flt.lt] at h3
  | fin s =>
    rw [hs, sub_fin] at h3
    obtain ⟨hrs, he⟩ := foldl_add_err hf ps hp (rep_zero f) (S := 0) (T := 0) (k := 0) (by simp) (by simp) hs
    have e1 : (ps.map (fun x : ℚ => |(x : ℝ)|)).sum = (ps.map (fun x : ℚ => (x : ℝ))).sum := by
      congr 1
      refine List.map_congr_left fun p hp => abs_of_nonneg ?_
      exact_mod_cast hnn p hp
    have e2 : (ps.map (fun x : ℚ => (x : ℝ))).sum = ∑ i : Fin ps.length, (ps[i] : ℝ) := by
      rw [← List.sum_ofFn]; congr 1
      apply List.ext_getElem <;> simp
    rw [e1, e2, zero_add, zero_add] at he
    set S := ∑ i : Fin ps.length, (ps[i] : ℝ)
    have hS0 : 0 ≤ S := Finset.sum_nonneg fun i _ => by exact_mod_cast hnn _ (List.getElem_mem _)
    have hg := grow_le (f := f) (n := ps.length) (by linarith)
    rcases f.round_cases (s - 1) with ⟨r, hr⟩ | hr
    · rw [hr] at h3
      simp only [Flt.abs, Flt.lt, decide_eq_true_eq] at h3
      have h4 : |(r : ℝ)| < t := by exact_mod_cast h3
      have h5 := (near_round_add hf hrs (rep_neg hf.rep_one) (r := r) (by rw [← sub_eq_add_neg]; exact hr)).2
      push_cast at h5
      rw [← sub_eq_add_neg] at h5
      have h6 := abs_sub_abs_le_abs_sub ((s : ℝ) - 1) r
      rw [abs_sub_comm ((s : ℝ) - 1) r] at h6
      have hul := hf.u_le
      have h7 : |(s : ℝ) - 1| ≤ 1/100 := by
        have : f.u * |(s : ℝ) - 1| ≤ 1/2 * |(s : ℝ) - 1| := by gcongr; norm_num at hul; linarith
        norm_num at ht2
        linarith
      have h8 := (abs_le.mp h7).2
      have h9 := (abs_le.mp he).1
      have h10 : f.grow ps.length * S ≤ 1/128 * S := by gcongr; linarith
      linarith
    · rw [hr] at h3
      simp [Flt.abs, Flt.lt] at h3

/-- per-term arithmetic of the variance -/
theorem variance_term {n u η p x d e v : ℝ} (hn : 1 ≤ n) (hu : 0 < u) (hnu : 256 * n * u ≤ 1)
    (hη : 0 ≤ η) (hp : 0 ≤ p) (hx : |x| ≤ 2 * n) (hd : |d - x| ≤ 12 * n ^ 2 * u)
    (he : |e - p * d| ≤ u * |p * d| + η) (hv : |v - e * d| ≤ u * |e * d| + η) :
    |v - p * (x * x)| ≤ 81 * n ^ 3 * u * p + 5 * n * η ∧ |e * d| ≤ 10 * n ^ 2 * p + 3 * n * η := by
  have hn0 : 0 ≤ n := by linarith
  have hnu' : n * u ≤ 1/256 := by linarith
  have hu1 : u ≤ 1/256 := by nlinarith
  have h1 : 12 * n ^ 2 * u ≤ n := by nlinarith
  have hd3 : |d| ≤ 3 * n := by
    have := abs_sub_abs_le_abs_sub d x
    linarith
  have hpd : |p * d| ≤ p * (3 * n) := by
    rw [abs_mul, abs_of_nonneg hp]; gcongr
  have he1 : |e - p * d| ≤ 3 * n * u * p + η := by
    have : u * |p * d| ≤ u * (p * (3 * n)) := by gcongr
    linarith
  have he2 : |e| ≤ 3 * n * p + (3 * n * u * p + η) := by
    have := abs_sub_abs_le_abs_sub e (p * d)
    linarith
  have he3 : |e| ≤ 10/3 * (n * p) + η := by
    have : 3 * n * u * p ≤ 1/3 * (n * p) := by
      have h0 : 0 ≤ n * p := by positivity
      nlinarith
    linarith
  have hed : |e * d| ≤ 10 * n ^ 2 * p + 3 * n * η := by
    rw [abs_mul]
    calc |e| * |d| ≤ (10/3 * (n * p) + η) * (3 * n) := by gcongr
      _ = _ := by ring
  refine ⟨?_, hed⟩
  have h2 : |v - e * d| ≤ 10 * n ^ 2 * u * p + 2 * η := by
    have h3 : u * |e * d| ≤ u * (10 * n ^ 2 * p + 3 * n * η) := by gcongr
    have h4 : u * (3 * n * η) ≤ 1 * η := by
      have : u * (3 * n) ≤ 1 := by linarith
      calc u * (3 * n * η) = u * (3 * n) * η := by ring
        _ ≤ 1 * η := by gcongr
    linarith
  have h5 : |e * d - p * d * d| ≤ 9 * n ^ 2 * u * p + 3 * n * η := by
    rw [← sub_mul, abs_mul]
    calc |e - p * d| * |d| ≤ (3 * n * u * p + η) * (3 * n) := by gcongr
      _ = _ := by ring
  have h6 : |p * d * d - p * (x * x)| ≤ 60 * n ^ 3 * u * p := by
    have e1 : p * d * d - p * (x * x) = p * ((d - x) * (d + x)) := by ring
    have h7 : |d + x| ≤ 5 * n := (abs_add_le _ _).trans (by linarith)
    rw [e1, abs_mul, abs_of_nonneg hp, abs_mul]
    calc p * (|d - x| * |d + x|) ≤ p * (12 * n ^ 2 * u * (5 * n)) := by gcongr
      _ = _ := by ring
  have h8 : n ^ 2 * u * p ≤ n ^ 3 * u * p := by
    have : n ^ 2 ≤ n ^ 3 := pow_le_pow_right₀ hn (by norm_num)
    gcongr
  have h9 : 2 * η ≤ 2 * n * η := by nlinarith
  have h10 := abs_sub_le v (e * d) (p * (x * x))
  have h11 := abs_sub_le (e * d) (p * d * d) (p * (x * x))
  have h12 : 0 ≤ n ^ 3 * u * p := by positivity
  linarith

theorem round_mul_fits (hf : f.Std) {a b : ℚ} (h : |(a : ℝ) * b| ≤ 2 ^ (90 : ℤ)) :
    ∃ r, f.round (a * b) = .fin r := by
  refine round_small hf (rat_le ?_)
  push_cast
  exact h.trans (zpow_le_zpow_right₀ (by norm_num) (by norm_num))

/-- one computed term of the variance -/
theorem variance_round (hf : f.Std) {n M : ℝ} {k m p : ℚ} (hn : 1 ≤ n) (hu : 0 < f.u)
    (hk : 256 * n * f.u ≤ 1) (hn45 : n ≤ 2 ^ (45 : ℤ)) (hη1 : (2 : ℝ) ^ f.emin ≤ 1/256)
    (hkr : f.Representable k) (hmr : f.Representable m) (hp : 0 ≤ (p : ℝ)) (hp1 : (p : ℝ) ≤ 51/50)
    (hx : |(k : ℝ) - M| ≤ 2 * n) (hδ : |(m : ℝ) - M| ≤ 9 * n ^ 2 * f.u) :
    ∃ t : ℚ, (Flt.fin p *. (Flt.fin k -. Flt.fin m) *. (Flt.fin k -. Flt.fin m) : Flt f L) = Flt.fin t ∧
      f.Representable t ∧
      |(t : ℝ) - p * ((k : ℝ) - M) ^ 2| ≤ 81 * n ^ 3 * f.u * p + 5 * n * 2 ^ f.emin := by
  have hη0 : (0 : ℝ) < 2 ^ f.emin := by positivity
  obtain ⟨η, hη⟩ : ∃ η : ℝ, η = 2 ^ f.emin := ⟨_, rfl⟩
  rw [← hη] at hη0 hη1 ⊢
  have hnu9 : 9 * n ^ 2 * f.u ≤ n / 16 := by nlinarith
  have hn2 : n ^ 2 ≤ 2 ^ (90 : ℤ) := by
    calc n ^ 2 ≤ ((2 : ℝ) ^ (45 : ℤ)) ^ 2 := by gcongr
      _ = _ := by norm_num
  have hsub : |(k : ℝ) + ((-m : ℚ) : ℝ)| ≤ 3 * n := by
    push_cast
    have : (k : ℝ) + -(m : ℝ) = ((k : ℝ) - M) - ((m : ℝ) - M) := by ring
    rw [this]
    refine (abs_sub _ _).trans ?_
    linarith [hx]
  obtain ⟨d, hd⟩ := round_small hf (q := k + -m) (rat_le (by
    push_cast at hsub ⊢
    refine hsub.trans ?_
    norm_num at hn45 ⊢
    linarith))
  obtain ⟨hdr, hde⟩ := near_round_add hf hkr (rep_neg hmr) hd
  have hdx : |(d : ℝ) - ((k : ℝ) - M)| ≤ 12 * n ^ 2 * f.u := by
    have h1 := abs_sub_le (d : ℝ) ((k : ℝ) - m) ((k : ℝ) - M)
    have h2 : (k : ℝ) - m - ((k : ℝ) - M) = -((m : ℝ) - M) := by ring
    rw [h2, abs_neg] at h1
    have h3 : f.u * |(k : ℝ) + ((-m : ℚ) : ℝ)| ≤ f.u * (3 * n) := by gcongr
    push_cast at hde h3
    rw [← sub_eq_add_neg] at hde h3
    have h4 : f.u * (3 * n) ≤ 3 * n ^ 2 * f.u := by
      have : f.u * n ≤ f.u * n * n := le_mul_of_one_le_right (by positivity) hn
      linarith
    linarith
  have hd3 : |(d : ℝ)| ≤ 3 * n := by
    have h1 := abs_sub_abs_le_abs_sub (d : ℝ) ((k : ℝ) - M)
    have h2 : 12 * n ^ 2 * f.u ≤ n := by nlinarith
    linarith [hx]
  obtain ⟨e, he⟩ := round_mul_fits hf (a := p) (b := d) (by
    rw [abs_mul, abs_of_nonneg hp]
    calc (p : ℝ) * |(d : ℝ)| ≤ 51/50 * (3 * 2 ^ (45 : ℤ)) :=
          mul_le_mul hp1 (hd3.trans (by gcongr)) (abs_nonneg _) (by norm_num)
      _ ≤ _ := by norm_num)
  obtain ⟨her, hee⟩ := near_round hf he
  push_cast at hee
  rw [← hη] at hee
  have hed : |(e : ℝ) * d| ≤ 10 * n ^ 2 * p + 3 * n * η := (variance_term (v := e * d) hn hu hk hη0.le hp hx hdx hee
    (by rw [sub_self, abs_zero]; positivity)).2
  obtain ⟨v, hv⟩ := round_small hf (q := e * d) (rat_le (by
    push_cast
    refine hed.trans ?_
    have h1 : 10 * n ^ 2 * p ≤ 10 * 2 ^ (90 : ℤ) * (51/50) :=
      mul_le_mul (by gcongr) hp1 hp (by positivity)
    have h2 : 3 * n * η ≤ 3 * n * 1 := by gcongr; linarith
    norm_num at h1 hn45 ⊢
    linarith))
  obtain ⟨hvr, hve⟩ := near_round hf hv
  push_cast at hve
  rw [← hη] at hve
  refine ⟨v, ?_, hvr, ?_⟩
  · have h1 : (Flt.fin k -. Flt.fin m : Flt f L) = Flt.fin d := hd
    have h2 : (Flt.fin p *. Flt.fin d : Flt f L) = Flt.fin e := he
    rw [h1, h2]; exact hv
  · rw [_root_.sq]
    exact (variance_term hn hu hk hη0.le hp hx hdx hee hve).1

set_option maxHeartbeats 1000000 in
/-- **C118**, categorical distributions: the mean is accurate up to `4ku` relative to its value (and
the smallest positive number per category), the variance up to `100k³u`, where `k` is the number of
categories. -/
theorem C118_categorical (hf : f.Std) {ps : List ℚ} (hp : ∀ p ∈ ps, f.Representable p)
    (hk : 256 * ps.length * f.u ≤ 1) {d : Categorical (Flt f L)}
    (h : Categorical.new (ps.map (Flt.fin (f := f) (L := L))) = .ok d) {M V : ℝ}
    (hM : M = ∑ i : Fin ps.length, (i : ℝ) * ps[i])
    (hV : V = ∑ i : Fin ps.length, (ps[i] : ℝ) * ((i : ℝ) - M) ^ 2) :
    (∃ m : ℚ, d.mean = Flt.fin m ∧ f.Representable m ∧
      |(m : ℝ) - M| ≤ 4 * ps.length * f.u * M + 2 * ps.length * 2 ^ f.emin) ∧
    (∃ v : ℚ, d.variance = Flt.fin v ∧ f.Representable v ∧
      |(v : ℝ) - V| ≤ 100 * ps.length ^ 3 * f.u) := by
  obtain ⟨rfl, hlen, hnn, hS⟩ := categorical_total hf hp hk h
  have hu := u_pos f
  have hul := hf.u_le
  have hη := hf.eta_le
  have hη0 : (0 : ℝ) < 2 ^ f.emin := by positivity
  set η : ℝ := 2 ^ f.emin with hηdef
  set S := ∑ i : Fin ps.length, (ps[i] : ℝ) with hSdef
  have hn : (1 : ℝ) ≤ ps.length := by exact_mod_cast hlen
  obtain ⟨n, hndef⟩ : ∃ n : ℝ, n = ps.length := ⟨_, rfl⟩
  rw [← hndef] at hn hk ⊢
  have hnu : n * f.u ≤ 1/256 := by linarith
  have hu2 : f.u ≤ 1/256 := (le_mul_of_one_le_left hu.le hn).trans hnu
  have hηu : η ≤ f.u * f.u := by
    refine hη.trans ?_
    rw [← _root_.sq]
    exact pow_le_pow_of_le_one hu.le (by linarith) (by norm_num)
  have hnn' : ∀ i : Fin ps.length, 0 ≤ (ps[i] : ℝ) := fun i => by
    exact_mod_cast hnn _ (List.getElem_mem _)
  have hS0 : 0 ≤ S := Finset.sum_nonneg fun i _ => hnn' i
  have hi : ∀ i : Fin ps.length, (0 : ℝ) ≤ i ∧ (i : ℝ) ≤ n - 1 := fun i => by
    refine ⟨by positivity, ?_⟩
    have : (i : ℕ) + 1 ≤ ps.length := i.isLt
    have : ((i : ℕ) : ℝ) + 1 ≤ ps.length := by exact_mod_cast this
    linarith
  have hn45 : n ≤ 2 ^ (45 : ℤ) := by
    have h1 := u_ge hf
    have h2 : n * (1 / 2 ^ 53) ≤ 1/256 := (mul_le_mul_of_nonneg_left h1 (by linarith)).trans hnu
    norm_num at h2 ⊢
    linarith
  have hprec' : ps.length ≤ 2 ^ f.prec := by
    have e : f.u * 2 ^ f.prec = 1 := by unfold Format.u; field_simp
    have : n * f.u * 2 ^ f.prec ≤ 1 * 2 ^ f.prec := by gcongr; linarith
    have h2 : n ≤ 2 ^ f.prec := by
      calc n = n * (f.u * 2 ^ f.prec) := by rw [e, mul_one]
        _ = n * f.u * 2 ^ f.prec := by ring
        _ ≤ _ := by linarith
    rw [hndef] at h2
    exact_mod_cast h2
  have hrepi : ∀ i : Fin ps.length, f.Representable ((i : ℕ) : ℚ) := fun i =>
    rep_nat hf (i.isLt.le.trans hprec')
  have hofNat : ∀ i : Fin ps.length, (FloatOps.ofNat (i : ℕ) : Flt f L) = Flt.fin ((i : ℕ) : ℚ) := fun i =>
    f.round_exact (hrepi i)
  have hpS : ∀ i : Fin ps.length, (ps[i] : ℝ) ≤ 51/50 := fun i =>
    (Finset.single_le_sum (f := fun i : Fin ps.length => (ps[i] : ℝ)) (fun j _ => hnn' j)
      (Finset.mem_univ i)).trans hS
  have hM0 : 0 ≤ M := by
    rw [hM]; exact Finset.sum_nonneg fun i _ => mul_nonneg (hi i).1 (hnn' i)
  have hMn : M ≤ 51/50 * n := by
    have : M ≤ ∑ i : Fin ps.length, n * (ps[i] : ℝ) := by
      rw [hM]
      exact Finset.sum_le_sum fun i _ => mul_le_mul_of_nonneg_right (by linarith [(hi i).2]) (hnn' i)
    rw [← Finset.mul_sum] at this
    calc M ≤ n * S := this
      _ ≤ n * (51/50) := by gcongr
      _ = _ := by ring
  have hn2 : n ^ 2 ≤ 2 ^ (90 : ℤ) := by
    calc n ^ 2 ≤ ((2 : ℝ) ^ (45 : ℤ)) ^ 2 := by gcongr
      _ = _ := by norm_num
  have hnn2 : n ≤ n ^ 2 := le_self_pow₀ hn (by norm_num)
  have hη1 : η ≤ 1/256 := hηu.trans ((mul_le_of_le_one_left hu.le (by linarith)).trans hu2)
  have hbig : (2 : ℝ) ^ (97 : ℤ) ≤ 2 ^ (f.emax - 3) :=
    zpow_le_zpow_right₀ (by norm_num) (by have := hf.emax_ge; omega)
  have h97 : 100 * (2 : ℝ) ^ (90 : ℤ) ≤ 2 ^ (97 : ℤ) := by norm_num
  have hget : ∀ i : Fin ps.length, (ps.map (Flt.fin (f := f) (L := L)))[(i : ℕ)]'(by simp) = Flt.fin ps[i] :=
    fun i => by simp
  have hmean : ∃ m : ℚ, (Categorical.mean ⟨ps.map (Flt.fin (f := f) (L := L))⟩ : Flt f L) = Flt.fin m ∧
      f.Representable m ∧ |(m : ℝ) - M| ≤ 4 * n * f.u * M + 2 * n * η := by
    have e1 : (Categorical.mean ⟨ps.map (Flt.fin (f := f) (L := L))⟩ : Flt f L) =
        FloatOps.sum (List.ofFn fun i : Fin ps.length => (Flt.fin ((i : ℕ) : ℚ) *. Flt.fin ps[i] : Flt f L)) := by
      show FloatOps.sum ((ps.map (Flt.fin (f := f) (L := L))).mapIdx fun i p => FloatOps.ofNat i *. p) = _
      congr 1
      apply List.ext_getElem
      · simp
      · intro i h1 h2
        simp only [List.getElem_mapIdx, List.getElem_map, List.getElem_ofFn]
        rw [← hofNat ⟨i, by simpa using h1⟩]; rfl
    have hwsum : ∑ i : Fin ps.length, (f.u * ((i : ℝ) * ps[i]) + η) = f.u * M + n * η := by
      rw [Finset.sum_add_distrib, ← Finset.mul_sum, ← hM]; simp [hndef]
    have hYsum : ∑ i : Fin ps.length, (|(i : ℝ) * ps[i]| + (f.u * ((i : ℝ) * ps[i]) + η)) = M + (f.u * M + n * η) := by
      rw [Finset.sum_add_distrib, hwsum, hM]
      congr 1
      exact Finset.sum_congr rfl fun i _ => abs_of_nonneg (mul_nonneg (hi i).1 (hnn' i))
    have hnη : n * η ≤ n := mul_le_of_le_one_right (by linarith) (by linarith)
    have huM : f.u * M ≤ M := mul_le_of_le_one_left hM0 (by linarith)
    obtain ⟨m, hm, hmr, hme⟩ := sum_near (L := L) hf (n := ps.length)
      (fun i => (Flt.fin ((i : ℕ) : ℚ) *. Flt.fin ps[i] : Flt f L)) (fun i => (i : ℝ) * ps[i])
      (fun i => f.u * ((i : ℝ) * ps[i]) + η) (fun i => by
        have hb : |(((i : ℕ) : ℚ) : ℝ) * ps[i]| ≤ 2 ^ (90 : ℤ) := by
          push_cast
          rw [abs_of_nonneg (mul_nonneg (hi i).1 (hnn' i))]
          calc (i : ℝ) * ps[i] ≤ n * (51/50) := mul_le_mul (by linarith [(hi i).2]) (hpS i) (hnn' i) (by linarith)
            _ ≤ 2 ^ (45 : ℤ) * (51/50) := by gcongr
            _ ≤ _ := by norm_num
        obtain ⟨t, ht⟩ := round_mul_fits hf hb
        obtain ⟨h1, h2⟩ := near_round hf ht
        push_cast at h2
        rw [abs_of_nonneg (mul_nonneg (hi i).1 (hnn' i))] at h2
        exact ⟨t, ht, h1, h2⟩) (by rw [← hndef]; linarith) (by rw [hYsum]; linarith)
    rw [hwsum, hYsum, ← hM, ← hndef] at hme
    refine ⟨m, e1.trans hm, hmr, hme.trans ?_⟩
    have h1 : 2 * n * f.u * (M + (f.u * M + n * η)) ≤ 2 * n * f.u * (1.1 * M) + n * η := by
      have h2 : f.u * M ≤ 1/256 * M := by gcongr
      have h3 : 2 * n * f.u * (n * η) ≤ 1 * (n * η) := by gcongr; linarith
      have h4 : 2 * n * f.u * (f.u * M) ≤ 2 * n * f.u * (1/256 * M) := by gcongr
      have h5 : 0 ≤ n * f.u * M := by positivity
      linarith
    have h6 : f.u * M ≤ n * f.u * M := by
      rw [mul_assoc]; exact le_mul_of_one_le_left (by positivity) hn
    have h7 : 0 ≤ n * f.u * M := by positivity
    linarith
  refine ⟨hmean, ?_⟩
  obtain ⟨m, hm, hmr, hme⟩ := hmean
  have hδ : |(m : ℝ) - M| ≤ 9 * n ^ 2 * f.u := by
    have h1 : 4 * n * f.u * M ≤ 4 * n * f.u * (51/50 * n) := by gcongr
    have h2 : 2 * n * η ≤ 2 * n * (f.u * f.u) := by gcongr
    have h3 : n * f.u * f.u ≤ n ^ 2 * f.u := by
      calc n * f.u * f.u ≤ n * f.u * n := by gcongr; linarith
        _ = _ := by ring
    have h4 : 0 ≤ n ^ 2 * f.u := by positivity
    linarith
  have hnu9 : 9 * n ^ 2 * f.u ≤ n / 16 := by
    have := mul_le_mul_of_nonneg_left hnu (show 0 ≤ n by linarith)
    linarith
  have hx : ∀ i : Fin ps.length, |(i : ℝ) - M| ≤ 2 * n := fun i => by
    rw [abs_le]; constructor <;> linarith [(hi i).1, (hi i).2]
  have e1 : (Categorical.variance ⟨ps.map (Flt.fin (f := f) (L := L))⟩ : Flt f L) =
      FloatOps.sum (List.ofFn fun i : Fin ps.length =>
        (Flt.fin ps[i] *. (Flt.fin ((i : ℕ) : ℚ) -. Flt.fin m) *. (Flt.fin ((i : ℕ) : ℚ) -. Flt.fin m) : Flt f L)) := by
    show FloatOps.sum ((ps.map (Flt.fin (f := f) (L := L))).mapIdx fun i p =>
      p *. (FloatOps.ofNat i -. Categorical.mean ⟨ps.map (Flt.fin (f := f) (L := L))⟩) *.
        (FloatOps.ofNat i -. Categorical.mean ⟨ps.map (Flt.fin (f := f) (L := L))⟩)) = _
    rw [hm]
    congr 1
    apply List.ext_getElem
    · simp
    · intro i h1 h2
      simp only [List.getElem_mapIdx, List.getElem_map, List.getElem_ofFn]
      rw [← hofNat ⟨i, by simpa using h1⟩]; rfl
  have hterm : ∀ i : Fin ps.length, ∃ t : ℚ,
      (Flt.fin ps[i] *. (Flt.fin ((i : ℕ) : ℚ) -. Flt.fin m) *. (Flt.fin ((i : ℕ) : ℚ) -. Flt.fin m) : Flt f L) = Flt.fin t ∧
      f.Representable t ∧ |(t : ℝ) - ps[i] * ((i : ℝ) - M) ^ 2| ≤ 81 * n ^ 3 * f.u * ps[i] + 5 * n * η := by
    intro i
    have := variance_round (L := L) hf hn hu hk hn45 hη1 (hrepi i) hmr (hnn' i) (hpS i) (by push_cast; exact hx i) hδ
    push_cast at this
    exact this
  have hwsum : ∑ i : Fin ps.length, (81 * n ^ 3 * f.u * ps[i] + 5 * n * η) = 81 * n ^ 3 * f.u * S + 5 * n ^ 2 * η := by
    rw [Finset.sum_add_distrib, ← Finset.mul_sum, hSdef]
    simp only [Finset.sum_const, Finset.card_univ, Fintype.card_fin, nsmul_eq_mul]
    rw [← hndef]; ring
  have hYsum : ∑ i : Fin ps.length, |(ps[i] : ℝ) * ((i : ℝ) - M) ^ 2| ≤ 4 * n ^ 2 * S := by
    rw [hSdef, Finset.mul_sum]
    refine Finset.sum_le_sum fun i _ => ?_
    rw [abs_mul, abs_of_nonneg (hnn' i), abs_of_nonneg (sq_nonneg _), mul_comm]
    have : ((i : ℝ) - M) ^ 2 ≤ 4 * n ^ 2 := by
      have h1 : ((i : ℝ) - M) ^ 2 = |(i : ℝ) - M| ^ 2 := (sq_abs _).symm
      rw [h1]
      calc |(i : ℝ) - M| ^ 2 ≤ (2 * n) ^ 2 := by gcongr; exact hx i
        _ = _ := by ring
    exact mul_le_mul_of_nonneg_right this (hnn' i)
  have hn3 : 81 * n ^ 3 * f.u ≤ n ^ 2 / 3 := by
    have h0 : 0 ≤ n ^ 2 := by positivity
    have : n ^ 2 * (n * f.u) ≤ n ^ 2 * (1/256) := by gcongr
    linarith
  have h3S : 81 * n ^ 3 * f.u * S ≤ n ^ 2 / 3 * (51/50) := mul_le_mul hn3 hS hS0 (by positivity)
  have h4S : 4 * n ^ 2 * S ≤ 4 * n ^ 2 * (51/50) := by gcongr
  have h5η : 5 * n ^ 2 * η ≤ 5 * n ^ 2 * (1/256) := by gcongr
  have hn20 : 0 ≤ n ^ 2 := by positivity
  have htot : ∑ i : Fin ps.length, (|(ps[i] : ℝ) * ((i : ℝ) - M) ^ 2| + (81 * n ^ 3 * f.u * ps[i] + 5 * n * η)) ≤
      5 * n ^ 2 := by
    rw [Finset.sum_add_distrib, hwsum]
    linarith
  obtain ⟨v, hv, hvr, hve⟩ := sum_near (L := L) hf _ (fun i : Fin ps.length => (ps[i] : ℝ) * ((i : ℝ) - M) ^ 2)
    (fun i => 81 * n ^ 3 * f.u * ps[i] + 5 * n * η) hterm (by rw [← hndef]; linarith)
    (by linarith)
  rw [hwsum, ← hV, ← hndef] at hve
  refine ⟨v, e1.trans hv, hvr, hve.trans ?_⟩
  have h1 : 81 * n ^ 3 * f.u * S ≤ 81 * n ^ 3 * f.u * (51/50) := by gcongr
  have h2 : 2 * n * f.u * ∑ i : Fin ps.length, (|(ps[i] : ℝ) * ((i : ℝ) - M) ^ 2| + (81 * n ^ 3 * f.u * ps[i] + 5 * n * η)) ≤
      2 * n * f.u * (5 * n ^ 2) := by gcongr
  have h3 : 5 * n ^ 2 * η ≤ 5 * n ^ 3 * f.u := by
    have h4 : η ≤ n * f.u := hηu.trans (by gcongr; linarith)
    calc 5 * n ^ 2 * η ≤ 5 * n ^ 2 * (n * f.u) := by gcongr
      _ = _ := by ring
  have h6 : 0 ≤ n ^ 3 * f.u := by positivity
  linarith

/-- the hypotheses are met -/
example (L : Libm) : ∃ d : Categorical (Flt f64 L),
    Categorical.new ([1/2, 1/4, 1/4].map (Flt.fin (f := f64) (L := L))) = .ok d ∧
    (∀ p ∈ [1/2, 1/4, (1/4 : ℚ)], f64.Representable p) ∧
    256 * ([1/2, 1/4, (1/4 : ℚ)].length : ℕ) * f64.u ≤ 1 := by
  have hf : f64.Std := .inl rfl
  have r2 : f64.Representable (1/2) := hf.rep_half
  have r4 : f64.Representable (1/4) := by
    have := hf.rep_of 1 (-2) (by norm_num) (by norm_num) (by norm_num)
    norm_num at this ⊢; exact this
  have r3 : f64.Representable (3/4) := by
    have := hf.rep_of 3 (-2) (by norm_num) (by norm_num) (by norm_num)
    norm_num at this ⊢; exact this
  refine ⟨_, categorical_accepts hf (s := 1) (by simp) (by norm_num) ?_ (by norm_num), ?_, ?_⟩
  · have h1 : Flt.add f64 (.fin 0) (.fin (1/2)) = .fin (1/2) := by
      show f64.round (0 + 1/2) = _; rw [zero_add]; exact f64.round_exact r2
    have h2 : Flt.add f64 (.fin (1/2)) (.fin (1/4)) = .fin (3/4) := by
      show f64.round (1/2 + 1/4) = _
      rw [show (1/2 + 1/4 : ℚ) = 3/4 by norm_num]; exact f64.round_exact r3
    have h3 : Flt.add f64 (.fin (3/4)) (.fin (1/4)) = .fin 1 := by
      show f64.round (3/4 + 1/4) = _
      rw [show (3/4 + 1/4 : ℚ) = 1 by norm_num]; exact f64.round_exact hf.rep_one
    simp only [List.map_cons, List.map_nil, List.foldl_cons, List.foldl_nil]
    rw [h1, h2, h3]
  · intro p hp
    simp only [List.mem_cons, List.not_mem_nil, or_false] at hp
    rcases hp with rfl | rfl | rfl
    · exact r2
    · exact r4
    · exact r4
  · have := hf.u_le
    norm_num at this ⊢
    linarith

end Verif
