import Verif.Props.DoubleMixture
import Verif.Lemmas.FltRange
import Verif.Spec.DoubleMixture

/-!
# C93: mixture log-densities in floating point
-/

namespace Verif
open Format FloatOps

variable {f : Format} {L : Libm}

theorem runningMax_flt (xs : List FVal) (hx : ∀ x ∈ xs, x = .inf true ∨ ∃ q : ℚ, x = .fin q)
    (acc : FVal) (ha : acc = .inf true ∨ ∃ q : ℚ, acc = .fin q) :
    (xs.foldl (fun acc x => if Flt.lt acc x then x else acc) acc) ∈ acc :: xs ∧
    ∀ y ∈ acc :: xs, y = .inf true ∨ ∃ q p : ℚ, y = .fin q ∧
      xs.foldl (fun acc x => if Flt.lt acc x then x else acc) acc = .fin p ∧ q ≤ p := by
  induction xs generalizing acc with
  | nil =>
    refine ⟨by simp, ?_⟩
    intro y hy
    obtain rfl := List.mem_singleton.mp hy
    rcases ha with h | ⟨q, h⟩
    · exact .inl h
    · exact .inr ⟨q, q, h, h, le_rfl⟩
  | cons x xs ih =>
    rw [List.foldl_cons]
    have hxs := fun y hy => hx y (List.mem_cons_of_mem _ hy)
    have hx0 := hx x List.mem_cons_self
    set acc' := if Flt.lt acc x then x else acc with hacc
    have ha' : acc' = .inf true ∨ ∃ q : ℚ, acc' = .fin q := by
      rw [hacc]; split_ifs
      exacts [hx0, ha]
    obtain ⟨h1, h2⟩ := ih hxs acc' ha'
    have hmem : acc' = acc ∨ acc' = x := by rw [hacc]; split_ifs <;> simp
    have hdom : ∀ y, y = acc ∨ y = x → y = .inf true ∨ ∃ q p : ℚ, y = .fin q ∧ acc' = .fin p ∧ q ≤ p := by
      intro y hy
      rw [hacc]
      rcases ha with rfl | ⟨q, rfl⟩ <;> rcases hx0 with rfl | ⟨p, rfl⟩
      · rcases hy with rfl | rfl <;> simp
      · rcases hy with rfl | rfl
        · simp
        · right; exact ⟨p, p, rfl, by simp [Flt.lt], le_rfl⟩
      · rcases hy with rfl | rfl
        · right; exact ⟨q, q, rfl, by simp [Flt.lt], le_rfl⟩
        · simp
      · by_cases hlt : q < p
        · rcases hy with rfl | rfl
          · right; exact ⟨q, p, rfl, by simp [Flt.lt, hlt], hlt.le⟩
          · right; exact ⟨p, p, rfl, by simp [Flt.lt, hlt], le_rfl⟩
        · rcases hy with rfl | rfl
          · right; exact ⟨q, q, rfl, by simp [Flt.lt, hlt], le_rfl⟩
          · right; exact ⟨p, q, rfl, by simp [Flt.lt, hlt], not_lt.mp hlt⟩
    refine ⟨?_, ?_⟩
    · rcases List.mem_cons.mp h1 with h | h
      · rcases hmem with h' | h' <;> rw [h, h'] <;> simp
      · simp [h]
    · intro y hy
      have hy' : (y = acc ∨ y = x) ∨ y ∈ xs := by
        rcases List.mem_cons.mp hy with h | h
        · exact .inl (.inl h)
        · rcases List.mem_cons.mp h with h | h
          exacts [.inl (.inr h), .inr h]
      rcases hy' with h | h
      · rcases hdom y h with h3 | ⟨q, p, h3, h4, h5⟩
        · exact .inl h3
        · rcases h2 acc' List.mem_cons_self with h6 | ⟨q', p', h6, h7, h8⟩
          · rw [h4] at h6; cases h6
          · rw [h4] at h6
            obtain rfl := FVal.fin.inj h6
            exact .inr ⟨q, p', h3, h7, h5.trans h8⟩
      · exact h2 y (List.mem_cons_of_mem _ h)

theorem mul_exp_neg_half (t : ℝ) : t * Real.exp (-(t / 2)) ≤ 1 := by
  have h1 : t / 2 ≤ Real.exp (t / 2 - 1) := by
    have := Real.add_one_le_exp (t / 2 - 1); linarith
  have h2 : t / 2 * Real.exp (-(t/2)) ≤ Real.exp (t / 2 - 1) * Real.exp (-(t / 2)) := by gcongr
  rw [← Real.exp_add, show t / 2 - 1 + -(t / 2) = -1 by ring] at h2
  have h3 : Real.exp (-1) ≤ 1/2 := by
    rw [Real.exp_neg, inv_eq_one_div]
    exact one_div_le_one_div_of_le (by norm_num) (by have := Real.exp_one_gt_d9; linarith)
  linarith

/-- one term of the sum -/
theorem lse_term (hf : f.Std) (hL : L.Accurate f) {x : FVal} {m : ℚ} (hm : f.Representable m)
    (hx : LogValue f x) (hle : ∀ q, x = .fin q → q ≤ m) :
    ∃ e : ℚ, Flt.exp L (Flt.sub f x (.fin m)) = .fin e ∧ f.Representable e ∧
      |(e : ℝ) - expOf x * Real.exp (-m)| ≤ 4 * f.u := by
  have hu := u_pos f
  have hul : f.u ≤ 1/1000 := hf.u_le.trans (by norm_num)
  rcases hx with rfl | ⟨q, rfl, hq⟩
  · exact ⟨0, rfl, rep_zero f, by simp [expOf]; positivity⟩
  have hqm : (q : ℝ) ≤ m := by exact_mod_cast hle q rfl
  have hE : expOf (.fin q) * Real.exp (-m) = Real.exp ((q : ℝ) - m) := by
    rw [expOf, ← Real.exp_add, sub_eq_add_neg]
  rw [hE]
  set d : ℝ := (q : ℝ) - m with hd
  have hd0 : d ≤ 0 := by rw [hd]; linarith
  rw [sub_fin]
  rcases f.round_cases (q - m) with ⟨a, ha⟩ | hinf
  · obtain ⟨har, hae⟩ := near_round_add hf hq (rep_neg hm) (r := a) (by rw [← sub_eq_add_neg]; exact ha)
    push_cast at hae
    rw [← sub_eq_add_neg, ← hd, abs_of_nonpos hd0] at hae
    have ha0 : (a : ℝ) ≤ 0 := by
      have : a ≤ 0 := round_nonpos ha (by have := hle q rfl; linarith)
      exact_mod_cast this
    have hexpdiff : |Real.exp (a : ℝ) - Real.exp d| ≤ f.u := by
      have hmax : ∀ y z : ℝ, y ≤ z → |y - z| ≤ f.u * -d → z ≤ d / 2 → Real.exp z - Real.exp y ≤ f.u := by
        intro y z hyz h1 h2
        have h3 : Real.exp z - Real.exp y ≤ (z - y) * Real.exp z := by
          have h4 := Real.add_one_le_exp (y - z)
          have h5 : Real.exp y = Real.exp z * Real.exp (y - z) := by rw [← Real.exp_add]; ring_nf
          rw [h5]
          nlinarith [Real.exp_pos z]
        have h6 : (z - y) * Real.exp z ≤ (f.u * -d) * Real.exp (d / 2) := by
          rw [abs_sub_comm, abs_of_nonneg (by linarith)] at h1
          exact mul_le_mul h1 (Real.exp_le_exp.mpr h2) (Real.exp_pos _).le (by nlinarith)
        have h7 := mul_exp_neg_half (-d)
        rw [show -(-d / 2) = d / 2 by ring] at h7
        nlinarith
      have h8 := abs_le.mp hae
      rcases le_total (a : ℝ) d with h9 | h9
      · rw [abs_sub_comm, abs_of_nonneg (by linarith [Real.exp_le_exp.mpr h9])]
        exact hmax a d h9 hae (by linarith)
      · rw [abs_of_nonneg (by linarith [Real.exp_le_exp.mpr h9])]
        refine hmax d a h9 (by rw [abs_sub_comm]; exact hae) ?_
        nlinarith
    have hexp1 : Real.exp (a : ℝ) ≤ 1 := Real.exp_le_one_iff.mpr ha0
    rcases hL.exp a har with ⟨e, he, her, hee⟩ | ⟨-, hbig⟩
    · refine ⟨e, by rw [ha]; exact he, her, ?_⟩
      have h1 := abs_sub_le (e : ℝ) (Real.exp a) (Real.exp d)
      have h2 := hf.eta_le
      have h3 : f.u ^ 4 ≤ f.u := by
        have := pow_le_pow_of_le_one hu.le (by linarith) (show 1 ≤ 4 by norm_num)
        simpa using this
      have h4 : 2 * f.u * Real.exp (a : ℝ) ≤ 2 * f.u * 1 := by gcongr
      linarith
    · exfalso
      have : (2 : ℝ) ^ (1 : ℤ) ≤ 2 ^ (f.emax - 1) :=
        zpow_le_zpow_right₀ (by norm_num) (by have := hf.emax_ge; omega)
      rw [zpow_one] at this
      linarith
  · have hlt : q < m := by
      rcases (hle q rfl).lt_or_eq with h | h
      · exact h
      · rw [h, sub_self, f.round_exact (rep_zero f)] at hinf; cases hinf
    rw [decide_eq_true (sub_neg.mpr hlt)] at hinf
    obtain ⟨hbig, -⟩ := f.round_inf (prec1 hf) (emin_lt_emax hf) hinf
    have hbig' := real_lt hbig
    push_cast at hbig'
    rw [← hd, abs_of_nonpos hd0] at hbig'
    refine ⟨0, by rw [hinf]; rfl, rep_zero f, ?_⟩
    have h100 : (2 : ℝ) ^ (100 : ℤ) ≤ 2 ^ (f.emax - 1) :=
      zpow_le_zpow_right₀ (by norm_num) (by have := hf.emax_ge; omega)
    have h1 : Real.exp d ≤ f.u := by
      have h2 : Real.exp d * (-d) ≤ 1 := by
        have h3 := Real.add_one_le_exp (-d)
        have h4 : Real.exp d * Real.exp (-d) = 1 := by rw [← Real.exp_add]; simp
        nlinarith [Real.exp_pos d]
      have h5 := u_ge hf
      have h6 : (2 : ℝ) ^ 53 ≤ -d := by norm_num at h100 ⊢; linarith
      have h7 : Real.exp d * 2 ^ 53 ≤ 1 := by nlinarith [Real.exp_pos d]
      norm_num at h5 h7
      linarith
    rw [Rat.cast_zero, zero_sub, abs_neg, abs_of_pos (Real.exp_pos d)]
    linarith

/-- **C93**: the log-sum-exp of a list of logarithms, each a number of the format or `-∞` and at
least one a number, is finite - it never overflows nor vanishes, however large or small the numbers -
and is within `18nu` absolutely plus `u` relatively of `log Σ exp`. -/
theorem C93_logSumExp (hf : f.Std) (hL : L.Accurate f) (xs : List (Flt f L))
    (hx : ∀ x ∈ xs, LogValue f x) (hfin : ∃ q : ℚ, Flt.fin (f := f) (L := L) q ∈ xs)
    (hn : xs.length * f.u ≤ 1/1000) :
    ∃ r : ℚ, logSumExp xs = Flt.fin (f := f) (L := L) r ∧ f.Representable r ∧
      |(r : ℝ) - Real.log (xs.map expOf).sum| ≤
        18 * xs.length * f.u + f.u * |Real.log (xs.map expOf).sum| := by
  have hu := u_pos f
  have hul : f.u ≤ 1/1000 := hf.u_le.trans (by norm_num)
  obtain ⟨q0, hq0⟩ := hfin
  have hx' : ∀ x ∈ xs, x = FVal.inf true ∨ ∃ q : ℚ, x = FVal.fin q := fun x h => by
    rcases hx x h with h | ⟨q, h, -⟩
    exacts [.inl h, .inr ⟨q, h⟩]
  obtain ⟨hmem, hdom⟩ := runningMax_flt xs hx' (.inf true) (.inl rfl)
  obtain ⟨m, hm, hmx⟩ : ∃ m : ℚ, xs.foldl (fun acc x => if Flt.lt acc x then x else acc) (.inf true) = .fin m ∧
      FVal.fin m ∈ xs := by
    rcases hdom (.fin q0) (List.mem_cons_of_mem _ hq0) with h | ⟨q, p, -, h, -⟩
    · cases h
    · refine ⟨p, h, ?_⟩
      rw [h] at hmem
      rcases List.mem_cons.mp hmem with h' | h'
      · cases h'
      · exact h'
  have hmr : f.Representable m := by
    rcases hx _ hmx with h | ⟨q, h, hq⟩
    · cases h
    · obtain rfl := FVal.fin.inj h; exact hq
  have hle : ∀ x ∈ xs, ∀ q, x = FVal.fin q → q ≤ m := by
    intro x hxm q hq
    rcases hdom x (List.mem_cons_of_mem _ hxm) with h | ⟨q', p, h1, h2, h3⟩
    · rw [hq] at h; cases h
    · rw [hm] at h2; obtain rfl := FVal.fin.inj h2
      rw [hq] at h1; obtain rfl := FVal.fin.inj h1
      exact h3
  set n := xs.length with hnn
  have hn0 : xs ≠ [] := List.ne_nil_of_mem hq0
  have hn1 : (1 : ℝ) ≤ n := by
    have : 1 ≤ n := List.length_pos_of_ne_nil hn0
    exact_mod_cast this
  -- the sum of the terms
  set G : FVal → FVal := fun x => Flt.exp L (Flt.sub f x (.fin m)) with hG
  set T : FVal → ℝ := fun x => expOf x * Real.exp (-m) with hT
  have hT01 : ∀ x ∈ xs, 0 ≤ T x ∧ T x ≤ 1 := by
    intro x hxm
    rcases hx x hxm with rfl | ⟨q, rfl, -⟩
    · simp [hT, expOf]
    · refine ⟨by simp only [hT, expOf]; positivity, ?_⟩
      simp only [hT, expOf]
      rw [← Real.exp_add]
      refine Real.exp_le_one_iff.mpr ?_
      have : (q : ℝ) ≤ m := by exact_mod_cast hle _ hxm q rfl
      linarith
  obtain ⟨qs, e1, e2, e3, e4, e5⟩ := list_approx (f := f) G T (4 * f.u) xs
    (fun x hxm => lse_term hf hL hmr (hx x hxm) (hle x hxm))
  have habs : xs.map (fun x => |T x|) = xs.map T :=
    List.map_congr_left fun x hxm => abs_of_nonneg (hT01 x hxm).1
  set S0 := (xs.map T).sum with hS0
  rw [habs, ← hS0] at e5
  change qs.length = n at e2
  change _ ≤ (n : ℝ) * (4 * f.u) at e4
  change _ ≤ S0 + (n : ℝ) * (4 * f.u) at e5
  have hS0n : S0 ≤ n := by
    have : ∀ ys : List FVal, (∀ y ∈ ys, T y ≤ 1) → (ys.map T).sum ≤ ys.length := by
      intro ys
      induction ys with
      | nil => simp
      | cons y ys ih =>
        intro h
        simp only [List.map_cons, List.sum_cons, List.length_cons]
        push_cast
        linarith [h y List.mem_cons_self, ih fun z hz => h z (List.mem_cons_of_mem _ hz)]
    exact this xs fun y hy => (hT01 y hy).2
  have hS01 : 1 ≤ S0 := by
    have h1 : T (.fin m) = 1 := by
      simp only [hT, expOf]; rw [← Real.exp_add]; simp
    rw [← h1]
    refine List.single_le_sum ?_ _ (List.mem_map.mpr ⟨_, hmx, rfl⟩)
    intro t ht
    obtain ⟨y, hy, rfl⟩ := List.mem_map.mp ht
    exact (hT01 y hy).1
  have hgr := grow_le (f := f) (n := n) (by linarith)
  have hgr0 := grow_nonneg (f := f) n
  have habs0 : 0 ≤ (qs.map fun q : ℚ => |(q : ℝ)|).sum := List.sum_nonneg (by simp)
  have hnu0 : 0 ≤ n * f.u := by positivity
  obtain ⟨s, hs⟩ := foldl_add_fin hf qs e3 (rep_zero f) (S := 0) (T := 0) (k := 0) (by simp) (by simp)
    (by rw [zero_add, e2]; linarith) (by
      rw [zero_add]
      refine e5.trans ?_
      have h1 : (2 : ℝ) ^ (60 : ℤ) ≤ 2 ^ (f.emax - 3) :=
        zpow_le_zpow_right₀ (by norm_num) (by have := hf.emax_ge; omega)
      have h2 := u_ge hf
      have h3 : (n : ℝ) * (1 / 2 ^ 53) ≤ 1/1000 := (mul_le_mul_of_nonneg_left h2 (by linarith)).trans hn
      have h4 : (n : ℝ) ≤ 2 ^ 53 := by
        rw [mul_one_div, div_le_iff₀ (by positivity)] at h3
        refine h3.trans ?_; norm_num
      refine le_trans ?_ h1
      have h5 : (2 : ℝ) ^ 53 + 1 ≤ 2 ^ (60 : ℤ) := by norm_num
      linarith)
  obtain ⟨hsr, hse⟩ := foldl_add_err hf qs e3 (rep_zero f) (S := 0) (T := 0) (k := 0) (by simp) (by simp) hs
  rw [zero_add, zero_add, zero_add, e2] at hse
  have hs7 : |(s : ℝ) - S0| ≤ 7 * n * f.u * S0 := by
    have h1 := abs_sub_le (s : ℝ) (qs.map fun q : ℚ => (q : ℝ)).sum S0
    have h2 : f.grow n * (qs.map fun q : ℚ => |(q : ℝ)|).sum ≤ 2 * n * f.u * (S0 + n * (4 * f.u)) :=
      mul_le_mul hgr e5 habs0 (by positivity)
    have h3 : n * f.u * (n * f.u) ≤ n * f.u * (1/1000) := mul_le_mul_of_nonneg_left hn hnu0
    have h4 : n * f.u * 1 ≤ n * f.u * S0 := mul_le_mul_of_nonneg_left hS01 hnu0
    nlinarith
  obtain ⟨hspos, hslog⟩ := log_near (by linarith) (e := 7 * n * f.u) (by linarith) hs7
  have hspos' : 0 < s := by exact_mod_cast hspos
  obtain ⟨l, hl, hln, hl2⟩ := near_ln_rep hf hL hspos' hsr
  have hlogS0 : 0 ≤ Real.log S0 ∧ Real.log S0 ≤ n - 1 := by
    refine ⟨Real.log_nonneg hS01, ?_⟩
    have := Real.log_le_sub_one_of_pos (show 0 < S0 by linarith)
    linarith
  have hlerr : |(l : ℝ) - Real.log S0| ≤ 17 * n * f.u := by
    have h1 := abs_sub_le (l : ℝ) (Real.log s) (Real.log S0)
    have h2 := hln.err
    have h3 : |Real.log s| ≤ n := by
      have h4 := abs_sub_abs_le_abs_sub (Real.log s) (Real.log S0)
      rw [abs_of_nonneg hlogS0.1] at h4
      linarith [hlogS0.2]
    have h5 : 2 * f.u * |Real.log s| ≤ 2 * f.u * n := by gcongr
    linarith
  have hlog : Real.log (xs.map expOf).sum = m + Real.log S0 := by
    have h1 : S0 = (xs.map expOf).sum * Real.exp (-m) := by
      rw [hS0, hT]
      exact (List.sum_map_mul_right ..)
    have h2 : 0 < (xs.map expOf).sum := by
      by_contra hc
      have := mul_nonpos_of_nonpos_of_nonneg (not_lt.mp hc) (Real.exp_pos (-(m : ℝ))).le
      linarith
    rw [h1, Real.log_mul h2.ne' (Real.exp_pos _).ne', Real.log_exp]
    ring
  obtain ⟨r, hr⟩ := round_add_small hf (a := m) (d := l) hmr (by
    refine rat_le (hl2.trans ?_)
    have : (2 : ℝ) ^ (100 : ℤ) ≤ 2 ^ (f.emax - f.prec - 2) :=
      zpow_le_zpow_right₀ (by norm_num) (by rcases hf with rfl | rfl <;> decide)
    refine le_trans ?_ this
    norm_num)
  obtain ⟨hrr, hre⟩ := near_round_add hf hmr hln.rep hr
  refine ⟨r, ?_, hrr, ?_⟩
  · have hemp : xs.isEmpty = false := by
      cases xs with
      | nil => exact absurd rfl hn0
      | cons _ _ => rfl
    have hmax : (runningMax xs : Flt f L) = Flt.fin m := hm
    unfold logSumExp
    rw [hemp, hmax]
    have hsum : (xs.map (fun x => (exp (x -. Flt.fin m) : Flt f L))).foldl FloatOps.add zero = Flt.fin (f := f) (L := L) s := by
      show ((xs.map G).foldl (Flt.add f) (.fin 0)) = .fin s
      rw [e1, hs]
    rw [if_neg (by simp), if_neg (by simp [isInf])]
    simp only [hsum]
    show Flt.add f (.fin m) (Flt.ln L (.fin s)) = .fin r
    rw [hl]; exact hr
  · rw [hlog]
    have h1 := abs_sub_le (r : ℝ) (m + l) (m + Real.log S0)
    have h2 : |(m : ℝ) + l - (m + Real.log S0)| ≤ 17 * n * f.u := by
      rw [add_sub_add_left_eq_sub]; exact hlerr
    have h3 : |(m : ℝ) + l| ≤ |(m : ℝ) + Real.log S0| + 17 * n * f.u := by
      have := abs_sub_abs_le_abs_sub ((m : ℝ) + l) (m + Real.log S0)
      linarith
    have h4 : f.u * |(m : ℝ) + l| ≤ f.u * (|(m : ℝ) + Real.log S0| + 17 * n * f.u) := by gcongr
    have h5 : n * f.u * f.u ≤ n * f.u * (1/1000) := mul_le_mul_of_nonneg_left hul hnu0
    nlinarith

example : ∃ L : Libm, L.Accurate f64 ∧
    (∀ x ∈ ([FVal.fin 1, FVal.inf true] : List FVal), LogValue f64 x) ∧
    (([FVal.fin 1, FVal.inf true] : List FVal).length : ℝ) * f64.u ≤ 1/1000 := by
  have hf : f64.Std := .inl rfl
  obtain ⟨L, hL⟩ := exists_libm hf
  refine ⟨L, hL, ?_, ?_⟩
  · intro x hx
    simp only [List.mem_cons, List.not_mem_nil, or_false] at hx
    rcases hx with rfl | rfl
    · exact .inr ⟨1, rfl, hf.rep_one⟩
    · exact .inl rfl
  · have := hf.u_le
    norm_num at *
    linarith

/-- perturbing every logarithm by at most `δ` -/
theorem sum_exp_perturb {α : Type} (E : α → FVal) (T : α → ℝ) (δ : ℝ) (xs : List α)
    (h : ∀ x ∈ xs, Real.exp (-δ) * T x ≤ expOf (E x) ∧ expOf (E x) ≤ Real.exp δ * T x)
    (hpos : 0 < (xs.map T).sum) :
    0 < ((xs.map E).map expOf).sum ∧
    |Real.log ((xs.map E).map expOf).sum - Real.log (xs.map T).sum| ≤ δ := by
  have key : ∀ ys : List α, (∀ x ∈ ys, Real.exp (-δ) * T x ≤ expOf (E x) ∧ expOf (E x) ≤ Real.exp δ * T x) →
      Real.exp (-δ) * (ys.map T).sum ≤ ((ys.map E).map expOf).sum ∧
      ((ys.map E).map expOf).sum ≤ Real.exp δ * (ys.map T).sum := by
    intro ys
    induction ys with
    | nil => simp
    | cons y ys ih =>
      intro h
      have h1 := h y List.mem_cons_self
      have h2 := ih fun z hz => h z (List.mem_cons_of_mem _ hz)
      simp only [List.map_cons, List.sum_cons, mul_add]
      exact ⟨add_le_add h1.1 h2.1, add_le_add h1.2 h2.2⟩
  obtain ⟨h1, h2⟩ := key xs h
  have h0 : 0 < ((xs.map E).map expOf).sum := lt_of_lt_of_le (mul_pos (Real.exp_pos _) hpos) h1
  refine ⟨h0, ?_⟩
  have h3 := Real.log_le_log (mul_pos (Real.exp_pos _) hpos) h1
  have h4 := Real.log_le_log h0 h2
  rw [Real.log_mul (Real.exp_pos _).ne' hpos.ne', Real.log_exp] at h3 h4
  exact abs_le.mpr ⟨by linarith, by linarith⟩

/-- **C93**: the log-density of a mixture in floating point.  The weights are non-negative numbers of
the format; each component's log-density at the point is either `-∞` where its density is zero, or a
number within `ε` of the logarithm of its density; and some component has positive weight and density.
Then the mixture's log-density is a finite number within `ε` plus a few roundings of the logarithm of
the weighted sum of the densities, even where every density is too small or too large for the
format. -/
theorem C93_mixture (hf : f.Std) (hL : L.Accurate f) {M X : Type} [HasLogDensity M X (Flt f L)]
    (m : MixtureMeasure M (Flt f L)) (x : X) (dens : M → ℝ) (ε A : ℝ) (hε : 0 ≤ ε)
    (hn : m.components.length * f.u ≤ 1/1000)
    (hw : ∀ p ∈ m.components.zip m.weights, ∃ w : ℚ, p.2 = Flt.fin w ∧ 0 ≤ w ∧ f.Representable w)
    (hd : ∀ p ∈ m.components.zip m.weights,
      (logDensityWrtRoot p.1 x = Flt.negInf (f := f) (L := L) ∧ dens p.1 = 0) ∨
      (∃ q : ℚ, logDensityWrtRoot p.1 x = Flt.fin (f := f) (L := L) q ∧ f.Representable q ∧
        0 < dens p.1 ∧ |(q : ℝ) - Real.log (dens p.1)| ≤ ε ∧
        |Real.log (realOf p.2)| + |Real.log (dens p.1)| ≤ A))
    (hpos : 0 < ((m.components.zip m.weights).map fun p => realOf p.2 * dens p.1).sum) :
    ∃ r : ℚ, logDensityWrtRoot m x = Flt.fin (f := f) (L := L) r ∧ f.Representable r ∧
      |(r : ℝ) - Real.log ((m.components.zip m.weights).map fun p => realOf p.2 * dens p.1).sum| ≤
        2 * ε + 8 * f.u * (A + ε) + 18 * m.components.length * f.u +
        f.u * |Real.log ((m.components.zip m.weights).map fun p => realOf p.2 * dens p.1).sum| := by
  have hu := u_pos f
  have hul : f.u ≤ 1/1000 := hf.u_le.trans (by norm_num)
  set ps := m.components.zip m.weights with hps
  have hne : ps ≠ [] := by
    intro h; rw [h] at hpos; simp at hpos
  have hcne : m.components ≠ [] := by
    intro h; rw [hps, h] at hne; simp at hne
  set E : M × Flt f L → FVal := fun p => Flt.add f (Flt.ln L p.2) (logDensityWrtRoot p.1 x : Flt f L) with hE
  set T : M × Flt f L → ℝ := fun p => realOf p.2 * dens p.1 with hT
  set δ : ℝ := ε + 4 * f.u * (A + ε) with hδ
  have hA : 0 ≤ A + ε ∨ ∀ p ∈ ps, logDensityWrtRoot p.1 x = Flt.negInf (f := f) (L := L) ∧ dens p.1 = 0 := by
    by_cases h : ∃ p ∈ ps, ∃ q : ℚ, logDensityWrtRoot p.1 x = Flt.fin (f := f) (L := L) q ∧ f.Representable q ∧
        0 < dens p.1 ∧ |(q : ℝ) - Real.log (dens p.1)| ≤ ε ∧
        |Real.log (realOf p.2)| + |Real.log (dens p.1)| ≤ A
    · left
      obtain ⟨p, -, q, -, -, -, h1, h2⟩ := h
      have := abs_nonneg (Real.log (realOf p.2))
      have := abs_nonneg (Real.log (dens p.1))
      linarith
    · right
      intro p hp
      rcases hd p hp with h1 | h1
      · exact h1
      · exact absurd ⟨p, hp, h1⟩ h
  have hA0 : 0 ≤ A + ε := by
    rcases hA with h | h
    · exact h
    · exfalso
      have : ps.map T = ps.map fun _ => (0 : ℝ) :=
        List.map_congr_left fun p hp => by simp only [hT]; rw [(h p hp).2, mul_zero]
      rw [this] at hpos
      simp at hpos
  have hδ0 : 0 ≤ δ := by rw [hδ]; positivity
  have hterm : ∀ p ∈ ps, LogValue f (E p) ∧
      (Real.exp (-δ) * T p ≤ expOf (E p) ∧ expOf (E p) ≤ Real.exp δ * T p) := by
    intro p hp
    obtain ⟨w, hw1, hw0, hwr⟩ := hw p hp
    rcases hw0.lt_or_eq with hwpos | hwz
    · obtain ⟨g, hg, hgn, hg2⟩ := near_ln_rep hf hL hwpos hwr
      have hg' : Flt.ln L p.2 = .fin g := by rw [hw1]; exact hg
      have hwR : (0 : ℝ) < w := by exact_mod_cast hwpos
      have hrw : realOf p.2 = w := by rw [hw1]; rfl
      rcases hd p hp with ⟨h1, h2⟩ | ⟨q, h1, hqr, h2, h3, h4⟩
      · have e : E p = .inf true := by
          simp only [hE]; rw [h1, hg']; rfl
        rw [e]
        exact ⟨.inl rfl, by simp [expOf, hT, h2]⟩
      · obtain ⟨r, hr⟩ := round_add_small hf (a := q) (d := g) hqr (by
          refine rat_le (hg2.trans ?_)
          have : (2 : ℝ) ^ (100 : ℤ) ≤ 2 ^ (f.emax - f.prec - 2) :=
            zpow_le_zpow_right₀ (by norm_num) (by rcases hf with rfl | rfl <;> decide)
          refine le_trans ?_ this
          norm_num)
        rw [add_comm] at hr
        have e : E p = .fin r := by
          simp only [hE]; rw [h1, hg']; exact hr
        obtain ⟨hrr, hre⟩ := near_round_add hf hgn.rep hqr hr
        rw [e]
        refine ⟨.inr ⟨r, rfl, hrr⟩, ?_⟩
        rw [hrw] at h4
        have hlogT : T p = Real.exp (Real.log w + Real.log (dens p.1)) := by
          simp only [hT]; rw [hrw, Real.exp_add, Real.exp_log hwR, Real.exp_log h2]
        have hclose : |(r : ℝ) - (Real.log w + Real.log (dens p.1))| ≤ δ := by
          have g1 := hgn.err
          have l0 := abs_nonneg (Real.log w)
          have d0 := abs_nonneg (Real.log (dens p.1))
          have g2 : 2 * f.u * |Real.log w| ≤ 2 * f.u * (A + ε) := by gcongr; linarith
          have g3 : |(g : ℝ) + q - (Real.log w + Real.log (dens p.1))| ≤ 2 * f.u * (A + ε) + ε := by
            rw [add_sub_add_comm]
            exact (abs_add_le _ _).trans (add_le_add (g1.trans g2) h3)
          have g4 : |(g : ℝ) + q| ≤ 2 * (A + ε) := by
            have g5 := abs_sub_abs_le_abs_sub ((g : ℝ) + q) (Real.log w + Real.log (dens p.1))
            have g6 := abs_add_le (Real.log w) (Real.log (dens p.1))
            have g7 : 2 * f.u * (A + ε) ≤ 1 * (A + ε) := by gcongr; linarith
            linarith
          have g8 : f.u * |(g : ℝ) + q| ≤ f.u * (2 * (A + ε)) := by gcongr
          have g9 := abs_sub_le (r : ℝ) (g + q) (Real.log w + Real.log (dens p.1))
          rw [hδ]
          linarith
        have hc := abs_le.mp hclose
        rw [hlogT, ← Real.exp_add, ← Real.exp_add]
        simp only [expOf]
        exact ⟨Real.exp_le_exp.mpr (by linarith), Real.exp_le_exp.mpr (by linarith)⟩
    · have hg' : Flt.ln L p.2 = .inf true := by
        rw [hw1, ← hwz]; simp [Flt.ln]
      have hrw : realOf p.2 = 0 := by rw [hw1, ← hwz]; simp [realOf]
      have e : E p = .inf true := by
        simp only [hE]
        rcases hd p hp with ⟨h1, -⟩ | ⟨q, h1, -⟩
        · rw [h1, hg']; rfl
        · rw [h1, hg']; rfl
      rw [e]
      exact ⟨.inl rfl, by simp [expOf, hT, hrw]⟩
  obtain ⟨hEpos, hElog⟩ := sum_exp_perturb E T δ ps (fun p hp => (hterm p hp).2) hpos
  have hfin : ∃ q : ℚ, Flt.fin (f := f) (L := L) q ∈ ps.map E := by
    by_contra hc
    push Not at hc
    have : (ps.map E).map expOf = (ps.map E).map fun _ => (0 : ℝ) := by
      refine List.map_congr_left fun y hy => ?_
      obtain ⟨p, hp, rfl⟩ := List.mem_map.mp hy
      rcases (hterm p hp).1 with h | ⟨q, h, -⟩
      · rw [h]; rfl
      · exact absurd (by rw [h] at hy; exact hy) (hc q)
    rw [this] at hEpos
    rw [List.map_const', List.sum_replicate, smul_zero] at hEpos
    exact lt_irrefl _ hEpos
  have hlen : (ps.map E).length ≤ m.components.length := by
    rw [List.length_map, hps, List.length_zip]; exact min_le_left _ _
  have hlenR : ((ps.map E).length : ℝ) ≤ m.components.length := by exact_mod_cast hlen
  obtain ⟨r, hr, hrr, hre⟩ := C93_logSumExp (L := L) hf hL (ps.map E) (by
    intro y hy
    obtain ⟨p, hp, rfl⟩ := List.mem_map.mp hy
    exact (hterm p hp).1) hfin (le_trans (mul_le_mul_of_nonneg_right hlenR hu.le) hn)
  refine ⟨r, ?_, hrr, ?_⟩
  · have hemp : m.components.isEmpty = false := by
      cases hmc : m.components with
      | nil => exact absurd hmc hcne
      | cons _ _ => rfl
    show MixtureMeasure.logDensity m x = _
    unfold MixtureMeasure.logDensity
    rw [hemp, if_neg (by simp)]
    exact hr
  · have h1 := abs_sub_le (r : ℝ) (Real.log ((ps.map E).map expOf).sum) (Real.log (ps.map T).sum)
    have h2 : |Real.log ((ps.map E).map expOf).sum| ≤ |Real.log (ps.map T).sum| + δ := by
      have := abs_sub_abs_le_abs_sub (Real.log ((ps.map E).map expOf).sum) (Real.log (ps.map T).sum)
      linarith
    have h3 : f.u * |Real.log ((ps.map E).map expOf).sum| ≤ f.u * (|Real.log (ps.map T).sum| + δ) := by gcongr
    have h4 : 18 * ((ps.map E).length : ℝ) * f.u ≤ 18 * m.components.length * f.u := by gcongr
    have h5 : f.u * δ ≤ 1 * δ := by gcongr; linarith
    have h6 : (r : ℝ) - Real.log ((ps.map E).map expOf).sum = r - Real.log (List.map expOf (ps.map E)).sum := rfl
    have hre' : |(r : ℝ) - Real.log ((ps.map E).map expOf).sum| ≤
      18 * ((ps.map E).length : ℝ) * f.u + f.u * |Real.log ((ps.map E).map expOf).sum| := hre
    rw [hδ] at *
    linarith

open ProbabilityTheory in
/-- **C93**: the log-density of a mixture of Normals.  For components and weights of logarithmic size
at most `B` the error is at most `(170 B + 18 n) u` plus one relative rounding. -/
theorem C93_normal_mixture (hf : f.Std) (hL : L.Accurate f) (m : MixtureMeasure (Normal (Flt f L)) (Flt f L))
    {x : ℚ} (hx : f.Representable x) {B : ℝ} (hB : B ≤ 2 ^ 60)
    (hlen : m.components.length = m.weights.length) (hne : m.components ≠ [])
    (hn : m.components.length * f.u ≤ 1/1000)
    (hw : ∀ w ∈ m.weights, ∃ q : ℚ, w = Flt.fin q ∧ 0 < q ∧ f.Representable q ∧ |Real.log q| ≤ B)
    (hc : ∀ d ∈ m.components, ∃ μ σ : ℚ, Normal.new (Flt.fin μ) (Flt.fin σ) = .ok d ∧
      f.Representable μ ∧ f.Representable σ ∧ |(x : ℝ) - μ| ≤ 2 ^ (f.emax - 1) ∧
      1 + |Real.log σ| + (((x : ℝ) - μ) / σ) ^ 2 / 2 ≤ B) :
    ∃ r : ℚ, logDensityWrtRoot m (Flt.fin x) = Flt.fin (f := f) (L := L) r ∧ f.Representable r ∧
      |(r : ℝ) - Real.log ((m.components.zip m.weights).map fun p => realOf p.2 *
          gaussianPDFReal (realOf p.1.mean) (realOf p.1.stdDev ^ 2).toNNReal x).sum| ≤
        (170 * B + 18 * m.components.length) * f.u +
        f.u * |Real.log ((m.components.zip m.weights).map fun p => realOf p.2 *
          gaussianPDFReal (realOf p.1.mean) (realOf p.1.stdDev ^ 2).toNNReal x).sum| := by
  have hu := u_pos f
  have hul := hf.u_le
  set dens : Normal (Flt f L) → ℝ := fun d =>
    gaussianPDFReal (realOf d.mean) (realOf d.stdDev ^ 2).toNNReal x with hdens
  have hmem : ∀ p ∈ m.components.zip m.weights, p.1 ∈ m.components ∧ p.2 ∈ m.weights :=
    fun p hp => List.of_mem_zip (show (p.1, p.2) ∈ _ from hp)
  have hcomp : ∀ d ∈ m.components, 0 < dens d ∧ 1 ≤ B ∧ |Real.log (dens d)| ≤ 3 * B ∧
      ∃ q : ℚ, logDensityWrtRoot d (Flt.fin x) = Flt.fin (f := f) (L := L) q ∧ f.Representable q ∧
        |(q : ℝ) - Real.log (dens d)| ≤ 64 * f.u * B := by
    intro d hd
    obtain ⟨μ, σ, hnew, hμ, hσ, hxm, hb⟩ := hc d hd
    have hnw := hnew
    obtain ⟨hσ0, rfl⟩ := Normal.new_flt hnew
    have hσR : (0 : ℝ) < σ := by exact_mod_cast hσ0
    have hz := sq_nonneg (((x : ℝ) - μ) / σ)
    have hl0 := abs_nonneg (Real.log σ)
    have hdd : dens ⟨Flt.fin μ, Flt.fin σ⟩ = gaussianPDFReal μ ((σ : ℝ) ^ 2).toNNReal x := rfl
    have hlog := log_gaussian_flt (μ := μ) (x := x) hσR
    obtain ⟨b0, b1⟩ := log_two_pi_bounds
    refine ⟨?_, by linarith, ?_, ?_⟩
    · rw [hdd]
      refine gaussianPDFReal_pos _ _ _ ?_
      rw [Ne, Real.toNNReal_eq_zero, not_le]; positivity
    · rw [hdd, hlog]
      have h1 := abs_le.mp (le_refl |Real.log σ|)
      refine abs_le.mpr ⟨?_, ?_⟩ <;> linarith
    · rcases C88_normal hf hL hμ hσ hx hnw with ⟨r, h1, h2, h3⟩ | ⟨-, h1⟩
      · refine ⟨r, h1, h2, h3.trans ?_⟩
        gcongr
      · exfalso
        have hbig : (2 : ℝ) ^ (100 : ℤ) ≤ 2 ^ (f.emax - 4) :=
          zpow_le_zpow_right₀ (by norm_num) (by have := hf.emax_ge; omega)
        rcases h1 with h1 | h1
        · exact absurd h1 (not_lt.mpr hxm)
        · norm_num at hbig hB
          linarith
  have hps : m.components.zip m.weights ≠ [] := by
    intro h
    rcases List.zip_eq_nil_iff.mp h with h | h
    · exact hne h
    · rw [h] at hlen; exact hne (List.length_eq_zero_iff.mp hlen)
  have hterm : ∀ p ∈ m.components.zip m.weights, 0 < realOf p.2 * dens p.1 := by
    intro p hp
    obtain ⟨q, hq, hq0, -⟩ := hw p.2 (hmem p hp).2
    refine mul_pos ?_ (hcomp p.1 (hmem p hp).1).1
    rw [hq]; show (0 : ℝ) < q
    exact_mod_cast hq0
  have hB1 : 1 ≤ B := by
    obtain ⟨p, hp⟩ := List.exists_mem_of_ne_nil _ hps
    exact (hcomp p.1 (hmem p hp).1).2.1
  obtain ⟨r, hr, hrr, hre⟩ := C93_mixture hf hL m (Flt.fin x) dens (64 * f.u * B) (4 * B) (by positivity) hn
    (fun p hp => by
      obtain ⟨q, hq, hq0, hqr, -⟩ := hw p.2 (hmem p hp).2
      exact ⟨q, hq, hq0.le, hqr⟩)
    (fun p hp => by
      right
      obtain ⟨w, hw1, -, -, hwB⟩ := hw p.2 (hmem p hp).2
      obtain ⟨h1, -, h2, q, h3, h4, h5⟩ := hcomp p.1 (hmem p hp).1
      refine ⟨q, h3, h4, h1, h5, ?_⟩
      rw [hw1]
      have : |Real.log (realOf (Flt.fin (f := f) (L := L) w))| ≤ B := hwB
      linarith)
    (List.sum_pos _ (by
      intro t ht
      obtain ⟨p, hp, rfl⟩ := List.mem_map.mp ht
      exact hterm p hp) (by simpa using hps))
  refine ⟨r, hr, hrr, hre.trans ?_⟩
  have h1 : 64 * f.u * B ≤ B := by norm_num at hul; nlinarith
  have h2 : 8 * f.u * (4 * B + 64 * f.u * B) ≤ 8 * f.u * (5 * B) := by gcongr; linarith
  have h3 : 0 ≤ f.u * B := by positivity
  linarith

open ProbabilityTheory in
example : ∃ L : Libm, L.Accurate f64 ∧ ∃ m : MixtureMeasure (Normal (Flt f64 L)) (Flt f64 L),
    m.components.length = m.weights.length ∧ m.components ≠ [] ∧
    (∀ w ∈ m.weights, ∃ q : ℚ, w = Flt.fin q ∧ 0 < q ∧ f64.Representable q ∧ |Real.log q| ≤ 2) ∧
    (∀ d ∈ m.components, ∃ μ σ : ℚ, Normal.new (Flt.fin μ) (Flt.fin σ) = .ok d ∧
      f64.Representable μ ∧ f64.Representable σ ∧ |((0 : ℚ) : ℝ) - μ| ≤ 2 ^ (f64.emax - 1) ∧
      1 + |Real.log σ| + ((((0 : ℚ) : ℝ) - μ) / σ) ^ 2 / 2 ≤ 2) := by
  have hf : f64.Std := .inl rfl
  obtain ⟨L, hL⟩ := exists_libm hf
  refine ⟨L, hL, ⟨[⟨Flt.fin 0, Flt.fin 1⟩, ⟨Flt.fin 1, Flt.fin 1⟩], [Flt.fin (1/2), Flt.fin (1/2)]⟩, rfl,
    by simp, ?_, ?_⟩
  · intro w hw
    have : w = Flt.fin (1/2) := by simpa using hw
    refine ⟨1/2, this, by norm_num, hf.rep_half, ?_⟩
    push_cast
    rw [one_div, Real.log_inv, abs_neg, abs_of_pos (Real.log_pos (by norm_num))]
    have := Real.log_two_lt_d9
    linarith
  · intro d hd
    have hbig : (2 : ℝ) ^ (0 : ℤ) ≤ 2 ^ (f64.emax - 1) := zpow_le_zpow_right₀ (by norm_num) (by decide)
    rw [zpow_zero] at hbig
    simp only [List.mem_cons, List.not_mem_nil, or_false] at hd
    rcases hd with rfl | rfl
    · exact ⟨0, 1, rfl, rep_zero _, hf.rep_one, by simp; linarith, by norm_num⟩
    · exact ⟨1, 1, rfl, hf.rep_one, hf.rep_one, by simpa using hbig, by norm_num⟩

end Verif
