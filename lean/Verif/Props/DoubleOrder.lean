import Verif.Props.DoubleSum
import Verif.Props.DoubleTotal
import Verif.Spec.DoubleMixture
import Verif.Spec.DoubleOrder

/-!
# C142: the order of the data and their division into batches
-/

namespace Verif
open Format FloatOps Spec ProbabilityTheory

variable {f : Format} {L : Libm}

/-- **C142** (stream): in every arithmetic whatever, adding the log-density of one more observation, or of a further
batch one by one, to the joint log-density so far is exactly the joint log-density of all observations. -/
theorem C142_stream {F D X : Type} [FloatOps F] [HasLogDensity D X F] (d : D) (xs ys : List X) (x : X) :
    ((IID.ofDist d).iidLogDensityFallback (xs ++ [x]) : F)
      = ((IID.ofDist d).iidLogDensityFallback xs +. logDensityWrtRoot d x) ∧
    ((IID.ofDist d).iidLogDensityFallback (xs ++ ys) : F)
      = ys.foldl (fun acc y => acc +. logDensityWrtRoot d y) ((IID.ofDist d).iidLogDensityFallback xs) := by
  constructor
  · simp [IID.iidLogDensityFallback, IID.ofDist, FloatOps.sum]
  · simp only [IID.iidLogDensityFallback, IID.ofDist, FloatOps.sum, List.map_append, List.foldl_append, List.foldl_map]

theorem abs_sum_le_map {α : Type} (g : α → ℝ) (xs : List α) : |(xs.map g).sum| ≤ (xs.map fun x => |g x|).sum := by
  induction xs with
  | nil => simp
  | cons x xs ih =>
    simp only [List.map_cons, List.sum_cons]
    exact (abs_add_le _ _).trans (by linarith)

section
variable {D X : Type} [HasLogDensity D X (Flt f L)]

theorem exists_terms {d : D} {xs : List X} (h : FiniteTerms f L d xs) :
    ∃ qs : List ℚ, xs.map (fun x => (logDensityWrtRoot d x : Flt f L)) = qs.map Flt.fin ∧ qs.length = xs.length ∧
      (∀ q ∈ qs, f.Representable q) ∧ (qs.map fun q : ℚ => (q : ℝ)) = xs.map (fun x => realOf (logDensityWrtRoot d x : Flt f L)) ∧
      (qs.map fun q : ℚ => |(q : ℝ)|).sum = totalSize f L d xs := by
  induction xs with
  | nil => exact ⟨[], by simp [totalSize]⟩
  | cons x xs ih =>
    obtain ⟨qs, e1, e2, e3, e4, e5⟩ := ih fun y hy => h y (List.mem_cons_of_mem _ hy)
    obtain ⟨q, g1, g2⟩ := h x List.mem_cons_self
    have g3 : realOf (logDensityWrtRoot d x : Flt f L) = q := by rw [g1]; rfl
    refine ⟨q :: qs, by simp only [List.map_cons, e1, g1], by simp [e2], by simpa using ⟨g2, e3⟩, ?_, ?_⟩
    · simp only [List.map_cons, e4, g3]
    · unfold totalSize at e5 ⊢
      simp only [List.map_cons, List.sum_cons, e5, g3]

theorem joint_err (hf : f.Std) {d : D} {xs : List X} (h : FiniteTerms f L d xs) {r : ℚ}
    (hr : (IID.ofDist d).iidLogDensityFallback xs = Flt.fin (f := f) (L := L) r) :
    |(r : ℝ) - (xs.map fun x => realOf (logDensityWrtRoot d x : Flt f L)).sum| ≤
      ((1 + f.u) ^ xs.length - 1) * totalSize f L d xs := by
  obtain ⟨qs, e1, e2, e3, e4, e5⟩ := exists_terms h
  have h' : FloatOps.sum (qs.map (Flt.fin (f := f) (L := L))) = Flt.fin (f := f) (L := L) r := by
    rw [← e1]; exact hr
  have := C91_sum hf qs e3 h'
  rwa [e2, e4, e5] at this

/-- **C142** (order): two orders of the same observations give joint log-densities that differ by at most twice the
accumulated rounding error. -/
theorem C142_order (hf : f.Std) {d : D} {xs ys : List X} (hp : xs.Perm ys) (h : FiniteTerms f L d xs) {r s : ℚ}
    (hr : (IID.ofDist d).iidLogDensityFallback xs = Flt.fin (f := f) (L := L) r)
    (hs : (IID.ofDist d).iidLogDensityFallback ys = Flt.fin (f := f) (L := L) s) :
    |(r : ℝ) - s| ≤ 2 * ((1 + f.u) ^ xs.length - 1) * totalSize f L d xs := by
  have h' : FiniteTerms f L d ys := fun y hy => h y (hp.mem_iff.mpr hy)
  have a := joint_err hf h hr
  have b := joint_err hf h' hs
  rw [← hp.length_eq, ← (hp.map _).sum_eq, show totalSize f L d ys = totalSize f L d xs from (hp.map _).sum_eq.symm] at b
  rw [abs_le] at *
  constructor <;> linarith [a.1, a.2, b.1, b.2]

/-- **C142** (batches): adding up the joint log-densities of batches instead of going through all observations at once. -/
theorem C142_batches (hf : f.Std) {d : D} {bs : List (List X)} (h : ∀ b ∈ bs, FiniteTerms f L d b) {r s : ℚ}
    (hr : (IID.ofDist d).iidLogDensityFallback bs.flatten = Flt.fin (f := f) (L := L) r)
    (hb : ∀ b ∈ bs, ∃ t : ℚ, (IID.ofDist d).iidLogDensityFallback b = Flt.fin (f := f) (L := L) t ∧ f.Representable t)
    (hs : FloatOps.sum (bs.map fun b => (IID.ofDist d).iidLogDensityFallback b) = Flt.fin (f := f) (L := L) s) :
    |(r : ℝ) - s| ≤ 2 * ((1 + f.u) ^ (bs.flatten.length + bs.length) - 1) * totalSize f L d bs.flatten := by
  have hu := u_pos f
  have hall : FiniteTerms f L d bs.flatten := fun x hx => by
    obtain ⟨b, hb, hx⟩ := List.mem_flatten.mp hx; exact h b hb x hx
  have a := joint_err hf hall hr
  have hlen : ∀ b ∈ bs, b.length ≤ bs.flatten.length := fun b hb => by
    rw [List.length_flatten]
    exact List.single_le_sum (by simp) _ (List.mem_map.mpr ⟨b, hb, rfl⟩)
  have hmono : ∀ {i j : ℕ}, i ≤ j → (1 + f.u) ^ i ≤ (1 + f.u) ^ j := fun h => pow_le_pow_right₀ (by linarith) h
  set N := bs.flatten.length with hN
  set G := (1 + f.u) ^ N with hG
  have hG1 : 1 ≤ G := one_le_pow₀ (by linarith)
  have hsz : ∀ xs : List X, 0 ≤ totalSize f L d xs := fun xs => List.sum_nonneg fun y hy => by
    obtain ⟨x, -, rfl⟩ := List.mem_map.mp hy; exact abs_nonneg _
  -- the batch sums
  have key : ∀ cs : List (List X), (∀ b ∈ cs, b ∈ bs) →
      ∃ ts : List ℚ, (cs.map fun b => ((IID.ofDist d).iidLogDensityFallback b : Flt f L)) = ts.map Flt.fin ∧
        ts.length = cs.length ∧ (∀ t ∈ ts, f.Representable t) ∧
        |(ts.map fun t : ℚ => (t : ℝ)).sum - (cs.flatten.map fun x => realOf (logDensityWrtRoot d x : Flt f L)).sum| ≤
          (G - 1) * totalSize f L d cs.flatten ∧
        (ts.map fun t : ℚ => |(t : ℝ)|).sum ≤ G * totalSize f L d cs.flatten := by
    intro cs
    induction cs with
    | nil => intro _; exact ⟨[], by simp [totalSize]⟩
    | cons b cs ih =>
      intro hm
      obtain ⟨ts, e1, e2, e3, e4, e5⟩ := ih fun c hc => hm c (List.mem_cons_of_mem _ hc)
      have hbm := hm b List.mem_cons_self
      obtain ⟨t, g1, g2⟩ := hb b hbm
      have g3 := joint_err hf (h b hbm) g1
      have g4 : ((1 + f.u) ^ b.length - 1) * totalSize f L d b ≤ (G - 1) * totalSize f L d b :=
        mul_le_mul_of_nonneg_right (by linarith [hmono (hlen b hbm)]) (hsz b)
      have g5 : |(b.map fun x => realOf (logDensityWrtRoot d x : Flt f L)).sum| ≤ totalSize f L d b := by
        exact abs_sum_le_map (fun x => realOf (logDensityWrtRoot d x : Flt f L)) b
      have g6 := abs_sub_abs_le_abs_sub (t : ℝ) (b.map fun x => realOf (logDensityWrtRoot d x : Flt f L)).sum
      have hsplit : totalSize f L d (b ++ cs.flatten) = totalSize f L d b + totalSize f L d cs.flatten := by
        simp [totalSize]
      refine ⟨t :: ts, by simp only [List.map_cons, e1, g1], by simp [e2], by simpa using ⟨g2, e3⟩, ?_, ?_⟩
      · rw [List.flatten_cons, hsplit]
        simp only [List.map_cons, List.sum_cons, List.map_append, List.sum_append]
        rw [add_sub_add_comm]
        refine (abs_add_le _ _).trans ?_
        linarith
      · rw [List.flatten_cons, hsplit]
        simp only [List.map_cons, List.sum_cons]
        linarith
  obtain ⟨ts, e1, e2, e3, e4, e5⟩ := key bs fun b hb => hb
  rw [e1] at hs
  have b := C91_sum hf ts e3 hs
  rw [e2] at b
  have hK : 1 ≤ (1 + f.u) ^ bs.length := one_le_pow₀ (by linarith)
  have b' := b.trans (mul_le_mul_of_nonneg_left e5 (by linarith))
  have hpow : (1 + f.u) ^ (N + bs.length) = G * (1 + f.u) ^ bs.length := by rw [hG, pow_add]
  set K := (1 + f.u) ^ bs.length
  set T := totalSize f L d bs.flatten
  have hT : 0 ≤ T := hsz _
  have hGK : (G - 1) * T ≤ (G * K - 1) * T := mul_le_mul_of_nonneg_right (by nlinarith) hT
  rw [hpow]
  rw [abs_le] at *
  constructor <;> nlinarith [a.1, a.2, b'.1, b'.2, e4.1, e4.2]

/-- **C142** (impossible observations): when the log-densities are `-∞` or not above `2^k`, one `-∞` among them makes the
joint log-density `-∞`, at whatever place it stands. -/
theorem C142_impossible (hf : f.Std) {d : D} {xs : List X} {k : ℤ} (hk : f.emin ≤ k) (hk' : k + f.prec < f.emax)
    (h : ∀ x ∈ xs, AtMost (2 ^ k) (logDensityWrtRoot d x : Flt f L))
    (hi : ∃ x ∈ xs, logDensityWrtRoot d x = Flt.negInf (f := f) (L := L)) :
    (IID.ofDist d).iidLogDensityFallback xs = Flt.negInf (f := f) (L := L) := by
  obtain ⟨x, hx, hxi⟩ := hi
  obtain ⟨as, bs, rfl⟩ := List.append_of_mem hx
  have e : as ++ x :: bs = (as ++ [x]) ++ bs := by simp
  have hA := C130_iid hf (IID.ofDist d) as hk hk' fun y hy => h y (by simp [hy])
  rw [e, (C142_stream d (as ++ [x]) bs x).2, (C142_stream d as bs x).1, hxi]
  have h1 : ((IID.ofDist d).iidLogDensityFallback as +. Flt.negInf (f := f) (L := L)) = Flt.negInf (f := f) (L := L) := by
    rcases hA with hA | ⟨q, hA, -⟩
    · rw [hA]; rfl
    · rw [hA]; rfl
  rw [h1]
  have h2 : ∀ cs : List X, (∀ y ∈ cs, AtMost (2 ^ k) (logDensityWrtRoot d y : Flt f L)) →
      cs.foldl (fun acc y => acc +. logDensityWrtRoot d y) (Flt.negInf (f := f) (L := L)) = Flt.negInf (f := f) (L := L) := by
    intro cs
    induction cs with
    | nil => intro _; rfl
    | cons c cs ih =>
      intro hc
      have : ((Flt.negInf : Flt f L) +. logDensityWrtRoot d c) = Flt.negInf (f := f) (L := L) := by
        rcases hc c (by simp) with hA | ⟨q, hA, -⟩
        · rw [hA]; rfl
        · rw [hA]; rfl
      rw [List.foldl_cons, this]
      exact ih fun y hy => hc y (by simp [hy])
  exact h2 bs fun y hy => h y (by simp [hy])

/-- **C142** (exact cases): when the log-densities are whole multiples of some power of two and not too many for the
precision, every order gives the exact sum. -/
theorem C142_exact {d : D} {xs ys : List X} (hp : xs.Perm ys) {e : ℤ} (he : f.emin ≤ e)
    (he' : e + f.prec ≤ f.emax) (m : X → ℤ)
    (hm : ∀ x ∈ xs, logDensityWrtRoot d x = Flt.fin (f := f) (L := L) (m x * 2 ^ e))
    (hs : (xs.map fun x => |m x|).sum < 2 ^ f.prec) :
    (IID.ofDist d).iidLogDensityFallback ys = Flt.fin (f := f) (L := L) ((xs.map m).sum * 2 ^ e) := by
  have hm' : ∀ y ∈ ys, logDensityWrtRoot d y = Flt.fin (f := f) (L := L) (m y * 2 ^ e) :=
    fun y hy => hm y (hp.mem_iff.mpr hy)
  have hs' : |(0 : ℤ)| + (ys.map fun x => |m x|).sum < 2 ^ f.prec := by
    rw [abs_zero, zero_add, ← (hp.map _).sum_eq]; exact hs
  rw [(hp.map m).sum_eq]
  clear hp hm hs
  have key : ∀ (ys : List X) (a : ℤ), (∀ y ∈ ys, logDensityWrtRoot d y = Flt.fin (f := f) (L := L) (m y * 2 ^ e)) →
      |a| + (ys.map fun x => |m x|).sum < 2 ^ f.prec →
      (ys.map fun y => (logDensityWrtRoot d y : Flt f L)).foldl FloatOps.add (Flt.fin (a * 2 ^ e))
        = Flt.fin (f := f) (L := L) ((a + (ys.map m).sum : ℤ) * 2 ^ e) := by
    intro ys
    induction ys with
    | nil => intro a _ _; simp
    | cons y ys ih =>
      intro a h1 h2
      simp only [List.map_cons, List.sum_cons, List.foldl_cons] at h2 ⊢
      have h3 : |a + m y| ≤ |a| + |m y| := abs_add_le _ _
      have h0 : 0 ≤ (ys.map fun x => |m x|).sum := List.sum_nonneg fun z hz => by
        obtain ⟨w, -, rfl⟩ := List.mem_map.mp hz; exact abs_nonneg _
      have hlt : |a + m y| < 2 ^ f.prec := by linarith
      have hrep : f.Representable (((a + m y : ℤ) : ℚ) * 2 ^ e) := by
        refine ⟨⟨a + m y, e, hlt, he, rfl⟩, ?_⟩
        rw [abs_mul, abs_of_pos (by positivity : (0 : ℚ) < 2 ^ e)]
        have h4 : |((a + m y : ℤ) : ℚ)| < 2 ^ f.prec := by exact_mod_cast hlt
        calc |((a + m y : ℤ) : ℚ)| * 2 ^ e < 2 ^ f.prec * 2 ^ e := mul_lt_mul_of_pos_right h4 (by positivity)
          _ = 2 ^ (e + f.prec) := by rw [zpow_add₀ (by norm_num), zpow_natCast, mul_comm]
          _ ≤ _ := zpow_le_zpow_right₀ (by norm_num) he'
      have hadd : ((Flt.fin (a * 2 ^ e) : Flt f L) +. logDensityWrtRoot d y) = Flt.fin (f := f) (L := L) (((a + m y : ℤ) : ℚ) * 2 ^ e) := by
        rw [h1 y (by simp)]
        show f.round (a * 2 ^ e + m y * 2 ^ e) = _
        rw [← add_mul, ← Int.cast_add]
        exact f.round_exact hrep
      have := ih (a + m y) (fun z hz => h1 z (by simp [hz])) (by linarith)
      rw [add_assoc] at this
      rw [← this]
      exact congrArg (fun v => List.foldl FloatOps.add v _) hadd
  have := key ys 0 hm' hs'
  simp only [Int.cast_zero, zero_mul, zero_add] at this
  exact this

end

/-- The exponential distribution of rate one has log-density exactly `-x` at the nonnegative numbers of the format. -/
theorem exponential_one_flt (hf : f.Std) (hL : L.Accurate f) {x : ℚ} (h0 : 0 ≤ x) (hx : f.Representable x) :
    (logDensityWrtRoot (⟨Flt.fin 1⟩ : Exponential (Flt f L)) (Flt.fin x : Flt f L) : Flt f L) = Flt.fin (-x) := by
  rw [exponential_flt, if_pos h0]
  obtain ⟨r, h1, -, h2⟩ := hL.ln 1 one_pos hf.rep_one
  rw [Rat.cast_one, Real.log_one, abs_zero, mul_zero, sub_zero] at h2
  have hr : r = 0 := by exact_mod_cast abs_nonpos_iff.mp h2
  have e1 : Flt.ln L (Flt.fin (f := f) (L := L) 1) = .fin 0 := by
    show Flt.ln L (.fin 1) = _
    simp only [Flt.ln, if_pos one_pos, h1, hr]
  have e2 : Flt.mul f (Flt.fin (f := f) (L := L) 1) (.fin x) = .fin x := by
    show f.round (1 * x) = _
    rw [one_mul]; exact f.round_exact hx
  rw [e1, e2, sub_fin, zero_sub]
  exact f.round_exact (rep_neg hx)

/-- **C142** (the bounds cannot be zero): the computed joint log-density does depend on the order of the observations: for the exponential
distribution of rate one and the observations 1, 2^-53 and 2^-53. -/
theorem C142_order_matters (hL : L.Accurate f64) :
    ∃ d : Exponential (Flt f64 L), Exponential.new (Flt.fin 1) = .ok d ∧
      ∃ xs ys : List (Flt f64 L), xs.Perm ys ∧
        (IID.ofDist d).iidLogDensityFallback xs = Flt.fin (f := f64) (L := L) (-1) ∧
        (IID.ofDist d).iidLogDensityFallback ys = Flt.fin (f := f64) (L := L) (-(1 + 2 ^ (-52 : ℤ))) := by
  have hf : f64.Std := .inl rfl
  have rt : f64.Representable (2 ^ (-53 : ℤ)) := Std.rep_pow hf (by decide) (by decide)
  have rs : f64.Representable (2 ^ (-52 : ℤ)) := Std.rep_pow hf (by decide) (by decide)
  have a1 := exponential_one_flt hf hL zero_le_one hf.rep_one
  have a2 := exponential_one_flt hf hL (by positivity) rt
  refine ⟨⟨Flt.fin 1⟩, rfl, [Flt.fin 1, Flt.fin (2 ^ (-53 : ℤ)), Flt.fin (2 ^ (-53 : ℤ))],
    [Flt.fin (2 ^ (-53 : ℤ)), Flt.fin (2 ^ (-53 : ℤ)), Flt.fin 1], ?_, ?_, ?_⟩
  · exact (List.perm_append_comm (l₁ := [Flt.fin 1]) (l₂ := [Flt.fin (2 ^ (-53 : ℤ)), Flt.fin (2 ^ (-53 : ℤ))]))
  · have s1 : f64.round (0 + -1) = .fin (-1) := by rw [zero_add]; exact f64.round_exact (rep_neg hf.rep_one)
    have s2 : f64.round (-1 + -(2 ^ (-53 : ℤ))) = .fin (-1) := by
      have := f64.round_eval (q := -1 + -(2 ^ (-53 : ℤ))) 0 (-(2 ^ 52)) (by norm_num [abs_of_neg])
        (by norm_num [abs_of_neg]) (by norm_num [f64]) (by norm_num [f64, abs_le])
        (.inr (by decide)) (by
          norm_num [f64]
          exact one_lt_pow₀ (by norm_num) (by norm_num))
      rw [this]; norm_num [f64]
    have key : ∀ a b : FVal, a = .fin (-1) → b = .fin (-(2 ^ (-53 : ℤ))) →
        Flt.add f64 (Flt.add f64 (Flt.add f64 (.fin 0) a) b) b = .fin (-1) := by
      rintro a b rfl rfl
      simp only [Flt.add, s1, s2]
    exact key _ _ a1 a2
  · have s1 : f64.round (0 + -(2 ^ (-53 : ℤ))) = .fin (-(2 ^ (-53 : ℤ))) := by
      rw [zero_add]; exact f64.round_exact (rep_neg rt)
    have s2 : f64.round (-(2 ^ (-53 : ℤ)) + -(2 ^ (-53 : ℤ))) = .fin (-(2 ^ (-52 : ℤ))) := by
      rw [show (-(2 ^ (-53 : ℤ)) + -(2 ^ (-53 : ℤ)) : ℚ) = -(2 ^ (-52 : ℤ)) by norm_num]
      exact f64.round_exact (rep_neg rs)
    have s3 : f64.round (-(2 ^ (-52 : ℤ)) + -1) = .fin (-(1 + 2 ^ (-52 : ℤ))) := by
      rw [show (-(2 ^ (-52 : ℤ)) + -1 : ℚ) = -(1 + 2 ^ (-52 : ℤ)) by ring]
      refine f64.round_exact (rep_neg ⟨⟨2 ^ 52 + 1, -52, by norm_num [f64], by norm_num [f64], by norm_num⟩, ?_⟩)
      have h1 : |(1 + 2 ^ (-52 : ℤ) : ℚ)| < 2 ^ (1 : ℤ) := by norm_num [abs_of_pos]
      exact h1.trans_le (zpow_le_zpow_right₀ (by norm_num) (by decide))
    have key : ∀ a b : FVal, a = .fin (-1) → b = .fin (-(2 ^ (-53 : ℤ))) →
        Flt.add f64 (Flt.add f64 (Flt.add f64 (.fin 0) b) b) a = .fin (-(1 + 2 ^ (-52 : ℤ))) := by
      rintro a b rfl rfl
      simp only [Flt.add, s1, s2, s3]
    exact key _ _ a1 a2

/-- The hypotheses of `C142_order` and `C142_exact` hold for ordinary data. -/
example : ∃ L : Libm, L.Accurate f64 ∧
    FiniteTerms f64 L (⟨Flt.fin 1⟩ : Exponential (Flt f64 L)) [(Flt.fin 1 : Flt f64 L), Flt.fin 2, Flt.fin 4] ∧
    (IID.ofDist (⟨Flt.fin 1⟩ : Exponential (Flt f64 L))).iidLogDensityFallback [(Flt.fin 4 : Flt f64 L), Flt.fin 1, Flt.fin 2]
      = Flt.fin (f := f64) (L := L) (-7) := by
  have hf : f64.Std := .inl rfl
  obtain ⟨L, hL⟩ := exists_libm hf
  have r1 := hf.rep_one
  have r2 : f64.Representable 2 := by simpa using Std.rep_pow (k := 1) hf (by decide) (by decide)
  have r4 : f64.Representable 4 := by
    have := Std.rep_pow (k := 2) hf (by decide) (by decide)
    norm_num at this; exact this
  have a1 := exponential_one_flt hf hL zero_le_one r1
  have a2 := exponential_one_flt hf hL (by norm_num) r2
  have a4 := exponential_one_flt hf hL (by norm_num) r4
  refine ⟨L, hL, ?_, ?_⟩
  · intro x hx
    simp only [List.mem_cons, List.not_mem_nil, or_false] at hx
    rcases hx with rfl | rfl | rfl
    exacts [⟨_, a1, rep_neg r1⟩, ⟨_, a2, rep_neg r2⟩, ⟨_, a4, rep_neg r4⟩]
  · let m : Flt f64 L → ℤ := fun v => match v with
      | .fin q => -q.num
      | _ => 0
    have m1 : m (Flt.fin 1) = -1 := rfl
    have m2 : m (Flt.fin 2) = -2 := rfl
    have m4 : m (Flt.fin 4) = -4 := rfl
    have := C142_exact (f := f64) (L := L) (d := (⟨Flt.fin 1⟩ : Exponential (Flt f64 L)))
      (List.Perm.refl [(Flt.fin 4 : Flt f64 L), Flt.fin 1, Flt.fin 2]) (e := 0) (by decide) (by decide) m
      (by
        intro x hx
        simp only [List.mem_cons, List.not_mem_nil, or_false] at hx
        rcases hx with rfl | rfl | rfl
        · rw [a4, m4]; norm_num
        · rw [a1, m1]; norm_num
        · rw [a2, m2]; norm_num)
      (by simp only [List.map_cons, List.map_nil, m1, m2, m4]; norm_num [f64])
    rw [this]
    simp only [List.map_cons, List.map_nil, m1, m2, m4]; norm_num

/-- The hypotheses of `C142_impossible` hold for the exponential distribution and data with a negative observation. -/
example : ∃ L : Libm, L.Accurate f64 ∧
    (IID.ofDist (⟨Flt.fin 1⟩ : Exponential (Flt f64 L))).iidLogDensityFallback [(Flt.fin 1 : Flt f64 L), Flt.fin (-1)]
      = Flt.negInf (f := f64) (L := L) := by
  have hf : f64.Std := .inl rfl
  obtain ⟨L, hL⟩ := exists_libm hf
  have a1 := exponential_one_flt hf hL zero_le_one hf.rep_one
  have a2 : (logDensityWrtRoot (⟨Flt.fin 1⟩ : Exponential (Flt f64 L)) (Flt.fin (-1) : Flt f64 L) : Flt f64 L) = Flt.negInf := by
    rw [exponential_flt, if_neg (by norm_num)]
  refine ⟨L, hL, C142_impossible hf (k := 0) (by decide) (by decide) ?_ ⟨_, by simp, a2⟩⟩
  intro x hx
  simp only [List.mem_cons, List.not_mem_nil, or_false] at hx
  rcases hx with rfl | rfl
  · exact .inr ⟨-1, a1, by norm_num⟩
  · exact .inl a2

end Verif
