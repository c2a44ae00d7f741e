import Verif.Lemmas.NearOps

/-! Rounding errors of sums. -/

namespace Verif
open Format FloatOps

variable {f : Format} {L : Libm}

/-- growth factor of `n` additions -/
noncomputable def Format.grow (f : Format) (n : ℕ) : ℝ := (1 + f.u) ^ n - 1

theorem grow_zero : f.grow 0 = 0 := by simp [Format.grow]
theorem grow_nonneg (n : ℕ) : 0 ≤ f.grow n := by
  have := one_le_pow₀ (a := 1 + f.u) (n := n) (by linarith [u_pos f])
  unfold Format.grow; linarith
theorem grow_succ (n : ℕ) : f.grow (n + 1) = f.grow n + f.u * (1 + f.grow n) := by
  unfold Format.grow; ring

/-- for fewer than `1/u` additions the growth is linear -/
theorem grow_le {n : ℕ} (h : n * f.u ≤ 1/2) : f.grow n ≤ 2 * n * f.u := by
  have hu := u_pos f
  induction n with
  | zero => simp [grow_zero]
  | succ n ih =>
    push_cast at h ⊢
    have h1 : (n : ℝ) * f.u ≤ 1/2 := by nlinarith
    have h2 := ih h1
    rw [grow_succ]
    have : 1 + f.grow n ≤ 2 := by nlinarith
    nlinarith

/-- adding to a non-finite accumulator never gives a finite number -/
theorem foldl_add_not_fin (xs : List ℚ) (a : FVal) (h : ∀ q, a ≠ .fin q) (r : ℚ) :
    (xs.map FVal.fin).foldl (Flt.add f) a ≠ .fin r := by
  induction xs generalizing a with
  | nil => exact h r
  | cons x xs ih =>
    refine ih _ fun q => ?_
    cases a with
    | nan => simp [Flt.add]
    | inf b => simp [Flt.add]
    | fin q' => exact absurd rfl (h q')

/-- a finite sum is accurate -/
theorem foldl_add_err (hf : f.Std) (xs : List ℚ) (hx : ∀ x ∈ xs, f.Representable x) {a r : ℚ}
    {S T : ℝ} {k : ℕ} (ha : f.Representable a) (he : |(a : ℝ) - S| ≤ f.grow k * T) (hS : |S| ≤ T)
    (h : (xs.map FVal.fin).foldl (Flt.add f) (.fin a) = .fin r) :
    f.Representable r ∧
    |(r : ℝ) - (S + (xs.map (fun x : ℚ => (x : ℝ))).sum)| ≤
      f.grow (k + xs.length) * (T + (xs.map (fun x : ℚ => |(x : ℝ)|)).sum) := by
  induction xs generalizing a S T k with
  | nil => simp only [List.map_nil, List.foldl_nil, FVal.fin.injEq] at h; subst h; simpa using ⟨ha, he⟩
  | cons x xs ih =>
    simp only [List.map_cons, List.foldl_cons] at h
    have hx0 := hx x (by simp)
    have hu := u_pos f
    have e : Flt.add f (.fin a) (.fin x) = f.round (a + x) := rfl
    rw [e] at h
    rcases f.round_cases (a + x) with ⟨b, hb⟩ | hb
    · rw [hb] at h
      obtain ⟨hbr, hbe⟩ := near_round_add hf ha hx0 hb
      push_cast at hbe
      have hT : 0 ≤ T := (abs_nonneg _).trans hS
      have hg := grow_nonneg (f := f) k
      have := ih (fun y hy => hx y (by simp [hy])) (a := b) (S := S + x) (T := T + |(x : ℝ)|) (k := k + 1)
        hbr (by
          have h1 : (b : ℝ) - (S + x) = ((b : ℝ) - (a + x)) + (a - S) := by ring
          have h2 := abs_add_le ((b : ℝ) - (a + x)) (a - S)
          rw [← h1] at h2
          have h3 : |(a : ℝ) + x| ≤ |(a : ℝ) - S| + |S| + |(x : ℝ)| := by
            have e2 : (a : ℝ) + x = (a - S) + S + x := by ring
            rw [e2]
            exact (abs_add_le _ _).trans (by gcongr; exact abs_add_le _ _)
          have h4 : f.u * |(a : ℝ) + x| ≤ f.u * (f.grow k * T + T + |(x : ℝ)|) := by
            gcongr; linarith
          have h5 : 0 ≤ f.grow k * |(x : ℝ)| := by positivity
          have h6 : 0 ≤ f.u * f.grow k * |(x : ℝ)| := by positivity
          rw [grow_succ]
          nlinarith) ((abs_add_le _ _).trans (by gcongr)) h
      simp only [List.map_cons, List.sum_cons, List.length_cons]
      rw [← add_assoc S, ← add_assoc T, show k + (xs.length + 1) = k + 1 + xs.length by ring]
      exact this
    · rw [hb] at h
      exact absurd h (foldl_add_not_fin xs _ (by simp) r)

/-- a sum of numbers whose absolute sum is far from overflow is finite -/
theorem foldl_add_fin (hf : f.Std) (xs : List ℚ) (hx : ∀ x ∈ xs, f.Representable x) {a : ℚ}
    {S T : ℝ} {k : ℕ} (ha : f.Representable a) (he : |(a : ℝ) - S| ≤ f.grow k * T) (hS : |S| ≤ T)
    (hg : f.grow (k + xs.length) ≤ 1)
    (hT : T + (xs.map (fun x : ℚ => |(x : ℝ)|)).sum ≤ 2 ^ (f.emax - 3)) :
    ∃ r, (xs.map FVal.fin).foldl (Flt.add f) (.fin a) = .fin r := by
  induction xs generalizing a S T k with
  | nil => exact ⟨a, rfl⟩
  | cons x xs ih =>
    simp only [List.map_cons, List.foldl_cons]
    simp only [List.map_cons, List.sum_cons, List.length_cons] at hT hg
    have hx0 := hx x (by simp)
    have hu := u_pos f
    have hT0 : 0 ≤ T := (abs_nonneg _).trans hS
    have hg0 := grow_nonneg (f := f) k
    have hsum : 0 ≤ (xs.map (fun x : ℚ => |(x : ℝ)|)).sum :=
      List.sum_nonneg (by simp)
    have hmono : f.grow k ≤ f.grow (k + (xs.length + 1)) := by
      unfold Format.grow
      have := pow_le_pow_right₀ (a := 1 + f.u) (by linarith) (show k ≤ k + (xs.length + 1) by omega)
      linarith
    have hax : |(a : ℝ) + x| ≤ 2 ^ (f.emax - 2) := by
      have h3 : |(a : ℝ) + x| ≤ |(a : ℝ) - S| + |S| + |(x : ℝ)| := by
        have e2 : (a : ℝ) + x = (a - S) + S + x := by ring
        rw [e2]
        exact (abs_add_le _ _).trans (by gcongr; exact abs_add_le _ _)
      have h4 : f.grow k * T ≤ 1 * T := by gcongr; linarith
      have h5 : (2 : ℝ) ^ (f.emax - 2) = 2 * 2 ^ (f.emax - 3) := by
        rw [show f.emax - 2 = 1 + (f.emax - 3) by ring, zpow_add₀ (by norm_num)]; norm_num
      rw [h5]
      have := abs_nonneg (x : ℝ)
      linarith
    obtain ⟨b, hb, -⟩ := f.round_le (prec1 hf) (q := a + x) (k := f.emax - 2)
      (rat_le (by push_cast; exact hax))
      (by have := hf.emax_ge; have := hf.emin_le; omega) (by omega)
    have e : Flt.add f (.fin a) (.fin x) = .fin b := hb
    rw [e]
    obtain ⟨hbr, hbe⟩ := foldl_add_err hf [x] (by simpa using hx0) ha he hS (r := b) (by simpa using e)
    simp only [List.map_cons, List.map_nil, List.sum_cons, List.sum_nil, add_zero, List.length_singleton] at hbe
    refine ih (fun y hy => hx y (by simp [hy])) hbr hbe ((abs_add_le _ _).trans (by gcongr)) ?_ ?_
    · rw [show k + 1 + xs.length = k + (xs.length + 1) by ring]; exact hg
    · rw [add_assoc]; exact hT

theorem sum_flt (xs : List ℚ) :
    (FloatOps.sum (xs.map (Flt.fin (f := f) (L := L))) : Flt f L) =
      (xs.map FVal.fin).foldl (Flt.add f) (.fin 0) := rfl

/-! Rounding commutes with negation. -/

theorem roundEven_neg (q : ℚ) : roundEven (-q) = -roundEven q := by
  refine roundEven_eq ?_ ?_
  · have := roundEven_error q
    push_cast
    rw [neg_sub_neg, abs_sub_comm]; exact this
  · push_cast
    rw [neg_sub_neg, abs_sub_comm]
    by_cases h : |q - roundEven q| < 1/2
    · exact .inl h
    · right
      rw [even_neg]
      have he := roundEven_error q
      have h1 : |q - roundEven q| = 1/2 := le_antisymm he (not_lt.mp h)
      revert h1
      unfold roundEven
      simp only
      have h0 := Int.floor_le q
      have h2 := Int.lt_floor_add_one q
      split_ifs with c1 c2 c3
      · intro h1; rw [abs_of_nonneg (by linarith)] at h1; linarith
      · intro _; exact c3
      · intro _; rw [Int.not_even_iff_odd] at c3; exact c3.add_one
      · intro h1
        push_cast at h1
        rw [abs_of_nonpos (by linarith)] at h1
        exact absurd (by linarith) c2

theorem round_neg (q : ℚ) : f.round (-q) = Flt.neg (f.round q) := by
  by_cases h0 : q = 0
  · subst h0; rw [neg_zero, f.round_exact (rep_zero f)]; simp [Flt.neg]
  have hq : f.quantum (-q) = f.quantum q := by unfold quantum; rw [abs_neg]
  unfold Format.round
  simp only [hq, neg_div, roundEven_neg]
  push_cast
  rw [neg_mul, abs_neg]
  split_ifs
  · rfl
  · simp only [Flt.neg, FVal.inf.injEq]
    rcases lt_or_gt_of_ne h0 with h | h
    · simp [h, h.le]
    · simp [h, h.le]

theorem mul_neg_left (a b : FVal) : Flt.mul f (Flt.neg a) b = Flt.neg (Flt.mul f a b) := by
  cases a with
  | nan => cases b <;> rfl
  | inf s =>
    cases b with
    | nan => rfl
    | inf t => cases s <;> cases t <;> rfl
    | fin b => simp only [Flt.neg, Flt.mul]; split_ifs <;> simp
  | fin a =>
    cases b with
    | nan => rfl
    | inf t =>
      simp only [Flt.neg, Flt.mul, neg_eq_zero]
      split_ifs with h
      · rfl
      · rcases lt_or_gt_of_ne h with h | h
        · cases t <;> simp [h, h.le]
        · cases t <;> simp [h, h.le]
    | fin b =>
      show f.round (-a * b) = Flt.neg (f.round (a * b))
      rw [neg_mul, round_neg]

/-- sums of non-positive numbers and `-∞` -/
theorem foldl_neg (hf : f.Std) (xs : List FVal)
    (hx : ∀ x ∈ xs, x = .inf true ∨ ∃ q : ℚ, x = .fin q ∧ q ≤ 0 ∧ f.Representable q) {a : ℚ}
    (ha : a ≤ 0) :
    (∃ r : ℚ, xs.foldl (Flt.add f) (.fin a) = .fin r ∧ r ≤ 0 ∧ ∃ qs : List ℚ, xs = qs.map FVal.fin ∧
        ∀ q ∈ qs, q ≤ 0 ∧ f.Representable q) ∨
    (xs.foldl (Flt.add f) (.fin a) = .inf true ∧ (.inf true ∈ xs ∨ ∃ qs : List ℚ, xs = qs.map FVal.fin ∧
        ∀ q ∈ qs, q ≤ 0 ∧ f.Representable q)) := by
  have habs : ∀ (ys : List FVal), (∀ x ∈ ys, x = .inf true ∨ ∃ q : ℚ, x = .fin q ∧ q ≤ 0 ∧ f.Representable q) →
      ys.foldl (Flt.add f) (.inf true) = .inf true := by
    intro ys
    induction ys with
    | nil => intro _; rfl
    | cons y ys ih =>
      intro h
      have h1 : Flt.add f (.inf true) y = .inf true := by
        rcases h y (by simp) with rfl | ⟨q, rfl, -⟩ <;> simp [Flt.add]
      rw [List.foldl_cons, h1]
      exact ih fun x hx => h x (by simp [hx])
  have hall : ∀ (ys : List FVal), (∀ x ∈ ys, x = .inf true ∨ ∃ q : ℚ, x = .fin q ∧ q ≤ 0 ∧ f.Representable q) →
      .inf true ∈ ys ∨ ∃ qs : List ℚ, ys = qs.map FVal.fin ∧ ∀ q ∈ qs, q ≤ 0 ∧ f.Representable q := by
    intro ys
    induction ys with
    | nil => intro _; exact .inr ⟨[], rfl, by simp⟩
    | cons y ys ih =>
      intro h
      rcases ih fun x hx => h x (by simp [hx]) with h1 | ⟨qs, h1, h2⟩
      · left; simp [h1]
      · rcases h y (by simp) with rfl | ⟨q, rfl, hq⟩
        · left; simp
        · exact .inr ⟨q :: qs, by simp [h1], by
            intro p hp
            rcases List.mem_cons.mp hp with rfl | hp
            · exact hq
            · exact h2 p hp⟩
  induction xs generalizing a with
  | nil => exact .inl ⟨a, rfl, ha, [], rfl, by simp⟩
  | cons y ys ih =>
    have hy := fun x hx' => hx x (List.mem_cons_of_mem y hx')
    rcases hx y (by simp) with rfl | ⟨q, rfl, hq, hqr⟩
    · right
      rw [List.foldl_cons]
      exact ⟨habs ys hy, .inl (by simp)⟩
    · rw [List.foldl_cons]
      have e : Flt.add f (.fin a) (.fin q) = f.round (a + q) := rfl
      rw [e]
      have hcons : ∀ {qs : List ℚ}, ys = qs.map FVal.fin → (∀ q ∈ qs, q ≤ 0 ∧ f.Representable q) →
          ∃ ps : List ℚ, FVal.fin q :: ys = ps.map FVal.fin ∧ ∀ q ∈ ps, q ≤ 0 ∧ f.Representable q := by
        intro qs h1 h2
        exact ⟨q :: qs, by simp [h1], by
          intro p hp
          rcases List.mem_cons.mp hp with rfl | hp
          · exact ⟨hq, hqr⟩
          · exact h2 p hp⟩
      rcases f.round_cases (a + q) with ⟨b, hb⟩ | hb
      · rw [hb]
        rcases ih hy (round_nonpos hb (by linarith)) with ⟨r, h1, h2, qs, h3, h4⟩ | ⟨h1, h2 | ⟨qs, h3, h4⟩⟩
        · exact .inl ⟨r, h1, h2, hcons h3 h4⟩
        · exact .inr ⟨h1, .inl (by simp [h2])⟩
        · exact .inr ⟨h1, .inr (hcons h3 h4)⟩
      · right
        have hneg : decide (a + q < 0) = true := by
          by_contra hc
          have h0 : a + q = 0 := le_antisymm (by linarith) (not_lt.mp (by simpa using hc))
          rw [h0, f.round_exact (rep_zero f)] at hb
          cases hb
        rw [hb, hneg]
        exact ⟨habs ys hy, hall _ hx⟩

/-- addition of quantities with many units of error -/
theorem Near.add_many (hf : f.Std) {k : ℝ} {a b r : ℚ} {x y X Y : ℝ} (ha : Near f k a x X)
    (hb : Near f k b y Y) (hk : k * f.u ≤ 1) (h : Flt.add f (.fin a) (.fin b) = .fin r) :
    Near f (k + 2) r (x + y) (X + Y) := by
  obtain ⟨hr, he⟩ := near_round_add hf ha.rep hb.rep (show f.round (a + b) = .fin r from h)
  push_cast at he
  have hu := u_pos f
  have hX := ha.nonneg
  have hY := hb.nonneg
  refine ⟨hr, (abs_add_le _ _).trans (add_le_add ha.mag hb.mag), ?_⟩
  have e : (r : ℝ) - (x + y) = ((r : ℝ) - (a + b)) + ((a : ℝ) - x) + ((b : ℝ) - y) := by ring
  rw [e]
  have h1 := abs_add_le (((r : ℝ) - (a + b)) + ((a : ℝ) - x)) ((b : ℝ) - y)
  have h2 := abs_add_le ((r : ℝ) - (a + b)) ((a : ℝ) - x)
  have h3 : |(a : ℝ) + b| ≤ 2 * X + 2 * Y := by
    have e2 : (a : ℝ) + b = (x + y) + ((a - x) + (b - y)) := by ring
    rw [e2]
    have h4 := abs_add_le (x + y) (((a : ℝ) - x) + (b - y))
    have h5 := abs_add_le x y
    have h6 := abs_add_le ((a : ℝ) - x) (b - y)
    have h7 : k * f.u * X ≤ 1 * X := by gcongr
    have h8 : k * f.u * Y ≤ 1 * Y := by gcongr
    linarith [ha.err, hb.err, ha.mag, hb.mag]
  have h4 : f.u * |(a : ℝ) + b| ≤ f.u * (2 * X + 2 * Y) := by gcongr
  have := ha.err
  have := hb.err
  linarith [he, h4]

end Verif
