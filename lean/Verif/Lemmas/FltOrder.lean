import Verif.Lemmas.FltSum

/-!
# Rounding and the operations are monotone
-/

namespace Verif
open Format

variable {f : Format}

namespace Format

/-- the rounded number before the test for overflow -/
def rounding (f : Format) (q : ℚ) : ℚ := roundEven (q / 2 ^ f.quantum q) * 2 ^ f.quantum q

theorem round_eq (f : Format) (q : ℚ) :
    f.round q = if |f.rounding q| < 2 ^ f.emax then .fin (f.rounding q) else .inf (decide (q < 0)) := rfl

theorem rounding_nonneg (f : Format) {q : ℚ} (h : 0 ≤ q) : 0 ≤ f.rounding q := by
  unfold rounding
  have : 0 ≤ roundEven (q / 2 ^ f.quantum q) := roundEven_sign _ (by positivity)
  have : (0 : ℚ) ≤ roundEven (q / 2 ^ f.quantum q) := by exact_mod_cast this
  positivity

theorem rounding_nonpos (f : Format) {q : ℚ} (h : q ≤ 0) : f.rounding q ≤ 0 := by
  unfold rounding
  have : roundEven (q / 2 ^ f.quantum q) ≤ 0 :=
    roundEven_sign' _ (div_nonpos_of_nonpos_of_nonneg h (by positivity))
  have : (roundEven (q / 2 ^ f.quantum q) : ℚ) ≤ 0 := by exact_mod_cast this
  exact mul_nonpos_of_nonpos_of_nonneg this (by positivity)

theorem rounding_mono (f : Format) (hp : 1 ≤ f.prec) {a b : ℚ} (h : a ≤ b) : f.rounding a ≤ f.rounding b := by
  rcases h.eq_or_lt with rfl | h
  · exact le_rfl
  obtain ⟨k, hk⟩ : ∃ k : ℕ, max |f.rounding a| |f.rounding b| < 2 ^ k :=
    pow_unbounded_of_one_lt _ (by norm_num)
  let g : Format := ⟨f.prec, f.emin, k⟩
  have ea : g.round a = .fin (f.rounding a) := by
    rw [round_eq]
    refine if_pos ?_
    have := (le_max_left _ _).trans_lt hk
    rw [← zpow_natCast] at this; exact this
  have eb : g.round b = .fin (f.rounding b) := by
    rw [round_eq]
    refine if_pos ?_
    have := (le_max_right _ _).trans_lt hk
    rw [← zpow_natCast] at this; exact this
  have ra : g.Representable (f.rounding a) := by have := g.round_valid hp a; rwa [ea] at this
  have rb : g.Representable (f.rounding b) := by have := g.round_valid hp b; rwa [eb] at this
  have na := g.round_nearest ea rb
  have nb := g.round_nearest eb ra
  by_contra hc
  rw [not_le] at hc
  generalize f.rounding a = r at *
  generalize f.rounding b = s at *
  have na := sq_le_sq.mpr na
  have nb := sq_le_sq.mpr nb
  nlinarith

end Format

namespace Flt

theorem le_fin {a b : ℚ} : Flt.le (.fin a) (.fin b) = true ↔ a ≤ b := by simp [Flt.le]

theorem le_ne_nan_left {a b : FVal} (h : Flt.le a b = true) : a ≠ .nan := by
  rintro rfl; cases b <;> simp [Flt.le] at h
theorem le_ne_nan_right {a b : FVal} (h : Flt.le a b = true) : b ≠ .nan := by
  rintro rfl; cases a <;> simp [Flt.le] at h

theorem le_refl {a : FVal} (h : a ≠ .nan) : Flt.le a a = true := by
  cases a with
  | nan => exact absurd rfl h
  | inf s => cases s <;> rfl
  | fin q => simp [Flt.le]

theorem le_trans {a b c : FVal} (h1 : Flt.le a b = true) (h2 : Flt.le b c = true) : Flt.le a c = true := by
  cases a <;> cases b <;> cases c <;> simp_all [Flt.le]
  all_goals first
    | exact h1.trans h2
    | (rcases h1 with h1 | h1 <;> rcases h2 with h2 | h2 <;> simp_all)

theorem le_antisymm {a b : FVal} (h1 : Flt.le a b = true) (h2 : Flt.le b a = true) : a = b := by
  cases a <;> cases b <;> simp_all [Flt.le]
  · rename_i s t
    cases s <;> cases t <;> simp_all
  · exact _root_.le_antisymm h1 h2

theorem negInf_le {a : FVal} (h : a ≠ .nan) : Flt.le (.inf true) a = true := by
  cases a with
  | nan => exact absurd rfl h
  | inf s => rfl
  | fin q => rfl

theorem le_posInf {a : FVal} (h : a ≠ .nan) : Flt.le a (.inf false) = true := by
  cases a with
  | nan => exact absurd rfl h
  | inf s => cases s <;> rfl
  | fin q => rfl

theorem round_mono (hp : 1 ≤ f.prec) {a b : ℚ} (h : a ≤ b) : Flt.le (f.round a) (f.round b) = true := by
  have hm := f.rounding_mono hp h
  rw [round_eq, round_eq]
  split_ifs with h1 h2 h2
  · exact le_fin.mpr hm
  · by_cases hb : b < 0
    · exfalso
      have := f.rounding_nonpos hb.le
      rw [abs_of_nonpos this, not_lt] at h2
      rw [abs_of_nonpos (by linarith)] at h1
      linarith
    · simp [Flt.le, hb]
  · by_cases ha : a < 0
    · simp [Flt.le, ha]
    · exfalso
      have := f.rounding_nonneg (not_lt.mp ha)
      rw [abs_of_nonneg this, not_lt] at h1
      rw [abs_of_nonneg (by linarith)] at h2
      linarith
  · by_cases ha : a < 0
    · simp [Flt.le, ha]
    · have hb : ¬ b < 0 := by linarith
      simp [Flt.le, ha, hb]

theorem neg_le_neg {a b : FVal} (h : Flt.le a b = true) : Flt.le (Flt.neg b) (Flt.neg a) = true := by
  cases a <;> cases b <;> simp_all [Flt.le, Flt.neg]
  rename_i s t
  cases s <;> cases t <;> simp_all

theorem add_le_add (hp : 1 ≤ f.prec) {a b c d : FVal} (h1 : Flt.le a b = true) (h2 : Flt.le c d = true)
    (hn : Flt.add f a c ≠ .nan) (hn' : Flt.add f b d ≠ .nan) :
    Flt.le (Flt.add f a c) (Flt.add f b d) = true := by
  have key : ∀ p q r s : ℚ, p ≤ q → r ≤ s → Flt.le (f.round (p + r)) (f.round (q + s)) = true :=
    fun p q r s h h' => round_mono hp (by linarith)
  have nn : ∀ q, f.round q ≠ .nan := f.round_ne_nan
  cases a with
  | nan => simp [Flt.le] at h1
  | inf s =>
    cases s
    · cases b with
      | nan => simp [Flt.le] at h1
      | fin q => simp [Flt.le] at h1
      | inf t =>
        cases t
        · cases d with
          | nan => exact absurd (by cases c <;> simp [Flt.le] at h2) (fun h => h)
          | inf u => cases u
                     · exact le_posInf hn
                     · exact absurd rfl hn'
          | fin q => exact le_posInf hn
        · simp [Flt.le] at h1
    · cases c with
      | nan => simp [Flt.le] at h2
      | fin q => exact negInf_le hn'
      | inf u => cases u
                 · exact absurd rfl hn
                 · exact negInf_le hn'
  | fin p =>
    cases c with
    | nan => simp [Flt.le] at h2
    | inf u =>
      cases u
      · cases d with
        | nan => simp [Flt.le] at h2
        | fin q => simp [Flt.le] at h2
        | inf v =>
          cases v
          · cases b with
            | nan => simp [Flt.le] at h1
            | fin q => rfl
            | inf w => cases w
                       · rfl
                       · exact absurd rfl hn'
          · simp [Flt.le] at h2
      · exact negInf_le hn'
    | fin r =>
      cases b with
      | nan => simp [Flt.le] at h1
      | inf s =>
        cases s
        · cases d with
          | nan => simp [Flt.le] at h2
          | fin q => exact le_posInf hn
          | inf v => cases v
                     · exact le_posInf hn
                     · simp [Flt.le] at h2
        · simp [Flt.le] at h1
      | fin q =>
        cases d with
        | nan => simp [Flt.le] at h2
        | inf v => cases v
                   · exact le_posInf hn
                   · simp [Flt.le] at h2
        | fin s => exact key _ _ _ _ (le_fin.mp h1) (le_fin.mp h2)

theorem sub_le_sub (hp : 1 ≤ f.prec) {a b c d : FVal} (h1 : Flt.le a b = true) (h2 : Flt.le d c = true)
    (hn : Flt.sub f a c ≠ .nan) (hn' : Flt.sub f b d ≠ .nan) :
    Flt.le (Flt.sub f a c) (Flt.sub f b d) = true :=
  add_le_add hp h1 (neg_le_neg h2) hn hn'

/-- products of numbers that are not negative -/
theorem mul_le_mul (hp : 1 ≤ f.prec) {a b c d : FVal} (h0 : Flt.le (.fin 0) a = true)
    (h1 : Flt.le a b = true) (h0' : Flt.le (.fin 0) c = true) (h2 : Flt.le c d = true)
    (hn : Flt.mul f a c ≠ .nan) (hn' : Flt.mul f b d ≠ .nan) :
    Flt.le (Flt.mul f a c) (Flt.mul f b d) = true := by
  have pos : ∀ {x : FVal}, Flt.le (.fin 0) x = true → x = .inf false ∨ ∃ q, 0 ≤ q ∧ x = .fin q := by
    intro x h
    cases x with
    | nan => simp [Flt.le] at h
    | inf s => cases s
               · exact .inl rfl
               · simp [Flt.le] at h
    | fin q => exact .inr ⟨q, le_fin.mp h, rfl⟩
  rcases pos (le_trans h0 h1) with rfl | ⟨q, hq, rfl⟩
  · rcases pos (le_trans h0' h2) with rfl | ⟨s, hs, rfl⟩
    · exact le_posInf hn
    · have : s ≠ 0 := by rintro rfl; exact hn' (by simp [Flt.mul])
      have e : Flt.mul f (.inf false) (.fin s) = .inf false := by
        simp [Flt.mul, this, hs]
      rw [e]; exact le_posInf hn
  · rcases pos (le_trans h0' h2) with rfl | ⟨s, hs, rfl⟩
    · have : q ≠ 0 := by rintro rfl; exact hn' (by simp [Flt.mul])
      have e : Flt.mul f (.fin q) (.inf false) = .inf false := by
        simp [Flt.mul, this, hq]
      rw [e]; exact le_posInf hn
    · rcases pos h0 with rfl | ⟨p, hp0, rfl⟩
      · simp [Flt.le] at h1
      rcases pos h0' with rfl | ⟨r, hr, rfl⟩
      · simp [Flt.le] at h2
      exact round_mono hp (_root_.mul_le_mul (le_fin.mp h1) (le_fin.mp h2) hr hq)

theorem div_le_div (hp : 1 ≤ f.prec) {a b : FVal} {c : ℚ} (hc : 0 < c) (h : Flt.le a b = true) :
    Flt.le (Flt.div f a (.fin c)) (Flt.div f b (.fin c)) = true := by
  have hc' : ¬ c < 0 := by linarith
  have e : ∀ q : ℚ, Flt.div f (.fin q) (.fin c) = f.round (q / c) := by
    intro q; show (if c = 0 then _ else _) = _; rw [if_neg hc.ne']
  have ei : ∀ s : Bool, Flt.div f (.inf s) (.fin c) = .inf s := by
    intro s; simp [Flt.div, hc']
  cases a with
  | nan => simp [Flt.le] at h
  | inf s =>
    cases b with
    | nan => simp [Flt.le] at h
    | inf t => rw [ei, ei]; exact h
    | fin q => rw [ei, e]; cases s
               · simp [Flt.le] at h
               · exact negInf_le (f.round_ne_nan _)
  | fin p =>
    cases b with
    | nan => simp [Flt.le] at h
    | inf t => rw [ei, e]; cases t
               · exact le_posInf (f.round_ne_nan _)
               · simp [Flt.le] at h
    | fin q => rw [e, e]; exact round_mono hp (div_le_div_of_nonneg_right (le_fin.mp h) hc.le)

theorem round_abs (q : ℚ) : f.round |q| = Flt.abs (f.round q) := by
  have hz : ∀ x : ℚ, 0 ≤ x → Flt.abs (f.round x) = f.round x := by
    intro x hx
    rw [round_eq]
    split_ifs with h
    · show FVal.fin |_| = _
      rw [abs_of_nonneg (f.rounding_nonneg hx)]
    · simp [Flt.abs, hx]
  have hneg : ∀ x : FVal, Flt.abs (Flt.neg x) = Flt.abs x := by
    intro x; cases x <;> simp [Flt.abs, Flt.neg]
  rcases le_total 0 q with h | h
  · rw [abs_of_nonneg h, hz q h]
  · rw [abs_of_nonpos h]
    rw [← hz (-q) (by linarith), round_neg, hneg]

theorem mul_abs (a b : FVal) : Flt.mul f (Flt.abs a) (Flt.abs b) = Flt.abs (Flt.mul f a b) := by
  cases a <;> cases b <;> simp [Flt.mul, Flt.abs]
  · split_ifs <;> simp
  · split_ifs <;> simp
  · rw [← abs_mul, round_abs]; rfl

theorem div_abs (a : FVal) {c : ℚ} (hc : 0 < c) :
    Flt.div f (Flt.abs a) (.fin c) = Flt.abs (Flt.div f a (.fin c)) := by
  have hc' : ¬ c < 0 := by linarith
  cases a with
  | nan => rfl
  | inf s => simp [Flt.div, Flt.abs, hc']
  | fin q =>
    show (if c = 0 then _ else _) = Flt.abs (if c = 0 then _ else _)
    rw [if_neg hc.ne', if_neg hc.ne', ← round_abs, abs_div, abs_of_pos hc]

theorem sub_abs (a b : ℚ) : Flt.abs (Flt.sub f (.fin a) (.fin b)) = f.round |a - b| := by
  rw [round_abs]; congr 1
  show f.round (a + -b) = _
  rw [sub_eq_add_neg]

end Flt
end Verif
