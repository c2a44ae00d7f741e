import Verif.Spec.Symbolic
import Verif.Lemmas.Num

/-! Helper lemmas about expressions. -/

namespace Verif
open FloatOps XReal Classical

namespace Spec

theorem powf_iff_realPow (a b v : ℝ) :
    FloatOps.powf (fin a) (fin b) = fin v ↔ realPow a b = some v := by
  show XReal.powf (fin a) (fin b) = fin v ↔ _
  unfold XReal.powf realPow
  by_cases hb : b = 0
  · subst hb
    rcases lt_trichotomy a 0 with h | h | h
    · have : ∃ n : ℤ, (0 : ℝ) = n := ⟨0, by simp⟩
      simp [not_lt.mpr h.le, h.ne, this]
    · subst h; simp
    · simp [h]
  · have hb' : ¬ (fin b = fin 0) := by simpa using hb
    rw [if_neg hb']
    by_cases ha : a = 1
    · subst ha; simp
    · have ha' : ¬ (fin a = fin 1) := by simpa using ha
      rw [if_neg ha']
      rcases lt_trichotomy a 0 with h | h | h
      · simp only [not_lt.mpr h.le, h.ne, if_false]
        split_ifs <;> simp
      · subst h
        simp only [lt_irrefl, if_false, if_true, hb]
        split_ifs <;> simp
      · simp [h]

theorem fin_inj {a b : ℝ} : fin a = fin b ↔ a = b := by simp

end Spec

namespace Expr

theorem isConst_iff (c : ℝ) (e : Expr XReal) : isConst (fin c) e = true ↔ e = const (fin c) := by
  cases e with
  | const a =>
    cases a with
    | fin a => simp [isConst]
    | _ => simp [isConst, FloatOps.beq, XReal.beq]
  | _ => simp [isConst]

theorem bothConst_eq_none {F : Type} {l r : Expr F} (h : bothConst l r = none) :
    ∀ a b, ¬ (l = const a ∧ r = const b) := by
  rintro a b ⟨rfl, rfl⟩; simp [bothConst] at h

theorem beq_eq (a b : Expr XReal) (h : beq a b = true) : a = b := by
  induction a generalizing b with
  | const c =>
    cases b <;> simp only [beq] at h <;> try cases h
    rename_i d
    cases c <;> cases d <;> simp_all [FloatOps.beq, XReal.beq]
  | var n => cases b <;> simp_all [beq]
  | add l r il ir => cases b <;> simp only [beq, Bool.and_eq_true] at h <;> first
      | (rw [il _ h.1, ir _ h.2]) | cases h
  | sub l r il ir => cases b <;> simp only [beq, Bool.and_eq_true] at h <;> first
      | (rw [il _ h.1, ir _ h.2]) | cases h
  | mul l r il ir => cases b <;> simp only [beq, Bool.and_eq_true] at h <;> first
      | (rw [il _ h.1, ir _ h.2]) | cases h
  | div l r il ir => cases b <;> simp only [beq, Bool.and_eq_true] at h <;> first
      | (rw [il _ h.1, ir _ h.2]) | cases h
  | pow l r il ir => cases b <;> simp only [beq, Bool.and_eq_true] at h <;> first
      | (rw [il _ h.1, ir _ h.2]) | cases h
  | ln e ih => cases b <;> simp only [beq] at h <;> first | (rw [ih _ h]) | cases h
  | exp e ih => cases b <;> simp only [beq] at h <;> first | (rw [ih _ h]) | cases h
  | sqrt e ih => cases b <;> simp only [beq] at h <;> first | (rw [ih _ h]) | cases h
  | sin e ih => cases b <;> simp only [beq] at h <;> first | (rw [ih _ h]) | cases h
  | cos e ih => cases b <;> simp only [beq] at h <;> first | (rw [ih _ h]) | cases h
  | neg e ih => cases b <;> simp only [beq] at h <;> first | (rw [ih _ h]) | cases h

/-- In exact arithmetic the two additive fast paths of `evaluate` change nothing. -/
theorem evaluate_add (vars : FMap String XReal) (l r : Expr XReal) :
    evaluate vars (add l r) = (do
      let a ← evaluate vars l
      let b ← evaluate vars r
      .ok (a +. b)) := by
  rw [evaluate]
  split
  · rename_i a b h
    obtain ⟨rfl, rfl⟩ := bothConst_eq_some h
    rfl
  · split_ifs with h1 h2
    · rw [f_zero, isConst_iff] at h1; subst h1
      simp only [evaluate, bind, Except.bind]
      cases evaluate vars r with
      | error _ => rfl
      | ok a => cases a <;> simp [FloatOps.add, XReal.add]
    · rw [f_zero, isConst_iff] at h2; subst h2
      simp only [evaluate, bind, Except.bind]
      cases evaluate vars l with
      | error _ => rfl
      | ok a => cases a <;> simp [FloatOps.add, XReal.add]
    · rfl

/-- In exact arithmetic the fast paths of multiplication change nothing, except that a literal zero
factor hides the other factor. -/
theorem evaluate_mul (vars : FMap String XReal) (l r : Expr XReal)
    (hl : l ≠ const (fin 0)) (hr : r ≠ const (fin 0)) :
    evaluate vars (mul l r) = (do
      let a ← evaluate vars l
      let b ← evaluate vars r
      .ok (a *. b)) := by
  rw [evaluate]
  split
  · rename_i a b h
    obtain ⟨rfl, rfl⟩ := bothConst_eq_some h
    rfl
  · split_ifs with h1 h2 h3
    · rw [Bool.or_eq_true, f_zero, isConst_iff, isConst_iff] at h1
      rcases h1 with h | h
      · exact absurd h hl
      · exact absurd h hr
    · rw [f_one, isConst_iff] at h2; subst h2
      simp only [evaluate, bind, Except.bind]
      cases evaluate vars r with
      | error _ => rfl
      | ok a => cases a <;> simp [FloatOps.mul, XReal.mul, infOf]
    · rw [f_one, isConst_iff] at h3; subst h3
      simp only [evaluate, bind, Except.bind]
      cases evaluate vars l with
      | error _ => rfl
      | ok a => cases a <;> simp [FloatOps.mul, XReal.mul, infOf]
    · rfl

/-- A literal zero factor makes the product evaluate to zero when the other factor is not an
infinite or NaN literal. -/
theorem evaluate_mul_zero (vars : FMap String XReal) (l r : Expr XReal)
    (h : (l = const (fin 0) ∧ ∀ c, r = const c → c.IsFin) ∨
      (r = const (fin 0) ∧ ∀ c, l = const c → c.IsFin)) :
    evaluate vars (mul l r) = .ok (fin 0) := by
  rw [evaluate]
  split
  · rename_i a b hc
    obtain ⟨rfl, rfl⟩ := bothConst_eq_some hc
    rcases h with ⟨h1, h2⟩ | ⟨h1, h2⟩
    · cases h1
      obtain ⟨c, rfl⟩ := h2 _ rfl
      simp
    · cases h1
      obtain ⟨c, rfl⟩ := h2 _ rfl
      simp
  · rw [if_pos]
    · rfl
    · rw [Bool.or_eq_true, f_zero, isConst_iff, isConst_iff]
      exact h.imp And.left And.left

end Expr

namespace Spec
open Expr

theorem value_eq_const {ρ : String → Option ℝ} {c : XReal} {v : ℝ} :
    value ρ (.const c) = some v ↔ c = fin v := by
  cases c <;> simp [value]

theorem value_add {ρ : String → Option ℝ} {l r : Expr XReal} {v : ℝ} :
    value ρ (.add l r) = some v ↔
      ∃ a, value ρ l = some a ∧ ∃ b, value ρ r = some b ∧ a + b = v := by
  simp [value, Option.bind_eq_some_iff]

theorem value_sub {ρ : String → Option ℝ} {l r : Expr XReal} {v : ℝ} :
    value ρ (.sub l r) = some v ↔
      ∃ a, value ρ l = some a ∧ ∃ b, value ρ r = some b ∧ a - b = v := by
  simp [value, Option.bind_eq_some_iff]

theorem value_mul {ρ : String → Option ℝ} {l r : Expr XReal} {v : ℝ} :
    value ρ (.mul l r) = some v ↔
      ∃ a, value ρ l = some a ∧ ∃ b, value ρ r = some b ∧ a * b = v := by
  simp [value, Option.bind_eq_some_iff]

theorem value_div {ρ : String → Option ℝ} {l r : Expr XReal} {v : ℝ} :
    value ρ (.div l r) = some v ↔
      ∃ a, value ρ l = some a ∧ ∃ b, value ρ r = some b ∧ b ≠ 0 ∧ a / b = v := by
  simp only [value, bind, Option.bind_eq_some_iff]
  constructor
  · rintro ⟨a, ha, b, hb, h⟩
    split_ifs at h with h0
    exact ⟨a, ha, b, hb, h0, Option.some.inj h⟩
  · rintro ⟨a, ha, b, hb, h0, h⟩
    exact ⟨a, ha, b, hb, by rw [if_neg h0, h]⟩

theorem value_pow {ρ : String → Option ℝ} {l r : Expr XReal} {v : ℝ} :
    value ρ (.pow l r) = some v ↔
      ∃ a, value ρ l = some a ∧ ∃ b, value ρ r = some b ∧ realPow a b = some v := by
  simp [value, Option.bind_eq_some_iff]

theorem value_ln {ρ : String → Option ℝ} {e : Expr XReal} {v : ℝ} :
    value ρ (.ln e) = some v ↔ ∃ a, value ρ e = some a ∧ 0 < a ∧ Real.log a = v := by
  simp only [value, bind, Option.bind_eq_some_iff]
  constructor
  · rintro ⟨a, ha, h⟩
    split_ifs at h with h0
    exact ⟨a, ha, h0, Option.some.inj h⟩
  · rintro ⟨a, ha, h0, h⟩
    exact ⟨a, ha, by rw [if_pos h0, h]⟩

theorem value_exp {ρ : String → Option ℝ} {e : Expr XReal} {v : ℝ} :
    value ρ (.exp e) = some v ↔ ∃ a, value ρ e = some a ∧ Real.exp a = v := by
  simp [value, Option.bind_eq_some_iff]

theorem value_sqrt {ρ : String → Option ℝ} {e : Expr XReal} {v : ℝ} :
    value ρ (.sqrt e) = some v ↔ ∃ a, value ρ e = some a ∧ 0 ≤ a ∧ Real.sqrt a = v := by
  simp only [value, bind, Option.bind_eq_some_iff]
  constructor
  · rintro ⟨a, ha, h⟩
    split_ifs at h with h0
    exact ⟨a, ha, h0, Option.some.inj h⟩
  · rintro ⟨a, ha, h0, h⟩
    exact ⟨a, ha, by rw [if_pos h0, h]⟩

theorem value_sin {ρ : String → Option ℝ} {e : Expr XReal} {v : ℝ} :
    value ρ (.sin e) = some v ↔ ∃ a, value ρ e = some a ∧ Real.sin a = v := by
  simp [value, Option.bind_eq_some_iff]

theorem value_cos {ρ : String → Option ℝ} {e : Expr XReal} {v : ℝ} :
    value ρ (.cos e) = some v ↔ ∃ a, value ρ e = some a ∧ Real.cos a = v := by
  simp [value, Option.bind_eq_some_iff]

theorem value_neg {ρ : String → Option ℝ} {e : Expr XReal} {v : ℝ} :
    value ρ (.neg e) = some v ↔ ∃ a, value ρ e = some a ∧ -a = v := by
  simp [value, Option.bind_eq_some_iff]

/-- Evaluation computes the denoted value. -/
theorem evaluate_of_value (ρ : String → Option ℝ) (e : Expr XReal) (v : ℝ)
    (h : value ρ e = some v) : e.evaluate (env ρ) = .ok (fin v) := by
  induction e generalizing v with
  | const c => rw [value_eq_const] at h; subst h; rfl
  | var n =>
    simp only [value] at h
    simp [evaluate, env, h]
  | add l r il ir =>
    obtain ⟨a, ha, b, hb, rfl⟩ := value_add.mp h
    rw [evaluate_add, il a ha, ir b hb]; rfl
  | sub l r il ir =>
    obtain ⟨a, ha, b, hb, rfl⟩ := value_sub.mp h
    simp [evaluate, il a ha, ir b hb, bind, Except.bind]
  | mul l r il ir =>
    obtain ⟨a, ha, b, hb, rfl⟩ := value_mul.mp h
    by_cases hl : l = const (fin 0)
    · subst hl
      have := value_eq_const.mp ha
      simp only [fin_inj] at this; subst this
      rw [evaluate_mul_zero]
      · simp
      · left
        refine ⟨rfl, ?_⟩
        rintro c rfl
        rw [value_eq_const] at hb; subst hb; simp
    · by_cases hr : r = const (fin 0)
      · subst hr
        have := value_eq_const.mp hb
        simp only [fin_inj] at this; subst this
        rw [evaluate_mul_zero]
        · simp
        · right
          refine ⟨rfl, ?_⟩
          rintro c rfl
          rw [value_eq_const] at ha; subst ha; simp
      · rw [evaluate_mul _ _ _ hl hr, il a ha, ir b hb]; rfl
  | div l r il ir =>
    obtain ⟨a, ha, b, hb, h0, rfl⟩ := value_div.mp h
    simp [evaluate, il a ha, ir b hb, bind, Except.bind, h0, f_div]
  | pow l r il ir =>
    obtain ⟨a, ha, b, hb, hp⟩ := value_pow.mp h
    rw [← powf_iff_realPow] at hp
    simp [evaluate, il a ha, ir b hb, bind, Except.bind, hp]
  | ln e ih =>
    obtain ⟨a, ha, h0, rfl⟩ := value_ln.mp h
    simp [evaluate, ih a ha, bind, Except.bind, f_ln, h0]
  | exp e ih =>
    obtain ⟨a, ha, rfl⟩ := value_exp.mp h
    simp [evaluate, ih a ha, bind, Except.bind]
  | sqrt e ih =>
    obtain ⟨a, ha, h0, rfl⟩ := value_sqrt.mp h
    simp [evaluate, ih a ha, bind, Except.bind, f_sqrt, h0]
  | sin e ih =>
    obtain ⟨a, ha, rfl⟩ := value_sin.mp h
    simp [evaluate, ih a ha, bind, Except.bind]
  | cos e ih =>
    obtain ⟨a, ha, rfl⟩ := value_cos.mp h
    simp [evaluate, ih a ha, bind, Except.bind]
  | neg e ih =>
    obtain ⟨a, ha, rfl⟩ := value_neg.mp h
    simp [evaluate, ih a ha, bind, Except.bind]

end Spec
end Verif
