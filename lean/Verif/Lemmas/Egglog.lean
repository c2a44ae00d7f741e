import Verif.Spec.Egglog
import Verif.Lemmas.Symbolic
import Mathlib.Analysis.SpecialFunctions.Pow.Real

/-! The rewrite rules preserve values; equality saturation preserves values. -/

namespace Verif.Egglog
open Verif Verif.Spec Verif.Spec.Egglog XReal Classical

/-- The real value of an expression, with the power operation a parameter. -/
noncomputable def ev (pw : ℝ → ℝ → Option ℝ) (ρ : String → Option ℝ) : Expr XReal → Option ℝ
  | .const (fin c) => some c
  | .const _ => none
  | .var n => ρ n
  | .add l r => do let a ← ev pw ρ l; let b ← ev pw ρ r; some (a + b)
  | .sub l r => do let a ← ev pw ρ l; let b ← ev pw ρ r; some (a - b)
  | .mul l r => do let a ← ev pw ρ l; let b ← ev pw ρ r; some (a * b)
  | .div l r => do
    let a ← ev pw ρ l
    let b ← ev pw ρ r
    if b = 0 then none else some (a / b)
  | .pow l r => do let a ← ev pw ρ l; let b ← ev pw ρ r; pw a b
  | .ln e => do
    let a ← ev pw ρ e
    if 0 < a then some (Real.log a) else none
  | .exp e => do let a ← ev pw ρ e; some (Real.exp a)
  | .sqrt e => do
    let a ← ev pw ρ e
    if 0 ≤ a then some (Real.sqrt a) else none
  | .sin e => do let a ← ev pw ρ e; some (Real.sin a)
  | .cos e => do let a ← ev pw ρ e; some (Real.cos a)
  | .neg e => do let a ← ev pw ρ e; some (-a)

theorem ev_realPow (ρ : String → Option ℝ) (e : Expr XReal) : ev realPow ρ e = value ρ e := by
  induction e with
  | const c => cases c <;> rfl
  | _ => simp_all [ev, value]

/-- Powers with a positive base, or base zero and positive exponent. -/
noncomputable def safePow (a b : ℝ) : Option ℝ :=
  if 0 < a ∨ (a = 0 ∧ 0 < b) then some (a ^ b) else none

theorem safePow_realPow {a b v : ℝ} (h : safePow a b = some v) : realPow a b = some v := by
  unfold safePow at h
  split_ifs at h with hc
  rcases hc with hc | ⟨rfl, hc⟩
  · simpa [realPow, hc] using h
  · simpa [realPow, hc.ne', hc, Real.zero_rpow hc.ne'] using h

/-- The value of one side of a rule, when its holes have real values. -/
noncomputable def pv (pw : ℝ → ℝ → Option ℝ) (η : String → ℝ) (κ : String → XReal) : Pat → Option ℝ
  | .hole n => some (η n)
  | .const c => match c.inst κ with
    | fin r => some r
    | _ => none
  | .add l r => do let a ← pv pw η κ l; let b ← pv pw η κ r; some (a + b)
  | .sub l r => do let a ← pv pw η κ l; let b ← pv pw η κ r; some (a - b)
  | .mul l r => do let a ← pv pw η κ l; let b ← pv pw η κ r; some (a * b)
  | .div l r => do
    let a ← pv pw η κ l
    let b ← pv pw η κ r
    if b = 0 then none else some (a / b)
  | .pow l r => do let a ← pv pw η κ l; let b ← pv pw η κ r; pw a b
  | .ln e => do
    let a ← pv pw η κ e
    if 0 < a then some (Real.log a) else none
  | .exp e => do let a ← pv pw η κ e; some (Real.exp a)
  | .sqrt e => do
    let a ← pv pw η κ e
    if 0 ≤ a then some (Real.sqrt a) else none
  | .sin e => do let a ← pv pw η κ e; some (Real.sin a)
  | .cos e => do let a ← pv pw η κ e; some (Real.cos a)
  | .neg e => do let a ← pv pw η κ e; some (-a)

/-- The holes of one side of a rule. -/
def holes : Pat → List String
  | .hole n => [n]
  | .const _ => []
  | .add l r | .sub l r | .mul l r | .div l r | .pow l r => holes l ++ holes r
  | .ln e | .exp e | .sqrt e | .sin e | .cos e | .neg e => holes e

theorem pv_eq (pw : ℝ → ℝ → Option ℝ) (ρ : String → Option ℝ) (σ : String → Expr XReal)
    (κ : String → XReal) (η : String → ℝ) (p : Pat)
    (h : ∀ n ∈ holes p, ev pw ρ (σ n) = some (η n)) : ev pw ρ (p.inst σ κ) = pv pw η κ p := by
  induction p with
  | hole n => exact h n (by simp [holes])
  | const c => simp only [Pat.inst, pv]; cases c.inst κ <;> rfl
  | _ => simp_all [Pat.inst, pv, ev, holes]

theorem holes_defined (pw : ℝ → ℝ → Option ℝ) (ρ : String → Option ℝ) (σ : String → Expr XReal)
    (κ : String → XReal) (p : Pat) {v : ℝ} (h : ev pw ρ (p.inst σ κ) = some v) :
    ∀ n ∈ holes p, ∃ r, ev pw ρ (σ n) = some r := by
  induction p generalizing v with
  | hole n => simpa [holes, Pat.inst] using ⟨v, h⟩
  | const c => simp [holes]
  | _ =>
    simp only [Pat.inst, ev, Option.bind_eq_bind, Option.bind_eq_some_iff] at h
    intro n hn
    simp only [holes, List.mem_append] at hn
    first
    | obtain ⟨a, ha, b, hb, -⟩ := h
      rcases hn with hn | hn
      · rename_i ih _; exact ih ha n hn
      · rename_i ih; exact ih hb n hn
    | obtain ⟨a, ha, -⟩ := h
      rename_i ih; exact ih ha n hn

theorem rules_holes : ∀ p ∈ rules, ∀ n ∈ holes p.2, n ∈ holes p.1 := by
  decide

/-- What the rules need of the power operation. -/
structure PowLaws (pw : ℝ → ℝ → Option ℝ) : Prop where
  pos : ∀ {a b}, 0 < a → pw a b = some (a ^ b)
  zero : ∀ {b}, 0 < b → pw 0 b = some 0
  exp_one : ∀ {x v}, pw x 1 = some v → v = x
  exp_zero : ∀ {x v}, pw x 0 = some v → v = 1
  exp_two : ∀ {x v}, pw x 2 = some v → v = x * x
  add : ∀ {x a b u w}, pw x a = some u → pw x b = some w → pw x (a + b) = some (u * w)
  sub : ∀ {x a b u w}, pw x a = some u → pw x b = some w → w ≠ 0 → pw x (a - b) = some (u / w)

/-- What the two remaining rules need. -/
structure PowLawsStrong (pw : ℝ → ℝ → Option ℝ) : Prop extends PowLaws pw where
  mul : ∀ {x a b u w}, pw x a = some u → pw u b = some w → pw x (a * b) = some w
  base_pos : ∀ {x n u}, pw x n = some u → 0 < u → 0 < x

theorem realPow_zero_base {b v : ℝ} :
    realPow 0 b = some v ↔ (b = 0 ∧ v = 1) ∨ (0 < b ∧ v = 0) := by
  unfold realPow
  rcases lt_trichotomy b 0 with h | rfl | h
  · simp [h.ne, not_lt.mpr h.le]
  · simp [eq_comm]
  · simp [h.ne', h, eq_comm]

theorem realPow_laws : PowLaws realPow where
  pos h := by simp [realPow, h]
  zero h := by simp [realPow, h, h.ne']
  exp_one := by
    intro x v h
    have h1 : ∃ n : ℤ, (1 : ℝ) = n := ⟨1, by simp⟩
    simp only [realPow, Real.rpow_one, one_ne_zero, if_false, zero_lt_one, if_true, h1] at h
    split_ifs at h with a b
    · simpa using h.symm
    · simp at h; rw [b, ← h]
    · simpa using h.symm
  exp_zero := by
    intro x v h
    have h1 : ∃ n : ℤ, (0 : ℝ) = n := ⟨0, by simp⟩
    simp only [realPow, Real.rpow_zero, if_true, h1] at h
    split_ifs at h <;> simpa using h.symm
  exp_two := by
    intro x v h
    have h1 : ∃ n : ℤ, (2 : ℝ) = n := ⟨2, by simp⟩
    have h2 : x ^ (2 : ℝ) = x * x := by rw [Real.rpow_two, pow_two]
    simp only [realPow, h2, two_ne_zero, if_false, zero_lt_two, if_true, h1] at h
    split_ifs at h with a b
    · simpa using h.symm
    · simp at h; rw [b, ← h]; simp
    · simpa using h.symm
  add := by
    intro x a b u w h h'
    rcases lt_trichotomy x 0 with hx | rfl | hx
    · unfold realPow at h h' ⊢
      simp only [not_lt.mpr hx.le, hx.ne, if_false] at h h' ⊢
      split_ifs at h h' with ha hb
      obtain ⟨m, rfl⟩ := ha
      obtain ⟨n, rfl⟩ := hb
      have : ∃ k : ℤ, (m : ℝ) + n = k := ⟨m + n, by push_cast; ring⟩
      simp only [Option.some.injEq] at h h'
      rw [if_pos this, ← h, ← h', ← Int.cast_add, Real.rpow_intCast, Real.rpow_intCast,
        Real.rpow_intCast, zpow_add₀ hx.ne]
    · rw [realPow_zero_base] at h h' ⊢
      rcases h with ⟨rfl, rfl⟩ | ⟨ha, rfl⟩ <;> rcases h' with ⟨rfl, rfl⟩ | ⟨hb, rfl⟩
      · simp
      · simp [hb]
      · simp [ha]
      · exact .inr ⟨by linarith, by simp⟩
    · unfold realPow at h h' ⊢
      simp only [hx, if_true, Option.some.injEq] at h h' ⊢
      rw [← h, ← h', Real.rpow_add hx]
  sub := by
    intro x a b u w h h' hw
    rcases lt_trichotomy x 0 with hx | rfl | hx
    · unfold realPow at h h' ⊢
      simp only [not_lt.mpr hx.le, hx.ne, if_false] at h h' ⊢
      split_ifs at h h' with ha hb
      obtain ⟨m, rfl⟩ := ha
      obtain ⟨n, rfl⟩ := hb
      have : ∃ k : ℤ, (m : ℝ) - n = k := ⟨m - n, by push_cast; ring⟩
      simp only [Option.some.injEq] at h h'
      rw [if_pos this, ← h, ← h', ← Int.cast_sub, Real.rpow_intCast, Real.rpow_intCast,
        Real.rpow_intCast, zpow_sub₀ hx.ne]
    · rw [realPow_zero_base] at h h' ⊢
      rcases h with ⟨rfl, rfl⟩ | ⟨ha, rfl⟩ <;> rcases h' with ⟨rfl, rfl⟩ | ⟨hb, rfl⟩
      · simp
      · exact absurd rfl hw
      · simp [ha]
      · exact absurd rfl hw
    · unfold realPow at h h' ⊢
      simp only [hx, if_true, Option.some.injEq] at h h' ⊢
      rw [← h, ← h', Real.rpow_sub hx]

theorem safePow_eq {a b v : ℝ} : safePow a b = some v ↔
    (0 < a ∨ (a = 0 ∧ 0 < b)) ∧ v = a ^ b := by
  unfold safePow
  split_ifs with h
  · simp [h, eq_comm]
  · simp [h]

theorem safePow_laws : PowLawsStrong safePow where
  pos h := by simp [safePow, h]
  zero h := by simp [safePow, h, h.ne']
  exp_one h := realPow_laws.exp_one (safePow_realPow h)
  exp_zero h := realPow_laws.exp_zero (safePow_realPow h)
  exp_two h := realPow_laws.exp_two (safePow_realPow h)
  add := by
    intro x a b u w h h'
    rw [safePow_eq] at h h' ⊢
    obtain ⟨hx, rfl⟩ := h
    obtain ⟨hx', rfl⟩ := h'
    rcases hx with hx | ⟨rfl, ha⟩
    · exact ⟨.inl hx, (Real.rpow_add hx a b).symm⟩
    · have hb : 0 < b := by simpa using hx'
      have hab : 0 < a + b := by linarith
      refine ⟨.inr ⟨rfl, hab⟩, ?_⟩
      rw [Real.zero_rpow ha.ne', Real.zero_rpow hab.ne', zero_mul]
  sub := by
    intro x a b u w h h' hw
    rw [safePow_eq] at h h' ⊢
    obtain ⟨hx, rfl⟩ := h
    obtain ⟨hx', rfl⟩ := h'
    rcases hx with hx | ⟨rfl, ha⟩
    · exact ⟨.inl hx, (Real.rpow_sub hx a b).symm⟩
    · have hb : 0 < b := by simpa using hx'
      exact absurd (Real.zero_rpow hb.ne') hw
  mul := by
    intro x a b u w h h'
    rw [safePow_eq] at h h' ⊢
    obtain ⟨hx, rfl⟩ := h
    obtain ⟨hx', rfl⟩ := h'
    rcases hx with hx | ⟨rfl, ha⟩
    · exact ⟨.inl hx, (Real.rpow_mul hx.le a b).symm⟩
    · rw [Real.zero_rpow ha.ne'] at hx' ⊢
      have hb : 0 < b := by simpa using hx'
      have hab : 0 < a * b := by positivity
      exact ⟨.inr ⟨rfl, hab⟩, by rw [Real.zero_rpow hb.ne', Real.zero_rpow hab.ne']⟩
  base_pos := by
    intro x n u h hu
    rw [safePow_eq] at h
    obtain ⟨hx | ⟨rfl, ha⟩, rfl⟩ := h
    · exact hx
    · rw [Real.zero_rpow ha.ne'] at hu; exact absurd hu (lt_irrefl _)

/-- Whenever the left side of the rule has a value, the right side has the same. -/
def PatSound (pw : ℝ → ℝ → Option ℝ) (p : Pat × Pat) : Prop :=
  ∀ η κ v, pv pw η κ p.1 = some v → pv pw η κ p.2 = some v

theorem inst_lit (κ : String → XReal) (q : ℚ) : (Num.lit q).inst κ = fin (q : ℝ) := rfl
theorem inst_var (κ : String → XReal) (n : String) : (Num.var n).inst κ = κ n := rfl

theorem rulesArith_sound {pw} (L : PowLaws pw) : ∀ p ∈ rulesArith, PatSound pw p := by
  intro p hp η κ v h
  simp only [rulesArith, List.mem_cons, List.not_mem_nil, or_false] at hp
  rcases hp with rfl | rfl | rfl | rfl | rfl | rfl | rfl | rfl | rfl | rfl | rfl | rfl | rfl <;>
    simp [pv, inst_lit] at h ⊢ <;> try assumption
  · exact h.2
  · exact (L.exp_one h).symm
  · exact (L.exp_zero h).symm
  · rw [L.pos one_pos] at h; simpa using h

theorem rulesBasic_sound {pw} (L : PowLaws pw) : ∀ p ∈ rulesBasic, PatSound pw p := by
  intro p hp η κ v h
  simp only [rulesBasic, List.mem_cons, List.not_mem_nil, or_false] at hp
  rcases hp with rfl | rfl | rfl | rfl | rfl | rfl | rfl | rfl | rfl | rfl <;>
    simp [pv, inst_lit] at h ⊢ <;> try assumption
  · exact h.2
  · split_ifs at h with hx
    · simpa [Real.exp_log hx] using h
    · simp at h
  · exact (L.exp_two h).symm
  · obtain ⟨hx, rfl⟩ := h
    rcases hx.lt_or_eq with hx | hx
    · rw [L.pos hx, Real.sqrt_eq_rpow]; norm_num
    · rw [← hx, L.zero (by norm_num)]; simp

theorem rulesAdvanced_sound {pw} (L : PowLaws pw) : ∀ p ∈ rulesAdvanced, PatSound pw p := by
  intro p hp η κ v h
  simp only [rulesAdvanced, List.mem_cons, List.not_mem_nil, or_false] at hp
  rcases hp with rfl | rfl | rfl | rfl | rfl | rfl | rfl | rfl | rfl | rfl <;>
    simp [pv, inst_lit, inst_var] at h ⊢ <;> try assumption
  · rw [← h]; ring
  · rw [← h]; ring
  · split_ifs at h with ha hb
    · simp at h
      exact ⟨mul_pos ha hb, by rw [Real.log_mul ha.ne' hb.ne', h]⟩
    all_goals simp at h
  · split_ifs at h with ha hb
    · simp at h
      simp [hb.ne', div_pos ha hb, Real.log_div ha.ne' hb.ne', h]
    all_goals simp at h
  · cases hc : κ "c" with
    | fin c =>
      rw [hc] at h
      simp only [Option.bind_some] at h ⊢
      split_ifs at h with hx
      · simp at h
        rw [L.pos hx]
        simp [Real.rpow_pos_of_pos hx, Real.log_rpow hx, h]
      · simp at h
    | _ => simp [hc] at h
  · rw [Real.exp_add, h]
  · rw [Real.exp_sub, h]
  · cases hc : κ "c" with
    | fin c =>
      rw [hc] at h
      simp only [Option.bind_some, L.pos (Real.exp_pos _)] at h ⊢
      rw [← h, mul_comm, Real.exp_mul]
    | _ => simp [hc] at h
  · rw [Option.bind_eq_some_iff] at h
    obtain ⟨a, ha, h⟩ := h
    rw [Option.bind_eq_some_iff] at h
    obtain ⟨b, hb, h⟩ := h
    simp at h
    rw [← h, L.exp_two ha, L.exp_two hb, ← pow_two, ← pow_two, Real.sin_sq_add_cos_sq]
  · rw [← h, ← pow_two, ← pow_two, Real.sin_sq_add_cos_sq]

theorem rulesAssoc_sound {pw} (L : PowLaws pw) :
    ∀ p ∈ rulesAssoc, p ≠ rulePowPow → PatSound pw p := by
  intro p hp hne η κ v h
  simp only [rulesAssoc, List.mem_cons, List.not_mem_nil, or_false] at hp
  rcases hp with rfl | rfl | rfl | rfl | rfl | rfl | rfl
  · simp [pv] at h ⊢; rw [← h]; ring
  · simp [pv] at h ⊢; rw [← h]; ring
  · simp [pv] at h ⊢; rw [← h]; ring
  · simp [pv] at h ⊢; rw [← h]; ring
  · simp [pv] at h ⊢
    rw [Option.bind_eq_some_iff] at h
    obtain ⟨a, ha, h⟩ := h
    rw [Option.bind_eq_some_iff] at h
    obtain ⟨b, hb, h⟩ := h
    simp at h
    rw [← h, L.add ha hb]
  · simp [pv] at h ⊢
    rw [Option.bind_eq_some_iff] at h
    obtain ⟨a, ha, h⟩ := h
    rw [Option.bind_eq_some_iff] at h
    obtain ⟨b, hb, h⟩ := h
    simp at h
    rw [← h.2, L.sub ha hb h.1]
  · exact absurd rfl hne

theorem rulePowPow_sound {pw} (L : PowLawsStrong pw) : PatSound pw rulePowPow := by
  intro η κ v h
  simp [pv, rulePowPow] at h ⊢
  rw [Option.bind_eq_some_iff] at h
  obtain ⟨a, ha, h⟩ := h
  exact L.mul ha h

theorem rulesFold_sound (pw) : ∀ p ∈ rulesFold, PatSound pw p := by
  intro p hp η κ v h
  simp only [rulesFold, List.mem_cons, List.not_mem_nil, or_false] at hp
  rcases hp with rfl | rfl | rfl | rfl | rfl | rfl | rfl | rfl | rfl | rfl | rfl | rfl
  · cases ha : κ "a" <;> cases hb : κ "b" <;> simp [pv, inst_var, ha, hb] at h
    simp [pv, Num.inst, ha, hb, h]
  · cases ha : κ "a" <;> cases hb : κ "b" <;> simp [pv, inst_var, ha, hb] at h
    simp [pv, Num.inst, ha, hb, h]
  · cases ha : κ "a" <;> cases hb : κ "b" <;> simp [pv, inst_var, ha, hb] at h
    simp [pv, Num.inst, ha, hb, h]
  · cases ha : κ "a" <;> cases hb : κ "b" <;> simp [pv, inst_var, ha, hb] at h
    simp [pv, Num.inst, ha, hb, f_div _ _ h.1, h.2]
  · simp [pv, inst_lit] at h ⊢; rw [← h]; ring
  · cases ha : κ "a" <;> cases hb : κ "b" <;> simp [pv, inst_var, ha, hb] at h
    simp [pv, Num.inst, ha, hb]; rw [← h]; ring
  · cases ha : κ "a" <;> simp [pv, inst_var, ha] at h
    simp [pv, Num.inst, ha]; rw [← h]; ring
  · cases ha : κ "a" <;> simp [pv, inst_var, ha] at h
    simp [pv, Num.inst, ha]; rw [← h]; ring
  · simp [pv, inst_lit] at h ⊢
    rw [← h.2, div_self h.1]
  · simp [pv] at h ⊢
    split_ifs at h <;> simp at h
    exact ⟨⟨by assumption, by assumption⟩, by rw [← h, div_mul_div_comm]⟩
  · simp [pv] at h ⊢
    split_ifs at h <;> simp at h
    exact ⟨⟨by assumption, by assumption⟩, by rw [← h, div_div]⟩
  · simp [pv] at h ⊢; rw [← h]; ring

theorem rulesTrig_sound {pw} (L : PowLaws pw) :
    ∀ p ∈ rulesTrig, p ≠ ruleLnPow → PatSound pw p := by
  intro p hp hne η κ v h
  simp only [rulesTrig, List.mem_cons, List.not_mem_nil, or_false] at hp
  rcases hp with rfl | rfl | rfl | rfl | rfl | rfl | rfl
  · exact absurd rfl hne
  · simp [pv] at h ⊢
    split_ifs at h with hx <;> simp at h
    rw [L.pos hx, ← h, Real.rpow_def_of_pos hx, mul_comm]
  · simp [pv, inst_lit] at h ⊢
    split_ifs at h with hx <;> simp at h
    have hx' : 0 < η "x" := by simpa using h.1
    simp [hx', ← h.2, Real.log_sqrt hx]; ring
  · simpa [pv] using h
  · simpa [pv] using h
  · simpa [pv, inst_lit] using h
  · simpa [pv, inst_lit] using h

theorem ruleLnPow_sound {pw} (L : PowLawsStrong pw) : PatSound pw ruleLnPow := by
  intro η κ v h
  simp [pv, ruleLnPow] at h ⊢
  rw [Option.bind_eq_some_iff] at h
  obtain ⟨a, ha, h⟩ := h
  simp at h
  have hx := L.base_pos ha h.1
  rw [L.pos hx] at ha
  simp at ha
  simp [hx, ← h.2, ← ha, Real.log_rpow hx]

theorem rules_sound {pw} (L : PowLaws pw) : ∀ p ∈ rules, p ≠ rulePowPow → p ≠ ruleLnPow →
    PatSound pw p := by
  intro p hp h1 h2
  simp only [rules, List.mem_append] at hp
  rcases hp with ((((hp | hp) | hp) | hp) | hp) | hp
  · exact rulesArith_sound L p hp
  · exact rulesBasic_sound L p hp
  · exact rulesAdvanced_sound L p hp
  · exact rulesAssoc_sound L p hp h1
  · exact rulesFold_sound pw p hp
  · exact rulesTrig_sound L p hp h2

theorem rules_sound_strong {pw} (L : PowLawsStrong pw) : ∀ p ∈ rules, PatSound pw p := by
  intro p hp
  by_cases h1 : p = rulePowPow
  · rw [h1]; exact rulePowPow_sound L
  · by_cases h2 : p = ruleLnPow
    · rw [h2]; exact ruleLnPow_sound L
    · exact rules_sound L.toPowLaws p hp h1 h2

theorem inst_sound {pw} {p : Pat × Pat} (hp : p ∈ rules) (hs : PatSound pw p)
    {ρ : String → Option ℝ} {σ : String → Expr XReal} {κ : String → XReal} {v : ℝ}
    (h : ev pw ρ (p.1.inst σ κ) = some v) : ev pw ρ (p.2.inst σ κ) = some v := by
  have hd := holes_defined pw ρ σ κ p.1 h
  have h1 : ∀ n ∈ holes p.1, ev pw ρ (σ n) = some ((ev pw ρ (σ n)).getD 0) := by
    intro n hn
    obtain ⟨r, hr⟩ := hd n hn
    simp [hr]
  rw [pv_eq pw ρ σ κ _ p.1 h1] at h
  rw [pv_eq pw ρ σ κ _ p.2 fun n hn => h1 n (rules_holes p hp n hn)]
  exact hs _ κ v h

/-! ### Saturation -/

theorem ev_safe {ρ : String → Option ℝ} {e : Expr XReal} {v : ℝ} (h : value ρ e = some v)
    (hs : SafePowers ρ e) : ev safePow ρ e = some v := by
  induction e generalizing v with
  | const c => cases c <;> exact h
  | var n => exact h
  | pow l r ihl ihr =>
    rw [value_pow] at h
    obtain ⟨a, ha, b, hb, h⟩ := h
    have h1 := ihl ha fun x y hxy => hs x y (.step (by simp [children]) hxy)
    have h2 := ihr hb fun x y hxy => hs x y (.step (by simp [children]) hxy)
    obtain ⟨bv, xv, hbv, hxv, hc⟩ := hs l r .refl
    rw [ha] at hbv; rw [hb] at hxv
    simp only [Option.some.injEq] at hbv hxv
    subst hbv; subst hxv
    have h3 : safePow a b = some (a ^ b) := by rw [safePow_eq]; exact ⟨hc, rfl⟩
    have h4 := safePow_realPow h3
    rw [h] at h4
    simp only [ev, h1, h2, Option.bind_eq_bind, Option.bind_some, h3, h4]
  | add l r ihl ihr | sub l r ihl ihr | mul l r ihl ihr | div l r ihl ihr =>
    have hl : SafePowers ρ l := fun x y hxy => hs x y (.step (by simp [children]) hxy)
    have hr : SafePowers ρ r := fun x y hxy => hs x y (.step (by simp [children]) hxy)
    simp only [value, Option.bind_eq_bind, Option.bind_eq_some_iff] at h
    obtain ⟨a, ha, b, hb, h⟩ := h
    simp only [ev, ihl ha hl, ihr hb hr, Option.bind_eq_bind, Option.bind_some, h]
  | ln e ih | exp e ih | sqrt e ih | sin e ih | cos e ih | neg e ih =>
    have he : SafePowers ρ e := fun x y hxy => hs x y (.step (by simp [children]) hxy)
    simp only [value, Option.bind_eq_bind, Option.bind_eq_some_iff] at h
    obtain ⟨a, ha, h⟩ := h
    simp only [ev, ih ha he, Option.bind_eq_bind, Option.bind_some, h]

theorem value_of_ev_safe {ρ : String → Option ℝ} {e : Expr XReal} {v : ℝ}
    (h : ev safePow ρ e = some v) : value ρ e = some v := by
  induction e generalizing v with
  | const c => cases c <;> exact h
  | var n => exact h
  | pow l r ihl ihr =>
    simp only [ev, Option.bind_eq_bind, Option.bind_eq_some_iff] at h
    obtain ⟨a, ha, b, hb, h⟩ := h
    exact value_pow.2 ⟨a, ihl ha, b, ihr hb, safePow_realPow h⟩
  | add l r ihl ihr | sub l r ihl ihr | mul l r ihl ihr | div l r ihl ihr =>
    simp only [ev, Option.bind_eq_bind, Option.bind_eq_some_iff] at h
    obtain ⟨a, ha, b, hb, h⟩ := h
    simp only [value, ihl ha, ihr hb, Option.bind_eq_bind, Option.bind_some, h]
  | ln e ih | exp e ih | sqrt e ih | sin e ih | cos e ih | neg e ih =>
    simp only [ev, Option.bind_eq_bind, Option.bind_eq_some_iff] at h
    obtain ⟨a, ha, h⟩ := h
    simp only [value, ih ha, Option.bind_eq_bind, Option.bind_some, h]

/-- Both terms have the same value and only safe powers. -/
def Agree (ρ : String → Option ℝ) (s t : Expr XReal) : Prop :=
  ∃ v, ev safePow ρ s = some v ∧ ev safePow ρ t = some v

theorem Agree.symm {ρ s t} (h : Agree ρ s t) : Agree ρ t s := by
  obtain ⟨v, a, b⟩ := h; exact ⟨v, b, a⟩

theorem Agree.eq {ρ s t} (h : Agree ρ s t) : ev safePow ρ s = ev safePow ρ t := by
  obtain ⟨v, a, b⟩ := h; rw [a, b]

theorem Agree.close {ρ : String → Option ℝ} {R : EGraph XReal}
    (hR : ∀ s t, R s t → Agree ρ s t) {s t : Expr XReal} (h : EGraph.Close R s t) :
    Agree ρ s t := by
  induction h with
  | base h => exact hR _ _ h
  | symm _ ih => exact ih.symm
  | trans _ _ ih1 ih2 =>
    obtain ⟨v, a, b⟩ := ih1
    obtain ⟨w, c, d⟩ := ih2
    exact ⟨v, a, by rw [d, ← c, b]⟩
  | @child t c _ hc ih =>
    obtain ⟨v, h, -⟩ := ih
    cases t <;> simp only [children, List.mem_cons, List.not_mem_nil, or_false] at hc <;>
      simp only [ev, Option.bind_eq_bind, Option.bind_eq_some_iff] at h
    all_goals first
      | (obtain ⟨a, ha, b, hb, h⟩ := h
         rcases hc with rfl | rfl
         · exact ⟨a, ha, ha⟩
         · exact ⟨b, hb, hb⟩)
      | (obtain ⟨a, ha, h⟩ := h
         subst hc
         exact ⟨a, ha, ha⟩)
  | add _ _ _ ih0 ih1 ih2 | sub _ _ _ ih0 ih1 ih2 | mul _ _ _ ih0 ih1 ih2
  | div _ _ _ ih0 ih1 ih2 | pow _ _ _ ih0 ih1 ih2 =>
    obtain ⟨v, h, -⟩ := ih0
    refine ⟨v, h, ?_⟩
    rw [← h]; simp only [ev, ih1.eq, ih2.eq]
  | ln _ _ ih0 ih1 | exp _ _ ih0 ih1 | sqrt _ _ ih0 ih1 | sin _ _ ih0 ih1 | cos _ _ ih0 ih1
  | neg _ _ ih0 ih1 =>
    obtain ⟨v, h, -⟩ := ih0
    refine ⟨v, h, ?_⟩
    rw [← h]; simp only [ev, ih1.eq]

theorem Agree.round {ρ : String → Option ℝ} {G : EGraph XReal}
    (hG : ∀ s t, G s t → Agree ρ s t) : ∀ s t, G.round rules s t → Agree ρ s t := by
  intro s t h
  refine Agree.close ?_ h
  rintro a b (h | ⟨h, p, hp, σ, κ, rfl, rfl⟩)
  · exact hG a b h
  · obtain ⟨v, hv, -⟩ := hG _ _ h
    exact ⟨v, hv, inst_sound hp (rules_sound_strong safePow_laws p hp) hv⟩

theorem Agree.rounds {ρ : String → Option ℝ} (n : ℕ) : ∀ {G : EGraph XReal}
    (_ : ∀ s t, G s t → Agree ρ s t), ∀ s t, G.rounds rules n s t → Agree ρ s t := by
  induction n with
  | zero => intro G hG; exact hG
  | succ n ih => intro G hG; exact ih (Agree.round hG)

theorem Agree.insert {ρ : String → Option ℝ} {G : EGraph XReal} {t : Expr XReal} {v : ℝ}
    (hG : ∀ s t, G s t → Agree ρ s t) (ht : ev safePow ρ t = some v) :
    ∀ a b, G.insert t a b → Agree ρ a b := by
  intro a b h
  refine Agree.close ?_ h
  rintro a b (h | ⟨rfl, rfl⟩)
  · exact hG a b h
  · exact ⟨v, ht, ht⟩

end Verif.Egglog
