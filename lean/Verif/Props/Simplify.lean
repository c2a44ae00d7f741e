import Verif.Lemmas.Simplify
import Verif.Props.SymbolicEval
import Mathlib.Logic.Function.Iterate

/-! C47–C49: simplification. -/

namespace Verif
open Classical Spec

/-! ## C48 -/

section C48
variable {F : Type} [FloatOps F]
open Expr

/-- Simplification terminates (it is a total function) and never increases the operation count. -/
theorem C48_complexity (e : Expr F) : e.simplify.complexity ≤ e.complexity :=
  complexity_simplify e

theorem occurs_simplifyAdd (n : String) (l r : Expr F) (h : Occurs n (simplifyAdd l r)) :
    Occurs n l ∨ Occurs n r := by
  unfold simplifyAdd at h
  split at h
  · cases h
  · split_ifs at h
    · exact .inr h
    · exact .inl h
    · cases h with
      | mulL h => cases h
      | mulR h => exact .inl h
    · cases h with
      | addL h => exact .inl h
      | addR h => exact .inr h

theorem occurs_simplifySub (n : String) (l r : Expr F) (h : Occurs n (simplifySub l r)) :
    Occurs n l ∨ Occurs n r := by
  unfold simplifySub at h
  split at h
  · cases h
  · split_ifs at h
    · exact .inl h
    · cases h with
      | neg h => exact .inr h
    · cases h
    · cases h with
      | subL h => exact .inl h
      | subR h => exact .inr h

theorem occurs_simplifyMul (n : String) (l r : Expr F) (h : Occurs n (simplifyMul l r)) :
    Occurs n l ∨ Occurs n r := by
  unfold simplifyMul at h
  split at h
  · cases h
  · split_ifs at h
    · cases h
    · exact .inr h
    · exact .inl h
    · cases h with
      | neg h => exact .inr h
    · cases h with
      | neg h => exact .inl h
    · cases h with
      | powL h => exact .inl h
      | powR h => cases h
    · cases h with
      | mulL h => exact .inl h
      | mulR h => exact .inr h

theorem occurs_simplifyDiv (n : String) (l r : Expr F) (h : Occurs n (simplifyDiv l r)) :
    Occurs n l ∨ Occurs n r := by
  unfold simplifyDiv at h
  split at h
  · cases h
  · split_ifs at h
    · exact .inl h
    · cases h
    · cases h
    · cases h with
      | divL h => exact .inl h
      | divR h => exact .inr h

theorem occurs_simplifyLn (n : String) (e : Expr F) (h : Occurs n (simplifyLn e)) :
    Occurs n e := by
  unfold simplifyLn at h
  split at h
  · split_ifs at h <;> first | (cases h; done) | (cases h; assumption)
  · exact .exp h
  · cases h with
    | mulL h => exact .powR h
    | mulR h => cases h with | ln h => exact .powL h
  · cases h; assumption

theorem occurs_simplifyExp (n : String) (e : Expr F) (h : Occurs n (simplifyExp e)) :
    Occurs n e := by
  unfold simplifyExp at h
  split at h
  · split_ifs at h <;> cases h
  · exact .ln h
  · cases h with
    | powL h => exact .mulR (.ln h)
    | powR h => exact .mulL h
  · cases h; assumption

theorem occurs_simplifySqrt (n : String) (e : Expr F) (h : Occurs n (simplifySqrt e)) :
    Occurs n e := by
  unfold simplifySqrt at h
  split at h
  · split_ifs at h <;> first | (cases h; done) | (cases h; assumption)
  · split_ifs at h
    · exact .powL h
    · cases h; assumption
  · cases h; assumption

theorem occurs_simplifySin (n : String) (e : Expr F) (h : Occurs n (simplifySin e)) :
    Occurs n e := by
  unfold simplifySin at h
  split at h
  · split_ifs at h <;> cases h
  · cases h; assumption

theorem occurs_simplifyCos (n : String) (e : Expr F) (h : Occurs n (simplifyCos e)) :
    Occurs n e := by
  unfold simplifyCos at h
  split at h
  · split_ifs at h <;> cases h
  · cases h; assumption

theorem occurs_simplifyNeg (n : String) (e : Expr F) (h : Occurs n (simplifyNeg e)) :
    Occurs n e := by
  unfold simplifyNeg at h
  split at h
  · cases h
  · exact .neg h
  · cases h; assumption

omit [FloatOps F] in
theorem asPow_eq {e ib ie : Expr F} (h : asPow e = some (ib, ie)) : e = pow ib ie := by
  cases e <;> simp [asPow] at h
  obtain ⟨rfl, rfl⟩ := h; rfl

theorem complexity_exponents {b x ib ie : Expr F} (h : asPow (simplify b) = some (ib, ie)) :
    (mul ie (simplify x)).complexity < (pow b x).complexity := by
  have h1 := complexity_simplify b
  have h2 := complexity_simplify x
  have h3 := complexity_asPow h
  simp only [complexity]; omega

/-- Simplification never introduces a variable. -/
theorem C48_variables (e : Expr F) : ∀ n ∈ e.simplify.variableNames, n ∈ e.variableNames := by
  suffices ∀ e : Expr F, ∀ n, Occurs n e.simplify → Occurs n e by
    intro n hn
    rw [mem_variableNames] at hn ⊢
    exact this e n hn
  intro e
  induction e using complexity_induction with
  | _ e ih =>
    intro n h
    cases e with
    | const c => simpa using h
    | var m => simpa using h
    | add l r =>
      rw [simplify_add] at h
      rcases occurs_simplifyAdd n _ _ h with h | h
      · exact .addL (ih l (by simp only [complexity]; omega) n h)
      · exact .addR (ih r (by simp only [complexity]; omega) n h)
    | sub l r =>
      rw [simplify_sub] at h
      rcases occurs_simplifySub n _ _ h with h | h
      · exact .subL (ih l (by simp only [complexity]; omega) n h)
      · exact .subR (ih r (by simp only [complexity]; omega) n h)
    | mul l r =>
      rw [simplify_mul] at h
      rcases occurs_simplifyMul n _ _ h with h | h
      · exact .mulL (ih l (by simp only [complexity]; omega) n h)
      · exact .mulR (ih r (by simp only [complexity]; omega) n h)
    | div l r =>
      rw [simplify_div] at h
      rcases occurs_simplifyDiv n _ _ h with h | h
      · exact .divL (ih l (by simp only [complexity]; omega) n h)
      · exact .divR (ih r (by simp only [complexity]; omega) n h)
    | pow b x =>
      have hb := ih b (by simp only [complexity]; omega) n
      have hx := ih x (by simp only [complexity]; omega) n
      rw [simplify_pow, simplifyPow] at h
      split at h
      · cases h
      · split_ifs at h
        · cases h
        · exact .powL (hb h)
        · cases h
        · split at h
          · rename_i ib ie hp
            have hm := ih _ (complexity_exponents (x := x) hp) n
            have hbp := asPow_eq hp
            cases h with
            | powL h => exact .powL (hb (by rw [hbp]; exact .powL h))
            | powR h =>
              cases hm h with
              | mulL h => exact .powL (hb (by rw [hbp]; exact .powR h))
              | mulR h => exact .powR (hx h)
          · cases h with
            | powL h => exact .powL (hb h)
            | powR h => exact .powR (hx h)
    | ln e =>
      rw [simplify_ln] at h
      exact .ln (ih e (by simp only [complexity]; omega) n (occurs_simplifyLn n _ h))
    | exp e =>
      rw [simplify_exp] at h
      exact .exp (ih e (by simp only [complexity]; omega) n (occurs_simplifyExp n _ h))
    | sqrt e =>
      rw [simplify_sqrt] at h
      exact .sqrt (ih e (by simp only [complexity]; omega) n (occurs_simplifySqrt n _ h))
    | sin e =>
      rw [simplify_sin] at h
      exact .sin (ih e (by simp only [complexity]; omega) n (occurs_simplifySin n _ h))
    | cos e =>
      rw [simplify_cos] at h
      exact .cos (ih e (by simp only [complexity]; omega) n (occurs_simplifyCos n _ h))
    | neg e =>
      rw [simplify_neg] at h
      exact .neg (ih e (by simp only [complexity]; omega) n (occurs_simplifyNeg n _ h))

end C48

/-! ## C49 -/

section C49
variable {F : Type} [FloatOps F]
open Expr

/-- A weight that every rewrite of `simplify` strictly decreases. -/
def weight : Expr F → ℕ
  | const _ => 1
  | var _ => 3
  | add l r => 3 + weight l + weight r
  | sub l r => 3 + weight l + weight r
  | mul l r => 3 + weight l + weight r
  | div l r => 3 + weight l + weight r
  | pow l r => 4 + weight l + weight r
  | ln e => 3 + weight e
  | exp e => 3 + weight e
  | sqrt e => 3 + weight e
  | sin e => 3 + weight e
  | cos e => 3 + weight e
  | neg e => 3 + weight e

omit [FloatOps F] in
theorem weight_le_nodes (e : Expr F) : weight e ≤ 4 * nodes e := by
  induction e <;> simp only [weight, nodes] <;> omega

omit [FloatOps F] in
theorem weight_pos (e : Expr F) : 1 ≤ weight e := by
  cases e <;> simp only [weight] <;> omega

theorem weight_of_beq {l r : Expr F} (h : beq l r = true) (hc : bothConst l r = none) :
    3 ≤ weight r := by
  cases r with
  | const c => cases l <;> simp [beq, bothConst] at h hc
  | _ => simp only [weight]; omega

theorem weight_simplifyAdd (l r : Expr F) :
    simplifyAdd l r = add l r ∨ weight (simplifyAdd l r) < weight (add l r) := by
  have hl := weight_pos l; have hr := weight_pos r
  unfold simplifyAdd
  split
  · right; simp only [weight]; omega
  · rename_i hc
    split_ifs with h1 h2 h3
    · right; simp only [weight]; omega
    · right; simp only [weight]; omega
    · right; have := weight_of_beq h3 hc; simp only [weight]; omega
    · exact .inl rfl

theorem weight_simplifySub (l r : Expr F) :
    simplifySub l r = sub l r ∨ weight (simplifySub l r) < weight (sub l r) := by
  have hl := weight_pos l; have hr := weight_pos r
  unfold simplifySub
  split
  · right; simp only [weight]; omega
  · rename_i hc
    split_ifs with h1 h2 h3
    · right; simp only [weight]; omega
    · right; simp only [weight]; omega
    · right; simp only [weight]; omega
    · exact .inl rfl

theorem weight_simplifyMul (l r : Expr F) :
    simplifyMul l r = mul l r ∨ weight (simplifyMul l r) < weight (mul l r) := by
  have hl := weight_pos l; have hr := weight_pos r
  unfold simplifyMul
  split
  · right; simp only [weight]; omega
  · rename_i hc
    split_ifs with h1 h2 h3 h4 h5 h6
    · right; simp only [weight]; omega
    · right; simp only [weight]; omega
    · right; simp only [weight]; omega
    · right; simp only [weight]; omega
    · right; simp only [weight]; omega
    · right; have := weight_of_beq h6 hc; simp only [weight]; omega
    · exact .inl rfl

theorem weight_simplifyDiv (l r : Expr F) :
    simplifyDiv l r = div l r ∨ weight (simplifyDiv l r) < weight (div l r) := by
  have hl := weight_pos l; have hr := weight_pos r
  unfold simplifyDiv
  split
  · right; simp only [weight]; omega
  · split_ifs with h1 h2 h3
    · right; simp only [weight]; omega
    · right; simp only [weight]; omega
    · right; simp only [weight]; omega
    · exact .inl rfl

theorem weight_simplifyLn (e : Expr F) :
    simplifyLn e = ln e ∨ weight (simplifyLn e) < weight (ln e) := by
  unfold simplifyLn
  split
  · split_ifs
    · right; simp only [weight]; omega
    · right; simp only [weight]; omega
    · exact .inl rfl
  · right; simp only [weight]; omega
  · right; simp only [weight]; omega
  · exact .inl rfl

theorem weight_simplifyExp (e : Expr F) :
    simplifyExp e = exp e ∨ weight (simplifyExp e) < weight (exp e) := by
  unfold simplifyExp
  split
  · split_ifs <;> (right; simp only [weight]; omega)
  · right; simp only [weight]; omega
  · right; simp only [weight]; omega
  · exact .inl rfl

theorem weight_simplifySqrt (e : Expr F) :
    simplifySqrt e = sqrt e ∨ weight (simplifySqrt e) < weight (sqrt e) := by
  unfold simplifySqrt
  split
  · split_ifs
    · right; simp only [weight]; omega
    · right; simp only [weight]; omega
    · right; simp only [weight]; omega
    · exact .inl rfl
  · split_ifs
    · right; simp only [weight]; omega
    · exact .inl rfl
  · exact .inl rfl

theorem weight_simplifySin (e : Expr F) :
    simplifySin e = sin e ∨ weight (simplifySin e) < weight (sin e) := by
  unfold simplifySin
  split
  · split_ifs <;> (right; simp only [weight]; omega)
  · exact .inl rfl

theorem weight_simplifyCos (e : Expr F) :
    simplifyCos e = cos e ∨ weight (simplifyCos e) < weight (cos e) := by
  unfold simplifyCos
  split
  · split_ifs <;> (right; simp only [weight]; omega)
  · exact .inl rfl

theorem weight_simplifyNeg (e : Expr F) :
    simplifyNeg e = neg e ∨ weight (simplifyNeg e) < weight (neg e) := by
  unfold simplifyNeg
  split
  · right; simp only [weight]; omega
  · right; simp only [weight]; omega
  · exact .inl rfl

omit [FloatOps F] in
theorem lighter2 (op : Expr F → Expr F → Expr F) (k : ℕ)
    (hop : ∀ l r, weight (op l r) = k + weight l + weight r) {l r l' r' s : Expr F}
    (hl : l' = l ∨ weight l' < weight l) (hr : r' = r ∨ weight r' < weight r)
    (hs : s = op l' r' ∨ weight s < weight (op l' r')) :
    s = op l r ∨ weight s < weight (op l r) := by
  rw [hop] at hs ⊢
  rcases hl with rfl | hl <;> rcases hr with rfl | hr
  · exact hs
  all_goals
    right
    rcases hs with rfl | hs
    · rw [hop]; omega
    · omega

omit [FloatOps F] in
theorem lighter1 (op : Expr F → Expr F) (k : ℕ)
    (hop : ∀ e, weight (op e) = k + weight e) {e e' s : Expr F}
    (he : e' = e ∨ weight e' < weight e)
    (hs : s = op e' ∨ weight s < weight (op e')) :
    s = op e ∨ weight s < weight (op e) := by
  rw [hop] at hs ⊢
  rcases he with rfl | he
  · exact hs
  · right
    rcases hs with rfl | hs
    · rw [hop]; omega
    · omega

/-- Every pass of `simplify` leaves the expression alone or strictly decreases the weight. -/
theorem simplify_fixed_or_lighter (e : Expr F) :
    e.simplify = e ∨ weight e.simplify < weight e := by
  induction e using complexity_induction with
  | _ e ih =>
    cases e with
    | const c => simp
    | var m => simp
    | add l r =>
      have hl := ih l (by simp only [complexity]; omega)
      have hr := ih r (by simp only [complexity]; omega)
      rw [simplify_add]
      exact lighter2 add 3 (fun _ _ => rfl) hl hr (weight_simplifyAdd _ _)
    | sub l r =>
      have hl := ih l (by simp only [complexity]; omega)
      have hr := ih r (by simp only [complexity]; omega)
      rw [simplify_sub]
      exact lighter2 sub 3 (fun _ _ => rfl) hl hr (weight_simplifySub _ _)
    | mul l r =>
      have hl := ih l (by simp only [complexity]; omega)
      have hr := ih r (by simp only [complexity]; omega)
      rw [simplify_mul]
      exact lighter2 mul 3 (fun _ _ => rfl) hl hr (weight_simplifyMul _ _)
    | div l r =>
      have hl := ih l (by simp only [complexity]; omega)
      have hr := ih r (by simp only [complexity]; omega)
      rw [simplify_div]
      exact lighter2 div 3 (fun _ _ => rfl) hl hr (weight_simplifyDiv _ _)
    | pow b x =>
      have hb := ih b (by simp only [complexity]; omega)
      have hx := ih x (by simp only [complexity]; omega)
      rw [simplify_pow]
      refine lighter2 pow 4 (fun _ _ => rfl) hb hx ?_
      have hl := weight_pos b.simplify; have hr := weight_pos x.simplify
      unfold simplifyPow
      split
      · right; simp only [weight]; omega
      · split_ifs
        · right; simp only [weight]; omega
        · right; simp only [weight]; omega
        · right; simp only [weight]; omega
        · split
          · rename_i ib ie hp
            right
            have hm := ih _ (complexity_exponents (x := x) hp)
            rw [asPow_eq hp]
            rcases hm with hm | hm
            · rw [hm]; simp only [weight]; omega
            · simp only [weight] at hm ⊢; omega
          · exact .inl rfl
    | ln e =>
      rw [simplify_ln]
      exact lighter1 ln 3 (fun _ => rfl) (ih e (by simp only [complexity]; omega))
        (weight_simplifyLn _)
    | exp e =>
      rw [simplify_exp]
      exact lighter1 exp 3 (fun _ => rfl) (ih e (by simp only [complexity]; omega))
        (weight_simplifyExp _)
    | sqrt e =>
      rw [simplify_sqrt]
      exact lighter1 sqrt 3 (fun _ => rfl) (ih e (by simp only [complexity]; omega))
        (weight_simplifySqrt _)
    | sin e =>
      rw [simplify_sin]
      exact lighter1 sin 3 (fun _ => rfl) (ih e (by simp only [complexity]; omega))
        (weight_simplifySin _)
    | cos e =>
      rw [simplify_cos]
      exact lighter1 cos 3 (fun _ => rfl) (ih e (by simp only [complexity]; omega))
        (weight_simplifyCos _)
    | neg e =>
      rw [simplify_neg]
      exact lighter1 neg 3 (fun _ => rfl) (ih e (by simp only [complexity]; omega))
        (weight_simplifyNeg _)

/-- Iterating `simplify` reaches an expression that `simplify` leaves unchanged, after at most
four passes per node of the starting expression. -/
theorem C49_iteration_reaches_fixed_point (e : Expr F) :
    ∃ k, k ≤ 4 * nodes e ∧ ((simplify^[k]) e).simplify = (simplify^[k]) e := by
  suffices ∀ w (e : Expr F), weight e ≤ w →
      ∃ k, k ≤ w ∧ ((simplify^[k]) e).simplify = (simplify^[k]) e from
    this _ e (weight_le_nodes e)
  intro w
  induction w with
  | zero => intro e h; have := weight_pos e; omega
  | succ w ih =>
    intro e h
    rcases simplify_fixed_or_lighter e with h1 | h1
    · exact ⟨0, by omega, h1⟩
    · obtain ⟨k, hk, h2⟩ := ih e.simplify (by omega)
      exact ⟨k + 1, by omega, by simpa [Function.iterate_succ] using h2⟩

/-- An expression that one pass leaves unchanged stays unchanged by any number of passes. -/
theorem C49_fixed_point_stable_partial (e : Expr F) (h : e.simplify = e) (k : ℕ) :
    (simplify^[k]) e = e := Function.iterate_fixed h k

end C49
end Verif
