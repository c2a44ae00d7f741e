import Verif.Lemmas.EgglogEngine

/-! Lemmas for particular inputs of the optimizer, and for texts on which its parser panics. -/

namespace Verif.Egglog
open Verif Verif.Spec Verif.Spec.Egglog

section
variable {F : Type}

theorem Close.left {R : EGraph F} {s t : Expr F} (h : EGraph.Close R s t) : EGraph.Close R s s :=
  h.trans h.symm

theorem Close.right {R : EGraph F} {s t : Expr F} (h : EGraph.Close R s t) : EGraph.Close R t t :=
  h.symm.trans h

theorem two_le_cost (u : Expr F) : 2 ≤ cost u := by
  induction u <;> simp only [cost] <;> omega

theorem cost_le_two {u : Expr F} (h : cost u ≤ 2) : (∃ c, u = .const c) ∨ ∃ n, u = .var n := by
  cases u with
  | const c => exact .inl ⟨c, rfl⟩
  | var n => exact .inr ⟨n, rfl⟩
  | add l r | sub l r | mul l r | div l r | pow l r =>
    have := two_le_cost l; simp only [cost] at h; omega
  | ln e | exp e | sqrt e | sin e | cos e | neg e =>
    have := two_le_cost e; simp only [cost] at h; omega

theorem sqrtFree_const (c : F) : SqrtFree (.const c) := by
  intro a h; cases h; simp_all [children]

theorem sqrtFree_var (n : String) : SqrtFree (.var n : Expr F) := by
  intro a h; cases h; simp_all [children]

variable [FloatOps F]

theorem round_rule {G : EGraph F} {p : Pat × Pat} (hp : p ∈ rules) (σ : String → Expr F)
    (κ : String → F) {l r : Expr F} (hl : l = p.1.inst σ κ) (hr : r = p.2.inst σ κ) (h : G l l) :
    G.round rules l r := .base (.inr ⟨h, p, hp, σ, κ, hl, hr⟩)

/-- The e-graph stores only terms in `T` and equates none of them. -/
def Discrete {F : Type} (T : Expr F → Prop) (G : EGraph F) : Prop := ∀ s t, G s t → s = t ∧ T s

omit [FloatOps F] in
theorem Discrete.close {T : Expr F → Prop} (hT : ∀ t, T t → ∀ c ∈ children t, T c) {R : EGraph F}
    (h : Discrete T R) : Discrete T (EGraph.Close R) := by
  intro s t hst
  induction hst with
  | base hb => exact h _ _ hb
  | symm _ ih => exact ⟨ih.1.symm, ih.1 ▸ ih.2⟩
  | trans _ _ ih1 ih2 => exact ⟨ih1.1.trans ih2.1, ih1.2⟩
  | child _ hc ih => exact ⟨rfl, hT _ ih.2 _ hc⟩
  | add _ _ _ ih0 ih1 ih2 | sub _ _ _ ih0 ih1 ih2 | mul _ _ _ ih0 ih1 ih2
  | div _ _ _ ih0 ih1 ih2 | pow _ _ _ ih0 ih1 ih2 => exact ⟨by rw [ih1.1, ih2.1], ih0.2⟩
  | ln _ _ ih0 ih1 | exp _ _ ih0 ih1 | sqrt _ _ ih0 ih1 | sin _ _ ih0 ih1 | cos _ _ ih0 ih1
  | neg _ _ ih0 ih1 => exact ⟨by rw [ih1.1], ih0.2⟩

theorem Discrete.rounds {T : Expr F → Prop} (hT : ∀ t, T t → ∀ c ∈ children t, T c)
    (hr : ∀ p ∈ rules, ∀ (σ : String → Expr F) (κ : String → F), ¬ T (p.1.inst σ κ)) (n : ℕ) :
    ∀ {G : EGraph F}, Discrete T G → Discrete T (G.rounds rules n) := by
  induction n with
  | zero => intro G h; exact h
  | succ n ih =>
    intro G h
    refine ih (Discrete.close hT ?_)
    rintro s t (hst | ⟨hs, p, hp, σ, κ, rfl, rfl⟩)
    · exact h s t hst
    · exact absurd (h _ _ hs).2 (hr p hp σ κ)

/-- A literal stays alone in the e-graph. -/
theorem const_alone (c : F) (n : ℕ) :
    Discrete (· = .const c) ((EGraph.empty.insert (.const c)).rounds rules n) := by
  refine Discrete.rounds ?_ ?_ n (Discrete.close ?_ ?_)
  · rintro t rfl c hc; simp [children] at hc
  · simp [rules, rulesArith, rulesBasic, rulesAdvanced, rulesAssoc, rulesFold, rulesTrig,
      rulePowPow, ruleLnPow, or_imp, forall_and, Pat.inst]
  · rintro t rfl c hc; simp [children] at hc
  · rintro a b (h | ⟨rfl, rfl⟩)
    · exact h.elim
    · exact ⟨rfl, rfl⟩

/-- The pattern matches a variable or a power of two variables. -/
def matchesPow : Pat → Bool
  | .hole _ => true
  | .pow (.hole _) (.hole _) => true
  | _ => false

theorem rules_matchesPow : ∀ p ∈ rules, matchesPow p.1 = false := by decide

theorem matchesPow_of {x y : String} {p : Pat} {σ : String → Expr F} {κ : String → F}
    (h : p.inst σ κ = .pow (.var x) (.var y) ∨ p.inst σ κ = .var x ∨ p.inst σ κ = .var y) :
    matchesPow p = true := by
  cases p with
  | hole n => rfl
  | pow l r =>
    simp only [Pat.inst, Expr.pow.injEq, reduceCtorEq, or_false] at h
    obtain ⟨h1, h2⟩ := h
    cases l <;> simp only [Pat.inst, reduceCtorEq] at h1
    cases r <;> simp only [Pat.inst, reduceCtorEq] at h2
    rfl
  | _ => simp [Pat.inst] at h

/-- A power of two variables stays alone in the e-graph. -/
theorem pow_alone (x y : String) (n : ℕ) :
    Discrete (fun t : Expr F => t = .pow (.var x) (.var y) ∨ t = .var x ∨ t = .var y)
      ((EGraph.empty.insert (.pow (.var x) (.var y))).rounds rules n) := by
  have hT : ∀ t : Expr F, (t = .pow (.var x) (.var y) ∨ t = .var x ∨ t = .var y) →
      ∀ c ∈ children t, (c = .pow (.var x) (.var y) ∨ c = .var x ∨ c = .var y) := by
    rintro t (rfl | rfl | rfl) c hc <;> simp [children] at hc
    rcases hc with rfl | rfl <;> simp
  refine Discrete.rounds hT ?_ n (Discrete.close hT ?_)
  · intro p hp σ κ h
    have := matchesPow_of h
    rw [rules_matchesPow p hp] at this
    cases this
  · rintro a b (h | ⟨rfl, rfl⟩)
    · exact h.elim
    · exact ⟨rfl, .inl rfl⟩

end

/-! ### Panics of the parser -/

/-- The text `(Var ")`. -/
def badVar : Text := ['(', 'V', 'a', 'r', ' ', '"', ')']

theorem trim_infix (s : Text) : trim s <:+: s := by
  unfold trim
  have h1 : (s.dropWhile isWhite).reverse.dropWhile isWhite <:+ (s.dropWhile isWhite).reverse :=
    List.dropWhile_suffix _
  have h2 := List.reverse_prefix.2 h1
  rw [List.reverse_reverse] at h2
  exact h2.isInfix.trans (List.dropWhile_suffix _).isInfix

theorem body_infix (n : ℕ) (s : Text) : body n s <:+: s :=
  (List.dropLast_prefix _).isInfix.trans (List.drop_suffix _ _).isInfix

theorem splitArgs_eq {s l r : Text} {d : ℤ} (h : splitArgs d s = some (l, r)) :
    s = l ++ ' ' :: r := by
  induction s generalizing d l with
  | nil => simp [splitArgs] at h
  | cons c cs ih =>
    simp only [splitArgs] at h
    split at h
    · rename_i hc
      simp at h
      obtain ⟨rfl, rfl⟩ := h
      rw [hc.1]; rfl
    · simp only [Option.map_eq_some_iff, Prod.mk.injEq, Prod.exists] at h
      obtain ⟨l', r', h, rfl, rfl⟩ := h
      rw [ih h]; rfl

theorem parseBinaryArgs_infix {s l r : Text} (h : parseBinaryArgs s = some (l, r)) :
    l <:+: s ∧ r <:+: s := by
  simp only [parseBinaryArgs, Option.map_eq_some_iff, Prod.mk.injEq, Prod.exists] at h
  obtain ⟨a, b, h, rfl, rfl⟩ := h
  have := splitArgs_eq h
  subst this
  exact ⟨(trim_infix a).trans (List.prefix_append _ _).isInfix,
    (trim_infix b).trans ((List.suffix_cons _ _).trans (List.suffix_append _ _)).isInfix⟩

section
variable {F : Type} {parse : Text → Option F}

theorem orTry_error {a b : Parsed F} {p : Panic} (h : orTry a b = .error p) :
    a = .error p ∨ b = .error p := by
  unfold orTry at h
  split at h <;> simp_all

theorem constCase_error {t : Text} {p : Panic} : constCase parse t ≠ .error p := by
  unfold constCase; split <;> simp

theorem varCase_error {t : Text} {p : Panic} (h : (varCase t : Parsed F) = .error p) :
    t = badVar := by
  unfold varCase at h
  split at h
  · rename_i hc
    split at h
    · rename_i hl
      simp only [Bool.and_eq_true, List.isPrefixOf_iff_prefix, List.isSuffixOf_iff_suffix] at hc
      obtain ⟨⟨u, rfl⟩, v, hv⟩ := hc
      simp at hl
      match u, hl with
      | [], _ =>
        have := congrArg List.getLast? hv
        simp at this
      | [c], _ =>
        have := congrArg List.getLast? hv
        simp at this
        subst this
        rfl
    · simp at h
  · simp at h

theorem binCase_error {rec : Text → Parsed F} {op t : Text} {mk : Expr F → Expr F → Expr F}
    {p : Panic} (h : binCase rec op mk t = .error p) : ∃ s, s <:+: t ∧ rec s = .error p := by
  unfold binCase at h
  split at h
  · split at h
    · simp at h
    · rename_i l r hlr
      have hi := parseBinaryArgs_infix hlr
      split at h
      · rename_i q hq
        simp at h; subst h
        exact ⟨l, hi.1.trans (body_infix _ _), hq⟩
      · split at h
        · rename_i q hq
          simp at h; subst h
          exact ⟨r, hi.2.trans (body_infix _ _), hq⟩
        · split at h <;> simp at h
  · simp at h

theorem unCase_error {rec : Text → Parsed F} {op t : Text} {mk : Expr F → Expr F}
    {p : Panic} (h : unCase rec op mk t = .error p) : ∃ s, s <:+: t ∧ rec s = .error p := by
  unfold unCase at h
  split at h
  · split at h
    · rename_i q hq
      simp at h; subst h
      exact ⟨_, body_infix _ _, hq⟩
    · simp at h
  · simp at h

/-- The parser panics only on texts that contain `(Var ")`. -/
theorem parseDepth_error {n : ℕ} {s : Text} {p : Panic} (h : parseDepth parse n s = .error p) :
    badVar <:+: s := by
  induction n generalizing s with
  | zero => simp [parseDepth] at h
  | succ n ih =>
    have key : ∀ u, u <:+: trim s → parseDepth parse n u = .error p → badVar <:+: s :=
      fun u hu he => (ih he).trans (hu.trans (trim_infix s))
    simp only [parseDepth] at h
    rcases orTry_error h with h | h
    · exact absurd h constCase_error
    rcases orTry_error h with h | h
    · rw [← varCase_error h]; exact trim_infix s
    iterate 10
      rcases orTry_error h with h | h
      · have h' : ∃ u, u <:+: trim s ∧ parseDepth parse n u = .error p := by
          first | exact binCase_error h | exact unCase_error h
        obtain ⟨u, hu, he⟩ := h'
        exact key u hu he
    cases h

end

theorem tenth_fixed {round : XReal → XReal} (h : RoundsToTenth round) (k : ℤ) :
    round (.fin ((k : ℝ) / 10)) = .fin ((k : ℝ) / 10) := by
  obtain ⟨j, hj, hd⟩ := h ((k : ℝ) / 10)
  have : j = k := by
    rw [abs_le] at hd
    have h1 : (j : ℝ) - k < 1 := by linarith [hd.2]
    have h2 : (-1 : ℝ) < (j : ℝ) - k := by linarith [hd.1]
    have h3 : j - k < 1 := by exact_mod_cast h1
    have h4 : -1 < j - k := by exact_mod_cast h2
    omega
  rw [hj, this]

end Verif.Egglog
