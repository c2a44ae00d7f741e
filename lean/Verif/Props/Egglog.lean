import Verif.Lemmas.EgglogExists
import Verif.Lemmas.EgglogWitness
import Verif.Lemmas.SymbolicVars

/-!
# C56, C57, C58: equality saturation

`EgglogOptimizer` prints the expression, lets egglog apply its rewrite rules, and reads the
answer.  `Faithful` (in `Verif/Spec/Egglog.lean`) is all that is assumed of egglog; a faithful engine
exists (`Verif/Lemmas/EgglogExists.lean`), and it is used below to show that the hypotheses can be met.
-/

namespace Verif.Egglog
open Verif Verif.Spec Verif.Spec.Egglog XReal

/-- Successive calls of `optimize` on one optimizer, and their results. -/
def optimizeAll {F S Err : Type} (fmt1 : F → Text) (parse : Text → Option F) (E : Engine S Err) :
    Optimizer S → List (Expr F) → List (Except (Failure Err) (Expr F))
  | _, [] => []
  | o, e :: es =>
    (optimize fmt1 parse E o e).2 :: optimizeAll fmt1 parse E (optimize fmt1 parse E o e).1 es

/-! ### The rules -/

/-- **C56 (partial).** Every rewrite rule other than `(x^a)^b → x^(a·b)` and `ln(x^n) → n·ln x`
preserves values: for any expressions and numbers in place of its variables and any assignment, if
the left side has a real value then the right side has the same value. -/
theorem C56_rules_partial (p : Pat × Pat) (hp : p ∈ rules) (h1 : p ≠ rulePowPow)
    (h2 : p ≠ ruleLnPow) (ρ : String → Option ℝ) (σ : String → Expr XReal) (κ : String → XReal)
    (v : ℝ) (h : value ρ (p.1.inst σ κ) = some v) : value ρ (p.2.inst σ κ) = some v := by
  rw [← ev_realPow] at h ⊢
  exact inst_sound hp (rules_sound realPow_laws p hp h1 h2) h

/-- the rule `ln a + ln b → ln (a·b)` at `a = x`, `b = 2`, `x = 3` -/
example : value (single "x" 3) (Expr.ln (.mul (.var "x") (.const (fin 2)))) =
    some (Real.log 3 + Real.log 2) := by
  refine C56_rules_partial (.add (.ln (h "a")) (.ln (h "b")), .ln (.mul (h "a") (h "b")))
    (by simp [rules, rulesAdvanced]) (by simp [rulePowPow]) (by simp [ruleLnPow]) (single "x" 3)
    (fun n => if n = "a" then .var "x" else .const (fin 2)) (fun _ => fin 0) _ ?_
  simp [Pat.inst, value, single]

/-- **C56 violated.** `(x^a)^b → x^(a·b)` turns `((-1)^2)^(1/2) = 1` into `(-1)^1 = -1`, and
`ln(x^n) → n·ln x` turns `ln((-1)^2) = 0` into an undefined expression. -/
theorem C56_rules_violated :
    (rulePowPow ∈ rules ∧ ∃ ρ σ κ, value ρ (rulePowPow.1.inst σ κ) = some 1 ∧
      value ρ (rulePowPow.2.inst σ κ) = some (-1)) ∧
    (ruleLnPow ∈ rules ∧ ∃ ρ σ κ, value ρ (ruleLnPow.1.inst σ κ) = some 0 ∧
      value ρ (ruleLnPow.2.inst σ κ) = none) := by
  have hz : ∃ n : ℤ, (2 : ℝ) = n := ⟨2, by simp⟩
  have hz1 : ∃ n : ℤ, (1 : ℝ) = n := ⟨1, by simp⟩
  have h1 : realPow (-1) 2 = some 1 := by
    have : ((-1 : ℝ)) ^ (2 : ℝ) = 1 := by rw [Real.rpow_two]; norm_num
    simp [realPow, hz, this]
  have h2 : realPow 1 (1 / 2) = some 1 := by simp [realPow]
  have h3 : realPow (-1) (2 * (1 / 2)) = some (-1) := by
    have : (2 : ℝ) * (1 / 2) = 1 := by norm_num
    rw [this]
    simp [realPow, hz1]
  refine ⟨⟨by simp [rules, rulesAssoc], fun _ => none,
      fun n => if n = "x" then .const (fin (-1)) else if n = "a" then .const (fin 2)
        else .const (fin (1 / 2)), fun _ => fin 0, ?_, ?_⟩,
    ⟨by simp [rules, rulesTrig], fun _ => none,
      fun n => if n = "x" then .const (fin (-1)) else .const (fin 2), fun _ => fin 0, ?_, ?_⟩⟩
  · simp only [rulePowPow, Pat.inst, value]
    simp only [if_true, show ("a" = "x") = False by simp, show ("b" = "x") = False by simp,
      show ("b" = "a") = False by simp, if_false, value, Option.bind_eq_bind, Option.bind_some,
      h1, h2]
  · simp only [rulePowPow, Pat.inst, value]
    simp only [if_true, show ("a" = "x") = False by simp, show ("b" = "x") = False by simp,
      show ("b" = "a") = False by simp, if_false, value, Option.bind_eq_bind, Option.bind_some,
      h3]
  · simp only [ruleLnPow, Pat.inst, value]
    simp only [if_true, show ("n" = "x") = False by simp, if_false, value, Option.bind_eq_bind,
      Option.bind_some, h1]
    simp
  · simp only [ruleLnPow, Pat.inst, value]
    simp only [if_true, show ("n" = "x") = False by simp, if_false, value, Option.bind_eq_bind,
      Option.bind_some]
    norm_num

/-! ### The optimizer -/

section
variable {S Err : Type} {parse : Text → Option XReal} {fmt1 : XReal → Text}
  {round : XReal → XReal} {E : Engine S Err} {graph : S → EGraph XReal}
  {names : S → ℕ → Option (Expr XReal)}

theorem optimizeAll_sound (hE : Faithful parse rules E graph names)
    (hf : PrintsRounded fmt1 parse round) (ρ : String → Option ℝ) (es : List (Expr XReal)) :
    ∀ (o : Optimizer S), Ready graph names o → (∀ s t, graph o.egraph s t → Agree ρ s t) →
    (∀ e ∈ es, GoodNames e ∧ mapConst round e = e ∧ (∃ v, value ρ e = some v) ∧ SafePowers ρ e) →
    List.Forall₂ (fun e r => ∃ e', r = .ok e' ∧ value ρ e' = value ρ e) es
      (optimizeAll fmt1 parse E o es) := by
  induction es with
  | nil => intro o _ _ _; exact .nil
  | cons e es ih =>
    intro o ho hg hes
    obtain ⟨hn, hr, ⟨v, hv⟩, hs⟩ := hes e (by simp)
    obtain ⟨o', u, r, h1, -, h3, h4, h5, h6⟩ := optimize_step hE hf ho hn
    rw [hr] at h4 h5
    have hg' : ∀ s t, graph o'.egraph s t → Agree ρ s t := by
      rw [h4]
      exact Agree.rounds 5 (Agree.insert hg (ev_safe hv hs))
    refine .cons ⟨r, by rw [h1], ?_⟩ ?_
    · rcases h6 with ⟨-, rfl⟩ | ⟨-, rfl⟩
      · obtain ⟨w, hw1, hw2⟩ := hg' _ _ h5.1
        rw [value_of_ev_safe hw2, ← value_of_ev_safe hw1]
      · rfl
    · rw [h1]
      exact ih o' h3 hg' fun x hx => hes x (by simp [hx])

/-- **C56/C58 (partial).** Let an optimizer be used for any sequence of expressions whose literals
survive the text form, with names without quotation marks, backslashes or parentheses.  At every
assignment at which all these expressions have a value, with positive base in every power (or base
zero and positive exponent), every call returns an expression with the same value as its input,
whatever the engine does within its contract. -/
theorem C56_optimize_partial (hE : Faithful parse rules E graph names)
    (hf : PrintsRounded fmt1 parse round) {s₀ : S} (hs : Fresh graph names s₀)
    (es : List (Expr XReal)) (ρ : String → Option ℝ)
    (hes : ∀ e ∈ es, GoodNames e ∧ (∀ c, Sub (.const c) e → round c = c) ∧
      (∃ v, value ρ e = some v) ∧ SafePowers ρ e) :
    List.Forall₂ (fun e r => ∃ e', r = .ok e' ∧ value ρ e' = value ρ e) es
      (optimizeAll fmt1 parse E ⟨s₀, 0⟩ es) := by
  refine optimizeAll_sound hE hf ρ es _ (fresh_ready hs) ?_ ?_
  · intro s t h
    rw [hs.1] at h
    exact h.elim
  · intro e he
    obtain ⟨h1, h2, h3, h4⟩ := hes e he
    exact ⟨h1, mapConst_id e h2, h3, h4⟩

/-- the hypotheses hold of the engine of `EgglogExists` for `ln x + ln x`, then `sqrt (x^2)`, at `x = 3` -/
example : ∀ e ∈ [Expr.add (.ln (.var "x")) (.ln (.var "x")),
      Expr.sqrt (.pow (.var "x") (.const (fin 2)))], GoodNames e ∧
    (∀ c, Sub (.const c) e → exRound c = c) ∧ (∃ v, value (single "x" 3) e = some v) ∧
    SafePowers (single "x" 3) e := by
  have hx : ∀ n, n = "x" → PlainName n ∧ NoParen n := by
    rintro n rfl
    constructor <;> intro c hc <;> simp at hc <;> subst hc <;> decide
  have h2 : exRound (fin 2) = fin 2 := by
    have := exRound_of_tenth 20
    norm_num at this
    exact this
  have h3 : realPow 3 2 = some 9 := by
    have : (3 : ℝ) ^ (2 : ℝ) = 9 := by rw [Real.rpow_two]; norm_num
    simp [realPow, this]
  intro e he
  simp only [List.mem_cons, List.not_mem_nil, or_false] at he
  rcases he with rfl | rfl
  · refine ⟨⟨fun n hn => (hx n ?_).1, fun n hn => (hx n ?_).2⟩, ?_, ?_, ?_⟩
    · simpa [Expr.collectVariables] using
        (Expr.mem_collectVariables _ n).2 hn
    · simpa [Expr.collectVariables] using
        (Expr.mem_collectVariables _ n).2 hn
    · intro c hc
      simp [sub_add, sub_ln, sub_var] at hc
    · simp [value, single]
    · intro b x h
      simp [sub_add, sub_ln, sub_var] at h
  · refine ⟨⟨fun n hn => (hx n ?_).1, fun n hn => (hx n ?_).2⟩, ?_, ?_, ?_⟩
    · simpa [Expr.collectVariables] using (Expr.mem_collectVariables _ n).2 hn
    · simpa [Expr.collectVariables] using (Expr.mem_collectVariables _ n).2 hn
    · intro c hc
      simp [sub_var, sub_sqrt, sub_pow, sub_const] at hc
      rw [hc, h2]
    · simp [value, single, h3]
    · intro b x h
      simp [sub_var, sub_sqrt, sub_pow, sub_const] at h
      obtain ⟨rfl, rfl⟩ := h
      exact ⟨3, 2, by simp [value, single], by simp [value], .inl (by norm_num)⟩


/-- `sqrt (x^2)` -/
def sqrtSquare : Expr XReal := .sqrt (.pow (.var "x") (.const (fin 2)))

/-- **C56 violated.** Every faithful engine turns `sqrt (x^2)` into `x`, which has the opposite
sign when `x` is negative. -/
theorem C56_sqrt_square_violated (hE : Faithful parse rules E graph names)
    (hf : PrintsRounded fmt1 parse round) (hr : RoundsToTenth round) {s₀ : S}
    (hs : Fresh graph names s₀) :
    optimizeWithEgglog fmt1 parse E s₀ sqrtSquare = .ok (.var "x") ∧
    ∀ y : ℝ, value (single "x" y) sqrtSquare = some |y| ∧
      value (single "x" y) (.var "x" : Expr XReal) = some y := by
  have hpow : ∀ y : ℝ, realPow y 2 = some (y ^ 2) := by
    intro y
    have hz : ∃ n : ℤ, (2 : ℝ) = n := ⟨2, by simp⟩
    unfold realPow
    split_ifs <;> simp_all
  have hval : ∀ y : ℝ, value (single "x" y) sqrtSquare = some |y| := by
    intro y
    simp [sqrtSquare, value, single, hpow, sq_nonneg, Real.sqrt_sq_eq_abs]
  refine ⟨?_, fun y => ⟨hval y, by simp [value, single]⟩⟩
  have h2 : round (fin 2) = fin 2 := by
    have := tenth_fixed hr 20
    norm_num at this
    exact this
  have hm : mapConst round sqrtSquare = sqrtSquare := by simp [sqrtSquare, mapConst, h2]
  have hx : ∀ n, Occurs n sqrtSquare → n = "x" := fun n hn => by
    simpa [sqrtSquare, Expr.collectVariables] using (Expr.mem_collectVariables _ n).2 hn
  have hn : GoodNames sqrtSquare := by
    constructor <;> intro n hn c hc <;> rw [hx n hn] at hc <;> simp at hc <;> subst hc <;> decide
  obtain ⟨o', u, r, h1, -, -, h4, h5, h6⟩ := optimize_step hE hf (fresh_ready hs) hn
  rw [hm] at h4 h5
  rw [hs.1] at h4
  -- values at positive arguments
  have hag : ∀ y : ℝ, 0 < y → ∀ s t, graph o'.egraph s t → Agree (single "x" y) s t := by
    intro y hy
    rw [h4]
    refine Agree.rounds 5 (Agree.insert (fun s t h => h.elim) (ev_safe (hval y) ?_))
    intro b x h
    simp [sqrtSquare, sub_var, sub_sqrt, sub_pow, sub_const] at h
    obtain ⟨rfl, rfl⟩ := h
    exact ⟨y, 2, by simp [value, single], by simp [value], .inl hy⟩
  -- five rounds suffice to reach the variable
  have hreach : graph o'.egraph sqrtSquare (.var "x") := by
    rw [h4]
    set G0 : EGraph XReal := EGraph.empty.insert sqrtSquare with hG0
    set X : Expr XReal := .var "x"
    set T : Expr XReal := .const (fin 2)
    set H : Expr XReal := .const (FloatOps.ofRat (1 / 2))
    have e0 : G0 sqrtSquare sqrtSquare := insert_self
    have e1 : G0.round rules sqrtSquare (.pow (.pow X T) H) :=
      round_rule (p := (.sqrt (h "x"), .pow (h "x") (k (1 / 2)))) (by simp [rules, rulesBasic])
        (fun _ => .pow X T) (fun _ => fin 0) rfl rfl e0
    have e2 : (G0.round rules).round rules (.pow (.pow X T) H) (.pow X (.mul T H)) :=
      round_rule (p := rulePowPow) (by simp [rules, rulesAssoc])
        (fun n => if n = "x" then X else if n = "a" then T else H) (fun _ => fin 0)
        (by simp [rulePowPow, Pat.inst]) (by simp [rulePowPow, Pat.inst]) (Close.right e1)
    have e3 : ((G0.round rules).round rules).round rules (.mul T H) (.const (fin 1)) :=
      round_rule (p := (.mul (cv "a") (cv "b"), .const (.mul (.var "a") (.var "b"))))
        (by simp [rules, rulesFold]) (fun _ => X)
        (fun n => if n = "a" then fin 2 else FloatOps.ofRat (1 / 2))
        (by simp [Pat.inst, Num.inst, T, H])
        (by simp [Pat.inst, Num.inst, f_ofRat, f_mul])
        (.child (Close.right e2) (by simp [children]))
    have e3' : ((G0.round rules).round rules).round rules (.pow X (.mul T H))
        (.pow X (.const (fin 1))) :=
      .pow (round_mono (Close.right e2))
        (.child (round_mono (Close.right e2)) (by simp [children])) e3
    have e4 : (((G0.round rules).round rules).round rules).round rules
        (.pow X (.const (fin 1))) X :=
      round_rule (p := (.pow (h "x") (k 1), h "x")) (by simp [rules, rulesArith])
        (fun _ => X) (fun _ => fin 0) (by simp [Pat.inst, Num.inst, f_ofRat]) (by simp [Pat.inst])
        (Close.right e3')
    have e : G0.rounds rules 4 sqrtSquare X :=
      (round_mono (round_mono (round_mono e1))).trans <|
        (EGraph.Close.trans (round_mono (round_mono e2))) <|
          (EGraph.Close.trans (round_mono e3')) e4
    rw [show 5 = 4 + 1 from rfl, rounds_add]
    exact rounds_mono 1 e
  have hu : u = .var "x" := by
    rcases cost_le_two (h5.2 _ hreach) with ⟨c, rfl⟩ | ⟨n, rfl⟩
    · exfalso
      obtain ⟨v, hv1, hv2⟩ := hag 1 one_pos _ _ (h5.1)
      obtain ⟨w, hw1, hw2⟩ := hag 2 two_pos _ _ (h5.1)
      have := value_of_ev_safe hv1
      rw [hval, Option.some_inj] at this
      have h' := value_of_ev_safe hw1
      rw [hval, Option.some_inj] at h'
      cases c <;> simp [ev] at hv2 hw2
      norm_num at this h'
      linarith
    · have hgn : GraphNames (· = "x") (graph o'.egraph) := by
        rw [h4]
        refine GraphNames.rounds 5 (GraphNames.insert (fun s t h => h.elim) hx)
      rw [(hgn _ _ h5.1).2 n .var]
  subst hu
  rcases h6 with ⟨-, rfl⟩ | ⟨h, -⟩
  · simp [optimizeWithEgglog, h1]
  · exact absurd (sqrtFree_var "x") h

/-- the engine of `EgglogExists` does so -/
example : optimizeWithEgglog exFmt exParse exEngine exStart sqrtSquare = .ok (.var "x") :=
  (C56_sqrt_square_violated exEngine_faithful exFmt_prints exRound_tenth exStart_fresh).1

/-- `0 / 0` -/
def zeroOverZero : Expr XReal := .div (.const (fin 0)) (.const (fin 0))

/-- `x + 1` -/
def xPlusOne : Expr XReal := .add (.var "x") (.const (fin 1))

/-- **C56 violated (history).** The optimizer keeps what it was given: after `0 / 0`, for which the
rules give both `0` and `1`, every faithful engine makes `optimize(x + 1)` return an expression that
is wrong for some `x`; a new optimizer returns a right one. -/
theorem C56_reuse_violated (hE : Faithful parse rules E graph names)
    (hf : PrintsRounded fmt1 parse round) (hr : RoundsToTenth round) {s₀ : S}
    (hs : Fresh graph names s₀) :
    (∃ a r, optimizeAll fmt1 parse E ⟨s₀, 0⟩ [zeroOverZero, xPlusOne] = [.ok a, .ok r] ∧
      ∃ y : ℝ, value (single "x" y) r ≠ value (single "x" y) xPlusOne) ∧
    (∃ r, optimizeAll fmt1 parse E ⟨s₀, 0⟩ [xPlusOne] = [.ok r] ∧
      ∀ y : ℝ, value (single "x" y) r = value (single "x" y) xPlusOne) := by
  have h0 : round (fin 0) = fin 0 := by simpa using tenth_fixed hr 0
  have h1 : round (fin 1) = fin 1 := by
    have := tenth_fixed hr 10
    norm_num at this
    exact this
  have hz : mapConst round zeroOverZero = zeroOverZero := by simp [zeroOverZero, mapConst, h0]
  have hx1 : mapConst round xPlusOne = xPlusOne := by simp [xPlusOne, mapConst, h1]
  have hnz : ∀ n, ¬ Occurs n zeroOverZero := fun n hn => by
    simpa [zeroOverZero, Expr.collectVariables] using (Expr.mem_collectVariables _ n).2 hn
  have hnx : ∀ n, Occurs n xPlusOne → n = "x" := fun n hn => by
    simpa [xPlusOne, Expr.collectVariables] using (Expr.mem_collectVariables _ n).2 hn
  have gz : GoodNames zeroOverZero :=
    ⟨fun n hn => absurd hn (hnz n), fun n hn => absurd hn (hnz n)⟩
  have gx : GoodNames xPlusOne := by
    constructor <;> intro n hn c hc <;> rw [hnx n hn] at hc <;> simp at hc <;> subst hc <;> decide
  have hval : ∀ y : ℝ, value (single "x" y) xPlusOne = some (y + 1) := by
    intro y; simp [xPlusOne, value, single]
  have hsafe : ∀ y : ℝ, SafePowers (single "x" y) xPlusOne := by
    intro y b x h
    simp [xPlusOne, sub_var, sub_add, sub_const] at h
  constructor
  · obtain ⟨o₁, u₁, r₁, a1, -, a3, a4, -, -⟩ := optimize_step hE hf (fresh_ready hs) gz
    obtain ⟨o₂, u, r, b1, -, -, b4, b5, b6⟩ := optimize_step hE hf a3 gx
    rw [hz, hs.1] at a4
    rw [hx1] at b4 b5
    refine ⟨r₁, r, by simp [optimizeAll, a1, b1], ?_⟩
    -- 0 and 1 are merged
    have hmerge : graph o₁.egraph (.const (fin 1)) (.const (fin 0)) := by
      rw [a4, show 5 = 1 + 4 from rfl, rounds_add]
      refine rounds_mono 4 ?_
      have e0 : (EGraph.empty.insert zeroOverZero) zeroOverZero zeroOverZero := insert_self
      have e1 : (EGraph.empty.insert zeroOverZero).round rules zeroOverZero (.const (fin 0)) :=
        round_rule (p := (.div (k 0) (h "x"), k 0)) (by simp [rules, rulesArith])
          (fun _ => .const (fin 0)) (fun _ => fin 0)
          (by simp [zeroOverZero, Pat.inst, Num.inst, f_ofRat])
          (by simp [Pat.inst, Num.inst, f_ofRat]) e0
      have e2 : (EGraph.empty.insert zeroOverZero).round rules zeroOverZero (.const (fin 1)) :=
        round_rule (p := (.div (h "x") (h "x"), k 1)) (by simp [rules, rulesFold])
          (fun _ => .const (fin 0)) (fun _ => fin 0)
          (by simp [zeroOverZero, Pat.inst]) (by simp [Pat.inst, Num.inst, f_ofRat]) e0
      exact e2.symm.trans e1
    have hreach : graph o₂.egraph xPlusOne (.var "x") := by
      rw [b4, show 5 = 1 + 4 from rfl, rounds_add]
      refine rounds_mono 4 ?_
      have e0 : ((graph o₁.egraph).insert xPlusOne) xPlusOne xPlusOne := insert_self
      have e1 : ((graph o₁.egraph).insert xPlusOne) xPlusOne (.add (.var "x") (.const (fin 0))) :=
        .add e0 (.child e0 (by simp [xPlusOne, children])) (insert_mono hmerge)
      have e2 : ((graph o₁.egraph).insert xPlusOne).round rules
          (.add (.var "x") (.const (fin 0))) (.var "x") :=
        round_rule (p := (.add (h "x") (k 0), h "x")) (by simp [rules, rulesArith])
          (fun _ => .var "x") (fun _ => fin 0) (by simp [Pat.inst, Num.inst, f_ofRat])
          (by simp [Pat.inst]) (Close.right e1)
      exact (round_mono e1).trans e2
    have hgn : GraphNames (· = "x") (graph o₂.egraph) := by
      rw [b4]
      refine GraphNames.rounds 5 (GraphNames.insert ?_ hnx)
      rw [a4]
      exact GraphNames.rounds 5 (GraphNames.insert (fun s t h => h.elim)
        fun n hn => absurd hn (hnz n))
    rcases cost_le_two (b5.2 _ hreach) with ⟨c, rfl⟩ | ⟨n, rfl⟩
    · rcases b6 with ⟨-, rfl⟩ | ⟨h, -⟩
      · by_contra hcon
        push Not at hcon
        have c0 := hcon 0
        have c1 := hcon 1
        rw [hval] at c0 c1
        cases c <;> simp [value] at c0 c1
        linarith
      · exact absurd (sqrtFree_const _) h
    · rcases b6 with ⟨-, rfl⟩ | ⟨h, -⟩
      · have := (hgn _ _ b5.1).2 n .var
        subst this
        refine ⟨0, ?_⟩
        rw [hval]
        simp [value, single]
      · exact absurd (sqrtFree_var _) h
  · have key : ∀ y : ℝ, List.Forall₂ (fun e r => ∃ e', r = .ok e' ∧
        value (single "x" y) e' = value (single "x" y) e) [xPlusOne]
        (optimizeAll fmt1 parse E ⟨s₀, 0⟩ [xPlusOne]) := by
      intro y
      refine C56_optimize_partial hE hf hs _ _ ?_
      intro e he
      rw [List.mem_singleton] at he
      subst he
      refine ⟨gx, ?_, ⟨_, hval y⟩, hsafe y⟩
      intro c hc
      simp [xPlusOne, sub_var, sub_add, sub_const] at hc
      rw [hc, h1]
    have k0 := key 0
    simp only [optimizeAll, List.forall₂_cons, List.forall₂_nil_right_iff, and_true] at k0
    obtain ⟨r, hr', -⟩ := k0
    refine ⟨r, by simp [optimizeAll, hr'], fun y => ?_⟩
    have ky := key y
    simp only [optimizeAll, List.forall₂_cons, List.forall₂_nil_right_iff, and_true] at ky
    obtain ⟨r', hr'', h⟩ := ky
    rw [hr'] at hr''
    cases hr''
    exact h

example : ∃ a r, optimizeAll exFmt exParse exEngine ⟨exStart, 0⟩ [zeroOverZero, xPlusOne] =
    [.ok a, .ok r] ∧ ∃ y : ℝ, value (single "x" y) r ≠ value (single "x" y) xPlusOne :=
  (C56_reuse_violated exEngine_faithful exFmt_prints exRound_tenth exStart_fresh).1

/-! ### The text round trip -/

/-- **C57 (partial).** Printing an expression without square roots, whose names contain no quotation
mark, backslash or parenthesis, and parsing the text gives the expression back, with every literal
rounded to one decimal; so it gives the expression itself when its literals have one decimal. -/
theorem C57_roundtrip_partial (hf : PrintsRounded fmt1 parse round) (e : Expr XReal)
    (hn : GoodNames e) (hq : SqrtFree (mapConst round e)) :
    parseExpr parse (toEgglog fmt1 e) = .ok (some (mapConst round e)) ∧
    ((∀ c, Sub (.const c) e → round c = c) →
      parseExpr parse (toEgglog fmt1 e) = .ok (some e)) := by
  have h := (parseExpr_reads (print_reads hf e hn.1)
    fun n hn' => hn.2 n (occurs_mapConst.1 hn')).1 hq
  exact ⟨h, fun hc => by rw [h, mapConst_id e hc]⟩

/-- `ln (x + 2.5)` survives -/
example : parseExpr exParse (toEgglog exFmt (.ln (.add (.var "x") (.const (fin (5 / 2)))))) =
    .ok (some (.ln (.add (.var "x") (.const (fin (5 / 2)))))) := by
  have h2 : exRound (fin (5 / 2)) = fin (5 / 2) := by
    have := exRound_of_tenth 25
    norm_num at this ⊢
    exact this
  refine (C57_roundtrip_partial exFmt_prints _ ?_ ?_).2 ?_
  · constructor <;> intro n hn c hc <;>
      rw [show n = "x" by
        simpa [Expr.collectVariables] using (Expr.mem_collectVariables _ n).2 hn] at hc <;>
      simp at hc <;> subst hc <;> decide
  · intro a ha
    simp [mapConst, sub_add, sub_ln, sub_var, sub_const] at ha
  · intro c hc
    simp [sub_add, sub_ln, sub_var, sub_const] at hc
    rw [hc, h2]

/-- **C57 violated.** The parser does not know square roots: no expression with a square root in it
survives, whatever its names (without quotation marks, backslashes, parentheses) and literals. -/
theorem C57_sqrt_violated (hf : PrintsRounded fmt1 parse round) (e : Expr XReal)
    (hn : GoodNames e) (a : Expr XReal) (ha : Sub (.sqrt a) (mapConst round e)) :
    parseExpr parse (toEgglog fmt1 e) = .ok none :=
  (parseExpr_reads (print_reads hf e hn.1)
    fun n hn' => hn.2 n (occurs_mapConst.1 hn')).2 fun h => h a ha

example : parseExpr exParse (toEgglog exFmt (.sqrt (.const (fin 2)))) = .ok none := by
  refine C57_sqrt_violated exFmt_prints _ ?_ (.const (exRound (fin 2))) .refl
  constructor <;> intro n hn <;> cases hn <;> contradiction

/-- **C57 (exactly the literals that survive).** A number survives the text form if and only if it
is a whole number of tenths. -/
theorem C57_constants (hf : PrintsRounded fmt1 parse round) (hr : RoundsToTenth round) (x : ℝ) :
    parseExpr parse (toEgglog fmt1 (.const (fin x))) = .ok (some (.const (fin x))) ↔
      ∃ k : ℤ, x = k / 10 := by
  have hn : GoodNames (.const (fin x) : Expr XReal) := by
    constructor <;> intro n hn <;> cases hn
  have h := (C57_roundtrip_partial hf _ hn (sqrtFree_const _)).1
  rw [h]
  simp only [mapConst, Except.ok.injEq, Option.some.injEq, Expr.const.injEq]
  constructor
  · intro he
    obtain ⟨k, hk, -⟩ := hr x
    rw [he] at hk
    exact ⟨k, by injection hk⟩
  · rintro ⟨k, rfl⟩
    exact tenth_fixed hr k

/-- **C57 violated.** Every faithful engine replaces a literal by its rounding: `optimize` of the
constant `0.25` returns `0.2` or `0.3`, and of `0.01` returns `0`. -/
theorem C57_constant_violated (hE : Faithful parse rules E graph names)
    (hf : PrintsRounded fmt1 parse round) (hr : RoundsToTenth round) {s₀ : S}
    (hs : Fresh graph names s₀) :
    (∀ c, optimizeWithEgglog fmt1 parse E s₀ (.const c) = .ok (.const (round c))) ∧
    (optimizeWithEgglog fmt1 parse E s₀ (.const (fin 0.25)) = .ok (.const (fin 0.2)) ∨
      optimizeWithEgglog fmt1 parse E s₀ (.const (fin 0.25)) = .ok (.const (fin 0.3))) ∧
    optimizeWithEgglog fmt1 parse E s₀ (.const (fin 0.01)) = .ok (.const (fin 0)) := by
  have key : ∀ c, optimizeWithEgglog fmt1 parse E s₀ (.const c) = .ok (.const (round c)) := by
    intro c
    have hn : GoodNames (.const c : Expr XReal) := by
      constructor <;> intro n hn <;> cases hn
    obtain ⟨o', u, r, h1, -, -, h4, h5, h6⟩ := optimize_step hE hf (fresh_ready hs) hn
    have hu : u = .const (round c) := by
      have hg := h5.1
      rw [h4, hs.1] at hg
      exact ((const_alone (round c) 5) _ _ hg).1.symm
    subst hu
    rcases h6 with ⟨-, rfl⟩ | ⟨h, -⟩
    · simp [optimizeWithEgglog, h1]
    · exact absurd (sqrtFree_const _) h
  refine ⟨key, ?_, ?_⟩
  · obtain ⟨k, hk, hd⟩ := hr 0.25
    rw [key, hk]
    rw [abs_le] at hd
    have k1 : (1 : ℝ) < k := by norm_num at hd ⊢; linarith [hd.1]
    have k2 : (k : ℝ) < 4 := by norm_num at hd ⊢; linarith [hd.2]
    have k1' : 1 < k := by exact_mod_cast k1
    have k2' : k < 4 := by exact_mod_cast k2
    obtain rfl | rfl : k = 2 ∨ k = 3 := by omega
    · left; norm_num
    · right; norm_num
  · obtain ⟨k, hk, hd⟩ := hr 0.01
    rw [key, hk]
    rw [abs_le] at hd
    have k1 : (-1 : ℝ) < k := by norm_num at hd ⊢; linarith [hd.1]
    have k2 : (k : ℝ) < 1 := by norm_num at hd ⊢; linarith [hd.2]
    have k1' : -1 < k := by exact_mod_cast k1
    have k2' : k < 1 := by exact_mod_cast k2
    obtain rfl : k = 0 := by omega
    simp

example : optimizeWithEgglog exFmt exParse exEngine exStart (.const (fin 0.01)) =
    .ok (.const (fin 0)) :=
  (C57_constant_violated exEngine_faithful exFmt_prints exRound_tenth exStart_fresh).2.2

/-! ### Totality -/

/-- **C58 (partial).** With a faithful engine every call in every session returns an expression,
for expressions whose names contain no quotation mark, backslash or parenthesis (whether or not
they have values). -/
theorem C58_total_partial (hE : Faithful parse rules E graph names)
    (hf : PrintsRounded fmt1 parse round) {s₀ : S} (hs : Fresh graph names s₀)
    (es : List (Expr XReal)) (hn : ∀ e ∈ es, GoodNames e) :
    List.Forall₂ (fun _ r => ∃ e', r = .ok e') es (optimizeAll fmt1 parse E ⟨s₀, 0⟩ es) := by
  have key : ∀ (es : List (Expr XReal)) (o : Optimizer S), Ready graph names o →
      (∀ e ∈ es, GoodNames e) →
      List.Forall₂ (fun _ r => ∃ e', r = .ok e') es (optimizeAll fmt1 parse E o es) := by
    intro es
    induction es with
    | nil => intro o _ _; exact .nil
    | cons e es ih =>
      intro o ho hn
      obtain ⟨o', u, r, h1, -, h3, -, -, -⟩ := optimize_step hE hf ho (hn e (by simp))
      refine .cons ⟨r, by rw [h1]⟩ ?_
      rw [h1]
      exact ih o' h3 fun x hx => hn x (by simp [hx])
  exact key es _ (fresh_ready hs) hn

example : List.Forall₂ (fun _ r => ∃ e', r = .ok e') [zeroOverZero, zeroOverZero]
    (optimizeAll exFmt exParse exEngine ⟨exStart, 0⟩ [zeroOverZero, zeroOverZero]) := by
  refine C58_total_partial exEngine_faithful exFmt_prints exStart_fresh _ ?_
  intro e he
  obtain rfl : e = zeroOverZero := by simpa using he
  have hnz : ∀ n, ¬ Occurs n zeroOverZero := fun n hn => by
    simpa [zeroOverZero, Expr.collectVariables] using (Expr.mem_collectVariables _ n).2 hn
  exact ⟨fun n hn => absurd hn (hnz n), fun n hn => absurd hn (hnz n)⟩

end

/-- **C58 (any engine).** For an engine that does anything at all, and any arithmetic: a call fails
with the engine's error, or returns an expression; it panics only if the extracted text contains
`(Var ")`.  The expression is the parse of the extracted text, or the input if there is no text or
it cannot be parsed. -/
theorem C58_fallback {F S Err : Type} (fmt1 : F → Text) (parse : Text → Option F)
    (E : Engine S Err) (o : Optimizer S) (e : Expr F) :
    (∃ s c s' err, E.run s c = (s', .error err) ∧
      (optimize fmt1 parse E o e).2 = .error (.engine err)) ∨
    (∃ s s' out, E.run s (.extract o.counter) = (s', .ok out) ∧
      ((out = [] ∧ (optimize fmt1 parse E o e).2 = .ok e) ∨
       (∃ text rest, out = text :: rest ∧
         ((∃ r, parseExpr parse text = .ok (some r) ∧ (optimize fmt1 parse E o e).2 = .ok r) ∨
          (parseExpr parse text = .ok none ∧ (optimize fmt1 parse E o e).2 = .ok e) ∨
          (['(', 'V', 'a', 'r', ' ', '"', ')'] <:+: text ∧
            ∃ p, (optimize fmt1 parse E o e).2 = .error (.panic p)))))) := by
  unfold optimize
  rcases h1 : E.run o.egraph (.letExpr o.counter (toEgglog fmt1 e)) with ⟨s₁, err | out₁⟩
  · exact .inl ⟨_, _, _, _, h1, by simp [h1]⟩
  rcases h2 : E.run s₁ (.run 5) with ⟨s₂, err | out₂⟩
  · exact .inl ⟨_, _, _, _, h2, by simp [h1, h2]⟩
  rcases h3 : E.run s₂ (.extract o.counter) with ⟨s₃, err | out⟩
  · exact .inl ⟨_, _, _, _, h3, by simp [h1, h2, h3]⟩
  refine .inr ⟨_, _, _, h3, ?_⟩
  simp only [h1, h2, h3]
  cases out with
  | nil => exact .inl ⟨rfl, rfl⟩
  | cons text rest =>
    refine .inr ⟨text, rest, rfl, ?_⟩
    rcases hp : parseExpr parse text with p | ⟨_ | r⟩
    · exact .inr (.inr ⟨parseDepth_error hp, p, by simp [hp]⟩)
    · exact .inr (.inl ⟨rfl, by simp [hp]⟩)
    · exact .inl ⟨r, rfl, by simp [hp]⟩

/-- an engine that answers every command with one unreadable line -/
example (e : Expr XReal) : optimizeWithEgglog exFmt exParse
    (⟨fun s _ => (s, .ok [['?']])⟩ : Engine Unit Unit) () e = .ok e := by
  have hp : parseExpr exParse ['?'] = .ok none := rfl
  simp [optimizeWithEgglog, optimize, hp]

/-- a name that contains a closing parenthesis followed by a space -/
def badName : String := String.ofList [')', ' ', 'x']

/-- **C58 violated.** Every faithful engine makes the optimizer panic on a power whose base is a
variable named `) x`: the parser, which counts parentheses inside names, cuts out `(Var ")` and
slices it at `6..5`. -/
theorem C58_panics_violated {F S Err : Type} [FloatOps F] {parse : Text → Option F}
    {fmt1 : F → Text} {E : Engine S Err} {graph : S → EGraph F}
    {names : S → ℕ → Option (Expr F)} (hE : Faithful parse rules E graph names) {s₀ : S}
    (hs : Fresh graph names s₀) :
    ∃ p, optimizeWithEgglog fmt1 parse E s₀ (.pow (.var badName) (.var "y")) =
      .error (.panic p) := by
  have hy : ("y" : String).toList = ['y'] := by simp
  have hb : badName.toList = [')', ' ', 'x'] := by simp [badName]
  set e : Expr F := .pow (.var badName) (.var "y") with he
  have hpb : PlainName badName := by
    intro c hc; rw [hb] at hc; simp at hc; rcases hc with rfl | rfl | rfl <;> decide
  have hpy : PlainName "y" := by
    intro c hc; rw [hy] at hc; simp at hc; subst hc; decide
  have ht : Reads parse (toEgglog fmt1 e) e := by
    simpa [toEgglog, un, bin, he] using
      Reads.pow (Reads.var (parse := parse) hpb) (Reads.var (parse := parse) hpy)
  obtain ⟨s₁, out₁, h1, g1, n1⟩ := hE.letExpr s₀ 0 _ _ ht (hs.2 0)
  obtain ⟨s₂, out₂, h2, g2, n2⟩ := hE.run s₁ 5
  have hid : names s₂ 0 = some e := by rw [n2, n1]; simp
  have hg2 : graph s₂ = (EGraph.empty.insert e).rounds rules 5 := by rw [g2, g1, hs.1]
  have htt : graph s₂ e e := by rw [hg2]; exact rounds_mono 5 insert_self
  obtain ⟨s₃, text, u, rest, h3, hu, hc, -, -⟩ := hE.extract s₂ 0 _ hid htt
  have hue : u = e := by
    have := hc.1
    rw [hg2] at this
    exact (pow_alone badName "y" 5 _ _ this).1.symm
  subst hue
  have htext : text = ['(', 'P', 'o', 'w', ' '] ++
      (['(', 'V', 'a', 'r', ' ', '"'] ++ [')', ' ', 'x'] ++ ['"', ')']) ++ [' '] ++
      (['(', 'V', 'a', 'r', ' ', '"'] ++ ['y'] ++ ['"', ')']) ++ [')'] := by
    rw [he] at hu
    cases hu with
    | pow ha hb' =>
      cases ha; cases hb'
      rw [hb, hy]
  subst htext
  refine ⟨⟨"begin <= end"⟩, ?_⟩
  simp only [optimizeWithEgglog, optimize, h1, h2, h3]
  rfl

example : ∃ p, optimizeWithEgglog exFmt exParse exEngine exStart
    (.pow (.var badName) (.var "y")) = .error (.panic p) :=
  C58_panics_violated exEngine_faithful exStart_fresh

end Verif.Egglog
