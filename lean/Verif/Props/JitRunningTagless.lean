import Verif.Props.JitRunning
import Verif.Props.Tagless

/-!
# C119: propagation of errors through final-tagless programs
-/

namespace Verif
open Format FloatOps Expr Spec Spec.Jit Spec.Ieee Jit

section direct
variable {f : Format} {L : Libm}

/-- Direct evaluation of a recorded computation, and interpretation of the same tree. -/
theorem graphValue_near (hf : f.Std) (hL : L.AllAccurate f) {σ : String → Flt f L} {ρ : String → ℝ}
    (g : JitRepr (Flt f L))
    (hv : ∀ n, Occurs n (graphTree g) → ∃ q : ℚ, σ n = Flt.fin q ∧ f.Representable q ∧ (q : ℝ) = ρ n)
    (hw : WellConditioned ρ (graphTree g)) :
    ∃ r : ℚ, graphValue σ g = Flt.fin r ∧
      Approx f (errorBound ρ (graphTree g)) r (realValue ρ (graphTree g)) := by
  induction g with
  | constant c =>
    obtain ⟨q, rfl, hq⟩ := hw
    exact ⟨q, rfl, hq, by simp [graphTree, realValue, errorBound, realOf]⟩
  | named n =>
    obtain ⟨q, hn, hq, hρ⟩ := hv n .var
    exact ⟨q, hn, hq, by simp [graphTree, realValue, errorBound, hρ]⟩
  | add l r ihl ihr =>
    obtain ⟨h1, h2, h3⟩ := hw
    obtain ⟨a, ea, ha⟩ := ihl (fun n h => hv n (.addL h)) h1
    obtain ⟨b, eb, hb⟩ := ihr (fun n h => hv n (.addR h)) h2
    obtain ⟨c, ec, hc⟩ := step_add hf ha hb h3
    refine ⟨c, ?_, hc⟩
    rw [graphValue, ea, eb]; exact ec
  | sub l r ihl ihr =>
    obtain ⟨h1, h2, h3⟩ := hw
    obtain ⟨a, ea, ha⟩ := ihl (fun n h => hv n (.subL h)) h1
    obtain ⟨b, eb, hb⟩ := ihr (fun n h => hv n (.subR h)) h2
    obtain ⟨c, ec, hc⟩ := step_sub hf ha hb h3
    refine ⟨c, ?_, hc⟩
    rw [graphValue, ea, eb]; exact ec
  | mul l r ihl ihr =>
    obtain ⟨h1, h2, h3⟩ := hw
    obtain ⟨a, ea, ha⟩ := ihl (fun n h => hv n (.mulL h)) h1
    obtain ⟨b, eb, hb⟩ := ihr (fun n h => hv n (.mulR h)) h2
    obtain ⟨c, ec, hc⟩ := step_mul hf ha hb h3
    refine ⟨c, ?_, hc⟩
    rw [graphValue, ea, eb]; exact ec
  | div l r ihl ihr =>
    obtain ⟨h1, h2, h3, h4⟩ := hw
    obtain ⟨a, ea, ha⟩ := ihl (fun n h => hv n (.divL h)) h1
    obtain ⟨b, eb, hb⟩ := ihr (fun n h => hv n (.divR h)) h2
    obtain ⟨-, c, ec, hc⟩ := step_div hf ha hb h3 h4
    refine ⟨c, ?_, hc⟩
    rw [graphValue, ea, eb]; exact ec
  | pow l r ihl ihr =>
    obtain ⟨h1, h2, h3⟩ := hw
    obtain ⟨a, ea, ha⟩ := ihl (fun n h => hv n (.powL h)) h1
    obtain ⟨b, eb, hb⟩ := ihr (fun n h => hv n (.powR h)) h2
    suffices h : ∃ c, L.powf (.fin a) (.fin b) = .fin c ∧
        Approx f (errorBound ρ (graphTree (.pow l r))) c (realValue ρ (graphTree (.pow l r))) by
      obtain ⟨c, ec, hc⟩ := h
      refine ⟨c, ?_, hc⟩
      rw [graphValue, ea, eb]; exact ec
    rw [graphTree, errorBound]
    cases hn : literalExponent (graphTree r) with
    | some n =>
      rw [hn] at h3
      have hr := literalExponent_eq hn
      have hr' : r = .constant (Flt.fin (n : ℚ)) := by
        cases r <;> simp only [graphTree, reduceCtorEq] at hr
        cases hr; rfl
      subst hr'
      have e1 : Flt.fin (f := f) (L := L) (n : ℚ) = Flt.fin b := eb
      obtain rfl := FVal.fin.inj e1
      obtain ⟨c, ec, hc⟩ := step_pow_nat hL ha n hb.rep h3
      refine ⟨c, ec, ?_⟩
      have : realValue ρ (pow (graphTree l) (graphTree (.constant (Flt.fin (n : ℚ)))) : Expr (Flt f L)) =
          realValue ρ (graphTree l) ^ n := by
        simp [graphTree, realValue, realOf]
      rw [this]; exact hc
    | none =>
      rw [hn] at h3
      exact step_pow hL ha hb h3.1 h3.2.1 h3.2.2
  | ln e ih =>
    obtain ⟨h1, h2, h3⟩ := hw
    obtain ⟨a, ea, ha⟩ := ih (fun n h => hv n (.ln h)) h1
    obtain ⟨-, c, ec, hc⟩ := step_ln hL ha h2 h3
    refine ⟨c, ?_, hc⟩
    rw [graphValue, ea]; exact ec
  | exp e ih =>
    obtain ⟨h1, h2⟩ := hw
    obtain ⟨a, ea, ha⟩ := ih (fun n h => hv n (.exp h)) h1
    obtain ⟨c, ec, hc⟩ := step_exp hL ha h2
    refine ⟨c, ?_, hc⟩
    rw [graphValue, ea]; exact ec
  | sqrt e ih =>
    obtain ⟨h1, h2⟩ := hw
    obtain ⟨a, ea, ha⟩ := ih (fun n h => hv n (.sqrt h)) h1
    obtain ⟨-, c, ec, hc⟩ := step_sqrt hL.sqrt ha h2
    refine ⟨c, ?_, hc⟩
    rw [graphValue, ea]; exact ec
  | sin e ih =>
    obtain ⟨a, ea, ha⟩ := ih (fun n h => hv n (.sin h)) hw
    obtain ⟨c, ec, hc⟩ := step_sin hL ha
    refine ⟨c, ?_, hc⟩
    rw [graphValue, ea]; exact ec
  | cos e ih =>
    obtain ⟨a, ea, ha⟩ := ih (fun n h => hv n (.cos h)) hw
    obtain ⟨c, ec, hc⟩ := step_cos hL ha
    refine ⟨c, ?_, hc⟩
    rw [graphValue, ea]; exact ec
  | neg e ih =>
    obtain ⟨a, ea, ha⟩ := ih (fun n h => hv n (.neg h)) hw
    refine ⟨-a, ?_, ha.neg⟩
    rw [graphValue, ea]; rfl

/-- **C119.** Running a final-tagless program with the direct evaluator, on numbers of the format, gives
a number whose distance from the exact value of the program's formula is at most what the rules of error
propagation allow. -/
theorem C119_direct (hf : f.Std) (hL : L.AllAccurate f) (p : Program (Flt f L)) (hp : Parametric p)
    {σ : String → Flt f L} {ρ : String → ℝ} {e : Expr (Flt f L)}
    (he : e = graphTree (p (JitRepr (Flt f L)) jitEval .named))
    (hv : ∀ n, Occurs n e → ∃ q : ℚ, σ n = Flt.fin q ∧ f.Representable q ∧ (q : ℝ) = ρ n)
    (hw : WellConditioned ρ e) :
    ∃ r : ℚ, p (Flt f L) directEval σ = Flt.fin r ∧ f.Representable r ∧
      |(r : ℝ) - realValue ρ e| ≤ errorBound ρ e := by
  subst he
  obtain ⟨r, h1, h2⟩ := graphValue_near hf hL _ hv hw
  exact ⟨r, by rw [C65_interpreters_agree p hp, h1], h2.rep, h2.err⟩

end direct

variable {L : Libm} [B : FloatBits (Flt f64 L)]

omit B in
theorem reprPowSpecial_eq (r : JitRepr (Flt f64 L)) : reprPowSpecial r = exprPowSpecial (graphTree r) := by
  cases r <;> rfl

theorem reprValue_eq (σ : String → Option (Flt f64 L)) (g : JitRepr (Flt f64 L)) :
    reprValue σ g = Spec.Jit.value σ (graphTree g) := by
  induction g with
  | constant c => rfl
  | named n => rfl
  | pow l r ihl ihr =>
    rw [graphTree, reprValue, Spec.Jit.value, ihl, ihr, reprPowSpecial_eq]
  | add l r ihl ihr => rw [graphTree, reprValue, Spec.Jit.value, ihl, ihr]
  | sub l r ihl ihr => rw [graphTree, reprValue, Spec.Jit.value, ihl, ihr]
  | mul l r ihl ihr => rw [graphTree, reprValue, Spec.Jit.value, ihl, ihr]
  | div l r ihl ihr => rw [graphTree, reprValue, Spec.Jit.value, ihl, ihr]
  | neg e ih => rw [graphTree, reprValue, Spec.Jit.value, ih]
  | ln e ih => rw [graphTree, reprValue, Spec.Jit.value, ih]
  | exp e ih => rw [graphTree, reprValue, Spec.Jit.value, ih]
  | sqrt e ih => rw [graphTree, reprValue, Spec.Jit.value, ih]
  | sin e ih => rw [graphTree, reprValue, Spec.Jit.value, ih]
  | cos e ih => rw [graphTree, reprValue, Spec.Jit.value, ih]

/-- **C119.** Compiling what the program records and calling the result: the same with the bound for
compiled code. -/
theorem C119_compiled (hB : FaithfulDouble B) (hS : L.SqrtAccurate f64) {ρ : String → ℝ}
    {g : JitRepr (Flt f64 L)} {ds ps : List String} {cs : List (String × Flt f64 L)}
    {f : Compiled (Flt f64 L)} (hf : compileFinalTagless g ds ps cs = .ok f) {args : List (Flt f64 L)}
    (hlen : args.length = ds.length + ps.length)
    (hv : ∀ n, Occurs n (graphTree g) → ∃ q : ℚ, taglessBindings ds ps cs args n = some (Flt.fin q) ∧
      f64.Representable q ∧ (q : ℝ) = ρ n)
    (hw : JitConditioned ρ (graphTree g)) :
    ∃ r : ℚ, run f args = .value (Flt.fin r) ∧ f64.Representable r ∧
      |(r : ℝ) - realValue ρ (graphTree g)| ≤ jitErrorBound ρ (graphTree g) := by
  obtain ⟨r, h1, h2⟩ := value_near hB hS (graphTree g) hv hw
  exact ⟨r, by rw [C59_tagless_computes g ds ps cs hf args hlen, reprValue_eq, h1]; rfl, h2.rep, h2.err⟩

/-- **C119.** The direct evaluator and the compiled function of one program agree up to the sum of
their errors. -/
theorem C119_agrees (hB : FaithfulDouble B) (hL : L.AllAccurate f64) (p : Program (Flt f64 L))
    (hp : Parametric p) {ρ : String → ℝ} {g : JitRepr (Flt f64 L)}
    (hg : g = p (JitRepr (Flt f64 L)) jitEval .named) {ds ps : List String}
    {cs : List (String × Flt f64 L)} {f : Compiled (Flt f64 L)}
    (hf : compileFinalTagless g ds ps cs = .ok f) {args : List (Flt f64 L)}
    (hlen : args.length = ds.length + ps.length) {σ : String → Flt f64 L}
    (hσ : ∀ n, Occurs n (graphTree g) → taglessBindings ds ps cs args n = some (σ n))
    (hv : ∀ n, Occurs n (graphTree g) → ∃ q : ℚ, σ n = Flt.fin q ∧ f64.Representable q ∧ (q : ℝ) = ρ n)
    (hw : JitConditioned ρ (graphTree g)) (hw' : WellConditioned ρ (graphTree g)) :
    ∃ r r' : ℚ, run f args = .value (Flt.fin r) ∧ p (Flt f64 L) directEval σ = Flt.fin r' ∧
      |(r : ℝ) - r'| ≤ jitErrorBound ρ (graphTree g) + errorBound ρ (graphTree g) := by
  obtain ⟨r, h1, -, h2⟩ := C119_compiled hB hL.sqrt hf hlen (fun n hn => by
    obtain ⟨q, h1, h2⟩ := hv n hn
    exact ⟨q, by rw [hσ n hn, h1], h2⟩) hw
  obtain ⟨r', h3, -, h4⟩ := C119_direct f64_std hL p hp (congrArg graphTree hg) hv hw'
  refine ⟨r, r', h1, h3, ?_⟩
  have h5 := abs_sub_le (r : ℝ) (realValue ρ (graphTree g)) r'
  rw [abs_sub_comm (realValue ρ (graphTree g))] at h5
  linarith

/-- the hypotheses are met: a program for `exp(-x²/2)`, at `x = 1` -/
example : ∃ (L : Libm) (B : FloatBits (Flt f64 L)), FaithfulDouble B ∧ L.AllAccurate f64 ∧
    ∃ (p : Program (Flt f64 L)) (g : JitRepr (Flt f64 L)) (f : Compiled (Flt f64 L)),
      (p = fun _ E a => E.exp (E.mul (E.constant (Flt.fin (-(1/2)))) (E.pow (a "x") (E.constant (Flt.fin 2))))) ∧
      Parametric p ∧ g = p (JitRepr (Flt f64 L)) jitEval .named ∧
      compileFinalTagless g ["x"] [] [] = .ok f ∧
      (∀ n, Occurs n (graphTree g) → taglessBindings (F := Flt f64 L) ["x"] [] [] [Flt.fin 1] n =
        some ((fun _ => Flt.fin 1) n)) ∧
      JitConditioned (fun _ => 1) (graphTree g) ∧ WellConditioned (fun _ => 1) (graphTree g) := by
  have hf : f64.Std := .inl rfl
  obtain ⟨L, hL⟩ := exists_libm_all hf
  obtain ⟨B, hB⟩ := exists_faithful_double L
  have hu := u_pos f64
  have hul := hf.u_le
  have hη := hf.eta_le
  have h4 : f64.u ^ 4 ≤ f64.u := pow_le_of_le_one hu.le (hul.trans (by norm_num)) (by norm_num)
  have hη' : (2 : ℝ) ^ f64.emin ≤ f64.u := by linarith
  have hη0 : (0 : ℝ) < 2 ^ f64.emin := by positivity
  have hbig : (2 : ℝ) ^ (10 : ℤ) ≤ 2 ^ (1023 : ℤ) := zpow_le_zpow_right₀ (by norm_num) (by decide)
  have hbig' : (2 : ℝ) ^ (10 : ℤ) ≤ 2 ^ (f64.emax - 1) := zpow_le_zpow_right₀ (by norm_num) (by decide)
  have hocc : ∀ n, Occurs n (.exp (.mul (.const (Flt.fin (-(1/2)))) (.pow (.var "x") (.const (Flt.fin 2)))) :
      Expr (Flt f64 L)) → n = "x" := by
    intro n hn
    cases hn with
    | exp h => cases h with
      | mulL h => cases h
      | mulR h => cases h with
        | powL h => cases h; rfl
        | powR h => cases h
  obtain ⟨c, hc⟩ := (C59_tagless_compiles_iff (.exp (.mul (.constant (Flt.fin (-(1/2)))) (.pow (.named "x")
    (.constant (Flt.fin 2)))) : JitRepr (Flt f64 L)) ["x"] [] []).mpr (by
      intro n hn
      have : n = "x" := by simpa [JitRepr.collectVariables] using hn
      simp [this])
  refine ⟨L, B, hB, hL, _, _, c, rfl, ?_, rfl, hc, ?_, ?_, ?_⟩
  · intro R S rel E E' a b h hab
    exact h.exp _ _ (h.mul _ _ _ _ (h.constant _) (h.pow _ _ _ _ (hab _) (h.constant _)))
  · intro n hn
    obtain rfl := hocc n hn
    rfl
  · simp only [jitEval, graphTree, JitConditioned, realValue, jitErrorBound, productError, rounded, realOf,
      numericExponent]
    generalize (2 : ℝ) ^ (1023 : ℤ) = M at *
    norm_num at hbig hul ⊢
    generalize (2 : ℝ) ^ f64.emin = η at *
    have hm : f64.u * η ≤ f64.u := mul_le_of_le_one_right hu.le (by linarith)
    have hq : f64.u * f64.u ≤ f64.u := mul_le_of_le_one_right hu.le (by linarith)
    exact ⟨⟨⟨_, rfl, rep_neg hf.rep_half⟩, ⟨⟨2, rfl, rep_int (n := 2) (by norm_num)⟩, by linarith⟩, by linarith⟩,
      by linarith, by linarith⟩
  · simp only [jitEval, graphTree, WellConditioned, realValue, errorBound, rounded, realOf, literalExponent]
    generalize (2 : ℝ) ^ (f64.emax - 1) = M at *
    norm_num at hbig' hul ⊢
    generalize (2 : ℝ) ^ f64.emin = η at *
    have hm : f64.u * η ≤ f64.u := mul_le_of_le_one_right hu.le (by linarith)
    have hq : f64.u * f64.u ≤ f64.u := mul_le_of_le_one_right hu.le (by linarith)
    refine ⟨⟨⟨_, rfl, rep_neg hf.rep_half⟩, ⟨⟨2, rfl, rep_int (n := 2) (by norm_num)⟩, by linarith⟩, by linarith⟩, ?_⟩
    refine lt_of_le_of_lt (Real.exp_le_one_iff.mpr (by linarith)) (by linarith)

end Verif
