import Verif.Props.JitCall

/-! C64: which custom log-densities compile, and to what -/

namespace Verif
open Classical Jit Spec.Jit FloatOps

/-- `n` is the alphabetically first name of the expression. -/
def Spec.FirstName {F : Type} (e : Expr F) (n : String) : Prop :=
  Spec.Occurs n e ∧ ∀ m, Spec.Occurs m e → n ≤ m

section
variable {F : Type} [FloatOps F]

omit [FloatOps F] in
theorem customVarMap_get (e : Expr F) (ps : FMap String F) (n : String) :
    (customVarMap (CustomSymbolicLogDensity.new e ps)).get n = if Spec.FirstName e n then some 0 else none := by
  have hs := Expr.variableNames_sorted e
  have hmem := Expr.mem_variableNames e
  unfold customVarMap
  show (match e.variableNames with
    | v :: _ => FMap.empty.insert v 0
    | [] => FMap.empty : FMap String Reg).get n = _
  cases h : e.variableNames with
  | nil =>
    have : ¬ Spec.FirstName e n := fun hf => by
      have := (hmem n).mpr hf.1
      rw [h] at this
      simp at this
    simp [this, FMap.empty]
  | cons v l =>
    rw [h] at hs
    have hv : Spec.FirstName e v := by
      refine ⟨(hmem v).mp (by rw [h]; simp), fun m hm => ?_⟩
      have hm' := (hmem m).mpr hm
      rw [h] at hm'
      rcases List.mem_cons.mp hm' with rfl | hm'
      · exact le_refl _
      · exact le_of_lt ((List.pairwise_cons.mp hs).1 m hm')
    by_cases hn : n = v
    · subst hn
      simp [hv, FMap.insert]
    · have : ¬ Spec.FirstName e n := fun hf => hn (le_antisymm (hf.2 v hv.1) (hv.2 n hf.1))
      simp [this, FMap.insert, hn, FMap.empty]

omit [FloatOps F] in
theorem custom_known_iff (e : Expr F) (ps : FMap String F) (n : String) :
    Known (customVarMap (CustomSymbolicLogDensity.new e ps)) ps n ↔
      Spec.FirstName e n ∨ ps.get n ≠ none := by
  unfold Known
  rw [customVarMap_get]
  by_cases h : Spec.FirstName e n <;> simp [h]

/-- **C64**, which expressions compile: exactly those in which every name but the alphabetically first is in the
parameter table; all others are refused with an error that names a name of the expression without a value. -/
theorem C64_compiles_iff (e : Expr F) (ps : FMap String F) (k : ℕ) :
    ((∃ f, compileCustomExpression (CustomSymbolicLogDensity.new e ps) k = .ok f) ↔
      ∀ n, Spec.Occurs n e → Spec.FirstName e n ∨ ps.get n ≠ none) ∧
    ((¬ ∃ f, compileCustomExpression (CustomSymbolicLogDensity.new e ps) k = .ok f) →
      ∃ n, Spec.Occurs n e ∧ ¬ Spec.FirstName e n ∧ ps.get n = none ∧
        compileCustomExpression (CustomSymbolicLogDensity.new e ps) k =
          .error (.unsupportedExpression ("Unknown variable: " ++ n))) := by
  have good : (∀ n, Spec.Occurs n e → Spec.FirstName e n ∨ ps.get n ≠ none) →
      ∃ f, compileCustomExpression (CustomSymbolicLogDensity.new e ps) k = .ok f := by
    intro h
    obtain ⟨r, b', h1, -⟩ := genExpr_appends e
      (fun n hn => (custom_known_iff e ps n).mpr (h n ((Expr.mem_collectVariables e n).mp hn))) ⟨1, []⟩
    have hb : build 1 (genExpr (customVarMap (CustomSymbolicLogDensity.new e ps)) ps e) = .ok (1, b'.code, r) := by
      simp only [build, h1]
    refine ⟨⟨1, b'.code, r, .singleInput, ⟨64, 8, k, ofRat 25⟩⟩, ?_⟩
    have hb' : build 1 (genExpr (customVarMap (CustomSymbolicLogDensity.new e ps))
      (CustomSymbolicLogDensity.new e ps).parameters (CustomSymbolicLogDensity.new e ps).expression)
        = .ok (1, b'.code, r) := hb
    simp only [compileCustomExpression, hb']
  have bad : (¬ ∀ n, Spec.Occurs n e → Spec.FirstName e n ∨ ps.get n ≠ none) →
      ∃ n, Spec.Occurs n e ∧ ¬ Spec.FirstName e n ∧ ps.get n = none ∧
        compileCustomExpression (CustomSymbolicLogDensity.new e ps) k =
          .error (.unsupportedExpression ("Unknown variable: " ++ n)) := by
    intro h
    have : ¬ ∀ n ∈ e.collectVariables, Known (customVarMap (CustomSymbolicLogDensity.new e ps)) ps n :=
      fun h' => h fun n hn => (custom_known_iff e ps n).mp (h' n ((Expr.mem_collectVariables e n).mpr hn))
    obtain ⟨n, pre, post, hs, hp, hn⟩ : ∃ n pre post, e.collectVariables = pre ++ n :: post ∧
        (∀ m ∈ pre, Known (customVarMap (CustomSymbolicLogDensity.new e ps)) ps m) ∧
        ¬ Known (customVarMap (CustomSymbolicLogDensity.new e ps)) ps n := by
      generalize e.collectVariables = l at this
      induction l with
      | nil => simp at this
      | cons a l ih =>
        by_cases ha : Known (customVarMap (CustomSymbolicLogDensity.new e ps)) ps a
        · obtain ⟨n, pre, post, h1, h2, h3⟩ := ih (fun h' => this (by
            intro n hn
            rcases List.mem_cons.mp hn with rfl | hn
            · exact ha
            · exact h' n hn))
          refine ⟨n, a :: pre, post, by rw [h1]; rfl, ?_, h3⟩
          intro m hm
          rcases List.mem_cons.mp hm with rfl | hm
          · exact ha
          · exact h2 m hm
        · exact ⟨a, [], l, rfl, by simp, ha⟩
    have he := genExpr_error e hs hp hn ⟨1, []⟩
    have hk := mt (custom_known_iff e ps n).mpr hn
    push Not at hk
    refine ⟨n, (Expr.mem_collectVariables e n).mp (by rw [hs]; simp), hk.1, hk.2, ?_⟩
    have he' : genExpr (customVarMap (CustomSymbolicLogDensity.new e ps))
      (CustomSymbolicLogDensity.new e ps).parameters (CustomSymbolicLogDensity.new e ps).expression ⟨1, []⟩
        = .error (.unsupportedExpression ("Unknown variable: " ++ n)) := he
    simp only [compileCustomExpression, build, he']
  refine ⟨⟨fun ⟨f, hf⟩ => ?_, good⟩, fun h => bad (mt good h)⟩
  by_contra h
  obtain ⟨n, -, -, -, he⟩ := bad h
  rw [hf] at he
  cases he

variable [FloatBits F]

/-- **C64**, what is compiled: the expression as a function of its alphabetically first name, with the parameter table
for all other names.  The value for the alphabetically first name in the table, if there is one, is not used. -/
theorem C64_compiled_value (e : Expr F) (ps : FMap String F) (k : ℕ) (f : Compiled F)
    (hf : compileCustomExpression (CustomSymbolicLogDensity.new e ps) k = .ok f) (x : F) :
    f.callSingle x = outcome f [x] ∧
    run f [x] = Result.ofOption
      (value (fun n => if Spec.FirstName e n then some x else ps.get n) e) := by
  have h := ((C64_compiles_iff e ps k).1.mp ⟨f, hf⟩)
  have hk : ∀ n ∈ e.collectVariables, Known (customVarMap (CustomSymbolicLogDensity.new e ps)) ps n :=
    fun n hn => (custom_known_iff e ps n).mpr (h n ((Expr.mem_collectVariables e n).mp hn))
  obtain ⟨r, b', h1, -⟩ := genExpr_appends e hk ⟨1, []⟩
  have hb : build 1 (genExpr (customVarMap (CustomSymbolicLogDensity.new e ps)) ps e) = .ok (1, b'.code, r) := by
    simp only [build, h1]
  have hb' : build 1 (genExpr (customVarMap (CustomSymbolicLogDensity.new e ps))
    (CustomSymbolicLogDensity.new e ps).parameters (CustomSymbolicLogDensity.new e ps).expression)
      = .ok (1, b'.code, r) := hb
  simp only [compileCustomExpression, hb', Except.ok.injEq] at hf
  subst hf
  refine ⟨Jit.invoke_floats ⟨1, b'.code, r, .singleInput, ⟨64, 8, k, ofRat 25⟩⟩ [x] rfl, ?_⟩
  refine run_of_yields hb rfl (entry_ok [x]) (genExpr_yields e hk ?_)
  intro n
  rw [customVarMap_get]
  by_cases hn : Spec.FirstName e n
  · simp only [hn, if_true]
    exact ⟨x, rfl, mem_entryFacts (by simp)⟩
  · simp [hn]

/-- The hypotheses hold for `x - z` with a value for `z`: the argument is `x`. -/
example (c : F) (k : ℕ) : ∃ f, compileCustomExpression (CustomSymbolicLogDensity.new (.sub (.var "x") (.var "z"))
      ((FMap.empty : FMap String F).insert "z" c)) k = .ok f ∧ ∀ x, run f [x] = .value (x -. c) := by
  have hocc : ∀ n, Spec.Occurs n (.sub (.var "x") (.var "z") : Expr F) ↔ n = "x" ∨ n = "z" := by
    intro n
    rw [← Expr.mem_collectVariables]
    simp [Expr.collectVariables]
  have hx : Spec.FirstName (.sub (.var "x") (.var "z") : Expr F) "x" :=
    ⟨(hocc _).mpr (.inl rfl), fun m hm => by rcases (hocc m).mp hm with h | h <;> subst h <;> decide⟩
  have hz : ¬ Spec.FirstName (.sub (.var "x") (.var "z") : Expr F) "z" :=
    fun h => absurd (h.2 "x" hx.1) (by decide)
  obtain ⟨f, hf⟩ := (C64_compiles_iff (.sub (.var "x") (.var "z")) ((FMap.empty : FMap String F).insert "z" c) k).1.mpr
    (fun n hn => by
      rcases (hocc n).mp hn with h | h <;> subst h
      · exact .inl hx
      · exact .inr (by simp [FMap.insert]))
  refine ⟨f, hf, fun x => ?_⟩
  rw [(C64_compiled_value _ _ k f hf x).2]
  simp [value, hx, hz, FMap.insert, Result.ofOption]

end

end Verif
