import Verif.Props.JitCall
import Verif.Props.SimplifyValue
import Verif.Props.Substitution
import Verif.Model.DistExpr

/-! C99: compilation statistics; further theorems for C47 (simplifying a log-density object),
C64 (`compile_custom_jit`) and C81 (entry points with several variables). -/

namespace Verif
open Classical Jit Spec.Jit FloatOps

section C81
variable {F : Type} [FloatOps F] [FloatBits F]

/-- `σ` reads each listed name as the value at the same position and knows no other name. -/
def Spec.Jit.ReadsPositions (names : List String) (args : List F) (σ : String → Option F) : Prop :=
  (∀ (i : ℕ) n x, names[i]? = some n → args[i]? = some x → σ n = some x) ∧ ∀ n, n ∉ names → σ n = none

omit [FloatOps F] [FloatBits F] in
theorem Jit.lookupArgs_of_positions (names : List String) (args : List F) (hl : names.length = args.length)
    (hd : names.Nodup) (σ : String → Option F) (h : ReadsPositions names args σ) (n : String) :
    lookupArgs names args n = σ n := by
  induction names generalizing args σ with
  | nil =>
    have := h.2 n (by simp)
    cases args <;> simp [lookupArgs, this]
  | cons a names ih =>
    cases args with
    | nil => simp at hl
    | cons x args =>
      rw [List.nodup_cons] at hd
      have h' : ReadsPositions names args (fun m => if m = a then none else σ m) := by
        refine ⟨fun i m y hm hy => ?_, fun m hm => ?_⟩
        · have hma : m ≠ a := by
            rintro rfl
            exact hd.1 (List.mem_of_getElem? hm)
          simp only [hma, if_false]
          exact h.1 (i + 1) m y (by simpa using hm) (by simpa using hy)
        · by_cases hma : m = a
          · simp [hma]
          · simp only [hma, if_false]
            exact h.2 m (by simp [hma, hm])
      have := ih args (by simpa using hl) hd.2 _ h'
      simp only [lookupArgs, this]
      by_cases hna : n = a
      · subst hna
        simp only [if_true]
        exact (h.1 0 n x (by simp) (by simp)).symm
      · simp only [hna, if_false, Ne.symm hna]
        cases σ n <;> rfl

/-- **C81**, several variables: `compile_with_signature`, `compile_data_params` and
`compile_with_constants` build functions that read argument `i` as the `i`-th name (data variables first,
then parameters), for any number of distinct names; the constants are read by their names, and win over a
variable of the same name. -/
theorem C81_signature_entry_points (e : JitRepr F) (d : String) (ds ps : List String)
    (cs : List (String × F)) (args : List F) (σ κ : String → Option F) (f : Compiled F) :
    (compileWithSignature e ds ps = .ok f → (ds ++ ps).Nodup → args.length = ds.length + ps.length →
      ReadsPositions (ds ++ ps) args σ → run f args = Result.ofOption (reprValue σ e)) ∧
    (compileDataParams e d ps = .ok f → (d :: ps).Nodup → args.length = 1 + ps.length →
      ReadsPositions (d :: ps) args σ → run f args = Result.ofOption (reprValue σ e)) ∧
    (compileWithConstants e ds ps cs = .ok f → (ds ++ ps).Nodup → (cs.map Prod.fst).Nodup →
      args.length = ds.length + ps.length → ReadsPositions (ds ++ ps) args σ →
      ReadsPositions (cs.map Prod.fst) (cs.map Prod.snd) κ →
      run f args = Result.ofOption (reprValue (fun n => (κ n).or (σ n)) e)) := by
  refine ⟨fun hf hd ha hσ => ?_, fun hf hd ha hσ => ?_, fun hf hd hc ha hσ hκ => ?_⟩
  · rw [C59_tagless_computes e ds ps [] hf args ha]
    congr 2
    funext n
    simp only [taglessBindings, List.map_nil]
    rw [Jit.lookupArgs_of_positions (ds ++ ps) args (by simp [ha]) hd σ hσ]
    rfl
  · rw [C59_tagless_computes e [d] ps [] hf args (by simpa using ha)]
    congr 2
    funext n
    simp only [taglessBindings, List.map_nil]
    rw [Jit.lookupArgs_of_positions ([d] ++ ps) args (by simp [ha, Nat.add_comm]) hd σ hσ]
    rfl
  · rw [C59_tagless_computes e ds ps cs hf args ha]
    congr 2
    funext n
    simp only [taglessBindings]
    rw [Jit.lookupArgs_of_positions (ds ++ ps) args (by simp [ha]) hd σ hσ,
      Jit.lookupArgs_of_positions (cs.map Prod.fst) (cs.map Prod.snd) (by simp) hc κ hκ]

/-- The three entry points succeed exactly when every recorded name is listed. -/
theorem C81_signature_compiles_iff (e : JitRepr F) (d : String) (ds ps : List String) (cs : List (String × F)) :
    ((∃ f, compileWithSignature e ds ps = .ok f) ↔ ∀ n ∈ e.collectVariables, n ∈ ds ∨ n ∈ ps) ∧
    ((∃ f, compileDataParams e d ps = .ok f) ↔ ∀ n ∈ e.collectVariables, n = d ∨ n ∈ ps) ∧
    ((∃ f, compileWithConstants e ds ps cs = .ok f) ↔
      ∀ n ∈ e.collectVariables, n ∈ ds ∨ n ∈ ps ∨ n ∈ cs.map Prod.fst) := by
  refine ⟨?_, ?_, ?_⟩
  · rw [compileWithSignature, C59_tagless_compiles_iff]; simp
  · rw [compileDataParams, C59_tagless_compiles_iff]; simp
  · rw [compileWithConstants, C59_tagless_compiles_iff]

example (a b c : F) : ReadsPositions (["x"] ++ ["m", "s"]) [a, b, c]
    (fun n => if n = "x" then some a else if n = "m" then some b else if n = "s" then some c else none) ∧
    (["x"] ++ ["m", "s"]).Nodup ∧
    ∃ f, compileWithSignature (.div (.sub (.named "x") (.named "m")) (.named "s") : JitRepr F) ["x"] ["m", "s"]
      = .ok f := by
  refine ⟨⟨?_, ?_⟩, by decide, (C81_signature_compiles_iff _ "" _ _ []).1.mpr fun n hn => ?_⟩
  · rintro (_ | _ | _ | i) n x hn hx <;> simp_all <;> subst hn <;> simp
  · intro n hn
    simp at hn
    simp [hn.1, hn.2.1, hn.2.2]
  · simp [JitRepr.collectVariables] at hn
    rcases hn with rfl | rfl | rfl <;> simp

end C81

section C64
variable {F : Type} [FloatOps F] [FloatBits F]

/-- **C64**: `compile_custom_jit` compiles the symbolic log-density of the implementation: under the
conditions of `C64_custom_partial` it succeeds and calling the function evaluates that log-density with its
parameters. -/
theorem C64_compile_custom_jit_partial (d : CustomSymbolicLogDensity F) (k : ℕ) (v : String)
    (hv : d.variableNames.head? = some v)
    (hocc : ∀ n, Spec.Occurs n d.expression → n = v ∨ d.parameters.get n ≠ none) :
    ∃ f, compileCustomJit d k = .ok f ∧ ∀ x, f.callSingle x = outcome f [x] ∧
      run f [x] = Result.ofOption (value (d.parameters.insert v x).get d.expression) :=
  C64_custom_partial d k v hv hocc

end C64

section C47
open Spec XReal

/-- **C47**, log-density objects: simplifying a symbolic or custom log-density keeps its parameters and
its recorded variable names and, for a sign-regular expression with a value, the value at every assignment:
`evaluate` gives the same number before and after. -/
theorem C47_log_density_simplify_partial (e : Expr XReal) (π ρ : String → Option ℝ) (v : ℝ)
    (hr : Regular (fun n => (ρ n).or (π n)) false e)
    (hv : Spec.value (fun n => (ρ n).or (π n)) e = some v) :
    let s := SymbolicLogDensity.new e (env π)
    let c := CustomSymbolicLogDensity.new e (env π)
    s.evaluate (env ρ) = .ok (fin v) ∧ s.simplify.evaluate (env ρ) = .ok (fin v) ∧
    c.evaluate (env ρ) = .ok (fin v) ∧ c.simplify.evaluate (env ρ) = .ok (fin v) ∧
    (∀ n, n ∈ s.simplify.expression.variableNames → n ∈ s.simplify.variableNames) ∧
    (∀ n, n ∈ c.simplify.expression.variableNames → n ∈ c.simplify.variableNames) := by
  have hm : (env π).extend (env ρ) = env (fun n => (ρ n).or (π n)) := by
    simp only [FMap.extend, env, FMap.mk.injEq]
    funext n
    cases ρ n <;> rfl
  have h := C47_simplify_evaluate_partial e v hr hv
  refine ⟨?_, ?_, ?_, ?_, C48_variables e, C48_variables e⟩
  · show e.evaluate ((env π).extend (env ρ)) = _
    rw [hm]; exact h.1
  · show e.simplify.evaluate ((env π).extend (env ρ)) = _
    rw [hm]; exact h.2
  · show e.evaluate ((env π).extend (env ρ)) = _
    rw [hm]; exact h.1
  · show e.simplify.evaluate ((env π).extend (env ρ)) = _
    rw [hm]; exact h.2

/-- The recorded names may become too many: simplifying `x * 0` leaves the name `x` recorded although the
expression no longer contains it. -/
theorem C47_recorded_names_stale :
    let s := SymbolicLogDensity.new (.mul (.var "x") (.const (fin 0)) : Expr XReal) FMap.empty
    s.simplify.expression = .const (fin 0) ∧ s.simplify.variableNames = ["x"] := by
  refine ⟨?_, ?_⟩
  · show Expr.simplify (.mul (.var "x") (.const (fin 0))) = _
    simp [Expr.simplify_mul, Expr.simplify_var, Expr.simplify_const, Expr.simplifyMul, Expr.bothConst, Expr.isConst]
  · show Expr.variableNames _ = _
    simp only [Expr.variableNames, Expr.collectVariables]
    simp [Expr.vecDedup]

end C47

/-! ### C99 -/

section C99
variable {F : Type} [FloatOps F]

/-- Built from literals, the listed names and `+ - * /`. -/
def Spec.Jit.Arithmetic (names : List String) : Expr F → Prop
  | .const _ => True
  | .var n => n ∈ names
  | .add l r | .sub l r | .mul l r | .div l r => Arithmetic names l ∧ Arithmetic names r
  | _ => False

/-- `g` succeeds and appends exactly `n` instructions. -/
def Jit.Grows {α : Type} (g : Gen F α) (n : ℕ) : Prop :=
  ∀ b, ∃ r b', g b = .ok (r, b') ∧ b'.code.length = b.code.length + n

omit [FloatOps F] in
theorem Jit.grows_emit (i : Inst F) : Grows (Gen.emit i) 1 :=
  fun b => ⟨b.next, ⟨b.next + 1, b.code ++ [i]⟩, rfl, by simp⟩

omit [FloatOps F] in
theorem Jit.grows_pure {α : Type} (a : α) : Grows (pure a : Gen F α) 0 := fun b => ⟨a, b, rfl, rfl⟩

omit [FloatOps F] in
theorem Jit.grows_bind {α β : Type} {g : Gen F α} {k : α → Gen F β} {n m t : ℕ} (hg : Grows g n)
    (hk : ∀ a, Grows (k a) m) (ht : t = m + n := by rfl) : Grows (g >>= k) t := by
  intro b
  obtain ⟨r, b1, h1, l1⟩ := hg b
  obtain ⟨q, b2, h2, l2⟩ := hk r b1
  exact ⟨q, b2, by simp only [bind, h1, h2], by omega⟩

theorem Jit.grows_genLn (r : Reg) : Grows (genLn r : Gen F Reg) 55 := by
  unfold genLn
  iterate 54 refine grows_bind (grows_emit _) fun _ => ?_
  exact grows_emit _

theorem Jit.grows_genExp (r : Reg) : Grows (genExp r : Gen F Reg) 53 := by
  unfold genExp
  iterate 52 refine grows_bind (grows_emit _) fun _ => ?_
  exact grows_emit _

theorem Jit.grows_genSin (r : Reg) : Grows (genSin r : Gen F Reg) 9 := by
  unfold genSin
  iterate 8 refine grows_bind (grows_emit _) fun _ => ?_
  exact grows_emit _

theorem Jit.grows_genCos (r : Reg) : Grows (genCos r : Gen F Reg) 9 := by
  unfold genCos
  iterate 8 refine grows_bind (grows_emit _) fun _ => ?_
  exact grows_emit _

theorem Jit.grows_genPow (r q : Reg) : Grows (genPow r q : Gen F Reg) 109 :=
  grows_bind (grows_genLn _) (fun _ => grows_bind (grows_emit _) (fun _ => grows_genExp _))

theorem Jit.genExpr_length {varMap : FMap String Reg} {constants : FMap String F} {names : List String}
    (hm : ∀ n ∈ names, varMap.get n ≠ none) (e : Expr F) (he : Arithmetic names e) :
    Grows (genExpr varMap constants e) (estimateExprInstructions e) := by
  have bin : ∀ (l r : Expr F) (mk : Reg → Reg → Inst F),
      Grows (genExpr varMap constants l) (estimateExprInstructions l) →
      Grows (genExpr varMap constants r) (estimateExprInstructions r) →
      Grows (do
          let a ← genExpr varMap constants l
          let c ← genExpr varMap constants r
          Gen.emit (mk a c) : Gen F Reg) (1 + estimateExprInstructions l + estimateExprInstructions r) :=
    fun l r mk hl hr => grows_bind hl
      (fun _ => grows_bind (t := 1 + estimateExprInstructions r) hr (fun _ => grows_emit _)) (by omega)
  induction e with
  | const c => exact grows_emit _
  | var n =>
    obtain ⟨r, hr⟩ := Option.ne_none_iff_exists'.mp (hm n he)
    simp only [genExpr, hr]
    exact grows_pure _
  | add l r il ir => exact bin l r .fadd (il he.1) (ir he.2)
  | sub l r il ir => exact bin l r .fsub (il he.1) (ir he.2)
  | mul l r il ir => exact bin l r .fmul (il he.1) (ir he.2)
  | div l r il ir => exact bin l r .fdiv (il he.1) (ir he.2)
  | pow | ln | exp | sqrt | sin | cos | neg => exact he.elim

/-- **C99**, arithmetic: for an expression of any size built from literals, the variables of the
signature and the four arithmetic operators, the reported instruction count is the number of generated
instructions plus one per argument plus two. -/
theorem C99_arithmetic_partial (e : Expr F) (ds ps : List String) (cs : FMap String F) (k : ℕ)
    (he : Arithmetic (ds ++ ps) e) :
    ∃ f, compileExpression e ds ps cs k = .ok f ∧
      f.stats.clifInstructions = f.code.length + ds.length + ps.length + 2 ∧
      f.stats.embeddedConstants = k ∧ f.stats.codeSizeBytes = 128 := by
  obtain ⟨r, b, hb, hl⟩ := Jit.genExpr_length (varMap := varMapOf ds ps) (constants := cs) (names := ds ++ ps)
    (fun n hn => by
      have := (Jit.known_iff ds ps (FMap.empty : FMap String F) n).mpr
        ((List.mem_append.mp hn).elim .inl fun h => .inr (.inl h))
      rcases this with h | h
      · exact h
      · exact absurd rfl h) e he ⟨ds.length + ps.length, []⟩
  have hB : build (ds.length + ps.length) (genExpr (varMapOf ds ps) cs e)
      = .ok (ds.length + ps.length, b.code, r) := by simp only [build, hb]
  have hc : compileExpression e ds ps cs k = .ok
      { params := ds.length + ps.length, code := b.code, ret := r, signature := signatureOf ds ps
        stats := ⟨128, estimateClifInstructions e ds.length ps.length, k, estimateSpeedup e.complexity⟩ } := by
    simp only [compileExpression, hB]
  refine ⟨_, hc, ?_, rfl, rfl⟩
  simp only [estimateClifInstructions]
  simp only [List.length_nil, Nat.zero_add] at hl
  omega

example : Arithmetic (["x"] ++ ["m"]) (.mul (.sub (.var "x") (.var "m")) (.const one) : Expr F) := by
  simp [Arithmetic]

/-- `g` never appends more than `n` instructions. -/
def Jit.AtMost {α : Type} (g : Gen F α) (n : ℕ) : Prop :=
  ∀ b r b', g b = .ok (r, b') → b'.code.length ≤ b.code.length + n

omit [FloatOps F] in
theorem Jit.Grows.atMost {α : Type} {g : Gen F α} {n : ℕ} (h : Grows g n) : AtMost g n := by
  intro b r b' hb
  obtain ⟨q, b1, h1, l1⟩ := h b
  rw [h1] at hb
  simp only [Except.ok.injEq, Prod.mk.injEq] at hb
  obtain ⟨_, rfl⟩ := hb
  omega

omit [FloatOps F] in
theorem Jit.AtMost.mono {α : Type} {g : Gen F α} {n m : ℕ} (h : AtMost g n) (hm : n ≤ m) : AtMost g m :=
  fun b r b' hb => (h b r b' hb).trans (by omega)

omit [FloatOps F] in
theorem Jit.AtMost.bind {α β : Type} {g : Gen F α} {k : α → Gen F β} {n m t : ℕ} (hg : AtMost g n)
    (hk : ∀ a, AtMost (k a) m) (ht : m + n ≤ t) : AtMost (g >>= k) t := by
  intro b r b' hb
  simp only [Bind.bind] at hb
  split at hb
  · rename_i a b1 h1
    have := hg b a b1 h1
    have := hk a b1 r b' hb
    omega
  · cases hb

theorem Jit.genPowSpecial_atMost (r : Reg) (s : PowSpecial) : AtMost (genPowSpecial r s : Gen F Reg) 2 := by
  cases s
  · exact (grows_emit _).atMost.mono (by omega)
  · exact (grows_bind (t := 2) (grows_emit _) fun _ => grows_emit _).atMost
  · exact (grows_bind (t := 2) (grows_emit _) fun _ => grows_emit _).atMost
  · exact (grows_emit _).atMost.mono (by omega)
  · exact (grows_pure _).atMost.mono (by omega)
  · exact (grows_emit _).atMost.mono (by omega)

theorem Jit.genExpr_atMost (varMap : FMap String Reg) (constants : FMap String F) (e : Expr F) :
    AtMost (genExpr varMap constants e) (109 * Spec.nodes e) := by
  have bin : ∀ (l r : Expr F) (mk : Reg → Reg → Inst F),
      AtMost (genExpr varMap constants l) (109 * Spec.nodes l) →
      AtMost (genExpr varMap constants r) (109 * Spec.nodes r) →
      AtMost (do
          let a ← genExpr varMap constants l
          let c ← genExpr varMap constants r
          Gen.emit (mk a c) : Gen F Reg) (109 * (1 + Spec.nodes l + Spec.nodes r)) :=
    fun l r mk hl hr => hl.bind (fun _ => hr.bind (fun _ => (grows_emit _).atMost) le_rfl) (by omega)
  have un : ∀ (e : Expr F) (g : Reg → Gen F Reg) (n : ℕ), n ≤ 109 →
      AtMost (genExpr varMap constants e) (109 * Spec.nodes e) → (∀ a, AtMost (g a) n) →
      AtMost (genExpr varMap constants e >>= g) (109 * (1 + Spec.nodes e)) :=
    fun e g n hn he hg => he.bind hg (by omega)
  induction e with
  | const c => exact (grows_emit _).atMost.mono (by simp [Spec.nodes])
  | var n =>
    show AtMost (match varMap.get n with
      | some r => pure r
      | none => match constants.get n with
        | some c => Gen.emit (.f64const c)
        | none => Gen.fail (.unsupportedExpression ("Unknown variable: " ++ n))) _
    cases varMap.get n with
    | some r => exact (grows_pure _).atMost.mono (by simp)
    | none =>
      cases constants.get n with
      | some c => exact (grows_emit _).atMost.mono (by simp [Spec.nodes])
      | none => intro b r b' hb; cases hb
  | add l r il ir => exact bin l r .fadd il ir
  | sub l r il ir => exact bin l r .fsub il ir
  | mul l r il ir => exact bin l r .fmul il ir
  | div l r il ir => exact bin l r .fdiv il ir
  | pow l r il ir =>
    refine il.bind (m := 109 * Spec.nodes r + 109) (fun a => ?_) (by simp only [Spec.nodes]; omega)
    cases exprPowSpecial r with
    | some s => exact (genPowSpecial_atMost _ _).mono (by omega)
    | none => exact ir.bind (fun _ => (grows_genPow _ _).atMost) (by omega)
  | ln e ih => exact un e _ 55 (by omega) ih fun a => (grows_genLn a).atMost
  | exp e ih => exact un e _ 53 (by omega) ih fun a => (grows_genExp a).atMost
  | sqrt e ih => exact un e _ 1 (by omega) ih fun a => (grows_emit _).atMost
  | sin e ih => exact un e _ 9 (by omega) ih fun a => (grows_genSin a).atMost
  | cos e ih => exact un e _ 9 (by omega) ih fun a => (grows_genCos a).atMost
  | neg e ih => exact un e _ 1 (by omega) ih fun a => (grows_emit _).atMost

/-- **C99**, bound: compiled code grows at most linearly with the expression: no more than 109
instructions per node, for every expression that compiles. -/
theorem C99_code_linear (e : Expr F) (ds ps : List String) (cs : FMap String F) (k : ℕ) (f : Compiled F)
    (hf : compileExpression e ds ps cs k = .ok f) : f.code.length ≤ 109 * Spec.nodes e := by
  simp only [compileExpression] at hf
  split at hf
  · rename_i n code r h
    simp only [Except.ok.injEq] at hf
    subst hf
    simp only [build] at h
    cases hb : genExpr (varMapOf ds ps) cs e ⟨ds.length + ps.length, []⟩ with
    | error err => rw [hb] at h; cases h
    | ok rb =>
      rw [hb] at h
      simp only [Except.ok.injEq, Prod.mk.injEq] at h
      obtain ⟨_, rfl, _⟩ := h
      simpa using Jit.genExpr_atMost _ _ e _ _ _ hb
  · cases hf

/-- The factor is reached: `x ^ y` generates 109 instructions for the node itself. -/
theorem C99_code_linear_sharp : ∃ f, compileExpression (.pow (.var "x") (.var "y") : Expr F) ["x", "y"] []
    FMap.empty 0 = .ok f ∧ f.code.length = 109 ∧ f.stats.clifInstructions = 5 := by
  obtain ⟨r, b, hb, hl⟩ := Jit.grows_genPow (F := F) 0 1 ⟨2, []⟩
  have hB : build (["x", "y"].length + ([] : List String).length)
      (genExpr (varMapOf ["x", "y"] []) FMap.empty (.pow (.var "x") (.var "y") : Expr F))
      = .ok (2, b.code, r) := by
    have : genExpr (varMapOf ["x", "y"] []) FMap.empty (.pow (.var "x") (.var "y") : Expr F)
        = genPow 0 1 := rfl
    simp only [build, this, List.length_cons, List.length_nil, Nat.add_zero, Nat.zero_add, hb]
  refine ⟨_, by simp only [compileExpression, hB]; rfl, ?_, rfl⟩
  simpa using hl

/-- one elementary function of a variable: what is generated for it -/
theorem elementary_code {e : Expr F} {g : Gen F Reg} {n : ℕ} (hg : Jit.Grows g n)
    (he : genExpr (varMapOf ["x"] []) FMap.empty e = g) :
    ∃ f, compileExpression e ["x"] [] FMap.empty 0 = .ok f ∧ f.code.length = n ∧
      f.stats.clifInstructions = 3 + estimateExprInstructions e := by
  obtain ⟨r, b, hb, hl⟩ := hg ⟨1, []⟩
  have hB : build (["x"].length + ([] : List String).length)
      (genExpr (varMapOf ["x"] []) FMap.empty e) = .ok (1, b.code, r) := by
    rw [he]
    simp only [build, List.length_singleton, List.length_nil, Nat.add_zero, hb]
  refine ⟨_, by simp only [compileExpression, hB]; rfl, ?_, rfl⟩
  simpa using hl

/-- **C99** violated for every elementary function: `ln(x)`, `exp(x)`, `sin(x)` and `cos(x)` report six
instructions, of which three are for the function, where 55, 53, 9 and 9 are generated. -/
theorem C99_elementary_violated :
    (∃ f, compileExpression (.ln (.var "x") : Expr F) ["x"] [] FMap.empty 0 = .ok f ∧
      f.code.length = 55 ∧ f.stats.clifInstructions = 6) ∧
    (∃ f, compileExpression (.exp (.var "x") : Expr F) ["x"] [] FMap.empty 0 = .ok f ∧
      f.code.length = 53 ∧ f.stats.clifInstructions = 6) ∧
    (∃ f, compileExpression (.sin (.var "x") : Expr F) ["x"] [] FMap.empty 0 = .ok f ∧
      f.code.length = 9 ∧ f.stats.clifInstructions = 6) ∧
    (∃ f, compileExpression (.cos (.var "x") : Expr F) ["x"] [] FMap.empty 0 = .ok f ∧
      f.code.length = 9 ∧ f.stats.clifInstructions = 6) :=
  ⟨elementary_code (Jit.grows_genLn 0) rfl, elementary_code (Jit.grows_genExp 0) rfl,
    elementary_code (Jit.grows_genSin 0) rfl, elementary_code (Jit.grows_genCos 0) rfl⟩

/-- **C99** violated: for `exp(x)` six instructions are reported where more than forty are generated; for
`2x` no embedded constant is reported where one is; for `x` as many constants are reported as were passed,
used or not; a custom log-density always reports 64 bytes and 8 instructions. -/
theorem C99_counts_violated :
    (∃ f, compileExpression (.exp (.var "x") : Expr F) ["x"] [] FMap.empty 0 = .ok f ∧
      f.stats.clifInstructions = 6 ∧ 40 < f.code.length) ∧
    (∃ f, compileExpression (.mul (.const (ofRat 2)) (.var "x") : Expr F) ["x"] [] FMap.empty 0 = .ok f ∧
      f.stats.embeddedConstants = 0 ∧ (Inst.f64const (ofRat 2 : F)) ∈ f.code) ∧
    (∀ (cs : FMap String F) (k : ℕ), ∃ f, compileExpression (.var "x" : Expr F) ["x"] [] cs k = .ok f ∧
      f.stats.embeddedConstants = k ∧ f.code = []) ∧
    (∀ (d : CustomSymbolicLogDensity F) (k : ℕ) (f : Compiled F), compileCustomExpression d k = .ok f →
      f.stats.codeSizeBytes = 64 ∧ f.stats.clifInstructions = 8 ∧ f.stats.embeddedConstants = k) := by
  refine ⟨?_, ⟨_, rfl, rfl, by simp⟩, fun cs k => ⟨_, rfl, rfl, rfl⟩, ?_⟩
  · obtain ⟨r, b, hb, hl⟩ := Jit.grows_genExp (F := F) 0 ⟨1, []⟩
    have hB : build (["x"].length + ([] : List String).length)
        (genExpr (varMapOf ["x"] []) FMap.empty (.exp (.var "x") : Expr F)) = .ok (1, b.code, r) := by
      have : genExpr (varMapOf ["x"] []) FMap.empty (.exp (.var "x") : Expr F) = genExp 0 := rfl
      simp only [build, this, List.length_singleton, List.length_nil, Nat.add_zero, hb]
    refine ⟨_, by simp only [compileExpression, hB]; rfl, rfl, ?_⟩
    simp only [List.length_nil] at hl
    show 40 < b.code.length
    omega
  intro d k f hf
  simp only [compileCustomExpression] at hf
  split at hf
  · simp only [Except.ok.injEq] at hf
    subst hf
    exact ⟨rfl, rfl, rfl⟩
  · cases hf

/-- **C99**: the reported speed-up lies between 15 and 100 and never decreases with the size of the
expression. -/
theorem C99_speedup {e e' : Expr XReal} {ds ps ds' ps' : List String} {cs cs' : FMap String XReal} {k k' : ℕ}
    {f f' : Compiled XReal} (hf : compileExpression e ds ps cs k = .ok f)
    (hf' : compileExpression e' ds' ps' cs' k' = .ok f') :
    ∃ s s' : ℝ, f.stats.estimatedSpeedup = .fin s ∧ f'.stats.estimatedSpeedup = .fin s' ∧
      15 ≤ s ∧ s ≤ 100 ∧ (e.complexity ≤ e'.complexity → s ≤ s') := by
  have key : ∀ n : ℕ, (estimateSpeedup n : XReal) = .fin (min (15 + Real.sqrt n * 2) 100) := by
    intro n
    simp only [estimateSpeedup, minF, XReal.f_ofRat, XReal.f_ofNat, XReal.f_sqrt _ (Nat.cast_nonneg n),
      XReal.f_mul, XReal.f_add, XReal.f_lt]
    norm_num
    split_ifs with h
    · rw [min_eq_left h.le]
    · rw [min_eq_right (not_lt.mp h)]
  have st : ∀ {e : Expr XReal} {ds ps : List String} {cs : FMap String XReal} {k : ℕ} {f : Compiled XReal},
      compileExpression e ds ps cs k = .ok f → f.stats.estimatedSpeedup = estimateSpeedup e.complexity := by
    intro e ds ps cs k f h
    simp only [compileExpression] at h
    split at h
    · simp only [Except.ok.injEq] at h
      subst h
      rfl
    · cases h
  refine ⟨_, _, (st hf).trans (key _), (st hf').trans (key _), ?_, min_le_right _ _, fun h => ?_⟩
  · refine le_min ?_ (by norm_num)
    have := Real.sqrt_nonneg (e.complexity : ℝ)
    linarith
  · have : Real.sqrt (e.complexity : ℝ) ≤ Real.sqrt (e'.complexity : ℝ) := Real.sqrt_le_sqrt (by exact_mod_cast h)
    exact min_le_min_right _ (by linarith)

end C99
end Verif
