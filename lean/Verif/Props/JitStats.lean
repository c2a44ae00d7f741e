import Verif.Spec.JitStats
import Verif.Props.WrappersJit
import Verif.Props.Tagless

/-! C99: statistics reported for recorded computations (`JITEval`) -/

namespace Verif
open Classical Jit Spec.Jit FloatOps

section
variable {F : Type}

/-- **C99**, complexity: `complexity()` of an expression is the number of its operators and functions. -/
theorem C99_complexity (e : Expr F) : e.complexity = Spec.operations e := by
  induction e <;> simp only [Expr.complexity, Spec.operations] <;> omega

/-- the complexity of a recorded computation: one per node, two more per function -/
theorem estimateComplexity_eq (g : JitRepr F) :
    g.estimateComplexity = Spec.nodes (Spec.graphTree g) + 2 * Spec.functionCalls (Spec.graphTree g) := by
  induction g <;> simp only [JitRepr.estimateComplexity, Spec.graphTree, Spec.nodes, Spec.functionCalls] <;> omega

variable [FloatOps F]

theorem compileFinalTagless_stats {g : JitRepr F} {ds ps : List String} {cs : List (String × F)} {f : Compiled F}
    (h : compileFinalTagless g ds ps cs = .ok f) :
    f.stats = ⟨128, g.estimateComplexity, cs.length, estimateSpeedup g.estimateComplexity⟩ := by
  unfold compileFinalTagless at h
  split at h
  · cases h; rfl
  · cases h

omit [FloatOps F] in
theorem Jit.grows_bindConstants (m : FMap String Reg) (cs : List (String × F)) :
    Grows (bindConstants m cs) cs.length := by
  induction cs generalizing m with
  | nil => exact grows_pure _
  | cons c cs ih => exact grows_bind (grows_emit _) (fun _ => ih _) (by simp)

theorem Jit.generateIr_atMost (varMap : FMap String Reg) (g : JitRepr F) :
    AtMost (generateIr varMap g) (109 * Spec.nodes (Spec.graphTree g)) := by
  have bin : ∀ (l r : JitRepr F) (mk : Reg → Reg → Inst F),
      AtMost (generateIr varMap l) (109 * Spec.nodes (Spec.graphTree l)) →
      AtMost (generateIr varMap r) (109 * Spec.nodes (Spec.graphTree r)) →
      AtMost (do
          let a ← generateIr varMap l
          let c ← generateIr varMap r
          Gen.emit (mk a c) : Gen F Reg)
        (109 * (1 + Spec.nodes (Spec.graphTree l) + Spec.nodes (Spec.graphTree r))) :=
    fun l r mk hl hr => hl.bind (fun _ => hr.bind (fun _ => (grows_emit _).atMost) le_rfl) (by omega)
  have un : ∀ (e : JitRepr F) (g : Reg → Gen F Reg) (n : ℕ), n ≤ 109 →
      AtMost (generateIr varMap e) (109 * Spec.nodes (Spec.graphTree e)) → (∀ a, AtMost (g a) n) →
      AtMost (generateIr varMap e >>= g) (109 * (1 + Spec.nodes (Spec.graphTree e))) :=
    fun e g n hn he hg => he.bind hg (by omega)
  induction g with
  | constant c => exact (grows_emit _).atMost.mono (by simp [Spec.nodes, Spec.graphTree])
  | named n =>
    show AtMost (match varMap.get n with
      | some r => pure r
      | none => Gen.fail (.compilationError ("Unknown variable: " ++ n))) _
    cases varMap.get n with
    | some r => exact (grows_pure _).atMost.mono (by simp)
    | none => intro b r b' hb; cases hb
  | add l r il ir => exact bin l r .fadd il ir
  | sub l r il ir => exact bin l r .fsub il ir
  | mul l r il ir => exact bin l r .fmul il ir
  | div l r il ir => exact bin l r .fdiv il ir
  | pow l r il ir =>
    refine il.bind (m := 109 * Spec.nodes (Spec.graphTree r) + 109) (fun a => ?_)
      (by simp only [Spec.nodes, Spec.graphTree]; omega)
    cases reprPowSpecial r with
    | some s => exact (genPowSpecial_atMost _ _).mono (by omega)
    | none => exact ir.bind (fun _ => (grows_genPow _ _).atMost) (by omega)
  | ln e ih => exact un e _ 55 (by omega) ih fun a => (grows_genLn a).atMost
  | exp e ih => exact un e _ 53 (by omega) ih fun a => (grows_genExp a).atMost
  | sqrt e ih => exact un e _ 1 (by omega) ih fun a => (grows_emit _).atMost
  | sin e ih => exact un e _ 9 (by omega) ih fun a => (grows_genSin a).atMost
  | cos e ih => exact un e _ 9 (by omega) ih fun a => (grows_genCos a).atMost
  | neg e ih => exact un e _ 1 (by omega) ih fun a => (grows_emit _).atMost

/-- **C99**, recorded computations: the reported instruction count is the number of nodes plus two for every `ln`,
`exp`, `sqrt`, `sin` or `cos`; the reported number of constants is that of the named constants passed; and the generated
code has at most 109 instructions per node and one per named constant. -/
theorem C99_recorded (g : JitRepr F) (ds ps : List String) (cs : List (String × F)) (f : Compiled F)
    (h : compileFinalTagless g ds ps cs = .ok f) :
    f.stats.clifInstructions = Spec.nodes (Spec.graphTree g) + 2 * Spec.functionCalls (Spec.graphTree g) ∧
    f.stats.embeddedConstants = cs.length ∧ f.stats.codeSizeBytes = 128 ∧
    f.code.length ≤ 109 * Spec.nodes (Spec.graphTree g) + cs.length := by
  rw [compileFinalTagless_stats h]
  refine ⟨estimateComplexity_eq g, rfl, rfl, ?_⟩
  unfold compileFinalTagless at h
  split at h
  · rename_i n code r hb
    cases h
    simp only [build] at hb
    split at hb
    · rename_i r' b hr
      cases hb
      have := (Jit.grows_bindConstants (varMapOf ds ps) cs).atMost.bind
        (fun m => Jit.generateIr_atMost m g) le_rfl _ _ _ hr
      simpa using this
    · cases hb
  · cases h

omit [FloatOps F] in
theorem functionCalls_arithmetic {names : List String} {e : Expr F} (he : Arithmetic names e) :
    Spec.functionCalls e = 0 := by
  induction e <;> simp_all [Arithmetic, Spec.functionCalls]

omit [FloatOps F] in
theorem Jit.bindConstants_keeps (cs : List (String × F)) (m : FMap String Reg) (b : Builder F) {m' b'}
    (h : bindConstants m cs b = .ok (m', b')) (n : String) (hn : m.get n ≠ none) : m'.get n ≠ none := by
  induction cs generalizing m b with
  | nil => cases h; exact hn
  | cons c cs ih =>
    obtain ⟨name, v⟩ := c
    have h2 : bindConstants (m.insert name b.next) cs ⟨b.next + 1, b.code ++ [Inst.f64const v]⟩ = .ok (m', b') := h
    refine ih (m.insert name b.next) _ h2 ?_
    simp only [FMap.insert]
    split_ifs
    · simp
    · exact hn

theorem Jit.generateIr_length {varMap : FMap String Reg} {names : List String}
    (hm : ∀ n ∈ names, varMap.get n ≠ none) (g : JitRepr F) (hg : Arithmetic names (Spec.graphTree g)) :
    Grows (generateIr varMap g) (Spec.nodes (Spec.graphTree g) - Spec.mentions (Spec.graphTree g)) ∧
      Spec.mentions (Spec.graphTree g) ≤ Spec.nodes (Spec.graphTree g) := by
  have bin : ∀ (l r : JitRepr F) (mk : Reg → Reg → Inst F) (x y u w : ℕ),
      Grows (generateIr varMap l) (x - u) ∧ u ≤ x → Grows (generateIr varMap r) (y - w) ∧ w ≤ y →
      Grows (do
          let a ← generateIr varMap l
          let c ← generateIr varMap r
          Gen.emit (mk a c) : Gen F Reg) (1 + x + y - (u + w)) ∧ u + w ≤ 1 + x + y :=
    fun l r mk x y u w hl hr => ⟨grows_bind hl.1
      (fun _ => grows_bind (t := 1 + (y - w)) hr.1 (fun _ => grows_emit _)) (by omega), by omega⟩
  induction g with
  | constant c => exact ⟨grows_emit _, by simp [Spec.graphTree, Spec.mentions]⟩
  | named n =>
    obtain ⟨r, hr⟩ := Option.ne_none_iff_exists'.mp (hm n hg)
    simp only [generateIr, hr]
    exact ⟨grows_pure _, le_rfl⟩
  | add l r il ir => exact bin l r .fadd _ _ _ _ (il hg.1) (ir hg.2)
  | sub l r il ir => exact bin l r .fsub _ _ _ _ (il hg.1) (ir hg.2)
  | mul l r il ir => exact bin l r .fmul _ _ _ _ (il hg.1) (ir hg.2)
  | div l r il ir => exact bin l r .fdiv _ _ _ _ (il hg.1) (ir hg.2)
  | pow | ln | exp | sqrt | sin | cos | neg => exact hg.elim

/-- **C99**, recorded arithmetic: for a computation of any size built from literals, the variables of the signature
and the four arithmetic operators, the reported count is the number of generated instructions plus one for every mention
of a variable, less the named constants. -/
theorem C99_recorded_arithmetic_partial (g : JitRepr F) (ds ps : List String) (cs : List (String × F))
    (hg : Arithmetic (ds ++ ps) (Spec.graphTree g)) :
    ∃ f, compileFinalTagless g ds ps cs = .ok f ∧
      f.stats.clifInstructions + cs.length = f.code.length + Spec.mentions (Spec.graphTree g) := by
  obtain ⟨m, b, hb, hl⟩ := Jit.grows_bindConstants (varMapOf ds ps) cs ⟨ds.length + ps.length, []⟩
  have hm : ∀ n ∈ ds ++ ps, m.get n ≠ none := fun n hn => Jit.bindConstants_keeps cs _ _ hb n (by
    have := (Jit.known_iff ds ps (FMap.empty : FMap String F) n).mpr
      ((List.mem_append.mp hn).elim .inl fun h => .inr (.inl h))
    rcases this with h | h
    · exact h
    · exact absurd rfl h)
  obtain ⟨hG, hle⟩ := Jit.generateIr_length hm g hg
  obtain ⟨r, b', hb', hl'⟩ := hG b
  have hB : build (ds.length + ps.length) (do
      let m ← bindConstants (varMapOf ds ps) cs
      generateIr m g) = .ok (ds.length + ps.length, b'.code, r) := by
    simp only [build, bind, hb, hb']
  refine ⟨_, by simp only [compileFinalTagless, hB]; rfl, ?_⟩
  have h0 := functionCalls_arithmetic hg
  simp only [estimateComplexity_eq, h0]
  simp only [List.length_nil] at hl
  omega

/-- **C99** violated for recorded computations: `ln(x)` reports four instructions where 55 are generated. -/
theorem C99_recorded_violated : ∃ f, compileFinalTagless (.ln (.named "x") : JitRepr F) ["x"] [] [] = .ok f ∧
    f.stats.clifInstructions = 4 ∧ f.code.length = 55 := by
  obtain ⟨r, b, hb, hl⟩ := Jit.grows_genLn (F := F) 0 ⟨1, []⟩
  have hB : build (["x"].length + ([] : List String).length) (do
      let m ← bindConstants (varMapOf ["x"] []) ([] : List (String × F))
      generateIr m (.ln (.named "x"))) = .ok (1, b.code, r) := by
    have : (do
      let m ← bindConstants (varMapOf ["x"] []) ([] : List (String × F))
      generateIr m (.ln (.named "x")) : Gen F Reg) = genLn 0 := rfl
    simp only [build, this, List.length_singleton, List.length_nil, Nat.add_zero, hb]
  refine ⟨_, by simp only [compileFinalTagless, hB]; rfl, rfl, ?_⟩
  simpa using hl

/-- a recorded computation with a named constant: five nodes, two mentions of variables, one named constant,
four instructions -/
example : Arithmetic (["x"] ++ ["m"])
    (Spec.graphTree (.mul (.sub (.named "x") (.named "m")) (.constant one) : JitRepr F)) := by
  simp [Arithmetic, Spec.graphTree]

/-- **C48** in terms of operators: simplification never increases the number of operators and functions. -/
theorem C48_operations (e : Expr F) : Spec.operations e.simplify ≤ Spec.operations e := by
  rw [← C99_complexity, ← C99_complexity]; exact C48_complexity e

end
end Verif
