import Verif.Lemmas.JitGen
import Verif.Spec.Symbolic
import Verif.Lemmas.Symbolic

/-! C59: generated code computes the expression. -/

namespace Verif
open Classical Jit Spec.Jit FloatOps

section C59
variable {F : Type} [FloatOps F] [FloatBits F]

/-- The values that variables have when a function compiled for the data variables `ds`, the
parameter variables `ps` and the constants `cs` runs on `args`: an argument, or else a constant. -/
def Spec.Jit.bindings (ds ps : List String) (cs : FMap String F) (args : List F) (n : String) :
    Option F :=
  (lookupArgs (ds ++ ps) args n).or (cs.get n)

omit [FloatOps F] [FloatBits F] in
theorem Jit.known_iff (ds ps : List String) (cs : FMap String F) (n : String) :
    Known (varMapOf ds ps) cs n ↔ n ∈ ds ∨ n ∈ ps ∨ cs.get n ≠ none := by
  rw [Known, varMapOf_get, lookupArgs_isSome _ _ _ (by simp), List.mem_append, or_assoc]

omit [FloatBits F] in
/-- `compile_expression` succeeds exactly when every variable of the expression is a data variable,
a parameter variable or a constant. -/
theorem C59_compiles_iff (e : Expr F) (ds ps : List String) (cs : FMap String F) (k : ℕ) :
    (∃ f, compileExpression e ds ps cs k = .ok f) ↔
      ∀ n, Spec.Occurs n e → n ∈ ds ∨ n ∈ ps ∨ cs.get n ≠ none := by
  constructor
  · rintro ⟨f, hf⟩ n hn
    by_contra hc
    rw [← Jit.known_iff] at hc
    have hex : ∃ x ∈ e.collectVariables, (fun m => decide (¬ Known (varMapOf ds ps) cs m)) x = true :=
      ⟨n, (Expr.mem_collectVariables e n).mpr hn, by simpa using hc⟩
    obtain ⟨m, hm⟩ := Option.isSome_iff_exists.mp (List.find?_isSome.mpr hex)
    obtain ⟨hm1, pre, post, hs, hpre⟩ := List.find?_eq_some_iff_append.mp hm
    have := genExpr_error e hs (fun a ha => by simpa using hpre a ha) (by simpa using hm1)
      ⟨ds.length + ps.length, []⟩
    simp [compileExpression, build, this] at hf
  · intro h
    obtain ⟨r, b', h1, -⟩ := genExpr_appends (varMap := varMapOf ds ps) (constants := cs) e
      (fun n hn => (Jit.known_iff ds ps cs n).mpr (h n ((Expr.mem_collectVariables e n).mp hn)))
      ⟨ds.length + ps.length, []⟩
    simp only [compileExpression, build, h1]
    exact ⟨_, rfl⟩

omit [FloatBits F] in
/-- Otherwise the error names the first unknown variable in reading order. -/
theorem C59_unknown_variable (e : Expr F) (ds ps : List String) (cs : FMap String F) (k : ℕ)
    {n : String} {pre post : List String} (hs : e.collectVariables = pre ++ n :: post)
    (hp : ∀ m ∈ pre, m ∈ ds ∨ m ∈ ps ∨ cs.get m ≠ none)
    (hn : ¬ (n ∈ ds ∨ n ∈ ps ∨ cs.get n ≠ none)) :
    compileExpression e ds ps cs k =
      .error (.unsupportedExpression ("Unknown variable: " ++ n)) := by
  have := genExpr_error (varMap := varMapOf ds ps) e hs
    (fun m hm => (Jit.known_iff ds ps cs m).mpr (hp m hm))
    (fun h => hn ((Jit.known_iff ds ps cs n).mp h)) ⟨ds.length + ps.length, []⟩
  simp only [compileExpression, build, this]

/-- A compiled function run on as many arguments as it has variables computes the expression with
the shipped approximations, or traps; it never reads an undefined or ill-typed operand. -/
theorem C59_computes (e : Expr F) (ds ps : List String) (cs : FMap String F) (k : ℕ)
    {f : Compiled F} (hf : compileExpression e ds ps cs k = .ok f) (args : List F)
    (ha : args.length = ds.length + ps.length) :
    run f args = Result.ofOption (value (bindings ds ps cs args) e) := by
  have hk := (C59_compiles_iff e ds ps cs k).mp ⟨f, hf⟩
  have hfacts : VarFacts (varMapOf ds ps) cs (bindings ds ps cs args) (entryFacts args) := by
    intro n
    rw [varMapOf_get]
    have hl : (ds ++ ps).length = args.length := by simp [ha]
    cases h : lookupArgs (ds ++ ps) (List.range' 0 (ds.length + ps.length)) n with
    | some r =>
      obtain ⟨x, h1, h2⟩ := lookupArgs_index (ds ++ ps) args 0 n hl args
        (fun j x hx => by simpa using hx) (by simpa using h)
      exact ⟨x, by simp [bindings, h1], mem_entryFacts h2⟩
    | none =>
      have hn : n ∉ ds ++ ps := by
        rw [← lookupArgs_isSome (ds ++ ps) (List.range' 0 (ds.length + ps.length)) n (by simp)]
        simp [h]
      have : lookupArgs (ds ++ ps) args n = none := by
        by_contra hc
        exact hn ((lookupArgs_isSome _ _ _ hl).mp hc)
      simp [bindings, this]
  have hy := genExpr_yields (args := args.map Val.f64) e
    (fun n hn => (Jit.known_iff ds ps cs n).mpr (hk n ((Expr.mem_collectVariables e n).mp hn))) hfacts
  cases hb : build (ds.length + ps.length) (genExpr (varMapOf ds ps) cs e) with
  | error err => simp [compileExpression, hb] at hf
  | ok p =>
    obtain ⟨n, code, r⟩ := p
    have hn : n = ds.length + ps.length := by
      simp only [build] at hb
      split at hb <;> simp_all
    subst hn
    simp only [compileExpression, hb, Except.ok.injEq] at hf
    subst hf
    exact run_of_yields hb ha.symm (entry_ok args) hy

/-- The computed function of the example below is `x * x + c`. -/
example : ∃ f : Compiled F, compileExpression (.add (.pow (.var "x") (.const (ofRat 2))) (.var "c"))
    ["x"] [] (FMap.empty.insert "c" (ofRat 5)) 1 = .ok f :=
  (C59_compiles_iff _ _ _ _ _).mpr (by
    intro n hn
    cases hn with
    | addL h =>
      cases h with
      | powL h => cases h; simp
      | powR h => cases h
    | addR h => cases h; simp [FMap.insert])

/-! #### Recorded computations (`compile_final_tagless`) -/

/-- The values of variables for `compile_final_tagless`: constants override arguments. -/
def Spec.Jit.taglessBindings (ds ps : List String) (cs : List (String × F)) (args : List F)
    (n : String) : Option F :=
  (lookupArgs (cs.map Prod.fst) (cs.map Prod.snd) n).or (lookupArgs (ds ++ ps) args n)

omit [FloatOps F] [FloatBits F] in
theorem Jit.bindConstants_spec (cs : List (String × F)) (m : FMap String Reg) (b : Builder F) :
    ∃ m' b', bindConstants m cs b = .ok (m', b') ∧ b.code <+: b'.code ∧
      ∀ n, m'.get n ≠ none ↔ n ∈ cs.map Prod.fst ∨ m.get n ≠ none := by
  induction cs generalizing m b with
  | nil => exact ⟨m, b, rfl, List.prefix_rfl, by simp⟩
  | cons c cs ih =>
    obtain ⟨name, v⟩ := c
    obtain ⟨m', b', h1, h2, h3⟩ := ih (m.insert name b.next) ⟨b.next + 1, b.code ++ [.f64const v]⟩
    refine ⟨m', b', h1, (List.prefix_append _ _).trans h2, fun n => ?_⟩
    rw [h3, List.map_cons, List.mem_cons]
    simp only [FMap.insert]
    by_cases hn : n = name <;> simp [hn]

theorem Jit.bindConstants_ok {args : List (Val F)} {Γ : Facts F} (cs : List (String × F))
    (m : FMap String Reg) (σ : String → Option F) (b : Builder F) (hb : Ok args b Γ)
    (hm : ReprFacts m σ Γ) :
    ∃ m' b' Γ', bindConstants m cs b = .ok (m', b') ∧ Ok args b' Γ' ∧ Γ ⊆ Γ' ∧
      ReprFacts m' (fun n => (lookupArgs (cs.map Prod.fst) (cs.map Prod.snd) n).or (σ n)) Γ' := by
  induction cs generalizing m b Γ σ with
  | nil => exact ⟨m, b, Γ, rfl, hb, fun _ h => h, by simpa [lookupArgs] using hm⟩
  | cons c cs ih =>
    obtain ⟨name, v⟩ := c
    obtain ⟨m', b', Γ', h1, h2, hs, h3⟩ := ih (m.insert name b.next)
      (fun n => if name = n then some v else σ n) ⟨b.next + 1, b.code ++ [.f64const v]⟩
      (hb.emit ev_f64const) (by
        intro n r hr
        simp only [FMap.insert] at hr
        by_cases hn : n = name
        · subst hn
          obtain rfl : b.next = r := by simpa using hr
          exact ⟨v, by simp, List.mem_cons_self⟩
        · rw [if_neg hn] at hr
          obtain ⟨x, hx1, hx2⟩ := hm n r hr
          exact ⟨x, by simp [Ne.symm hn, hx1], List.mem_cons_of_mem _ hx2⟩)
    refine ⟨m', b', Γ', h1, h2, fun _ h => hs (List.mem_cons_of_mem _ h), ?_⟩
    intro n r hr
    obtain ⟨x, hx1, hx2⟩ := h3 n r hr
    refine ⟨x, ?_, hx2⟩
    rw [← hx1]
    simp only [List.map_cons, lookupArgs]
    cases lookupArgs (cs.map Prod.fst) (cs.map Prod.snd) n with
    | some y => rfl
    | none => by_cases hn : name = n <;> simp [hn]

omit [FloatBits F] in
/-- `compile_final_tagless` succeeds exactly when every variable recorded in the computation is a
data variable, a parameter variable or a constant. -/
theorem C59_tagless_compiles_iff (e : JitRepr F) (ds ps : List String) (cs : List (String × F)) :
    (∃ f, compileFinalTagless e ds ps cs = .ok f) ↔
      ∀ n ∈ e.collectVariables, n ∈ ds ∨ n ∈ ps ∨ n ∈ cs.map Prod.fst := by
  obtain ⟨m', b', h1, -, h3⟩ := Jit.bindConstants_spec cs (varMapOf ds ps)
    ⟨ds.length + ps.length, []⟩
  have hk : ∀ n, m'.get n ≠ none ↔ n ∈ ds ∨ n ∈ ps ∨ n ∈ cs.map Prod.fst := by
    intro n
    rw [h3, varMapOf_get, lookupArgs_isSome _ _ _ (by simp), List.mem_append]
    tauto
  constructor
  · rintro ⟨f, hf⟩ n hn
    by_contra hc
    rw [← hk, not_not] at hc
    have hex : ∃ x ∈ e.collectVariables, (fun m => decide (m'.get m = none)) x = true :=
      ⟨n, hn, by simpa using hc⟩
    obtain ⟨m, hm⟩ := Option.isSome_iff_exists.mp (List.find?_isSome.mpr hex)
    obtain ⟨hm1, pre, post, hs, hpre⟩ := List.find?_eq_some_iff_append.mp hm
    have := generateIr_error e hs (fun a ha => by simpa using hpre a ha) (by simpa using hm1) b'
    simp [compileFinalTagless, build, bind_def, h1, this] at hf
  · intro h
    obtain ⟨r, b'', h4, -⟩ := generateIr_appends (varMap := m') e (fun n hn => (hk n).mpr (h n hn)) b'
    simp only [compileFinalTagless, build, bind_def, h1, h4]
    exact ⟨_, rfl⟩

omit [FloatBits F] in
/-- Otherwise the error names the first unknown variable in reading order. -/
theorem C59_tagless_unknown_variable (e : JitRepr F) (ds ps : List String) (cs : List (String × F))
    {n : String} {pre post : List String} (hs : e.collectVariables = pre ++ n :: post)
    (hp : ∀ m ∈ pre, m ∈ ds ∨ m ∈ ps ∨ m ∈ cs.map Prod.fst)
    (hn : ¬ (n ∈ ds ∨ n ∈ ps ∨ n ∈ cs.map Prod.fst)) :
    compileFinalTagless e ds ps cs = .error (.compilationError ("Unknown variable: " ++ n)) := by
  obtain ⟨m', b', h1, -, h3⟩ := Jit.bindConstants_spec cs (varMapOf ds ps)
    ⟨ds.length + ps.length, []⟩
  have hk : ∀ n, m'.get n ≠ none ↔ n ∈ ds ∨ n ∈ ps ∨ n ∈ cs.map Prod.fst := by
    intro n
    rw [h3, varMapOf_get, lookupArgs_isSome _ _ _ (by simp), List.mem_append]
    tauto
  have := generateIr_error (varMap := m') e hs (fun m hm => (hk m).mpr (hp m hm))
    (by by_contra hc; exact hn ((hk n).mp hc)) b'
  simp only [compileFinalTagless, build, bind_def, h1, this]

/-- The compiled function computes the recorded computation. -/
theorem C59_tagless_computes (e : JitRepr F) (ds ps : List String) (cs : List (String × F))
    {f : Compiled F} (hf : compileFinalTagless e ds ps cs = .ok f) (args : List F)
    (ha : args.length = ds.length + ps.length) :
    run f args = Result.ofOption (reprValue (taglessBindings ds ps cs args) e) := by
  have hl : (ds ++ ps).length = args.length := by simp [ha]
  have hk := (C59_tagless_compiles_iff e ds ps cs).mp ⟨f, hf⟩
  have hfacts : ReprFacts (varMapOf ds ps) (lookupArgs (ds ++ ps) args) (entryFacts args) := by
    intro n r hr
    rw [varMapOf_get] at hr
    obtain ⟨x, h1, h2⟩ := lookupArgs_index (ds ++ ps) args 0 n hl args
      (fun j x hx => by simpa using hx) (by simpa using hr)
    exact ⟨x, h1, mem_entryFacts h2⟩
  have hy : Yields (args.map Val.f64) (entryFacts args) (do
      let m ← bindConstants (varMapOf ds ps) cs
      generateIr m e) (reprValue (taglessBindings ds ps cs args) e) := by
    intro b hb
    obtain ⟨m', b', Γ', h1, h2, hsub, h3⟩ := Jit.bindConstants_ok cs _ _ b hb hfacts
    obtain ⟨m'', b'', h1', h2', h3'⟩ := Jit.bindConstants_spec cs (varMapOf ds ps) b
    obtain ⟨rfl, rfl⟩ : m' = m'' ∧ b' = b'' := by simpa using h1.symm.trans h1'
    obtain ⟨r, b3, h4, h5⟩ := generateIr_yields (args := args.map Val.f64)
      (σ := taglessBindings ds ps cs args) (Γ := Γ') e (fun n hn => by
        rw [h3', varMapOf_get, lookupArgs_isSome _ _ _ (by simp), List.mem_append]
        have := hk n hn
        tauto) h3 b' h2
    refine ⟨r, b3, by rw [bind_def, h1]; exact h4, ?_⟩
    cases hv : reprValue (taglessBindings ds ps cs args) e with
    | none => rw [hv] at h5; exact h5
    | some v =>
      rw [hv] at h5
      obtain ⟨ρ, g1, g2, g3⟩ := h5
      exact ⟨ρ, g1, g2, g3.mono (List.cons_subset_cons _ hsub)⟩
  cases hb : build (ds.length + ps.length) (do
      let m ← bindConstants (varMapOf ds ps) cs
      generateIr m e) with
  | error err => simp [compileFinalTagless, hb] at hf
  | ok p =>
    obtain ⟨n, code, r⟩ := p
    have hn : n = ds.length + ps.length := by
      simp only [build] at hb
      split at hb <;> simp_all
    subst hn
    simp only [compileFinalTagless, hb, Except.ok.injEq] at hf
    subst hf
    exact run_of_yields hb ha.symm (entry_ok args) hy

omit [FloatOps F] [FloatBits F] in
theorem Jit.lookupArgs_perm {cs cs' : List (String × F)} (hp : cs.Perm cs')
    (hd : (cs.map Prod.fst).Nodup) (n : String) :
    lookupArgs (cs.map Prod.fst) (cs.map Prod.snd) n =
      lookupArgs (cs'.map Prod.fst) (cs'.map Prod.snd) n := by
  have key : ∀ l : List (String × F), (l.map Prod.fst).Nodup → ∀ v,
      lookupArgs (l.map Prod.fst) (l.map Prod.snd) n = some v ↔ (n, v) ∈ l := by
    intro l
    induction l with
    | nil => simp [lookupArgs]
    | cons c l ih =>
      intro hd v
      simp only [List.map_cons, List.nodup_cons] at hd
      have ih := ih hd.2
      simp only [List.map_cons, lookupArgs]
      cases h : lookupArgs (l.map Prod.fst) (l.map Prod.snd) n with
      | some w =>
        have hw := (ih w).mp h
        have hne : c.1 ≠ n := fun he => hd.1 (he ▸ List.mem_map_of_mem (f := Prod.fst) hw)
        rw [List.mem_cons]
        constructor
        · intro e; exact .inr ((ih v).mp (h.trans e))
        · rintro (e | e)
          · exact absurd (congrArg Prod.fst e).symm hne
          · exact h.symm.trans ((ih v).mpr e)
      | none =>
        have hnone : ∀ w, (n, w) ∉ l := fun w hw => by
          have := (ih w).mpr hw
          rw [h] at this; cases this
        obtain ⟨a, b⟩ := c
        by_cases hn : a = n
        · subst hn
          simp only [if_true, Option.some.injEq, List.mem_cons, Prod.mk.injEq, true_and]
          exact ⟨fun e => .inl e.symm, fun e => e.elim Eq.symm fun e => absurd e (hnone v)⟩
        · simp [hn, hnone, Ne.symm hn]
  have hd' : (cs'.map Prod.fst).Nodup := (hp.map _).nodup_iff.mp hd
  cases h : lookupArgs (cs'.map Prod.fst) (cs'.map Prod.snd) n with
  | some v => exact (key cs hd v).mpr (hp.mem_iff.mpr ((key cs' hd' v).mp h))
  | none =>
    cases h' : lookupArgs (cs.map Prod.fst) (cs.map Prod.snd) n with
    | none => rfl
    | some v =>
      have := (key cs' hd' v).mpr (hp.mem_iff.mp ((key cs hd v).mp h'))
      rw [h] at this; cases this

/-- The iteration order of the constants table does not change what the code computes. -/
theorem C59_tagless_order_irrelevant (e : JitRepr F) (ds ps : List String)
    {cs cs' : List (String × F)} (hp : cs.Perm cs') (hd : (cs.map Prod.fst).Nodup)
    {f f' : Compiled F} (hf : compileFinalTagless e ds ps cs = .ok f)
    (hf' : compileFinalTagless e ds ps cs' = .ok f') (args : List F)
    (ha : args.length = ds.length + ps.length) : run f args = run f' args := by
  rw [C59_tagless_computes e ds ps cs hf args ha, C59_tagless_computes e ds ps cs' hf' args ha]
  have : taglessBindings ds ps cs args = taglessBindings ds ps cs' args := by
    funext n
    simp only [taglessBindings, Jit.lookupArgs_perm hp hd]
  rw [this]

/-- A name that is both a variable and a constant is read as the argument by `compile_expression`
and as the constant by `compile_final_tagless`. -/
theorem C59_shadowing (x c : F) :
    ∃ f g : Compiled F,
      compileExpression (.var "x") ["x"] [] (FMap.empty.insert "x" c) 1 = .ok f ∧
      compileFinalTagless (.named "x") ["x"] [] [("x", c)] = .ok g ∧
      run f [x] = .value x ∧ run g [x] = .value c := by
  obtain ⟨f, hf⟩ := (C59_compiles_iff (F := F) (.var "x") ["x"] [] (FMap.empty.insert "x" c) 1).mpr
    (by intro n hn; cases hn; simp)
  obtain ⟨g, hg⟩ := (C59_tagless_compiles_iff (F := F) (.named "x") ["x"] [] [("x", c)]).mpr
    (by simp [JitRepr.collectVariables])
  refine ⟨f, g, hf, hg, ?_, ?_⟩
  · rw [C59_computes _ _ _ _ _ hf [x] rfl]
    simp [value, bindings, lookupArgs, Result.ofOption]
  · rw [C59_tagless_computes _ _ _ _ hg [x] rfl]
    simp [reprValue, taglessBindings, lookupArgs, Result.ofOption]

end C59

/-! #### Exact arithmetic -/

/-- Built from constants, variables, `+ - * /`, negation, square roots and powers with a literal
exponent 0, 1/2, 1, 2, 3 or 4. -/
inductive Spec.Algebraic : Expr XReal → Prop
  | const (c) : Algebraic (.const c)
  | var (n) : Algebraic (.var n)
  | add {l r} : Algebraic l → Algebraic r → Algebraic (.add l r)
  | sub {l r} : Algebraic l → Algebraic r → Algebraic (.sub l r)
  | mul {l r} : Algebraic l → Algebraic r → Algebraic (.mul l r)
  | div {l r} : Algebraic l → Algebraic r → Algebraic (.div l r)
  | neg {e} : Algebraic e → Algebraic (.neg e)
  | sqrt {e} : Algebraic e → Algebraic (.sqrt e)
  | pow {e} {c : ℝ} : Algebraic e → c ∈ ({0, 1/2, 1, 2, 3, 4} : Set ℝ) →
      Algebraic (.pow e (.const (.fin c)))

theorem Spec.Jit.value_algebraic [FloatBits XReal] {ρ : String → Option ℝ}
    {σ : String → Option XReal} {e : Expr XReal} (ha : Spec.Algebraic e)
    (hσ : ∀ n x, Spec.Occurs n e → ρ n = some x → σ n = some (.fin x)) {v : ℝ}
    (hv : Spec.value ρ e = some v) : Spec.Jit.value σ e = some (.fin v) := by
  induction ha generalizing v with
  | const c => rw [Spec.value_eq_const] at hv; simp [Spec.Jit.value, hv]
  | var n => exact hσ n v .var hv
  | add _ _ il ir =>
    obtain ⟨a, h1, b, h2, rfl⟩ := Spec.value_add.mp hv
    simp [Spec.Jit.value, il (fun n x hn => hσ n x (.addL hn)) h1,
      ir (fun n x hn => hσ n x (.addR hn)) h2]
  | sub _ _ il ir =>
    obtain ⟨a, h1, b, h2, rfl⟩ := Spec.value_sub.mp hv
    simp [Spec.Jit.value, il (fun n x hn => hσ n x (.subL hn)) h1,
      ir (fun n x hn => hσ n x (.subR hn)) h2]
  | mul _ _ il ir =>
    obtain ⟨a, h1, b, h2, rfl⟩ := Spec.value_mul.mp hv
    simp [Spec.Jit.value, il (fun n x hn => hσ n x (.mulL hn)) h1,
      ir (fun n x hn => hσ n x (.mulR hn)) h2]
  | div _ _ il ir =>
    obtain ⟨a, h1, b, h2, hb, rfl⟩ := Spec.value_div.mp hv
    simp [Spec.Jit.value, il (fun n x hn => hσ n x (.divL hn)) h1,
      ir (fun n x hn => hσ n x (.divR hn)) h2, XReal.f_div _ _ hb]
  | neg _ ih =>
    obtain ⟨a, h1, rfl⟩ := Spec.value_neg.mp hv
    simp [Spec.Jit.value, ih (fun n x hn => hσ n x (.neg hn)) h1]
  | sqrt _ ih =>
    obtain ⟨a, h1, h0, rfl⟩ := Spec.value_sqrt.mp hv
    simp [Spec.Jit.value, ih (fun n x hn => hσ n x (.sqrt hn)) h1, XReal.f_sqrt _ h0]
  | @pow e c _ hc ih =>
    obtain ⟨a, h1, b, h2, h3⟩ := Spec.value_pow.mp hv
    obtain rfl : c = b := by simpa [Spec.value] using h2
    have iha := ih (fun n x hn => hσ n x (.powL hn)) h1
    have hp := (Spec.powf_iff_realPow a c v).mpr h3
    have hnat : ∀ n : ℕ, c = n → v = a ^ n := by
      rintro n rfl
      rw [XReal.f_powf_nat] at hp
      exact (XReal.fin.inj hp).symm
    simp only [Set.mem_insert_iff, Set.mem_singleton_iff] at hc
    rcases hc with rfl | rfl | rfl | rfl | rfl | rfl
    · have hs : exprPowSpecial (.const (XReal.fin 0)) = some .one := by
        norm_num [exprPowSpecial, powSpecial]
      simp [Spec.Jit.value, hs, iha, powSpecialValue, hnat 0 (by simp)]
    · have hs : exprPowSpecial (.const (XReal.fin (1/2))) = some .root := by
        norm_num [exprPowSpecial, powSpecial]
      have : 0 ≤ a ∧ v = Real.sqrt a := by
        unfold Spec.realPow at h3
        split_ifs at h3 with p1 p2 p3 p4 p5
        · exact ⟨p1.le, by rw [Real.sqrt_eq_rpow]; exact (Option.some.inj h3).symm⟩
        · norm_num at p3
        · exact ⟨p2.ge, by rw [p2]; simpa using (Option.some.inj h3).symm⟩
        · obtain ⟨k, hk⟩ := p5
          exfalso
          have : (2 * k : ℤ) = 1 := by
            have : (2 * k : ℝ) = 1 := by rw [← hk]; norm_num
            exact_mod_cast this
          omega
      obtain ⟨h0, rfl⟩ := this
      rw [Spec.Jit.value, hs]
      simp [iha, powSpecialValue, XReal.f_sqrt _ h0]
    · have hs : exprPowSpecial (.const (XReal.fin 1)) = some .self := by
        norm_num [exprPowSpecial, powSpecial]
      simp [Spec.Jit.value, hs, iha, powSpecialValue, hnat 1 (by simp)]
    · have hs : exprPowSpecial (.const (XReal.fin 2)) = some .square := by
        norm_num [exprPowSpecial, powSpecial]
      simp [Spec.Jit.value, hs, iha, powSpecialValue, hnat 2 (by simp), pow_two]
    · have hs : exprPowSpecial (.const (XReal.fin 3)) = some .cube := by
        norm_num [exprPowSpecial, powSpecial]
      simp [Spec.Jit.value, hs, iha, powSpecialValue, hnat 3 (by simp)]
      ring
    · have hs : exprPowSpecial (.const (XReal.fin 4)) = some .fourth := by
        norm_num [exprPowSpecial, powSpecial]
      simp [Spec.Jit.value, hs, iha, powSpecialValue, hnat 4 (by simp)]
      ring

/-- In exact arithmetic, code compiled from an algebraic expression returns the expression's value,
whenever the expression has one under the values of its variables. -/
theorem C59_algebraic_exact [FloatBits XReal] (e : Expr XReal) (ha : Spec.Algebraic e)
    (ds ps : List String) (cs : FMap String XReal) (k : ℕ) {f : Compiled XReal}
    (hf : compileExpression e ds ps cs k = .ok f) (args : List XReal)
    (hl : args.length = ds.length + ps.length) (ρ : String → Option ℝ)
    (hρ : ∀ n x, Spec.Occurs n e → ρ n = some x → bindings ds ps cs args n = some (.fin x)) {v : ℝ}
    (hv : Spec.value ρ e = some v) : run f args = .value (.fin v) := by
  rw [C59_computes e ds ps cs k hf args hl, Spec.Jit.value_algebraic ha hρ hv]
  rfl

/-- `(x - mu)^2 / 2` with `mu` a constant. -/
example : Spec.Algebraic (.div (.pow (.sub (.var "x") (.var "mu")) (.const (.fin 2)))
      (.const (.fin 2))) ∧
    bindings ["x"] [] (FMap.empty.insert "mu" (.fin 3)) [.fin 5] "mu" = some (XReal.fin 3) ∧
    Spec.value (fun n => if n = "x" then some 5 else some 3)
      (.div (.pow (.sub (.var "x") (.var "mu")) (.const (.fin 2))) (.const (.fin 2))) = some 2 := by
  refine ⟨.div (.pow (.sub (.var _) (.var _)) (by simp)) (.const _), ?_, ?_⟩
  · simp [bindings, lookupArgs, FMap.insert]
  · have h : ¬ ("mu" = "x") := by decide
    norm_num [Spec.value, Spec.realPow, h]

end Verif
