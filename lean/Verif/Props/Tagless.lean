import Verif.Spec.Tagless
import Verif.Props.Printing
import Verif.Props.MathJit
import Verif.Lemmas.XSum

/-!
# C65, C66: final-tagless programs and helpers
-/

namespace Verif
open XReal Spec Tagless

/-! ### C65 -/
section C65
variable {F : Type} [FloatOps F]

/-- **C65**: for every program, direct evaluation gives the value of the recorded computation. -/
theorem C65_interpreters_agree (p : Program F) (hp : Parametric p) (ρ : String → F) :
    p F directEval ρ = graphValue ρ (p (JitRepr F) jitEval .named) := by
  refine hp F (JitRepr F) (fun v g => v = graphValue ρ g) directEval jitEval ρ .named ?_
    (fun _ => rfl)
  constructor <;> intros <;> simp_all [directEval, jitEval, graphValue]

/-- The forms of the pretty printer. -/
def prettyShape (num : F → List Char) : JitRepr F → Printing.Shape (JitRepr F)
  | .constant c => .tok (num c)
  | .named n => .tok n.toList
  | .add l r => .bin [' ', '+', ' '] l r
  | .sub l r => .bin [' ', '-', ' '] l r
  | .mul l r => .bin [' ', '*', ' '] l r
  | .div l r => .bin [' ', '/', ' '] l r
  | .pow l r => .bin [' ', '^', ' '] l r
  | .ln e => .call ['l', 'n'] e
  | .exp e => .call ['e', 'x', 'p'] e
  | .sqrt e => .call ['s', 'q', 'r', 't'] e
  | .sin e => .call ['s', 'i', 'n'] e
  | .cos e => .call ['c', 'o', 's'] e
  | .neg e => .neg e

omit [FloatOps F] in
/-- The pretty printer prints the recorded computation. -/
theorem C65_pretty_print (num : F → List Char) (p : Program F) (hp : Parametric p) :
    p (List Char) (prettyPrint num) String.toList =
      graphText num (p (JitRepr F) jitEval .named) := by
  refine hp (List Char) (JitRepr F) (fun t g => t = graphText num g) (prettyPrint num) jitEval
    String.toList .named ?_ (fun _ => rfl)
  constructor <;> intros <;> simp_all [prettyPrint, jitEval, graphText, Expr.binText, Expr.callText]

omit [FloatOps F] in
theorem pretty_code {num : F → List Char} (h : RustDisplay num) :
    Printing.Code (graphText num) (prettyShape num) (fun e => nodes (graphTree e))
      (fun e => WellNamed (graphTree e)) where
  disp_eq e := by
    cases e <;> simp [graphText, prettyShape, Printing.Shape.render, Expr.binText, Expr.callText]
  inj e e' he he' hs := by
    cases e <;> cases e' <;> simp [prettyShape] at hs <;> first
      | (obtain ⟨rfl, rfl⟩ := hs; rfl)
      | (rw [h.injective _ _ hs])
      | (have := he _ .var; exact absurd hs.symm (num_ne_name h _ this.1 this.2.1 this.2.2))
      | (have := he' _ .var; exact absurd hs (num_ne_name h _ this.1 this.2.1 this.2.2))
      | (rw [String.toList_inj.mp hs])
  tok e t he hs := by
    cases e <;> simp [prettyShape] at hs
    · subst hs; exact clean_num h _
    · subst hs; exact clean_name (he _ .var).1
  call e f x he hs := by
    cases e <;> simp [prettyShape] at hs <;>
      (obtain ⟨rfl, rfl⟩ := hs
       exact ⟨by simp [Printing.Clean, Printing.isDelim], by simp,
        WellNamed.child he (by simp [graphTree, children]),
        nodes_child (by simp [graphTree, children])⟩)
  bin e op l r he hs := by
    cases e <;> simp [prettyShape] at hs <;>
      (obtain ⟨rfl, rfl, rfl⟩ := hs
       exact ⟨WellNamed.child he (by simp [graphTree, children]),
        WellNamed.child he (by simp [graphTree, children]),
        nodes_child (by simp [graphTree, children]), nodes_child (by simp [graphTree, children]),
        by simp⟩)
  neg e x he hs := by
    cases e <;> simp [prettyShape] at hs
    subst hs
    exact ⟨WellNamed.child he (by simp [graphTree, children]),
      nodes_child (by simp [graphTree, children])⟩
  op e op l r e' op' l' r' a b hs hs' hEq := by
    cases e <;> simp [prettyShape] at hs <;> obtain ⟨rfl, -, -⟩ := hs <;>
      cases e' <;> simp [prettyShape] at hs' <;> obtain ⟨rfl, -, -⟩ := hs' <;> simp at hEq ⊢
  dash e f x e' x' hs hs' := by
    cases e <;> simp [prettyShape] at hs <;> obtain ⟨rfl, -⟩ := hs <;> simp

/-- Two programs with the same pretty text compute the same function. -/
theorem C65_pretty_text_determines {num : F → List Char} (h : RustDisplay num) (p q : Program F)
    (hp : Parametric p) (hq : Parametric q)
    (np : WellNamed (graphTree (p (JitRepr F) jitEval .named)))
    (nq : WellNamed (graphTree (q (JitRepr F) jitEval .named)))
    (ht : p (List Char) (prettyPrint num) String.toList =
      q (List Char) (prettyPrint num) String.toList) (ρ : String → F) :
    p F directEval ρ = q F directEval ρ := by
  rw [C65_pretty_print num p hp, C65_pretty_print num q hq] at ht
  rw [C65_interpreters_agree p hp, C65_interpreters_agree q hq,
    (pretty_code h).injective np nq ht]

/-- A program that makes its variable with the trait's own `var` instead of taking it as an
argument is the identity function for the JIT interpreter and the constant zero for direct
evaluation. -/
theorem C65_trait_var_violated :
    let p : Program XReal := fun _ E _ => E.var "x"
    ∃ ρ : String → XReal, p XReal directEval ρ = fin 0 ∧
      graphValue ρ (p (JitRepr XReal) jitEval .named) = fin 1 :=
  ⟨fun _ => fin 1, rfl, rfl⟩

omit [FloatOps F] in
/-- The recorded computation lists exactly the variables it mentions. -/
theorem C65_collect_variables (g : JitRepr F) (n : String) :
    n ∈ g.collectVariables ↔ Occurs n (graphTree g) := by
  induction g <;> simp [JitRepr.collectVariables, graphTree, *] <;> grind [Occurs]

omit [FloatOps F] in
/-- The number of constants of a recorded computation is the number of constant leaves of its tree. -/
theorem C65_count_constants (g : JitRepr F) :
    g.countConstants = (Spec.constantLeaves (graphTree g)).length := by
  induction g <;> simp [JitRepr.countConstants, graphTree, Spec.constantLeaves, *]

/-! Generic functions built from the interpreter's operations satisfy `Parametric`. -/

theorem logistic_related {R S : Type} {rel : R → S → Prop} {E : MathExpr F R} {E' : MathExpr F S}
    (h : Related rel E E') {a b} (hab : rel a b) : rel (logistic E a) (logistic E' b) :=
  h.div _ _ _ _ (h.constant _) (h.add _ _ _ _ (h.constant _) (h.exp _ _ (h.neg _ _ hab)))

theorem softplus_related {R S : Type} {rel : R → S → Prop} {E : MathExpr F R} {E' : MathExpr F S}
    (h : Related rel E E') {a b} (hab : rel a b) : rel (softplus E a) (softplus E' b) :=
  h.ln _ _ (h.add _ _ _ _ (h.constant _) (h.exp _ _ hab))

theorem hornerExpr_related {R S : Type} {rel : R → S → Prop} {E : MathExpr F R} {E' : MathExpr F S}
    (h : Related rel E E') {cs ds} (hcd : List.Forall₂ rel cs ds) {a b} (hab : rel a b) :
    rel (hornerExpr E cs a) (hornerExpr E' ds b) := by
  induction hcd with
  | nil => exact h.constant _
  | cons hc hcs ih =>
    cases hcs with
    | nil => exact hc
    | cons hd hds =>
      rw [hornerExpr_cons, hornerExpr_cons]
      exact h.add _ _ _ _ (h.mul _ _ _ _ ih hab) hc

theorem horner_related {R S : Type} {rel : R → S → Prop} {E : MathExpr F R} {E' : MathExpr F S}
    (h : Related rel E E') (cs : List F) {a b} (hab : rel a b) :
    rel (horner E cs a) (horner E' cs b) := by
  rw [← C68_expression_variant_agrees, ← C68_expression_variant_agrees]
  refine hornerExpr_related h ?_ hab
  rw [List.forall₂_map_left_iff, List.forall₂_map_right_iff]
  exact List.forall₂_same.2 fun c _ => h.constant c

theorem fromRoots_related {R S : Type} {rel : R → S → Prop} {E : MathExpr F R} {E' : MathExpr F S}
    (h : Related rel E E') (rs : List F) {a b} (hab : rel a b) :
    rel (fromRoots E rs a) (fromRoots E' rs b) := by
  cases rs with
  | nil => exact h.constant _
  | cons r rs =>
    have key : ∀ (l : List F) s t, rel s t →
        rel (l.foldl (fun result root => E.mul result (E.sub a (E.constant root))) s)
          (l.foldl (fun result root => E'.mul result (E'.sub b (E'.constant root))) t) := by
      intro l
      induction l with
      | nil => intro s t hst; exact hst
      | cons c l ih =>
        intro s t hst
        exact ih _ _ (h.mul _ _ _ _ hst (h.sub _ _ _ _ hab (h.constant _)))
    exact key rs _ _ (h.sub _ _ _ _ hab (h.constant _))

theorem hornerDerivative_related {R S : Type} {rel : R → S → Prop} {E : MathExpr F R}
    {E' : MathExpr F S} (h : Related rel E E') (cs : List F) {a b} (hab : rel a b) :
    rel (hornerDerivative E cs a) (hornerDerivative E' cs b) := by
  unfold hornerDerivative
  split_ifs
  · exact h.constant _
  · exact horner_related h _ hab

/-- The statistical and polynomial helpers, applied to an argument, are programs to which the
theorems above apply. -/
theorem C65_helpers_parametric (cs : List F) (n : String) :
    Parametric (fun _ E a => logistic E (a n) : Program F) ∧
    Parametric (fun _ E a => sigmoid E (a n) : Program F) ∧
    Parametric (fun _ E a => softplus E (a n) : Program F) ∧
    Parametric (fun _ E a => horner E cs (a n) : Program F) ∧
    Parametric (fun _ E a => hornerDerivative E cs (a n) : Program F) ∧
    Parametric (fun _ E a => fromRoots E cs (a n) : Program F) :=
  ⟨fun _ _ _ _ _ _ _ h hab => logistic_related h (hab n),
   fun _ _ _ _ _ _ _ h hab => logistic_related h (hab n),
   fun _ _ _ _ _ _ _ h hab => softplus_related h (hab n),
   fun _ _ _ _ _ _ _ h hab => horner_related h cs (hab n),
   fun _ _ _ _ _ _ _ h hab => hornerDerivative_related h cs (hab n),
   fun _ _ _ _ _ _ _ h hab => fromRoots_related h cs (hab n)⟩

/-- The distribution patterns that need no gamma function are such programs too. -/
theorem C65_patterns_parametric (x m s : String) :
    Parametric (fun _ E a => standardNormalLogDensity E (a x) : Program F) ∧
    Parametric (fun _ E a => normalLogDensity E (a x) (a m) (a s) : Program F) ∧
    Parametric (fun _ E a => poissonLogDensity E (a x) (a m) : Program F) ∧
    Parametric (fun _ E a => exponentialLogDensity E (a x) (a m) : Program F) ∧
    Parametric (fun _ E a => cauchyLogDensity E (a x) (a m) (a s) : Program F) := by
  refine ⟨?_, ?_, ?_, ?_, ?_⟩ <;> intro R S rel E E' a b h hab
  · exact h.sub _ _ _ _ (h.neg _ _ (h.mul _ _ _ _ (h.constant _) (h.ln _ _ (h.constant _))))
      (h.mul _ _ _ _ (h.constant _) (h.mul _ _ _ _ (hab x) (hab x)))
  · have hd := h.div _ _ _ _ (h.sub _ _ _ _ (hab x) (hab m)) (hab s)
    exact h.sub _ _ _ _ (h.sub _ _ _ _
      (h.neg _ _ (h.mul _ _ _ _ (h.constant _) (h.ln _ _ (h.constant _)))) (h.ln _ _ (hab s)))
      (h.mul _ _ _ _ (h.constant _) (h.mul _ _ _ _ hd hd))
  · exact h.sub _ _ _ _ (h.sub _ _ _ _ (h.mul _ _ _ _ (hab x) (h.ln _ _ (hab m))) (hab m))
      (h.ln _ _ (hab x))
  · exact h.sub _ _ _ _ (h.ln _ _ (hab m)) (h.mul _ _ _ _ (hab m) (hab x))
  · have hd := h.div _ _ _ _ (h.sub _ _ _ _ (hab x) (hab m)) (hab s)
    exact h.sub _ _ _ _ (h.sub _ _ _ _ (h.neg _ _ (h.ln _ _ (h.constant _))) (h.ln _ _ (hab s)))
      (h.ln _ _ (h.add _ _ _ _ (h.constant _) (h.mul _ _ _ _ hd hd)))

end C65

/-- `logistic` and `sigmoid` are `1 / (1 + e^{-x})`, `softplus` is `ln (1 + eˣ)`. -/
theorem C65_statistical_helpers (x : ℝ) :
    logistic directEval (fin x) = fin (1 / (1 + Real.exp (-x))) ∧
    sigmoid directEval (fin x) = fin (1 / (1 + Real.exp (-x))) ∧
    softplus directEval (fin x) = fin (Real.log (1 + Real.exp x)) := by
  have h1 : (0 : ℝ) < 1 + Real.exp (-x) := by positivity
  have h2 : (0 : ℝ) < 1 + Real.exp x := by positivity
  refine ⟨?_, ?_, ?_⟩ <;>
    simp [sigmoid, logistic, softplus, directEval, f_div _ _ h1.ne', f_ln _ h2]

example : graphValue (fun _ => fin 2) (horner jitEval [fin 1, fin 3, fin 2] (.named "x")) = fin 15 := by
  rw [← C65_interpreters_agree _ (C65_helpers_parametric [fin 1, fin 3, fin 2] "x").2.2.2.1]
  have := C68_horner [1, 3, 2] 2
  simp only [List.map] at this
  simp only [this]
  simp [Fin.sum_univ_succ]; norm_num

/-! ### C66 -/
section C66
variable {F R : Type}

theorem index_ok {α : Type} {l : List α} {i : ℕ} (h : i < l.length) : index l i = .ok l[i] := by
  simp [index, List.getElem?_eq_getElem h]

theorem index_error {α : Type} {l : List α} {i : ℕ} (h : l.length ≤ i) :
    index l i = .error ⟨"index out of bounds"⟩ := by
  simp [index, List.getElem?_eq_none h]

theorem dotLoop_eq (E : MathExpr F R) (ps ss : List R) (hlen : ps.length = ss.length) (k : ℕ)
    (r : R) : dotLoop E ps ss r (List.range' k (ps.length - k)) =
      .ok (((ps.zip ss).drop k).foldl (fun r p => E.add r (E.mul p.1 p.2)) r) := by
  unfold dotLoop
  induction hn : ps.length - k generalizing k r with
  | zero =>
    rw [List.drop_eq_nil_of_le (by simp; omega)]
    rfl
  | succ n ih =>
    have hk : k < ps.length := by omega
    have hk' : k < ss.length := by omega
    rw [List.range'_succ, List.foldlM_cons, List.drop_eq_getElem_cons (by simp; omega),
      index_ok hk, index_ok hk']
    simp only [List.foldl_cons, List.getElem_zip]
    exact ih (k + 1) (E.add r (E.mul ps[k] ss[k])) (by omega)

variable [FloatOps F]

/-- `dot_product` panics exactly when the lengths differ, whatever the interpreter. -/
theorem C66_dot_product_panics_iff (E : MathExpr F R) (ps ss : List R) :
    (∃ e, Tagless.dotProduct E ps ss = .error e) ↔ ps.length ≠ ss.length := by
  unfold Tagless.dotProduct
  split_ifs with h1 h2
  · simp [h1]
  · simp at h1 ⊢; exact h1
  · simp only [ne_eq, Decidable.not_not] at h1
    have h0 : 0 < ps.length := by
      rcases ps with _ | ⟨p, ps⟩
      · simp at h2
      · simp
    rw [index_ok h0, index_ok (h1 ▸ h0)]
    change (∃ e, dotLoop E ps ss _ _ = _) ↔ _
    rw [dotLoop_eq E ps ss h1]
    simp [h1]

theorem foldl_add_eq (l : List (XReal × XReal)) (r : XReal) :
    l.foldl (fun r p => FloatOps.add r (FloatOps.mul p.1 p.2)) r =
      r + (l.map fun p => FloatOps.mul p.1 p.2).sum := by
  induction l generalizing r with
  | nil => simp
  | cons a l ih =>
    rw [List.foldl_cons, ih, List.map_cons, List.sum_cons, ← add_assoc]; rfl

/-- `dot_product` is `Σ ηᵢ Tᵢ` for vectors of every length, infinities and NaN included. -/
theorem C66_dot_product (ps ss : List XReal) (h : ps.length = ss.length) :
    Tagless.dotProduct directEval ps ss = .ok ((ps.zip ss).map fun p => FloatOps.mul p.1 p.2).sum := by
  unfold Tagless.dotProduct
  rw [if_neg (by simp [h])]
  rcases ps with _ | ⟨p, ps⟩
  · rw [if_pos (by simp)]; rfl
  · rcases ss with _ | ⟨s, ss⟩
    · simp at h
    · rw [if_neg (by simp), index_ok (by simp), index_ok (by simp)]
      change dotLoop directEval _ _ _ _ = _
      rw [dotLoop_eq _ _ _ h]
      simp only [List.zip_cons_cons, List.drop_one, List.tail_cons, List.map_cons, List.sum_cons,
        List.getElem_cons_zero]
      rw [← foldl_add_eq]; rfl

/-- The slice version gives the same sum when the lengths agree (and ignores the excess of the
longer slice when they do not). -/
theorem C66_dot_product_array (ps ss : List XReal) :
    dotProductArray ps ss = ((ps.zip ss).map fun p => FloatOps.mul p.1 p.2).sum := by
  have key : ∀ (l : List XReal) (a : XReal), l.foldl FloatOps.add a = a + l.sum := by
    intro l
    induction l with
    | nil => intro a; simp
    | cons b l ih => intro a; rw [List.foldl_cons, ih, List.sum_cons, ← add_assoc]; rfl
  show FloatOps.sum _ = _
  unfold FloatOps.sum
  rw [key]
  exact zero_add _

/-- On finite vectors, the exponential-family log-density is `η·T − A + ln h`. -/
theorem C66_exp_fam_log_density (ps ss : List ℝ) (h : ps.length = ss.length) (a b : ℝ) :
    expFamLogDensity directEval (ps.map fin) (ss.map fin) (fin a) (fin b) =
      .ok (fin (∑ i : Fin ps.length, ps[i] * ss[i]'(h ▸ i.2) - a + b)) := by
  unfold expFamLogDensity
  rw [C66_dot_product _ _ (by simp [h])]
  have key : ((ps.map fin).zip (ss.map fin)).map (fun p => FloatOps.mul p.1 p.2) =
      (List.ofFn fun i : Fin ps.length => ps[i] * ss[i]'(h ▸ i.2)).map fin := by
    apply List.ext_getElem <;> simp [h]
  have hs : ∀ l : List ℝ, (l.map fin).sum = fin l.sum := by
    intro l
    induction l with
    | nil => rfl
    | cons a l ih => rw [List.map_cons, List.sum_cons, ih, List.sum_cons]; rfl
  rw [key, hs, List.sum_ofFn]
  rfl

/-- On finite vectors, the IID log-density is `η·ΣT − n·A + Σ ln h`. -/
theorem C66_iid_exp_fam_log_density (ps ss : List ℝ) (h : ps.length = ss.length) (a n b : ℝ) :
    iidExpFamLogDensity directEval (ps.map fin) (ss.map fin) (fin a) (fin n) (fin b) =
      .ok (fin (∑ i : Fin ps.length, ps[i] * ss[i]'(h ▸ i.2) - n * a + b)) := by
  have := C66_exp_fam_log_density ps ss h (n * a) b
  unfold expFamLogDensity at this
  unfold iidExpFamLogDensity
  rw [C66_dot_product _ _ (by simp [h])] at this ⊢
  exact this

/-- Both log-densities panic exactly on a length mismatch. -/
theorem C66_log_density_panics_iff (E : MathExpr F R) (ps ss : List R) (a n b : R) :
    ((∃ e, expFamLogDensity E ps ss a b = .error e) ↔ ps.length ≠ ss.length) ∧
    ((∃ e, iidExpFamLogDensity E ps ss a n b = .error e) ↔ ps.length ≠ ss.length) := by
  rw [← C66_dot_product_panics_iff E]
  unfold expFamLogDensity iidExpFamLogDensity
  cases Tagless.dotProduct E ps ss with
  | error e => exact ⟨by simp [bind, Except.bind], by simp [bind, Except.bind]⟩
  | ok v => exact ⟨by simp [bind, Except.bind], by simp [bind, Except.bind]⟩

omit [FloatOps F] in
theorem column_sum (E : MathExpr F R) (rest : List (List R)) (j : ℕ) (s : R)
    (h : ∀ row ∈ rest, j < row.length) :
    rest.foldlM (fun sum row => do
      let v ← index row j
      (.ok (E.add sum v) : Except Panic R)) s =
      .ok ((rest.filterMap fun row => row[j]?).foldl E.add s) := by
  induction rest generalizing s with
  | nil => rfl
  | cons row rest ih =>
    have hj := h row (by simp)
    rw [List.foldlM_cons, index_ok hj]
    change rest.foldlM _ (E.add s row[j]) = _
    rw [ih _ fun r hr => h r (by simp [hr])]
    simp [List.getElem?_eq_getElem hj]

omit [FloatOps F] in
theorem column_panics (E : MathExpr F R) (rest : List (List R)) (j : ℕ) (s : R)
    (h : ∃ row ∈ rest, row.length ≤ j) :
    ∃ e, rest.foldlM (fun sum row => do
      let v ← index row j
      (.ok (E.add sum v) : Except Panic R)) s = .error e := by
  induction rest generalizing s with
  | nil => simp at h
  | cons row rest ih =>
    rw [List.foldlM_cons]
    by_cases hj : j < row.length
    · rw [index_ok hj]
      obtain ⟨r, hr, hl⟩ := h
      rcases List.mem_cons.1 hr with rfl | hr
      · omega
      · exact ih _ ⟨r, hr, hl⟩
    · rw [index_error (not_lt.1 hj)]
      exact ⟨_, rfl⟩

theorem mapM_ok {α β : Type} (l : List α) (f : α → Except Panic β) (g : α → β)
    (h : ∀ a ∈ l, f a = .ok (g a)) : l.mapM f = .ok (l.map g) := by
  induction l with
  | nil => rfl
  | cons a l ih =>
    rw [List.mapM_cons, h a (by simp), ih fun b hb => h b (by simp [hb])]; rfl

theorem mapM_error {α β : Type} (l : List α) (f : α → Except Panic β)
    (h : ∃ a ∈ l, ∃ e, f a = .error e) : ∃ e, l.mapM f = .error e := by
  induction l with
  | nil => simp at h
  | cons a l ih =>
    rw [List.mapM_cons]
    cases ha : f a with
    | error e => exact ⟨e, rfl⟩
    | ok b =>
      obtain ⟨c, hc, e, he⟩ := h
      rcases List.mem_cons.1 hc with rfl | hc
      · rw [ha] at he; cases he
      · obtain ⟨e, h'⟩ := ih ⟨c, hc, e, he⟩
        rw [h']; exact ⟨e, rfl⟩

/-- `sum_sufficient_stats` adds the rows componentwise, for any number of rows. -/
theorem C66_sum_sufficient_stats (first : List ℝ) (rest : List (List ℝ))
    (h : ∀ row ∈ rest, row.length = first.length) :
    Tagless.sumSufficientStats directEval ((first :: rest).map (List.map fin)) =
      .ok ((List.range first.length).map fun j =>
        fin (((first :: rest).map fun row => row.getD j 0).sum)) := by
  simp only [Tagless.sumSufficientStats, List.map_cons, List.length_map]
  refine mapM_ok _ _ _ fun j hj => ?_
  have hj' : j < first.length := by simpa using hj
  rw [index_ok (by simpa using hj')]
  change List.foldlM _ _ _ = _
  rw [column_sum _ _ _ _ (by simpa using fun row hr => (h row hr).symm ▸ hj')]
  congr 1
  simp only [List.getElem_map, List.filterMap_map]
  have key : ∀ (l : List (List ℝ)) (a : ℝ), (∀ row ∈ l, row.length = first.length) →
      (l.filterMap ((fun row => row[j]?) ∘ List.map fin)).foldl directEval.add (fin a) =
      fin (a + (l.map fun row => row.getD j 0).sum) := by
    intro l
    induction l with
    | nil => intro a _; simp
    | cons row l ih =>
      intro a hl
      have hr : j < row.length := (hl row (by simp)).symm ▸ hj'
      simp only [List.filterMap_cons, Function.comp_def, List.getElem?_map,
        List.getElem?_eq_getElem hr, Option.map_some, List.foldl_cons]
      have := ih (a + row[j]) fun r hr => hl r (by simp [hr])
      simp only [Function.comp_def, List.getElem?_map] at this
      rw [show directEval.add (fin a) (fin row[j]) = fin (a + row[j]) from rfl, this]
      simp [List.getD, hr, add_assoc]
  rw [key rest _ h]
  simp [List.getD, hj']

/-- It panics exactly when some later row is shorter than the first: a longer row is silently cut. -/
theorem C66_sum_sufficient_stats_panics_iff (E : MathExpr F R) (first : List R)
    (rest : List (List R)) :
    (∃ e, Tagless.sumSufficientStats E (first :: rest) = .error e) ↔
      ∃ row ∈ rest, row.length < first.length := by
  constructor
  · intro ⟨e, he⟩
    by_contra hc
    push Not at hc
    simp only [Tagless.sumSufficientStats] at he
    rw [mapM_ok _ _ (fun j => (rest.filterMap fun row => row[j]?).foldl E.add
      (first.getD j (E.constant FloatOps.zero)))] at he
    · cases he
    · intro j hj
      have hj' : j < first.length := by simpa using hj
      rw [index_ok hj']
      change List.foldlM _ _ _ = _
      rw [column_sum _ _ _ _ fun row hr => lt_of_lt_of_le hj' (hc row hr)]
      simp [List.getD, hj']
  · rintro ⟨row, hr, hl⟩
    refine mapM_error _ _ ⟨row.length, by simpa using hl, ?_⟩
    rw [index_ok hl]
    exact column_panics E rest _ _ ⟨row, hr, le_rfl⟩

/-- A length mismatch between samples is not always reported: the second row's extra statistic
disappears. -/
theorem C66_mismatch_violated :
    Tagless.sumSufficientStats directEval [[fin 1], [fin 2, fin 3]] = .ok [fin 3] := by
  have h : (1 : ℝ) + 2 = 3 := by norm_num
  simp [Tagless.sumSufficientStats, index, directEval, bind, Except.bind, pure, Except.pure, h]

theorem addRow_eq (result row : List ℝ) (h : row.length ≤ result.length) :
    addRow (result.map fin) (row.map fin) =
      .ok ((List.range result.length).map fun j => fin (result.getD j 0 + row.getD j 0)) := by
  have key : ∀ (k : ℕ) (row result : List ℝ), k + row.length ≤ result.length →
      ((row.map fin).zipIdx k).foldlM (fun result p => do
        let old ← index result p.2
        (.ok (result.set p.2 (FloatOps.add old p.1)) : Except Panic (List XReal)))
        (result.map fin) =
      .ok ((List.range result.length).map fun j =>
        fin (result.getD j 0 + if j < k then 0 else row.getD (j - k) 0)) := by
    intro k row
    induction row generalizing k with
    | nil =>
      intro result _
      simp only [List.map_nil, List.zipIdx_nil, List.foldlM_nil, pure, Except.pure]
      congr 1
      apply List.ext_getElem <;> simp +contextual [List.getD]
    | cons r row ih =>
      intro result hl
      simp only [List.length_cons] at hl
      have hk : k < result.length := by omega
      rw [List.map_cons, List.zipIdx_cons, List.foldlM_cons]
      simp only
      have hk' : k < (result.map fin).length := by simpa using hk
      rw [index_ok hk']
      change List.foldlM _ ((result.map fin).set k (FloatOps.add (result.map fin)[k] (fin r))) _ = _
      rw [show FloatOps.add (result.map fin)[k] (fin r) = fin (result[k] + r) by simp,
        ← List.map_set, ih (k + 1) _ (by simp; omega)]
      congr 1
      rw [List.length_set]
      apply List.map_congr_left
      intro j hj
      have hj' : j < result.length := by simpa using hj
      congr 1
      rcases lt_trichotomy j k with h1 | h1 | h1
      · simp [List.getD, h1, h1.ne', show j < k + 1 by omega]
      · subst h1; simp [List.getD, hk]
      · obtain ⟨m, rfl⟩ : ∃ m, j = k + 1 + m := ⟨j - (k + 1), by omega⟩
        simp [List.getD, List.getElem?_set, show k ≠ k + 1 + m by omega,
          show ¬ k + 1 + m < k + 1 by omega, show ¬ k + 1 + m < k by omega,
          show k + 1 + m - k = m + 1 by omega]
  have := key 0 row result (by omega)
  simpa [addRow] using this

/-- `sum_stats_array` computes the same componentwise sums. -/
theorem C66_sum_stats_array (first : List ℝ) (rest : List (List ℝ))
    (h : ∀ row ∈ rest, row.length ≤ first.length) :
    sumStatsArray ((first :: rest).map (List.map fin)) =
      .ok ((List.range first.length).map fun j =>
        fin (((first :: rest).map fun row => row.getD j 0).sum)) := by
  have key : ∀ (l : List (List ℝ)) (n : ℕ) (v : ℕ → ℝ), (∀ row ∈ l, row.length ≤ n) →
      (l.map (List.map fin)).foldlM addRow ((List.range n).map fun j => fin (v j)) =
      .ok ((List.range n).map fun j => fin (v j + (l.map fun row => row.getD j 0).sum)) := by
    intro l n
    induction l with
    | nil => intro v _; simp [pure, Except.pure]
    | cons row l ih =>
      intro v hl
      rw [List.map_cons, List.foldlM_cons,
        show (List.range n).map (fun j => fin (v j)) = ((List.range n).map v).map fin by simp,
        addRow_eq _ _ (by simpa using hl row (by simp))]
      change List.foldlM _ _ _ = _
      simp only [List.length_map, List.length_range]
      rw [ih _ fun r hr => hl r (by simp [hr])]
      congr 1
      apply List.map_congr_left
      intro j hj
      have hj' : j < n := by simpa using hj
      simp [List.getD, hj', add_assoc]
  have h0 := key (first :: rest) first.length (fun _ => 0) (by simpa using h)
  simp only [zero_add] at h0
  rw [← h0]
  simp [sumStatsArray, List.map_const']

example : sumStatsArray [[fin 1, fin 2], [fin 3, fin 4]] = .ok [fin 4, fin 6] := by
  have := C66_sum_stats_array [1, 2] [[3, 4]] (by simp)
  norm_num [List.range_succ] at this
  exact this

theorem addRow_length (result row : List F) :
    (row.length ≤ result.length → ∃ r, addRow result row = .ok r ∧ r.length = result.length) ∧
    (result.length < row.length → ∃ e, addRow result row = .error e) := by
  have key : ∀ (row : List F) (k : ℕ) (result : List F),
      (k + row.length ≤ result.length → ∃ r, (row.zipIdx k).foldlM (fun result p => do
        let old ← index result p.2
        (.ok (result.set p.2 (FloatOps.add old p.1)) : Except Panic (List F))) result = .ok r ∧
          r.length = result.length) ∧
      (k ≤ result.length → result.length < k + row.length →
        ∃ e, (row.zipIdx k).foldlM (fun result p => do
        let old ← index result p.2
        (.ok (result.set p.2 (FloatOps.add old p.1)) : Except Panic (List F))) result =
          .error e) := by
    intro row
    induction row with
    | nil => exact fun k result => ⟨fun _ => ⟨result, rfl, rfl⟩, fun h1 h2 => by simp at h2; omega⟩
    | cons r row ih =>
      intro k result
      rw [List.zipIdx_cons, List.foldlM_cons, List.length_cons]
      simp only
      by_cases hk : k < result.length
      · rw [index_ok hk]
        have := ih (k + 1) (result.set k (FloatOps.add result[k] r))
        simp only [List.length_set] at this
        exact ⟨fun h => this.1 (by omega), fun _ h => this.2 (by omega) (by omega)⟩
      · rw [index_error (not_lt.1 hk)]
        exact ⟨fun h => by omega, fun _ _ => ⟨_, rfl⟩⟩
  have := key row 0 result
  simp only [Nat.zero_add, Nat.zero_le, true_implies] at this
  exact this

/-- `sum_stats_array` panics exactly when some later row is longer than the first. -/
theorem C66_sum_stats_array_panics_iff (first : List F) (rest : List (List F)) :
    (∃ e, sumStatsArray (first :: rest) = .error e) ↔
      ∃ row ∈ rest, first.length < row.length := by
  have key : ∀ (l : List (List F)) (v : List F),
      (∃ e, l.foldlM addRow v = .error e) ↔ ∃ row ∈ l, v.length < row.length := by
    intro l
    induction l with
    | nil => intro v; simp [pure, Except.pure]
    | cons row l ih =>
      intro v
      rw [List.foldlM_cons]
      by_cases h : row.length ≤ v.length
      · obtain ⟨r, hr, hl⟩ := (addRow_length v row).1 h
        rw [hr]
        refine (ih r).trans ?_
        rw [hl]
        simp [not_lt.2 h]
      · obtain ⟨e, he⟩ := (addRow_length v row).2 (not_le.1 h)
        rw [he]
        exact ⟨fun _ => ⟨row, by simp, not_le.1 h⟩, fun _ => ⟨e, rfl⟩⟩
  rw [sumStatsArray, key]
  simp

/-- `log_sum_exp` of log-densities is the log of the sum of the densities: for every list of finite
or `−∞` values (the empty list included, whose result is `−∞`). -/
theorem C66_log_sum_exp (vs : List XReal) (h : ∀ v ∈ vs, v.IsFin ∨ v = ninf) :
    density (logSumExp directEval vs) = (vs.map density).sum := by
  have hexp : ∀ v : XReal, v.IsFin ∨ v = ninf →
      directEval.exp v = fin (density v) ∧ 0 ≤ density v := by
    rintro v (⟨a, rfl⟩ | rfl)
    · exact ⟨rfl, (Real.exp_pos a).le⟩
    · exact ⟨rfl, le_rfl⟩
  have hln : ∀ a : ℝ, 0 ≤ a → density (directEval.ln (fin a)) = a := by
    intro a ha
    rcases ha.eq_or_lt with rfl | ha
    · simp [directEval]
    · simp [directEval, f_ln _ ha, Real.exp_log ha]
  have hfold : ∀ (l : List XReal) (a : ℝ), 0 ≤ a → (∀ v ∈ l, v.IsFin ∨ v = ninf) →
      ∃ b, 0 ≤ b ∧ l.foldl (fun sum x => directEval.add sum (directEval.exp x)) (fin a) = fin b ∧
        b = a + (l.map density).sum := by
    intro l
    induction l with
    | nil => intro a ha _; exact ⟨a, ha, rfl, by simp⟩
    | cons v l ih =>
      intro a ha hl
      obtain ⟨h1, h2⟩ := hexp v (hl v (by simp))
      obtain ⟨b, hb, hb', hb''⟩ := ih (a + density v) (by linarith) fun w hw => hl w (by simp [hw])
      refine ⟨b, hb, ?_, by rw [hb'']; simp [add_assoc]⟩
      rw [List.foldl_cons, h1]; exact hb'
  match vs, h with
  | [], _ => rfl
  | [v], _ => simp [logSumExp]
  | v :: w :: l, h =>
    obtain ⟨h1, h2⟩ := hexp v (h v (by simp))
    obtain ⟨b, hb, hb', hb''⟩ := hfold (w :: l) (density v) h2 fun u hu =>
      h u (by simp only [List.mem_cons] at hu ⊢; tauto)
    simp only [logSumExp, h1]
    rw [hb', hln b hb, hb'', List.map_cons (l := w :: l), List.sum_cons]

example : density (logSumExp directEval [fin 0, ninf, fin 1]) = 1 + Real.exp 1 := by
  rw [C66_log_sum_exp _ (by simp)]; simp

end C66
end Verif
