import Verif.Spec.DoubleExact
import Verif.Spec.Symbolic
import Verif.Lemmas.Simplify
import Verif.Props.DoubleRunning
import Verif.Props.DoubleDiscrete
import Verif.Props.Convert

/-!
# C127: in floating point, the evaluators and the simplifier return the identical number
-/

namespace Verif
open Format FloatOps Expr Spec

variable {f : Format} {L : Libm}

theorem Steps.rep (hf : f.Std) {vars : FMap String (Flt f L)} {e : Expr (Flt f L)} {q : ℚ}
    (h : Steps f L vars e q) : f.Representable q := by
  induction h with
  | const h => exact h
  | var _ h => exact h
  | add _ _ h => exact (near_round hf h).1
  | sub _ _ h => exact (near_round hf h).1
  | mul _ _ h => exact (near_round hf h).1
  | div _ _ _ h => exact (near_round hf h).1
  | pow _ _ _ h => exact h
  | ln _ _ _ h => exact h
  | exp _ _ h => exact h
  | sqrt _ _ _ h => exact h
  | sin _ _ h => exact h
  | cos _ _ h => exact h
  | neg _ ih => exact rep_neg ih

theorem flt_sub_eq (a b : ℚ) : Flt.sub f (.fin a) (.fin b) = f.round (a - b) := by
  show f.round (a + -b) = _
  rw [sub_eq_add_neg]

theorem flt_div_eq {a b : ℚ} (hb : b ≠ 0) : Flt.div f (.fin a) (.fin b) = f.round (a / b) := by
  show (if b = 0 then _ else _) = _
  rw [if_neg hb]

theorem flt_ln_eq {a : ℚ} (ha : 0 < a) : Flt.ln L (.fin a) = L.ln a := by
  show (if 0 < a then _ else _) = _
  rw [if_pos ha]

theorem flt_sqrt_eq {a : ℚ} (ha : 0 ≤ a) : Flt.sqrt L (.fin a) = L.sqrt a := by
  show (if 0 ≤ a then _ else _) = _
  rw [if_pos ha]

/-- **C127.** `evaluate`, with its shortcuts for the constants 0 and 1, returns the number the operations give. -/
theorem C127_evaluate (hf : f.Std) {vars : FMap String (Flt f L)} {e : Expr (Flt f L)} {q : ℚ}
    (h : Steps f L vars e q) : e.evaluate vars = .ok (Flt.fin q) := by
  induction h with
  | const _ => rfl
  | var h _ => rw [Expr.evaluate, h]
  | add hl hr h il ir =>
    exact (eval_add_all (Steps.rep hf hl) (Steps.rep hf hr) il ir).trans (congrArg Except.ok h)
  | sub _ _ h il ir =>
    rw [Expr.evaluate, il, ir]
    exact congrArg Except.ok ((flt_sub_eq _ _).trans h)
  | mul hl hr h il ir =>
    exact (eval_mul_all (Steps.rep hf hl) (Steps.rep hf hr) il ir).trans (congrArg Except.ok h)
  | div _ _ h0 h il ir =>
    rw [Expr.evaluate, ir]
    show (if Flt.beq (.fin _) (.fin 0) then _ else _) = _
    rw [if_neg (by simp [Flt.beq, h0]), il]
    exact congrArg Except.ok ((flt_div_eq h0).trans h)
  | pow _ _ h _ il ir => rw [Expr.evaluate, il, ir]; exact congrArg Except.ok h
  | ln _ h0 h _ ih =>
    rw [Expr.evaluate, ih]
    show (if Flt.le (.fin _) (.fin 0) then _ else _) = _
    rw [if_neg (by simp [Flt.le, h0])]
    exact congrArg Except.ok ((flt_ln_eq h0).trans h)
  | exp _ h _ ih => rw [Expr.evaluate, ih]; exact congrArg Except.ok h
  | sqrt _ h0 h _ ih =>
    rw [Expr.evaluate, ih]
    show (if Flt.lt (.fin _) (.fin 0) then _ else _) = _
    rw [if_neg (by simp [Flt.lt, h0])]
    exact congrArg Except.ok ((flt_sqrt_eq h0).trans h)
  | sin _ h _ ih => rw [Expr.evaluate, ih]; exact congrArg Except.ok h
  | cos _ h _ ih => rw [Expr.evaluate, ih]; exact congrArg Except.ok h
  | neg _ ih => rw [Expr.evaluate, ih]; rfl

theorem singleMap_get {F : Type} (v n : String) (x : F) :
    (singleMap v x).get n = if n = v then some x else none := by
  unfold singleMap
  by_cases h : n = v
  · subst h; simp [FMap.empty, FMap.insert]
  · simp [FMap.empty, FMap.insert, h]

/-- **C127.** So does the evaluator for one variable. -/
theorem C127_single_var {v : String} {x : Flt f L} {e : Expr (Flt f L)} {q : ℚ}
    (h : Steps f L (singleMap v x) e q) : e.evaluateSingleVar v x = .ok (Flt.fin q) := by
  induction h with
  | const _ => rfl
  | var h _ =>
    rw [singleMap_get] at h
    rw [evaluateSingleVar]
    split_ifs at h ⊢ with h1
    exact congrArg Except.ok (Option.some.inj h)
  | add _ _ h il ir => rw [evaluateSingleVar, il, ir]; exact congrArg Except.ok h
  | sub _ _ h il ir =>
    rw [evaluateSingleVar, il, ir]
    exact congrArg Except.ok ((flt_sub_eq _ _).trans h)
  | mul _ _ h il ir => rw [evaluateSingleVar, il, ir]; exact congrArg Except.ok h
  | div _ _ h0 h il ir =>
    rw [evaluateSingleVar, ir]
    show (if Flt.beq (.fin _) (.fin 0) then _ else _) = _
    rw [if_neg (by simp [Flt.beq, h0]), il]
    exact congrArg Except.ok ((flt_div_eq h0).trans h)
  | pow _ _ h _ il ir => rw [evaluateSingleVar, il, ir]; exact congrArg Except.ok h
  | ln _ h0 h _ ih =>
    rw [evaluateSingleVar, ih]
    show (if Flt.le (.fin _) (.fin 0) then _ else _) = _
    rw [if_neg (by simp [Flt.le, h0])]
    exact congrArg Except.ok ((flt_ln_eq h0).trans h)
  | exp _ h _ ih => rw [evaluateSingleVar, ih]; exact congrArg Except.ok h
  | sqrt _ h0 h _ ih =>
    rw [evaluateSingleVar, ih]
    show (if Flt.lt (.fin _) (.fin 0) then _ else _) = _
    rw [if_neg (by simp [Flt.lt, h0])]
    exact congrArg Except.ok ((flt_sqrt_eq h0).trans h)
  | sin _ h _ ih => rw [evaluateSingleVar, ih]; exact congrArg Except.ok h
  | cos _ h _ ih => rw [evaluateSingleVar, ih]; exact congrArg Except.ok h
  | neg _ ih => rw [evaluateSingleVar, ih]; rfl

/-- two maps that agree where the first one is defined -/
theorem Steps.mono {vars vars' : FMap String (Flt f L)} (hm : ∀ n y, vars.get n = some y → vars'.get n = some y)
    {e : Expr (Flt f L)} {q : ℚ} (h : Steps f L vars e q) : Steps f L vars' e q := by
  induction h with
  | const h => exact .const h
  | var h h' => exact .var (hm _ _ h) h'
  | add _ _ h il ir => exact .add il ir h
  | sub _ _ h il ir => exact .sub il ir h
  | mul _ _ h il ir => exact .mul il ir h
  | div _ _ h0 h il ir => exact .div il ir h0 h
  | pow _ _ h h' il ir => exact .pow il ir h h'
  | ln _ h0 h h' ih => exact .ln ih h0 h h'
  | exp _ h h' ih => exact .exp ih h h'
  | sqrt _ h0 h h' ih => exact .sqrt ih h0 h h'
  | sin _ h h' ih => exact .sin ih h h'
  | cos _ h h' ih => exact .cos ih h h'
  | neg _ ih => exact .neg ih

theorem get_insert_of_single {F : Type} (m : FMap String F) (v : String) (x : F) (n : String) (y : F)
    (h : (singleMap v x).get n = some y) : (m.insert v x).get n = some y := by
  rw [singleMap_get] at h
  split_ifs at h with h1
  subst h1
  rw [← h]; simp [FMap.insert]

theorem batchFrom_steps (hf : f.Std) {v : String} {e : Expr (Flt f L)} (xs : List (Flt f L)) (qs : List ℚ)
    (h : List.Forall₂ (fun x q => Steps f L (singleMap v x) e q) xs qs) (m : FMap String (Flt f L)) :
    e.evaluateBatchFrom v m xs = .ok (qs.map Flt.fin) := by
  induction h generalizing m with
  | nil => rfl
  | cons h _ ih =>
    rw [evaluateBatchFrom]
    rw [C127_evaluate hf (Steps.mono (get_insert_of_single m v _) h), ih]
    rfl

/-- **C127.** Batches: one number per point, whichever batch evaluator is used. -/
theorem C127_batch (hf : f.Std) {v : String} {e : Expr (Flt f L)} {xs : List (Flt f L)} {qs : List ℚ}
    (h : List.Forall₂ (fun x q => Steps f L (singleMap v x) e q) xs qs) :
    e.evaluateBatch v xs = .ok (qs.map Flt.fin) ∧ e.evaluateBatchOptimized v xs = .ok (qs.map Flt.fin) := by
  refine ⟨batchFrom_steps hf xs qs h _, ?_⟩
  unfold evaluateBatchOptimized
  simp only
  split_ifs with h1
  · clear h1
    induction h with
    | nil => rfl
    | cons h _ ih => rw [evaluateSingleVarAll, C127_single_var h, ih]; rfl
  · exact batchFrom_steps hf xs qs h _

theorem fin_of_single {v n : String} {x : Flt f L} {q : ℚ} (h : (singleMap v x).get n = some (Flt.fin q)) :
    x = Flt.fin q := by
  rw [singleMap_get] at h
  split_ifs at h
  exact Option.some.inj h

/-- **C127.** When the polynomial evaluator gives an answer, it is that number. -/
theorem C127_polynomial {v : String} {x : Flt f L} {e : Expr (Flt f L)} {q : ℚ}
    (h : Steps f L (singleMap v x) e q) {r : Flt f L} (hr : e.evaluatePolynomial v x = some r) :
    r = Flt.fin q := by
  induction h generalizing r with
  | const _ => simpa [evaluatePolynomial] using hr.symm
  | var h _ =>
    rw [evaluatePolynomial] at hr
    split_ifs at hr
    rw [← Option.some.inj hr]; exact fin_of_single h
  | add _ _ h il ir =>
    rw [evaluatePolynomial] at hr
    split at hr
    · rename_i a b ea eb
      rw [← Option.some.inj hr, il ea, ir eb]; exact h
    · cases hr
  | sub _ _ h il ir =>
    rw [evaluatePolynomial] at hr
    split at hr
    · rename_i a b ea eb
      rw [← Option.some.inj hr, il ea, ir eb]; exact (flt_sub_eq _ _).trans h
    · cases hr
  | @mul l r a b c hl hr' h il ir =>
    cases hl with
    | const h1 =>
      cases hr' with
      | var h2 h3 =>
        rw [evaluatePolynomial] at hr
        split_ifs at hr
        rw [← Option.some.inj hr, fin_of_single h2]; exact h
      | _ => simp [evaluatePolynomial] at hr
    | var h1 h3 =>
      cases hr' with
      | const h2 =>
        rw [evaluatePolynomial] at hr
        split_ifs at hr
        rw [← Option.some.inj hr, fin_of_single h1]
        have : f.round (b * a) = .fin c := by rw [mul_comm]; exact h
        exact this
      | _ => simp [evaluatePolynomial] at hr
    | _ => simp [evaluatePolynomial] at hr
  | @pow l r a b c hl hr' h _ il ir =>
    cases hl with
    | var h1 h3 =>
      cases hr' with
      | const h2 =>
        rw [evaluatePolynomial] at hr
        split_ifs at hr
        rw [← Option.some.inj hr, fin_of_single h1]; exact h
      | _ => simp [evaluatePolynomial] at hr
    | _ => simp [evaluatePolynomial] at hr
  | _ => simp [evaluatePolynomial] at hr

/-! ## Simplification -/

theorem flt_beq_eq {a b : Flt f L} (h : (a ==. b) = true) : a = b := by
  have h' : Flt.beq a b = true := h
  cases a <;> cases b <;> simp_all [Flt.beq] <;> rfl

theorem beq_eq_flt (a b : Expr (Flt f L)) (h : Expr.beq a b = true) : a = b := by
  induction a generalizing b with
  | const c =>
    cases b <;> simp only [Expr.beq] at h <;> try cases h
    rw [flt_beq_eq h]
  | var n => cases b <;> simp_all [Expr.beq]
  | add l r il ir =>
    cases b <;> simp only [Expr.beq, Bool.and_eq_true, reduceCtorEq] at h
    rw [il _ h.1, ir _ h.2]
  | sub l r il ir =>
    cases b <;> simp only [Expr.beq, Bool.and_eq_true, reduceCtorEq] at h
    rw [il _ h.1, ir _ h.2]
  | mul l r il ir =>
    cases b <;> simp only [Expr.beq, Bool.and_eq_true, reduceCtorEq] at h
    rw [il _ h.1, ir _ h.2]
  | div l r il ir =>
    cases b <;> simp only [Expr.beq, Bool.and_eq_true, reduceCtorEq] at h
    rw [il _ h.1, ir _ h.2]
  | pow l r il ir =>
    cases b <;> simp only [Expr.beq, Bool.and_eq_true, reduceCtorEq] at h
    rw [il _ h.1, ir _ h.2]
  | ln l il => cases b <;> simp only [Expr.beq, reduceCtorEq] at h; rw [il _ h]
  | exp l il => cases b <;> simp only [Expr.beq, reduceCtorEq] at h; rw [il _ h]
  | sqrt l il => cases b <;> simp only [Expr.beq, reduceCtorEq] at h; rw [il _ h]
  | sin l il => cases b <;> simp only [Expr.beq, reduceCtorEq] at h; rw [il _ h]
  | cos l il => cases b <;> simp only [Expr.beq, reduceCtorEq] at h; rw [il _ h]
  | neg l il => cases b <;> simp only [Expr.beq, reduceCtorEq] at h; rw [il _ h]

theorem Steps.const_inv {vars : FMap String (Flt f L)} {c : Flt f L} {q : ℚ}
    (h : Steps f L vars (.const c) q) : c = Flt.fin q ∧ f.Representable q := by
  cases h with
  | const h => exact ⟨rfl, h⟩

/-- the operations determine the number -/
theorem Steps.unique (hf : f.Std) {vars : FMap String (Flt f L)} {e : Expr (Flt f L)} {p q : ℚ}
    (h : Steps f L vars e p) (h' : Steps f L vars e q) : p = q := by
  have h1 := C127_evaluate hf h
  rw [C127_evaluate hf h'] at h1
  have h2 : Flt.fin (f := f) (L := L) q = Flt.fin p := Except.ok.inj h1
  exact (FVal.fin.inj h2).symm

theorem isConst_flt {k : Flt f L} {q : ℚ} (hk : k = Flt.fin q) {e : Expr (Flt f L)} (h : isConst k e = true) :
    e = .const (Flt.fin q) := by
  cases e with
  | const c => rw [← hk, flt_beq_eq (show (c ==. k) = true from h)]
  | _ => simp [isConst] at h

theorem ofRat_rep {q : ℚ} (h : f.Representable q) : (FloatOps.ofRat q : Flt f L) = Flt.fin q := f.round_exact h

section
variable {vars : FMap String (Flt f L)} {l r e : Expr (Flt f L)} {a b c : ℚ}

theorem steps_simplifyAdd (hf : f.Std) (hl : Steps f L vars l a) (hr : Steps f L vars r b)
    (h : f.round (a + b) = .fin c) : Steps f L vars (simplifyAdd l r) c := by
  have hc := (near_round hf h).1
  unfold simplifyAdd
  split
  · rename_i x y hxy
    obtain ⟨rfl, rfl⟩ := bothConst_eq_some hxy
    obtain ⟨rfl, -⟩ := Steps.const_inv hl
    obtain ⟨rfl, -⟩ := Steps.const_inv hr
    have : ((Flt.fin a : Flt f L) +. Flt.fin b) = Flt.fin c := h
    rw [this]; exact .const hc
  · split_ifs with h1 h2 h3
    · obtain rfl := isConst_zero h1
      obtain ⟨h0, -⟩ := Steps.const_inv hl
      obtain rfl := FVal.fin.inj h0
      rw [zero_add, f.round_exact (Steps.rep hf hr)] at h
      rw [← FVal.fin.inj h]; exact hr
    · obtain rfl := isConst_zero h2
      obtain ⟨h0, -⟩ := Steps.const_inv hr
      obtain rfl := FVal.fin.inj h0
      rw [add_zero, f.round_exact (Steps.rep hf hl)] at h
      rw [← FVal.fin.inj h]; exact hl
    · obtain rfl := beq_eq_flt _ _ h3
      obtain rfl := Steps.unique hf hl hr
      rw [ofRat_rep hf.rep_two]
      exact .mul (.const hf.rep_two) hl (by rw [two_mul]; exact h)
    · exact .add hl hr h

theorem steps_simplifySub (hf : f.Std) (hl : Steps f L vars l a) (hr : Steps f L vars r b)
    (h : f.round (a - b) = .fin c) : Steps f L vars (simplifySub l r) c := by
  have hc := (near_round hf h).1
  unfold simplifySub
  split
  · rename_i x y hxy
    obtain ⟨rfl, rfl⟩ := bothConst_eq_some hxy
    obtain ⟨rfl, -⟩ := Steps.const_inv hl
    obtain ⟨rfl, -⟩ := Steps.const_inv hr
    have : ((Flt.fin a : Flt f L) -. Flt.fin b) = Flt.fin c := (flt_sub_eq _ _).trans h
    rw [this]; exact .const hc
  · split_ifs with h1 h2 h3
    · obtain rfl := isConst_zero h1
      obtain ⟨h0, -⟩ := Steps.const_inv hr
      obtain rfl := FVal.fin.inj h0
      rw [sub_zero, f.round_exact (Steps.rep hf hl)] at h
      rw [← FVal.fin.inj h]; exact hl
    · obtain rfl := isConst_zero h2
      obtain ⟨h0, -⟩ := Steps.const_inv hl
      obtain rfl := FVal.fin.inj h0
      rw [zero_sub, f.round_exact (rep_neg (Steps.rep hf hr))] at h
      rw [← FVal.fin.inj h]; exact .neg hr
    · obtain rfl := beq_eq_flt _ _ h3
      obtain rfl := Steps.unique hf hl hr
      rw [sub_self, f.round_exact f.rep_zero] at h
      rw [← FVal.fin.inj h]; exact .const f.rep_zero
    · exact .sub hl hr h

theorem steps_simplifyMul (hf : f.Std) (hE : Libm.ExactCases f L) (hl : Steps f L vars l a)
    (hr : Steps f L vars r b) (h : f.round (a * b) = .fin c) : Steps f L vars (simplifyMul l r) c := by
  have hc := (near_round hf h).1
  unfold simplifyMul
  split
  · rename_i x y hxy
    obtain ⟨rfl, rfl⟩ := bothConst_eq_some hxy
    obtain ⟨rfl, -⟩ := Steps.const_inv hl
    obtain ⟨rfl, -⟩ := Steps.const_inv hr
    have : ((Flt.fin a : Flt f L) *. Flt.fin b) = Flt.fin c := h
    rw [this]; exact .const hc
  · split_ifs with h1 h2 h3 h4 h5 h6
    · have h0 : a * b = 0 := by
        rcases Bool.or_eq_true_iff.mp h1 with h' | h'
        · obtain rfl := isConst_zero h'
          rw [← FVal.fin.inj (Steps.const_inv hl).1, zero_mul]
        · obtain rfl := isConst_zero h'
          rw [← FVal.fin.inj (Steps.const_inv hr).1, mul_zero]
      rw [h0, f.round_exact f.rep_zero] at h
      rw [← FVal.fin.inj h]; exact .const f.rep_zero
    · obtain rfl := isConst_one h2
      obtain rfl := FVal.fin.inj (Steps.const_inv hl).1
      rw [one_mul, f.round_exact (Steps.rep hf hr)] at h
      rw [← FVal.fin.inj h]; exact hr
    · obtain rfl := isConst_one h3
      obtain rfl := FVal.fin.inj (Steps.const_inv hr).1
      rw [mul_one, f.round_exact (Steps.rep hf hl)] at h
      rw [← FVal.fin.inj h]; exact hl
    · obtain rfl := isConst_flt (ofRat_rep (rep_neg hf.rep_one)) h4
      obtain rfl := FVal.fin.inj (Steps.const_inv hl).1
      rw [neg_one_mul, f.round_exact (rep_neg (Steps.rep hf hr))] at h
      rw [← FVal.fin.inj h]; exact .neg hr
    · obtain rfl := isConst_flt (ofRat_rep (rep_neg hf.rep_one)) h5
      obtain rfl := FVal.fin.inj (Steps.const_inv hr).1
      rw [mul_neg_one, f.round_exact (rep_neg (Steps.rep hf hl))] at h
      rw [← FVal.fin.inj h]; exact .neg hl
    · obtain rfl := beq_eq_flt _ _ h6
      obtain rfl := Steps.unique hf hl hr
      rw [ofRat_rep hf.rep_two]
      exact .pow hl (.const hf.rep_two) ((hE.square a (Steps.rep hf hl)).trans h) hc
    · exact .mul hl hr h

theorem steps_simplifyDiv (hf : f.Std) (hl : Steps f L vars l a) (hr : Steps f L vars r b) (hb : b ≠ 0)
    (h : f.round (a / b) = .fin c) : Steps f L vars (simplifyDiv l r) c := by
  have hc := (near_round hf h).1
  unfold simplifyDiv
  split
  · rename_i x hx
    unfold foldDiv at hx
    split at hx
    · obtain ⟨rfl, -⟩ := Steps.const_inv hl
      obtain ⟨rfl, -⟩ := Steps.const_inv hr
      split_ifs at hx
      have e1 : ((Flt.fin a : Flt f L) /. Flt.fin b) = Flt.fin c := (flt_div_eq hb).trans h
      rw [← Option.some.inj hx, e1]; exact .const hc
    · cases hx
  · split_ifs with h1 h2 h3
    · obtain rfl := isConst_one h1
      obtain rfl := FVal.fin.inj (Steps.const_inv hr).1
      rw [div_one, f.round_exact (Steps.rep hf hl)] at h
      rw [← FVal.fin.inj h]; exact hl
    · obtain rfl := isConst_zero h2
      obtain rfl := FVal.fin.inj (Steps.const_inv hl).1
      rw [zero_div, f.round_exact f.rep_zero] at h
      rw [← FVal.fin.inj h]; exact .const f.rep_zero
    · obtain rfl := beq_eq_flt _ _ h3
      obtain rfl := Steps.unique hf hl hr
      rw [div_self hb, f.round_exact hf.rep_one] at h
      rw [← FVal.fin.inj h]; exact .const hf.rep_one
    · exact .div hl hr hb h

theorem steps_simplifyNeg (h : Steps f L vars e a) : Steps f L vars (simplifyNeg e) (-a) := by
  cases e with
  | const k =>
    obtain ⟨rfl, h1⟩ := Steps.const_inv h
    exact .const (rep_neg h1)
  | neg i =>
    cases h with
    | neg h => rw [neg_neg]; exact h
  | _ => exact .neg h

theorem steps_simplifySin (hE : Libm.ExactCases f L) (h : Steps f L vars e a) (hs : L.sin a = .fin c)
    (hc : f.Representable c) : Steps f L vars (simplifySin e) c := by
  cases e with
  | const k =>
    obtain ⟨rfl, h1⟩ := Steps.const_inv h
    unfold simplifySin
    dsimp only
    split_ifs with h0
    · obtain rfl := FVal.fin.inj (flt_beq_eq h0)
      rw [hE.sin_zero] at hs
      rw [← FVal.fin.inj hs] at hc ⊢; exact .const hc
    · have : FloatOps.sin (Flt.fin a : Flt f L) = Flt.fin c := hs
      rw [this]; exact .const hc
  | _ => exact .sin h hs hc

theorem steps_simplifyCos (hE : Libm.ExactCases f L) (h : Steps f L vars e a) (hs : L.cos a = .fin c)
    (hc : f.Representable c) : Steps f L vars (simplifyCos e) c := by
  cases e with
  | const k =>
    obtain ⟨rfl, h1⟩ := Steps.const_inv h
    unfold simplifyCos
    dsimp only
    split_ifs with h0
    · obtain rfl := FVal.fin.inj (flt_beq_eq h0)
      rw [hE.cos_zero] at hs
      rw [← FVal.fin.inj hs] at hc ⊢; exact .const hc
    · have : FloatOps.cos (Flt.fin a : Flt f L) = Flt.fin c := hs
      rw [this]; exact .const hc
  | _ => exact .cos h hs hc

/-- no logarithm inside -/
def NoLn {F : Type} : Expr F → Prop
  | .const _ => True
  | .var _ => True
  | .add l r => NoLn l ∧ NoLn r
  | .sub l r => NoLn l ∧ NoLn r
  | .mul l r => NoLn l ∧ NoLn r
  | .div l r => NoLn l ∧ NoLn r
  | .pow l r => NoLn l ∧ NoLn r
  | .ln _ => False
  | .exp e => NoLn e
  | .sqrt e => NoLn e
  | .sin e => NoLn e
  | .cos e => NoLn e
  | .neg e => NoLn e

theorem steps_simplifyExp (hE : Libm.ExactCases f L) (hn : NoLn e) (h : Steps f L vars e a)
    (hs : L.exp a = .fin c) (hc : f.Representable c) : Steps f L vars (simplifyExp e) c := by
  unfold simplifyExp
  split
  · obtain ⟨rfl, h1⟩ := Steps.const_inv h
    split_ifs with h0
    · obtain rfl := FVal.fin.inj (flt_beq_eq h0)
      rw [hE.exp_zero] at hs
      rw [← FVal.fin.inj hs] at hc ⊢; exact .const hc
    · have : FloatOps.exp (Flt.fin a : Flt f L) = Flt.fin c := hs
      rw [this]; exact .const hc
  · exact absurd hn id
  · exact absurd hn.2 id
  · exact .exp h hs hc
end

theorem noLn_simplify {F : Type} [FloatOps F] (e : Expr F) (h : NoPowers e) : NoLn e.simplify := by
  induction e with
  | const => rw [simplify_const]; trivial
  | var => rw [simplify_var]; trivial
  | add l r il ir =>
    rw [simplify_add]
    have h1 := il h.1; have h2 := ir h.2
    unfold simplifyAdd
    split
    · trivial
    · split_ifs <;> trivial
  | sub l r il ir =>
    rw [simplify_sub]
    have h1 := il h.1; have h2 := ir h.2
    unfold simplifySub
    split
    · trivial
    · split_ifs <;> trivial
  | mul l r il ir =>
    rw [simplify_mul]
    have h1 := il h.1; have h2 := ir h.2
    unfold simplifyMul
    split
    · trivial
    · split_ifs <;> trivial
  | div l r il ir =>
    rw [simplify_div]
    have h1 := il h.1; have h2 := ir h.2
    unfold simplifyDiv
    split
    · trivial
    · split_ifs <;> trivial
  | pow => exact h.elim
  | ln => exact h.elim
  | sqrt => exact h.elim
  | exp e ih =>
    rw [simplify_exp]
    have h1 := ih h
    unfold simplifyExp
    split
    · split_ifs <;> trivial
    · rename_i heq; rw [heq] at h1; exact h1.elim
    · rename_i heq; rw [heq] at h1; exact h1.2.elim
    · exact h1
  | sin e ih =>
    rw [simplify_sin]
    have h1 := ih h
    unfold simplifySin
    split
    · split_ifs <;> trivial
    · exact h1
  | cos e ih =>
    rw [simplify_cos]
    have h1 := ih h
    unfold simplifyCos
    split
    · split_ifs <;> trivial
    · exact h1
  | neg e ih =>
    rw [simplify_neg]
    have h1 := ih h
    unfold simplifyNeg
    split
    · trivial
    · rename_i heq; rw [heq] at h1; exact h1
    · exact h1

theorem steps_simplify (hf : f.Std) (hE : Libm.ExactCases f L) {vars : FMap String (Flt f L)}
    {e : Expr (Flt f L)} {q : ℚ} (hn : NoPowers e) (h : Steps f L vars e q) :
    Steps f L vars e.simplify q := by
  induction h with
  | const h => rw [simplify_const]; exact .const h
  | var h h' => rw [simplify_var]; exact .var h h'
  | add _ _ h il ir => rw [simplify_add]; exact steps_simplifyAdd hf (il hn.1) (ir hn.2) h
  | sub _ _ h il ir => rw [simplify_sub]; exact steps_simplifySub hf (il hn.1) (ir hn.2) h
  | mul _ _ h il ir => rw [simplify_mul]; exact steps_simplifyMul hf hE (il hn.1) (ir hn.2) h
  | div _ _ h0 h il ir => rw [simplify_div]; exact steps_simplifyDiv hf (il hn.1) (ir hn.2) h0 h
  | pow => exact hn.elim
  | ln => exact hn.elim
  | sqrt => exact hn.elim
  | exp _ h h' ih => rw [simplify_exp]; exact steps_simplifyExp hE (noLn_simplify _ hn) (ih hn) h h'
  | sin _ h h' ih => rw [simplify_sin]; exact steps_simplifySin hE (ih hn) h h'
  | cos _ h h' ih => rw [simplify_cos]; exact steps_simplifyCos hE (ih hn) h h'
  | neg _ ih => rw [simplify_neg]; exact steps_simplifyNeg (ih hn)

/-- **C127 (partial: no powers, logarithms or square roots in the expression).** Simplification does not change
the number, not even in its last digit. -/
theorem C127_simplify_partial (hf : f.Std) (hE : Libm.ExactCases f L) {vars : FMap String (Flt f L)}
    {e : Expr (Flt f L)} {q : ℚ} (hn : NoPowers e) (h : Steps f L vars e q) :
    e.simplify.evaluate vars = e.evaluate vars := by
  rw [C127_evaluate hf h, C127_evaluate hf (steps_simplify hf hE hn h)]

theorem round_big_odd : f64.round (2 ^ 53 + 1) = .fin (2 ^ 53) := by
  have := f64.round_eval (q := 2 ^ 53 + 1) 53 (2 ^ 52) (by norm_num) (by norm_num)
    (by norm_num [f64]) (by norm_num [f64, abs_le]) (.inr (by decide)) (lt_f64_max (by norm_num [f64]))
  rw [this]; norm_num [f64]

/-- **C127 is violated by the smart evaluator.** It collects coefficients before it inserts the value, so
`(x + 1) - x` at `x = 2^53` is 1, while `evaluate` returns 0. -/
theorem C127_smart_violated (L : Libm) :
    let e : Expr (Flt f64 L) := ((Expr.var "x").add (.const (Flt.fin 1))).sub (.var "x")
    let x : Flt f64 L := Flt.fin (2 ^ 53)
    Steps f64 L (singleMap "x" x) e 0 ∧ e.evaluate (singleMap "x" x) = .ok (Flt.fin 0) ∧
      e.evaluateSingleVar "x" x = .ok (Flt.fin 0) ∧ e.evaluateSmart "x" x = .ok (Flt.fin 1) := by
  intro e x
  have h53 : f64.Representable (2 ^ 53) := by
    have h := rep_nat (f := f64) (.inl rfl) (n := 2 ^ 53) (by norm_num [f64])
    rwa [Nat.cast_pow, Nat.cast_ofNat] at h
  have hx : Steps f64 L (singleMap "x" x) (.var "x") (2 ^ 53) := .var (by rw [singleMap_get]; rfl) h53
  have hs : Steps f64 L (singleMap "x" x) e 0 :=
    .sub (.add hx (.const (Format.Std.rep_one (.inl rfl))) round_big_odd) hx
      (by rw [sub_self]; exact f64.round_exact f64.rep_zero)
  refine ⟨hs, C127_evaluate (.inl rfl) hs, C127_single_var hs, ?_⟩
  have r0 := f64.round_exact f64.rep_zero
  have r1 := f64.round_exact (Format.Std.rep_one (f := f64) (.inl rfl))
  have e1 : e.evaluateSmart "x" x =
      .ok (Flt.add f64 (Flt.mul f64 (Flt.sub f64 (Flt.add f64 (.fin 1) (.fin 0)) (.fin 1)) (.fin (2 ^ 53)))
        (Flt.sub f64 (Flt.add f64 (.fin 0) (.fin 1)) (.fin 0)) : Flt f64 L) := rfl
  have e2 : Flt.add f64 (.fin 1) (.fin 0) = .fin 1 := by
    show f64.round (1 + 0) = _
    rw [add_zero, r1]
  have e3 : Flt.add f64 (.fin 0) (.fin 1) = .fin 1 := by
    show f64.round (0 + 1) = _
    rw [zero_add, r1]
  have e4 : Flt.mul f64 (.fin 0) (.fin (2 ^ 53)) = .fin 0 := by
    show f64.round (0 * _) = _
    rw [zero_mul, r0]
  rw [e1, e2, e3, flt_sub_eq, flt_sub_eq, sub_self, sub_zero, r0, r1, e4, e3]

/-- **C127 is violated for logarithms and for differences that overflow.** `ln(exp x)` at `x = 1000` is `+∞` and
its simplification is 1000; `exp x - exp x` is NaN and its simplification is 0. -/
theorem C127_overflow_violated (L : Libm) (hL : L.exp 1000 = .inf false) :
    let m : FMap String (Flt f64 L) := singleMap "x" (Flt.fin 1000)
    let e₁ : Expr (Flt f64 L) := ((Expr.var "x").exp).ln
    let e₂ : Expr (Flt f64 L) := ((Expr.var "x").exp).sub ((Expr.var "x").exp)
    e₁.evaluate m = .ok Flt.posInf ∧ e₁.simplify.evaluate m = .ok (Flt.fin 1000) ∧
      e₂.evaluate m = .ok Flt.nan ∧ e₂.simplify.evaluate m = .ok (Flt.fin 0) := by
  intro m e₁ e₂
  have hv : (Expr.var "x" : Expr (Flt f64 L)).evaluate m = .ok (Flt.fin 1000) := by
    rw [Expr.evaluate, singleMap_get]; rfl
  have hx : ((Expr.var "x").exp : Expr (Flt f64 L)).evaluate m = .ok Flt.posInf := by
    rw [Expr.evaluate, hv]; exact congrArg Except.ok hL
  refine ⟨?_, ?_, ?_, ?_⟩
  · show (Expr.ln _).evaluate m = _
    rw [Expr.evaluate, hx]; rfl
  · have : e₁.simplify = .var "x" := by
      show (Expr.ln _).simplify = _
      rw [simplify_ln, simplify_exp, simplify_var]; rfl
    rw [this, hv]
  · show (Expr.sub _ _).evaluate m = _
    rw [Expr.evaluate, hx]; rfl
  · have : e₂.simplify = .const (Flt.fin 0) := by
      show (Expr.sub _ _).simplify = _
      rw [simplify_sub, simplify_exp, simplify_var]; rfl
    rw [this]; rfl

/-- The doubles between a half and two are multiples of `2^-53`. -/
theorem f64_near_one {q : ℚ} (h : f64.Representable q) (h0 : 1/2 < q) (h1 : q ≠ 1) : 2 ^ (-53 : ℤ) ≤ |q - 1| := by
  obtain ⟨⟨m, e, hm, -, rfl⟩, -⟩ := h
  have hm' : (m : ℚ) < 2 ^ (53 : ℤ) := by
    have h2 := (le_abs_self m).trans_lt hm
    have : m < 2 ^ 53 := by simpa [f64] using h2
    exact_mod_cast this
  have hp : (0 : ℚ) < 2 ^ e := by positivity
  have he : (2 : ℚ) ^ (-1 : ℤ) < 2 ^ (53 + e) := by
    rw [zpow_add₀ (by norm_num)]
    refine lt_of_lt_of_le ?_ (mul_le_mul_of_nonneg_right hm'.le hp.le)
    rw [zpow_neg_one]; linarith
  have he' : -1 < 53 + e := (zpow_lt_zpow_iff_right₀ (by norm_num)).1 he
  obtain ⟨d, hd⟩ := Int.le.dest (show (-53 : ℤ) ≤ e by omega)
  have hk : (m : ℚ) * 2 ^ e - 1 = ((m * 2 ^ d - 2 ^ 53 : ℤ) : ℚ) * 2 ^ (-53 : ℤ) := by
    rw [← hd, zpow_add₀ (by norm_num), zpow_natCast]; push_cast
    rw [sub_mul, show (9007199254740992 : ℚ) * 2 ^ (-53 : ℤ) = 1 by norm_num]; ring
  have hne : m * 2 ^ d - 2 ^ 53 ≠ 0 := by
    intro hz
    rw [hz] at hk
    apply h1
    have : (m : ℚ) * 2 ^ e - 1 = 0 := by rw [hk]; simp
    linarith
  rw [hk, abs_mul, abs_of_pos (by positivity : (0 : ℚ) < 2 ^ (-53 : ℤ))]
  have h3 : (1 : ℚ) ≤ |((m * 2 ^ d - 2 ^ 53 : ℤ) : ℚ)| := by
    rw [← Int.cast_abs]; exact_mod_cast Int.one_le_abs hne
  have h4 : (0 : ℚ) ≤ 2 ^ (-53 : ℤ) := by positivity
  calc (2 : ℚ) ^ (-53 : ℤ) = 1 * 2 ^ (-53 : ℤ) := (one_mul _).symm
    _ ≤ _ := mul_le_mul_of_nonneg_right h3 h4

/-- **C127 is violated for logarithms even when nothing overflows.** With any accurate mathematical library,
`ln(exp x)` at `x = 2^-60` is a number, but not the number its simplification `x` gives: the exponential rounds to
one, or to a number whose logarithm is far larger. -/
theorem C127_rounding_violated (L : Libm) (hL : L.Accurate f64) :
    let m : FMap String (Flt f64 L) := singleMap "x" (Flt.fin (1 / 2 ^ 60))
    let e : Expr (Flt f64 L) := ((Expr.var "x").exp).ln
    f64.Representable (1 / 2 ^ 60) ∧ e.simplify.evaluate m = .ok (Flt.fin (1 / 2 ^ 60)) ∧
      ∃ r : ℚ, e.evaluate m = .ok (Flt.fin r) ∧ r ≠ 1 / 2 ^ 60 := by
  intro m e
  have hrep : f64.Representable (1 / 2 ^ 60) := by
    have := Std.rep_of (f := f64) (.inl rfl) 1 (-60) (by norm_num) (by norm_num) (by norm_num)
    simpa [zpow_neg] using this
  have hv : (Expr.var "x" : Expr (Flt f64 L)).evaluate m = .ok (Flt.fin (1 / 2 ^ 60)) := by
    rw [Expr.evaluate, singleMap_get]; rfl
  refine ⟨hrep, ?_, ?_⟩
  · have : e.simplify = .var "x" := by
      show (Expr.ln _).simplify = _
      rw [simplify_ln, simplify_exp, simplify_var]; rfl
    rw [this, hv]
  have hu : f64.u = 1 / 2 ^ 53 := by simp [Format.u, f64]
  have hx0 : (0 : ℝ) < ((1 / 2 ^ 60 : ℚ) : ℝ) := by positivity
  have hx1 : ((1 / 2 ^ 60 : ℚ) : ℝ) ≤ 1/4 := by norm_num
  have he1 : 1 ≤ Real.exp ((1 / 2 ^ 60 : ℚ) : ℝ) := Real.one_le_exp hx0.le
  have he2 : Real.exp ((1 / 2 ^ 60 : ℚ) : ℝ) ≤ 4/3 := by
    have := Real.exp_bound_div_one_sub_of_interval hx0.le (by linarith : ((1 / 2 ^ 60 : ℚ) : ℝ) < 1)
    refine this.trans ?_
    rw [div_le_div_iff₀ (by linarith) (by norm_num)]; linarith
  have hmin : (2 : ℝ) ^ f64.emin ≤ 1/100 := by
    have : (2 : ℝ) ^ f64.emin ≤ 2 ^ (-10 : ℤ) := zpow_le_zpow_right₀ (by norm_num) (by norm_num [f64])
    refine this.trans (by norm_num)
  rcases hL.exp _ hrep with ⟨v, hv1, hvr, hvb⟩ | ⟨-, hb⟩
  swap
  · exfalso
    have : (2 : ℝ) ^ (10 : ℤ) ≤ 2 ^ (f64.emax - 1) := zpow_le_zpow_right₀ (by norm_num) (by norm_num [f64])
    have h2 : (2 : ℝ) ^ (10 : ℤ) = 1024 := by norm_num
    linarith
  have hvb' : |(v : ℝ) - Real.exp ((1 / 2 ^ 60 : ℚ) : ℝ)| ≤ 1/50 := by
    refine hvb.trans ?_
    have : 2 * f64.u * Real.exp ((1 / 2 ^ 60 : ℚ) : ℝ) ≤ 2 * f64.u * (4/3) :=
      mul_le_mul_of_nonneg_left he2 (by rw [hu]; positivity)
    have h3 : 2 * (f64.u : ℝ) * (4/3) ≤ 1/100 := by rw [hu]; norm_num
    linarith
  have hva := abs_le.1 hvb'
  have hvlo : (1/2 : ℝ) < v := by linarith
  have hvhi : (v : ℝ) < 2 := by linarith
  have hvpos : (0 : ℝ) < v := by linarith
  have hvq : (1/2 : ℚ) < v := by
    have : ((1/2 : ℚ) : ℝ) < v := by push_cast; exact hvlo
    exact_mod_cast this
  obtain ⟨r, hr, -, hrb⟩ := hL.ln v (by linarith) hvr
  refine ⟨r, ?_, ?_⟩
  · have h1 : ((Expr.var "x").exp : Expr (Flt f64 L)).evaluate m = .ok (Flt.fin v) := by
      rw [Expr.evaluate, hv]; exact congrArg Except.ok hv1
    show (Expr.ln _).evaluate m = _
    rw [Expr.evaluate, h1]
    show (if Flt.le (.fin _) (.fin 0) then _ else _) = _
    rw [if_neg (by simp only [Flt.le, decide_eq_true_eq, not_le]; linarith)]
    exact congrArg Except.ok ((flt_ln_eq (by linarith)).trans hr)
  · rintro rfl
    by_cases h1 : v = 1
    · rw [h1] at hrb
      simp at hrb
      norm_num at hrb
    · have hs := f64_near_one hvr hvq h1
      have hs' : (1 : ℝ) / 2 ^ 53 ≤ |(v : ℝ) - 1| := by
        have : (((2 : ℚ) ^ (-53 : ℤ) : ℚ) : ℝ) ≤ ((|v - 1| : ℚ) : ℝ) := by exact_mod_cast hs
        push_cast at this
        simpa [zpow_neg] using this
      have hlog : (1 : ℝ) / 2 ^ 54 ≤ |Real.log v| := by
        rcases le_or_gt 1 (v : ℝ) with hge | hlt
        · rw [abs_of_nonneg (by linarith)] at hs'
          have := Real.one_sub_inv_le_log_of_pos hvpos
          refine le_trans ?_ (this.trans (le_abs_self _))
          have h5 : 1 - (v : ℝ)⁻¹ = (v - 1) / v := by field_simp
          rw [h5, le_div_iff₀ hvpos]
          have : 1 / 2 ^ 54 * (v : ℝ) ≤ 1 / 2 ^ 54 * 2 := mul_le_mul_of_nonneg_left hvhi.le (by positivity)
          refine this.trans (le_trans ?_ hs')
          norm_num
        · rw [abs_of_neg (by linarith)] at hs'
          have := Real.log_le_sub_one_of_pos hvpos
          have h5 : (1 : ℝ) / 2 ^ 54 ≤ 1 / 2 ^ 53 := by norm_num
          have := neg_le_abs (Real.log v)
          linarith
      have hd : |Real.log v| - 1 / 2 ^ 60 ≤ 1/2 * |Real.log v| := by
        have h6 : 2 * f64.u * |Real.log (v : ℝ)| ≤ 1/2 * |Real.log v| :=
          mul_le_mul_of_nonneg_right (by rw [hu]; norm_num) (abs_nonneg _)
        have h7 := abs_sub_abs_le_abs_sub (Real.log (v : ℝ)) (((1 / 2 ^ 60 : ℚ) : ℝ))
        rw [abs_sub_comm, abs_of_pos hx0] at h7
        have h8 : ((1 / 2 ^ 60 : ℚ) : ℝ) = 1 / 2 ^ 60 := by push_cast; rfl
        rw [h8] at h7 hrb
        linarith
      norm_num at hd hlog
      linarith

/-! ## The hypotheses are satisfiable -/

/-- a library with the exact cases -/
def exactLibm (f : Format) : Libm where
  ln _ := .fin 0
  exp _ := .fin 1
  sqrt _ := .fin 0
  sin _ := .fin 0
  cos _ := .fin 1
  lnGamma _ := .fin 0
  powf a b := match a, b with
    | .fin q, .fin k => if k = 2 then f.round (q * q) else .nan
    | _, _ => .nan

theorem exactLibm_exact (f : Format) : Libm.ExactCases f (exactLibm f) where
  exp_zero := rfl
  sin_zero := rfl
  cos_zero := rfl
  square q _ := by simp [exactLibm]

/-- `x·x - (x + x)·exp(0·x)` at `x = 3` is 3, and its simplification is another expression -/
example :
    let e : Expr (Flt f64 (exactLibm f64)) :=
      ((Expr.var "x").mul (.var "x")).sub
        (((Expr.var "x").add (.var "x")).mul ((Expr.mul (.const (Flt.fin 0)) (.var "x")).exp))
    NoPowers e ∧ Steps f64 (exactLibm f64) (singleMap "x" (Flt.fin 3)) e 3 ∧
      e.simplify = ((Expr.var "x").pow (.const (Flt.fin 2))).sub (Expr.mul (.const (Flt.fin 2)) (.var "x")) := by
  have hn : ∀ n : ℕ, n ≤ 100 → f64.Representable (n : ℚ) := fun n hn =>
    rep_nat (.inl rfl) (le_trans hn (by norm_num [f64]))
  have h3 : f64.Representable 3 := by simpa using hn 3 (by norm_num)
  have h6 : f64.Representable 6 := by simpa using hn 6 (by norm_num)
  have h9 : f64.Representable 9 := by simpa using hn 9 (by norm_num)
  have h1 : f64.Representable 1 := by simpa using hn 1 (by norm_num)
  intro e
  refine ⟨by simp [e, NoPowers], ?_, ?_⟩
  · have hx : Steps f64 (exactLibm f64) (singleMap "x" (Flt.fin 3)) (.var "x") 3 :=
      .var (by rw [singleMap_get]; rfl) h3
    refine .sub (a := 9) (b := 6) (.mul hx hx ?_) (.mul (a := 6) (b := 1) (.add hx hx ?_) (.exp (a := 0)
      (.mul (.const f64.rep_zero) hx ?_) rfl h1) ?_) ?_
    · norm_num; exact f64.round_exact h9
    · norm_num; exact f64.round_exact h6
    · norm_num; exact f64.round_exact f64.rep_zero
    · norm_num; exact f64.round_exact h6
    · norm_num; exact f64.round_exact h3
  · have r2 : (FloatOps.ofRat 2 : Flt f64 (exactLibm f64)) = Flt.fin 2 := ofRat_rep (Format.Std.rep_two (.inl rfl))
    have m1 : simplifyMul (.const (Flt.fin 0)) (.var "x" : Expr (Flt f64 (exactLibm f64))) = .const (Flt.fin 0) := by
      rfl
    have m2 : simplifyExp (.const (Flt.fin 0) : Expr (Flt f64 (exactLibm f64))) = .const (Flt.fin 1) := rfl
    have m3 : simplifyAdd (.var "x") (.var "x" : Expr (Flt f64 (exactLibm f64))) =
        .mul (.const (Flt.fin 2)) (.var "x") := by rw [← r2]; rfl
    have m4 : simplifyMul (.var "x") (.var "x" : Expr (Flt f64 (exactLibm f64))) =
        .pow (.var "x") (.const (Flt.fin 2)) := by rw [← r2]; rfl
    have m5 (l : Expr (Flt f64 (exactLibm f64))) : simplifyMul (.mul (.const (Flt.fin 2)) l) (.const (Flt.fin 1)) =
        .mul (.const (Flt.fin 2)) l := rfl
    show (Expr.sub _ _).simplify = _
    rw [simplify_sub, simplify_mul, simplify_mul, simplify_add, simplify_exp, simplify_mul]
    simp only [simplify_var, simplify_const]
    rw [m1, m2, m3, m4, m5]
    rfl

end Verif
