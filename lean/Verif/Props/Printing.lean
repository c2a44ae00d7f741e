import Verif.Lemmas.Printing
import Verif.Lemmas.SymbolicVars
import Verif.Num.XReal

/-! C54: the text of an expression determines the expression. -/

namespace Verif
open Spec Printing

section C54
variable {F : Type} {num : F → List Char}
open Expr

theorem clean_of_alnum {c : Char} (h : c.isAlphanum = true ∨ c = '_') : isDelim c = false := by
  by_contra hd
  simp only [isDelim, Bool.not_eq_false, Bool.or_eq_true, beq_iff_eq] at hd
  rcases hd with ((rfl | rfl) | rfl) | rfl <;> revert h <;> decide

theorem clean_of_digit {c : Char} (h : c.isDigit = true ∨ c = '-' ∨ c = '.') :
    isDelim c = false := by
  by_contra hd
  simp only [isDelim, Bool.not_eq_false, Bool.or_eq_true, beq_iff_eq] at hd
  rcases hd with ((rfl | rfl) | rfl) | rfl <;> revert h <;> decide

theorem clean_num (h : RustDisplay num) (a : F) : Clean (num a) ∧ num a ≠ [] := by
  rcases h.shape a with h | h | h | ⟨h0, h⟩
  · rw [h]; exact ⟨by simp [Clean, isDelim], by simp⟩
  · rw [h]; exact ⟨by simp [Clean, isDelim], by simp⟩
  · rw [h]; exact ⟨by simp [Clean, isDelim], by simp⟩
  · exact ⟨fun c hc => clean_of_digit (h c hc), h0⟩

theorem clean_name {n : String} (h : Identifier n) : Clean n.toList ∧ n.toList ≠ [] := by
  obtain ⟨c, cs, hn, hc, hcs⟩ := h
  rw [hn]
  refine ⟨fun d hd => ?_, by simp⟩
  rcases List.mem_cons.mp hd with rfl | hd
  · exact clean_of_alnum (hc.imp (fun h => by simp [Char.isAlphanum, h]) id)
  · exact clean_of_alnum (hcs d hd)

theorem num_ne_name (h : RustDisplay num) (a : F) {n : String} (hi : Identifier n)
    (h1 : n ≠ "inf") (h2 : n ≠ "NaN") : num a ≠ n.toList := by
  obtain ⟨c, cs, hn, hc, hcs⟩ := hi
  intro hEq
  rcases h.shape a with h | h | h | ⟨h0, h⟩
  · exact h1 (String.toList_inj.mp (by rw [← hEq, h]; rfl))
  · rw [h, hn] at hEq
    cases hEq; revert hc; decide
  · exact h2 (String.toList_inj.mp (by rw [← hEq, h]; rfl))
  · rw [hEq, hn] at h
    have hd := h c (by simp)
    rcases hd with hd | rfl | rfl
    · rcases hc with hc | rfl
      · simp only [Char.isDigit, Char.isAlpha, Char.isUpper, Char.isLower, Bool.and_eq_true,
          Bool.or_eq_true, decide_eq_true_eq, ge_iff_le, UInt32.le_iff_toNat_le] at hd hc
        have e1 : (UInt32.toNat 57) = 57 := rfl
        have e2 : (UInt32.toNat 65) = 65 := rfl
        have e3 : (UInt32.toNat 97) = 97 := rfl
        simp at hd hc
        omega
      · revert hd; decide
    · revert hc; decide
    · revert hc; decide

/-- The forms of `Display`. -/
def displayShape (num : F → List Char) : Expr F → Shape (Expr F)
  | const c => .tok (num c)
  | var n => .tok n.toList
  | add l r => .bin [' ', '+', ' '] l r
  | sub l r => .bin [' ', '-', ' '] l r
  | mul l r => .bin [' ', '*', ' '] l r
  | div l r => .bin [' ', '/', ' '] l r
  | pow l r => .bin ['^'] l r
  | ln e => .call ['l', 'n'] e
  | exp e => .call ['e', 'x', 'p'] e
  | sqrt e => .call ['s', 'q', 'r', 't'] e
  | sin e => .call ['s', 'i', 'n'] e
  | cos e => .call ['c', 'o', 's'] e
  | neg e => .neg e

/-- The forms of `to_python`. -/
def pythonShape (num : F → List Char) : Expr F → Shape (Expr F)
  | const c => .tok (num c)
  | var n => .tok n.toList
  | add l r => .bin [' ', '+', ' '] l r
  | sub l r => .bin [' ', '-', ' '] l r
  | mul l r => .bin [' ', '*', ' '] l r
  | div l r => .bin [' ', '/', ' '] l r
  | pow l r => .bin [' ', '*', '*', ' '] l r
  | ln e => .call ['m', 'a', 't', 'h', '.', 'l', 'o', 'g'] e
  | exp e => .call ['m', 'a', 't', 'h', '.', 'e', 'x', 'p'] e
  | sqrt e => .call ['m', 'a', 't', 'h', '.', 's', 'q', 'r', 't'] e
  | sin e => .call ['m', 'a', 't', 'h', '.', 's', 'i', 'n'] e
  | cos e => .call ['m', 'a', 't', 'h', '.', 'c', 'o', 's'] e
  | neg e => .call ['-'] e

theorem WellNamed.child {e c : Expr F} (h : WellNamed e) (hc : c ∈ children e) : WellNamed c :=
  fun n hn => h n (hn.child hc)

theorem nodes_child {e c : Expr F} (hc : c ∈ children e) : nodes c < nodes e := by
  cases e <;> simp only [children, List.mem_cons, List.not_mem_nil, or_false] at hc <;>
    first
    | exact hc.elim
    | (rcases hc with rfl | rfl <;> simp only [nodes] <;> omega)

theorem display_code (h : RustDisplay num) :
    Code (display num) (displayShape num) nodes WellNamed where
  disp_eq e := by cases e <;> rfl
  inj e e' he he' hs := by
    cases e <;> cases e' <;> simp [displayShape] at hs <;> first
      | (obtain ⟨rfl, rfl⟩ := hs; rfl)
      | (rw [h.injective _ _ hs])
      | (have := he _ .var; exact absurd hs.symm (num_ne_name h _ this.1 this.2.1 this.2.2))
      | (have := he' _ .var; exact absurd hs (num_ne_name h _ this.1 this.2.1 this.2.2))
      | (rw [String.toList_inj.mp hs])
  tok e t he hs := by
    cases e <;> simp [displayShape] at hs
    · subst hs; exact clean_num h _
    · subst hs; exact clean_name (he _ .var).1
  call e f x he hs := by
    cases e <;> simp [displayShape] at hs <;>
      (obtain ⟨rfl, rfl⟩ := hs
       exact ⟨by simp [Clean, isDelim], by simp, WellNamed.child he (by simp [children]), nodes_child (by simp [children])⟩)
  bin e op l r he hs := by
    cases e <;> simp [displayShape] at hs <;>
      (obtain ⟨rfl, rfl, rfl⟩ := hs
       exact ⟨WellNamed.child he (by simp [children]), WellNamed.child he (by simp [children]),
        nodes_child (by simp [children]), nodes_child (by simp [children]), by simp⟩)
  neg e x he hs := by
    cases e <;> simp [displayShape] at hs
    subst hs
    exact ⟨WellNamed.child he (by simp [children]), nodes_child (by simp [children])⟩
  op e op l r e' op' l' r' a b hs hs' hEq := by
    cases e <;> simp [displayShape] at hs <;> obtain ⟨rfl, -, -⟩ := hs <;>
      cases e' <;> simp [displayShape] at hs' <;> obtain ⟨rfl, -, -⟩ := hs' <;> simp at hEq ⊢
  dash e f x e' x' hs hs' := by
    cases e <;> simp [displayShape] at hs <;> obtain ⟨rfl, -⟩ := hs <;> simp

theorem python_code (h : RustDisplay num) :
    Code (toPython num) (pythonShape num) nodes WellNamed where
  disp_eq e := by cases e <;> rfl
  inj e e' he he' hs := by
    cases e <;> cases e' <;> simp [pythonShape] at hs <;> first
      | (obtain ⟨rfl, rfl⟩ := hs; rfl)
      | (rw [h.injective _ _ hs])
      | (have := he _ .var; exact absurd hs.symm (num_ne_name h _ this.1 this.2.1 this.2.2))
      | (have := he' _ .var; exact absurd hs (num_ne_name h _ this.1 this.2.1 this.2.2))
      | (rw [String.toList_inj.mp hs])
  tok e t he hs := by
    cases e <;> simp [pythonShape] at hs
    · subst hs; exact clean_num h _
    · subst hs; exact clean_name (he _ .var).1
  call e f x he hs := by
    cases e <;> simp [pythonShape] at hs <;>
      (obtain ⟨rfl, rfl⟩ := hs
       exact ⟨by simp [Clean, isDelim], by simp, WellNamed.child he (by simp [children]), nodes_child (by simp [children])⟩)
  bin e op l r he hs := by
    cases e <;> simp [pythonShape] at hs <;>
      (obtain ⟨rfl, rfl, rfl⟩ := hs
       exact ⟨WellNamed.child he (by simp [children]), WellNamed.child he (by simp [children]),
        nodes_child (by simp [children]), nodes_child (by simp [children]), by simp⟩)
  neg e x he hs := by
    cases e <;> simp [pythonShape] at hs
  op e op l r e' op' l' r' a b hs hs' hEq := by
    cases e <;> simp [pythonShape] at hs <;> obtain ⟨rfl, -, -⟩ := hs <;>
      cases e' <;> simp [pythonShape] at hs' <;> obtain ⟨rfl, -, -⟩ := hs' <;> simp at hEq ⊢
  dash e f x e' x' hs hs' := by
    cases e' <;> simp [pythonShape] at hs'

/-- Two expressions over identifier names with the same `Display` text are equal. -/
theorem C54_display_injective (h : RustDisplay num) (e e' : Expr F) (he : WellNamed e)
    (he' : WellNamed e') (hd : e.display num = e'.display num) : e = e' :=
  (display_code h).injective he he' hd

/-- Two expressions over identifier names with the same Python text are equal. -/
theorem C54_python_injective (h : RustDisplay num) (e e' : Expr F) (he : WellNamed e)
    (he' : WellNamed e') (hd : e.toPython num = e'.toPython num) : e = e' :=
  (python_code h).injective he he' hd

/-- The names `inf` and `NaN` must be excluded: a variable called `inf` prints like the literal
infinity. -/
theorem C54_inf_violated [FloatOps F] (hinf : num FloatOps.inf = ['i', 'n', 'f']) :
    Identifier "inf" ∧ (const FloatOps.inf : Expr F) ≠ var "inf" ∧
      (const FloatOps.inf : Expr F).display num = (var "inf").display num := by
  refine ⟨⟨'i', ['n', 'f'], rfl, by decide, by decide⟩, by simp, ?_⟩
  simp only [display, hinf]; rfl

/-- A printer meeting the requirements on an infinite set of numbers (unary numerals). -/
theorem unary_display : RustDisplay (fun n : ℕ => List.replicate (n + 1) '1') where
  injective a b h := by
    have := congrArg List.length h
    simpa using this
  shape a := by
    refine .inr (.inr (.inr ⟨by simp, fun c hc => .inl ?_⟩))
    rw [List.eq_of_mem_replicate hc]; decide

example : WellNamed (add (var "x_1") (neg (const 3)) : Expr ℕ) := by
  intro n h
  have hn : n = "x_1" := by
    cases h with
    | addL h => cases h; rfl
    | addR h => cases h with | neg h => cases h
  subst hn
  exact ⟨⟨'x', ['_', '1'], rfl, by decide, by decide⟩, by decide, by decide⟩

/-- The LaTeX text does not even determine the value: it prints no brackets around sums, so
`(x + y)·z` and `x + y·z` have the same text. -/
theorem C54_latex_violated (num : XReal → List Char) :
    ∃ e e' : Expr XReal, e.toLatex num = e'.toLatex num ∧
      ∃ ρ, value ρ e = some 9 ∧ value ρ e' = some 7 := by
  refine ⟨mul (add (var "x") (var "y")) (var "z"), add (var "x") (mul (var "y") (var "z")), ?_,
    fun n => if n = "x" then some 1 else if n = "y" then some 2 else some 3, ?_, ?_⟩
  · simp [toLatex, latexMul, isConst]
  · simp [value]; norm_num
  · simp [value]; norm_num

end C54
end Verif
