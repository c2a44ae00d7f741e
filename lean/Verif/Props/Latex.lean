import Verif.Lemmas.LatexRead
import Verif.Lemmas.SymbolicVars
import Verif.Lemmas.EgglogEngine
import Verif.Props.Python
import Mathlib.Tactic.NormNum

/-!
# C105: the LaTeX text means the expression

`Latex.Reads` (in `Verif/Spec/Latex.lean`) is the usual reading of a LaTeX formula.
-/

namespace Verif
open Spec XReal
open Spec.Latex (Reads Usable BracketFree SumLike Atomic Letter Parses Lexes Tok cdot)
open Spec.Python (Decimal)

section
variable {num : XReal → List Char} {lit : List Char → Option XReal}

/-- **C105 (partial).** If no part of an expression needs brackets, its LaTeX text has a reading,
and what is read has the value of the expression at every assignment, or none if the expression
has none. -/
theorem C105_latex_partial (e : Expr XReal) (h : Usable num lit e) (hb : BracketFree e) :
    (∃ t, Reads lit (e.toLatex num) t) ∧
    ∀ t, Reads lit (e.toLatex num) t → ∀ ρ, value ρ t = value ρ e := by
  obtain ⟨t, h1, h2⟩ := (Latex.parse_toks e h hb).sum
  have hl := Latex.lex_toks e h [] [] (by intro c r e; cases e) .nil
  rw [List.append_nil, List.append_nil] at hl
  have hr : Reads lit (e.toLatex num) t := ⟨_, hl, h1⟩
  exact ⟨⟨t, hr⟩, fun t' ht' ρ => by rw [ht'.unique hr]; exact h2 ρ⟩

/-- **C105.** A LaTeX text is read in at most one way. -/
theorem C105_one_reading (s : List Char) (t t' : Expr XReal) (h : Reads lit s t)
    (h' : Reads lit s t') : t = t' := h.unique h'

/-- the assignment `x = 1, y = 2, z = 3` -/
def xyz : String → Option ℝ := fun n =>
  if n = "x" then some 1 else if n = "y" then some 2 else if n = "z" then some 3 else none

theorem parses_letter {c : Char} (h : c ≠ 'e') :
    Parses lit .primary [.letter c] (.var (String.ofList [c])) := .letter h

/-- **C105 violated.** A sum that is a factor gets no brackets: the text of `(x + y)·z` is
`x + y \cdot z`, which is read as `x + (y·z)`. -/
theorem C105_sum_factor_violated :
    (∀ t, Reads lit ((Expr.mul (.add (.var "x") (.var "y")) (.var "z")).toLatex num) t ↔
      t = .add (.var "x") (.mul (.var "y") (.var "z"))) ∧
    value xyz (.mul (.add (.var "x") (.var "y")) (.var "z")) = some 9 ∧
    value xyz (.add (.var "x") (.mul (.var "y") (.var "z"))) = some 7 := by
  have hr : Reads lit ((Expr.mul (.add (.var "x") (.var "y")) (.var "z")).toLatex num)
      (.add (.var "x") (.mul (.var "y") (.var "z"))) := by
    refine ⟨[.letter 'x', .plus, .letter 'y', cdot, .letter 'z'], ?_, ?_⟩
    · have : Lexes ['x', ' ', '+', ' ', 'y', ' ', '\\', 'c', 'd', 'o', 't', ' ', 'z'] _ :=
        .letter (by decide) (.space (.plus (.space (.letter (by decide) (.space
          (Latex.lex_cmd (w := ['c', 'd', 'o', 't']) (by simp) (by decide)
            (Latex.ends_alpha_cons (by decide)) (.space (.letter (by decide) .nil))))))))
      simpa [Expr.toLatex, Expr.latexMul, Expr.isConst, cdot] using this
    · exact .add (.sum (.term (.factor (.power (parses_letter (c := 'x') (by decide))))))
        (.mul (s := [.letter 'y']) (.term (.factor (.power (parses_letter (c := 'y') (by decide)))))
          (.factor (.power (parses_letter (c := 'z') (by decide)))))
  refine ⟨fun t => ⟨fun ht => ht.unique hr, fun ht => ht ▸ hr⟩, ?_, ?_⟩
  · simp [value, xyz]; norm_num
  · simp [value, xyz]; norm_num

/-- **C105 violated.** Nor does a difference that is subtracted: the text of `x - (y - z)` is
`x - y - z`, which is read as `(x - y) - z`. -/
theorem C105_difference_violated :
    (∀ t, Reads lit ((Expr.sub (.var "x") (.sub (.var "y") (.var "z"))).toLatex num) t ↔
      t = .sub (.sub (.var "x") (.var "y")) (.var "z")) ∧
    value xyz (.sub (.var "x") (.sub (.var "y") (.var "z"))) = some 2 ∧
    value xyz (.sub (.sub (.var "x") (.var "y")) (.var "z")) = some (-4) := by
  have hr : Reads lit ((Expr.sub (.var "x") (.sub (.var "y") (.var "z"))).toLatex num)
      (.sub (.sub (.var "x") (.var "y")) (.var "z")) := by
    refine ⟨[.letter 'x', .minus, .letter 'y', .minus, .letter 'z'], ?_, ?_⟩
    · have : Lexes ['x', ' ', '-', ' ', 'y', ' ', '-', ' ', 'z'] _ :=
        .letter (by decide) (.space (.minus (.space (.letter (by decide) (.space
          (.minus (.space (.letter (by decide) .nil))))))))
      simpa [Expr.toLatex] using this
    · exact .sub (s := [.letter 'x', .minus, .letter 'y'])
        (.sub (s := [.letter 'x']) (.sum (.term (.factor (.power (parses_letter (c := 'x') (by decide))))))
          (.term (.factor (.power (parses_letter (c := 'y') (by decide))))))
        (.term (.factor (.power (parses_letter (c := 'z') (by decide)))))
  refine ⟨fun t => ⟨fun ht => ht.unique hr, fun ht => ht ▸ hr⟩, ?_, ?_⟩
  · simp [value, xyz]; norm_num
  · simp [value, xyz]; norm_num

/-- **C105 violated.** Nor does the base of a power: the text of `(-x)^y` is `-(x)^{y}`, which is
read as `-(x^y)`. -/
theorem C105_negated_base_violated :
    (∀ t, Reads lit ((Expr.pow (.neg (.var "x")) (.var "y")).toLatex num) t ↔
      t = .neg (.pow (.var "x") (.var "y"))) ∧
    value xyz (.pow (.neg (.var "x")) (.var "y")) = some 1 ∧
    value xyz (.neg (.pow (.var "x") (.var "y"))) = some (-1) := by
  have hr : Reads lit ((Expr.pow (.neg (.var "x")) (.var "y")).toLatex num)
      (.neg (.pow (.var "x") (.var "y"))) := by
    refine ⟨[.minus, .lpar, .letter 'x', .rpar, .caret, .lbrace, .letter 'y', .rbrace], ?_, ?_⟩
    · have : Lexes ['-', '(', 'x', ')', '^', '{', 'y', '}'] _ :=
        .minus (.lpar (.letter (by decide) (.rpar (.caret (.lbrace (.letter (by decide)
          (.rbrace .nil)))))))
      simpa [Expr.toLatex] using this
    · have h1 : Parses lit .sum [.letter 'x'] (.var "x") :=
        .sum (.term (.factor (.power (parses_letter (c := 'x') (by decide)))))
      have h2 : Parses lit .sum [.letter 'y'] (.var "y") :=
        .sum (.term (.factor (.power (parses_letter (c := 'y') (by decide)))))
      exact .sum (.term (.neg (.factor (.pow (.paren h1) h2))))
  have hz : ∃ n : ℤ, (2 : ℝ) = n := ⟨2, by simp⟩
  refine ⟨fun t => ⟨fun ht => ht.unique hr, fun ht => ht ▸ hr⟩, ?_, ?_⟩
  · simp [value, xyz, realPow, hz]
  · simp [value, xyz, realPow]

/-- **C105 violated.** The text of `(x^y)^z` is `x^{y}^{z}`, a double superscript, which has no
reading. -/
theorem C105_double_superscript_violated (t : Expr XReal) :
    ¬ Reads lit ((Expr.pow (.pow (.var "x") (.var "y")) (.var "z")).toLatex num) t := by
  rintro ⟨ts, hl, hp⟩
  have hl' : Lexes ((Expr.pow (.pow (.var "x") (.var "y")) (.var "z")).toLatex num)
      [.letter 'x', .caret, .lbrace, .letter 'y', .rbrace, .caret, .lbrace, .letter 'z', .rbrace] := by
    have : Lexes ['x', '^', '{', 'y', '}', '^', '{', 'z', '}'] _ :=
      .letter (by decide) (.caret (.lbrace (.letter (by decide) (.rbrace (.caret (.lbrace
        (.letter (by decide) (.rbrace .nil))))))))
    simpa [Expr.toLatex] using this
  obtain rfl := hl.unique' hl' rfl
  obtain ⟨N, hN⟩ := Latex.parses_done hp [] _ (.inl rfl) (Latex.ev_sumEnd t (.inl rfl))
  have := hN (N + 20) (by omega)
  simp [Latex.run, Latex.close, Latex.isRbrace] at this

/-- **C105 violated.** A name of more than one letter is read as a product: the text of the
variable `ab` is read as `a·b`. -/
theorem C105_long_name_violated (t : Expr XReal) :
    Reads lit ((Expr.var "ab").toLatex num) t ↔ t = .mul (.var "a") (.var "b") := by
  have hr : Reads lit ((Expr.var "ab").toLatex num) (.mul (.var "a") (.var "b")) := by
    refine ⟨[.letter 'a', .letter 'b'], ?_, ?_⟩
    · have : Lexes ['a', 'b'] _ := .letter (by decide) (.letter (by decide) .nil)
      simpa [Expr.toLatex] using this
    · exact .sum (.juxtapose (s := [.letter 'a'])
        (.term (.factor (.power (parses_letter (c := 'a') (by decide)))))
        (.power (parses_letter (c := 'b') (by decide))) (by simp))
  exact ⟨fun ht => ht.unique hr, fun ht => ht ▸ hr⟩

/-- **C105 violated.** The variable `e` raised to `x` is printed as the exponential of `x` is. -/
theorem C105_letter_e_violated (t : Expr XReal) :
    Reads lit ((Expr.pow (.var "e") (.var "x")).toLatex num) t ↔ t = .exp (.var "x") := by
  have hr : Reads lit ((Expr.pow (.var "e") (.var "x")).toLatex num) (.exp (.var "x")) := by
    refine ⟨[.letter 'e', .caret, .lbrace, .letter 'x', .rbrace], ?_, ?_⟩
    · have : Lexes ['e', '^', '{', 'x', '}'] _ :=
        .letter (by decide) (.caret (.lbrace (.letter (by decide) (.rbrace .nil))))
      simpa [Expr.toLatex] using this
    · have h1 : Parses lit .sum [.letter 'x'] (.var "x") :=
        .sum (.term (.factor (.power (parses_letter (c := 'x') (by decide)))))
      exact .sum (.term (.factor (.exp h1)))
  exact ⟨fun ht => ht.unique hr, fun ht => ht ▸ hr⟩

end

/-! ### The hypotheses can be met -/

/-- `\ln(x^{2}) - -3x \cdot e^{2.5}`, that is `ln (x²) - (-3)·x·e^2.5` -/
example : Usable pyNum pyLit (.sub (.ln (.pow (.var "x") (.const (fin 2))))
      (.mul (.mul (.const (fin (-3))) (.var "x")) (.exp (.const (fin (5 / 2)))))) ∧
    BracketFree (.sub (.ln (.pow (.var "x") (.const (fin 2))))
      (.mul (.mul (.const (fin (-3))) (.var "x")) (.exp (.const (fin (5 / 2)))))) := by
  refine ⟨⟨?_, ?_⟩, ?_, ?_, ?_⟩
  · intro n hn
    have : n = "x" := by
      simpa [Expr.collectVariables] using (Expr.mem_collectVariables _ n).2 hn
    rw [this]
    exact ⟨'x', rfl, by decide, by decide⟩
  · intro c hc
    simp [Egglog.sub_sub, Egglog.sub_mul, Egglog.sub_exp, Egglog.sub_ln, Egglog.sub_pow,
      Egglog.sub_var, Egglog.sub_const] at hc
    rcases hc with rfl | rfl | rfl
    · exact py_two
    · exact py_neg_three
    · exact py_half
  · intro l r hs
    simp [Egglog.sub_sub, Egglog.sub_mul, Egglog.sub_exp, Egglog.sub_ln, Egglog.sub_pow,
      Egglog.sub_var, Egglog.sub_const] at hs
    rw [hs.2]
    rintro ⟨⟩
  · intro l r hs
    simp [Egglog.sub_sub, Egglog.sub_mul, Egglog.sub_exp, Egglog.sub_ln, Egglog.sub_pow,
      Egglog.sub_var, Egglog.sub_const] at hs
    right
    rcases hs with ⟨rfl, rfl⟩ | ⟨rfl, rfl⟩
    · refine ⟨fun hs => ?_, by rintro ⟨⟩⟩
      generalize hm : Expr.mul (.const (fin (-3))) (.var "x") = m at hs
      cases hs <;> simp at hm
      norm_num at hm
    · exact ⟨by rintro ⟨⟩, by rintro ⟨⟩⟩
  · intro l r hs
    simp [Egglog.sub_sub, Egglog.sub_mul, Egglog.sub_exp, Egglog.sub_ln, Egglog.sub_pow,
      Egglog.sub_var, Egglog.sub_const] at hs
    rw [hs.1]
    exact .var

end Verif
