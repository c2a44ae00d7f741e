import Verif.Lemmas.Python
import Verif.Lemmas.SymbolicVars
import Verif.Lemmas.EgglogEngine
import Mathlib.Tactic.NormNum

/-!
# C78: the Python text means the expression

`Python.Reads` (in `Verif/Spec/Python.lean`) is Python's own reading of a text.
-/

namespace Verif
open Spec Spec.Python XReal

section
variable {num : XReal → List Char} {lit : List Char → Option XReal}

/-- **C78 (partial).** If no power has a base that is a negation or a negative literal, Python reads
the text of an expression as that expression (a negative literal being a sign and a positive
literal) and as nothing else, and what it reads has the same value at every assignment, or none if
the expression has none. -/
theorem C78_python_partial (e : Expr XReal) (h : Usable num lit e) (hb : UnsignedBases e) :
    (∀ t, Reads lit (e.toPython num) t ↔ t = signLits e) ∧
    ∀ t, Reads lit (e.toPython num) t → ∀ ρ, value ρ t = value ρ e := by
  have hr := reads_toPython e h
  rw [asRead_unsigned e hb] at hr
  have key : ∀ t, Reads lit (e.toPython num) t ↔ t = signLits e :=
    fun t => ⟨fun ht => ht.unique hr, fun ht => ht ▸ hr⟩
  refine ⟨key, fun t ht ρ => ?_⟩
  rw [(key t).1 ht, value_signLits]

/-- **C78 (what is read in general).** Python reads the text of any usable expression in exactly
one way: as the expression in which the sign of every base is moved in front of its power. -/
theorem C78_reading (e : Expr XReal) (h : Usable num lit e) (t : Expr XReal) :
    Reads lit (e.toPython num) t ↔ t = asRead e :=
  ⟨fun ht => ht.unique (reads_toPython e h), fun ht => ht ▸ reads_toPython e h⟩

/-- **C78 violated.** The text of `(-x)^2` is `(-(x) ** 2)`, which Python reads as `-(x^2)`: at `3`
the expression is `9` and the text `-9`. -/
theorem C78_negated_base_violated (h2 : Decimal num lit (fin 2)) :
    (∀ t, Reads lit ((Expr.pow (.neg (.var "x")) (.const (fin 2))).toPython num) t ↔
      t = .neg (.pow (.var "x") (.const (fin 2)))) ∧
    value (single "x" 3) (.pow (.neg (.var "x")) (.const (fin 2))) = some 9 ∧
    value (single "x" 3) (.neg (.pow (.var "x") (.const (fin 2)))) = some (-9) := by
  have hx : PythonName "x" := by
    refine ⟨⟨'x', [], by simp, .inl (by decide), by simp⟩, ?_, ?_⟩ <;> simp [keywords, mathWord]
  have hu : Usable num lit (.pow (.neg (.var "x")) (.const (fin 2))) := by
    constructor
    · intro n hn
      have : n = "x" := by
        simpa [Expr.collectVariables] using (Expr.mem_collectVariables _ n).2 hn
      rw [this]; exact hx
    · intro c hc
      simp [Egglog.sub_pow, Egglog.sub_neg, Egglog.sub_var, Egglog.sub_const] at hc
      rw [hc]; exact h2
  have hz : ∃ n : ℤ, (2 : ℝ) = n := ⟨2, by simp⟩
  have p1 : realPow (-3) 2 = some 9 := by
    have : (-3 : ℝ) ^ (2 : ℝ) = 9 := by rw [Real.rpow_two]; norm_num
    simp [realPow, hz, this]
  have p2 : realPow 3 2 = some 9 := by
    have : (3 : ℝ) ^ (2 : ℝ) = 9 := by rw [Real.rpow_two]; norm_num
    simp [realPow, this]
  refine ⟨fun t => ?_, ?_, ?_⟩
  · rw [C78_reading _ hu]
    simp [asRead, signLit, not_lt.2 (zero_le_two (α := ℝ))]
  · simp [value, single, p1]
  · simp [value, single, p2]

/-- **C78 violated.** The same happens to a negative literal: `(-3)^2` is printed `(-3 ** 2)`, which
Python reads as `-(3^2)`. -/
theorem C78_negative_literal_violated (h2 : Decimal num lit (fin 2))
    (h3 : Decimal num lit (fin (-3))) :
    (∀ t, Reads lit ((Expr.pow (.const (fin (-3))) (.const (fin 2))).toPython num) t ↔
      t = .neg (.pow (.const (fin 3)) (.const (fin 2)))) ∧
    value (fun _ => none) (.pow (.const (fin (-3))) (.const (fin 2))) = some 9 ∧
    value (fun _ => none) (.neg (.pow (.const (fin 3)) (.const (fin 2)))) = some (-9) := by
  have hu : Usable num lit (.pow (.const (fin (-3))) (.const (fin 2))) := by
    constructor
    · intro n hn
      simpa [Expr.collectVariables] using (Expr.mem_collectVariables _ n).2 hn
    · intro c hc
      simp [Egglog.sub_pow, Egglog.sub_const] at hc
      rcases hc with rfl | rfl
      · exact h3
      · exact h2
  have hz : ∃ n : ℤ, (2 : ℝ) = n := ⟨2, by simp⟩
  have p1 : realPow (-3) 2 = some 9 := by
    have : (-3 : ℝ) ^ (2 : ℝ) = 9 := by rw [Real.rpow_two]; norm_num
    simp [realPow, hz, this]
  have p2 : realPow 3 2 = some 9 := by
    have : (3 : ℝ) ^ (2 : ℝ) = 9 := by rw [Real.rpow_two]; norm_num
    simp [realPow, this]
  refine ⟨fun t => ?_, ?_, ?_⟩
  · rw [C78_reading _ hu]
    simp [asRead, signLit, powSign, not_lt.2 (zero_le_two (α := ℝ))]
  · simp [value, p1]
  · simp [value, p2]

/-- The tokens with which a derivation begins are never a reserved word, so a text that is a
reserved word has no reading. -/
theorem no_keyword {l : Level} {s : List Tok} {a : Expr XReal} (h : Parses lit l s a) (w : List Char) :
    .keyword w ∉ s := by
  induction h <;> simp_all

/-- **C78 violated.** An expression with a variable whose name is a reserved word, such as `lambda`,
has no reading at all. -/
theorem C78_reserved_word_violated (n : String) (hi : Identifier n) (hk : n.toList ∈ keywords)
    (t : Expr XReal) : ¬ Reads lit ((Expr.var n).toPython num) t := by
  rintro ⟨ts, hl, hp⟩
  have h := Lexes.word (isWord_of_identifier hi) (s := []) (by intro c r e; cases e) .nil
  rw [if_pos hk, List.append_nil] at h
  have := Lexes.unique hl h
  subst this
  exact no_keyword hp n.toList (by simp)

/-- **C78 violated.** The literal infinity is printed `inf`, which Python reads as a name. -/
theorem C78_infinity_violated (h : num pinf = ['i', 'n', 'f']) (t : Expr XReal) :
    Reads lit ((Expr.const pinf).toPython num) t ↔ t = .var (String.ofList ['i', 'n', 'f']) := by
  have hr : Reads lit ((Expr.const pinf).toPython num) (.var (String.ofList ['i', 'n', 'f'])) := by
    refine ⟨[.name ['i', 'n', 'f']], ?_, ?_⟩
    · rw [Expr.toPython, h]
      simpa using lex_name (w := ['i', 'n', 'f']) (s := []) ⟨_, _, rfl, .inl (by decide), by decide⟩
        (by decide) (by intro c r e; cases e) .nil
    · exact Parses.up (Parses.upp .name)
  exact ⟨fun ht => ht.unique hr, fun ht => ht ▸ hr⟩

end

/-! ### The hypotheses can be met -/

section
open Classical

/-- a printer of a few numbers -/
noncomputable def pyNum (c : XReal) : List Char :=
  if c = fin 2 then ['2'] else if c = fin (-3) then ['-', '3'] else if c = fin (5 / 2) then ['2', '.', '5']
  else if c = pinf then ['i', 'n', 'f'] else ['0']

/-- their reading -/
noncomputable def pyLit (w : List Char) : Option XReal :=
  if w = ['2'] then some (fin 2) else if w = ['3'] then some (fin 3)
  else if w = ['2', '.', '5'] then some (fin (5 / 2)) else none

theorem py_two : Decimal pyNum pyLit (fin 2) :=
  ⟨2, rfl, .inl ⟨by norm_num, .inl (by simp [pyNum]), by simp [pyNum, pyLit]⟩⟩

theorem py_neg_three : Decimal pyNum pyLit (fin (-3)) := by
  have : pyNum (fin (-3)) = ['-', '3'] := by
    have h : (-3 : ℝ) ≠ 2 := by norm_num
    simp [pyNum, h]
  refine ⟨-3, rfl, .inr ⟨by norm_num, ['3'], this, .inl (by decide), ?_⟩⟩
  simp [pyLit]

theorem py_half : Decimal pyNum pyLit (fin (5 / 2)) := by
  have : pyNum (fin (5 / 2)) = ['2', '.', '5'] := by
    have h : (5 / 2 : ℝ) ≠ 2 := by norm_num
    have h' : (5 / 2 : ℝ) ≠ -3 := by norm_num
    simp [pyNum, h, h']
  refine ⟨5 / 2, rfl, .inl ⟨by norm_num, ?_, ?_⟩⟩
  · rw [this]; exact .inr ⟨['2'], ['5'], rfl, by decide, by decide⟩
  · rw [this]; simp [pyLit]

/-- `math.log((x ** 2.5)) + -3` meets the hypotheses of the partial theorem -/
example : Usable pyNum pyLit (.add (.ln (.pow (.var "x") (.const (fin (5 / 2))))) (.const (fin (-3)))) ∧
    UnsignedBases (.add (.ln (.pow (.var "x") (.const (fin (5 / 2))))) (.const (fin (-3)))) := by
  have hx : PythonName "x" := by
    refine ⟨⟨'x', [], by simp, .inl (by decide), by simp⟩, ?_, ?_⟩ <;> simp [keywords, mathWord]
  refine ⟨⟨?_, ?_⟩, ?_⟩
  · intro n hn
    have : n = "x" := by
      simpa [Expr.collectVariables] using (Expr.mem_collectVariables _ n).2 hn
    rw [this]; exact hx
  · intro c hc
    simp [Egglog.sub_add, Egglog.sub_ln, Egglog.sub_pow, Egglog.sub_var, Egglog.sub_const] at hc
    rcases hc with rfl | rfl
    · exact py_half
    · exact py_neg_three
  · intro b x hs
    simp [Egglog.sub_add, Egglog.sub_ln, Egglog.sub_pow, Egglog.sub_var, Egglog.sub_const] at hs
    rw [hs.1]
    simp [Signed]

example : value (single "x" 3) (.pow (.neg (.var "x")) (.const (fin 2))) = some 9 :=
  (C78_negated_base_violated py_two).2.1

example : ∀ t, Reads pyLit ((Expr.pow (.const (fin (-3))) (.const (fin 2))).toPython pyNum) t ↔
      t = .neg (.pow (.const (fin 3)) (.const (fin 2))) :=
  (C78_negative_literal_violated py_two py_neg_three).1

example (t : Expr XReal) : ¬ Reads pyLit ((Expr.var "lambda").toPython pyNum) t :=
  C78_reserved_word_violated "lambda"
    ⟨'l', ['a', 'm', 'b', 'd', 'a'], by simp, .inl (by decide), by decide⟩ (by simp [keywords]) t

example : Reads pyLit ((Expr.const pinf).toPython pyNum) (.var (String.ofList ['i', 'n', 'f'])) :=
  (C78_infinity_violated (by simp [pyNum]) _).2 rfl

end
end Verif
