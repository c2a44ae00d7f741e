import Verif.Spec.Notation
import Verif.Spec.Symbolic
import Verif.Num.XReal

/-!
# C107: the `expr!` macro

`Notation.Reads` (in `Verif/Spec/Notation.lean`) is the usual reading of a formula.
-/

namespace Verif
open Spec.Notation (Parses Reads Atom OneOperation IsFunction Level)

section
variable {F : Type}

theorem macroFunction_iff (n : String) (f : Expr F → Expr F) :
    Expr.macroFunction n = some f ↔ IsFunction n f := by
  constructor
  · intro h
    unfold Expr.macroFunction at h
    split at h
    · subst n; cases h; exact .ln
    split at h
    · subst n; cases h; exact .exp
    split at h
    · subst n; cases h; exact .sqrt
    split at h
    · subst n; cases h; exact .sin
    split at h
    · subst n; cases h; exact .cos
    · cases h
  · intro h
    cases h <;> simp [Expr.macroFunction]

theorem notation_ne_nil {k : Level} {ts : List (TokenTree F)} {e : Expr F} (h : Parses k ts e) :
    ts ≠ [] := by
  induction h with
  | sum _ ih => exact ih
  | term _ ih => exact ih
  | factor _ ih => exact ih
  | power _ ih => exact ih
  | _ => simp

/-- A single token tree is read as a name, a number or what its parentheses contain. -/
theorem notation_one {k : Level} {ts : List (TokenTree F)} {e : Expr F} (h : Parses k ts e)
    {t : TokenTree F} (ht : ts = [t]) :
    (∃ n, t = .ident n ∧ e = .var n) ∨ (∃ c, t = .lit c ∧ e = .const c) ∨
      ∃ s, t = .group s ∧ Reads s e := by
  induction h with
  | add h1 h2 => have := notation_ne_nil h1; have := notation_ne_nil h2; simp_all [List.append_eq_cons_iff]
  | sub h1 h2 => have := notation_ne_nil h1; have := notation_ne_nil h2; simp_all [List.append_eq_cons_iff]
  | mul h1 h2 => have := notation_ne_nil h1; have := notation_ne_nil h2; simp_all [List.append_eq_cons_iff]
  | div h1 h2 => have := notation_ne_nil h1; have := notation_ne_nil h2; simp_all [List.append_eq_cons_iff]
  | pow h1 h2 => have := notation_ne_nil h1; have := notation_ne_nil h2; simp_all [List.append_eq_cons_iff]
  | neg h1 => have := notation_ne_nil h1; simp_all
  | sum _ ih => exact ih ht
  | term _ ih => exact ih ht
  | factor _ ih => exact ih ht
  | power _ ih => exact ih ht
  | ident => cases ht; exact .inl ⟨_, rfl, rfl⟩
  | number => cases ht; exact .inr (.inl ⟨_, rfl, rfl⟩)
  | paren h => cases ht; exact .inr (.inr ⟨_, rfl, h⟩)
  | call => cases ht

theorem append_two {α : Type} {s t : List α} {p a b : α} (hs : s ≠ []) (ht : t ≠ [])
    (h : s ++ p :: t = [a, b]) : False := by
  have := congrArg List.length h
  have h1 := List.length_pos_iff.mpr hs
  have h2 := List.length_pos_iff.mpr ht
  simp at this; omega

theorem append_three {α : Type} {s t : List α} {p a b c : α} (hs : s ≠ []) (ht : t ≠ [])
    (h : s ++ p :: t = [a, b, c]) : s = [a] ∧ p = b ∧ t = [c] := by
  have hl := congrArg List.length h
  have h1 := List.length_pos_iff.mpr hs
  have h2 := List.length_pos_iff.mpr ht
  match s, hs with
  | [x], _ => simpa using h
  | x :: y :: s, _ => simp at hl h2; omega

/-- A sign in front of one token tree. -/
theorem notation_minus {k : Level} {ts : List (TokenTree F)} {e : Expr F} (h : Parses k ts e)
    {t : TokenTree F} (ht : ts = [.punct .minus, t]) :
    ∃ k' a, e = .neg a ∧ Parses k' [t] a := by
  induction h with
  | add h1 h2 => exact (append_two (notation_ne_nil h1) (notation_ne_nil h2) ht).elim
  | sub h1 h2 => exact (append_two (notation_ne_nil h1) (notation_ne_nil h2) ht).elim
  | mul h1 h2 => exact (append_two (notation_ne_nil h1) (notation_ne_nil h2) ht).elim
  | div h1 h2 => exact (append_two (notation_ne_nil h1) (notation_ne_nil h2) ht).elim
  | pow h1 h2 => exact (append_two (notation_ne_nil h1) (notation_ne_nil h2) ht).elim
  | neg h1 => cases ht; exact ⟨_, _, rfl, h1⟩
  | sum _ ih => exact ih ht
  | term _ ih => exact ih ht
  | factor _ ih => exact ih ht
  | power _ ih => exact ih ht
  | ident => cases ht
  | number => cases ht
  | paren h => cases ht
  | call => cases ht

/-- A name in front of parentheses. -/
theorem notation_apply {k : Level} {ts : List (TokenTree F)} {e : Expr F} (h : Parses k ts e)
    {n : String} {s : List (TokenTree F)} (ht : ts = [.ident n, .group s]) :
    ∃ f a, IsFunction n f ∧ e = f a ∧ Reads s a := by
  induction h with
  | add h1 h2 => exact (append_two (notation_ne_nil h1) (notation_ne_nil h2) ht).elim
  | sub h1 h2 => exact (append_two (notation_ne_nil h1) (notation_ne_nil h2) ht).elim
  | mul h1 h2 => exact (append_two (notation_ne_nil h1) (notation_ne_nil h2) ht).elim
  | div h1 h2 => exact (append_two (notation_ne_nil h1) (notation_ne_nil h2) ht).elim
  | pow h1 h2 => exact (append_two (notation_ne_nil h1) (notation_ne_nil h2) ht).elim
  | neg h1 => cases ht
  | sum _ ih => exact ih ht
  | term _ ih => exact ih ht
  | factor _ ih => exact ih ht
  | power _ ih => exact ih ht
  | ident => cases ht
  | number => cases ht
  | paren h => cases ht
  | call hf h => cases ht; exact ⟨_, _, hf, rfl, h⟩

/-- An operator between two token trees. -/
theorem notation_binary {k : Level} {ts : List (TokenTree F)} {e : Expr F} (h : Parses k ts e)
    {l r : TokenTree F} {p : Punct} (hl : l ≠ .punct .minus) (ht : ts = [l, .punct p, r]) :
    ∃ k₁ k₂ a b, e = Expr.macroBinary p a b ∧ Parses k₁ [l] a ∧ Parses k₂ [r] b := by
  induction h with
  | add h1 h2 =>
    obtain ⟨rfl, h, rfl⟩ := append_three (notation_ne_nil h1) (notation_ne_nil h2) ht
    cases h; exact ⟨_, _, _, _, rfl, h1, h2⟩
  | sub h1 h2 =>
    obtain ⟨rfl, h, rfl⟩ := append_three (notation_ne_nil h1) (notation_ne_nil h2) ht
    cases h; exact ⟨_, _, _, _, rfl, h1, h2⟩
  | mul h1 h2 =>
    obtain ⟨rfl, h, rfl⟩ := append_three (notation_ne_nil h1) (notation_ne_nil h2) ht
    cases h; exact ⟨_, _, _, _, rfl, h1, h2⟩
  | div h1 h2 =>
    obtain ⟨rfl, h, rfl⟩ := append_three (notation_ne_nil h1) (notation_ne_nil h2) ht
    cases h; exact ⟨_, _, _, _, rfl, h1, h2⟩
  | pow h1 h2 =>
    obtain ⟨rfl, h, rfl⟩ := append_three (notation_ne_nil h1) (notation_ne_nil h2) ht
    cases h; exact ⟨_, _, _, _, rfl, h1, h2⟩
  | neg h1 => cases ht; exact (hl rfl).elim
  | sum _ ih => exact ih ht
  | term _ ih => exact ih ht
  | factor _ ih => exact ih ht
  | power _ ih => exact ih ht
  | ident => cases ht
  | number => cases ht
  | paren h => cases ht
  | call => cases ht

theorem macroTree_atom {t : TokenTree F} {e : Expr F} (h : Expr.macroTree t = some e) : Atom t := by
  induction t using Expr.macroTree.induct with
  | case1 n => exact .ident
  | case2 c => exact .number
  | case3 t ih => exact .paren (ih (by simpa [Expr.macroTree] using h))
  | case4 t h1 h2 h3 => rw [Expr.macroTree] at h <;> simp_all

theorem atom_ne {t : TokenTree F} (h : Atom t) : t ≠ .punct .minus := by
  rintro rfl; cases h

/-- An atom is accepted, and read in exactly one way, at every level. -/
theorem atom_reads {t : TokenTree F} (h : Atom t) :
    ∃ e, Expr.macroTree t = some e ∧ Parses .primary [t] e ∧ ∀ k a, Parses k [t] a → a = e := by
  induction h with
  | @ident n =>
    refine ⟨_, rfl, .ident, fun k a h => ?_⟩
    obtain ⟨m, h1, h2⟩ | ⟨c, h1, h2⟩ | ⟨s, h1, h2⟩ := notation_one h rfl <;> cases h1
    exact h2
  | @number c =>
    refine ⟨_, rfl, .number, fun k a h => ?_⟩
    obtain ⟨m, h1, h2⟩ | ⟨c, h1, h2⟩ | ⟨s, h1, h2⟩ := notation_one h rfl <;> cases h1
    exact h2
  | @paren t _ ih =>
    obtain ⟨e, h1, h2, h3⟩ := ih
    refine ⟨e, by rw [Expr.macroTree]; exact h1, .paren (.sum (.term (.factor (.power h2)))),
      fun k a h => ?_⟩
    obtain ⟨m, h1, h2⟩ | ⟨c, h1, h2⟩ | ⟨s, h1, h2⟩ := notation_one h rfl <;> cases h1
    exact h3 _ _ h2

theorem binary_reads {l r : TokenTree F} {a b : Expr F} (p : Punct) (hl : Parses .primary [l] a)
    (hr : Parses .primary [r] b) : Reads [l, .punct p, r] (Expr.macroBinary p a b) := by
  cases p
  · exact .add (s := [l]) (.sum (.term (.factor (.power hl)))) (.term (.factor (.power hr)))
  · exact .sub (s := [l]) (.sum (.term (.factor (.power hl)))) (.term (.factor (.power hr)))
  · exact .sum (.mul (s := [l]) (.term (.factor (.power hl))) (.factor (.power hr)))
  · exact .sum (.div (s := [l]) (.term (.factor (.power hl))) (.factor (.power hr)))
  · exact .sum (.term (.factor (.pow (s := [l]) hl (.factor (.power hr)))))

variable [FloatOps F]

/-- **C107.** What is accepted: at most one operation on names and numbers. -/
theorem C107_accepted_partial (ts : List (TokenTree F)) :
    (∃ e, Expr.macroExpr ts = some e) ↔ OneOperation ts := by
  constructor
  · rintro ⟨e, h⟩
    unfold Expr.macroExpr at h
    split at h
    · exact .atom (macroTree_atom h)
    · exact .neg .number
    · obtain ⟨a, h1, _⟩ := Option.map_eq_some_iff.mp h
      exact .neg (macroTree_atom h1)
    · obtain ⟨f, h1, h2⟩ := Option.bind_eq_some_iff.mp h
      obtain ⟨a, h3, _⟩ := Option.map_eq_some_iff.mp h2
      exact .call ((macroFunction_iff _ f).mp h1) (macroTree_atom h3)
    · obtain ⟨a, h1, h2⟩ := Option.bind_eq_some_iff.mp h
      obtain ⟨b, h3, _⟩ := Option.map_eq_some_iff.mp h2
      exact .binary (macroTree_atom h1) (macroTree_atom h3)
    · cases h
  · intro h
    cases h with
    | atom h => obtain ⟨e, h1, _⟩ := atom_reads h; exact ⟨e, h1⟩
    | @neg t h =>
      obtain ⟨e, h1, _⟩ := atom_reads h
      cases t with
      | lit c => exact ⟨_, rfl⟩
      | _ => exact ⟨.neg e, by simp [Expr.macroExpr, h1]⟩
    | binary hl hr =>
      obtain ⟨a, h1, _⟩ := atom_reads hl
      obtain ⟨b, h2, _⟩ := atom_reads hr
      exact ⟨_, by simp [Expr.macroExpr, h1, h2]; rfl⟩
    | call hf ht =>
      obtain ⟨a, h1, _⟩ := atom_reads ht
      exact ⟨_, by simp [Expr.macroExpr, h1, (macroFunction_iff _ _).mpr hf]; rfl⟩

/-- **C107.** A formula the macro accepts has a reading, only one, and the expression built has the
value (or the error) of what is read, at every assignment and in every arithmetic. -/
theorem C107_meaning (ts : List (TokenTree F)) (e : Expr F) (h : Expr.macroExpr ts = some e) :
    (∃ t, Reads ts t) ∧
    ∀ t, Reads ts t → ∀ vars, t.evaluate vars = e.evaluate vars := by
  have ho := (C107_accepted_partial ts).mp ⟨e, h⟩
  cases ho with
  | atom ha =>
    obtain ⟨e', h1, h2, h3⟩ := atom_reads ha
    have : e' = e := Option.some.inj (h1.symm.trans h)
    subst this
    exact ⟨⟨_, .sum (.term (.factor (.power h2)))⟩, fun t ht vars => by rw [h3 _ _ ht]⟩
  | @neg t ha =>
    obtain ⟨e', h1, h2, h3⟩ := atom_reads ha
    refine ⟨⟨_, .sum (.term (.neg (.factor (.power h2))))⟩, fun t' ht' vars => ?_⟩
    obtain ⟨k, a, rfl, h4⟩ := notation_minus ht' rfl
    rw [h3 _ _ h4]
    cases t with
    | lit c => cases h; cases h1; rfl
    | _ => simp [Expr.macroExpr, h1] at h; rw [← h]
  | @binary l p r hl hr =>
    obtain ⟨a, h1, h2, h3⟩ := atom_reads hl
    obtain ⟨b, h4, h5, h6⟩ := atom_reads hr
    refine ⟨⟨_, binary_reads p h2 h5⟩, fun t ht vars => ?_⟩
    obtain ⟨k₁, k₂, a', b', rfl, h7, h8⟩ := notation_binary ht (atom_ne hl) rfl
    rw [h3 _ _ h7, h6 _ _ h8]
    simp [Expr.macroExpr, h1, h4] at h
    rw [h]
  | @call n f t hf ha =>
    obtain ⟨a, h1, h2, h3⟩ := atom_reads ha
    refine ⟨⟨_, .sum (.term (.factor (.power (.call hf (.sum (.term (.factor (.power h2))))))))⟩,
      fun t' ht' vars => ?_⟩
    obtain ⟨g, b, hg, rfl, h4⟩ := notation_apply ht' rfl
    have : g = f := Option.some.inj
      (((macroFunction_iff n g).mpr hg).symm.trans ((macroFunction_iff n f).mpr hf))
    rw [this, h3 _ _ h4]
    simp [Expr.macroExpr, h1, (macroFunction_iff _ _).mpr hf] at h
    rw [h]

/-- **C107 violated.** Formulas with two operations are refused although each of them has a reading:
`x + y + z`, `(x + y) * z`, `2 * ln(x)`, `ln(x + y)` and `-ln(x)`. -/
theorem C107_refused_violated (two : F) :
    let x : TokenTree F := .ident "x"
    let y : TokenTree F := .ident "y"
    let z : TokenTree F := .ident "z"
    let plus : TokenTree F := .punct .plus
    let times : TokenTree F := .punct .star
    let ln : TokenTree F := .ident "ln"
    ∀ ts ∈ [[x, plus, y, plus, z], [.group [x, plus, y], times, z],
        [.lit two, times, ln, .group [x]], [ln, .group [x, plus, y]],
        [.punct .minus, ln, .group [x]]],
      Expr.macroExpr ts = none ∧ ∃ t, Reads ts t := by
  intro x y z plus times ln ts hts
  have px : Parses .primary [x] (.var "x") := .ident
  have py : Parses .primary [y] (.var "y") := .ident
  have pz : Parses .primary [z] (.var "z") := .ident
  have pxy : Reads [x, plus, y] (.add (.var "x") (.var "y")) := binary_reads .plus px py
  have sx : Reads [x] (.var "x") := .sum (.term (.factor (.power px)))
  have lx : Parses .primary [ln, .group [x]] (.ln (.var "x")) := .call .ln sx
  simp only [List.mem_cons, List.not_mem_nil, or_false] at hts
  obtain rfl | rfl | rfl | rfl | rfl := hts
  · exact ⟨rfl, _, .add (s := [x, plus, y]) pxy (.term (.factor (.power pz)))⟩
  · exact ⟨rfl, _, .sum (.mul (s := [.group [x, plus, y]])
      (.term (.factor (.power (.paren pxy)))) (.factor (.power pz)))⟩
  · exact ⟨rfl, _, .sum (.mul (s := [.lit two]) (.term (.factor (.power .number)))
      (.factor (.power lx)))⟩
  · exact ⟨rfl, _, .sum (.term (.factor (.power (.call .ln pxy))))⟩
  · exact ⟨rfl, _, .sum (.term (.neg (.factor (.power lx))))⟩

end

/-- the hypothesis of `C107_meaning` holds for `x / 2`, which has the value `3 / 2` at `x = 3` -/
example : Expr.macroExpr (F := XReal) [.ident "x", .punct .slash, .lit (.fin 2)] =
    some (.div (.var "x") (.const (.fin 2))) := rfl

end Verif
