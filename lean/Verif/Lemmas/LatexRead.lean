import Verif.Lemmas.Latex
import Mathlib.Tactic.Ring

/-! The printed LaTeX text of an expression is read with the value of the expression. -/

namespace Verif.Spec.Latex
open Python (Text IsNumber Ends Decimal number_head)
open XReal

section
variable {num : XReal → Text} {lit : Text → Option XReal}

/-- The tokens of a literal. -/
def litToks (num : XReal → Text) (c : XReal) : List Tok :=
  match num c with
  | '-' :: w => [.minus, .number w]
  | w => [.number w]

open Classical in
/-- The tokens of a product. -/
noncomputable def mulToks (l r : Expr XReal) (lk rk : List Tok) : List Tok :=
  if l = .const (fin 1) then rk
  else if l = .const (fin (-1)) then .minus :: rk
  else match l, r with
    | .const _, .var _ => lk ++ rk
    | _, _ => lk ++ cdot :: rk

/-- The tokens of a printed expression. -/
noncomputable def toks (num : XReal → Text) : Expr XReal → List Tok
  | .const c => litToks num c
  | .var n => n.toList.map .letter
  | .add l r => toks num l ++ .plus :: toks num r
  | .sub l r => toks num l ++ .minus :: toks num r
  | .mul l r => mulToks l r (toks num l) (toks num r)
  | .div l r => .command ['f', 'r', 'a', 'c'] :: .lbrace ::
      (toks num l ++ .rbrace :: .lbrace :: (toks num r ++ [.rbrace]))
  | .pow l r => toks num l ++ .caret :: .lbrace :: (toks num r ++ [.rbrace])
  | .ln e => .command ['l', 'n'] :: .lpar :: (toks num e ++ [.rpar])
  | .exp e => .letter 'e' :: .caret :: .lbrace :: (toks num e ++ [.rbrace])
  | .sqrt e => .command ['s', 'q', 'r', 't'] :: .lbrace :: (toks num e ++ [.rbrace])
  | .sin e => .command ['s', 'i', 'n'] :: .lpar :: (toks num e ++ [.rpar])
  | .cos e => .command ['c', 'o', 's'] :: .lpar :: (toks num e ++ [.rpar])
  | .neg e => .minus :: .lpar :: (toks num e ++ [.rpar])

theorem isConst_iff (c : XReal) (hc : ∃ x, c = fin x) (l : Expr XReal) :
    Expr.isConst c l = true ↔ l = .const c := by
  obtain ⟨x, rfl⟩ := hc
  cases l with
  | const a => cases a <;> simp [Expr.isConst, FloatOps.beq, XReal.beq]
  | _ => simp [Expr.isConst]

theorem mul_cases (l r : Expr XReal) (lt rt : Text) (lk rk : List Tok) :
    (l = .const (fin 1) ∧ Expr.latexMul l r lt rt = rt ∧ mulToks l r lk rk = rk) ∨
    (l = .const (fin (-1)) ∧ Expr.latexMul l r lt rt = '-' :: rt ∧
      mulToks l r lk rk = .minus :: rk) ∨
    (∃ c n, l = .const c ∧ r = .var n ∧ Expr.latexMul l r lt rt = lt ++ rt ∧
      mulToks l r lk rk = lk ++ rk) ∨
    (l ≠ .const (fin 1) ∧
      Expr.latexMul l r lt rt = lt ++ [' ', '\\', 'c', 'd', 'o', 't', ' '] ++ rt ∧
      mulToks l r lk rk = lk ++ cdot :: rk) := by
  have e1 := isConst_iff (FloatOps.one : XReal) ⟨1, by simp⟩ l
  have e2 := isConst_iff (FloatOps.ofRat (-1) : XReal) ⟨-1, by simp⟩ l
  have h1 : (FloatOps.one : XReal) = fin 1 := by simp
  have h2 : (FloatOps.ofRat (-1) : XReal) = fin (-1) := by simp
  rw [h1] at e1
  rw [h2] at e2
  unfold Expr.latexMul mulToks
  rw [h1, h2]
  by_cases hl : l = .const (fin 1)
  · left
    rw [if_pos (e1.2 hl), if_pos hl]
    exact ⟨hl, rfl, rfl⟩
  · right
    rw [if_neg (by rw [e1]; exact hl), if_neg hl]
    by_cases hl' : l = .const (fin (-1))
    · left
      rw [if_pos (e2.2 hl'), if_pos hl']
      exact ⟨hl', rfl, rfl⟩
    · right
      rw [if_neg (by rw [e2]; exact hl'), if_neg hl']
      cases l with
      | const c =>
        cases r with
        | var n => exact .inl ⟨c, n, rfl, rfl, rfl, rfl⟩
        | _ => exact .inr ⟨hl, rfl, rfl⟩
      | _ => exact .inr ⟨hl, rfl, rfl⟩

/-! ### Tokens of the printed text -/

/-- What follows a printed expression does not continue a number. -/
abbrev Follow (r : Text) : Prop := Ends numberChar r

theorem follow_cons {c : Char} {r : Text} (h : numberChar c = false) : Follow (c :: r) := by
  intro d r' e; cases e; exact h

theorem ends_alpha_cons {c : Char} {r : Text} (h : c.isAlpha = false) : Ends Char.isAlpha (c :: r) := by
  intro d r' e; cases e; exact h

theorem Usable.child {e c : Expr XReal} (h : Usable num lit e) (hc : c ∈ children e) :
    Usable num lit c := by
  refine ⟨fun n hn => h.1 n ?_, fun x hx => h.2 x (.step hc hx)⟩
  cases e <;> simp only [children, List.mem_cons, List.not_mem_nil, or_false] at hc <;>
    first
    | exact hc.elim
    | (subst hc; constructor; exact hn)
    | (rcases hc with rfl | rfl
       · first | exact .addL hn | exact .subL hn | exact .mulL hn | exact .divL hn | exact .powL hn
       · first | exact .addR hn | exact .subR hn | exact .mulR hn | exact .divR hn | exact .powR hn)

theorem BracketFree.child {e c : Expr XReal} (h : BracketFree e) (hc : c ∈ children e) :
    BracketFree c :=
  ⟨fun l r hs => h.1 l r (.step hc hs), fun l r hs => h.2.1 l r (.step hc hs),
    fun l r hs => h.2.2 l r (.step hc hs)⟩

/-- The text `s` has the tokens `k` wherever it may stand. -/
def LexesAs (s : Text) (k : List Tok) : Prop :=
  ∀ rest tr, Follow rest → Lexes rest tr → Lexes (s ++ rest) (k ++ tr)

theorem lex_brace {s : Text} {k : List Tok} (h : LexesAs s k) {rest : Text} {tr : List Tok}
    (hr : Lexes rest tr) : Lexes ('{' :: (s ++ '}' :: rest)) (.lbrace :: (k ++ .rbrace :: tr)) :=
  .lbrace (h _ _ (follow_cons (by decide)) (.rbrace hr))

theorem lex_paren {s : Text} {k : List Tok} (h : LexesAs s k) {rest : Text} {tr : List Tok}
    (hr : Lexes rest tr) : Lexes ('(' :: (s ++ ')' :: rest)) (.lpar :: (k ++ .rpar :: tr)) :=
  .lpar (h _ _ (follow_cons (by decide)) (.rpar hr))

theorem lex_lit {c : XReal} (h : Decimal num lit c) : LexesAs (num c) (litToks num c) := by
  intro rest tr hf hrest
  obtain ⟨x, rfl, ⟨-, hn, -⟩ | ⟨-, w, hw, hn, -⟩⟩ := h
  · have : litToks num (.fin x) = [.number (num (.fin x))] := by
      unfold litToks
      split
      · rename_i w hw
        obtain ⟨d, ds, hd, hd'⟩ := number_head hn
        rw [hw] at hd
        cases hd
        exact absurd hd' (by decide)
      · rfl
    rw [this]
    exact .number hn hf hrest
  · have : litToks num (.fin x) = [.minus, .number w] := by simp [litToks, hw]
    rw [this, hw]
    exact .minus (.number hn hf hrest)

theorem letter_follow {c : Char} {r : Text} (h : c.isAlpha = true) : Follow (c :: r) := by
  refine follow_cons ?_
  have h1 := Python.not_digit_of_alpha (.inl h)
  have h2 : (c == '.') = false := by
    by_contra hh
    have : c = '.' := by simpa using hh
    subst this
    exact absurd h (by decide)
  simp [numberChar, h1, h2]

theorem lex_var {n : String} (h : Letter n) : LexesAs n.toList (n.toList.map .letter) := by
  obtain ⟨c, rfl, hc, -⟩ := h
  intro rest tr _ hrest
  simpa using Lexes.letter hc hrest

theorem lex_cmd {w s : Text} {k : List Tok} (hn : w ≠ []) (hw : ∀ c ∈ w, c.isAlpha = true)
    (hs : Ends Char.isAlpha s) (h : Lexes s k) : Lexes ('\\' :: (w ++ s)) (.command w :: k) :=
  .command hn hw hs h

theorem lex_toks (e : Expr XReal) (h : Usable num lit e) :
    LexesAs (e.toLatex num) (toks num e) := by
  induction e with
  | const c => exact lex_lit (h.2 c .refl)
  | var n => exact lex_var (h.1 n .var)
  | add l r ihl ihr =>
    intro rest tr hf hrest
    have h1 := ihr (h.child (by simp [children])) _ _ hf hrest
    have h2 := ihl (h.child (by simp [children])) _ _ (follow_cons (by decide))
      (.space (.plus (.space h1)))
    simpa [Expr.toLatex, toks] using h2
  | sub l r ihl ihr =>
    intro rest tr hf hrest
    have h1 := ihr (h.child (by simp [children])) _ _ hf hrest
    have h2 := ihl (h.child (by simp [children])) _ _ (follow_cons (by decide))
      (.space (.minus (.space h1)))
    simpa [Expr.toLatex, toks] using h2
  | mul l r ihl ihr =>
    have hl := ihl (h.child (by simp [children]))
    have hr := ihr (h.child (by simp [children]))
    intro rest tr hf hrest
    rw [Expr.toLatex, toks]
    rcases mul_cases l r (l.toLatex num) (r.toLatex num) (toks num l) (toks num r) with
      ⟨-, e1, e2⟩ | ⟨-, e1, e2⟩ | ⟨c, n, rfl, rfl, e1, e2⟩ | ⟨-, e1, e2⟩ <;> rw [e1, e2]
    · exact hr _ _ hf hrest
    · exact .minus (hr _ _ hf hrest)
    · have h1 := hr _ _ hf hrest
      obtain ⟨d, hd, hd', -⟩ := h.1 n (.mulR .var)
      rw [List.append_assoc, List.append_assoc]
      refine hl _ _ ?_ h1
      rw [Expr.toLatex, hd]
      simpa using letter_follow hd'
    · have h1 := hr _ _ hf hrest
      have h2 := hl _ _ (follow_cons (by decide)) (.space (lex_cmd (w := ['c', 'd', 'o', 't'])
        (by simp) (by decide) (ends_alpha_cons (by decide)) (.space h1)))
      simpa [cdot] using h2
  | div l r ihl ihr =>
    intro rest tr hf hrest
    have h1 := lex_brace (ihr (h.child (by simp [children]))) hrest
    have h2 := lex_brace (ihl (h.child (by simp [children]))) h1
    have h3 := lex_cmd (w := ['f', 'r', 'a', 'c']) (by simp) (by decide)
      (ends_alpha_cons (by decide)) h2
    simpa [Expr.toLatex, toks] using h3
  | pow l r ihl ihr =>
    intro rest tr hf hrest
    have h1 := lex_brace (ihr (h.child (by simp [children]))) hrest
    have h2 := ihl (h.child (by simp [children])) _ _ (follow_cons (by decide)) (.caret h1)
    simpa [Expr.toLatex, toks] using h2
  | ln e ih =>
    intro rest tr hf hrest
    have h1 := lex_paren (ih (h.child (by simp [children]))) hrest
    have h2 := lex_cmd (w := ['l', 'n']) (by simp) (by decide) (ends_alpha_cons (by decide)) h1
    simpa [Expr.toLatex, toks] using h2
  | exp e ih =>
    intro rest tr hf hrest
    have h1 := lex_brace (ih (h.child (by simp [children]))) hrest
    have h2 := Lexes.letter (c := 'e') (by decide) (.caret h1)
    simpa [Expr.toLatex, toks] using h2
  | sqrt e ih =>
    intro rest tr hf hrest
    have h1 := lex_brace (ih (h.child (by simp [children]))) hrest
    have h2 := lex_cmd (w := ['s', 'q', 'r', 't']) (by simp) (by decide)
      (ends_alpha_cons (by decide)) h1
    simpa [Expr.toLatex, toks] using h2
  | sin e ih =>
    intro rest tr hf hrest
    have h1 := lex_paren (ih (h.child (by simp [children]))) hrest
    have h2 := lex_cmd (w := ['s', 'i', 'n']) (by simp) (by decide) (ends_alpha_cons (by decide)) h1
    simpa [Expr.toLatex, toks] using h2
  | cos e ih =>
    intro rest tr hf hrest
    have h1 := lex_paren (ih (h.child (by simp [children]))) hrest
    have h2 := lex_cmd (w := ['c', 'o', 's']) (by simp) (by decide) (ends_alpha_cons (by decide)) h1
    simpa [Expr.toLatex, toks] using h2
  | neg e ih =>
    intro rest tr hf hrest
    have h1 := Lexes.minus (lex_paren (ih (h.child (by simp [children]))) hrest)
    simpa [Expr.toLatex, toks] using h1

/-! ### Values -/

/-- Same value at every assignment. -/
def Same (t e : Expr XReal) : Prop := ∀ ρ, value ρ t = value ρ e

/-- `k` minus signs in front. -/
def negs : ℕ → Expr XReal → Expr XReal
  | 0, e => e
  | k + 1, e => .neg (negs k e)

theorem value_mul (ρ : String → Option ℝ) (l r : Expr XReal) :
    value ρ (.mul l r) = (value ρ l).bind fun a => (value ρ r).bind fun b => some (a * b) := rfl

theorem value_negs (ρ : String → Option ℝ) (k : ℕ) (e : Expr XReal) :
    value ρ (negs k e) = (value ρ e).map ((-1) ^ k * ·) := by
  induction k with
  | zero => cases h : value ρ e <;> simp [negs, h]
  | succ k ih =>
    rw [negs, value, ih]
    cases h : value ρ e
    · simp
    · simp [pow_succ]

theorem minuses {k : ℕ} {s : List Tok} {t : Expr XReal} (h : Parses lit .factor s t) :
    Parses lit .factor (List.replicate k .minus ++ s) (negs k t) := by
  induction k with
  | zero => exact h
  | succ k ih => exact .neg ih

/-! ### Parsing -/

/-- How the tokens of an expression parse, alone and behind something else. -/
structure Good (num : XReal → Text) (lit : Text → Option XReal) (e : Expr XReal) : Prop where
  sum : ∃ t, Parses lit .sum (toks num e) t ∧ Same t e
  onto : ∀ s a, Parses lit .sum s a →
    ∃ t, Parses lit .sum (s ++ .plus :: toks num e) t ∧ Same t (.add a e)
  signs : ¬ SumLike e → ∀ k,
    ∃ t, Parses lit .term (List.replicate k .minus ++ toks num e) t ∧ Same t (negs k e)
  times : ¬ SumLike e → ∀ k s a, Parses lit .term s a →
    ∃ t, Parses lit .term (s ++ cdot :: (List.replicate k .minus ++ toks num e)) t ∧
      Same t (.mul a (negs k e))
  atom : Atomic e → ∃ t, Parses lit .primary (toks num e) t ∧ Same t e

theorem Good.ofTerm {e : Expr XReal}
    (signs : ∀ k, ∃ t, Parses lit .term (List.replicate k .minus ++ toks num e) t ∧ Same t (negs k e))
    (times : ∀ k s a, Parses lit .term s a →
      ∃ t, Parses lit .term (s ++ cdot :: (List.replicate k .minus ++ toks num e)) t ∧
        Same t (.mul a (negs k e)))
    (atom : Atomic e → ∃ t, Parses lit .primary (toks num e) t ∧ Same t e) : Good num lit e where
  sum := by
    obtain ⟨t, h1, h2⟩ := signs 0
    exact ⟨t, .sum h1, h2⟩
  onto s a hs := by
    obtain ⟨t, h1, h2⟩ := signs 0
    exact ⟨_, .add hs h1, fun ρ => by simp only [value, h2 ρ, negs]⟩
  signs _ := signs
  times _ := times
  atom := atom

theorem Good.ofFactor {e : Expr XReal}
    (h : ∃ t, Parses lit .factor (toks num e) t ∧ Same t e)
    (atom : Atomic e → ∃ t, Parses lit .primary (toks num e) t ∧ Same t e) : Good num lit e := by
  obtain ⟨t, h1, h2⟩ := h
  refine .ofTerm (fun k => ⟨_, .term (minuses (k := k) h1), fun ρ => ?_⟩)
    (fun k s a hs => ⟨_, .mul hs (minuses (k := k) h1), fun ρ => ?_⟩) atom
  · rw [value_negs, value_negs, h2 ρ]
  · simp only [value, value_negs, h2 ρ]

theorem Good.ofPrimary {e : Expr XReal}
    (h : ∃ t, Parses lit .primary (toks num e) t ∧ Same t e) : Good num lit e := by
  obtain ⟨t, h1, h2⟩ := h
  exact .ofFactor ⟨t, .factor (.power h1), h2⟩ fun _ => ⟨t, h1, h2⟩

theorem parse_lit {c : XReal} (h : Decimal num lit c) : Good num lit (.const c) := by
  obtain ⟨x, rfl, ⟨hx, hn, hl⟩ | ⟨hx, w, hw, hn, hl⟩⟩ := h
  · have : litToks num (.fin x) = [.number (num (.fin x))] := by
      unfold litToks
      split
      · rename_i w hw
        obtain ⟨d, ds, hd, hd'⟩ := number_head hn
        rw [hw] at hd
        cases hd
        exact absurd hd' (by decide)
      · rfl
    refine .ofPrimary ⟨_, ?_, fun _ => rfl⟩
    rw [toks, this]
    exact .number hl
  · have : litToks num (.fin x) = [.minus, .number w] := by simp [litToks, hw]
    refine .ofFactor ⟨.neg (.const (fin (-x))), ?_, fun ρ => by simp [value]⟩ ?_
    · rw [toks, this]
      exact .neg (.factor (.power (.number hl)))
    · intro ha
      cases ha with
      | const h0 => exact absurd hx (not_lt.2 h0)

theorem parse_toks (e : Expr XReal) (h : Usable num lit e) (hb : BracketFree e) :
    Good num lit e := by
  induction e with
  | const c => exact parse_lit (h.2 c .refl)
  | var n =>
    obtain ⟨c, rfl, hc, he⟩ := h.1 n .var
    refine .ofPrimary ⟨_, ?_, fun _ => rfl⟩
    simpa [toks] using Parses.letter (lit := lit) he
  | add l r ihl ihr =>
    have hl := ihl (h.child (by simp [children])) (hb.child (by simp [children]))
    have hr := ihr (h.child (by simp [children])) (hb.child (by simp [children]))
    refine ⟨?_, ?_, fun hs => absurd .add hs, fun hs => absurd .add hs, fun ha => by cases ha⟩
    · obtain ⟨t, h1, h2⟩ := hl.sum
      obtain ⟨t', h1', h2'⟩ := hr.onto _ _ h1
      exact ⟨t', h1', fun ρ => by rw [h2' ρ]; simp only [value, h2 ρ]⟩
    · intro s a hs
      obtain ⟨t, h1, h2⟩ := hl.onto s a hs
      obtain ⟨t', h1', h2'⟩ := hr.onto _ _ h1
      refine ⟨t', by simpa [toks] using h1', fun ρ => ?_⟩
      rw [h2' ρ]
      simp only [value, h2 ρ]
      cases value ρ a <;> cases value ρ l <;> cases value ρ r <;> simp [add_assoc]
  | sub l r ihl ihr =>
    have hl := ihl (h.child (by simp [children])) (hb.child (by simp [children]))
    have hr := ihr (h.child (by simp [children])) (hb.child (by simp [children]))
    obtain ⟨u, g1, g2⟩ := hr.signs (hb.1 l r .refl) 0
    refine ⟨?_, ?_, fun hs => absurd .sub hs, fun hs => absurd .sub hs, fun ha => by cases ha⟩
    · obtain ⟨t, h1, h2⟩ := hl.sum
      exact ⟨_, .sub h1 g1, fun ρ => by simp only [value, h2 ρ, g2 ρ, negs]⟩
    · intro s a hs
      obtain ⟨t, h1, h2⟩ := hl.onto s a hs
      refine ⟨_, by simpa [toks] using Parses.sub h1 g1, fun ρ => ?_⟩
      simp only [value, h2 ρ, g2 ρ, negs]
      cases value ρ a <;> cases value ρ l <;> cases value ρ r <;> simp [add_sub_assoc]
  | mul l r ihl ihr =>
    have hl := ihl (h.child (by simp [children])) (hb.child (by simp [children]))
    have hr := ihr (h.child (by simp [children])) (hb.child (by simp [children]))
    rcases mul_cases l r (l.toLatex num) (r.toLatex num) (toks num l) (toks num r) with
      ⟨rfl, -, e2⟩ | ⟨rfl, -, e2⟩ | ⟨c, n, rfl, rfl, -, e2⟩ | ⟨hne, -, e2⟩
    · have hv : Same r (.mul (.const (fin 1)) r) := by
        intro ρ
        simp only [value]
        cases value ρ r <;> simp
      have ht : toks num (.mul (.const (fin 1)) r) = toks num r := by rw [toks, e2]
      constructor
      · obtain ⟨t, h1, h2⟩ := hr.sum
        exact ⟨t, ht ▸ h1, fun ρ => (h2 ρ).trans (hv ρ)⟩
      · intro s a hs
        obtain ⟨t, h1, h2⟩ := hr.onto s a hs
        refine ⟨t, ht ▸ h1, fun ρ => ?_⟩
        rw [h2 ρ, value, hv ρ, ← value]
      · intro hs k
        obtain ⟨t, h1, h2⟩ := hr.signs (fun hs' => hs (.one hs')) k
        refine ⟨t, ht ▸ h1, fun ρ => ?_⟩
        rw [h2 ρ, value_negs, value_negs, hv ρ]
      · intro hs k s a ha
        obtain ⟨t, h1, h2⟩ := hr.times (fun hs' => hs (.one hs')) k s a ha
        refine ⟨t, ht ▸ h1, fun ρ => ?_⟩
        rw [h2 ρ]
        rw [value_mul, value_mul, value_negs, value_negs, hv ρ]
      · intro ha
        obtain ⟨t, h1, h2⟩ := hr.atom (by cases ha with | one h => exact h)
        exact ⟨t, ht ▸ h1, fun ρ => (h2 ρ).trans (hv ρ)⟩
    · have hs : ¬ SumLike r := by
        rcases hb.2.1 _ r .refl with h1 | h1
        · simp at h1
          norm_num at h1
        · exact h1.2
      have ht : ∀ k, List.replicate k Tok.minus ++ toks num (.mul (.const (fin (-1))) r) =
          List.replicate (k + 1) .minus ++ toks num r := by
        intro k
        rw [toks, e2, List.replicate_succ', List.append_assoc]
        rfl
      have hv : ∀ k, Same (negs (k + 1) r) (negs k (.mul (.const (fin (-1))) r)) := by
        intro k ρ
        simp only [value_negs, value]
        cases value ρ r <;> simp [pow_succ]
      refine .ofTerm (fun k => ?_) (fun k s a ha => ?_) ?_
      · obtain ⟨t, h1, h2⟩ := hr.signs hs (k + 1)
        exact ⟨t, ht k ▸ h1, fun ρ => (h2 ρ).trans (hv k ρ)⟩
      · obtain ⟨t, h1, h2⟩ := hr.times hs (k + 1) s a ha
        refine ⟨t, ht k ▸ h1, fun ρ => ?_⟩
        rw [h2 ρ, value, hv k ρ, ← value]
      · intro ha
        generalize hm : Expr.mul (.const (fin (-1))) r = m at ha
        cases ha <;> simp at hm
        norm_num at hm
    · have ht : toks num (.mul (.const c) (.var n)) = toks num (.const c) ++ toks num (.var n) := by
        conv_lhs => rw [toks]
        exact e2
      obtain ⟨d, rfl, hd, he⟩ := h.1 n (.mulR .var)
      have hv : toks num (.var (String.ofList [d])) = [.letter d] := by simp [toks]
      have hp : Parses lit .power [.letter d] (.var (String.ofList [d])) := .power (.letter he)
      have hns : ¬ SumLike (.const c) := by rintro ⟨⟩
      refine .ofTerm (fun k => ?_) (fun k s a ha => ?_) ?_
      · obtain ⟨t, h1, h2⟩ := hl.signs hns k
        refine ⟨.mul t (.var (String.ofList [d])), ?_, fun ρ => ?_⟩
        · rw [ht, hv, ← List.append_assoc]
          exact .juxtapose h1 hp (by simp)
        · simp only [value_mul, h2 ρ, value_negs]
          cases value ρ (.const c) <;> cases value ρ (.var (String.ofList [d])) <;>
            simp [mul_assoc]
      · obtain ⟨t, h1, h2⟩ := hl.times hns k s a ha
        refine ⟨.mul t (.var (String.ofList [d])), ?_, fun ρ => ?_⟩
        · rw [ht, hv]
          have := Parses.juxtapose h1 hp (by simp)
          simpa using this
        · simp only [value_mul, h2 ρ, value_negs]
          cases value ρ a <;> cases value ρ (.const c) <;> cases value ρ (.var (String.ofList [d])) <;>
            simp [mul_assoc]
      · intro ha
        have : Expr.mul (.const c) (.var (String.ofList [d])) =
          .mul (.const c) (.var (String.ofList [d])) := rfl
        cases ha with
        | one _ =>
          have hx := mul_cases (.const (fin 1)) (.var (String.ofList [d])) [] ['x'] [] []
          exfalso
          unfold mulToks at e2
          rw [if_pos rfl, hv] at e2
          have hlen := congrArg List.length e2
          have : (toks num (.const (fin 1))).length ≠ 0 := by
            simp only [toks, litToks]
            split <;> simp
          simp at hlen
          exact this (by simp [hlen])
    · have ht : toks num (.mul l r) = toks num l ++ cdot :: toks num r := by rw [toks, e2]
      obtain ⟨hsl, hsr⟩ : ¬ SumLike l ∧ ¬ SumLike r := by
        rcases hb.2.1 l r .refl with h1 | h1
        · exact absurd h1 hne
        · exact h1
      refine .ofTerm (fun k => ?_) (fun k s a ha => ?_) ?_
      · obtain ⟨t, h1, h2⟩ := hl.signs hsl k
        obtain ⟨t', h1', h2'⟩ := hr.times hsr 0 _ _ h1
        refine ⟨t', ?_, fun ρ => ?_⟩
        · rw [ht, ← List.append_assoc]
          simpa using h1'
        · rw [h2' ρ]
          simp only [value, h2 ρ, value_negs]
          cases value ρ l <;> cases value ρ r <;> simp [mul_assoc]
      · obtain ⟨t, h1, h2⟩ := hl.times hsl k s a ha
        obtain ⟨t', h1', h2'⟩ := hr.times hsr 0 _ _ h1
        refine ⟨t', ?_, fun ρ => ?_⟩
        · rw [ht]
          simpa using h1'
        · rw [h2' ρ]
          simp only [value, h2 ρ, value_negs]
          cases value ρ a <;> cases value ρ l <;> cases value ρ r <;> simp [mul_assoc]
      · intro ha
        cases ha with
        | one _ => exact absurd rfl hne
  | div l r ihl ihr =>
    obtain ⟨t, h1, h2⟩ := (ihl (h.child (by simp [children])) (hb.child (by simp [children]))).sum
    obtain ⟨u, g1, g2⟩ := (ihr (h.child (by simp [children])) (hb.child (by simp [children]))).sum
    exact .ofPrimary ⟨_, .frac h1 g1, fun ρ => by simp only [value, h2 ρ, g2 ρ]⟩
  | pow l r ihl ihr =>
    obtain ⟨t, h1, h2⟩ := (ihl (h.child (by simp [children])) (hb.child (by simp [children]))).atom
      (hb.2.2 l r .refl)
    obtain ⟨u, g1, g2⟩ := (ihr (h.child (by simp [children])) (hb.child (by simp [children]))).sum
    exact .ofFactor ⟨_, .factor (.pow h1 g1), fun ρ => by simp only [value, h2 ρ, g2 ρ]⟩
      (fun ha => by cases ha)
  | ln e ih =>
    obtain ⟨t, h1, h2⟩ := (ih (h.child (by simp [children])) (hb.child (by simp [children]))).sum
    exact .ofPrimary ⟨_, .call (g := .ln) rfl h1, fun ρ => by simp only [value, h2 ρ]⟩
  | exp e ih =>
    obtain ⟨t, h1, h2⟩ := (ih (h.child (by simp [children])) (hb.child (by simp [children]))).sum
    exact .ofFactor ⟨_, .factor (.exp h1), fun ρ => by simp only [value, h2 ρ]⟩
      (fun ha => by cases ha)
  | sqrt e ih =>
    obtain ⟨t, h1, h2⟩ := (ih (h.child (by simp [children])) (hb.child (by simp [children]))).sum
    exact .ofPrimary ⟨_, .sqrt h1, fun ρ => by simp only [value, h2 ρ]⟩
  | sin e ih =>
    obtain ⟨t, h1, h2⟩ := (ih (h.child (by simp [children])) (hb.child (by simp [children]))).sum
    exact .ofPrimary ⟨_, .call (g := .sin) rfl h1, fun ρ => by simp only [value, h2 ρ]⟩
  | cos e ih =>
    obtain ⟨t, h1, h2⟩ := (ih (h.child (by simp [children])) (hb.child (by simp [children]))).sum
    exact .ofPrimary ⟨_, .call (g := .cos) rfl h1, fun ρ => by simp only [value, h2 ρ]⟩
  | neg e ih =>
    obtain ⟨t, h1, h2⟩ := (ih (h.child (by simp [children])) (hb.child (by simp [children]))).sum
    exact .ofFactor ⟨_, .neg (.factor (.power (.paren h1))), fun ρ => by simp only [value, h2 ρ]⟩
      (fun ha => by cases ha)

end
end Verif.Spec.Latex
