import Verif.Spec.Latex
import Verif.Lemmas.Python

/-! The grammar of formulas is unambiguous, and reads the printed text. -/

namespace Verif.Spec.Latex

open Python (Text IsNumber Ends Decimal Ev munch number_head IsNumber.chars)

/-! ### A deterministic parser -/

section
variable {F : Type} (lit : Text → Option F)

inductive Job (F : Type) where
  | sum | sumLoop (a : Expr F) | term | termLoop (a : Expr F) | factor | power | powTail (a : Expr F)
  | primary

/-- Expect a token after what was parsed. -/
def close (t : Tok → Bool) (p : Expr F × List Tok) : Option (Expr F × List Tok) :=
  match p.2 with
  | c :: r => if t c then some (p.1, r) else none
  | [] => none

def isRpar : Tok → Bool | .rpar => true | _ => false
def isRbrace : Tok → Bool | .rbrace => true | _ => false

/-- Recursive descent with a bound on the number of steps. -/
def run : ℕ → Job F → List Tok → Option (Expr F × List Tok)
  | 0, _, _ => none
  | n + 1, .sum, ts => (run n .term ts).bind fun p => run n (.sumLoop p.1) p.2
  | n + 1, .sumLoop a, .plus :: ts =>
    (run n .term ts).bind fun p => run n (.sumLoop (.add a p.1)) p.2
  | n + 1, .sumLoop a, .minus :: ts =>
    (run n .term ts).bind fun p => run n (.sumLoop (.sub a p.1)) p.2
  | _ + 1, .sumLoop a, ts => some (a, ts)
  | n + 1, .term, ts => (run n .factor ts).bind fun p => run n (.termLoop p.1) p.2
  | n + 1, .termLoop a, .command w :: ts =>
    if w = ['c', 'd', 'o', 't'] then
      (run n .factor ts).bind fun p => run n (.termLoop (.mul a p.1)) p.2
    else (run n .power (.command w :: ts)).bind fun p => run n (.termLoop (.mul a p.1)) p.2
  | n + 1, .termLoop a, .letter c :: ts =>
    (run n .power (.letter c :: ts)).bind fun p => run n (.termLoop (.mul a p.1)) p.2
  | n + 1, .termLoop a, .lpar :: ts =>
    (run n .power (.lpar :: ts)).bind fun p => run n (.termLoop (.mul a p.1)) p.2
  | _ + 1, .termLoop a, ts => some (a, ts)
  | n + 1, .factor, .minus :: ts => (run n .factor ts).bind fun p => some (.neg p.1, p.2)
  | n + 1, .factor, ts => run n .power ts
  | n + 1, .power, .letter c :: ts =>
    if c = 'e' then
      match ts with
      | .caret :: .lbrace :: r => (run n .sum r).bind fun p => close isRbrace (.exp p.1, p.2)
      | _ => none
    else (run n .primary (.letter c :: ts)).bind fun p => run n (.powTail p.1) p.2
  | n + 1, .power, ts => (run n .primary ts).bind fun p => run n (.powTail p.1) p.2
  | n + 1, .powTail a, .caret :: .lbrace :: ts =>
    (run n .sum ts).bind fun p => close isRbrace (.pow a p.1, p.2)
  | _ + 1, .powTail a, ts => some (a, ts)
  | n + 1, .primary, .lpar :: ts => (run n .sum ts).bind fun p => close isRpar p
  | _ + 1, .primary, .letter c :: ts => some (.var (String.ofList [c]), ts)
  | _ + 1, .primary, .number w :: ts => (lit w).map fun c => (.const c, ts)
  | n + 1, .primary, .command f :: .lpar :: ts => (run n .sum ts).bind fun p =>
      match function f with
      | some g => close isRpar (g p.1, p.2)
      | none => none
  | n + 1, .primary, .command f :: .lbrace :: ts => (run n .sum ts).bind fun p =>
      if f = ['s', 'q', 'r', 't'] then close isRbrace (.sqrt p.1, p.2)
      else
        match p.2 with
        | .rbrace :: .lbrace :: r => (run n .sum r).bind fun q => close isRbrace (.div p.1 q.1, q.2)
        | _ => none
  | _ + 1, .primary, _ => none

variable {lit}

/-- What may follow a sum, a term or factor, a primary. -/
def AfterSum (r : List Tok) : Prop :=
  r = [] ∨ ∃ r', r = .rpar :: r' ∨ r = .rbrace :: r' ∨ r = .plus :: r' ∨ r = .minus :: r'
def Starts (r : List Tok) : Prop :=
  ∃ r', r = .lpar :: r' ∨ (∃ c, r = .letter c :: r') ∨ ∃ w, r = .command w :: r'
def AfterTerm (r : List Tok) : Prop := AfterSum r ∨ Starts r
def AfterPrimary (r : List Tok) : Prop := AfterTerm r ∨ ∃ r', r = .caret :: .lbrace :: r'

def Closing (r : List Tok) : Prop := r = [] ∨ ∃ r', r = .rpar :: r' ∨ r = .rbrace :: r'

theorem Closing.after {r : List Tok} (h : Closing r) : AfterSum r := by
  rcases h with rfl | ⟨r', rfl | rfl⟩
  · exact .inl rfl
  · exact .inr ⟨r', .inl rfl⟩
  · exact .inr ⟨r', .inr (.inl rfl)⟩

theorem ev_sumEnd (a : Expr F) {r : List Tok} (h : Closing r) :
    Ev (fun n => run lit n (.sumLoop a) r) (some (a, r)) := by
  refine Python.Ev.succ ⟨0, fun n _ => ?_⟩
  rcases h with rfl | ⟨r', rfl | rfl⟩ <;> rfl

theorem ev_termEnd (a : Expr F) {r : List Tok} (h : AfterSum r) :
    Ev (fun n => run lit n (.termLoop a) r) (some (a, r)) := by
  refine Python.Ev.succ ⟨0, fun n _ => ?_⟩
  rcases h with rfl | ⟨r', rfl | rfl | rfl | rfl⟩ <;> rfl

theorem ev_powEnd (a : Expr F) {r : List Tok} (h : AfterTerm r) :
    Ev (fun n => run lit n (.powTail a) r) (some (a, r)) := by
  refine Python.Ev.succ ⟨0, fun n _ => ?_⟩
  rcases h with (rfl | ⟨r', rfl | rfl | rfl | rfl⟩) | ⟨r', rfl | ⟨c, rfl⟩ | ⟨w, rfl⟩⟩ <;> rfl

/-- What the parser does on a derivation of each level. -/
def Done (lit : Text → Option F) : Level → List Tok → Expr F → Prop
  | .sum, s, a => ∀ r x, AfterSum r → Ev (fun n => run lit n (.sumLoop a) r) x →
      Ev (fun n => run lit n .sum (s ++ r)) x
  | .term, s, a => ∀ r x, AfterTerm r → Ev (fun n => run lit n (.termLoop a) r) x →
      Ev (fun n => run lit n .term (s ++ r)) x
  | .factor, s, a => ∀ r, AfterTerm r → Ev (fun n => run lit n .factor (s ++ r)) (some (a, r))
  | .power, s, a => ∀ r, AfterTerm r → Ev (fun n => run lit n .power (s ++ r)) (some (a, r))
  | .primary, s, a => ∀ r, AfterPrimary r →
      Ev (fun n => run lit n .primary (s ++ r)) (some (a, r))

/-- The first token of a primary or power. -/
def Head (l : Level) (s : List Tok) : Prop :=
  match l with
  | .primary => ∃ s', s = .lpar :: s' ∨ (∃ c, c ≠ 'e' ∧ s = .letter c :: s') ∨
      (∃ w, s = .number w :: s') ∨ ∃ w, w ≠ ['c', 'd', 'o', 't'] ∧ s = .command w :: s'
  | .power => ∃ s', s = .lpar :: s' ∨ (∃ c, s = .letter c :: s') ∨
      (∃ w, s = .number w :: s') ∨ ∃ w, w ≠ ['c', 'd', 'o', 't'] ∧ s = .command w :: s'
  | _ => True

theorem parses_head {l : Level} {s : List Tok} {a : Expr F} (h : Parses lit l s a) : Head l s := by
  induction h with
  | @pow s t a b _ _ ih _ =>
    obtain ⟨s', rfl | ⟨c, -, rfl⟩ | ⟨w, rfl⟩ | ⟨w, hw, rfl⟩⟩ := ih
    · exact ⟨_, .inl rfl⟩
    · exact ⟨_, .inr (.inl ⟨c, rfl⟩)⟩
    · exact ⟨_, .inr (.inr (.inl ⟨w, rfl⟩))⟩
    · exact ⟨_, .inr (.inr (.inr ⟨w, hw, rfl⟩))⟩
  | exp _ _ => exact ⟨_, .inr (.inl ⟨'e', rfl⟩)⟩
  | power _ ih =>
    obtain ⟨s', rfl | ⟨c, -, rfl⟩ | ⟨w, rfl⟩ | ⟨w, hw, rfl⟩⟩ := ih
    · exact ⟨_, .inl rfl⟩
    · exact ⟨_, .inr (.inl ⟨c, rfl⟩)⟩
    · exact ⟨_, .inr (.inr (.inl ⟨w, rfl⟩))⟩
    · exact ⟨_, .inr (.inr (.inr ⟨w, hw, rfl⟩))⟩
  | paren _ _ => exact ⟨_, .inl rfl⟩
  | @letter c hc => exact ⟨[], .inr (.inl ⟨c, hc, rfl⟩)⟩
  | @number w c _ => exact ⟨[], .inr (.inr (.inl ⟨w, rfl⟩))⟩
  | @call s a f g hg _ _ =>
    refine ⟨_, .inr (.inr (.inr ⟨f, ?_, rfl⟩))⟩
    rintro rfl
    simp [function] at hg
  | sqrt _ _ => exact ⟨_, .inr (.inr (.inr ⟨_, by decide, rfl⟩))⟩
  | frac _ _ _ _ => exact ⟨_, .inr (.inr (.inr ⟨_, by decide, rfl⟩))⟩
  | _ => trivial

theorem run_factor_power {n : ℕ} {s r : List Tok} (h : Head .power s) :
    run lit (n + 1) .factor (s ++ r) = run lit n .power (s ++ r) := by
  obtain ⟨s', rfl | ⟨c, rfl⟩ | ⟨w, rfl⟩ | ⟨w, hw, rfl⟩⟩ := h <;> rfl

theorem run_power_primary {n : ℕ} {s r : List Tok} (h : Head .primary s) :
    run lit (n + 1) .power (s ++ r) =
      (run lit n .primary (s ++ r)).bind fun p => run lit n (.powTail p.1) p.2 := by
  obtain ⟨s', rfl | ⟨c, hc, rfl⟩ | ⟨w, rfl⟩ | ⟨w, hw, rfl⟩⟩ := h
  · rfl
  · show (if c = 'e' then _ else _) = _
    rw [if_neg hc]; rfl
  · rfl
  · rfl

theorem Done.sumEnd {s : List Tok} {a : Expr F} (h : Done lit .sum s a) {r : List Tok}
    (hr : Closing r) : Ev (fun n => run lit n .sum (s ++ r)) (some (a, r)) :=
  h r _ hr.after (ev_sumEnd a hr)

theorem starts_of_head {s : List Tok} (h : Head .power s) (hn : ∀ w t', s ≠ .number w :: t')
    (r : List Tok) : Starts (s ++ r) := by
  obtain ⟨s', rfl | ⟨c, rfl⟩ | ⟨w, rfl⟩ | ⟨w, hw, rfl⟩⟩ := h
  · exact ⟨_, .inl rfl⟩
  · exact ⟨_, .inr (.inl ⟨c, rfl⟩)⟩
  · exact absurd rfl (hn w s')
  · exact ⟨_, .inr (.inr ⟨w, rfl⟩)⟩

theorem run_juxt {n : ℕ} {a : Expr F} {s r : List Tok} (h : Head .power s)
    (hn : ∀ w t', s ≠ .number w :: t') :
    run lit (n + 1) (.termLoop a) (s ++ r) =
      (run lit n .power (s ++ r)).bind fun p => run lit n (.termLoop (.mul a p.1)) p.2 := by
  obtain ⟨s', rfl | ⟨c, rfl⟩ | ⟨w, rfl⟩ | ⟨w, hw, rfl⟩⟩ := h
  · rfl
  · rfl
  · exact absurd rfl (hn w s')
  · show (if w = _ then _ else _) = _
    rw [if_neg hw]; rfl

theorem parses_done {l : Level} {s : List Tok} {a : Expr F} (h : Parses lit l s a) :
    Done lit l s a := by
  induction h with
  | @add s t a b _ _ ih1 ih2 =>
    intro r x hr hx
    rw [List.append_assoc]
    refine ih1 _ _ (.inr ⟨_, .inr (.inr (.inl rfl))⟩) (Python.Ev.succ ?_)
    show Ev (fun n => (run lit n .term (t ++ r)).bind _) x
    exact Python.Ev.bind (ih2 r _ (.inl hr) (ev_termEnd b hr)) hx
  | @sub s t a b _ _ ih1 ih2 =>
    intro r x hr hx
    rw [List.append_assoc]
    refine ih1 _ _ (.inr ⟨_, .inr (.inr (.inr rfl))⟩) (Python.Ev.succ ?_)
    show Ev (fun n => (run lit n .term (t ++ r)).bind _) x
    exact Python.Ev.bind (ih2 r _ (.inl hr) (ev_termEnd b hr)) hx
  | @sum s a _ ih =>
    intro r x hr hx
    refine Python.Ev.succ ?_
    show Ev (fun n => (run lit n .term (s ++ r)).bind _) x
    exact Python.Ev.bind (ih r _ (.inl hr) (ev_termEnd a hr)) hx
  | @mul s t a b _ _ ih1 ih2 =>
    intro r x hr hx
    rw [List.append_assoc]
    refine ih1 _ _ (.inr ⟨_, .inr (.inr ⟨_, rfl⟩)⟩) (Python.Ev.succ ?_)
    show Ev (fun n => (run lit n .factor (t ++ r)).bind _) x
    exact Python.Ev.bind (ih2 r hr) hx
  | @juxtapose s t a b _ hb hn ih1 ih2 =>
    intro r x hr hx
    rw [List.append_assoc]
    refine ih1 _ _ (.inr (starts_of_head (parses_head hb) hn r)) (Python.Ev.succ ?_)
    simp only [run_juxt (parses_head hb) hn]
    exact Python.Ev.bind (ih2 r hr) hx
  | @term s a _ ih =>
    intro r x hr hx
    refine Python.Ev.succ ?_
    show Ev (fun n => (run lit n .factor (s ++ r)).bind _) x
    exact Python.Ev.bind (ih r hr) hx
  | @neg s a _ ih =>
    intro r hr
    refine Python.Ev.succ ?_
    show Ev (fun n => (run lit n .factor (s ++ r)).bind _) _
    exact Python.Ev.bind (ih r hr) ⟨0, fun _ _ => rfl⟩
  | @factor s a ha ih =>
    intro r hr
    refine Python.Ev.succ ?_
    simp only [run_factor_power (parses_head ha)]
    exact ih r hr
  | @pow s t a b ha _ ih1 ih2 =>
    intro r hr
    rw [List.append_assoc]
    refine Python.Ev.succ ?_
    simp only [run_power_primary (parses_head ha)]
    refine Python.Ev.bind (ih1 _ (.inr ⟨_, rfl⟩)) (Python.Ev.succ ?_)
    have := Done.sumEnd ih2 (r := .rbrace :: r) (.inr ⟨r, .inr rfl⟩)
    show Ev (fun n => (run lit n .sum (t ++ [.rbrace] ++ r)).bind _) _
    rw [List.append_assoc]
    exact Python.Ev.bind this ⟨0, fun _ _ => rfl⟩
  | @exp t b _ ih =>
    intro r hr
    refine Python.Ev.succ ?_
    have := Done.sumEnd ih (r := .rbrace :: r) (.inr ⟨r, .inr rfl⟩)
    show Ev (fun n => (run lit n .sum (t ++ [.rbrace] ++ r)).bind _) _
    rw [List.append_assoc]
    exact Python.Ev.bind this ⟨0, fun _ _ => rfl⟩
  | @power s a ha ih =>
    intro r hr
    refine Python.Ev.succ ?_
    simp only [run_power_primary (parses_head ha)]
    exact Python.Ev.bind (ih r (.inl hr)) (ev_powEnd a hr)
  | @paren s a _ ih =>
    intro r _
    refine Python.Ev.succ ?_
    have := Done.sumEnd ih (r := .rpar :: r) (.inr ⟨r, .inl rfl⟩)
    show Ev (fun n => (run lit n .sum (s ++ [.rpar] ++ r)).bind _) _
    rw [List.append_assoc]
    exact Python.Ev.bind this ⟨0, fun _ _ => rfl⟩
  | @letter c _ => exact fun r _ => Python.Ev.succ ⟨0, fun n _ => rfl⟩
  | @number w c hc =>
    refine fun r _ => Python.Ev.succ ⟨0, fun n _ => ?_⟩
    show (lit w).map _ = _
    rw [hc]; rfl
  | @call s a f g hg _ ih =>
    intro r _
    refine Python.Ev.succ ?_
    have := Done.sumEnd ih (r := .rpar :: r) (.inr ⟨r, .inl rfl⟩)
    show Ev (fun n => (run lit n .sum (s ++ [.rpar] ++ r)).bind _) _
    rw [List.append_assoc]
    exact Python.Ev.bind this ⟨0, fun _ _ => by simp [hg, close, isRpar]⟩
  | @sqrt s a _ ih =>
    intro r _
    refine Python.Ev.succ ?_
    have := Done.sumEnd ih (r := .rbrace :: r) (.inr ⟨r, .inr rfl⟩)
    show Ev (fun n => (run lit n .sum (s ++ [.rbrace] ++ r)).bind _) _
    rw [List.append_assoc]
    exact Python.Ev.bind this ⟨0, fun _ _ => by simp [close, isRbrace]⟩
  | @frac s t a b _ _ ih1 ih2 =>
    intro r _
    refine Python.Ev.succ ?_
    have h1 := Done.sumEnd ih1 (r := .rbrace :: .lbrace :: (t ++ .rbrace :: r)) (.inr ⟨_, .inr rfl⟩)
    have h2 := Done.sumEnd ih2 (r := .rbrace :: r) (.inr ⟨r, .inr rfl⟩)
    show Ev (fun n => (run lit n .sum (s ++ .rbrace :: .lbrace :: (t ++ [.rbrace]) ++ r)).bind _) _
    have e : s ++ Tok.rbrace :: .lbrace :: (t ++ [.rbrace]) ++ r =
      s ++ .rbrace :: .lbrace :: (t ++ .rbrace :: r) := by simp
    rw [e]
    refine Python.Ev.bind h1 ?_
    simp only [if_neg (show ¬ (['f', 'r', 'a', 'c'] = ['s', 'q', 'r', 't']) by decide)]
    exact Python.Ev.bind h2 ⟨0, fun _ _ => rfl⟩

/-- The grammar is unambiguous. -/
theorem Parses.unique {s : List Tok} {a b : Expr F} (ha : Parses lit .sum s a)
    (hb : Parses lit .sum s b) : a = b := by
  have h1 := Done.sumEnd (parses_done ha) (r := []) (.inl rfl)
  have h2 := Done.sumEnd (parses_done hb) (r := []) (.inl rfl)
  have := Python.Ev.unique h1 h2
  simpa using this

end

/-! ### Tokens -/

/-- Characters that are tokens by themselves or separate tokens. -/
def Sign (c : Char) : Prop :=
  c = ' ' ∨ c = '(' ∨ c = ')' ∨ c = '{' ∨ c = '}' ∨ c = '^' ∨ c = '+' ∨ c = '-' ∨ c = '\\'

theorem sign_not_alpha {c : Char} (h : Sign c) : c.isAlpha = false := by
  rcases h with rfl | rfl | rfl | rfl | rfl | rfl | rfl | rfl | rfl <;> decide

theorem sign_not_digit {c : Char} (h : Sign c) : c.isDigit = false := by
  rcases h with rfl | rfl | rfl | rfl | rfl | rfl | rfl | rfl | rfl <;> decide

theorem number_sign {w s r : Text} {c : Char} (hw : IsNumber w) (hc : Sign c)
    (e : w ++ s = c :: r) : False := by
  obtain ⟨d, ds, rfl, hd⟩ := number_head hw
  simp only [List.cons_append, List.cons.injEq] at e
  rw [e.1, sign_not_digit hc] at hd
  cases hd

theorem number_letter {w s r : Text} {c : Char} (hw : IsNumber w) (hc : c.isAlpha = true)
    (e : w ++ s = c :: r) : False := by
  obtain ⟨d, ds, rfl, hd⟩ := number_head hw
  simp only [List.cons_append, List.cons.injEq] at e
  rw [e.1, Python.not_digit_of_alpha (.inl hc)] at hd
  cases hd

theorem number_chars {w : Text} (h : IsNumber w) : ∀ c ∈ w, numberChar c = true := by
  rcases h with ⟨-, h⟩ | ⟨a, b, rfl, ⟨-, ha⟩, ⟨-, hb⟩⟩
  · intro c hc; simp [numberChar, h c hc]
  · intro c hc
    rcases List.mem_append.1 hc with hc | hc
    · simp [numberChar, ha c hc]
    · rcases List.mem_cons.1 hc with rfl | hc
      · simp [numberChar]
      · simp [numberChar, hb c hc]

theorem Lexes.unique' {s : Text} {ts : List Tok} (h : Lexes s ts) :
    ∀ {s' ts'}, Lexes s' ts' → s = s' → ts = ts' := by
  induction h with
  | nil =>
    intro s' ts' h' e
    cases h' <;> try cases e
    · rfl
    · exact (Python.number_ne_nil (by assumption) e.symm).elim
  | space _ ih =>
    intro s' ts' h' e
    cases h' <;> try cases e
    · exact ih (by assumption) rfl
    · rename_i h _; exact absurd h (by decide)
    · exact (number_sign (by assumption) (by simp [Sign]) e.symm).elim
  | lpar _ ih | rpar _ ih | lbrace _ ih | rbrace _ ih | caret _ ih | plus _ ih | minus _ ih =>
    intro s' ts' h' e
    cases h' <;> try cases e
    · rw [ih (by assumption) rfl]
    · rename_i h _; exact absurd h (by decide)
    · exact (number_sign (by assumption) (by simp [Sign]) e.symm).elim
  | @letter c s ts hc _ ih =>
    intro s' ts' h' e
    cases h' with
    | nil => cases e
    | letter _ hl => cases e; rw [ih hl rfl]
    | number hw' _ _ => exact (number_letter hw' hc e.symm).elim
    | _ => cases e; exact absurd hc (by decide)
  | @command w s ts hn hw hs _ ih =>
    intro s' ts' h' e
    cases h' with
    | command hn' hw' hs' hl =>
      simp only [List.cons_append, List.cons.injEq, true_and] at e
      obtain ⟨rfl, rfl⟩ := munch hw hw' hs hs' e
      rw [ih hl rfl]
    | number hw' _ _ => exact (number_sign hw' (by simp [Sign]) e.symm).elim
    | letter hc _ =>
      simp only [List.cons_append, List.cons.injEq] at e
      rw [← e.1] at hc
      exact absurd hc (by decide)
    | _ => simp at e
  | @number w s ts hw hs _ ih =>
    intro s' ts' h' e
    cases h' with
    | nil => exact (Python.number_ne_nil hw e).elim
    | number hw' hs' hl =>
      obtain ⟨rfl, rfl⟩ := munch (number_chars hw) (number_chars hw') hs hs' e
      rw [ih hl rfl]
    | letter hc _ => exact (number_letter hw hc e).elim
    | _ => exact (number_sign hw (by simp [Sign]) e).elim

/-- A text has at most one reading. -/
theorem Reads.unique {F : Type} {lit : Text → Option F} {s : Text} {a b : Expr F}
    (ha : Reads lit s a) (hb : Reads lit s b) : a = b := by
  obtain ⟨ts, h1, h2⟩ := ha
  obtain ⟨ts', h1', h2'⟩ := hb
  obtain rfl := Lexes.unique' h1 h1' rfl
  exact Parses.unique h2 h2'

end Verif.Spec.Latex
