import Verif.Spec.Python
import Mathlib.Tactic.Linarith

/-! Python's grammar is unambiguous, and reads the printed text. -/

namespace Verif.Spec.Python
open Verif

/-! ### A deterministic parser -/

section
variable {F : Type} (lit : Text → Option F)

inductive Job (F : Type) where
  | sum | sumLoop (a : Expr F) | term | termLoop (a : Expr F) | factor | powTail (a : Expr F)
  | primary

/-- Recursive descent with a bound on the number of steps. -/
def run : ℕ → Job F → List Tok → Option (Expr F × List Tok)
  | 0, _, _ => none
  | n + 1, .sum, ts => (run n .term ts).bind fun p => run n (.sumLoop p.1) p.2
  | n + 1, .sumLoop a, .plus :: ts =>
    (run n .term ts).bind fun p => run n (.sumLoop (.add a p.1)) p.2
  | n + 1, .sumLoop a, .minus :: ts =>
    (run n .term ts).bind fun p => run n (.sumLoop (.sub a p.1)) p.2
  | _ + 1, .sumLoop a, ts => some (a, ts)
  | n + 1, .term, ts => (run n .factor ts).bind fun p => run n (.termLoop p.1) p.2
  | n + 1, .termLoop a, .star :: ts =>
    (run n .factor ts).bind fun p => run n (.termLoop (.mul a p.1)) p.2
  | n + 1, .termLoop a, .slash :: ts =>
    (run n .factor ts).bind fun p => run n (.termLoop (.div a p.1)) p.2
  | _ + 1, .termLoop a, ts => some (a, ts)
  | n + 1, .factor, .minus :: ts => (run n .factor ts).bind fun p => some (.neg p.1, p.2)
  | n + 1, .factor, .plus :: ts => run n .factor ts
  | n + 1, .factor, ts => (run n .primary ts).bind fun p => run n (.powTail p.1) p.2
  | n + 1, .powTail a, .dstar :: ts => (run n .factor ts).bind fun p => some (.pow a p.1, p.2)
  | _ + 1, .powTail a, ts => some (a, ts)
  | n + 1, .primary, .lpar :: ts => (run n .sum ts).bind fun p =>
      match p.2 with
      | .rpar :: r => some (p.1, r)
      | _ => none
  | n + 1, .primary, .name _ :: .dot :: .name f :: .lpar :: ts => (run n .sum ts).bind fun p =>
      match mathFunction f, p.2 with
      | some g, .rpar :: r => some (g p.1, r)
      | _, _ => none
  | _ + 1, .primary, .name w :: ts => some (.var (String.ofList w), ts)
  | _ + 1, .primary, .number w :: ts => (lit w).map fun c => (.const c, ts)
  | _ + 1, .primary, _ => none

variable {lit}

/-- Eventually, with enough steps. -/
def Ev {α : Type} (f : ℕ → α) (r : α) : Prop := ∃ N, ∀ n, N ≤ n → f n = r

theorem Ev.succ {α : Type} {f : ℕ → α} {r : α} (h : Ev (fun n => f (n + 1)) r) : Ev f r := by
  obtain ⟨N, h⟩ := h
  refine ⟨N + 1, fun n hn => ?_⟩
  obtain ⟨m, rfl⟩ : ∃ m, n = m + 1 := ⟨n - 1, by omega⟩
  exact h m (by omega)

theorem Ev.bind {α β : Type} {f : ℕ → Option α} {a : α} {g : ℕ → α → Option β} {r : Option β}
    (hf : Ev f (some a)) (hg : Ev (fun n => g n a) r) :
    Ev (fun n => (f n).bind fun p => g n p) r := by
  obtain ⟨N, hf⟩ := hf
  obtain ⟨M, hg⟩ := hg
  refine ⟨max N M, fun n hn => ?_⟩
  show (f n).bind _ = r
  rw [hf n (le_trans (le_max_left _ _) hn)]
  exact hg n (le_trans (le_max_right _ _) hn)

theorem Ev.unique {α : Type} {f : ℕ → α} {r r' : α} (h : Ev f r) (h' : Ev f r') : r = r' := by
  obtain ⟨N, h⟩ := h
  obtain ⟨M, h'⟩ := h'
  rw [← h (max N M) (le_max_left _ _), h' (max N M) (le_max_right _ _)]

/-- What may follow a sum, a term or factor, a primary. -/
def AfterSum (r : List Tok) : Prop :=
  r = [] ∨ ∃ r', r = .rpar :: r' ∨ r = .plus :: r' ∨ r = .minus :: r'
def AfterTerm (r : List Tok) : Prop := AfterSum r ∨ ∃ r', r = .star :: r' ∨ r = .slash :: r'
def AfterPrimary (r : List Tok) : Prop := AfterTerm r ∨ ∃ r', r = .dstar :: r'

theorem ev_sumEnd (a : Expr F) {r : List Tok} (h : r = [] ∨ ∃ r', r = .rpar :: r') :
    Ev (fun n => run lit n (.sumLoop a) r) (some (a, r)) := by
  refine Ev.succ ⟨0, fun n _ => ?_⟩
  rcases h with rfl | ⟨r', rfl⟩ <;> rfl

theorem ev_termEnd (a : Expr F) {r : List Tok} (h : AfterSum r) :
    Ev (fun n => run lit n (.termLoop a) r) (some (a, r)) := by
  refine Ev.succ ⟨0, fun n _ => ?_⟩
  rcases h with rfl | ⟨r', rfl | rfl | rfl⟩ <;> rfl

theorem ev_powEnd (a : Expr F) {r : List Tok} (h : AfterTerm r) :
    Ev (fun n => run lit n (.powTail a) r) (some (a, r)) := by
  refine Ev.succ ⟨0, fun n _ => ?_⟩
  rcases h with (rfl | ⟨r', rfl | rfl | rfl⟩) | ⟨r', rfl | rfl⟩ <;> rfl

/-- What the parser does on a derivation of each level. -/
def Done (lit : Text → Option F) : Level → List Tok → Expr F → Prop
  | .sum, s, a => ∀ r x, AfterSum r → Ev (fun n => run lit n (.sumLoop a) r) x →
      Ev (fun n => run lit n .sum (s ++ r)) x
  | .term, s, a => ∀ r x, AfterTerm r → Ev (fun n => run lit n (.termLoop a) r) x →
      Ev (fun n => run lit n .term (s ++ r)) x
  | .factor, s, a => ∀ r, AfterTerm r → Ev (fun n => run lit n .factor (s ++ r)) (some (a, r))
  | .power, s, a => ∀ r, AfterTerm r → Ev (fun n => run lit n .factor (s ++ r)) (some (a, r))
  | .primary, s, a => ∀ r, AfterPrimary r →
      (∃ t ts, s ++ r = t :: ts ∧ t ≠ .plus ∧ t ≠ .minus) ∧
      Ev (fun n => run lit n .primary (s ++ r)) (some (a, r))

theorem run_factor_primary {n : ℕ} {t : Tok} {ts : List Tok} (h1 : t ≠ .plus) (h2 : t ≠ .minus) :
    run lit (n + 1) .factor (t :: ts) =
      (run lit n .primary (t :: ts)).bind fun p => run lit n (.powTail p.1) p.2 := by
  cases t <;> first | rfl | contradiction

theorem Done.sumEnd {s : List Tok} {a : Expr F} (h : Done lit .sum s a) {r : List Tok}
    (hr : r = [] ∨ ∃ r', r = .rpar :: r') : Ev (fun n => run lit n .sum (s ++ r)) (some (a, r)) := by
  refine h r _ ?_ (ev_sumEnd a hr)
  rcases hr with rfl | ⟨r', rfl⟩
  · exact .inl rfl
  · exact .inr ⟨r', .inl rfl⟩

theorem parses_done {l : Level} {s : List Tok} {a : Expr F} (h : Parses lit l s a) :
    Done lit l s a := by
  induction h with
  | @add s t a b _ _ ih1 ih2 =>
    intro r x hr hx
    rw [List.append_assoc]
    refine ih1 _ _ (.inr ⟨_, .inr (.inl rfl)⟩) (Ev.succ ?_)
    show Ev (fun n => (run lit n .term (t ++ r)).bind _) x
    exact Ev.bind (ih2 r _ (.inl hr) (ev_termEnd b hr)) hx
  | @sub s t a b _ _ ih1 ih2 =>
    intro r x hr hx
    rw [List.append_assoc]
    refine ih1 _ _ (.inr ⟨_, .inr (.inr rfl)⟩) (Ev.succ ?_)
    show Ev (fun n => (run lit n .term (t ++ r)).bind _) x
    exact Ev.bind (ih2 r _ (.inl hr) (ev_termEnd b hr)) hx
  | @sum s a _ ih =>
    intro r x hr hx
    refine Ev.succ ?_
    show Ev (fun n => (run lit n .term (s ++ r)).bind _) x
    exact Ev.bind (ih r _ (.inl hr) (ev_termEnd a hr)) hx
  | @mul s t a b _ _ ih1 ih2 =>
    intro r x hr hx
    rw [List.append_assoc]
    refine ih1 _ _ (.inr ⟨_, .inl rfl⟩) (Ev.succ ?_)
    show Ev (fun n => (run lit n .factor (t ++ r)).bind _) x
    exact Ev.bind (ih2 r hr) hx
  | @div s t a b _ _ ih1 ih2 =>
    intro r x hr hx
    rw [List.append_assoc]
    refine ih1 _ _ (.inr ⟨_, .inr rfl⟩) (Ev.succ ?_)
    show Ev (fun n => (run lit n .factor (t ++ r)).bind _) x
    exact Ev.bind (ih2 r hr) hx
  | @term s a _ ih =>
    intro r x hr hx
    refine Ev.succ ?_
    show Ev (fun n => (run lit n .factor (s ++ r)).bind _) x
    exact Ev.bind (ih r hr) hx
  | @neg s a _ ih =>
    intro r hr
    refine Ev.succ ?_
    show Ev (fun n => (run lit n .factor (s ++ r)).bind _) _
    exact Ev.bind (ih r hr) ⟨0, fun _ _ => rfl⟩
  | @pos s a _ ih =>
    intro r hr
    refine Ev.succ ?_
    exact ih r hr
  | factor _ ih => exact ih
  | @pow s t a b _ _ ih1 ih2 =>
    intro r hr
    rw [List.append_assoc]
    obtain ⟨⟨c, cs, hc, hp, hm⟩, he⟩ := ih1 (.dstar :: t ++ r) (.inr ⟨_, rfl⟩)
    refine Ev.succ ?_
    rw [hc] at he ⊢
    simp only [run_factor_primary hp hm]
    refine Ev.bind he (Ev.succ ?_)
    show Ev (fun n => (run lit n .factor (t ++ r)).bind _) _
    exact Ev.bind (ih2 r hr) ⟨0, fun _ _ => rfl⟩
  | @power s a _ ih =>
    intro r hr
    obtain ⟨⟨c, cs, hc, hp, hm⟩, he⟩ := ih r (.inl hr)
    refine Ev.succ ?_
    rw [hc] at he ⊢
    simp only [run_factor_primary hp hm]
    exact Ev.bind he (ev_powEnd a hr)
  | @paren s a _ ih =>
    intro r _
    refine ⟨⟨.lpar, s ++ .rpar :: r, by simp, by simp, by simp⟩, Ev.succ ?_⟩
    have := Done.sumEnd ih (r := .rpar :: r) (.inr ⟨r, rfl⟩)
    have e : Tok.lpar :: s ++ [.rpar] ++ r = .lpar :: (s ++ .rpar :: r) := by simp
    rw [e]
    show Ev (fun n => (run lit n .sum (s ++ .rpar :: r)).bind _) _
    exact Ev.bind this ⟨0, fun _ _ => rfl⟩
  | @name w =>
    intro r hr
    refine ⟨⟨.name w, r, rfl, by simp, by simp⟩, Ev.succ ⟨0, fun n _ => ?_⟩⟩
    rcases hr with ((rfl | ⟨r', rfl | rfl | rfl⟩) | ⟨r', rfl | rfl⟩) | ⟨r', rfl⟩ <;> rfl
  | @number w c hc =>
    intro r _
    refine ⟨⟨.number w, r, rfl, by simp, by simp⟩, Ev.succ ⟨0, fun n _ => ?_⟩⟩
    show (lit w).map _ = _
    rw [hc]; rfl
  | @call s a f g hg _ ih =>
    intro r _
    refine ⟨⟨.name mathWord, _, rfl, by simp, by simp⟩, Ev.succ ?_⟩
    have := Done.sumEnd ih (r := .rpar :: r) (.inr ⟨r, rfl⟩)
    have e : Tok.name mathWord :: .dot :: .name f :: .lpar :: s ++ [.rpar] ++ r =
        .name mathWord :: .dot :: .name f :: .lpar :: (s ++ .rpar :: r) := by simp
    rw [e]
    show Ev (fun n => (run lit n .sum (s ++ .rpar :: r)).bind _) _
    exact Ev.bind this ⟨0, fun _ _ => by simp [hg]⟩

/-- The grammar is unambiguous. -/
theorem Parses.unique {s : List Tok} {a b : Expr F} (ha : Parses lit .sum s a)
    (hb : Parses lit .sum s b) : a = b := by
  have h1 := Done.sumEnd (parses_done ha) (r := []) (.inl rfl)
  have h2 := Done.sumEnd (parses_done hb) (r := []) (.inl rfl)
  have := Ev.unique h1 h2
  simpa using this

end

/-! ### Tokens -/

theorem munch {p : Char → Bool} {w w' s s' : Text} (hw : ∀ c ∈ w, p c = true)
    (hw' : ∀ c ∈ w', p c = true) (hs : Ends p s) (hs' : Ends p s') (e : w ++ s = w' ++ s') :
    w = w' ∧ s = s' := by
  induction w generalizing w' with
  | nil =>
    cases w' with
    | nil => exact ⟨rfl, e⟩
    | cons c cs =>
      have := hs c (cs ++ s') e
      rw [hw' c (by simp)] at this
      cases this
  | cons c cs ih =>
    cases w' with
    | nil =>
      have := hs' c (cs ++ s) e.symm
      rw [hw c (by simp)] at this
      cases this
    | cons d ds =>
      simp only [List.cons_append, List.cons.injEq] at e
      obtain ⟨rfl, e⟩ := e
      obtain ⟨h1, h2⟩ := ih (fun x hx => hw x (by simp [hx])) (fun x hx => hw' x (by simp [hx])) e
      exact ⟨by rw [h1], h2⟩

theorem alpha_word {c : Char} (h : c.isAlpha = true ∨ c = '_') : wordChar c = true := by
  rcases h with h | rfl
  · simp [wordChar, Char.isAlphanum, h]
  · rfl

theorem digit_word {c : Char} (h : c.isDigit = true) : wordChar c = true := by
  simp [wordChar, Char.isAlphanum, h]

theorem IsWord.chars {w : Text} (h : IsWord w) : ∀ c ∈ w, wordChar c = true := by
  obtain ⟨c, cs, rfl, hc, hcs⟩ := h
  intro d hd
  rcases List.mem_cons.1 hd with rfl | hd
  · exact alpha_word hc
  · exact hcs d hd

theorem IsNumber.chars {w : Text} (h : IsNumber w) : ∀ c ∈ w, (wordChar c || c == '.') = true := by
  rcases h with ⟨-, h⟩ | ⟨a, b, rfl, ⟨-, ha⟩, ⟨-, hb⟩⟩
  · intro c hc; simp [digit_word (h c hc)]
  · intro c hc
    rcases List.mem_append.1 hc with hc | hc
    · simp [digit_word (ha c hc)]
    · rcases List.mem_cons.1 hc with rfl | hc
      · simp
      · simp [digit_word (hb c hc)]

/-- Characters that are tokens by themselves or separate tokens. -/
def Sign (c : Char) : Prop :=
  c = ' ' ∨ c = '(' ∨ c = ')' ∨ c = '.' ∨ c = '+' ∨ c = '-' ∨ c = '/' ∨ c = '*'

theorem not_digit_of_alpha {c : Char} (h : c.isAlpha = true ∨ c = '_') : c.isDigit = false := by
  by_contra hd
  simp only [Bool.not_eq_false] at hd
  rcases h with h | rfl
  · simp only [Char.isDigit, Char.isAlpha, Char.isUpper, Char.isLower, Bool.and_eq_true,
      Bool.or_eq_true, decide_eq_true_eq, ge_iff_le, UInt32.le_iff_toNat_le] at hd h
    simp at hd h
    omega
  · revert hd; decide

theorem sign_not_alpha {c : Char} (h : Sign c) : ¬ (c.isAlpha = true ∨ c = '_') := by
  rcases h with rfl | rfl | rfl | rfl | rfl | rfl | rfl | rfl <;> decide

theorem sign_not_digit {c : Char} (h : Sign c) : c.isDigit = false := by
  rcases h with rfl | rfl | rfl | rfl | rfl | rfl | rfl | rfl <;> decide

theorem word_sign {w s r : Text} {c : Char} (hw : IsWord w) (hc : Sign c) (e : w ++ s = c :: r) :
    False := by
  obtain ⟨d, ds, rfl, hd, -⟩ := hw
  simp only [List.cons_append, List.cons.injEq] at e
  rw [e.1] at hd
  exact sign_not_alpha hc hd

theorem number_head {w : Text} (h : IsNumber w) : ∃ d ds, w = d :: ds ∧ d.isDigit = true := by
  rcases h with ⟨hn, h⟩ | ⟨a, b, rfl, ⟨hn, ha⟩, -⟩
  · cases w with
    | nil => contradiction
    | cons d ds => exact ⟨d, ds, rfl, h d (by simp)⟩
  · cases a with
    | nil => contradiction
    | cons d ds => exact ⟨d, ds ++ '.' :: b, rfl, ha d (by simp)⟩

theorem number_sign {w s r : Text} {c : Char} (hw : IsNumber w) (hc : Sign c)
    (e : w ++ s = c :: r) : False := by
  obtain ⟨d, ds, rfl, hd⟩ := number_head hw
  simp only [List.cons_append, List.cons.injEq] at e
  rw [e.1, sign_not_digit hc] at hd
  cases hd

theorem word_number {w w' s s' : Text} (hw : IsWord w) (hw' : IsNumber w')
    (e : w ++ s = w' ++ s') : False := by
  obtain ⟨c, cs, rfl, hc, -⟩ := hw
  obtain ⟨d, ds, rfl, hd⟩ := number_head hw'
  simp only [List.cons_append, List.cons.injEq] at e
  rw [← e.1, not_digit_of_alpha hc] at hd
  cases hd

theorem word_ne_nil {w s : Text} (hw : IsWord w) (e : w ++ s = []) : False := by
  obtain ⟨c, cs, rfl, -⟩ := hw
  simp at e

theorem number_ne_nil {w s : Text} (hw : IsNumber w) (e : w ++ s = []) : False := by
  obtain ⟨c, cs, rfl, -⟩ := number_head hw
  simp at e

theorem Lexes.unique' {s : Text} {ts : List Tok} (h : Lexes s ts) :
    ∀ {s' ts'}, Lexes s' ts' → s = s' → ts = ts' := by
  induction h with
  | nil =>
    intro s' ts' h' e
    cases h' <;> try cases e
    · rfl
    · exact (word_ne_nil (by assumption) e.symm).elim
    · exact (number_ne_nil (by assumption) e.symm).elim
  | space _ ih =>
    intro s' ts' h' e
    cases h' <;> try cases e
    · exact ih (by assumption) rfl
    · exact (word_sign (by assumption) (by simp [Sign]) e.symm).elim
    · exact (number_sign (by assumption) (by simp [Sign]) e.symm).elim
  | lpar _ ih | rpar _ ih | dot _ _ ih | plus _ ih | minus _ ih | slash _ _ ih =>
    intro s' ts' h' e
    cases h' <;> try cases e
    · rw [ih (by assumption) rfl]
    · exact (word_sign (by assumption) (by simp [Sign]) e.symm).elim
    · exact (number_sign (by assumption) (by simp [Sign]) e.symm).elim
  | star hs _ ih =>
    intro s' ts' h' e
    cases h' <;> try cases e
    · rw [ih (by assumption) rfl]
    · have := hs '*' _ rfl
      simp at this
    · exact (word_sign (by assumption) (by simp [Sign]) e.symm).elim
    · exact (number_sign (by assumption) (by simp [Sign]) e.symm).elim
  | dstar _ ih =>
    intro s' ts' h' e
    cases h' <;> try cases e
    · rename_i hs _
      have := hs '*' _ rfl
      simp at this
    · rw [ih (by assumption) rfl]
    · exact (word_sign (by assumption) (by simp [Sign]) e.symm).elim
    · exact (number_sign (by assumption) (by simp [Sign]) e.symm).elim
  | @word w s ts hw hs _ ih =>
    intro s' ts' h' e
    cases h' with
    | nil => exact (word_ne_nil hw e).elim
    | word hw' hs' hl =>
      obtain ⟨rfl, rfl⟩ := munch hw.chars hw'.chars hs hs' e
      rw [ih hl rfl]
    | number hw' _ _ => exact (word_number hw hw' e).elim
    | _ => exact (word_sign hw (by simp [Sign]) e).elim
  | @number w s ts hw hs _ ih =>
    intro s' ts' h' e
    cases h' with
    | nil => exact (number_ne_nil hw e).elim
    | number hw' hs' hl =>
      obtain ⟨rfl, rfl⟩ := munch hw.chars hw'.chars hs hs' e
      rw [ih hl rfl]
    | word hw' _ _ => exact (word_number hw' hw e.symm).elim
    | _ => exact (number_sign hw (by simp [Sign]) e).elim

theorem Lexes.unique {s : Text} {ts ts' : List Tok} (h : Lexes s ts) (h' : Lexes s ts') :
    ts = ts' := Lexes.unique' h h' rfl

/-- A text has at most one reading. -/
theorem Reads.unique {F : Type} {lit : Text → Option F} {s : Text} {a b : Expr F}
    (ha : Reads lit s a) (hb : Reads lit s b) : a = b := by
  obtain ⟨ts, h1, h2⟩ := ha
  obtain ⟨ts', h1', h2'⟩ := hb
  obtain rfl := Lexes.unique h1 h1'
  exact Parses.unique h2 h2'

end Verif.Spec.Python

/-! ### Reading printed text -/

namespace Verif.Spec.Python
open Verif

section
variable {num : XReal → Text} {lit : Text → Option XReal}

/-- The tokens of a literal. -/
def litToks (num : XReal → Text) (c : XReal) : List Tok :=
  match num c with
  | '-' :: w => [.minus, .number w]
  | w => [.number w]

def binToks (l : List Tok) (op : Tok) (r : List Tok) : List Tok := .lpar :: (l ++ op :: r) ++ [.rpar]

def callToks (f : Text) (s : List Tok) : List Tok :=
  .name mathWord :: .dot :: .name f :: .lpar :: s ++ [.rpar]

/-- The tokens of a printed expression. -/
def toks (num : XReal → Text) : Expr XReal → List Tok
  | .const c => litToks num c
  | .var n => [.name n.toList]
  | .add l r => binToks (toks num l) .plus (toks num r)
  | .sub l r => binToks (toks num l) .minus (toks num r)
  | .mul l r => binToks (toks num l) .star (toks num r)
  | .div l r => binToks (toks num l) .slash (toks num r)
  | .pow l r => binToks (toks num l) .dstar (toks num r)
  | .ln e => callToks ['l', 'o', 'g'] (toks num e)
  | .exp e => callToks ['e', 'x', 'p'] (toks num e)
  | .sqrt e => callToks ['s', 'q', 'r', 't'] (toks num e)
  | .sin e => callToks ['s', 'i', 'n'] (toks num e)
  | .cos e => callToks ['c', 'o', 's'] (toks num e)
  | .neg e => .minus :: .lpar :: toks num e ++ [.rpar]

/-- What follows a printed expression: nothing, a space or a closing parenthesis. -/
def Follow (r : Text) : Prop := r = [] ∨ ∃ r', r = ' ' :: r' ∨ r = ')' :: r'

theorem Follow.ends {r : Text} (h : Follow r) {p : Char → Bool} (h1 : p ' ' = false)
    (h2 : p ')' = false) : Ends p r := by
  intro c r' e
  rcases h with rfl | ⟨r'', rfl | rfl⟩
  · cases e
  · cases e; exact h1
  · cases e; exact h2

theorem isWord_of_identifier {n : String} (h : Identifier n) : IsWord n.toList := by
  obtain ⟨c, cs, hn, hc, hcs⟩ := h
  refine ⟨c, cs, hn, hc, fun d hd => ?_⟩
  rcases hcs d hd with h | rfl
  · simp [wordChar, h]
  · rfl

theorem isWord_math : IsWord mathWord :=
  ⟨'m', ['a', 't', 'h'], rfl, .inl (by decide), by decide⟩

theorem lex_name {w s : Text} {ts : List Tok} (hw : IsWord w) (hk : w ∉ keywords)
    (hs : Ends wordChar s) (h : Lexes s ts) : Lexes (w ++ s) (.name w :: ts) := by
  have := Lexes.word hw hs h
  rwa [if_neg hk] at this

theorem Usable.child {e c : Expr XReal} (h : Usable num lit e) (hc : c ∈ children e) :
    Usable num lit c := by
  refine ⟨fun n hn => h.1 n ?_, fun x hx => h.2 x (.step hc hx)⟩
  cases e <;> simp only [children, List.mem_cons, List.not_mem_nil, or_false] at hc <;>
    first
    | exact hc.elim
    | (subst hc; constructor; exact hn)
    | (rcases hc with rfl | rfl
       · first | exact .addL hn | exact .subL hn | exact .mulL hn | exact .divL hn | exact .powL hn
       · first | exact .addR hn | exact .subR hn | exact .mulR hn | exact .divR hn | exact .powR hn)

theorem ends_open (r : Text) : Ends wordChar ('(' :: r) := by
  intro c r' e; cases e; rfl

theorem lex_bin {l r op rest : Text} {lt rt tr : List Tok} {ot : Tok}
    (hl : ∀ rest tr, Follow rest → Lexes rest tr → Lexes (l ++ rest) (lt ++ tr))
    (hr : ∀ rest tr, Follow rest → Lexes rest tr → Lexes (r ++ rest) (rt ++ tr))
    (hop : ∀ s ts, Lexes s ts → Lexes (op ++ ' ' :: s) (ot :: ts)) (hrest : Lexes rest tr) :
    Lexes ((Expr.binText l (' ' :: op ++ [' ']) r) ++ rest) (binToks lt ot rt ++ tr) := by
  have h1 := hr (')' :: rest) _ (.inr ⟨_, .inr rfl⟩) (.rpar hrest)
  have h2 := hl (' ' :: (op ++ ' ' :: (r ++ ')' :: rest))) _ (.inr ⟨_, .inl rfl⟩)
    (.space (hop _ _ h1))
  simpa [Expr.binText, binToks] using Lexes.lpar h2

theorem lex_call {e f rest : Text} {et tr : List Tok}
    (he : ∀ rest tr, Follow rest → Lexes rest tr → Lexes (e ++ rest) (et ++ tr))
    (hf : IsWord f) (hk : f ∉ keywords) (hrest : Lexes rest tr) :
    Lexes (Expr.callText (['m', 'a', 't', 'h', '.'] ++ f) e ++ rest) (callToks f et ++ tr) := by
  have h1 := he (')' :: rest) _ (.inr ⟨_, .inr rfl⟩) (.rpar hrest)
  have h2 := lex_name hf hk (ends_open _) (.lpar h1)
  have h3 := Lexes.dot (s := f ++ '(' :: (e ++ ')' :: rest)) (by
    obtain ⟨c, cs, rfl, hc, -⟩ := hf
    intro d r' hd
    cases hd
    exact not_digit_of_alpha hc) h2
  have h4 := lex_name isWord_math (by decide)
    (s := '.' :: (f ++ '(' :: (e ++ ')' :: rest))) (by intro c r' e; cases e; rfl) h3
  simpa [Expr.callText, callToks, mathWord] using h4

theorem lex_toks (e : Expr XReal) (h : Usable num lit e) : ∀ rest tr, Follow rest →
    Lexes rest tr → Lexes (e.toPython num ++ rest) (toks num e ++ tr) := by
  induction e with
  | const c =>
    intro rest tr hf hrest
    obtain ⟨x, rfl, ⟨-, hn, -⟩ | ⟨-, w, hw, hn, -⟩⟩ := h.2 c .refl
    · have : litToks num (.fin x) = [.number (num (.fin x))] := by
        unfold litToks
        split
        · rename_i w hw
          obtain ⟨d, ds, hd, hd'⟩ := number_head hn
          rw [hw] at hd
          cases hd
          exact absurd hd' (by decide)
        · rfl
      rw [Expr.toPython, toks, this]
      exact .number hn (hf.ends (by decide) (by decide)) hrest
    · have : litToks num (.fin x) = [.minus, .number w] := by simp [litToks, hw]
      rw [Expr.toPython, toks, this, hw]
      exact .minus (.number hn (hf.ends (by decide) (by decide)) hrest)
  | var n =>
    intro rest tr hf hrest
    obtain ⟨h1, h2, -⟩ := h.1 n .var
    exact lex_name (isWord_of_identifier h1) h2 (hf.ends (by decide) (by decide)) hrest
  | add l r ihl ihr =>
    intro rest tr _ hrest
    exact lex_bin (op := ['+']) (ihl (h.child (by simp [children])))
      (ihr (h.child (by simp [children]))) (fun s ts hs => .plus (.space hs)) hrest
  | sub l r ihl ihr =>
    intro rest tr _ hrest
    exact lex_bin (op := ['-']) (ihl (h.child (by simp [children])))
      (ihr (h.child (by simp [children]))) (fun s ts hs => .minus (.space hs)) hrest
  | mul l r ihl ihr =>
    intro rest tr _ hrest
    exact lex_bin (op := ['*']) (ihl (h.child (by simp [children])))
      (ihr (h.child (by simp [children])))
      (fun s ts hs => .star (by intro c r e; cases e; rfl) (.space hs)) hrest
  | div l r ihl ihr =>
    intro rest tr _ hrest
    exact lex_bin (op := ['/']) (ihl (h.child (by simp [children])))
      (ihr (h.child (by simp [children])))
      (fun s ts hs => .slash (by intro c r e; cases e; rfl) (.space hs)) hrest
  | pow l r ihl ihr =>
    intro rest tr _ hrest
    exact lex_bin (op := ['*', '*']) (ihl (h.child (by simp [children])))
      (ihr (h.child (by simp [children]))) (fun s ts hs => .dstar (.space hs)) hrest
  | ln e ih =>
    intro rest tr _ hrest
    exact lex_call (f := ['l', 'o', 'g']) (ih (h.child (by simp [children])))
      ⟨_, _, rfl, .inl (by decide), by decide⟩ (by decide) hrest
  | exp e ih =>
    intro rest tr _ hrest
    exact lex_call (f := ['e', 'x', 'p']) (ih (h.child (by simp [children])))
      ⟨_, _, rfl, .inl (by decide), by decide⟩ (by decide) hrest
  | sqrt e ih =>
    intro rest tr _ hrest
    exact lex_call (f := ['s', 'q', 'r', 't']) (ih (h.child (by simp [children])))
      ⟨_, _, rfl, .inl (by decide), by decide⟩ (by decide) hrest
  | sin e ih =>
    intro rest tr _ hrest
    exact lex_call (f := ['s', 'i', 'n']) (ih (h.child (by simp [children])))
      ⟨_, _, rfl, .inl (by decide), by decide⟩ (by decide) hrest
  | cos e ih =>
    intro rest tr _ hrest
    exact lex_call (f := ['c', 'o', 's']) (ih (h.child (by simp [children])))
      ⟨_, _, rfl, .inl (by decide), by decide⟩ (by decide) hrest
  | neg e ih =>
    intro rest tr _ hrest
    have h1 := ih (h.child (by simp [children])) (')' :: rest) _ (.inr ⟨_, .inr rfl⟩) (.rpar hrest)
    simpa [Expr.toPython, Expr.callText, toks] using Lexes.minus (Lexes.lpar h1)

theorem Parses.up {s : List Tok} {a : Expr XReal} (h : Parses lit .factor s a) :
    Parses lit .sum s a := .sum (.term h)

theorem Parses.upp {s : List Tok} {a : Expr XReal} (h : Parses lit .primary s a) :
    Parses lit .factor s a := .factor (.power h)

theorem signLit_neg {x : ℝ} (h : x < 0) : signLit (.fin x) = .neg (.const (.fin (-x))) := by
  simp [signLit, h]

theorem signLit_nonneg {x : ℝ} (h : 0 ≤ x) : signLit (.fin x) = .const (.fin x) := by
  simp [signLit, not_lt.2 h]

theorem parse_litToks {c : XReal} (h : Decimal num lit c) :
    (Signed (.const c) → ∃ w x, c = .fin x ∧ litToks num c = [.minus, .number w] ∧
      lit w = some (.fin (-x)) ∧ signLit c = .neg (.const (.fin (-x)))) ∧
    (¬ Signed (.const c) → Parses lit .primary (litToks num c) (signLit c)) := by
  obtain ⟨x, rfl, ⟨hx, hn, hl⟩ | ⟨hx, w, hw, hn, hl⟩⟩ := h
  · refine ⟨fun hs => absurd hs (not_lt.2 hx), fun _ => ?_⟩
    have : litToks num (.fin x) = [.number (num (.fin x))] := by
      unfold litToks
      split
      · rename_i w hw
        obtain ⟨d, ds, hd, hd'⟩ := number_head hn
        rw [hw] at hd
        cases hd
        exact absurd hd' (by decide)
      · rfl
    rw [this, signLit_nonneg hx]
    exact .number hl
  · refine ⟨fun _ => ⟨w, x, rfl, by simp [litToks, hw], hl, signLit_neg hx⟩, fun hs => ?_⟩
    exact absurd hx hs

theorem asRead_pow {l r : Expr XReal} (h : ¬ Signed l) : asRead (.pow l r) = .pow (asRead l) (asRead r) := by
  cases l with
  | const c =>
    cases c with
    | fin x =>
      have hx : 0 ≤ x := not_lt.1 h
      simp [asRead, signLit_nonneg hx, powSign]
    | _ => simp [asRead, signLit, powSign]
  | neg e => exact absurd trivial h
  | _ => simp [asRead]

/-- How the tokens of an expression parse; a negation also shows how its argument does. -/
def Good (num : XReal → Text) (lit : Text → Option XReal) (e : Expr XReal) : Prop :=
  Parses lit .factor (toks num e) (asRead e) ∧
  (¬ Signed e → Parses lit .primary (toks num e) (asRead e)) ∧
  (∀ b, e = .neg b → Parses lit .sum (toks num b) (asRead b))

theorem Good.prim {e : Expr XReal} (h : Parses lit .primary (toks num e) (asRead e))
    (hn : ∀ b, e ≠ .neg b) : Good num lit e :=
  ⟨h.upp, fun _ => h, fun b hb => absurd hb (hn b)⟩

theorem parse_toks (e : Expr XReal) (h : Usable num lit e) : Good num lit e := by
  induction e with
  | const c =>
    have hd := parse_litToks (h.2 c .refl)
    refine ⟨?_, hd.2, by simp⟩
    by_cases hs : Signed (.const c)
    · obtain ⟨w, x, rfl, h1, h2, h3⟩ := hd.1 hs
      rw [toks, asRead, h1, h3]
      exact .neg (Parses.number h2).upp
    · exact (hd.2 hs).upp
  | var n =>
    refine .prim ?_ (by simp)
    have : Parses lit .primary [.name n.toList] (.var (String.ofList n.toList)) := .name
    rwa [String.ofList_toList] at this
  | add l r ihl ihr =>
    refine .prim ?_ (by simp)
    exact .paren (.add (ihl (h.child (by simp [children]))).1.up
      (.term (ihr (h.child (by simp [children]))).1))
  | sub l r ihl ihr =>
    refine .prim ?_ (by simp)
    exact .paren (.sub (ihl (h.child (by simp [children]))).1.up
      (.term (ihr (h.child (by simp [children]))).1))
  | mul l r ihl ihr =>
    refine .prim ?_ (by simp)
    exact .paren (.sum (.mul (.term (ihl (h.child (by simp [children]))).1)
      (ihr (h.child (by simp [children]))).1))
  | div l r ihl ihr =>
    refine .prim ?_ (by simp)
    exact .paren (.sum (.div (.term (ihl (h.child (by simp [children]))).1)
      (ihr (h.child (by simp [children]))).1))
  | pow l r ihl ihr =>
    refine .prim ?_ (by simp)
    have hl := ihl (h.child (by simp [children]))
    have hr := (ihr (h.child (by simp [children]))).1
    by_cases hs : Signed l
    · cases l with
      | const c =>
        obtain ⟨w, x, rfl, h1, h2, h3⟩ :=
          (parse_litToks (h.2 c (.step (by simp [children]) .refl))).1 hs
        have : asRead (.pow (.const (.fin x)) r) =
            .neg (.pow (.const (.fin (-x))) (asRead r)) := by simp [asRead, h3, powSign]
        rw [this, toks, toks, h1]
        exact .paren (Parses.up (.neg (.factor (.pow (.number h2) hr))))
      | neg b =>
        have := Parses.paren (Parses.up (.neg (.factor (.pow (.paren (hl.2.2 b rfl)) hr))))
        simpa [toks, asRead, binToks] using this
      | _ => exact absurd hs (by simp [Signed])
    · rw [asRead_pow hs]
      exact .paren (Parses.up (.factor (.pow (hl.2.1 hs) hr)))
  | ln e ih => exact .prim (.call (g := .ln) rfl (ih (h.child (by simp [children]))).1.up) (by simp)
  | exp e ih => exact .prim (.call (g := .exp) rfl (ih (h.child (by simp [children]))).1.up) (by simp)
  | sqrt e ih => exact .prim (.call (g := .sqrt) rfl (ih (h.child (by simp [children]))).1.up) (by simp)
  | sin e ih => exact .prim (.call (g := .sin) rfl (ih (h.child (by simp [children]))).1.up) (by simp)
  | cos e ih => exact .prim (.call (g := .cos) rfl (ih (h.child (by simp [children]))).1.up) (by simp)
  | neg e ih =>
    have := ih (h.child (by simp [children]))
    refine ⟨.neg (Parses.paren this.1.up).upp, fun hs => absurd trivial hs, ?_⟩
    intro b hb
    cases hb
    exact this.1.up

/-- Python reads the printed text as `asRead e`. -/
theorem reads_toPython (e : Expr XReal) (h : Usable num lit e) :
    Reads lit (e.toPython num) (asRead e) := by
  refine ⟨toks num e, ?_, (parse_toks e h).1.up⟩
  simpa using lex_toks e h [] [] (.inl rfl) .nil

theorem asRead_unsigned (e : Expr XReal) (h : UnsignedBases e) : asRead e = signLits e := by
  have hc : ∀ {e c : Expr XReal}, UnsignedBases e → c ∈ children e → UnsignedBases c :=
    fun h hc b x hs => h b x (.step hc hs)
  induction e with
  | const c => rfl
  | var n => rfl
  | pow l r ihl ihr =>
    rw [asRead_pow (h l r .refl), signLits, ihl (hc h (by simp [children])),
      ihr (hc h (by simp [children]))]
  | add l r ihl ihr | sub l r ihl ihr | mul l r ihl ihr | div l r ihl ihr =>
    rw [asRead, signLits, ihl (hc h (by simp [children])), ihr (hc h (by simp [children]))]
  | ln e ih | exp e ih | sqrt e ih | sin e ih | cos e ih | neg e ih =>
    rw [asRead, signLits, ih (hc h (by simp [children]))]

theorem value_signLits (ρ : String → Option ℝ) (e : Expr XReal) :
    value ρ (signLits e) = value ρ e := by
  induction e with
  | const c =>
    cases c with
    | fin x =>
      by_cases hx : x < 0
      · simp [signLits, signLit_neg hx, value]
      · simp [signLits, signLit_nonneg (not_lt.1 hx)]
    | _ => rfl
  | var n => rfl
  | add l r ihl ihr | sub l r ihl ihr | mul l r ihl ihr | div l r ihl ihr | pow l r ihl ihr =>
    simp only [signLits, value, ihl, ihr]
  | ln e ih | exp e ih | sqrt e ih | sin e ih | cos e ih | neg e ih =>
    simp only [signLits, value, ih]

end
end Verif.Spec.Python
