import Verif.Spec.Printing

/-! A prefix code argument for fully parenthesised text. -/

namespace Verif
namespace Printing

/-- Characters that end a token. -/
def isDelim (c : Char) : Bool := c == ' ' || c == '(' || c == ')' || c == '^'

/-- No character ends a token. -/
def Clean (t : List Char) : Prop := ∀ c ∈ t, isDelim c = false

/-- What may follow the text of an expression. -/
def Stop (r : List Char) : Prop := ∀ c, r.head? = some c → c = ' ' ∨ c = ')' ∨ c = '^'

/-- Nothing or a token-ending character follows. -/
def StopD (r : List Char) : Prop := ∀ c, r.head? = some c → isDelim c = true

theorem Stop.stopD {r : List Char} (h : Stop r) : StopD r := by
  intro c hc
  rcases h c hc with rfl | rfl | rfl <;> rfl

theorem token_split {t t' r r' : List Char} (ht : Clean t) (ht' : Clean t') (hr : StopD r)
    (hr' : StopD r') (h : t ++ r = t' ++ r') : t = t' ∧ r = r' := by
  induction t generalizing t' with
  | nil =>
    cases t' with
    | nil => exact ⟨rfl, h⟩
    | cons c cs =>
      simp only [List.nil_append, List.cons_append] at h
      subst h
      have h1 := hr c rfl
      rw [ht' c (by simp)] at h1; cases h1
  | cons c cs ih =>
    cases t' with
    | nil =>
      simp only [List.nil_append, List.cons_append] at h
      subst h
      have h1 := hr' c rfl
      rw [ht c (by simp)] at h1; cases h1
    | cons d ds =>
      simp only [List.cons_append, List.cons.injEq] at h
      obtain ⟨rfl, h⟩ := h
      obtain ⟨rfl, h2⟩ := ih (fun c hc => ht c (by simp [hc])) (fun c hc => ht' c (by simp [hc])) h
      exact ⟨rfl, h2⟩

/-- The outermost form of a printed expression. -/
inductive Shape (α : Type) where
  | tok (t : List Char)
  | call (f : List Char) (e : α)
  | bin (op : List Char) (l r : α)
  | neg (e : α)

/-- Text of a form. -/
def Shape.render {α : Type} (disp : α → List Char) : Shape α → List Char
  | tok t => t
  | call f e => Expr.callText f (disp e)
  | bin op l r => Expr.binText (disp l) op (disp r)
  | neg e => ['(', '-'] ++ disp e ++ [')']

/-- Requirements under which fully parenthesised text determines its tree. -/
structure Code {α : Type} (disp : α → List Char) (shape : α → Shape α) (size : α → ℕ)
    (ok : α → Prop) : Prop where
  disp_eq : ∀ e, disp e = (shape e).render disp
  inj : ∀ e e', ok e → ok e' → shape e = shape e' → e = e'
  tok : ∀ e t, ok e → shape e = .tok t → Clean t ∧ t ≠ []
  call : ∀ e f x, ok e → shape e = .call f x → Clean f ∧ f ≠ [] ∧ ok x ∧ size x < size e
  bin : ∀ e op l r, ok e → shape e = .bin op l r → ok l ∧ ok r ∧ size l < size e ∧ size r < size e ∧
    (op.head? = some ' ' ∨ op.head? = some '^')
  neg : ∀ e x, ok e → shape e = .neg x → ok x ∧ size x < size e
  op : ∀ e op l r e' op' l' r' a b, shape e = .bin op l r → shape e' = .bin op' l' r' →
    op ++ a = op' ++ b → op = op'
  dash : ∀ e f x e' x', shape e = .call f x → shape e' = .neg x' → f.head? ≠ some '-'

section
variable {α : Type} {disp : α → List Char} {shape : α → Shape α} {size : α → ℕ} {ok : α → Prop}

theorem stop_paren (r : List Char) : Stop (')' :: r) := by
  intro c h; simp at h; simp [← h]

theorem stopD_open (r : List Char) : StopD ('(' :: r) := by
  intro c h; simp at h; simp [← h, isDelim]

theorem stop_op {op r : List Char} (h : op.head? = some ' ' ∨ op.head? = some '^') :
    Stop (op ++ r) := by
  cases op with
  | nil => simp at h
  | cons c cs =>
    intro d hd
    simp at h hd
    subst hd
    rcases h with h | h <;> simp [h]

theorem op_ne_paren {op r s : List Char} (h : op.head? = some ' ' ∨ op.head? = some '^') :
    op ++ r ≠ ')' :: s := by
  cases op with
  | nil => simp at h
  | cons c cs =>
    intro hd
    simp at h hd
    rcases h with h | h <;> simp [h] at hd

theorem op_ne_open {op r s : List Char} (h : op.head? = some ' ' ∨ op.head? = some '^') :
    op ++ r ≠ '(' :: s := by
  cases op with
  | nil => simp at h
  | cons c cs =>
    intro hd
    simp at h hd
    rcases h with h | h <;> simp [h] at hd

theorem stop_ne_open {r s : List Char} (h : Stop r) : r ≠ '(' :: s := by
  rintro rfl
  have := h '(' rfl
  simp at this

theorem clean_open {t r s : List Char} (ht : Clean t) (hne : t ≠ []) : t ++ r ≠ '(' :: s := by
  cases t with
  | nil => exact absurd rfl hne
  | cons c cs =>
    intro h
    simp at h
    have := ht c (by simp)
    simp [h.1, isDelim] at this

/-- A binary form never has the text of a negation. -/
theorem bin_ne_neg (C : Code disp shape size ok) {l x : α} (hl : ok l) (hx : ok x)
    {op r rest : List Char} (hop : op.head? = some ' ' ∨ op.head? = some '^')
    (e' : α) (he' : shape e' = .neg x)
    (h : disp l ++ (op ++ r) = '-' :: (disp x ++ ')' :: rest)) : False := by
  rw [C.disp_eq l] at h
  cases hs : shape l with
  | tok t =>
    obtain ⟨hc, hne⟩ := C.tok l t hl hs
    rw [hs] at h
    simp only [Shape.render] at h
    cases t with
    | nil => exact hne rfl
    | cons c t1 =>
      simp only [List.cons_append, List.cons.injEq] at h
      obtain ⟨_, h⟩ := h
      have hc1 : Clean t1 := fun d hd => hc d (by simp [hd])
      rw [C.disp_eq x] at h
      cases hsx : shape x with
      | tok t2 =>
        rw [hsx] at h
        simp only [Shape.render] at h
        exact op_ne_paren hop (token_split hc1 (C.tok x t2 hx hsx).1 (stop_op hop).stopD
          (stop_paren _).stopD h).2
      | call f y =>
        rw [hsx] at h
        simp only [Shape.render, Expr.callText, List.append_assoc, List.cons_append] at h
        exact op_ne_open hop (token_split hc1 (C.call x f y hx hsx).1 (stop_op hop).stopD
          (stopD_open _) h).2
      | bin op2 a b =>
        rw [hsx] at h
        simp only [Shape.render, Expr.binText, List.append_assoc, List.cons_append] at h
        have := token_split (t' := []) hc1 (by simp [Clean]) (stop_op hop).stopD (stopD_open _) h
        exact op_ne_open hop this.2
      | neg y =>
        rw [hsx] at h
        simp only [Shape.render, List.append_assoc, List.cons_append] at h
        have := token_split (t' := []) hc1 (by simp [Clean]) (stop_op hop).stopD (stopD_open _) h
        exact op_ne_open hop this.2
  | call f y =>
    have hd := C.dash l f y e' x hs he'
    have hf := (C.call l f y hl hs).2.1
    rw [hs] at h
    cases f with
    | nil => exact hf rfl
    | cons c f1 =>
      simp only [Shape.render, Expr.callText, List.cons_append, List.cons.injEq] at h
      exact hd (by simp [h.1])
  | bin op2 a b => rw [hs] at h; simp [Shape.render, Expr.binText] at h
  | neg y => rw [hs] at h; simp [Shape.render] at h

/-- The text of an expression followed by a delimiter determines the expression and what
follows. -/
theorem Code.prefix (C : Code disp shape size ok) (n : ℕ) : ∀ e e' : α, size e < n → ok e → ok e' →
    ∀ r r', Stop r → Stop r' → disp e ++ r = disp e' ++ r' → e = e' ∧ r = r' := by
  induction n with
  | zero => intro e e' h; omega
  | succ n ih =>
    intro e e' hn he he' r r' hr hr' h
    rw [C.disp_eq e, C.disp_eq e'] at h
    have fin : ∀ s, shape e = s → shape e' = s → e = e' := fun s h1 h2 =>
      C.inj e e' he he' (h1.trans h2.symm)
    cases hs : shape e with
    | tok t =>
      obtain ⟨hc, hne⟩ := C.tok e t he hs
      cases hs' : shape e' with
      | tok t' =>
        rw [hs, hs'] at h
        obtain ⟨rfl, rfl⟩ := token_split hc (C.tok e' t' he' hs').1 hr.stopD hr'.stopD h
        exact ⟨fin _ hs hs', rfl⟩
      | call f' x' =>
        rw [hs, hs'] at h
        simp only [Shape.render, Expr.callText, List.append_assoc, List.cons_append] at h
        exact absurd (token_split hc (C.call e' f' x' he' hs').1 hr.stopD (stopD_open _) h).2
          (stop_ne_open hr)
      | bin op' a b =>
        rw [hs, hs'] at h
        simp only [Shape.render, Expr.binText, List.append_assoc, List.cons_append] at h
        exact absurd h (clean_open hc hne)
      | neg x' =>
        rw [hs, hs'] at h
        simp only [Shape.render, List.append_assoc, List.cons_append] at h
        exact absurd h (clean_open hc hne)
    | call f x =>
      obtain ⟨hc, hne, hx, hsz⟩ := C.call e f x he hs
      cases hs' : shape e' with
      | tok t' =>
        rw [hs, hs'] at h
        simp only [Shape.render, Expr.callText, List.append_assoc, List.cons_append] at h
        exact absurd (token_split hc (C.tok e' t' he' hs').1 (stopD_open _) hr'.stopD h).2.symm
          (stop_ne_open hr')
      | call f' x' =>
        obtain ⟨hc', hne', hx', hsz'⟩ := C.call e' f' x' he' hs'
        rw [hs, hs'] at h
        simp only [Shape.render, Expr.callText, List.append_assoc, List.cons_append] at h
        obtain ⟨rfl, h2⟩ := token_split hc hc' (stopD_open _) (stopD_open _) h
        simp only [List.cons.injEq, true_and, List.nil_append] at h2
        obtain ⟨rfl, h3⟩ := ih x x' (by omega) hx hx' _ _ (stop_paren _) (stop_paren _) h2
        simp only [List.cons.injEq, true_and] at h3
        exact ⟨fin _ hs hs', h3⟩
      | bin op' a b =>
        rw [hs, hs'] at h
        simp only [Shape.render, Expr.callText, Expr.binText, List.append_assoc,
          List.cons_append] at h
        exact absurd h (clean_open hc hne)
      | neg x' =>
        rw [hs, hs'] at h
        simp only [Shape.render, Expr.callText, List.append_assoc, List.cons_append] at h
        exact absurd h (clean_open hc hne)
    | bin op a b =>
      obtain ⟨ha, hb, hsa, hsb, hop⟩ := C.bin e op a b he hs
      cases hs' : shape e' with
      | tok t' =>
        obtain ⟨hc', hne'⟩ := C.tok e' t' he' hs'
        rw [hs, hs'] at h
        simp only [Shape.render, Expr.binText, List.append_assoc, List.cons_append] at h
        exact absurd h.symm (clean_open hc' hne')
      | call f' x' =>
        obtain ⟨hc', hne', _⟩ := C.call e' f' x' he' hs'
        rw [hs, hs'] at h
        simp only [Shape.render, Expr.callText, Expr.binText, List.append_assoc,
          List.cons_append] at h
        exact absurd h.symm (clean_open hc' hne')
      | bin op' a' b' =>
        obtain ⟨ha', hb', hsa', hsb', hop'⟩ := C.bin e' op' a' b' he' hs'
        rw [hs, hs'] at h
        simp only [Shape.render, Expr.binText, List.append_assoc, List.cons_append,
          List.nil_append, List.cons.injEq, true_and] at h
        obtain ⟨rfl, h2⟩ := ih a a' (by omega) ha ha' _ _ (stop_op hop) (stop_op hop') h
        have := C.op e op a b e' op' a b' _ _ hs hs' h2
        subst this
        rw [List.append_cancel_left_eq] at h2
        obtain ⟨rfl, h3⟩ := ih b b' (by omega) hb hb' _ _ (stop_paren _) (stop_paren _) h2
        simp only [List.cons.injEq, true_and] at h3
        exact ⟨fin _ hs hs', h3⟩
      | neg x' =>
        obtain ⟨hx', _⟩ := C.neg e' x' he' hs'
        rw [hs, hs'] at h
        simp only [Shape.render, Expr.binText, List.append_assoc, List.cons_append,
          List.nil_append, List.cons.injEq, true_and] at h
        exact (bin_ne_neg C ha hx' hop e' hs' h).elim
    | neg x =>
      obtain ⟨hx, hsz⟩ := C.neg e x he hs
      cases hs' : shape e' with
      | tok t' =>
        obtain ⟨hc', hne'⟩ := C.tok e' t' he' hs'
        rw [hs, hs'] at h
        simp only [Shape.render, List.append_assoc, List.cons_append] at h
        exact absurd h.symm (clean_open hc' hne')
      | call f' x' =>
        obtain ⟨hc', hne', _⟩ := C.call e' f' x' he' hs'
        rw [hs, hs'] at h
        simp only [Shape.render, Expr.callText, List.append_assoc, List.cons_append] at h
        exact absurd h.symm (clean_open hc' hne')
      | bin op' a' b' =>
        obtain ⟨ha', hb', hsa', hsb', hop'⟩ := C.bin e' op' a' b' he' hs'
        rw [hs, hs'] at h
        simp only [Shape.render, Expr.binText, List.append_assoc, List.cons_append,
          List.nil_append, List.cons.injEq, true_and] at h
        exact (bin_ne_neg C ha' hx hop' e hs h.symm).elim
      | neg x' =>
        obtain ⟨hx', _⟩ := C.neg e' x' he' hs'
        rw [hs, hs'] at h
        simp only [Shape.render, List.append_assoc, List.cons_append,
          List.nil_append, List.cons.injEq, true_and] at h
        obtain ⟨rfl, h3⟩ := ih x x' (by omega) hx hx' _ _ (stop_paren _) (stop_paren _) h
        simp only [List.cons.injEq, true_and] at h3
        exact ⟨fin _ hs hs', h3⟩

theorem Code.injective (C : Code disp shape size ok) {e e' : α} (he : ok e) (he' : ok e')
    (h : disp e = disp e') : e = e' :=
  (C.prefix (size e + 1) e e' (by omega) he he' [] [] (by simp [Stop]) (by simp [Stop])
    (by simpa using h)).1

end
end Printing
end Verif
