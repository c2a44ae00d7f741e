import Verif.Spec.Egglog

/-! The parser of `optimization.rs` on texts in egglog's notation. -/

namespace Verif.Egglog
open Verif Verif.Spec Verif.Spec.Egglog

variable {F : Type} {parse : Text → Option F}

theorem white_open : isWhite '(' = false := by decide
theorem white_close : isWhite ')' = false := by decide

theorem trim_paren (m : Text) : trim ('(' :: m ++ [')']) = '(' :: m ++ [')'] := by
  have h1 : List.dropWhile isWhite ('(' :: m ++ [')']) = '(' :: m ++ [')'] := by
    rw [List.cons_append, List.dropWhile_cons_of_neg (by simp [white_open])]
  have h2 : ('(' :: m ++ [')']).reverse = ')' :: ('(' :: m).reverse := by simp
  unfold trim
  rw [h1, h2, List.dropWhile_cons_of_neg (by simp [white_close]), ← h2, List.reverse_reverse]

theorem Reads.paren {s : Text} {t : Expr F} (h : Reads parse s t) : ∃ m, s = '(' :: m ++ [')'] := by
  cases h
  case const s c _ _ => exact ⟨'C' :: 'o' :: 'n' :: 's' :: 't' :: ' ' :: s, by simp⟩
  case var n _ => exact ⟨'V' :: 'a' :: 'r' :: ' ' :: '"' :: n.toList ++ ['"'], by simp⟩
  case add a b _ _ _ _ => exact ⟨'A' :: 'd' :: 'd' :: ' ' :: a ++ ' ' :: b, by simp⟩
  case sub a b _ _ _ _ => exact ⟨'S' :: 'u' :: 'b' :: ' ' :: a ++ ' ' :: b, by simp⟩
  case mul a b _ _ _ _ => exact ⟨'M' :: 'u' :: 'l' :: ' ' :: a ++ ' ' :: b, by simp⟩
  case div a b _ _ _ _ => exact ⟨'D' :: 'i' :: 'v' :: ' ' :: a ++ ' ' :: b, by simp⟩
  case pow a b _ _ _ _ => exact ⟨'P' :: 'o' :: 'w' :: ' ' :: a ++ ' ' :: b, by simp⟩
  case ln a _ _ => exact ⟨'L' :: 'n' :: ' ' :: a, by simp⟩
  case exp a _ _ => exact ⟨'E' :: 'x' :: 'p' :: ' ' :: a, by simp⟩
  case sqrt a _ _ => exact ⟨'S' :: 'q' :: 'r' :: 't' :: ' ' :: a, by simp⟩
  case sin a _ _ => exact ⟨'S' :: 'i' :: 'n' :: ' ' :: a, by simp⟩
  case cos a _ _ => exact ⟨'C' :: 'o' :: 's' :: ' ' :: a, by simp⟩
  case neg a _ _ => exact ⟨'N' :: 'e' :: 'g' :: ' ' :: a, by simp⟩

theorem Reads.trim {s : Text} {t : Expr F} (h : Reads parse s t) : Egglog.trim s = s := by
  obtain ⟨m, rfl⟩ := Reads.paren h
  exact trim_paren m

/-- Prepending a text to the first part of a split. -/
def pre (s : Text) (p : Option (Text × Text)) : Option (Text × Text) :=
  p.map fun q => (s ++ q.1, q.2)

theorem pre_pre (a b : Text) (p) : pre a (pre b p) = pre (a ++ b) p := by
  cases p <;> simp [pre]

theorem pre_nil (p) : pre [] p = p := by cases p <;> simp [pre]

theorem split_cons_other {d : ℤ} {c : Char} {cs : Text} (h1 : c ≠ '(') (h2 : c ≠ ')')
    (h3 : c ≠ ' ' ∨ d ≠ 0) : splitArgs d (c :: cs) = pre [c] (splitArgs d cs) := by
  have : ¬ (c = ' ' ∧ d = 0) := by tauto
  simp [splitArgs, this, h1, h2, pre]

theorem split_open {d : ℤ} {cs : Text} :
    splitArgs d ('(' :: cs) = pre ['('] (splitArgs (d + 1) cs) := by
  simp [splitArgs, pre]

theorem split_close {d : ℤ} {cs : Text} :
    splitArgs d (')' :: cs) = pre [')'] (splitArgs (d - 1) cs) := by
  simp [splitArgs, pre]

theorem split_plain {d : ℤ} (s rest : Text) (h : ∀ c ∈ s, c ≠ '(' ∧ c ≠ ')')
    (hd : d ≠ 0 ∨ ∀ c ∈ s, c ≠ ' ') : splitArgs d (s ++ rest) = pre s (splitArgs d rest) := by
  induction s with
  | nil => simp [pre_nil]
  | cons c cs ih =>
    have hc := h c (by simp)
    rw [List.cons_append, split_cons_other hc.1 hc.2 (by
      rcases hd with hd | hd
      · exact .inr hd
      · exact .inl (hd c (by simp))), ih (fun x hx => h x (by simp [hx])) (by
      rcases hd with hd | hd
      · exact .inl hd
      · exact .inr fun x hx => hd x (by simp [hx])), pre_pre]
    simp

theorem split_un {d : ℤ} (hd : 0 ≤ d) (op s rest : Text) (hop : ∀ c ∈ op, c ≠ '(' ∧ c ≠ ')')
    (hs : ∀ d : ℤ, 0 < d → ∀ rest, splitArgs d (s ++ rest) = pre s (splitArgs d rest)) :
    splitArgs d ('(' :: op ++ s ++ [')'] ++ rest) =
      pre ('(' :: op ++ s ++ [')']) (splitArgs d rest) := by
  have e : '(' :: op ++ s ++ [')'] ++ rest = '(' :: (op ++ (s ++ (')' :: rest))) := by simp
  rw [e, split_open, split_plain op _ hop (.inl (by omega)), hs (d + 1) (by omega), split_close,
    pre_pre, pre_pre, pre_pre]
  simp

theorem split_bin {d : ℤ} (hd : 0 ≤ d) (op a b rest : Text) (hop : ∀ c ∈ op, c ≠ '(' ∧ c ≠ ')')
    (ha : ∀ d : ℤ, 0 < d → ∀ rest, splitArgs d (a ++ rest) = pre a (splitArgs d rest))
    (hb : ∀ d : ℤ, 0 < d → ∀ rest, splitArgs d (b ++ rest) = pre b (splitArgs d rest)) :
    splitArgs d ('(' :: op ++ a ++ [' '] ++ b ++ [')'] ++ rest) =
      pre ('(' :: op ++ a ++ [' '] ++ b ++ [')']) (splitArgs d rest) := by
  have h := split_un hd op (a ++ [' '] ++ b) rest hop (by
    intro d hd rest
    have e : a ++ [' '] ++ b ++ rest = a ++ (' ' :: (b ++ rest)) := by simp
    rw [e, ha d hd, split_cons_other (by decide) (by decide) (.inr hd.ne'), hb d hd, pre_pre,
      pre_pre])
  simpa using h

theorem occurs_child {n : String} {t c : Expr F} (hc : c ∈ children t) (h : Occurs n c) :
    Occurs n t := by
  cases t <;> simp only [children, List.mem_cons, List.not_mem_nil, or_false] at hc
  all_goals first
    | (rcases hc with rfl | rfl <;> constructor <;> assumption)
    | (rcases hc with rfl | rfl
       · first | exact .addL h | exact .subL h | exact .mulL h | exact .divL h | exact .powL h
       · first | exact .addR h | exact .subR h | exact .mulR h | exact .divR h | exact .powR h)

theorem parenFree_child {t c : Expr F} (h : ParenFree t) (hc : c ∈ children t) : ParenFree c :=
  fun n hn => h n (occurs_child hc hn)

theorem sqrtFree_child {t c : Expr F} (h : SqrtFree t) (hc : c ∈ children t) : SqrtFree c :=
  fun a ha => h a (.step hc ha)

theorem split_reads {s : Text} {t : Expr F} (h : Reads parse s t) (hp : ParenFree t) :
    ∀ d : ℤ, 0 ≤ d → ∀ rest, splitArgs d (s ++ rest) = pre s (splitArgs d rest) := by
  induction h with
  | const hs _ =>
    intro d hd rest
    exact split_un hd ['C', 'o', 'n', 's', 't', ' '] _ rest (by decide) fun d hd rest =>
      split_plain _ _ (fun c hc => ⟨(hs c hc).1, (hs c hc).2.1⟩) (.inl hd.ne')
  | @var n hn =>
    intro d hd rest
    have h := split_un hd ['V', 'a', 'r', ' ', '"'] (n.toList ++ ['"']) rest (by decide)
      fun d hd rest => split_plain _ _ (by
        intro c hc
        rw [List.mem_append] at hc
        rcases hc with hc | hc
        · exact hp n .var c hc
        · simp only [List.mem_singleton] at hc; subst hc; decide) (.inl hd.ne')
    simpa using h
  | add _ _ ih1 ih2 =>
    intro d hd rest
    exact split_bin hd ['A', 'd', 'd', ' '] _ _ rest (by decide)
      (fun d hd => ih1 (parenFree_child hp (by simp [children])) d hd.le)
      (fun d hd => ih2 (parenFree_child hp (by simp [children])) d hd.le)
  | sub _ _ ih1 ih2 =>
    intro d hd rest
    exact split_bin hd ['S', 'u', 'b', ' '] _ _ rest (by decide)
      (fun d hd => ih1 (parenFree_child hp (by simp [children])) d hd.le)
      (fun d hd => ih2 (parenFree_child hp (by simp [children])) d hd.le)
  | mul _ _ ih1 ih2 =>
    intro d hd rest
    exact split_bin hd ['M', 'u', 'l', ' '] _ _ rest (by decide)
      (fun d hd => ih1 (parenFree_child hp (by simp [children])) d hd.le)
      (fun d hd => ih2 (parenFree_child hp (by simp [children])) d hd.le)
  | div _ _ ih1 ih2 =>
    intro d hd rest
    exact split_bin hd ['D', 'i', 'v', ' '] _ _ rest (by decide)
      (fun d hd => ih1 (parenFree_child hp (by simp [children])) d hd.le)
      (fun d hd => ih2 (parenFree_child hp (by simp [children])) d hd.le)
  | pow _ _ ih1 ih2 =>
    intro d hd rest
    exact split_bin hd ['P', 'o', 'w', ' '] _ _ rest (by decide)
      (fun d hd => ih1 (parenFree_child hp (by simp [children])) d hd.le)
      (fun d hd => ih2 (parenFree_child hp (by simp [children])) d hd.le)
  | ln _ ih =>
    intro d hd rest
    exact split_un hd ['L', 'n', ' '] _ rest (by decide)
      fun d hd => ih (parenFree_child hp (by simp [children])) d hd.le
  | exp _ ih =>
    intro d hd rest
    exact split_un hd ['E', 'x', 'p', ' '] _ rest (by decide)
      fun d hd => ih (parenFree_child hp (by simp [children])) d hd.le
  | sqrt _ ih =>
    intro d hd rest
    exact split_un hd ['S', 'q', 'r', 't', ' '] _ rest (by decide)
      fun d hd => ih (parenFree_child hp (by simp [children])) d hd.le
  | sin _ ih =>
    intro d hd rest
    exact split_un hd ['S', 'i', 'n', ' '] _ rest (by decide)
      fun d hd => ih (parenFree_child hp (by simp [children])) d hd.le
  | cos _ ih =>
    intro d hd rest
    exact split_un hd ['C', 'o', 's', ' '] _ rest (by decide)
      fun d hd => ih (parenFree_child hp (by simp [children])) d hd.le
  | neg _ ih =>
    intro d hd rest
    exact split_un hd ['N', 'e', 'g', ' '] _ rest (by decide)
      fun d hd => ih (parenFree_child hp (by simp [children])) d hd.le

theorem args_reads {a b : Text} {x y : Expr F} (ha : Reads parse a x) (hx : ParenFree x)
    (hb : Reads parse b y) : parseBinaryArgs (a ++ ' ' :: b) = some (a, b) := by
  unfold parseBinaryArgs
  rw [split_reads ha hx 0 le_rfl]
  have : splitArgs 0 (' ' :: b) = some ([], b) := by simp [splitArgs]
  rw [this]
  simp [pre, Reads.trim ha, Reads.trim hb]

/-- `(Op m)` -/
def node (op m : Text) : Text := '(' :: op ++ ' ' :: m ++ [')']

theorem trim_node (op m : Text) : trim (node op m) = node op m := by
  have := trim_paren (op ++ ' ' :: m)
  simpa [node] using this

theorem prefix_op (op op' m : Text) (h : ∀ c ∈ op, c ≠ ' ') (h' : ∀ c ∈ op', c ≠ ' ') :
    List.isPrefixOf (op' ++ [' ']) (op ++ ' ' :: m) = decide (op' = op) := by
  induction op' generalizing op with
  | nil =>
    cases op with
    | nil => simp [List.isPrefixOf]
    | cons c cs =>
      have := h c (by simp)
      simp [List.isPrefixOf, Ne.symm this]
  | cons d ds ih =>
    cases op with
    | nil =>
      have := h' d (by simp)
      simp [List.isPrefixOf, this]
    | cons c cs =>
      have hi := ih cs (fun x hx => h x (by simp [hx])) (fun x hx => h' x (by simp [hx]))
      simp only [List.cons_append, List.isPrefixOf, hi]
      by_cases hdc : d = c
      · simp [hdc]
      · simp [hdc]

theorem opens_node (op op' m : Text) (h : ∀ c ∈ op, c ≠ ' ') (h' : ∀ c ∈ op', c ≠ ' ') :
    opens ('(' :: op' ++ [' ']) (node op m) = decide (op' = op) := by
  have h1 : List.isSuffixOf [')'] (node op m) = true := by
    simp [List.isSuffixOf, node]
  have h2 : node op m = '(' :: (op ++ ' ' :: (m ++ [')'])) := by simp [node]
  rw [opens, h1, Bool.and_true, h2]
  simp only [List.cons_append, List.isPrefixOf, beq_self_eq_true, Bool.true_and]
  exact prefix_op op op' _ h h'

theorem body_node (op m : Text) : body (op.length + 2) (node op m) = m := by
  have h2 : node op m = ('(' :: op ++ [' ']) ++ (m ++ [')']) := by simp [node]
  have h3 : op.length + 2 = ('(' :: op ++ [' ']).length := by simp
  rw [body, h2, h3, List.drop_left, List.dropLast_concat]

/-- The operators and the space that ends them. -/
abbrev Op (op : Text) : Prop := ∀ c ∈ op, c ≠ ' '

theorem bin_other {rec : Text → Parsed F} {op op' m : Text} {mk} (h : Op op) (h' : Op op')
    (hne : op' ≠ op) : binCase rec op' mk (node op m) = .ok none := by
  simp only [binCase, opens_node op op' m h h', hne, decide_false, Bool.false_eq_true, if_false]

theorem un_other {rec : Text → Parsed F} {op op' m : Text} {mk} (h : Op op) (h' : Op op')
    (hne : op' ≠ op) : unCase rec op' mk (node op m) = .ok none := by
  simp only [unCase, opens_node op op' m h h', hne, decide_false, Bool.false_eq_true, if_false]

theorem const_other {op m : Text} (h : Op op) (hne : ['C', 'o', 'n', 's', 't'] ≠ op) :
    constCase parse (node op m) = .ok none := by
  have := opens_node op ['C', 'o', 'n', 's', 't'] m h (by decide)
  simp only [List.cons_append, List.nil_append] at this
  simp only [constCase, this, hne, decide_false, Bool.false_eq_true, if_false]

theorem var_other {op m : Text} (h : Op op) (hne : ['V', 'a', 'r'] ≠ op) :
    varCase (F := F) (node op m) = .ok none := by
  have h2 : List.isPrefixOf ['(', 'V', 'a', 'r', ' ', '"'] (node op m) = false := by
    by_contra hc
    rw [Bool.not_eq_false, List.isPrefixOf_iff_prefix] at hc
    obtain ⟨r, hr⟩ := hc
    have h3 := prefix_op op ['V', 'a', 'r'] (m ++ [')']) h (by decide)
    rw [decide_eq_false hne] at h3
    have h4 : op ++ ' ' :: (m ++ [')']) = ['V', 'a', 'r', ' '] ++ ('"' :: r) := by
      have : '(' :: (op ++ ' ' :: (m ++ [')'])) = '(' :: (['V', 'a', 'r', ' '] ++ ('"' :: r)) := by
        rw [← List.cons_append, ← List.cons_append]
        simpa [node] using hr.symm
      exact (List.cons.inj this).2
    rw [h4] at h3
    simp [List.isPrefixOf] at h3
  simp only [varCase, h2, Bool.false_and, Bool.false_eq_true, if_false]

/-- How the results for the two operands are combined. -/
def both (mk : Expr F → Expr F → Expr F) (a b : Parsed F) : Parsed F :=
  match a with
  | .error p => .error p
  | .ok a =>
    match b with
    | .error p => .error p
    | .ok b =>
      match a, b with
      | some x, some y => .ok (some (mk x y))
      | _, _ => .ok none

/-- How the result for the operand is used. -/
def one (mk : Expr F → Expr F) (a : Parsed F) : Parsed F :=
  match a with
  | .error p => .error p
  | .ok a => .ok (a.map mk)

theorem bin_same {rec : Text → Parsed F} {op a b : Text} {mk} {x y : Expr F} (h : Op op)
    (ha : Reads parse a x) (hx : ParenFree x) (hb : Reads parse b y) :
    binCase rec op mk (node op (a ++ ' ' :: b)) = both mk (rec a) (rec b) := by
  simp only [binCase, opens_node op op _ h h, decide_true, if_true, body_node,
    args_reads ha hx hb, both]
  rfl

theorem un_same {rec : Text → Parsed F} {op a : Text} {mk} (h : Op op) :
    unCase rec op mk (node op a) = one mk (rec a) := by
  simp only [unCase, opens_node op op _ h h, decide_true, if_true, body_node, one]
  rfl

theorem const_same {m : Text} :
    constCase parse (node ['C', 'o', 'n', 's', 't'] m) = .ok ((parse m).map .const) := by
  have := opens_node ['C', 'o', 'n', 's', 't'] ['C', 'o', 'n', 's', 't'] m (by decide) (by decide)
  simp only [List.cons_append, List.nil_append, decide_true] at this
  have hb := body_node ['C', 'o', 'n', 's', 't'] m
  simp only [List.length_cons, List.length_nil] at hb
  simp only [constCase, this, if_true, hb]

theorem var_same (n : String) :
    varCase (F := F) (node ['V', 'a', 'r'] ('"' :: n.toList ++ ['"'])) = .ok (some (.var n)) := by
  have e : node ['V', 'a', 'r'] ('"' :: n.toList ++ ['"']) =
      ['(', 'V', 'a', 'r', ' ', '"'] ++ n.toList ++ ['"', ')'] := by simp [node]
  have h1 : List.isPrefixOf ['(', 'V', 'a', 'r', ' ', '"']
      (['(', 'V', 'a', 'r', ' ', '"'] ++ n.toList ++ ['"', ')']) = true := by
    simp [List.isPrefixOf]
  have h2 : List.isSuffixOf ['"', ')']
      (['(', 'V', 'a', 'r', ' ', '"'] ++ n.toList ++ ['"', ')']) = true := by
    simp [List.isSuffixOf]
  have h3 : ¬ (['(', 'V', 'a', 'r', ' ', '"'] ++ n.toList ++ ['"', ')']).length < 8 := by
    simp
  have h4 : ((['(', 'V', 'a', 'r', ' ', '"'] ++ n.toList ++ ['"', ')']).drop 6).dropLast.dropLast =
      n.toList := by
    have : (['(', 'V', 'a', 'r', ' ', '"'] ++ n.toList ++ ['"', ')']).drop 6 =
      n.toList ++ ['"'] ++ [')'] := by simp
    rw [this, List.dropLast_concat, List.dropLast_concat]
  rw [e]
  simp only [varCase, h1, h2, h3, h4, Bool.and_self, if_true, if_false, String.ofList_toList]

theorem orTry_none {a b : Parsed F} (h : a = .ok none) : orTry a b = b := by rw [h]; rfl

theorem orTry_rest {a b : Parsed F} (h : b = .ok none) : orTry a b = a := by
  rw [h]; unfold orTry; split <;> simp_all

/-- Passes over a case of the parser whose prefix differs. -/
macro "pass" : tactic => `(tactic| refine (orTry_none (by
  first
  | exact const_other (by decide) (by decide)
  | exact var_other (by decide) (by decide)
  | exact bin_other (by decide) (by decide) (by decide)
  | exact un_other (by decide) (by decide) (by decide))).trans ?_)

section
variable {n : ℕ} {a b m : Text} {x y : Expr F}

theorem parse_const : parseDepth parse (n + 1) (node ['C', 'o', 'n', 's', 't'] m) =
    .ok ((parse m).map .const) := by
  rw [parseDepth]; simp only [trim_node]
  refine (orTry_rest (by repeat pass
                         rfl)).trans ?_
  exact const_same

theorem parse_var (v : String) :
    parseDepth parse (n + 1) (node ['V', 'a', 'r'] ('"' :: v.toList ++ ['"'])) =
      .ok (some (.var v)) := by
  rw [parseDepth]; simp only [trim_node]
  pass
  refine (orTry_rest (by repeat pass
                         rfl)).trans ?_
  exact var_same v

theorem parse_add (ha : Reads parse a x) (hx : ParenFree x) (hb : Reads parse b y) :
    parseDepth parse (n + 1) (node ['A', 'd', 'd'] (a ++ ' ' :: b)) =
      both .add (parseDepth parse n a) (parseDepth parse n b) := by
  rw [parseDepth]; simp only [trim_node]
  repeat pass
  refine (orTry_rest (by repeat pass
                         rfl)).trans ?_
  exact bin_same (by decide) ha hx hb

theorem parse_sub (ha : Reads parse a x) (hx : ParenFree x) (hb : Reads parse b y) :
    parseDepth parse (n + 1) (node ['S', 'u', 'b'] (a ++ ' ' :: b)) =
      both .sub (parseDepth parse n a) (parseDepth parse n b) := by
  rw [parseDepth]; simp only [trim_node]
  repeat pass
  refine (orTry_rest (by repeat pass
                         rfl)).trans ?_
  exact bin_same (by decide) ha hx hb

theorem parse_mul (ha : Reads parse a x) (hx : ParenFree x) (hb : Reads parse b y) :
    parseDepth parse (n + 1) (node ['M', 'u', 'l'] (a ++ ' ' :: b)) =
      both .mul (parseDepth parse n a) (parseDepth parse n b) := by
  rw [parseDepth]; simp only [trim_node]
  repeat pass
  refine (orTry_rest (by repeat pass
                         rfl)).trans ?_
  exact bin_same (by decide) ha hx hb

theorem parse_div (ha : Reads parse a x) (hx : ParenFree x) (hb : Reads parse b y) :
    parseDepth parse (n + 1) (node ['D', 'i', 'v'] (a ++ ' ' :: b)) =
      both .div (parseDepth parse n a) (parseDepth parse n b) := by
  rw [parseDepth]; simp only [trim_node]
  repeat pass
  refine (orTry_rest (by repeat pass
                         rfl)).trans ?_
  exact bin_same (by decide) ha hx hb

theorem parse_pow (ha : Reads parse a x) (hx : ParenFree x) (hb : Reads parse b y) :
    parseDepth parse (n + 1) (node ['P', 'o', 'w'] (a ++ ' ' :: b)) =
      both .pow (parseDepth parse n a) (parseDepth parse n b) := by
  rw [parseDepth]; simp only [trim_node]
  repeat pass
  refine (orTry_rest (by repeat pass
                         rfl)).trans ?_
  exact bin_same (by decide) ha hx hb

theorem parse_ln : parseDepth parse (n + 1) (node ['L', 'n'] a) =
    one .ln (parseDepth parse n a) := by
  rw [parseDepth]; simp only [trim_node]
  repeat pass
  refine (orTry_rest (by repeat pass
                         rfl)).trans ?_
  exact un_same (by decide)

theorem parse_exp : parseDepth parse (n + 1) (node ['E', 'x', 'p'] a) =
    one .exp (parseDepth parse n a) := by
  rw [parseDepth]; simp only [trim_node]
  repeat pass
  refine (orTry_rest (by repeat pass
                         rfl)).trans ?_
  exact un_same (by decide)

theorem parse_sin : parseDepth parse (n + 1) (node ['S', 'i', 'n'] a) =
    one .sin (parseDepth parse n a) := by
  rw [parseDepth]; simp only [trim_node]
  repeat pass
  refine (orTry_rest (by repeat pass
                         rfl)).trans ?_
  exact un_same (by decide)

theorem parse_cos : parseDepth parse (n + 1) (node ['C', 'o', 's'] a) =
    one .cos (parseDepth parse n a) := by
  rw [parseDepth]; simp only [trim_node]
  repeat pass
  refine (orTry_rest (by repeat pass
                         rfl)).trans ?_
  exact un_same (by decide)

theorem parse_neg : parseDepth parse (n + 1) (node ['N', 'e', 'g'] a) =
    one .neg (parseDepth parse n a) := by
  rw [parseDepth]; simp only [trim_node]
  repeat pass
  refine (orTry_rest rfl).trans ?_
  exact un_same (by decide)

theorem parse_sqrt : parseDepth parse (n + 1) (node ['S', 'q', 'r', 't'] a) = .ok none := by
  rw [parseDepth]; simp only [trim_node]
  repeat pass
  rfl
end

theorem sqrtFree_iff {t : Expr F} (h : ∀ a, t ≠ .sqrt a) :
    SqrtFree t ↔ ∀ c ∈ children t, SqrtFree c := by
  constructor
  · intro ht c hc; exact sqrtFree_child ht hc
  · intro ht a ha
    cases ha with
    | refl => exact h a rfl
    | step hc hs => exact ht _ hc a hs

/-- The parser returns the term, unless it contains a square root. -/
def Answer (t : Expr F) (r : Parsed F) : Prop :=
  (SqrtFree t → r = .ok (some t)) ∧ (¬ SqrtFree t → r = .ok none)

theorem Answer.both {mk : Expr F → Expr F → Expr F} {x y : Expr F} {a b : Parsed F}
    (hmk : SqrtFree (mk x y) ↔ SqrtFree x ∧ SqrtFree y) (ha : Answer x a) (hb : Answer y b) :
    Answer (mk x y) (Egglog.both mk a b) := by
  by_cases hx : SqrtFree x <;> by_cases hy : SqrtFree y
  · exact ⟨fun _ => by rw [ha.1 hx, hb.1 hy]; rfl, fun h => absurd (hmk.2 ⟨hx, hy⟩) h⟩
  · exact ⟨fun h => absurd (hmk.1 h).2 hy, fun _ => by rw [ha.1 hx, hb.2 hy]; rfl⟩
  · exact ⟨fun h => absurd (hmk.1 h).1 hx, fun _ => by rw [ha.2 hx, hb.1 hy]; rfl⟩
  · exact ⟨fun h => absurd (hmk.1 h).1 hx, fun _ => by rw [ha.2 hx, hb.2 hy]; rfl⟩

theorem Answer.one {mk : Expr F → Expr F} {x : Expr F} {a : Parsed F}
    (hmk : SqrtFree (mk x) ↔ SqrtFree x) (ha : Answer x a) : Answer (mk x) (Egglog.one mk a) := by
  by_cases hx : SqrtFree x
  · exact ⟨fun _ => by rw [ha.1 hx]; rfl, fun h => absurd (hmk.2 hx) h⟩
  · exact ⟨fun h => absurd (hmk.1 h) hx, fun _ => by rw [ha.2 hx]; rfl⟩

theorem parse_reads {s : Text} {t : Expr F} (h : Reads parse s t) (hp : ParenFree t) :
    ∀ n, s.length ≤ n → Answer t (parseDepth parse n s) := by
  induction h with
  | @const s c hs hc =>
    intro n hn
    obtain ⟨n, rfl⟩ : ∃ k, n = k + 1 := ⟨n - 1, by simp at hn; omega⟩
    have e : ['(', 'C', 'o', 'n', 's', 't', ' '] ++ s ++ [')'] = node ['C', 'o', 'n', 's', 't'] s := by
      simp [node]
    rw [e, parse_const, hc]
    exact ⟨fun _ => rfl, fun h => absurd ((sqrtFree_iff (by simp)).2 (by simp [children])) h⟩
  | @var v hv =>
    intro n hn
    obtain ⟨n, rfl⟩ : ∃ k, n = k + 1 := ⟨n - 1, by simp at hn; omega⟩
    have e : ['(', 'V', 'a', 'r', ' ', '"'] ++ v.toList ++ ['"', ')'] =
        node ['V', 'a', 'r'] ('"' :: v.toList ++ ['"']) := by simp [node]
    rw [e, parse_var]
    exact ⟨fun _ => rfl, fun h => absurd ((sqrtFree_iff (by simp)).2 (by simp [children])) h⟩
  | @add a b x y ha hb iha ihb =>
    intro n hn
    obtain ⟨n, rfl⟩ : ∃ k, n = k + 1 := ⟨n - 1, by simp at hn; omega⟩
    have e : ['(', 'A', 'd', 'd', ' '] ++ a ++ [' '] ++ b ++ [')'] =
        node ['A', 'd', 'd'] (a ++ ' ' :: b) := by simp [node]
    have hpx : ParenFree x := parenFree_child hp (by simp [children])
    have hpy : ParenFree y := parenFree_child hp (by simp [children])
    rw [e, parse_add ha hpx hb]
    exact Answer.both (by rw [sqrtFree_iff (by simp)]; simp [children])
      (iha hpx n (by simp at hn; omega)) (ihb hpy n (by simp at hn; omega))
  | @sub a b x y ha hb iha ihb =>
    intro n hn
    obtain ⟨n, rfl⟩ : ∃ k, n = k + 1 := ⟨n - 1, by simp at hn; omega⟩
    have e : ['(', 'S', 'u', 'b', ' '] ++ a ++ [' '] ++ b ++ [')'] =
        node ['S', 'u', 'b'] (a ++ ' ' :: b) := by simp [node]
    have hpx : ParenFree x := parenFree_child hp (by simp [children])
    have hpy : ParenFree y := parenFree_child hp (by simp [children])
    rw [e, parse_sub ha hpx hb]
    exact Answer.both (by rw [sqrtFree_iff (by simp)]; simp [children])
      (iha hpx n (by simp at hn; omega)) (ihb hpy n (by simp at hn; omega))
  | @mul a b x y ha hb iha ihb =>
    intro n hn
    obtain ⟨n, rfl⟩ : ∃ k, n = k + 1 := ⟨n - 1, by simp at hn; omega⟩
    have e : ['(', 'M', 'u', 'l', ' '] ++ a ++ [' '] ++ b ++ [')'] =
        node ['M', 'u', 'l'] (a ++ ' ' :: b) := by simp [node]
    have hpx : ParenFree x := parenFree_child hp (by simp [children])
    have hpy : ParenFree y := parenFree_child hp (by simp [children])
    rw [e, parse_mul ha hpx hb]
    exact Answer.both (by rw [sqrtFree_iff (by simp)]; simp [children])
      (iha hpx n (by simp at hn; omega)) (ihb hpy n (by simp at hn; omega))
  | @div a b x y ha hb iha ihb =>
    intro n hn
    obtain ⟨n, rfl⟩ : ∃ k, n = k + 1 := ⟨n - 1, by simp at hn; omega⟩
    have e : ['(', 'D', 'i', 'v', ' '] ++ a ++ [' '] ++ b ++ [')'] =
        node ['D', 'i', 'v'] (a ++ ' ' :: b) := by simp [node]
    have hpx : ParenFree x := parenFree_child hp (by simp [children])
    have hpy : ParenFree y := parenFree_child hp (by simp [children])
    rw [e, parse_div ha hpx hb]
    exact Answer.both (by rw [sqrtFree_iff (by simp)]; simp [children])
      (iha hpx n (by simp at hn; omega)) (ihb hpy n (by simp at hn; omega))
  | @pow a b x y ha hb iha ihb =>
    intro n hn
    obtain ⟨n, rfl⟩ : ∃ k, n = k + 1 := ⟨n - 1, by simp at hn; omega⟩
    have e : ['(', 'P', 'o', 'w', ' '] ++ a ++ [' '] ++ b ++ [')'] =
        node ['P', 'o', 'w'] (a ++ ' ' :: b) := by simp [node]
    have hpx : ParenFree x := parenFree_child hp (by simp [children])
    have hpy : ParenFree y := parenFree_child hp (by simp [children])
    rw [e, parse_pow ha hpx hb]
    exact Answer.both (by rw [sqrtFree_iff (by simp)]; simp [children])
      (iha hpx n (by simp at hn; omega)) (ihb hpy n (by simp at hn; omega))
  | @ln a x ha iha =>
    intro n hn
    obtain ⟨n, rfl⟩ : ∃ k, n = k + 1 := ⟨n - 1, by simp at hn; omega⟩
    have e : ['(', 'L', 'n', ' '] ++ a ++ [')'] = node ['L', 'n'] a := by simp [node]
    rw [e, parse_ln]
    exact Answer.one (by rw [sqrtFree_iff (by simp)]; simp [children])
      (iha (parenFree_child hp (by simp [children])) n (by simp at hn; omega))
  | @exp a x ha iha =>
    intro n hn
    obtain ⟨n, rfl⟩ : ∃ k, n = k + 1 := ⟨n - 1, by simp at hn; omega⟩
    have e : ['(', 'E', 'x', 'p', ' '] ++ a ++ [')'] = node ['E', 'x', 'p'] a := by simp [node]
    rw [e, parse_exp]
    exact Answer.one (by rw [sqrtFree_iff (by simp)]; simp [children])
      (iha (parenFree_child hp (by simp [children])) n (by simp at hn; omega))
  | @sqrt a x ha iha =>
    intro n hn
    obtain ⟨n, rfl⟩ : ∃ k, n = k + 1 := ⟨n - 1, by simp at hn; omega⟩
    have e : ['(', 'S', 'q', 'r', 't', ' '] ++ a ++ [')'] = node ['S', 'q', 'r', 't'] a := by
      simp [node]
    rw [e, parse_sqrt]
    exact ⟨fun h => absurd .refl (h x), fun _ => rfl⟩
  | @sin a x ha iha =>
    intro n hn
    obtain ⟨n, rfl⟩ : ∃ k, n = k + 1 := ⟨n - 1, by simp at hn; omega⟩
    have e : ['(', 'S', 'i', 'n', ' '] ++ a ++ [')'] = node ['S', 'i', 'n'] a := by simp [node]
    rw [e, parse_sin]
    exact Answer.one (by rw [sqrtFree_iff (by simp)]; simp [children])
      (iha (parenFree_child hp (by simp [children])) n (by simp at hn; omega))
  | @cos a x ha iha =>
    intro n hn
    obtain ⟨n, rfl⟩ : ∃ k, n = k + 1 := ⟨n - 1, by simp at hn; omega⟩
    have e : ['(', 'C', 'o', 's', ' '] ++ a ++ [')'] = node ['C', 'o', 's'] a := by simp [node]
    rw [e, parse_cos]
    exact Answer.one (by rw [sqrtFree_iff (by simp)]; simp [children])
      (iha (parenFree_child hp (by simp [children])) n (by simp at hn; omega))
  | @neg a x ha iha =>
    intro n hn
    obtain ⟨n, rfl⟩ : ∃ k, n = k + 1 := ⟨n - 1, by simp at hn; omega⟩
    have e : ['(', 'N', 'e', 'g', ' '] ++ a ++ [')'] = node ['N', 'e', 'g'] a := by simp [node]
    rw [e, parse_neg]
    exact Answer.one (by rw [sqrtFree_iff (by simp)]; simp [children])
      (iha (parenFree_child hp (by simp [children])) n (by simp at hn; omega))

theorem parseExpr_reads {s : Text} {t : Expr F} (h : Reads parse s t) (hp : ParenFree t) :
    Answer t (parseExpr parse s) := parse_reads h hp _ (by omega)

theorem print_reads {fmt1 : F → Text} {round : F → F} (hf : PrintsRounded fmt1 parse round)
    (e : Expr F) (hn : ∀ n, Occurs n e → PlainName n) :
    Reads parse (toEgglog fmt1 e) (mapConst round e) := by
  induction e with
  | const c => simpa [toEgglog, un, mapConst] using Reads.const (hf.plain c) (hf.reads c)
  | var n => simpa [toEgglog, un, mapConst] using Reads.var (parse := parse) (hn n .var)
  | add l r ihl ihr =>
    simpa [toEgglog, bin, mapConst] using
      Reads.add (ihl fun n h => hn n (.addL h)) (ihr fun n h => hn n (.addR h))
  | sub l r ihl ihr =>
    simpa [toEgglog, bin, mapConst] using
      Reads.sub (ihl fun n h => hn n (.subL h)) (ihr fun n h => hn n (.subR h))
  | mul l r ihl ihr =>
    simpa [toEgglog, bin, mapConst] using
      Reads.mul (ihl fun n h => hn n (.mulL h)) (ihr fun n h => hn n (.mulR h))
  | div l r ihl ihr =>
    simpa [toEgglog, bin, mapConst] using
      Reads.div (ihl fun n h => hn n (.divL h)) (ihr fun n h => hn n (.divR h))
  | pow l r ihl ihr =>
    simpa [toEgglog, bin, mapConst] using
      Reads.pow (ihl fun n h => hn n (.powL h)) (ihr fun n h => hn n (.powR h))
  | ln e ih => simpa [toEgglog, un, mapConst] using Reads.ln (ih fun n h => hn n (.ln h))
  | exp e ih => simpa [toEgglog, un, mapConst] using Reads.exp (ih fun n h => hn n (.exp h))
  | sqrt e ih => simpa [toEgglog, un, mapConst] using Reads.sqrt (ih fun n h => hn n (.sqrt h))
  | sin e ih => simpa [toEgglog, un, mapConst] using Reads.sin (ih fun n h => hn n (.sin h))
  | cos e ih => simpa [toEgglog, un, mapConst] using Reads.cos (ih fun n h => hn n (.cos h))
  | neg e ih => simpa [toEgglog, un, mapConst] using Reads.neg (ih fun n h => hn n (.neg h))

end Verif.Egglog
