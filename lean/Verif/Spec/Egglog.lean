import Verif.Spec.Symbolic
import Verif.Model.Egglog

/-!
# What the egglog engine is assumed to do

Nothing here mentions the printer, the parser or the optimizer of the code.  `Reads` is the
notation of terms, `EGraph.insert`/`EGraph.round` are equality saturation, and `Faithful` says that an
engine stores the terms it is given, applies the rules to everything it has stored, and answers an
extraction with a cheapest term among those it knows to be equal to the one asked for.
-/

namespace Verif.Spec.Egglog
open Verif Verif.Egglog

variable {F : Type}

/-- Characters that cannot occur in the text of a number. -/
def NumberText (s : Text) : Prop := ∀ c ∈ s, c ≠ '(' ∧ c ≠ ')' ∧ c ≠ ' '

/-- A name that can be written between quotation marks without escapes. -/
def PlainName (n : String) : Prop := ∀ c ∈ n.toList, c ≠ '"' ∧ c ≠ '\\'

/-- No name in the expression contains a parenthesis. -/
def ParenFree (t : Expr F) : Prop := ∀ n, Occurs n t → ∀ c ∈ n.toList, c ≠ '(' ∧ c ≠ ')'

/-- No square root in the expression. -/
def SqrtFree (t : Expr F) : Prop := ∀ a, ¬ Sub (.sqrt a) t

/-- Names the optimizer can handle: nothing that ends a quotation, no parenthesis. -/
def GoodNames (t : Expr F) : Prop := (∀ n, Occurs n t → PlainName n) ∧ ParenFree t

/-- `Reads parse s t`: the text `s` is the term `t` in egglog's notation, where `parse` reads
numbers. -/
inductive Reads (parse : Text → Option F) : Text → Expr F → Prop
  | const {s c} : NumberText s → parse s = some c →
      Reads parse (['(', 'C', 'o', 'n', 's', 't', ' '] ++ s ++ [')']) (.const c)
  | var {n : String} : PlainName n →
      Reads parse (['(', 'V', 'a', 'r', ' ', '"'] ++ n.toList ++ ['"', ')']) (.var n)
  | add {a b x y} : Reads parse a x → Reads parse b y →
      Reads parse (['(', 'A', 'd', 'd', ' '] ++ a ++ [' '] ++ b ++ [')']) (.add x y)
  | sub {a b x y} : Reads parse a x → Reads parse b y →
      Reads parse (['(', 'S', 'u', 'b', ' '] ++ a ++ [' '] ++ b ++ [')']) (.sub x y)
  | mul {a b x y} : Reads parse a x → Reads parse b y →
      Reads parse (['(', 'M', 'u', 'l', ' '] ++ a ++ [' '] ++ b ++ [')']) (.mul x y)
  | div {a b x y} : Reads parse a x → Reads parse b y →
      Reads parse (['(', 'D', 'i', 'v', ' '] ++ a ++ [' '] ++ b ++ [')']) (.div x y)
  | pow {a b x y} : Reads parse a x → Reads parse b y →
      Reads parse (['(', 'P', 'o', 'w', ' '] ++ a ++ [' '] ++ b ++ [')']) (.pow x y)
  | ln {a x} : Reads parse a x → Reads parse (['(', 'L', 'n', ' '] ++ a ++ [')']) (.ln x)
  | exp {a x} : Reads parse a x → Reads parse (['(', 'E', 'x', 'p', ' '] ++ a ++ [')']) (.exp x)
  | sqrt {a x} : Reads parse a x →
      Reads parse (['(', 'S', 'q', 'r', 't', ' '] ++ a ++ [')']) (.sqrt x)
  | sin {a x} : Reads parse a x → Reads parse (['(', 'S', 'i', 'n', ' '] ++ a ++ [')']) (.sin x)
  | cos {a x} : Reads parse a x → Reads parse (['(', 'C', 'o', 's', ' '] ++ a ++ [')']) (.cos x)
  | neg {a x} : Reads parse a x → Reads parse (['(', 'N', 'e', 'g', ' '] ++ a ++ [')']) (.neg x)

/-- The expression with every literal replaced. -/
def mapConst (f : F → F) : Expr F → Expr F
  | .const c => .const (f c)
  | .var n => .var n
  | .add l r => .add (mapConst f l) (mapConst f r)
  | .sub l r => .sub (mapConst f l) (mapConst f r)
  | .mul l r => .mul (mapConst f l) (mapConst f r)
  | .div l r => .div (mapConst f l) (mapConst f r)
  | .pow l r => .pow (mapConst f l) (mapConst f r)
  | .ln e => .ln (mapConst f e)
  | .exp e => .exp (mapConst f e)
  | .sqrt e => .sqrt (mapConst f e)
  | .sin e => .sin (mapConst f e)
  | .cos e => .cos (mapConst f e)
  | .neg e => .neg (mapConst f e)

/-- What is assumed of `format!("{c:.1}")` and `str::parse::<f64>`: the text of `c` reads as
`round c`. -/
structure PrintsRounded (fmt1 : F → Text) (parse : Text → Option F) (round : F → F) : Prop where
  plain : ∀ c, NumberText (fmt1 c)
  reads : ∀ c, parse (fmt1 c) = some (round c)

/-- Rounding to one decimal: a nearest multiple of a tenth. -/
def RoundsToTenth (round : XReal → XReal) : Prop :=
  ∀ x : ℝ, ∃ k : ℤ, round (.fin x) = .fin ((k : ℝ) / 10) ∧ |(k : ℝ) / 10 - x| ≤ 1 / 20

/-! ### Equality saturation -/

/-- The knowledge of an e-graph: `G s t` says that both terms are stored and known to be equal; a
term is stored when `G t t`. -/
abbrev EGraph (F : Type) := Expr F → Expr F → Prop

/-- Everything an e-graph knows once told `R`: equality is symmetric and transitive, the direct
sub-terms of a stored term are stored, and replacing them by equal ones gives an equal term. -/
inductive EGraph.Close (R : EGraph F) : EGraph F
  | base {s t} : R s t → Close R s t
  | symm {s t} : Close R s t → Close R t s
  | trans {s t u} : Close R s t → Close R t u → Close R s u
  | child {t c} : Close R t t → c ∈ children t → Close R c c
  | add {a a' b b'} : Close R (.add a b) (.add a b) → Close R a a' → Close R b b' →
      Close R (.add a b) (.add a' b')
  | sub {a a' b b'} : Close R (.sub a b) (.sub a b) → Close R a a' → Close R b b' →
      Close R (.sub a b) (.sub a' b')
  | mul {a a' b b'} : Close R (.mul a b) (.mul a b) → Close R a a' → Close R b b' →
      Close R (.mul a b) (.mul a' b')
  | div {a a' b b'} : Close R (.div a b) (.div a b) → Close R a a' → Close R b b' →
      Close R (.div a b) (.div a' b')
  | pow {a a' b b'} : Close R (.pow a b) (.pow a b) → Close R a a' → Close R b b' →
      Close R (.pow a b) (.pow a' b')
  | ln {a a'} : Close R (.ln a) (.ln a) → Close R a a' → Close R (.ln a) (.ln a')
  | exp {a a'} : Close R (.exp a) (.exp a) → Close R a a' → Close R (.exp a) (.exp a')
  | sqrt {a a'} : Close R (.sqrt a) (.sqrt a) → Close R a a' → Close R (.sqrt a) (.sqrt a')
  | sin {a a'} : Close R (.sin a) (.sin a) → Close R a a' → Close R (.sin a) (.sin a')
  | cos {a a'} : Close R (.cos a) (.cos a) → Close R a a' → Close R (.cos a) (.cos a')
  | neg {a a'} : Close R (.neg a) (.neg a) → Close R a a' → Close R (.neg a) (.neg a')

/-- The e-graph that knows nothing. -/
def EGraph.empty : EGraph F := fun _ _ => False

/-- Storing a term. -/
def EGraph.insert (G : EGraph F) (t : Expr F) : EGraph F :=
  Close fun a b => G a b ∨ (a = t ∧ b = t)

variable [FloatOps F]

/-- `l` rewrites to `r` by one of the rules. -/
def RuleInstance (rs : List (Pat × Pat)) (l r : Expr F) : Prop :=
  ∃ p ∈ rs, ∃ σ κ, l = p.1.inst σ κ ∧ r = p.2.inst σ κ

/-- One round of equality saturation: every rule is applied to every stored term it matches. -/
def EGraph.round (rs : List (Pat × Pat)) (G : EGraph F) : EGraph F :=
  Close fun a b => G a b ∨ (G a a ∧ RuleInstance rs a b)

/-- `n` rounds. -/
def EGraph.rounds (rs : List (Pat × Pat)) : ℕ → EGraph F → EGraph F
  | 0, G => G
  | n + 1, G => EGraph.rounds rs n (EGraph.round rs G)

/-- Term size as egglog counts it by default: one for every operator and every literal. -/
def cost {F : Type} : Expr F → ℕ
  | .const _ => 2
  | .var _ => 2
  | .add l r => 1 + cost l + cost r
  | .sub l r => 1 + cost l + cost r
  | .mul l r => 1 + cost l + cost r
  | .div l r => 1 + cost l + cost r
  | .pow l r => 1 + cost l + cost r
  | .ln e => 1 + cost e
  | .exp e => 1 + cost e
  | .sqrt e => 1 + cost e
  | .sin e => 1 + cost e
  | .cos e => 1 + cost e
  | .neg e => 1 + cost e

/-- `u` is a cheapest term known to be equal to `t`. -/
def Cheapest (G : EGraph F) (t u : Expr F) : Prop := G t u ∧ ∀ w, G t w → cost u ≤ cost w

/-- The engine does equality saturation with the rules `rs` on the terms it is given.  `graph` is
what a state knows and `names` the terms bound by `let`. -/
structure Faithful {S Err : Type} (parse : Text → Option F) (rs : List (Pat × Pat))
    (E : Engine S Err) (graph : S → EGraph F) (names : S → ℕ → Option (Expr F)) : Prop where
  letExpr : ∀ s id text t, Reads parse text t → names s id = none →
    ∃ s' out, E.run s (.letExpr id text) = (s', .ok out) ∧ graph s' = (graph s).insert t ∧
      names s' = Function.update (names s) id (some t)
  run : ∀ s n, ∃ s' out, E.run s (.run n) = (s', .ok out) ∧ graph s' = (graph s).rounds rs n ∧
      names s' = names s
  extract : ∀ s id t, names s id = some t → graph s t t →
    ∃ s' text u rest, E.run s (.extract id) = (s', .ok (text :: rest)) ∧ Reads parse text u ∧
      Cheapest (graph s) t u ∧ graph s' = graph s ∧ names s' = names s

/-- A state of the engine after the rules are loaded and before any term is given. -/
def Fresh {S : Type} (graph : S → EGraph F) (names : S → ℕ → Option (Expr F)) (s : S) : Prop :=
  graph s = EGraph.empty ∧ ∀ id, names s id = none

/-- At the assignment `ρ` every power in the expression has a positive base, or base zero and a
positive exponent. -/
def SafePowers (ρ : String → Option ℝ) (e : Expr XReal) : Prop :=
  ∀ b x, Sub (.pow b x) e → ∃ bv xv, value ρ b = some bv ∧ value ρ x = some xv ∧
    (0 < bv ∨ (bv = 0 ∧ 0 < xv))

end Verif.Spec.Egglog
