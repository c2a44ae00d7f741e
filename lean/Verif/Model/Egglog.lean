import Verif.Model.Symbolic

/-!
# Model of `symbolic-math/src/optimization.rs`

The rewrite rules are data, one entry for each `(rewrite …)` line of the program in
`EgglogOptimizer::new`, in the same order.  The text printer and parser work on lists of
characters.  The egglog engine itself is a parameter (`Engine`): a state and an answer to each of
the three commands the optimizer sends.  The `println!` of line 183 is not modelled.
-/

namespace Verif
namespace Egglog
open FloatOps

/-- Text as a list of characters. -/
abbrev Text := List Char

/-- The `f64` positions of a rule: a literal, a variable such as `?c`, or a primitive operation such
as `(+ ?a ?b)`; `optimization.rs:41-146`. -/
inductive Num where
  | lit (q : ℚ)
  | var (n : String)
  | add (a b : Num)
  | sub (a b : Num)
  | mul (a b : Num)
  | div (a b : Num)

/-- Either side of a rule: the `datatype Math` of `optimization.rs:27-40` with variables. -/
inductive Pat where
  | hole (n : String)
  | const (c : Num)
  | add (l r : Pat)
  | sub (l r : Pat)
  | mul (l r : Pat)
  | div (l r : Pat)
  | pow (b x : Pat)
  | ln (e : Pat)
  | exp (e : Pat)
  | sqrt (e : Pat)
  | sin (e : Pat)
  | cos (e : Pat)
  | neg (e : Pat)

variable {F : Type} [FloatOps F]

/-- The number at an `f64` position when the variables have the values `κ`.  Primitive operations
are the floating-point ones. -/
def Num.inst (κ : String → F) : Num → F
  | .lit q => ofRat q
  | .var n => κ n
  | .add a b => a.inst κ +. b.inst κ
  | .sub a b => a.inst κ -. b.inst κ
  | .mul a b => a.inst κ *. b.inst κ
  | .div a b => a.inst κ /. b.inst κ

/-- The expression a side of a rule stands for when its variables have the values `σ`, `κ`. -/
def Pat.inst (σ : String → Expr F) (κ : String → F) : Pat → Expr F
  | .hole n => σ n
  | .const c => .const (c.inst κ)
  | .add l r => .add (l.inst σ κ) (r.inst σ κ)
  | .sub l r => .sub (l.inst σ κ) (r.inst σ κ)
  | .mul l r => .mul (l.inst σ κ) (r.inst σ κ)
  | .div l r => .div (l.inst σ κ) (r.inst σ κ)
  | .pow l r => .pow (l.inst σ κ) (r.inst σ κ)
  | .ln e => .ln (e.inst σ κ)
  | .exp e => .exp (e.inst σ κ)
  | .sqrt e => .sqrt (e.inst σ κ)
  | .sin e => .sin (e.inst σ κ)
  | .cos e => .cos (e.inst σ κ)
  | .neg e => .neg (e.inst σ κ)

/-- a literal in a rule -/
abbrev k (q : ℚ) : Pat := .const (.lit q)
/-- `(Const ?n)` -/
abbrev cv (n : String) : Pat := .const (.var n)
/-- `?n` -/
abbrev h (n : String) : Pat := .hole n

/-- `(rewrite (Pow (Pow ?x ?a) ?b) (Pow ?x (Mul ?a ?b)))`, `optimization.rs:100` -/
def rulePowPow : Pat × Pat := (.pow (.pow (h "x") (h "a")) (h "b"), .pow (h "x") (.mul (h "a") (h "b")))

/-- `(rewrite (Ln (Pow ?x ?n)) (Mul ?n (Ln ?x)))`, `optimization.rs:133` -/
def ruleLnPow : Pat × Pat := (.ln (.pow (h "x") (h "n")), .mul (h "n") (.ln (h "x")))

/-- The arithmetic identities, `optimization.rs:42-54`. -/
def rulesArith : List (Pat × Pat) := [
  (.add (h "x") (k 0), h "x"),
  (.add (k 0) (h "x"), h "x"),
  (.sub (h "x") (k 0), h "x"),
  (.sub (h "x") (h "x"), k 0),
  (.mul (h "x") (k 1), h "x"),
  (.mul (k 1) (h "x"), h "x"),
  (.mul (h "x") (k 0), k 0),
  (.mul (k 0) (h "x"), k 0),
  (.div (h "x") (k 1), h "x"),
  (.div (k 0) (h "x"), k 0),
  (.pow (h "x") (k 1), h "x"),
  (.pow (h "x") (k 0), k 1),
  (.pow (k 1) (h "x"), k 1)]

/-- The inverse pairs, power and negation identities, `optimization.rs:57-70`. -/
def rulesBasic : List (Pat × Pat) := [
  (.ln (.exp (h "x")), h "x"),
  (.exp (.ln (h "x")), h "x"),
  (.ln (k 1), k 0),
  (.exp (k 0), k 1),
  (.pow (h "x") (k 2), .mul (h "x") (h "x")),
  (.sqrt (h "x"), .pow (h "x") (k (1 / 2))),
  (.neg (.neg (h "x")), h "x"),
  (.neg (k 0), k 0),
  (.add (h "x") (.neg (h "x")), k 0),
  (.sub (h "x") (h "y"), .add (h "x") (.neg (h "y")))]

/-- Distributivity, logarithms, exponentials, trigonometry, `optimization.rs:74-89`. -/
def rulesAdvanced : List (Pat × Pat) := [
  (.add (.mul (h "a") (h "x")) (.mul (h "b") (h "x")), .mul (.add (h "a") (h "b")) (h "x")),
  (.add (.mul (h "x") (h "a")) (.mul (h "x") (h "b")), .mul (h "x") (.add (h "a") (h "b"))),
  (.add (.ln (h "a")) (.ln (h "b")), .ln (.mul (h "a") (h "b"))),
  (.sub (.ln (h "a")) (.ln (h "b")), .ln (.div (h "a") (h "b"))),
  (.mul (cv "c") (.ln (h "x")), .ln (.pow (h "x") (cv "c"))),
  (.mul (.exp (h "a")) (.exp (h "b")), .exp (.add (h "a") (h "b"))),
  (.div (.exp (h "a")) (.exp (h "b")), .exp (.sub (h "a") (h "b"))),
  (.pow (.exp (h "x")) (cv "c"), .exp (.mul (cv "c") (h "x"))),
  (.add (.pow (.sin (h "x")) (k 2)) (.pow (.cos (h "x")) (k 2)), k 1),
  (.add (.mul (.sin (h "x")) (.sin (h "x"))) (.mul (.cos (h "x")) (.cos (h "x"))), k 1)]

/-- Associativity, commutativity, power laws, `optimization.rs:92-100`. -/
def rulesAssoc : List (Pat × Pat) := [
  (.add (.add (h "a") (h "b")) (h "c"), .add (h "a") (.add (h "b") (h "c"))),
  (.mul (.mul (h "a") (h "b")) (h "c"), .mul (h "a") (.mul (h "b") (h "c"))),
  (.add (h "a") (h "b"), .add (h "b") (h "a")),
  (.mul (h "a") (h "b"), .mul (h "b") (h "a")),
  (.mul (.pow (h "x") (h "a")) (.pow (h "x") (h "b")), .pow (h "x") (.add (h "a") (h "b"))),
  (.div (.pow (h "x") (h "a")) (.pow (h "x") (h "b")), .pow (h "x") (.sub (h "a") (h "b"))),
  rulePowPow]

/-- Constant folding, like terms, rational functions, difference of squares,
`optimization.rs:103-125`. -/
def rulesFold : List (Pat × Pat) := [
  (.add (cv "a") (cv "b"), .const (.add (.var "a") (.var "b"))),
  (.mul (cv "a") (cv "b"), .const (.mul (.var "a") (.var "b"))),
  (.sub (cv "a") (cv "b"), .const (.sub (.var "a") (.var "b"))),
  (.div (cv "a") (cv "b"), .const (.div (.var "a") (.var "b"))),
  (.add (h "x") (h "x"), .mul (k 2) (h "x")),
  (.add (.mul (cv "a") (h "x")) (.mul (cv "b") (h "x")),
    .mul (.const (.add (.var "a") (.var "b"))) (h "x")),
  (.add (.mul (cv "a") (h "x")) (h "x"), .mul (.const (.add (.var "a") (.lit 1))) (h "x")),
  (.add (h "x") (.mul (cv "a") (h "x")), .mul (.const (.add (.lit 1) (.var "a"))) (h "x")),
  (.div (h "x") (h "x"), k 1),
  (.mul (.div (h "a") (h "b")) (.div (h "c") (h "d")),
    .div (.mul (h "a") (h "c")) (.mul (h "b") (h "d"))),
  (.div (.div (h "a") (h "b")) (h "c"), .div (h "a") (.mul (h "b") (h "c"))),
  (.mul (.add (h "a") (h "b")) (.sub (h "a") (h "b")),
    .sub (.mul (h "a") (h "a")) (.mul (h "b") (h "b")))]

/-- Further logarithm, exponential and trigonometric rules, `optimization.rs:133-146`. -/
def rulesTrig : List (Pat × Pat) := [
  ruleLnPow,
  (.exp (.mul (h "n") (.ln (h "x"))), .pow (h "x") (h "n")),
  (.ln (.sqrt (h "x")), .mul (k (1 / 2)) (.ln (h "x"))),
  (.sin (.neg (h "x")), .neg (.sin (h "x"))),
  (.cos (.neg (h "x")), .cos (h "x")),
  (.sin (k 0), k 0),
  (.cos (k 0), k 1)]

/-- All rewrite rules of `EgglogOptimizer::new`, `optimization.rs:41-146`. -/
def rules : List (Pat × Pat) :=
  rulesArith ++ rulesBasic ++ rulesAdvanced ++ rulesAssoc ++ rulesFold ++ rulesTrig

/-! ### Text -/

/-- `(Op l r)`, `optimization.rs:198-222` -/
def bin (op : Text) (l r : Text) : Text := '(' :: op ++ ' ' :: l ++ ' ' :: r ++ [')']

/-- `(Op e)`, `optimization.rs:223-246` -/
def un (op : Text) (e : Text) : Text := '(' :: op ++ ' ' :: e ++ [')']

/-- `EgglogOptimizer::expr_to_egglog`, `optimization.rs:194-248`; it never returns an error.
`fmt1` is `format!("{c:.1}")`. -/
def toEgglog {F : Type} (fmt1 : F → Text) : Expr F → Text
  | .const c => un ['C', 'o', 'n', 's', 't'] (fmt1 c)
  | .var n => un ['V', 'a', 'r'] ('"' :: n.toList ++ ['"'])
  | .add l r => bin ['A', 'd', 'd'] (toEgglog fmt1 l) (toEgglog fmt1 r)
  | .sub l r => bin ['S', 'u', 'b'] (toEgglog fmt1 l) (toEgglog fmt1 r)
  | .mul l r => bin ['M', 'u', 'l'] (toEgglog fmt1 l) (toEgglog fmt1 r)
  | .div l r => bin ['D', 'i', 'v'] (toEgglog fmt1 l) (toEgglog fmt1 r)
  | .pow l r => bin ['P', 'o', 'w'] (toEgglog fmt1 l) (toEgglog fmt1 r)
  | .ln e => un ['L', 'n'] (toEgglog fmt1 e)
  | .exp e => un ['E', 'x', 'p'] (toEgglog fmt1 e)
  | .sqrt e => un ['S', 'q', 'r', 't'] (toEgglog fmt1 e)
  | .sin e => un ['S', 'i', 'n'] (toEgglog fmt1 e)
  | .cos e => un ['C', 'o', 's'] (toEgglog fmt1 e)
  | .neg e => un ['N', 'e', 'g'] (toEgglog fmt1 e)

/-- `char::is_whitespace` (the Unicode property `White_Space`), used by `str::trim`. -/
def isWhite (c : Char) : Bool :=
  let n := c.toNat
  (9 ≤ n && n ≤ 13) || n == 0x20 || n == 0x85 || n == 0xA0 || n == 0x1680 ||
    (0x2000 ≤ n && n ≤ 0x200A) || n == 0x2028 || n == 0x2029 || n == 0x202F || n == 0x205F ||
    n == 0x3000

/-- `str::trim` -/
def trim (s : Text) : Text := ((s.dropWhile isWhite).reverse.dropWhile isWhite).reverse

/-- `&trimmed[n..trimmed.len() - 1]` where the first `n` characters and the last one are one byte
each and `n < trimmed.len()`. -/
def body (n : ℕ) (t : Text) : Text := (t.drop n).dropLast

/-- `trimmed.starts_with(p) && trimmed.ends_with(')')` -/
def opens (p : Text) (t : Text) : Bool := p.isPrefixOf t && [')'].isSuffixOf t

/-- `parse_binary_args`, the search for the first space outside parentheses,
`optimization.rs:357-379`; the part before it and the part after it, before `trim`.  `d` is
`paren_count`, which does not overflow. -/
def splitArgs (d : ℤ) : Text → Option (Text × Text)
  | [] => none
  | c :: cs =>
    if c = ' ' ∧ d = 0 then some ([], cs)
    else
      let d' := if c = '(' then d + 1 else if c = ')' then d - 1 else d
      (splitArgs d' cs).map fun p => (c :: p.1, p.2)

/-- `EgglogOptimizer::parse_binary_args`, `optimization.rs:357-379` -/
def parseBinaryArgs (s : Text) : Option (Text × Text) :=
  (splitArgs 0 s).map fun p => (trim p.1, trim p.2)

/-- What a step of the parser returns: `none` is `None`, an error is a panic. -/
abbrev Parsed (F : Type) := Except Panic (Option (Expr F))

/-- an `if` block that returns when it succeeds, followed by the rest of the function -/
def orTry {F : Type} (a b : Parsed F) : Parsed F :=
  match a with
  | .error p => .error p
  | .ok (some e) => .ok (some e)
  | .ok none => b

/-- `optimization.rs:257-262`; `parse` is `str::parse::<f64>`. -/
def constCase {F : Type} (parse : Text → Option F) (t : Text) : Parsed F :=
  if opens ['(', 'C', 'o', 'n', 's', 't', ' '] t then .ok ((parse (body 7 t)).map .const)
  else .ok none

/-- `optimization.rs:264-267`: the slice `[6..len - 2]` panics if `len < 8`. -/
def varCase {F : Type} (t : Text) : Parsed F :=
  if List.isPrefixOf ['(', 'V', 'a', 'r', ' ', '"'] t && List.isSuffixOf ['"', ')'] t then
    if t.length < 8 then .error ⟨"begin <= end"⟩
    else .ok (some (.var (String.ofList ((t.drop 6).dropLast.dropLast))))
  else .ok none

/-- `optimization.rs:270-318`: one `if` block for a binary operator. -/
def binCase {F : Type} (rec : Text → Parsed F) (op : Text) (mk : Expr F → Expr F → Expr F)
    (t : Text) : Parsed F :=
  if opens ('(' :: op ++ [' ']) t then
    match parseBinaryArgs (body (op.length + 2) t) with
    | none => .ok none
    | some (l, r) =>
      -- both arguments are parsed before the pattern is tested
      match rec l with
      | .error p => .error p
      | .ok a =>
        match rec r with
        | .error p => .error p
        | .ok b =>
          match a, b with
          | some x, some y => .ok (some (mk x y))
          | _, _ => .ok none
  else .ok none

/-- `optimization.rs:321-350`: one `if` block for a unary operator. -/
def unCase {F : Type} (rec : Text → Parsed F) (op : Text) (mk : Expr F → Expr F)
    (t : Text) : Parsed F :=
  if opens ('(' :: op ++ [' ']) t then
    match rec (body (op.length + 2) t) with
    | .error p => .error p
    | .ok a => .ok (a.map mk)
  else .ok none

/-- `EgglogOptimizer::egglog_to_expr`, `optimization.rs:252-353`.  Every recursive call is on a
shorter text; the first argument bounds the depth and is the length of the text plus one at the
top (`parseExpr`). -/
def parseDepth {F : Type} (parse : Text → Option F) : ℕ → Text → Parsed F
  | 0, _ => .ok none
  | n + 1, s =>
    let t := trim s
    let rec' := parseDepth parse n
    orTry (constCase parse t) <|
    orTry (varCase t) <|
    orTry (binCase rec' ['A', 'd', 'd'] .add t) <|
    orTry (binCase rec' ['M', 'u', 'l'] .mul t) <|
    orTry (binCase rec' ['S', 'u', 'b'] .sub t) <|
    orTry (binCase rec' ['D', 'i', 'v'] .div t) <|
    orTry (binCase rec' ['P', 'o', 'w'] .pow t) <|
    orTry (unCase rec' ['L', 'n'] .ln t) <|
    orTry (unCase rec' ['E', 'x', 'p'] .exp t) <|
    orTry (unCase rec' ['S', 'i', 'n'] .sin t) <|
    orTry (unCase rec' ['C', 'o', 's'] .cos t) <|
    orTry (unCase rec' ['N', 'e', 'g'] .neg t) (.ok none)

/-- `EgglogOptimizer::egglog_to_expr`, `optimization.rs:252-353` -/
def parseExpr {F : Type} (parse : Text → Option F) (s : Text) : Parsed F :=
  parseDepth parse (s.length + 1) s

/-! ### The optimizer -/

/-- The programs sent to the engine, `optimization.rs:165-178`: `(let expr_{id} {text})`, `(run n)`,
`(extract expr_{id})`. -/
inductive Command where
  | letExpr (id : ℕ) (text : Text)
  | run (n : ℕ)
  | extract (id : ℕ)

/-- `egglog::EGraph::parse_and_run_program` on these programs: new state, and the output lines or an
error. -/
structure Engine (S Err : Type) where
  run : S → Command → S × Except Err (List Text)

/-- `struct EgglogOptimizer`, `optimization.rs:11-14` -/
structure Optimizer (S : Type) where
  egraph : S
  counter : ℕ

/-- What `optimize` does besides returning: it may return an engine error or panic. -/
inductive Failure (Err : Type) where
  | engine (e : Err)
  | panic (p : Panic)

/-- `EgglogOptimizer::optimize`, `optimization.rs:157-191` -/
def optimize {F S Err : Type} (fmt1 : F → Text) (parse : Text → Option F) (E : Engine S Err)
    (o : Optimizer S) (e : Expr F) : Optimizer S × Except (Failure Err) (Expr F) :=
  let text := toEgglog fmt1 e
  let id := o.counter
  let counter := o.counter + 1
  match E.run o.egraph (.letExpr id text) with
  | (s₁, .error err) => (⟨s₁, counter⟩, .error (.engine err))
  | (s₁, .ok _) =>
    match E.run s₁ (.run 5) with
    | (s₂, .error err) => (⟨s₂, counter⟩, .error (.engine err))
    | (s₂, .ok _) =>
      match E.run s₂ (.extract id) with
      | (s₃, .error err) => (⟨s₃, counter⟩, .error (.engine err))
      | (s₃, .ok out) =>
        (⟨s₃, counter⟩,
          match out with
          | [] => .ok e
          | extracted :: _ =>
            match parseExpr parse extracted with
            | .error p => .error (.panic p)
            | .ok (some r) => .ok r
            | .ok none => .ok e)

/-- `EgglogOptimize::optimize_with_egglog`, `optimization.rs:390-395`: a new optimizer for each call;
`s₀` is the engine state after the rules are loaded. -/
def optimizeWithEgglog {F S Err : Type} (fmt1 : F → Text) (parse : Text → Option F)
    (E : Engine S Err) (s₀ : S) (e : Expr F) : Except (Failure Err) (Expr F) :=
  (optimize fmt1 parse E ⟨s₀, 0⟩ e).2

end Egglog
end Verif
