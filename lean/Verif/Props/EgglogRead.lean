import Verif.Spec.Whitespace
import Verif.Lemmas.EgglogText

/-!
# C145: reading an expression back from egglog text ends, and white space around it does not matter
-/

namespace Verif
namespace Egglog

variable {F : Type}

theorem isWhite_iff (c : Char) : isWhite c = true ↔ c.toNat ∈ unicodeWhiteSpace := by
  simp only [isWhite, unicodeWhiteSpace, Bool.or_eq_true, Bool.and_eq_true, decide_eq_true_eq, beq_iff_eq,
    List.mem_cons, List.not_mem_nil, or_false]
  omega

theorem length_trim_le (s : Text) : (trim s).length ≤ s.length := by
  unfold trim
  rw [List.length_reverse]
  refine (List.dropWhile_sublist _).length_le.trans ?_
  rw [List.length_reverse]
  exact (List.dropWhile_sublist _).length_le

theorem dropWhile_blank {w : Text} (hw : Blank w) (s : Text) : (w ++ s).dropWhile isWhite = s.dropWhile isWhite := by
  induction w with
  | nil => rfl
  | cons c w ih =>
    rw [List.cons_append, List.dropWhile_cons_of_pos ((isWhite_iff c).mpr (hw c List.mem_cons_self))]
    exact ih fun d hd => hw d (List.mem_cons_of_mem _ hd)

theorem dropWhile_append_blank {w : Text} (hw : Blank w) (s : Text) :
    ((s ++ w).dropWhile isWhite).reverse.dropWhile isWhite = (s.dropWhile isWhite).reverse.dropWhile isWhite := by
  have hr : Blank w.reverse := fun c hc => hw c (List.mem_reverse.mp hc)
  rw [List.dropWhile_append]
  split_ifs with h
  · rw [List.isEmpty_iff] at h
    rw [h]
    have : w.dropWhile isWhite = [] := by simpa using dropWhile_blank hw []
    rw [this]
  · rw [List.reverse_append, dropWhile_blank hr]

theorem trim_blank {p q : Text} (hp : Blank p) (hq : Blank q) (s : Text) : trim (p ++ s ++ q) = trim s := by
  unfold trim
  rw [List.append_assoc, dropWhile_blank hp, dropWhile_append_blank hq]

theorem length_splitArgs {s : Text} {d : ℤ} {p : Text × Text} (h : splitArgs d s = some p) :
    p.1.length < s.length + 1 ∧ p.2.length < s.length + 1 := by
  induction s generalizing d p with
  | nil => simp [splitArgs] at h
  | cons c cs ih =>
    unfold splitArgs at h
    by_cases h1 : c = ' ' ∧ d = 0
    · rw [if_pos h1] at h
      cases h; simp
    · rw [if_neg h1] at h
      simp only [Option.map_eq_some_iff] at h
      obtain ⟨q, hq, rfl⟩ := h
      have := ih hq
      simp only [List.length_cons]; omega

theorem length_body {op t : Text} (h : opens ('(' :: op ++ [' ']) t = true) : (body (op.length + 2) t).length < t.length := by
  have : 0 < t.length := by
    cases t with
    | nil => simp [opens] at h
    | cons => simp
  simp only [body, List.length_dropLast, List.length_drop]
  omega

theorem binCase_congr {r r' : Text → Parsed F} {t : Text} (h : ∀ s : Text, s.length < t.length → r s = r' s) (op : Text)
    (mk : Expr F → Expr F → Expr F) : binCase r op mk t = binCase r' op mk t := by
  unfold binCase
  split_ifs with ho
  · have hb := length_body ho
    cases hp : parseBinaryArgs (body (op.length + 2) t) with
    | none => rfl
    | some p =>
      obtain ⟨l, q⟩ := p
      have hlen : l.length < t.length ∧ q.length < t.length := by
        unfold parseBinaryArgs at hp
        simp only [Option.map_eq_some_iff] at hp
        obtain ⟨w, hw, he⟩ := hp
        have := length_splitArgs hw
        have h1 := length_trim_le w.1
        have h2 := length_trim_le w.2
        cases he
        omega
      simp only [h l hlen.1, h q hlen.2]
  · rfl

theorem unCase_congr {r r' : Text → Parsed F} {t : Text} (h : ∀ s : Text, s.length < t.length → r s = r' s) (op : Text)
    (mk : Expr F → Expr F) : unCase r op mk t = unCase r' op mk t := by
  unfold unCase
  split_ifs with ho
  · rw [h _ (length_body ho)]
  · rfl

/-- the bound on the depth is never reached -/
theorem parseDepth_eq (parse : Text → Option F) {n m : ℕ} {s : Text} (hn : (trim s).length < n) (hm : (trim s).length < m) :
    parseDepth parse n s = parseDepth parse m s := by
  induction n generalizing m s with
  | zero => omega
  | succ n ih =>
    obtain ⟨m, rfl⟩ : ∃ k, m = k + 1 := ⟨m - 1, by omega⟩
    have h : ∀ w : Text, w.length < (trim s).length → parseDepth parse n w = parseDepth parse m w := fun w hw => by
      have := length_trim_le w
      exact ih (by omega) (by omega)
    simp only [parseDepth, binCase_congr h, unCase_congr h]

end Egglog

open Egglog

/-- **C145**: reading ends: the bound that the model puts on the nesting of the recursive calls is never reached, however
deep the text -- with any larger bound the result is the same. -/
theorem C145_terminates {F : Type} (parse : Text → Option F) (s : Text) (n : ℕ) (hn : s.length < n) :
    parseDepth parse n s = parseExpr parse s := by
  have := length_trim_le s
  exact parseDepth_eq parse (by omega) (by omega)

/-- **C145**: white space around a text changes nothing, be it of any of the kinds Unicode knows: what is read, what is
refused and what panics stay the same. -/
theorem C145_white_space {F : Type} (parse : Text → Option F) {p q : Text} (hp : Blank p) (hq : Blank q) (s : Text) :
    parseExpr parse (p ++ s ++ q) = parseExpr parse s := by
  have h := trim_blank hp hq s
  have h1 := length_trim_le s
  have h2 := length_trim_le (p ++ s ++ q)
  rw [← C145_terminates parse (p ++ s ++ q) ((p ++ s ++ q).length + s.length + 1) (by omega),
    ← C145_terminates parse s ((p ++ s ++ q).length + s.length + 1) (by omega)]
  simp only [parseDepth, h]

/-- **C145** fails inside a text: one more space between a binary operator and its first operand, and the text is
refused although it is the same expression. -/
theorem C145_inner_space_violated {F : Type} (parse : Text → Option F) :
    parseExpr parse "(Add (Var \"x\") (Var \"y\"))".toList = .ok (some (.add (.var "x") (.var "y"))) ∧
    parseExpr parse "(Add  (Var \"x\") (Var \"y\"))".toList = .ok none ∧
    parseExpr parse "(Add (Var \"x\")  (Var \"y\"))".toList = .ok (some (.add (.var "x") (.var "y"))) := by
  refine ⟨?_, ?_, ?_⟩ <;> rfl

/-- white space of different kinds around a text that is read -/
example {F : Type} (parse : Text → Option F) :
    Blank ['\n', ' ', '\t'] ∧ Blank [Char.ofNat 0x2003] ∧
    parseExpr parse (['\n', ' ', '\t'] ++ "(Var \"x\")".toList ++ [Char.ofNat 0x2003]) = .ok (some (.var "x")) := by
  have h1 : Blank ['\n', ' ', '\t'] := by unfold Blank; decide
  have h2 : Blank [Char.ofNat 0x2003] := by unfold Blank; decide
  exact ⟨h1, h2, (C145_white_space parse h1 h2 _).trans rfl⟩

end Verif
