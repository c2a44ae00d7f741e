import Verif.Spec.Symbolic

/-! Helper lemmas about variable collection and sub-expressions. -/

namespace Verif
open FloatOps

namespace Expr
variable {F : Type}

theorem mem_collectVariables (e : Expr F) (n : String) :
    n ∈ e.collectVariables ↔ Spec.Occurs n e := by
  induction e with
  | const c => simp only [collectVariables, List.not_mem_nil, false_iff]; intro h; cases h
  | var m =>
    simp only [collectVariables, List.mem_singleton]
    constructor
    · rintro rfl; exact .var
    · intro h; cases h; rfl
  | add l r il ir =>
    simp only [collectVariables, List.mem_append, il, ir]
    constructor
    · rintro (h | h); exacts [.addL h, .addR h]
    · intro h; cases h; exacts [.inl ‹_›, .inr ‹_›]
  | sub l r il ir =>
    simp only [collectVariables, List.mem_append, il, ir]
    constructor
    · rintro (h | h); exacts [.subL h, .subR h]
    · intro h; cases h; exacts [.inl ‹_›, .inr ‹_›]
  | mul l r il ir =>
    simp only [collectVariables, List.mem_append, il, ir]
    constructor
    · rintro (h | h); exacts [.mulL h, .mulR h]
    · intro h; cases h; exacts [.inl ‹_›, .inr ‹_›]
  | div l r il ir =>
    simp only [collectVariables, List.mem_append, il, ir]
    constructor
    · rintro (h | h); exacts [.divL h, .divR h]
    · intro h; cases h; exacts [.inl ‹_›, .inr ‹_›]
  | pow l r il ir =>
    simp only [collectVariables, List.mem_append, il, ir]
    constructor
    · rintro (h | h); exacts [.powL h, .powR h]
    · intro h; cases h; exacts [.inl ‹_›, .inr ‹_›]
  | ln e ih =>
    simp only [collectVariables, ih]
    exact ⟨.ln, fun h => by cases h; assumption⟩
  | exp e ih =>
    simp only [collectVariables, ih]
    exact ⟨.exp, fun h => by cases h; assumption⟩
  | sqrt e ih =>
    simp only [collectVariables, ih]
    exact ⟨.sqrt, fun h => by cases h; assumption⟩
  | sin e ih =>
    simp only [collectVariables, ih]
    exact ⟨.sin, fun h => by cases h; assumption⟩
  | cos e ih =>
    simp only [collectVariables, ih]
    exact ⟨.cos, fun h => by cases h; assumption⟩
  | neg e ih =>
    simp only [collectVariables, ih]
    exact ⟨.neg, fun h => by cases h; assumption⟩

theorem mem_vecDedup (l : List String) (n : String) : n ∈ vecDedup l ↔ n ∈ l := by
  induction l using vecDedup.induct with
  | case1 => simp [vecDedup]
  | case2 a => simp [vecDedup]
  | case3 a l ih => simp only [vecDedup, if_true, ih]; simp
  | case4 a b l h ih => simp only [vecDedup, if_neg h, List.mem_cons, ih]

theorem vecDedup_pairwise (l : List String) (h : l.Pairwise (· ≤ ·)) :
    (vecDedup l).Pairwise (· < ·) := by
  induction l using vecDedup.induct with
  | case1 => simp [vecDedup]
  | case2 a => simp [vecDedup]
  | case3 a l ih => simp only [vecDedup, if_true]; exact ih h.of_cons
  | case4 a b l hne ih =>
    simp only [vecDedup, if_neg hne]
    refine List.Pairwise.cons ?_ (ih h.of_cons)
    intro c hc
    rw [mem_vecDedup] at hc
    have hab : a < b := lt_of_le_of_ne (List.rel_of_pairwise_cons h (by simp)) hne
    rcases List.mem_cons.mp hc with rfl | hc
    · exact hab
    · exact lt_of_lt_of_le hab (List.rel_of_pairwise_cons h.of_cons hc)

theorem mem_variableNames (e : Expr F) (n : String) :
    n ∈ e.variableNames ↔ Spec.Occurs n e := by
  rw [variableNames, mem_vecDedup, List.mem_mergeSort, mem_collectVariables]

theorem variableNames_sorted (e : Expr F) : e.variableNames.Pairwise (· < ·) := by
  apply vecDedup_pairwise
  have := List.pairwise_mergeSort (le := fun (a b : String) => decide (a ≤ b))
    (fun a b c h1 h2 => by simp only [decide_eq_true_eq] at *; exact le_trans h1 h2)
    (fun a b => by simpa using le_total a b) e.collectVariables
  exact this.imp (fun h => by simpa using h)

end Expr

namespace Spec
variable {F : Type}

theorem Sub.of_child {s c e : Expr F} (hc : c ∈ children e) (h : Sub s c) : Sub s e := .step hc h

theorem FiniteConsts.child {c e : Expr XReal} (h : FiniteConsts e) (hc : c ∈ children e) :
    FiniteConsts c := fun k hk => h k (.step hc hk)

theorem NoZeroFactor.child {c e : Expr XReal} (h : NoZeroFactor e) (hc : c ∈ children e) :
    NoZeroFactor c := fun l r hk => h l r (.step hc hk)

theorem NatPowers.child {c e : Expr XReal} (h : NatPowers e) (hc : c ∈ children e) :
    NatPowers c := fun b x hk => h b x (.step hc hk)

theorem Occurs.child {n : String} {c e : Expr F} (h : Occurs n c) (hc : c ∈ children e) :
    Occurs n e := by
  cases e <;> simp only [children, List.not_mem_nil, List.mem_cons, or_false] at hc
  all_goals first
    | (subst hc; constructor; exact h)
    | (rcases hc with rfl | rfl
       · first | exact .addL h | exact .subL h | exact .mulL h | exact .divL h | exact .powL h
       · first | exact .addR h | exact .subR h | exact .mulR h | exact .divR h | exact .powR h)

end Spec
end Verif
