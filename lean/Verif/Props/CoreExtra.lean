import Verif.Model.CoreExtra
import Verif.Model.DistContinuous
import Verif.Lemmas.Num
import Mathlib.Analysis.Calculus.Deriv.Pow
import Mathlib.Analysis.Real.Pi.Bounds

/-!
# C84, C85, C87: automatic differentiation, panics during cached evaluation, the constant pool
-/

namespace Verif
open XReal

/-! ### C85 -/
section C85
variable {T F : Type} [DecidableEq T]
open Cached

/-- What a wrapped density gives when every call back to the cached density fails with the borrow
error. -/
def Cached.Comp.outcome : Comp T F → Except Panic F
  | .ret v => .ok v
  | .panic p => .error p
  | .call _ k => (k (.error borrowError)).outcome

theorem exec_borrowed (inner : T → Comp T F) (n : ℕ) (c : Comp T F) (s : Cell T F)
    (hs : s.borrowed = true) : c.exec (evalCell inner (n + 1)) s = (c.outcome, s) := by
  induction c with
  | ret v => rfl
  | panic p => rfl
  | call x k ih =>
    simp only [Comp.exec, Comp.outcome]
    have : evalCell inner (n + 1) s x = (.error borrowError, s) := by simp [evalCell, hs]
    rw [this]
    exact ih _

theorem evalCell_eq (inner : T → Comp T F) (n : ℕ) (s : Cell T F) (x : T)
    (hs : s.borrowed = false) :
    evalCell inner (n + 2) s x =
      match s.cache.get x with
      | some v => (.ok v, s)
      | none =>
        match (inner x).outcome with
        | .ok v => (.ok v, ⟨s.cache.insert x v, false⟩)
        | .error p => (.error p, s) := by
  obtain ⟨c, b⟩ := s
  obtain rfl : b = false := hs
  unfold evalCell
  simp only [Bool.false_eq_true, if_false]
  rw [exec_borrowed inner n (inner x) ⟨c, true⟩ rfl]
  cases c.get x with
  | some v => rfl
  | none => cases (inner x).outcome <;> rfl

/-- **C85**: for every history of calls on one cached density whose wrapped density may panic, each
call gives what the wrapped density gives at that point — its value or its panic —, and afterwards
the table holds exactly the points of the history whose evaluation returned, with their values, and
is not locked. -/
theorem C85_panics_are_not_cached (inner : T → Except Panic F) (xs : List T) (n : ℕ) :
    let density : T → Comp T F := fun x =>
      match inner x with
      | .ok v => .ret v
      | .error p => .panic p
    let r := runCell density (n + 2) newCell xs
    r.1 = xs.map inner ∧ r.2.borrowed = false ∧
      ∀ x v, r.2.cache.get x = some v ↔ x ∈ xs ∧ inner x = .ok v := by
  intro density
  have hout : ∀ x, (density x).outcome = inner x := by
    intro x
    simp only [density]
    cases inner x <;> rfl
  have key : ∀ (xs : List T) (s : Cell T F), s.borrowed = false →
      (∀ x v, s.cache.get x = some v → inner x = .ok v) →
      let r := runCell density (n + 2) s xs
      r.1 = xs.map inner ∧ r.2.borrowed = false ∧
        ∀ x v, r.2.cache.get x = some v ↔
          s.cache.get x = some v ∨ (x ∈ xs ∧ inner x = .ok v) := by
    intro xs
    induction xs with
    | nil => intro s hb hc; simp [runCell, hb]
    | cons y ys ih =>
      intro s hb hc
      simp only [runCell, evalCell_eq density n s y hb, hout]
      cases hy : s.cache.get y with
      | some v =>
        obtain ⟨h1, h2, h3⟩ := ih s hb hc
        have hyv := hc y v hy
        refine ⟨by simp [h1, hyv], h2, fun x w => ?_⟩
        rw [h3]
        constructor
        · rintro (h | ⟨h, h'⟩)
          · exact Or.inl h
          · exact Or.inr ⟨List.mem_cons_of_mem _ h, h'⟩
        · rintro (h | ⟨h, h'⟩)
          · exact Or.inl h
          · rcases List.mem_cons.mp h with rfl | h
            · rw [hyv] at h'
              exact Or.inl (by rw [hy, Except.ok.inj h'])
            · exact Or.inr ⟨h, h'⟩
      | none =>
        cases hi : inner y with
        | ok v =>
          obtain ⟨h1, h2, h3⟩ := ih ⟨s.cache.insert y v, false⟩ rfl (by
            intro x w
            simp only [FMap.insert]
            split_ifs with hx
            · rintro ⟨rfl⟩; rw [hx]; exact hi
            · exact hc x w)
          refine ⟨by simp [h1, hi], h2, fun x w => ?_⟩
          rw [h3]
          simp only [FMap.insert, List.mem_cons]
          by_cases hx : x = y
          · subst hx
            simp only [if_true, Option.some.injEq, hi, Except.ok.injEq, hy, true_or, true_and,
              reduceCtorEq, false_or]
            constructor
            · rintro (h | ⟨-, h⟩) <;> exact h
            · exact Or.inl
          · simp [hx]
        | error p =>
          obtain ⟨h1, h2, h3⟩ := ih s hb hc
          refine ⟨by simp [h1, hi], h2, fun x w => ?_⟩
          rw [h3]
          simp only [List.mem_cons]
          constructor
          · rintro (h | ⟨h, h'⟩)
            · exact Or.inl h
            · exact Or.inr ⟨Or.inr h, h'⟩
          · rintro (h | ⟨rfl | h, h'⟩)
            · exact Or.inl h
            · rw [hi] at h'; cases h'
            · exact Or.inr ⟨h, h'⟩
  obtain ⟨h1, h2, h3⟩ := key xs newCell rfl (by intro x v h; cases h)
  refine ⟨h1, h2, fun x v => ?_⟩
  rw [h3]
  simp [newCell, FMap.empty]

/-- **C85**: a wrapped density that calls back into its own cached density — memoised recursion —
always panics there, even if the point it asks for is already in the table; the call does not
recurse, the table is unchanged and the object stays usable. -/
theorem C85_reentrant_violated (inner : T → Comp T F) (n : ℕ) (s : Cell T F) (x y : T)
    (hs : s.borrowed = false) (hx : s.cache.get x = none)
    (hcall : inner x = .call y (fun r => match r with | .ok v => .ret v | .error p => .panic p)) :
    evalCell inner (n + 2) s x = (.error borrowError, s) := by
  rw [evalCell_eq inner n s x hs, hx, hcall]
  rfl

end C85

/-- a density that is undefined at 0 and doubles elsewhere -/
example : (Cached.runCell (F := ℕ) (fun x : ℕ => if x = 0 then .panic ⟨"zero"⟩ else .ret (2 * x)) 2
    Cached.newCell [3, 0, 3, 0]).1 = [.ok 6, .error ⟨"zero"⟩, .ok 6, .error ⟨"zero"⟩] := by
  rfl

/-- memoised recursion: the value at 1 is in the table, yet asking for it from inside panics -/
example :
    let inner : ℕ → Cached.Comp ℕ ℕ := fun x =>
      if x ≤ 1 then .ret 1
      else .call (x - 1) (fun r => match r with | .ok v => .ret v | .error p => .panic p)
    (Cached.runCell inner 2 Cached.newCell [1, 2]).1 = [.ok 1, .error Cached.borrowError] := by
  rfl

/-! ### C84 -/
section C84
open AutoDiff

/-- **C84**: whatever differentiable number type is used, `value_and_grad` returns the value of the
log-density twice. -/
theorem C84_returns_value_twice {T F : Type} (toConstant : T → F) (evalAt : T → T) (x : T) :
    valueAndGrad toConstant evalAt x = (toConstant (evalAt x), toConstant (evalAt x)) := rfl

/-- So the pair is value and derivative exactly where the two agree. -/
theorem C84_correct_iff_partial {T : Type} (toConstant : T → XReal) (evalAt : T → T) (x : T)
    (f : ℝ → ℝ) (a f' : ℝ) (hval : toConstant (evalAt x) = fin (f a)) (hf : HasDerivAt f f' a) :
    valueAndGrad toConstant evalAt x = (fin (f a), fin (deriv f a)) ↔ f' = f a := by
  rw [C84_returns_value_twice, hval, hf.deriv]
  simp [eq_comm]

/-- A forward-mode number: value and derivative. -/
structure Forward where
  value : XReal
  tangent : XReal

/-- The standard normal log-density on forward-mode numbers: the value by the modelled function, the
derivative by the chain rule, `d/dx log φ(x) = −x`. -/
noncomputable def normalForward (x : Forward) : Forward :=
  ⟨logDensityWrtRoot (⟨fin 0, fin 1⟩ : Normal XReal) x.value,
    FloatOps.mul (FloatOps.neg x.value) x.tangent⟩

/-- **C84**: the second component is not the derivative: for the standard normal at 0 the derivative
of the log-density is 0 — and the forward-mode result carries it — but `value_and_grad` returns
`−½ ln 2π`. -/
theorem C84_gradient_violated :
    let ld : ℝ → ℝ := fun x => -(Real.log (2 * Real.pi)) / 2 - x ^ 2 / 2
    (∀ a : ℝ, (normalForward ⟨fin a, fin 1⟩).value = fin (ld a)) ∧
    (∀ a : ℝ, HasDerivAt ld (-a) a ∧ (normalForward ⟨fin a, fin 1⟩).tangent = fin (-a)) ∧
    (valueAndGrad Forward.value normalForward ⟨fin 0, fin 1⟩).2 ≠ fin (deriv ld 0) := by
  intro ld
  have hval : ∀ a : ℝ, (normalForward ⟨fin a, fin 1⟩).value = fin (ld a) := by
    intro a
    have h2 : (0 : ℝ) < 2 * Real.pi := by positivity
    simp [normalForward, logDensityWrtRoot, f_div, f_ln _ two_pi_pos', f_ln _ one_pos, ld]
    ring
  have hder : ∀ a : ℝ, HasDerivAt ld (-a) a := by
    intro a
    have := ((hasDerivAt_pow 2 a).div_const 2).const_sub (-(Real.log (2 * Real.pi)) / 2)
    refine this.congr_deriv ?_
    simp
  refine ⟨hval, fun a => ⟨hder a, by simp [normalForward]⟩, ?_⟩
  rw [C84_returns_value_twice, hval, (hder 0).deriv]
  have h : Real.log (2 * Real.pi) ≠ 0 := by
    have : (1 : ℝ) < 2 * Real.pi := by
      have := Real.pi_gt_three; linarith
    exact (Real.log_pos this).ne'
  simp [ld, h]

/-- the hypotheses of the partial statement are met, and by a case where the pair is right:
`f x = exp x` -/
example : valueAndGrad (fun x : XReal => x) FloatOps.exp (fin 1) =
    (fin (Real.exp 1), fin (deriv Real.exp 1)) :=
  (C84_correct_iff_partial (fun x => x) FloatOps.exp (fin 1) Real.exp 1 (Real.exp 1) (by simp)
    (Real.hasDerivAt_exp 1)).mpr rfl

end C84

/-! ### C87 -/
section C87
variable {F : Type}

/-- One call of `add_constant`. -/
structure PoolEntry (F : Type) where
  name : String
  value : F
  expression : String
  deps : List String

/-- A pool after a list of `add_constant` calls. -/
def poolOf (es : List (PoolEntry F)) : ConstantPool F :=
  es.foldl (fun p e => p.addConstant e.name e.value e.expression e.deps) ConstantPool.new

/-- The last call for a name. -/
def lastFor (name : String) (es : List (PoolEntry F)) : Option (PoolEntry F) :=
  es.reverse.find? (fun e => e.name = name)

/-- **C87**: after any list of calls the pool gives, for every name, the value, the expression and
the dependencies of the last call for that name, and nothing for other names. -/
theorem C87_latest_wins (es : List (PoolEntry F)) (name : String) :
    (poolOf es).constants.get name = (lastFor name es).map (·.value) ∧
    (poolOf es).expressions.get name = (lastFor name es).map (·.expression) ∧
    (poolOf es).dependencies.get name = (lastFor name es).map (·.deps) := by
  induction es using List.reverseRecOn with
  | nil => simp [poolOf, lastFor, ConstantPool.new, FMap.empty]
  | append_singleton es e ih =>
    have h : poolOf (es ++ [e]) =
        (poolOf es).addConstant e.name e.value e.expression e.deps := by
      simp [poolOf]
    rw [h]
    have hl : lastFor name (es ++ [e]) = if e.name = name then some e else lastFor name es := by
      simp only [lastFor, List.reverse_append, List.reverse_cons, List.reverse_nil, List.nil_append,
        List.singleton_append, List.find?_cons]
      by_cases hn : e.name = name <;> simp [hn]
    rw [hl]
    simp only [ConstantPool.addConstant, FMap.insert]
    by_cases hn : e.name = name
    · simp [hn]
    · simp [hn, Ne.symm hn, ih]

/-- **C87**: `evaluation_order`, documented as the topological order of the constants, stays empty
whatever is added. -/
theorem C87_order_violated (es : List (PoolEntry F)) : (poolOf es).evaluationOrder = [] := by
  induction es using List.reverseRecOn with
  | nil => rfl
  | append_singleton es e ih => simpa [poolOf, ConstantPool.addConstant] using ih

/-- two constants, one of them replaced; the order does not list them -/
example :
    let p := poolOf [⟨"a", 1, "1", []⟩, ⟨"b", 2, "a+a", ["a"]⟩, ⟨"a", (5 : ℕ), "5", []⟩]
    p.constants.get "a" = some 5 ∧ p.constants.get "b" = some 2 ∧
      p.dependencies.get "b" = some ["a"] ∧ p.evaluationOrder = [] := by
  refine ⟨by decide, by decide, by decide, rfl⟩

end C87
end Verif
