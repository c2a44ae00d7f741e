import Verif.Model.Core

/-!
# Further parts of `measures-core` and `symbolic-math`: panics during cached evaluation,
automatic differentiation, the constant pool
-/

namespace Verif

/-! ### `CachedLogDensity` with a wrapped density that may panic or call back -/

namespace Cached
variable {T F : Type}

/-- What evaluating a wrapped density does: return a value, panic, or call `at` on the same cached
density and go on with what that call gave (`catch_unwind` lets user code go on after a panic). -/
inductive Comp (T F : Type) where
  | ret (v : F)
  | panic (p : Panic)
  | call (x : T) (k : Except Panic F → Comp T F)

/-- `CachedLogDensity`, `measures-core/src/core/density.rs:325-337`: the table and the borrow flag of
the `RefCell`. -/
structure Cell (T F : Type) where
  cache : FMap T F
  borrowed : Bool

/-- The message of a second `borrow_mut`. -/
def borrowError : Panic := ⟨"already borrowed: BorrowMutError"⟩

/-- Run the wrapped density; `callback` is `at` on the same object. -/
def Comp.exec (callback : Cell T F → T → Except Panic F × Cell T F) :
    Comp T F → Cell T F → Except Panic F × Cell T F
  | .ret v, s => (.ok v, s)
  | .panic p, s => (.error p, s)
  | .call x k, s =>
    let r := callback s x
    (k r.1).exec callback r.2

/-- `CachedLogDensity::at`, `measures-core/src/core/density.rs:376-387`: `borrow_mut` panics if the
cell is borrowed; the guard lives until the end of the call and is dropped on unwinding.  The first
argument bounds the nesting of calls. -/
def evalCell [DecidableEq T] (inner : T → Comp T F) : ℕ → Cell T F → T → Except Panic F × Cell T F
  | 0, s, _ => (.error ⟨"stack overflow"⟩, s)
  | n + 1, s, x =>
    if s.borrowed then (.error borrowError, s)
    else
      let s₁ : Cell T F := { s with borrowed := true }
      match s₁.cache.get x with
      | some v => (.ok v, { s₁ with borrowed := false })
      | none =>
        match (inner x).exec (evalCell inner n) s₁ with
        | (.ok v, s₂) => (.ok v, { cache := s₂.cache.insert x v, borrowed := false })
        | (.error p, s₂) => (.error p, { s₂ with borrowed := false })

/-- `CachedLogDensity::new`, `density.rs:343-350`; `cached_for` and `cached`, `density.rs:395-408` -/
def newCell : Cell T F := ⟨FMap.empty, false⟩

/-- A history of calls, each caught by the caller: the results and the final state. -/
def runCell [DecidableEq T] (inner : T → Comp T F) (n : ℕ) :
    Cell T F → List T → List (Except Panic F) × Cell T F
  | s, [] => ([], s)
  | s, x :: xs =>
    let r := evalCell inner n s x
    let rest := runCell inner n r.2 xs
    (r.1 :: rest.1, rest.2)

end Cached

/-! ### `measures-core/src/core/autodiff.rs` -/

namespace AutoDiff
variable {T F : Type}

/-- `LogDensityAD::at_ad`, `measures-core/src/core/autodiff.rs:83-85`; `evalAt` is `at` for the
differentiable number type `T`. -/
def atAd (evalAt : T → T) (x : T) : T := evalAt x

/-- `LogDensityAD::value_and_grad`, `autodiff.rs:87-93` -/
def valueAndGrad (toConstant : T → F) (evalAt : T → T) (x : T) : F × F :=
  let result := atAd evalAt x
  (toConstant result, toConstant result)

/-- `with_reverse_ad` and `with_forward_ad`, `autodiff.rs:102-115` -/
def withAd {M : Type} (m : M) : M := m

/-- `AutoDiffMeasure::ad_log_density`, `autodiff.rs:47-52`: the builder of `log_density()`; the root
measure is the base. -/
def adLogDensity {M X : Type} [Measure M X] (m : M) : M × Measure.Root M := (m, Measure.rootMeasure m)

end AutoDiff

/-! ### `ConstantPool`, `symbolic-math/src/expr.rs:1014-1057` -/

/-- `ConstantPool`, `symbolic-math/src/expr.rs:1016-1026` -/
structure ConstantPool (F : Type) where
  constants : FMap String F
  dependencies : FMap String (List String)
  evaluationOrder : List String
  expressions : FMap String String

namespace ConstantPool
variable {F : Type}

/-- `new`, `expr.rs:1030-1037`, and `default`, `1054-1056` -/
def new : ConstantPool F := ⟨FMap.empty, FMap.empty, [], FMap.empty⟩

/-- `add_constant`, `expr.rs:1040-1050` -/
def addConstant (p : ConstantPool F) (name : String) (value : F) (expression : String)
    (deps : List String) : ConstantPool F :=
  { p with
    constants := p.constants.insert name value
    expressions := p.expressions.insert name expression
    dependencies := p.dependencies.insert name deps }

end ConstantPool
end Verif
