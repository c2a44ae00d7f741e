import Verif.Model.Cache
import Verif.Spec.Printing

/-! Executions of the cached operations by any number of threads. -/

namespace Verif.Spec
open Verif.Cache

/-- One step of some execution: a thread is created, an idle thread begins one of the allowed calls,
or a thread inside a call runs its next section. -/
inductive CacheStep {F : Type} [FloatOps F] (num : F → List Char) (allowed : Call F → Prop) :
    System F → System F → Prop
  | spawn (s : System F) : CacheStep num allowed s { s with threads := s.threads ++ [.idle] }
  | start (s : System F) (i : ℕ) (c : Call F) : s.threads[i]? = some .idle → allowed c →
      CacheStep num allowed s { s with threads := s.threads.set i c.start }
  | run (s s' : System F) (i : ℕ) (p : Phase F) : s.threads[i]? = some p →
      run num s i p = some s' → CacheStep num allowed s s'

/-- States reachable from the initial one. -/
inductive CacheReach {F : Type} [FloatOps F] (num : F → List Char) (allowed : Call F → Prop) :
    System F → Prop
  | init : CacheReach num allowed System.init
  | step {s s' : System F} : CacheReach num allowed s → CacheStep num allowed s s' →
      CacheReach num allowed s'

/-- States reachable from a given one. -/
inductive CacheReachFrom {F : Type} [FloatOps F] (num : F → List Char) (allowed : Call F → Prop)
    (s₀ : System F) : System F → Prop
  | refl : CacheReachFrom num allowed s₀ s₀
  | step {s s' : System F} : CacheReachFrom num allowed s₀ s → CacheStep num allowed s s' →
      CacheReachFrom num allowed s₀ s'

/-- What `format!("{vars:?}")` may print for a map: any text that belongs to this map and to no
other.  The text of a map need not be unique. -/
def DebugText {F : Type} (dbg : FMap String F → List Char → Prop) : Prop :=
  ∀ v v' t, dbg v t → dbg v' t → v = v'

/-- Calls on well named expressions, with a text that belongs to the map. -/
def GoodCall {F : Type} (dbg : FMap String F → List Char → Prop) : Call F → Prop
  | .simplify e => WellNamed e
  | .evaluate e vars t => WellNamed e ∧ dbg vars t
  | .getStats => True
  | .clear => True

/-- Good calls other than clearing. -/
def GoodCallNoClear {F : Type} (dbg : FMap String F → List Char → Prop) (c : Call F) : Prop :=
  GoodCall dbg c ∧ c ≠ .clear

/-- Is it a finished `simplify_cached`? -/
def isSimplify {F : Type} : Call F × Result F → Bool
  | (.simplify _, _) => true
  | _ => false

/-- Is it a finished `evaluate_cached`? -/
def isEvaluate {F : Type} : Call F × Result F → Bool
  | (.evaluate _ _ _, _) => true
  | _ => false

/-- Every thread is outside any call. -/
def Quiescent {F : Type} (s : System F) : Prop := ∀ p ∈ s.threads, p = .idle

end Verif.Spec
