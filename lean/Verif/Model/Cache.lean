import Verif.Model.Printing

/-!
# The global caches of `symbolic-math/src/expr.rs`

Three global mutex-protected values: the simplification cache, the evaluation cache and the
statistics.  Any number of threads call `simplify_cached`, `evaluate_cached`, `get_cache_stats` and
`clear_caches`; each call is split into the sections between lock operations, and the sections of
different threads interleave arbitrarily.

Simplifications: a section that holds one lock and acquires no other is one atomic step (it is
enabled when the lock is free).  The hit paths, which take the statistics lock while holding a cache
lock, are two steps with the cache lock recorded as held in between.  Lock poisoning is not
modelled: no section can panic.  Counters are unbounded.  The `Debug` text of the variable map is an
input of the call, because the iteration order of a `HashMap` is not determined by its contents.
-/

namespace Verif

/-- `CacheStats`, `symbolic-math/src/expr.rs:28-37` -/
structure CacheStats where
  simplificationHits : ℕ
  simplificationMisses : ℕ
  evaluationHits : ℕ
  evaluationMisses : ℕ

namespace CacheStats

/-- `CacheStats::default()`, derived at `symbolic-math/src/expr.rs:27` -/
def default : CacheStats := ⟨0, 0, 0, 0⟩

/-- `CacheStats::simplification_hit_rate`, `symbolic-math/src/expr.rs:42-49` -/
def simplificationHitRate {F : Type} [FloatOps F] (s : CacheStats) : F :=
  let total := s.simplificationHits + s.simplificationMisses
  if total = 0 then FloatOps.zero
  else FloatOps.div (FloatOps.ofNat s.simplificationHits) (FloatOps.ofNat total)

/-- `CacheStats::evaluation_hit_rate`, `symbolic-math/src/expr.rs:53-60` -/
def evaluationHitRate {F : Type} [FloatOps F] (s : CacheStats) : F :=
  let total := s.evaluationHits + s.evaluationMisses
  if total = 0 then FloatOps.zero
  else FloatOps.div (FloatOps.ofNat s.evaluationHits) (FloatOps.ofNat total)

end CacheStats

namespace Cache
variable {F : Type}

/-- The public cached operations. -/
inductive Call (F : Type) where
  | simplify (e : Expr F)
  | evaluate (e : Expr F) (vars : FMap String F) (varsText : List Char)
  | getStats
  | clear

/-- What a finished call returned. -/
inductive Result (F : Type) where
  | expr (e : Expr F)
  | value (r : Except (EvalError F) F)
  | stats (s : CacheStats)
  | unit

/-- Where a thread is within a call. -/
inductive Phase (F : Type) where
  /-- outside any call -/
  | idle
  /-- `simplify_cached` before locking the cache, `expr.rs:557-560` -/
  | simpLookup (e : Expr F)
  /-- hit: holding the cache lock, before locking the statistics, `expr.rs:563` -/
  | simpHit (e r : Expr F)
  /-- miss: cache lock released, before locking the statistics, `expr.rs:570` -/
  | simpMiss (e : Expr F)
  /-- result computed, before locking the cache to store it, `expr.rs:577` -/
  | simpStore (e s : Expr F)
  /-- `evaluate_cached` before locking the cache, `expr.rs:587-590` -/
  | evalLookup (e : Expr F) (vars : FMap String F) (varsText : List Char)
  /-- hit: holding the cache lock, `expr.rs:593` -/
  | evalHit (e : Expr F) (vars : FMap String F) (varsText : List Char) (v : F)
  /-- miss, `expr.rs:600` -/
  | evalMiss (e : Expr F) (vars : FMap String F) (varsText : List Char)
  /-- result computed, before storing it, `expr.rs:607` -/
  | evalStore (e : Expr F) (vars : FMap String F) (varsText : List Char) (v : F)
  /-- `get_cache_stats` before its lock, `expr.rs:68` -/
  | getStats
  /-- `clear_caches` before each of its three locks, `expr.rs:73-75` -/
  | clearSimp
  | clearEval
  | clearStats

/-- The three statics (`symbolic-math/src/expr.rs:18-24, 63-64`), who holds the two cache locks
across steps, the threads, and the finished calls, latest first. -/
structure System (F : Type) where
  simp : FMap (List Char) (Expr F)
  eval : FMap (List Char × List Char) F
  stats : CacheStats
  simpLock : Option ℕ
  evalLock : Option ℕ
  threads : List (Phase F)
  log : List (Call F × Result F)

/-- The statics before first use, `symbolic-math/src/expr.rs:18-24, 63-64`, with no thread. -/
def System.init : System F :=
  ⟨FMap.empty, FMap.empty, .default, none, none, [], []⟩

/-- The first phase of a call. -/
def Call.start : Call F → Phase F
  | .simplify e => .simpLookup e
  | .evaluate e vars varsText => .evalLookup e vars varsText
  | .getStats => .getStats
  | .clear => .clearSimp

/-- Move thread `i` to another phase. -/
def System.goto (s : System F) (i : ℕ) (p : Phase F) : System F :=
  { s with threads := s.threads.set i p }

/-- Thread `i` returns from its call. -/
def System.finish (s : System F) (i : ℕ) (c : Call F) (r : Result F) : System F :=
  { s with threads := s.threads.set i .idle, log := (c, r) :: s.log }

variable [FloatOps F]

/-- One section of thread `i`, which is at phase `p`; `none` when it has to wait for a lock or is
outside any call.  `simplify_cached`: `symbolic-math/src/expr.rs:555-581`; `evaluate_cached`:
`584-612`; `get_cache_stats`: `67-69`; `clear_caches`: `72-76`. -/
def run (num : F → List Char) (s : System F) (i : ℕ) : Phase F → Option (System F)
  | .idle => none
  | .simpLookup e =>
    if s.simpLock.isSome then none
    else match s.simp.get (e.display num) with
      | some r => some ({ s with simpLock := some i }.goto i (.simpHit e r))
      | none => some (s.goto i (.simpMiss e))
  | .simpHit e r =>
    some ({ s with
      stats := { s.stats with simplificationHits := s.stats.simplificationHits + 1 }
      simpLock := none }.finish i (.simplify e) (.expr r))
  | .simpMiss e =>
    some ({ s with
      stats := { s.stats with
        simplificationMisses := s.stats.simplificationMisses + 1 } }.goto i
          (.simpStore e e.simplify))
  | .simpStore e r =>
    if s.simpLock.isSome then none
    else some ({ s with simp := s.simp.insert (e.display num) r }.finish i (.simplify e) (.expr r))
  | .evalLookup e vars vt =>
    if s.evalLock.isSome then none
    else match s.eval.get (e.display num, vt) with
      | some v => some ({ s with evalLock := some i }.goto i (.evalHit e vars vt v))
      | none => some (s.goto i (.evalMiss e vars vt))
  | .evalHit e vars vt v =>
    some ({ s with
      stats := { s.stats with evaluationHits := s.stats.evaluationHits + 1 }
      evalLock := none }.finish i (.evaluate e vars vt) (.value (.ok v)))
  | .evalMiss e vars vt =>
    let s' := { s with
      stats := { s.stats with evaluationMisses := s.stats.evaluationMisses + 1 } }
    match e.evaluate vars with
    | .error err => some (s'.finish i (.evaluate e vars vt) (.value (.error err)))
    | .ok v => some (s'.goto i (.evalStore e vars vt v))
  | .evalStore e vars vt v =>
    if s.evalLock.isSome then none
    else some ({ s with eval := s.eval.insert (e.display num, vt) v }.finish i
      (.evaluate e vars vt) (.value (.ok v)))
  | .getStats => some (s.finish i .getStats (.stats s.stats))
  | .clearSimp =>
    if s.simpLock.isSome then none
    else some ({ s with simp := FMap.empty }.goto i .clearEval)
  | .clearEval =>
    if s.evalLock.isSome then none
    else some ({ s with eval := FMap.empty }.goto i .clearStats)
  | .clearStats => some ({ s with stats := .default }.finish i .clear .unit)

end Cache
end Verif
