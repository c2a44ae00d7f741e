import Verif.Props.Cache
import Verif.Lemmas.Simplify

/-! C77: locking of the global caches; executions exhibiting the hypotheses and the failure of C50
for variables called `inf`. -/

namespace Verif
open Spec Cache

variable {F : Type} [FloatOps F] {num : F → List Char} {allowed : Call F → Prop}

/-- The recorded lock holders are exactly the threads inside a hit section. -/
structure LockInv (s : System F) : Prop where
  simp : ∀ i, s.simpLock = some i ↔ ∃ e r, s.threads[i]? = some (.simpHit e r)
  eval : ∀ i, s.evalLock = some i ↔ ∃ e vars t v, s.threads[i]? = some (.evalHit e vars t v)

omit [FloatOps F] in
theorem getElem?_set_iff {l : List (Phase F)} {i j : ℕ} {p q x : Phase F} (h : l[i]? = some p) :
    (l.set i q)[j]? = some x ↔ (j = i ∧ x = q) ∨ (j ≠ i ∧ l[j]? = some x) := by
  have hi : i < l.length := by
    by_contra hc
    rw [List.getElem?_eq_none (by omega)] at h; cases h
  rw [List.getElem?_set]
  by_cases hj : i = j
  · subst hj; simp [hi, eq_comm]
  · simp [hj, Ne.symm hj]

theorem lockInv {s : System F} (h : CacheReach num allowed s) : LockInv s := by
  induction h with
  | init => exact ⟨by simp [System.init], by simp [System.init]⟩
  | step _ hs I =>
    obtain ⟨i1, i2⟩ := I
    cases hs with
    | spawn =>
      refine ⟨fun j => ?_, fun j => ?_⟩
      · rw [i1 j]
        constructor
        · rintro ⟨e, r, h⟩
          refine ⟨e, r, ?_⟩
          rw [List.getElem?_append_left]
          · exact h
          · by_contra hc
            rw [List.getElem?_eq_none (by omega)] at h; cases h
        · rintro ⟨e, r, h⟩
          refine ⟨e, r, ?_⟩
          rw [List.getElem?_append] at h
          split_ifs at h
          · exact h
          · rw [List.getElem?_singleton] at h
            split_ifs at h; cases h
      · rw [i2 j]
        constructor
        · rintro ⟨e, vars, t, v, h⟩
          refine ⟨e, vars, t, v, ?_⟩
          rw [List.getElem?_append_left]
          · exact h
          · by_contra hc
            rw [List.getElem?_eq_none (by omega)] at h; cases h
        · rintro ⟨e, vars, t, v, h⟩
          refine ⟨e, vars, t, v, ?_⟩
          rw [List.getElem?_append] at h
          split_ifs at h
          · exact h
          · rw [List.getElem?_singleton] at h
            split_ifs at h; cases h
    | start i c hi hc =>
      refine ⟨fun j => ?_, fun j => ?_⟩
      · rw [i1 j]
        simp only [getElem?_set_iff hi]
        by_cases hj : j = i
        · subst hj
          rw [hi]
          cases c <;> simp [Call.start]
        · simp [hj]
      · rw [i2 j]
        simp only [getElem?_set_iff hi]
        by_cases hj : j = i
        · subst hj
          rw [hi]
          cases c <;> simp [Call.start]
        · simp [hj]
    | run _ i p hp hr =>
      have a1 := i1 i
      have a2 := i2 i
      rw [hp] at a1 a2
      cases p <;> simp only [Cache.run] at hr <;>
        (try split_ifs at hr) <;> (try split at hr) <;> cases hr <;>
        (refine ⟨fun j => ?_, fun j => ?_⟩ <;>
          have b1 := i1 j <;> have b2 := i2 j <;>
          simp only [System.goto, System.finish, getElem?_set_iff hp] <;>
          rcases eq_or_ne j i with rfl | hj <;>
          simp_all <;> intros <;> intro hx <;>
          first
            | exact hj hx.symm
            | exact hj (Option.some.inj (((i1 j).2 ⟨_, _, hx⟩).symm.trans ((i1 i).2 ⟨_, _, hp⟩)))
            | exact hj (Option.some.inj
                (((i2 j).2 ⟨_, _, _, _, hx⟩).symm.trans ((i2 i).2 ⟨_, _, _, _, hp⟩))))

/-- At most one thread is inside the section that reads a cached simplification and counts the hit,
and likewise for evaluation. -/
theorem C77_mutual_exclusion {s : System F} (h : CacheReach num allowed s) :
    (∀ (i j : ℕ) (e r e' r' : Expr F), s.threads[i]? = some (.simpHit e r) → s.threads[j]? = some (.simpHit e' r') →
      i = j) ∧
    (∀ (i j : ℕ) (e : Expr F) vars t v (e' : Expr F) vars' t' v', s.threads[i]? = some (.evalHit e vars t v) →
      s.threads[j]? = some (.evalHit e' vars' t' v') → i = j) := by
  obtain ⟨i1, i2⟩ := lockInv h
  refine ⟨fun i j e r e' r' h1 h2 => ?_, fun i j e vars t v e' vars' t' v' h1 h2 => ?_⟩
  · have a := (i1 i).mpr ⟨e, r, h1⟩
    have b := (i1 j).mpr ⟨e', r', h2⟩
    rw [a] at b; exact Option.some.inj b
  · have a := (i2 i).mpr ⟨e, vars, t, v, h1⟩
    have b := (i2 j).mpr ⟨e', vars', t', v', h2⟩
    rw [a] at b; exact Option.some.inj b

/-- No deadlock: in every reachable state, if some thread is inside a call then some thread can
run. -/
theorem C77_no_deadlock {s : System F} (h : CacheReach num allowed s) (hw : ¬ Quiescent s) :
    ∃ i p s', s.threads[i]? = some p ∧ run num s i p = some s' := by
  obtain ⟨i1, i2⟩ := lockInv h
  cases hl1 : s.simpLock with
  | some i =>
    obtain ⟨e, r, hi⟩ := (i1 i).mp hl1
    exact ⟨i, _, _, hi, rfl⟩
  | none =>
    cases hl2 : s.evalLock with
    | some i =>
      obtain ⟨e, vars, t, v, hi⟩ := (i2 i).mp hl2
      exact ⟨i, _, _, hi, rfl⟩
    | none =>
      have : ∃ p ∈ s.threads, p ≠ .idle := by
        by_contra hc
        push Not at hc
        exact hw hc
      obtain ⟨p, hp, hne⟩ := this
      obtain ⟨i, hi⟩ := List.mem_iff_getElem?.mp hp
      refine ⟨i, p, ?_⟩
      cases p with
      | idle => exact absurd rfl hne
      | simpLookup e =>
        cases hg : s.simp.get (e.display num) with
        | none => exact ⟨_, hi, by simp only [Cache.run, hl1, hg]; rfl⟩
        | some r => exact ⟨_, hi, by simp only [Cache.run, hl1, hg]; rfl⟩
      | evalLookup e vars t =>
        cases hg : s.eval.get (e.display num, t) with
        | none => exact ⟨_, hi, by simp only [Cache.run, hl2, hg]; rfl⟩
        | some r => exact ⟨_, hi, by simp only [Cache.run, hl2, hg]; rfl⟩
      | evalMiss e vars t =>
        cases hg : e.evaluate vars with
        | error r => exact ⟨_, hi, by simp only [Cache.run, hg]; rfl⟩
        | ok r => exact ⟨_, hi, by simp only [Cache.run, hg]; rfl⟩
      | simpStore e r => exact ⟨_, hi, by simp only [Cache.run, hl1]; rfl⟩
      | evalStore e vars t v => exact ⟨_, hi, by simp only [Cache.run, hl2]; rfl⟩
      | clearSimp => exact ⟨_, hi, by simp only [Cache.run, hl1]; rfl⟩
      | clearEval => exact ⟨_, hi, by simp only [Cache.run, hl2]; rfl⟩
      | simpHit e r => exact ⟨_, hi, rfl⟩
      | simpMiss e => exact ⟨_, hi, rfl⟩
      | evalHit e vars t v => exact ⟨_, hi, rfl⟩
      | getStats => exact ⟨_, hi, rfl⟩
      | clearStats => exact ⟨_, hi, rfl⟩

/-- Sections left before the thread returns. -/
def work : Phase F → ℕ
  | .idle => 0
  | .simpLookup _ => 3
  | .simpHit _ _ => 1
  | .simpMiss _ => 2
  | .simpStore _ _ => 1
  | .evalLookup _ _ _ => 3
  | .evalHit _ _ _ _ => 1
  | .evalMiss _ _ _ => 2
  | .evalStore _ _ _ _ => 1
  | .getStats => 1
  | .clearSimp => 3
  | .clearEval => 2
  | .clearStats => 1

omit [FloatOps F] in
theorem sum_set (l : List (Phase F)) (i : ℕ) (p q : Phase F) (h : l[i]? = some p) :
    ((l.set i q).map work).sum + work p = (l.map work).sum + work q := by
  induction l generalizing i with
  | nil => simp at h
  | cons a l ih =>
    cases i with
    | zero => simp at h; subst h; simp; omega
    | succ i =>
      simp at h
      have := ih i h
      simp only [List.set_cons_succ, List.map_cons, List.sum_cons]; omega

theorem run_decreases {s s' : System F} {i : ℕ} {p : Phase F} (hp : s.threads[i]? = some p)
    (hr : run num s i p = some s') :
    (s'.threads.map work).sum < (s.threads.map work).sum := by
  have h0 := sum_set s.threads i p .idle hp
  have h := fun q => Nat.eq_sub_of_add_eq (sum_set s.threads i p q hp)
  cases p <;> simp only [Cache.run] at hr <;>
    (try split_ifs at hr) <;> (try split at hr) <;> cases hr <;>
    simp only [System.goto, System.finish, h, work] at h0 ⊢ <;> omega

/-- A sequence of `n` sections run by any threads, with no new call begun. -/
inductive RunSteps (num : F → List Char) : ℕ → System F → System F → Prop
  | nil (s : System F) : RunSteps num 0 s s
  | cons {n : ℕ} {s s1 s2 : System F} (i : ℕ) (p : Phase F) : s.threads[i]? = some p →
      run num s i p = some s1 → RunSteps num n s1 s2 → RunSteps num (n + 1) s s2

/-- Every schedule finishes every call: with no new calls begun, any schedule runs at most three
sections per thread, and where it can go no further all calls have returned. -/
theorem C77_all_calls_return {s s' : System F} (h : CacheReach num allowed s) {n : ℕ}
    (hs : RunSteps num n s s') :
    n ≤ 3 * s.threads.length ∧
    ((∀ i p s'', s'.threads[i]? = some p → run num s' i p ≠ some s'') → Quiescent s') := by
  constructor
  · have h1 : ∀ l : List (Phase F), (l.map work).sum ≤ 3 * l.length := by
      intro l
      induction l with
      | nil => simp
      | cons p l ih =>
        have : work p ≤ 3 := by cases p <;> simp [work]
        simp only [List.map_cons, List.sum_cons, List.length_cons]; omega
    have h2 : n ≤ (s.threads.map work).sum := by
      clear h h1
      induction hs with
      | nil => omega
      | cons i p hp hr _ ih => have := run_decreases hp hr; omega
    exact h2.trans (h1 _)
  · intro hstuck
    have hreach : CacheReach num allowed s' := by
      induction hs with
      | nil => exact h
      | cons i p hp hr _ ih => exact ih (.step h (.run _ _ i p hp hr)) hstuck
    by_contra hq
    obtain ⟨i, p, s'', hp, hr⟩ := C77_no_deadlock hreach hq
    exact hstuck i p s'' hp hr

/-! ### executions -/

/-! ### clearing -/

/-- A step in which some `clear_caches` call returns leaves all counters at zero, whatever other
threads are doing. -/
theorem C52_clear_zeroes_counters {s s' : System F} {i : ℕ} {p : Phase F} {r : Result F}
    (hr : run num s i p = some s') (hl : s'.log = (.clear, r) :: s.log) :
    s'.stats = ⟨0, 0, 0, 0⟩ := by
  cases p <;> simp only [Cache.run] at hr <;>
    (try split_ifs at hr) <;> (try split at hr) <;> cases hr <;>
    simp_all [System.goto, System.finish, CacheStats.default]

theorem quiescent_locks {s : System F} (h : CacheReach num allowed s) (hq : Quiescent s) :
    s.simpLock = none ∧ s.evalLock = none := by
  obtain ⟨i1, i2⟩ := lockInv h
  constructor
  · cases hl : s.simpLock with
    | none => rfl
    | some i =>
      obtain ⟨e, r, hi⟩ := (i1 i).mp hl
      have := hq _ (List.mem_of_getElem? hi); cases this
  · cases hl : s.evalLock with
    | none => rfl
    | some i =>
      obtain ⟨e, v, t, x, hi⟩ := (i2 i).mp hl
      have := hq _ (List.mem_of_getElem? hi); cases this

/-- `clear_caches` called while no other call is in progress: it returns, and afterwards both caches
are empty and all counters zero. -/
theorem C52_clear_empties {s : System F} (h : CacheReach num allowed s) (hq : Quiescent s) {i : ℕ}
    (hi : i < s.threads.length) :
    ∃ s', RunSteps num 3 { s with threads := s.threads.set i Call.clear.start } s' ∧
      Quiescent s' ∧ (∀ k, s'.simp.get k = none) ∧ (∀ k, s'.eval.get k = none) ∧
      s'.stats = ⟨0, 0, 0, 0⟩ ∧ s'.log = (.clear, .unit) :: s.log := by
  obtain ⟨l1, l2⟩ := quiescent_locks h hq
  have q1 : ∀ q : Phase F, (s.threads.set i q)[i]? = some q := fun q => by simp [hi]
  refine ⟨({ s with simp := FMap.empty, eval := FMap.empty, stats := .default } : System F).finish i
    .clear .unit, ?_, ?_, fun _ => rfl, fun _ => rfl, rfl, rfl⟩
  · refine .cons i _ (q1 _) (s1 := ({ s with simp := FMap.empty } : System F).goto i .clearEval) ?_ ?_
    · simp [Cache.run, Call.start, l1, System.goto]
    · refine .cons i _ (q1 _) (s1 := ({ s with
        simp := FMap.empty, eval := FMap.empty } : System F).goto i .clearStats) ?_ ?_
      · simp [Cache.run, l2, System.goto]
      · refine .cons i _ (q1 _) (s1 := ({ s with
          simp := FMap.empty, eval := FMap.empty, stats := .default } : System F).finish i
          .clear .unit) ?_ (.nil _)
        simp [Cache.run, System.goto, System.finish]
  · exact forall_set hq rfl

/-- Counting starts again after a clear: from any moment at which no call is in progress and the
counters are zero, after any further execution without clears in which every call has returned, hits
plus misses is the number of calls finished since then. -/
theorem C52_counts_since_clear (ha : ∀ c, allowed c → c ≠ .clear) {s₀ s : System F}
    (h0 : Quiescent s₀) (hz : s₀.stats = ⟨0, 0, 0, 0⟩) (h : CacheReachFrom num allowed s₀ s)
    (hq : Quiescent s) :
    s.stats.simplificationHits + s.stats.simplificationMisses + s₀.log.countP isSimplify =
      s.log.countP isSimplify ∧
    s.stats.evaluationHits + s.stats.evaluationMisses + s₀.log.countP isEvaluate =
      s.log.countP isEvaluate := by
  have idle1 : ∀ {s : System F}, Quiescent s → s.threads.countP pendingSimp = 0 := fun hq => by
    rw [List.countP_eq_zero]; intro p hp; rw [hq p hp]; simp [pendingSimp]
  have idle2 : ∀ {s : System F}, Quiescent s → s.threads.countP pendingEval = 0 := fun hq => by
    rw [List.countP_eq_zero]; intro p hp; rw [hq p hp]; simp [pendingEval]
  suffices (s.stats.simplificationHits + s.stats.simplificationMisses + s₀.log.countP isSimplify =
        s.log.countP isSimplify + s.threads.countP pendingSimp) ∧
      (s.stats.evaluationHits + s.stats.evaluationMisses + s₀.log.countP isEvaluate =
        s.log.countP isEvaluate + s.threads.countP pendingEval) ∧
      ∀ p ∈ s.threads, clearing p = false by
    rw [idle1 hq, idle2 hq] at this
    exact ⟨this.1, this.2.1⟩
  clear hq
  induction h with
  | refl =>
    rw [hz, idle1 h0, idle2 h0]
    refine ⟨by simp, by simp, fun p hp => ?_⟩
    rw [h0 p hp]; rfl
  | step _ hs I =>
    obtain ⟨h3, h4, h5⟩ := I
    cases hs with
    | spawn =>
      refine ⟨?_, ?_, ?_⟩
      · simpa [pendingSimp] using h3
      · simpa [pendingEval] using h4
      · intro p hp
        rcases List.mem_append.mp hp with hp | hp
        · exact h5 p hp
        · rw [List.mem_singleton.mp hp]; rfl
    | start i c hi hc =>
      have h1 := countP_set pendingSimp _ i _ c.start hi
      have h2 := countP_set pendingEval _ i _ c.start hi
      cases c with
      | clear => exact absurd rfl (ha _ hc)
      | _ =>
        simp [pendingSimp, pendingEval, Call.start] at h1 h2
        refine ⟨?_, ?_, ?_⟩
        · simp only [Call.start]; omega
        · simp only [Call.start]; omega
        · exact forall_set h5 rfl
    | run _ i p hp hr =>
      have h6 := h5 p (List.mem_of_getElem? hp)
      have a1 := countP_set pendingSimp _ i p .idle hp
      have a2 := countP_set pendingEval _ i p .idle hp
      have h1 := fun q => Nat.eq_sub_of_add_eq (countP_set pendingSimp _ i p q hp)
      have h2 := fun q => Nat.eq_sub_of_add_eq (countP_set pendingEval _ i p q hp)
      cases p <;> simp [clearing] at h6 <;> simp only [Cache.run] at hr <;>
        (try split_ifs at hr) <;> (try split at hr) <;> cases hr <;>
        (refine ⟨?_, ?_, forall_set h5 rfl⟩ <;>
        simp only [System.goto, System.finish, List.countP_cons, isSimplify, isEvaluate,
          Bool.false_eq_true, if_true, if_false, h1, h2, pendingSimp, pendingEval] at a1 a2 ⊢ <;>
        omega)

example : ∃ s : System F, CacheReach num (fun _ => True) s ∧ Quiescent s ∧ 0 < s.threads.length :=
  ⟨_, .step .init (.spawn _), by simp [Quiescent, System.init], by simp [System.init]⟩

/-- The states of one thread calling `simplify_cached(e)` twice, `e` not yet cached. -/
theorem reach_two_calls {e e' : Expr F} (h1 : allowed (.simplify e)) (h2 : allowed (.simplify e'))
    (hk : e.display num = e'.display num) :
    ∃ s, CacheReach num allowed s ∧ Quiescent s ∧ s.log =
      [(.simplify e', .expr e.simplify), (.simplify e, .expr e.simplify)] := by
  have r0 : CacheReach num allowed (System.init : System F) := .init
  have r1 := CacheReach.step r0 (.spawn _)
  have r2 := CacheReach.step r1 (.start _ 0 (.simplify e) rfl h1)
  have r3 := CacheReach.step r2 (.run _ _ 0 (.simpLookup e) rfl rfl)
  have r4 := CacheReach.step r3 (.run _ _ 0 (.simpMiss e) rfl rfl)
  have r5 := CacheReach.step r4 (.run _ _ 0 (.simpStore e e.simplify) rfl rfl)
  have r6 := CacheReach.step r5 (.start _ 0 (.simplify e') rfl h2)
  have r7 := CacheReach.step r6 (.run _ _ 0 (.simpLookup e') rfl
    (by simp only [Cache.run, System.finish, FMap.insert, hk]; rfl))
  have r8 := CacheReach.step r7 (.run _ _ 0 (.simpHit e' e.simplify) rfl rfl)
  refine ⟨_, r8, ?_, rfl⟩
  intro p hp
  exact List.mem_singleton.mp hp

/-- A state meeting the hypotheses of C50 with two finished calls, the second one a hit. -/
example (e : Expr F) (he : WellNamed e) (dbg : FMap String F → List Char → Prop) :
    ∃ s, CacheReach num (GoodCall dbg) s ∧ Quiescent s ∧ s.log =
      [(.simplify e, .expr e.simplify), (.simplify e, .expr e.simplify)] :=
  reach_two_calls he he rfl

/-- The cache confuses a variable called `inf` with the literal infinity: after
`simplify_cached(∞)`, `simplify_cached` of the variable `inf` returns the literal. -/
theorem C50_inf_violated (hinf : num FloatOps.inf = ['i', 'n', 'f']) :
    ∃ s, CacheReach num (fun _ => True) s ∧
      (.simplify (.var "inf"), .expr (.const FloatOps.inf)) ∈ s.log ∧
      (Expr.var "inf" : Expr F).simplify = .var "inf" := by
  obtain ⟨s, h1, _, h3⟩ := reach_two_calls (allowed := fun _ => True) (e := .const FloatOps.inf)
    (e' := .var "inf") trivial trivial (C54_inf_violated (num := num) hinf).2.2
  refine ⟨s, h1, ?_, Expr.simplify_var _⟩
  rw [h3, Expr.simplify_const]
  simp

/-- One thread calling `evaluate_cached` on two expressions with the same text and the same variable map, the
first evaluation succeeding. -/
theorem reach_two_evaluations {e e' : Expr F} {vars : FMap String F} {t : List Char} {v : F}
    (h1 : allowed (.evaluate e vars t)) (h2 : allowed (.evaluate e' vars t))
    (hk : e.display num = e'.display num) (hv : e.evaluate vars = .ok v) :
    ∃ s, CacheReach num allowed s ∧ Quiescent s ∧ s.log =
      [(.evaluate e' vars t, .value (.ok v)), (.evaluate e vars t, .value (.ok v))] := by
  have r0 : CacheReach num allowed (System.init : System F) := .init
  have r1 := CacheReach.step r0 (.spawn _)
  have r2 := CacheReach.step r1 (.start _ 0 (.evaluate e vars t) rfl h1)
  have r3 := CacheReach.step r2 (.run _ _ 0 (.evalLookup e vars t) rfl rfl)
  have r4 := CacheReach.step r3 (.run _ _ 0 (.evalMiss e vars t) rfl (by simp only [Cache.run, hv]; rfl))
  have r5 := CacheReach.step r4 (.run _ _ 0 (.evalStore e vars t v) rfl rfl)
  have r6 := CacheReach.step r5 (.start _ 0 (.evaluate e' vars t) rfl h2)
  have r7 := CacheReach.step r6 (.run _ _ 0 (.evalLookup e' vars t) rfl
    (by simp only [Cache.run, System.finish, FMap.insert, hk]; rfl))
  have r8 := CacheReach.step r7 (.run _ _ 0 (.evalHit e' vars t v) rfl rfl)
  refine ⟨_, r8, ?_, rfl⟩
  intro p hp
  exact List.mem_singleton.mp hp

/-- A state meeting the hypotheses of C51 with two finished calls, the second one a hit. -/
example (c : F) (vars : FMap String F) (t : List Char) (dbg : FMap String F → List Char → Prop) (ht : dbg vars t) :
    ∃ s, CacheReach num (GoodCall dbg) s ∧ Quiescent s ∧ s.log =
      [(.evaluate (.const c) vars t, .value (.ok c)), (.evaluate (.const c) vars t, .value (.ok c))] :=
  reach_two_evaluations ⟨fun _ h => (nomatch h), ht⟩ ⟨fun _ h => (nomatch h), ht⟩ rfl rfl

/-- The evaluation cache makes the same confusions: after `evaluate_cached(∞)`, the variable `inf`, although
it has no value, evaluates to infinity; and after evaluating a variable whose name reads `(a + b)`, the sum of
the undefined variables `a` and `b` has a value. -/
theorem C51_collision_violated (hinf : num FloatOps.inf = ['i', 'n', 'f']) (x : F) (t : List Char) :
    (∃ s, CacheReach num (fun _ => True) s ∧
      (.evaluate (.var "inf") FMap.empty t, .value (.ok FloatOps.inf)) ∈ s.log ∧
      ∃ err, (Expr.var "inf" : Expr F).evaluate FMap.empty = .error err) ∧
    ∃ s, CacheReach num (fun _ => True) s ∧
      (.evaluate (.add (.var "a") (.var "b")) (FMap.empty.insert "(a + b)" x) t, .value (.ok x)) ∈ s.log ∧
      ∃ err, (Expr.add (.var "a") (.var "b") : Expr F).evaluate (FMap.empty.insert "(a + b)" x) = .error err := by
  constructor
  · obtain ⟨s, h1, _, h3⟩ := reach_two_evaluations (allowed := fun _ => True) (e := .const FloatOps.inf)
      (e' := .var "inf") (vars := FMap.empty) (t := t) trivial trivial (C54_inf_violated (num := num) hinf).2.2 rfl
    exact ⟨s, h1, by rw [h3]; simp, _, rfl⟩
  · obtain ⟨s, h1, _, h3⟩ := reach_two_evaluations (num := num) (allowed := fun _ => True) (e := .var "(a + b)")
      (e' := .add (.var "a") (.var "b")) (vars := FMap.empty.insert "(a + b)" x) (t := t) (v := x) trivial trivial
      (by rfl) (by simp [Expr.evaluate, FMap.insert])
    exact ⟨s, h1, by rw [h3]; simp, _, by simp [Expr.evaluate, FMap.insert, FMap.empty]; rfl⟩

end Verif
