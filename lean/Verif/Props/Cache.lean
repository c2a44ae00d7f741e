import Verif.Spec.Cache
import Verif.Props.Printing

/-! C50–C52, C79: the global caches. -/

namespace Verif
open Spec Cache

variable {F : Type} [FloatOps F] {num : F → List Char} {dbg : FMap String F → List Char → Prop}

/-- What is known about a thread inside a call. -/
def PhaseOk (dbg : FMap String F → List Char → Prop) : Phase F → Prop
  | .idle => True
  | .simpLookup e => WellNamed e
  | .simpHit e r => WellNamed e ∧ r = e.simplify
  | .simpMiss e => WellNamed e
  | .simpStore e r => WellNamed e ∧ r = e.simplify
  | .evalLookup e vars t => WellNamed e ∧ dbg vars t
  | .evalHit e vars t v => WellNamed e ∧ dbg vars t ∧ e.evaluate vars = .ok v
  | .evalMiss e vars t => WellNamed e ∧ dbg vars t
  | .evalStore e vars t v => WellNamed e ∧ dbg vars t ∧ e.evaluate vars = .ok v
  | .getStats => True
  | .clearSimp => True
  | .clearEval => True
  | .clearStats => True

/-- What a finished call must have returned. -/
def ResultOk : Call F × Result F → Prop
  | (.simplify e, r) => r = .expr e.simplify
  | (.evaluate e vars _, r) => r = .value (e.evaluate vars)
  | _ => True

/-- The invariant behind transparency. -/
structure CacheInv (num : F → List Char) (dbg : FMap String F → List Char → Prop) (s : System F) :
    Prop where
  simp : ∀ e r, WellNamed e → s.simp.get (e.display num) = some r → r = e.simplify
  eval : ∀ e vars t v, WellNamed e → dbg vars t → s.eval.get (e.display num, t) = some v →
    e.evaluate vars = .ok v
  threads : ∀ p ∈ s.threads, PhaseOk dbg p
  log : ∀ x ∈ s.log, ResultOk x

theorem mem_set {α : Type} {l : List α} {i : ℕ} {a x : α} (h : x ∈ l.set i a) : x ∈ l ∨ x = a :=
  List.mem_or_eq_of_mem_set h

omit [FloatOps F] in
theorem forall_set {P : Phase F → Prop} {l : List (Phase F)} {i : ℕ} {q : Phase F}
    (h : ∀ p ∈ l, P p) (hq : P q) : ∀ p ∈ l.set i q, P p := fun p hp =>
  (mem_set hp).elim (h p) (fun h => h ▸ hq)

theorem CacheInv.run {s s' : System F} {i : ℕ} {p : Phase F} (hd : RustDisplay num)
    (hdbg : DebugText dbg) (I : CacheInv num dbg s) (hp : s.threads[i]? = some p)
    (h : Cache.run num s i p = some s') : CacheInv num dbg s' := by
  have hpo := I.threads p (List.mem_of_getElem? hp)
  cases p with
  | idle => simp [Cache.run] at h
  | simpLookup e =>
    simp only [Cache.run] at h
    split_ifs at h
    split at h <;> cases h
    · rename_i r hr
      exact ⟨I.simp, I.eval, forall_set I.threads ⟨hpo, I.simp e r hpo hr⟩, I.log⟩
    · exact ⟨I.simp, I.eval, forall_set I.threads hpo, I.log⟩
  | simpHit e r =>
    simp only [Cache.run] at h
    cases h
    refine ⟨I.simp, I.eval, forall_set I.threads trivial, ?_⟩
    intro x hx
    rcases List.mem_cons.mp hx with rfl | hx
    · rw [hpo.2]; rfl
    · exact I.log x hx
  | simpMiss e =>
    simp only [Cache.run] at h
    cases h
    exact ⟨I.simp, I.eval, forall_set I.threads ⟨hpo, rfl⟩, I.log⟩
  | simpStore e r =>
    simp only [Cache.run] at h
    split_ifs at h
    cases h
    refine ⟨?_, I.eval, forall_set I.threads trivial, ?_⟩
    · intro e' r' he' hr'
      simp only [System.finish, FMap.insert] at hr'
      split_ifs at hr' with hk
      · cases hr'
        rw [C54_display_injective hd e' e he' hpo.1 hk, hpo.2]
      · exact I.simp e' r' he' hr'
    · intro x hx
      rcases List.mem_cons.mp hx with rfl | hx
      · rw [hpo.2]; rfl
      · exact I.log x hx
  | evalLookup e vars t =>
    simp only [Cache.run] at h
    split_ifs at h
    split at h <;> cases h
    · rename_i v hv
      exact ⟨I.simp, I.eval, forall_set I.threads ⟨hpo.1, hpo.2, I.eval e vars t v hpo.1 hpo.2 hv⟩,
        I.log⟩
    · exact ⟨I.simp, I.eval, forall_set I.threads hpo, I.log⟩
  | evalHit e vars t v =>
    simp only [Cache.run] at h
    cases h
    refine ⟨I.simp, I.eval, forall_set I.threads trivial, ?_⟩
    intro x hx
    rcases List.mem_cons.mp hx with rfl | hx
    · show _ = _; rw [hpo.2.2]
    · exact I.log x hx
  | evalMiss e vars t =>
    simp only [Cache.run] at h
    split at h <;> cases h
    · rename_i err herr
      refine ⟨I.simp, I.eval, forall_set I.threads trivial, ?_⟩
      intro x hx
      rcases List.mem_cons.mp hx with rfl | hx
      · show _ = _; rw [herr]
      · exact I.log x hx
    · rename_i v hv
      exact ⟨I.simp, I.eval, forall_set I.threads ⟨hpo.1, hpo.2, hv⟩, I.log⟩
  | evalStore e vars t v =>
    simp only [Cache.run] at h
    split_ifs at h
    cases h
    refine ⟨I.simp, ?_, forall_set I.threads trivial, ?_⟩
    · intro e' vars' t' v' he' ht' hv'
      simp only [System.finish, FMap.insert, Prod.mk.injEq] at hv'
      split_ifs at hv' with hk
      · cases hv'
        obtain ⟨hk1, rfl⟩ := hk
        rw [C54_display_injective hd e' e he' hpo.1 hk1, hdbg vars' vars t' ht' hpo.2.1, hpo.2.2]
      · exact I.eval e' vars' t' v' he' ht' hv'
    · intro x hx
      rcases List.mem_cons.mp hx with rfl | hx
      · show _ = _; rw [hpo.2.2]
      · exact I.log x hx
  | getStats =>
    simp only [Cache.run] at h
    cases h
    refine ⟨I.simp, I.eval, forall_set I.threads trivial, ?_⟩
    intro x hx
    rcases List.mem_cons.mp hx with rfl | hx
    · trivial
    · exact I.log x hx
  | clearSimp =>
    simp only [Cache.run] at h
    split_ifs at h
    cases h
    exact ⟨fun e r _ hr => by simp [System.goto, FMap.empty] at hr, I.eval,
      forall_set I.threads trivial, I.log⟩
  | clearEval =>
    simp only [Cache.run] at h
    split_ifs at h
    cases h
    exact ⟨I.simp, fun e _ t v _ _ hv => by simp [System.goto, FMap.empty] at hv,
      forall_set I.threads trivial, I.log⟩
  | clearStats =>
    simp only [Cache.run] at h
    cases h
    refine ⟨I.simp, I.eval, forall_set I.threads trivial, ?_⟩
    intro x hx
    rcases List.mem_cons.mp hx with rfl | hx
    · trivial
    · exact I.log x hx

theorem cacheInv (hd : RustDisplay num) (hdbg : DebugText dbg) {s : System F}
    (h : CacheReach num (GoodCall dbg) s) : CacheInv num dbg s := by
  induction h with
  | init => exact ⟨by simp [System.init, FMap.empty], by simp [System.init, FMap.empty],
      by simp [System.init], by simp [System.init]⟩
  | step _ hs I =>
    cases hs with
    | spawn =>
      refine ⟨I.simp, I.eval, ?_, I.log⟩
      intro p hp
      rcases List.mem_append.mp hp with hp | hp
      · exact I.threads p hp
      · rw [List.mem_singleton.mp hp]; trivial
    | start i c hi hc =>
      refine ⟨I.simp, I.eval, forall_set I.threads ?_, I.log⟩
      cases c <;> exact hc
    | run _ i p hp hr => exact I.run hd hdbg hp hr

/-- For every interleaving of cached calls and clears by any number of threads, every finished
`simplify_cached(e)` returned `e.simplify()`. -/
theorem C50_simplify_cached_partial (hd : RustDisplay num) (hdbg : DebugText dbg) {s : System F}
    (h : CacheReach num (GoodCall dbg) s) (e : Expr F) (r : Result F)
    (hl : (.simplify e, r) ∈ s.log) : r = .expr e.simplify :=
  (cacheInv hd hdbg h).log _ hl

/-- For every interleaving, every finished `evaluate_cached` returned what `evaluate` returns,
whichever of its possible texts the variable map had. -/
theorem C51_evaluate_cached_partial (hd : RustDisplay num) (hdbg : DebugText dbg) {s : System F}
    (h : CacheReach num (GoodCall dbg) s) (e : Expr F) (vars : FMap String F) (t : List Char)
    (r : Result F) (hl : (.evaluate e vars t, r) ∈ s.log) : r = .value (e.evaluate vars) :=
  (cacheInv hd hdbg h).log _ hl

/-- An evaluation that fails is never found in the cache. -/
theorem C51_errors_not_cached (hd : RustDisplay num) (hdbg : DebugText dbg) {s : System F}
    (h : CacheReach num (GoodCall dbg) s) (e : Expr F) (vars : FMap String F) (t : List Char)
    (err : EvalError F) (he : WellNamed e) (ht : dbg vars t) (herr : e.evaluate vars = .error err) :
    s.eval.get (e.display num, t) = none := by
  cases hg : s.eval.get (e.display num, t) with
  | none => rfl
  | some v => rw [(cacheInv hd hdbg h).eval e vars t v he ht hg] at herr; cases herr

/-! ### statistics -/

theorem countP_set {α : Type} (f : α → Bool) (l : List α) (i : ℕ) (p q : α) (h : l[i]? = some p) :
    (l.set i q).countP f + (if f p then 1 else 0) = l.countP f + (if f q then 1 else 0) := by
  induction l generalizing i with
  | nil => simp at h
  | cons a l ih =>
    cases i with
    | zero =>
      simp at h; subst h
      simp only [List.set_cons_zero, List.countP_cons]
      omega
    | succ i =>
      simp at h
      have := ih i h
      simp only [List.set_cons_succ, List.countP_cons]
      omega

/-- Between counting and returning. -/
def pendingSimp : Phase F → Bool
  | .simpStore _ _ => true
  | _ => false

/-- Between counting and returning. -/
def pendingEval : Phase F → Bool
  | .evalStore _ _ _ _ => true
  | _ => false

/-- Inside `clear_caches`. -/
def clearing : Phase F → Bool
  | .clearSimp => true
  | .clearEval => true
  | .clearStats => true
  | _ => false

structure StatsInv (s : System F) : Prop where
  simp : s.stats.simplificationHits + s.stats.simplificationMisses =
    s.log.countP isSimplify + s.threads.countP pendingSimp
  eval : s.stats.evaluationHits + s.stats.evaluationMisses =
    s.log.countP isEvaluate + s.threads.countP pendingEval
  noClear : ∀ p ∈ s.threads, clearing p = false

theorem statsInv {allowed : Call F → Prop} (ha : ∀ c, allowed c → c ≠ .clear) {s : System F}
    (h : CacheReach num allowed s) : StatsInv s := by
  induction h with
  | init => exact ⟨rfl, rfl, by simp [System.init]⟩
  | step _ hs I =>
    cases hs with
    | spawn =>
      refine ⟨?_, ?_, ?_⟩
      · simpa [pendingSimp] using I.simp
      · simpa [pendingEval] using I.eval
      · intro p hp
        rcases List.mem_append.mp hp with hp | hp
        · exact I.noClear p hp
        · rw [List.mem_singleton.mp hp]; rfl
    | start i c hi hc =>
      have h1 := countP_set pendingSimp _ i _ c.start hi
      have h2 := countP_set pendingEval _ i _ c.start hi
      have h3 := I.simp
      have h4 := I.eval
      have h5 := I.noClear
      cases c with
      | clear => exact absurd rfl (ha _ hc)
      | _ =>
        simp [pendingSimp, pendingEval, Call.start] at h1 h2
        refine ⟨?_, ?_, ?_⟩
        · simp only [Call.start]; omega
        · simp only [Call.start]; omega
        · exact forall_set h5 rfl
    | run _ i p hp hr =>
      have h3 := I.simp
      have h4 := I.eval
      have h5 := I.noClear
      have h6 := h5 p (List.mem_of_getElem? hp)
      have a1 := countP_set pendingSimp _ i p .idle hp
      have a2 := countP_set pendingEval _ i p .idle hp
      have h1 := fun q => Nat.eq_sub_of_add_eq (countP_set pendingSimp _ i p q hp)
      have h2 := fun q => Nat.eq_sub_of_add_eq (countP_set pendingEval _ i p q hp)
      cases p <;> simp [clearing] at h6 <;> simp only [Cache.run] at hr <;>
        (try split_ifs at hr) <;> (try split at hr) <;> cases hr <;>
        (refine ⟨?_, ?_, forall_set h5 rfl⟩ <;>
        simp only [System.goto, System.finish, List.countP_cons, isSimplify, isEvaluate,
          Bool.false_eq_true, if_true, if_false, h1, h2, pendingSimp, pendingEval] at a1 a2 ⊢ <;>
        omega)

/-- After any execution without clears in which every call has returned, hits plus misses is the
number of finished calls, for both caches. -/
theorem C52_counts {allowed : Call F → Prop} (ha : ∀ c, allowed c → c ≠ .clear) {s : System F}
    (h : CacheReach num allowed s) (hq : Quiescent s) :
    s.stats.simplificationHits + s.stats.simplificationMisses = s.log.countP isSimplify ∧
    s.stats.evaluationHits + s.stats.evaluationMisses = s.log.countP isEvaluate := by
  have I := statsInv ha h
  have h1 : s.threads.countP pendingSimp = 0 := by
    rw [List.countP_eq_zero]; intro p hp; rw [hq p hp]; simp [pendingSimp]
  have h2 : s.threads.countP pendingEval = 0 := by
    rw [List.countP_eq_zero]; intro p hp; rw [hq p hp]; simp [pendingEval]
  have := I.simp
  have := I.eval
  omega

/-- With clears, at every moment of every execution the counters never exceed the number of calls
that have returned or are about to store their result. -/
theorem C52_counts_with_clears {allowed : Call F → Prop} {s : System F}
    (h : CacheReach num allowed s) (hq : Quiescent s) :
    s.stats.simplificationHits + s.stats.simplificationMisses ≤ s.log.countP isSimplify ∧
    s.stats.evaluationHits + s.stats.evaluationMisses ≤ s.log.countP isEvaluate := by
  suffices ∀ s : System F, CacheReach num allowed s →
      s.stats.simplificationHits + s.stats.simplificationMisses ≤
        s.log.countP isSimplify + s.threads.countP pendingSimp ∧
      s.stats.evaluationHits + s.stats.evaluationMisses ≤
        s.log.countP isEvaluate + s.threads.countP pendingEval by
    have I := this s h
    have h1 : s.threads.countP pendingSimp = 0 := by
      rw [List.countP_eq_zero]; intro p hp; rw [hq p hp]; simp [pendingSimp]
    have h2 : s.threads.countP pendingEval = 0 := by
      rw [List.countP_eq_zero]; intro p hp; rw [hq p hp]; simp [pendingEval]
    omega
  clear h hq s
  intro s h
  induction h with
  | init => exact ⟨le_refl _, le_refl _⟩
  | step _ hs I =>
    obtain ⟨h3, h4⟩ := I
    cases hs with
    | spawn =>
      refine ⟨?_, ?_⟩
      · simpa [pendingSimp] using h3
      · simpa [pendingEval] using h4
    | start i c hi hc =>
      have h1 := countP_set pendingSimp _ i _ c.start hi
      have h2 := countP_set pendingEval _ i _ c.start hi
      cases c <;>
        (simp [pendingSimp, pendingEval, Call.start] at h1 h2
         refine ⟨?_, ?_⟩
         · simp only [Call.start]; omega
         · simp only [Call.start]; omega)
    | run _ i p hp hr =>
      have a1 := countP_set pendingSimp _ i p .idle hp
      have a2 := countP_set pendingEval _ i p .idle hp
      have h1 := fun q => Nat.eq_sub_of_add_eq (countP_set pendingSimp _ i p q hp)
      have h2 := fun q => Nat.eq_sub_of_add_eq (countP_set pendingEval _ i p q hp)
      cases p <;> simp only [Cache.run] at hr <;>
        (try split_ifs at hr) <;> (try split at hr) <;> cases hr <;>
        (refine ⟨?_, ?_⟩ <;>
        simp only [System.goto, System.finish, List.countP_cons, isSimplify, isEvaluate,
          Bool.false_eq_true, if_true, if_false, h1, h2, pendingSimp, pendingEval,
          CacheStats.default] at a1 a2 ⊢ <;>
        omega)

/-- The hit rates are the fraction of hits and lie between 0 and 1. -/
theorem C52_hit_rates (s : CacheStats) :
    (∃ r : ℝ, s.simplificationHitRate = XReal.fin r ∧ 0 ≤ r ∧ r ≤ 1 ∧
      r * (s.simplificationHits + s.simplificationMisses : ℕ) = s.simplificationHits) ∧
    (∃ r : ℝ, s.evaluationHitRate = XReal.fin r ∧ 0 ≤ r ∧ r ≤ 1 ∧
      r * (s.evaluationHits + s.evaluationMisses : ℕ) = s.evaluationHits) := by
  have key : ∀ a b : ℕ, ∃ r : ℝ,
      (if a + b = 0 then FloatOps.zero
        else FloatOps.div (FloatOps.ofNat a) (FloatOps.ofNat (a + b)) : XReal) = XReal.fin r ∧
      0 ≤ r ∧ r ≤ 1 ∧ r * (a + b : ℕ) = a := by
    intro a b
    split_ifs with h
    · exact ⟨0, by simp, le_refl _, zero_le_one, by
        have : a = 0 := by omega
        simp [this]⟩
    · have h' : ((a + b : ℕ) : ℝ) ≠ 0 := by exact_mod_cast h
      refine ⟨a / (a + b : ℕ), ?_, by positivity, ?_, by field_simp⟩
      · rw [XReal.f_ofNat, XReal.f_ofNat, XReal.f_div _ _ h']
      · rw [div_le_one (by positivity)]
        exact_mod_cast Nat.le_add_right a b
  exact ⟨key _ _, key _ _⟩

/-! ### effectiveness -/

/-- Without clears, every successfully finished call has its result in the cache, so the same call
made again is a hit. -/
theorem C52_finished_is_cached {allowed : Call F → Prop} (ha : ∀ c, allowed c → c ≠ .clear)
    {s : System F} (h : CacheReach num allowed s) :
    (∀ e r, (.simplify e, r) ∈ s.log → s.simp.get (e.display num) ≠ none) ∧
    (∀ e vars t v, (.evaluate e vars t, .value (.ok v)) ∈ s.log →
      s.eval.get (e.display num, t) ≠ none) := by
  suffices ((∀ e r, (.simplify e, r) ∈ s.log → s.simp.get (e.display num) ≠ none) ∧
      (∀ e vars t v, (.evaluate e vars t, .value (.ok v)) ∈ s.log →
        s.eval.get (e.display num, t) ≠ none)) ∧
      (∀ e r, .simpHit e r ∈ s.threads → s.simp.get (e.display num) ≠ none) ∧
      (∀ e vars t v, .evalHit e vars t v ∈ s.threads → s.eval.get (e.display num, t) ≠ none) from
    this.1
  have hc : ∀ s, CacheReach num allowed s → ∀ p ∈ s.threads, clearing p = false :=
    fun s h => (statsInv ha h).noClear
  induction h with
  | init => simp [System.init]
  | @step s s' hr0 hs I =>
    obtain ⟨⟨i1, i2⟩, i3, i4⟩ := I
    cases hs with
    | spawn =>
      refine ⟨⟨i1, i2⟩, ?_, ?_⟩
      · intro e r h; simp at h; exact i3 e r h
      · intro e vars t v h; simp at h; exact i4 e vars t v h
    | start i c hi hcall =>
      refine ⟨⟨i1, i2⟩, ?_, ?_⟩
      · intro e r h
        rcases mem_set h with h | h
        · exact i3 e r h
        · cases c <;> cases h
      · intro e vars t v h
        rcases mem_set h with h | h
        · exact i4 e vars t v h
        · cases c <;> cases h
    | run _ i p hp hr =>
      have hm := List.mem_of_getElem? hp
      have h6 := hc _ hr0 p hm
      have ins1 : ∀ (k k' : List Char) (r : Expr F), s.simp.get k ≠ none →
          (s.simp.insert k' r).get k ≠ none := by
        intro k k' r h
        simp only [FMap.insert]; split_ifs <;> simp [h]
      have ins2 : ∀ (k k' : List Char × List Char) (r : F), s.eval.get k ≠ none →
          (s.eval.insert k' r).get k ≠ none := by
        intro k k' r h
        simp only [FMap.insert]; split_ifs <;> simp [h]
      cases p with
      | idle => simp [Cache.run] at hr
      | clearSimp => cases h6
      | clearEval => cases h6
      | clearStats => cases h6
      | simpLookup e =>
        simp only [Cache.run] at hr
        split_ifs at hr
        split at hr <;> cases hr
        · rename_i r0 hr0
          refine ⟨⟨i1, i2⟩, fun e' r' h => ?_, fun e' vars t v h => ?_⟩
          · rcases mem_set h with h | h
            · exact i3 e' r' h
            · cases h; simp [System.goto, hr0]
          · rcases mem_set h with h | h
            · exact i4 _ _ _ _ h
            · cases h
        · refine ⟨⟨i1, i2⟩, fun e' r' h => ?_, fun e' vars t v h => ?_⟩
          · rcases mem_set h with h | h
            · exact i3 e' r' h
            · cases h
          · rcases mem_set h with h | h
            · exact i4 _ _ _ _ h
            · cases h
      | simpHit e r =>
        simp only [Cache.run] at hr
        cases hr
        refine ⟨⟨fun e' r' h => ?_, fun e' vars t v h => ?_⟩, fun e' r' h => ?_,
          fun e' vars t v h => ?_⟩
        · rcases List.mem_cons.mp h with h | h
          · cases h; exact i3 e r hm
          · exact i1 _ _ h
        · rcases List.mem_cons.mp h with h | h
          · cases h
          · exact i2 _ _ _ _ h
        · rcases mem_set h with h | h
          · exact i3 e' r' h
          · cases h
        · rcases mem_set h with h | h
          · exact i4 _ _ _ _ h
          · cases h
      | simpMiss e =>
        simp only [Cache.run] at hr
        cases hr
        refine ⟨⟨i1, i2⟩, fun e' r' h => ?_, fun e' vars t v h => ?_⟩
        · rcases mem_set h with h | h
          · exact i3 e' r' h
          · cases h
        · rcases mem_set h with h | h
          · exact i4 _ _ _ _ h
          · cases h
      | simpStore e r =>
        simp only [Cache.run] at hr
        split_ifs at hr
        cases hr
        refine ⟨⟨fun e' r' h => ?_, fun e' vars t v h => ?_⟩, fun e' r' h => ?_,
          fun e' vars t v h => ?_⟩
        · rcases List.mem_cons.mp h with h | h
          · cases h; simp [System.finish, FMap.insert]
          · exact ins1 _ _ _ (i1 _ _ h)
        · rcases List.mem_cons.mp h with h | h
          · cases h
          · exact i2 _ _ _ _ h
        · rcases mem_set h with h | h
          · exact ins1 _ _ _ (i3 e' r' h)
          · cases h
        · rcases mem_set h with h | h
          · exact i4 _ _ _ _ h
          · cases h
      | evalLookup e vars t =>
        simp only [Cache.run] at hr
        split_ifs at hr
        split at hr <;> cases hr
        · rename_i v0 hv0
          refine ⟨⟨i1, i2⟩, fun e' r' h => ?_, fun e' vars t v h => ?_⟩
          · rcases mem_set h with h | h
            · exact i3 e' r' h
            · cases h
          · rcases mem_set h with h | h
            · exact i4 _ _ _ _ h
            · cases h; simp [System.goto, hv0]
        · refine ⟨⟨i1, i2⟩, fun e' r' h => ?_, fun e' vars t v h => ?_⟩
          · rcases mem_set h with h | h
            · exact i3 e' r' h
            · cases h
          · rcases mem_set h with h | h
            · exact i4 _ _ _ _ h
            · cases h
      | evalHit e vars t v =>
        simp only [Cache.run] at hr
        cases hr
        refine ⟨⟨fun e' r' h => ?_, fun e' vars' t' v' h => ?_⟩, fun e' r' h => ?_,
          fun e' vars' t' v' h => ?_⟩
        · rcases List.mem_cons.mp h with h | h
          · cases h
          · exact i1 _ _ h
        · rcases List.mem_cons.mp h with h | h
          · cases h; exact i4 e vars t v hm
          · exact i2 _ _ _ _ h
        · rcases mem_set h with h | h
          · exact i3 e' r' h
          · cases h
        · rcases mem_set h with h | h
          · exact i4 _ _ _ _ h
          · cases h
      | evalMiss e vars t =>
        simp only [Cache.run] at hr
        split at hr <;> cases hr
        · refine ⟨⟨fun e' r' h => ?_, fun e' vars' t' v' h => ?_⟩, fun e' r' h => ?_,
            fun e' vars' t' v' h => ?_⟩
          · rcases List.mem_cons.mp h with h | h
            · cases h
            · exact i1 _ _ h
          · rcases List.mem_cons.mp h with h | h
            · cases h
            · exact i2 _ _ _ _ h
          · rcases mem_set h with h | h
            · exact i3 e' r' h
            · cases h
          · rcases mem_set h with h | h
            · exact i4 _ _ _ _ h
            · cases h
        · refine ⟨⟨i1, i2⟩, fun e' r' h => ?_, fun e' vars t v h => ?_⟩
          · rcases mem_set h with h | h
            · exact i3 e' r' h
            · cases h
          · rcases mem_set h with h | h
            · exact i4 _ _ _ _ h
            · cases h
      | evalStore e vars t v =>
        simp only [Cache.run] at hr
        split_ifs at hr
        cases hr
        refine ⟨⟨fun e' r' h => ?_, fun e' vars' t' v' h => ?_⟩, fun e' r' h => ?_,
          fun e' vars' t' v' h => ?_⟩
        · rcases List.mem_cons.mp h with h | h
          · cases h
          · exact i1 _ _ h
        · rcases List.mem_cons.mp h with h | h
          · cases h; simp [System.finish, FMap.insert]
          · exact ins2 _ _ _ (i2 _ _ _ _ h)
        · rcases mem_set h with h | h
          · exact i3 e' r' h
          · cases h
        · rcases mem_set h with h | h
          · exact ins2 _ _ _ (i4 _ _ _ _ h)
          · cases h
      | getStats =>
        simp only [Cache.run] at hr
        cases hr
        refine ⟨⟨fun e' r' h => ?_, fun e' vars' t' v' h => ?_⟩, fun e' r' h => ?_,
          fun e' vars' t' v' h => ?_⟩
        · rcases List.mem_cons.mp h with h | h
          · cases h
          · exact i1 _ _ h
        · rcases List.mem_cons.mp h with h | h
          · cases h
          · exact i2 _ _ _ _ h
        · rcases mem_set h with h | h
          · exact i3 e' r' h
          · cases h
        · rcases mem_set h with h | h
          · exact i4 _ _ _ _ h
          · cases h

end Verif
