import Verif.Spec.Jit
import Verif.Lemmas.SymbolicVars

/-! Reasoning about generated code: facts about registers that survive every later instruction. -/

namespace Verif.Jit
open FloatOps Gen Spec.Jit

variable {F : Type} [FloatOps F] [FloatBits F] {α β : Type}

theorem exec_append (ρ : List (Val F)) (a b : List (Inst F)) :
    exec ρ (a ++ b) = match exec ρ a with
      | .ok ρ' => exec ρ' b
      | .trap => .trap
      | .stuck => .stuck := by
  induction a generalizing ρ with
  | nil => rfl
  | cons i is ih =>
    simp only [List.cons_append, exec]
    cases h : i.eval ρ <;> simp [ih]

/-- A list of registers with their contents. -/
abbrev Facts (F : Type) := List (Reg × Val F)

/-- The facts are true of a register file. -/
def Holds (ρ : List (Val F)) (Γ : Facts F) : Prop := ∀ p ∈ Γ, ρ[p.1]? = some p.2

/-- The code so far runs without a trap and the facts hold after it. -/
def Ok (args : List (Val F)) (b : Builder F) (Γ : Facts F) : Prop :=
  ∃ ρ, exec args b.code = .ok ρ ∧ b.next = ρ.length ∧ Holds ρ Γ

/-- The code so far traps. -/
def Trapped (args : List (Val F)) (b : Builder F) : Prop := exec args b.code = .trap

omit [FloatOps F] [FloatBits F] in
theorem Holds.mono {ρ : List (Val F)} {Γ Δ : Facts F} (h : Holds ρ Γ) (hs : Δ ⊆ Γ) : Holds ρ Δ :=
  fun p hp => h p (hs hp)

theorem Ok.mono {args : List (Val F)} {b : Builder F} {Γ Δ : Facts F} (h : Ok args b Γ)
    (hs : Δ ⊆ Γ) : Ok args b Δ :=
  let ⟨ρ, h1, h2, h3⟩ := h
  ⟨ρ, h1, h2, h3.mono hs⟩

/-- The generator always succeeds and only appends code. -/
def Appends (g : Gen F α) : Prop := ∀ b, ∃ a b', g b = .ok (a, b') ∧ b.code <+: b'.code

omit [FloatOps F] [FloatBits F] in
theorem bind_def (g : Gen F α) (k : α → Gen F β) (b : Builder F) :
    (g >>= k) b = match g b with
      | .ok (a, b') => k a b'
      | .error e => .error e := rfl

omit [FloatOps F] [FloatBits F] in
theorem Appends.bind {g : Gen F α} {k : α → Gen F β} (hg : Appends g) (hk : ∀ a, Appends (k a)) :
    Appends (g >>= k) := by
  intro b
  obtain ⟨a, b', h1, h2⟩ := hg b
  obtain ⟨c, b'', h3, h4⟩ := hk a b'
  exact ⟨c, b'', by rw [bind_def, h1]; exact h3, h2.trans h4⟩

omit [FloatOps F] [FloatBits F] in
theorem Appends.emit (i : Inst F) : Appends (Gen.emit i) :=
  fun _ => ⟨_, _, rfl, List.prefix_append _ _⟩

omit [FloatOps F] [FloatBits F] in
theorem Appends.pure (a : α) : Appends (F := F) (Pure.pure a) :=
  fun _ => ⟨_, _, rfl, List.prefix_rfl⟩

theorem Trapped.prefix {args : List (Val F)} {b b' : Builder F} (h : Trapped args b)
    (hp : b.code <+: b'.code) : Trapped args b' := by
  obtain ⟨t, ht⟩ := hp
  rw [Trapped, ← ht, exec_append, h]

/-- The facts determine the result of the instruction. -/
structure Evals (Γ : Facts F) (i : Inst F) (o : Outcome (Val F)) : Prop where
  eval : ∀ ρ, Holds ρ Γ → i.eval ρ = o

theorem Ok.emit {args : List (Val F)} {b : Builder F} {Γ : Facts F} {i : Inst F} {v : Val F}
    (h : Ok args b Γ) (hv : Evals Γ i (.ok v)) :
    Ok args ⟨b.next + 1, b.code ++ [i]⟩ ((b.next, v) :: Γ) := by
  obtain ⟨ρ, h1, h2, h3⟩ := h
  refine ⟨ρ ++ [v], ?_, by simp [h2], ?_⟩
  · simp only [exec_append, h1, exec, hv.eval ρ h3]
  · intro p hp
    rcases List.mem_cons.mp hp with rfl | hp
    · simp [h2]
    · have := h3 p hp
      have hlt : p.1 < ρ.length := by
        by_contra hc
        rw [List.getElem?_eq_none (not_lt.mp hc)] at this
        cases this
      rw [List.getElem?_append_left hlt, this]

/-- Under the facts, the generator succeeds; the code runs to a value of the returned register, or
traps when there is no value. -/
def Yields (args : List (Val F)) (Γ : Facts F) (g : Gen F Reg) (o : Option F) : Prop :=
  ∀ b, Ok args b Γ → ∃ r b', g b = .ok (r, b') ∧
    match o with
    | some v => Ok args b' ((r, .f64 v) :: Γ)
    | none => Trapped args b'

variable {args : List (Val F)} {Γ : Facts F}

theorem Yields.emit {i : Inst F} {v : F} (hv : Evals Γ i (.ok (.f64 v))) :
    Yields args Γ (Gen.emit i) (some v) :=
  fun _ hb => ⟨_, _, rfl, hb.emit hv⟩

theorem Yields.emit' {i : Inst F} {v w : F} (hv : Evals Γ i (.ok (.f64 v))) (e : v = w) :
    Yields args Γ (Gen.emit i) (some w) :=
  e ▸ Yields.emit hv

theorem Yields.pure {r : Reg} {v : F} (hr : (r, Val.f64 v) ∈ Γ) :
    Yields args Γ (Pure.pure r) (some v) :=
  fun _ hb => ⟨_, _, rfl, hb.mono (List.cons_subset.mpr ⟨hr, fun _ h => h⟩)⟩

theorem Yields.bindEmit {i : Inst F} {v : Val F} {k : Reg → Gen F Reg} {o : Option F}
    (hv : Evals Γ i (.ok v)) (hk : ∀ r, Yields args ((r, v) :: Γ) (k r) o) :
    Yields args Γ (Gen.emit i >>= k) o := by
  intro b hb
  obtain ⟨r, b', h1, h2⟩ := hk b.next _ (hb.emit hv)
  refine ⟨r, b', h1, ?_⟩
  cases o with
  | none => exact h2
  | some w => exact Ok.mono h2 (List.cons_subset_cons _ (List.subset_cons_self _ _))

theorem Yields.bindTrap {i : Inst F} {k : Reg → Gen F Reg}
    (hv : Evals Γ i .trap) (hk : ∀ r, Appends (k r)) :
    Yields args Γ (Gen.emit i >>= k) none := by
  intro b hb
  obtain ⟨r, b', h1, h2⟩ := hk b.next ⟨b.next + 1, b.code ++ [i]⟩
  refine ⟨r, b', h1, ?_⟩
  obtain ⟨ρ, h3, -, h4⟩ := hb
  refine Trapped.prefix (b := ⟨b.next + 1, b.code ++ [i]⟩) ?_ h2
  simp only [Trapped, exec_append, h3, exec, hv.eval ρ h4]

theorem Yields.bind {g : Gen F Reg} {k : Reg → Gen F Reg} {v : F} {o : Option F}
    (hg : Yields args Γ g (some v)) (hk : ∀ r, Yields args ((r, .f64 v) :: Γ) (k r) o) :
    Yields args Γ (g >>= k) o := by
  intro b hb
  obtain ⟨r, b', h1, h2⟩ := hg b hb
  obtain ⟨r', b'', h3, h4⟩ := hk r b' h2
  refine ⟨r', b'', by rw [bind_def, h1]; exact h3, ?_⟩
  cases o with
  | none => exact h4
  | some w => exact Ok.mono h4 (List.cons_subset_cons _ (List.subset_cons_self _ _))

theorem Yields.bindNone {g : Gen F Reg} {k : Reg → Gen F Reg}
    (hg : Yields args Γ g none) (hk : ∀ r, Appends (k r)) :
    Yields args Γ (g >>= k) none := by
  intro b hb
  obtain ⟨r, b', h1, h2⟩ := hg b hb
  obtain ⟨r', b'', h3, h4⟩ := hk r b'
  exact ⟨r', b'', by rw [bind_def, h1]; exact h3, Trapped.prefix h2 h4⟩

/-! One rule per instruction. -/

section Rules
variable {a b c : Reg} {x y : F} {i j : BitVec 64} {k l : BitVec 32} {t : Bool}

omit [FloatOps F] [FloatBits F] in
theorem Holds.getF {ρ : List (Val F)} (h : Holds ρ Γ) (ha : (a, Val.f64 x) ∈ Γ) :
    getF ρ a = some x := by simp [Jit.getF, h _ ha]
omit [FloatOps F] [FloatBits F] in
theorem Holds.getI64 {ρ : List (Val F)} (h : Holds ρ Γ) (ha : (a, Val.i64 i) ∈ Γ) :
    getI64 ρ a = some i := by simp [Jit.getI64, h _ ha]
omit [FloatOps F] [FloatBits F] in
theorem Holds.getI32 {ρ : List (Val F)} (h : Holds ρ Γ) (ha : (a, Val.i32 k) ∈ Γ) :
    getI32 ρ a = some k := by simp [Jit.getI32, h _ ha]
omit [FloatOps F] [FloatBits F] in
theorem Holds.getB {ρ : List (Val F)} (h : Holds ρ Γ) (ha : (a, Val.i8 t) ∈ Γ) :
    getB ρ a = some t := by simp [Jit.getB, h _ ha]

theorem ev_f64const {cst : F} : Evals Γ (.f64const cst) (.ok (.f64 cst)) := ⟨fun _ _ => rfl⟩
theorem ev_iconst64 : Evals Γ (.iconst64 i) (.ok (.i64 i)) := ⟨fun _ _ => rfl⟩
theorem ev_iconst32 : Evals Γ (.iconst32 k) (.ok (.i32 k)) := ⟨fun _ _ => rfl⟩
theorem ev_fadd (ha : (a, Val.f64 x) ∈ Γ) (hb : (b, Val.f64 y) ∈ Γ) :
    Evals Γ (.fadd a b) (.ok (.f64 (x +. y))) :=
  ⟨fun ρ h => by simp [Inst.eval, h.getF ha, h.getF hb, bin]⟩
theorem ev_fsub (ha : (a, Val.f64 x) ∈ Γ) (hb : (b, Val.f64 y) ∈ Γ) :
    Evals Γ (.fsub a b) (.ok (.f64 (x -. y))) :=
  ⟨fun ρ h => by simp [Inst.eval, h.getF ha, h.getF hb, bin]⟩
theorem ev_fmul (ha : (a, Val.f64 x) ∈ Γ) (hb : (b, Val.f64 y) ∈ Γ) :
    Evals Γ (.fmul a b) (.ok (.f64 (x *. y))) :=
  ⟨fun ρ h => by simp [Inst.eval, h.getF ha, h.getF hb, bin]⟩
theorem ev_fdiv (ha : (a, Val.f64 x) ∈ Γ) (hb : (b, Val.f64 y) ∈ Γ) :
    Evals Γ (.fdiv a b) (.ok (.f64 (x /. y))) :=
  ⟨fun ρ h => by simp [Inst.eval, h.getF ha, h.getF hb, bin]⟩
theorem ev_fneg (ha : (a, Val.f64 x) ∈ Γ) : Evals Γ (.fneg a) (.ok (.f64 (FloatOps.neg x))) :=
  ⟨fun ρ h => by simp [Inst.eval, h.getF ha, un]⟩
theorem ev_sqrt (ha : (a, Val.f64 x) ∈ Γ) : Evals Γ (.sqrt a) (.ok (.f64 (FloatOps.sqrt x))) :=
  ⟨fun ρ h => by simp [Inst.eval, h.getF ha, un]⟩
theorem ev_floor (ha : (a, Val.f64 x) ∈ Γ) : Evals Γ (.floor a) (.ok (.f64 (FloatOps.floor x))) :=
  ⟨fun ρ h => by simp [Inst.eval, h.getF ha, un]⟩
theorem ev_fcmpEq (ha : (a, Val.f64 x) ∈ Γ) (hb : (b, Val.f64 y) ∈ Γ) :
    Evals Γ (.fcmpEq a b) (.ok (.i8 (x ==. y))) :=
  ⟨fun ρ h => by simp [Inst.eval, h.getF ha, h.getF hb, bin]⟩
theorem ev_icmpEq (ha : (a, Val.i32 k) ∈ Γ) (hb : (b, Val.i32 l) ∈ Γ) :
    Evals Γ (.icmpEq a b) (.ok (.i8 (k == l))) :=
  ⟨fun ρ h => by simp [Inst.eval, h.getI32 ha, h.getI32 hb, bin]⟩
theorem ev_select (hc : (c, Val.i8 t) ∈ Γ) (ha : (a, Val.f64 x) ∈ Γ) (hb : (b, Val.f64 y) ∈ Γ) :
    Evals Γ (.select c a b) (.ok (.f64 (if t then x else y))) :=
  ⟨fun ρ h => by simp [Inst.eval, h.getB hc, h.getF ha, h.getF hb]⟩
theorem ev_bitcastI64 (ha : (a, Val.f64 x) ∈ Γ) :
    Evals Γ (.bitcastI64 a) (.ok (.i64 (FloatBits.toBits x))) :=
  ⟨fun ρ h => by simp [Inst.eval, h.getF ha, un]⟩
theorem ev_bitcastF64 (ha : (a, Val.i64 i) ∈ Γ) :
    Evals Γ (.bitcastF64 a) (.ok (.f64 (FloatBits.ofBits i))) :=
  ⟨fun ρ h => by simp [Inst.eval, h.getI64 ha, un]⟩
theorem ev_band (ha : (a, Val.i64 i) ∈ Γ) (hb : (b, Val.i64 j) ∈ Γ) :
    Evals Γ (.band a b) (.ok (.i64 (i &&& j))) :=
  ⟨fun ρ h => by simp [Inst.eval, h.getI64 ha, h.getI64 hb, bin]⟩
theorem ev_bor (ha : (a, Val.i64 i) ∈ Γ) (hb : (b, Val.i64 j) ∈ Γ) :
    Evals Γ (.bor a b) (.ok (.i64 (i ||| j))) :=
  ⟨fun ρ h => by simp [Inst.eval, h.getI64 ha, h.getI64 hb, bin]⟩
theorem ev_isub (ha : (a, Val.i64 i) ∈ Γ) (hb : (b, Val.i64 j) ∈ Γ) :
    Evals Γ (.isub a b) (.ok (.i64 (i - j))) :=
  ⟨fun ρ h => by simp [Inst.eval, h.getI64 ha, h.getI64 hb, bin]⟩
theorem ev_iadd (ha : (a, Val.i64 i) ∈ Γ) (hb : (b, Val.i64 j) ∈ Γ) :
    Evals Γ (.iadd a b) (.ok (.i64 (i + j))) :=
  ⟨fun ρ h => by simp [Inst.eval, h.getI64 ha, h.getI64 hb, bin]⟩
theorem ev_ushrImm {n : ℕ} (ha : (a, Val.i64 i) ∈ Γ) :
    Evals Γ (.ushrImm a n) (.ok (.i64 (i >>> n))) :=
  ⟨fun ρ h => by simp [Inst.eval, h.getI64 ha, un]⟩
theorem ev_ishlImm {n : ℕ} (ha : (a, Val.i64 i) ∈ Γ) :
    Evals Γ (.ishlImm a n) (.ok (.i64 (i <<< n))) :=
  ⟨fun ρ h => by simp [Inst.eval, h.getI64 ha, un]⟩
theorem ev_sextend (ha : (a, Val.i32 k) ∈ Γ) :
    Evals Γ (.sextend a) (.ok (.i64 (k.signExtend 64))) :=
  ⟨fun ρ h => by simp [Inst.eval, h.getI32 ha, un]⟩
theorem ev_fcvtFromSint (ha : (a, Val.i64 i) ∈ Γ) :
    Evals Γ (.fcvtFromSint a) (.ok (.f64 (FloatBits.ofInt64 i))) :=
  ⟨fun ρ h => by simp [Inst.eval, h.getI64 ha, un]⟩
theorem ev_fcvtToSint (ha : (a, Val.f64 x) ∈ Γ) (hk : FloatBits.toInt32 x = some k) :
    Evals Γ (.fcvtToSint a) (.ok (.i32 k)) :=
  ⟨fun ρ h => by simp [Inst.eval, h.getF ha, hk]⟩
theorem ev_fcvtToSint_trap (ha : (a, Val.f64 x) ∈ Γ) (hk : FloatBits.toInt32 x = none) :
    Evals Γ (.fcvtToSint a) .trap :=
  ⟨fun ρ h => by simp [Inst.eval, h.getF ha, hk]⟩

end Rules

/-- Find a fact in the list. -/
macro "reg" : tactic =>
  `(tactic| repeat (first | exact List.mem_cons_self | apply List.mem_cons_of_mem | assumption))

/-- Evaluate an instruction from the facts. -/
macro "inst" : tactic => `(tactic| first
    | exact ev_f64const
    | exact ev_iconst64
    | exact ev_iconst32
    | (apply ev_fadd <;> reg)
    | (apply ev_fsub <;> reg)
    | (apply ev_fmul <;> reg)
    | (apply ev_fdiv <;> reg)
    | (apply ev_fneg <;> reg)
    | (apply ev_sqrt <;> reg)
    | (apply ev_floor <;> reg)
    | (apply ev_fcmpEq <;> reg)
    | (apply ev_icmpEq <;> reg)
    | (apply ev_select <;> reg)
    | (apply ev_bitcastI64 <;> reg)
    | (apply ev_bitcastF64 <;> reg)
    | (apply ev_band <;> reg)
    | (apply ev_bor <;> reg)
    | (apply ev_isub <;> reg)
    | (apply ev_iadd <;> reg)
    | (apply ev_ushrImm <;> reg)
    | (apply ev_ishlImm <;> reg)
    | (apply ev_sextend <;> reg)
    | (apply ev_fcvtFromSint <;> reg))

/-- One emitted instruction. -/
macro "step" : tactic => `(tactic| refine Yields.bindEmit (by inst) fun _ => ?_)

/-- A generator made of emitted instructions only appends. -/
macro "appends" : tactic => `(tactic| (
  repeat refine Appends.bind (Appends.emit _) fun _ => ?_
  first
    | exact Appends.emit _
    | exact Appends.pure _))

theorem genSin_yields {x : F} {r : Reg} (hx : (r, Val.f64 x) ∈ Γ) :
    Yields args Γ (genSin r) (some (jitSin x)) := by
  unfold genSin
  repeat step
  exact Yields.emit (by inst)

theorem genCos_yields {x : F} {r : Reg} (hx : (r, Val.f64 x) ∈ Γ) :
    Yields args Γ (genCos r) (some (jitCos x)) := by
  unfold genCos
  repeat step
  exact Yields.emit (by inst)

theorem genLn_yields {x : F} {r : Reg} (hx : (r, Val.f64 x) ∈ Γ) :
    Yields args Γ (genLn r) (some (jitLn x)) := by
  unfold genLn
  repeat step
  exact Yields.emit (by inst)

omit [FloatBits F] in
theorem genLn_appends (r : Reg) : Appends (F := F) (genLn r) := by unfold genLn; appends
omit [FloatBits F] in
theorem genExp_appends (r : Reg) : Appends (F := F) (genExp r) := by unfold genExp; appends
omit [FloatBits F] in
theorem genSin_appends (r : Reg) : Appends (F := F) (genSin r) := by unfold genSin; appends
omit [FloatBits F] in
theorem genCos_appends (r : Reg) : Appends (F := F) (genCos r) := by unfold genCos; appends
omit [FloatBits F] in
theorem genPow_appends (r e : Reg) : Appends (F := F) (genPow r e) :=
  (genLn_appends r).bind fun _ => (Appends.emit _).bind fun _ => genExp_appends _
omit [FloatBits F] in
theorem genPowSpecial_appends (r : Reg) (s : PowSpecial) : Appends (F := F) (genPowSpecial r s) := by
  cases s <;> unfold genPowSpecial <;> appends

theorem genExp_yields {x : F} {r : Reg} (hx : (r, Val.f64 x) ∈ Γ) :
    Yields args Γ (genExp r) (jitExp x) := by
  unfold genExp
  iterate 3 step
  refine Yields.bindEmit (v := .f64 (expIndex x)) (by inst) fun _ => ?_
  iterate 2 step
  iterate 27 step
  refine Yields.bindEmit (v := .f64 (expRational (x -. expIndex x *. ln2))) (by inst) fun _ => ?_
  unfold jitExp
  dsimp only
  generalize expRational (x -. expIndex x *. ln2) = y
  cases hk : FloatBits.toInt32 (expIndex x) with
  | none =>
    refine Yields.bindTrap (ev_fcvtToSint_trap (x := expIndex x) (by reg) hk) fun _ => ?_
    appends
  | some k =>
    refine Yields.bindEmit (ev_fcvtToSint (x := expIndex x) (by reg) hk) fun _ => ?_
    repeat step
    refine Yields.emit' (by inst) ?_
    simp only [beq_iff_eq, scaleBits]

theorem genPow_yields {x y : F} {r e : Reg} (hx : (r, Val.f64 x) ∈ Γ) (hy : (e, Val.f64 y) ∈ Γ) :
    Yields args Γ (genPow r e) (jitExp (y *. jitLn x)) := by
  unfold genPow
  refine (genLn_yields hx).bind fun _ => ?_
  step
  exact genExp_yields (by reg)

theorem genPowSpecial_yields {x : F} {r : Reg} (s : PowSpecial) (hx : (r, Val.f64 x) ∈ Γ) :
    Yields args Γ (genPowSpecial r s) (some (powSpecialValue x s)) := by
  cases s <;> unfold genPowSpecial <;> (repeat step) <;>
    first
      | exact Yields.emit (by inst)
      | exact Yields.pure hx

theorem Yields.seq {g : Gen F Reg} {k : Reg → Gen F Reg} {o : Option F} {f : F → Option F}
    (hg : Yields args Γ g o) (hk : ∀ v r, Yields args ((r, .f64 v) :: Γ) (k r) (f v))
    (ha : ∀ r, Appends (k r)) : Yields args Γ (g >>= k) (o.bind f) := by
  cases o with
  | none => exact hg.bindNone ha
  | some v => exact hg.bind (hk v)

/-- The facts give every bound variable its value. -/
def VarFacts (varMap : FMap String Reg) (constants : FMap String F) (σ : String → Option F)
    (Γ : Facts F) : Prop :=
  ∀ n, match varMap.get n with
    | some r => ∃ x, σ n = some x ∧ (r, Val.f64 x) ∈ Γ
    | none => σ n = constants.get n

omit [FloatOps F] [FloatBits F] in
theorem VarFacts.mono {varMap : FMap String Reg} {constants : FMap String F}
    {σ : String → Option F} {Δ : Facts F} (h : VarFacts varMap constants σ Γ) (hs : Γ ⊆ Δ) :
    VarFacts varMap constants σ Δ := by
  intro n
  have := h n
  cases hv : varMap.get n with
  | none => simpa [hv] using this
  | some r =>
    simp only [hv] at this ⊢
    obtain ⟨x, h1, h2⟩ := this
    exact ⟨x, h1, hs h2⟩

/-- A name is known to the code generator. -/
def Known (varMap : FMap String Reg) (constants : FMap String F) (n : String) : Prop :=
  varMap.get n ≠ none ∨ constants.get n ≠ none

omit [FloatBits F] in
theorem genExpr_appends {varMap : FMap String Reg} {constants : FMap String F} (e : Expr F)
    (h : ∀ n ∈ e.collectVariables, Known varMap constants n) :
    Appends (genExpr varMap constants e) := by
  induction e with
  | const c => exact Appends.emit _
  | var n =>
    simp only [genExpr]
    cases hv : varMap.get n with
    | some r => exact Appends.pure _
    | none =>
      cases hc : constants.get n with
      | some c => exact Appends.emit _
      | none => exact absurd (h n (by simp [Expr.collectVariables])) (by simp [Known, hv, hc])
  | add l r il ir | sub l r il ir | mul l r il ir | div l r il ir =>
    simp only [Expr.collectVariables, List.mem_append] at h
    exact (il fun n hn => h n (.inl hn)).bind fun _ => (ir fun n hn => h n (.inr hn)).bind fun _ =>
      Appends.emit _
  | pow l r il ir =>
    simp only [Expr.collectVariables, List.mem_append] at h
    refine (il fun n hn => h n (.inl hn)).bind fun _ => ?_
    cases exprPowSpecial r with
    | some s => exact genPowSpecial_appends _ _
    | none => exact (ir fun n hn => h n (.inr hn)).bind fun _ => genPow_appends _ _
  | ln e ih => exact (ih h).bind fun _ => genLn_appends _
  | exp e ih => exact (ih h).bind fun _ => genExp_appends _
  | sqrt e ih => exact (ih h).bind fun _ => Appends.emit _
  | sin e ih => exact (ih h).bind fun _ => genSin_appends _
  | cos e ih => exact (ih h).bind fun _ => genCos_appends _
  | neg e ih => exact (ih h).bind fun _ => Appends.emit _

theorem genExpr_yields {varMap : FMap String Reg} {constants : FMap String F}
    {σ : String → Option F} (e : Expr F) (h : ∀ n ∈ e.collectVariables, Known varMap constants n)
    (hΓ : VarFacts varMap constants σ Γ) :
    Yields args Γ (genExpr varMap constants e) (value σ e) := by
  induction e generalizing Γ with
  | const c => exact Yields.emit ev_f64const
  | var n =>
    have := hΓ n
    simp only [genExpr, value]
    cases hv : varMap.get n with
    | some r =>
      simp only [hv] at this
      obtain ⟨x, h1, h2⟩ := this
      rw [h1]
      exact Yields.pure h2
    | none =>
      simp only [hv] at this
      rw [this]
      cases hc : constants.get n with
      | some c => exact Yields.emit ev_f64const
      | none => exact absurd (h n (by simp [Expr.collectVariables])) (by simp [Known, hv, hc])
  | add l r il ir | sub l r il ir | mul l r il ir | div l r il ir =>
    simp only [Expr.collectVariables, List.mem_append] at h
    exact (il (fun n hn => h n (.inl hn)) hΓ).seq
      (fun v _ => (ir (fun n hn => h n (.inr hn)) (hΓ.mono (List.subset_cons_self _ _))).seq
        (fun w _ => Yields.emit (by inst)) fun _ => Appends.emit _)
      fun _ => (genExpr_appends r fun n hn => h n (.inr hn)).bind fun _ => Appends.emit _
  | pow l r il ir =>
    simp only [Expr.collectVariables, List.mem_append] at h
    simp only [genExpr, value]
    cases exprPowSpecial r with
    | some s =>
      exact (il (fun n hn => h n (.inl hn)) hΓ).seq
        (fun v _ => genPowSpecial_yields s (by reg)) fun _ => genPowSpecial_appends _ _
    | none =>
      exact (il (fun n hn => h n (.inl hn)) hΓ).seq
        (fun v _ => (ir (fun n hn => h n (.inr hn)) (hΓ.mono (List.subset_cons_self _ _))).seq
          (fun w _ => genPow_yields (by reg) (by reg)) fun _ => genPow_appends _ _)
        fun _ => (genExpr_appends r fun n hn => h n (.inr hn)).bind fun _ => genPow_appends _ _
  | ln e ih => exact (ih h hΓ).seq (fun _ _ => genLn_yields (by reg)) fun _ => genLn_appends _
  | exp e ih => exact (ih h hΓ).seq (fun _ _ => genExp_yields (by reg)) fun _ => genExp_appends _
  | sqrt e ih => exact (ih h hΓ).seq (fun _ _ => Yields.emit (by inst)) fun _ => Appends.emit _
  | sin e ih => exact (ih h hΓ).seq (fun _ _ => genSin_yields (by reg)) fun _ => genSin_appends _
  | cos e ih => exact (ih h hΓ).seq (fun _ _ => genCos_yields (by reg)) fun _ => genCos_appends _
  | neg e ih => exact (ih h hΓ).seq (fun _ _ => Yields.emit (by inst)) fun _ => Appends.emit _

omit [FloatOps F] [FloatBits F] in
theorem Appends.bind_error {g : Gen F α} {k : α → Gen F β} {e : JitError} (hg : Appends g)
    (hk : ∀ a b, k a b = .error e) (b : Builder F) : (g >>= k) b = .error e := by
  obtain ⟨a, b', h1, -⟩ := hg b
  rw [bind_def, h1]
  exact hk a b'

omit [FloatOps F] [FloatBits F] in
theorem bind_error {g : Gen F α} {k : α → Gen F β} {e : JitError} {b : Builder F}
    (hg : g b = .error e) : (g >>= k) b = .error e := by
  rw [bind_def, hg]

/-- Where the first element without a property lies in a concatenation. -/
theorem split_first {K : String → Prop} {n : String} {ls rs pre post : List String}
    (hp : ∀ m ∈ pre, K m) (h : ls ++ rs = pre ++ n :: post) :
    (∃ post', ls = pre ++ n :: post') ∨
      ((∀ m ∈ ls, K m) ∧ ∃ pre', rs = pre' ++ n :: post ∧ ∀ m ∈ pre', K m) := by
  rcases List.append_eq_append_iff.mp h with ⟨as, h1, h2⟩ | ⟨bs, h1, h2⟩
  · exact .inr ⟨fun m hm => hp m (by simp [h1, hm]), as, h2, fun m hm => hp m (by simp [h1, hm])⟩
  · cases bs with
    | nil => exact .inr ⟨fun m hm => hp m (by simpa [h1] using hm), [], by simpa using h2.symm, by simp⟩
    | cons c cs =>
      simp only [List.cons_append, List.cons.injEq] at h2
      exact .inl ⟨cs, by rw [h1, h2.1]⟩

omit [FloatBits F] in
theorem exprPowSpecial_vars {e : Expr F} {s : PowSpecial} (h : exprPowSpecial e = some s) :
    e.collectVariables = [] := by
  cases e <;> first | rfl | simp [exprPowSpecial] at h

omit [FloatBits F] in
theorem genExpr_error {varMap : FMap String Reg} {constants : FMap String F} (e : Expr F)
    {n : String} {pre post : List String} (hs : e.collectVariables = pre ++ n :: post)
    (hp : ∀ m ∈ pre, Known varMap constants m) (hn : ¬ Known varMap constants n) (b : Builder F) :
    genExpr varMap constants e b = .error (.unsupportedExpression ("Unknown variable: " ++ n)) := by
  induction e generalizing pre post b with
  | const c => simp [Expr.collectVariables] at hs
  | var m =>
    simp only [Expr.collectVariables] at hs
    have : m = n := by
      cases pre with
      | nil => simp at hs; exact hs.1
      | cons a as => simp at hs
    subst this
    simp only [Known, not_or, not_not] at hn
    simp only [genExpr, hn.1, hn.2, Gen.fail]
  | add l r il ir | sub l r il ir | mul l r il ir | div l r il ir =>
    simp only [genExpr]
    rcases split_first hp hs with ⟨post', h⟩ | ⟨hl, pre', h, hm⟩
    · exact bind_error (il h hp b)
    · exact (genExpr_appends l hl).bind_error (fun a b' => bind_error (ir h hm b')) b
  | pow l r il ir =>
    simp only [genExpr]
    rcases split_first hp hs with ⟨post', h⟩ | ⟨hl, pre', h, hm⟩
    · exact bind_error (il h hp b)
    · refine (genExpr_appends l hl).bind_error (fun a b' => ?_) b
      cases hc : exprPowSpecial r with
      | some s => rw [exprPowSpecial_vars hc] at h; simp at h
      | none => exact bind_error (ir h hm b')
  | ln e ih | exp e ih | sqrt e ih | sin e ih | cos e ih | neg e ih => exact bind_error (ih hs hp b)

/-! Recorded computations. -/

/-- The facts give every bound variable its value. -/
def ReprFacts (varMap : FMap String Reg) (σ : String → Option F) (Γ : Facts F) : Prop :=
  ∀ n r, varMap.get n = some r → ∃ x, σ n = some x ∧ (r, Val.f64 x) ∈ Γ

omit [FloatOps F] [FloatBits F] in
theorem ReprFacts.mono {varMap : FMap String Reg} {σ : String → Option F} {Δ : Facts F}
    (h : ReprFacts varMap σ Γ) (hs : Γ ⊆ Δ) : ReprFacts varMap σ Δ :=
  fun n r hr => let ⟨x, h1, h2⟩ := h n r hr; ⟨x, h1, hs h2⟩

omit [FloatBits F] in
theorem reprPowSpecial_vars {e : JitRepr F} {s : PowSpecial} (h : reprPowSpecial e = some s) :
    e.collectVariables = [] := by
  cases e <;> first | rfl | simp [reprPowSpecial] at h

omit [FloatBits F] in
theorem generateIr_appends {varMap : FMap String Reg} (e : JitRepr F)
    (h : ∀ n ∈ e.collectVariables, varMap.get n ≠ none) : Appends (generateIr varMap e) := by
  induction e with
  | constant c => exact Appends.emit _
  | named n =>
    simp only [generateIr]
    cases hv : varMap.get n with
    | some r => exact Appends.pure _
    | none => exact absurd hv (h n (by simp [JitRepr.collectVariables]))
  | add l r il ir | sub l r il ir | mul l r il ir | div l r il ir =>
    simp only [JitRepr.collectVariables, List.mem_append] at h
    exact (il fun n hn => h n (.inl hn)).bind fun _ => (ir fun n hn => h n (.inr hn)).bind fun _ =>
      Appends.emit _
  | pow l r il ir =>
    simp only [JitRepr.collectVariables, List.mem_append] at h
    refine (il fun n hn => h n (.inl hn)).bind fun _ => ?_
    cases reprPowSpecial r with
    | some s => exact genPowSpecial_appends _ _
    | none => exact (ir fun n hn => h n (.inr hn)).bind fun _ => genPow_appends _ _
  | ln e ih => exact (ih h).bind fun _ => genLn_appends _
  | exp e ih => exact (ih h).bind fun _ => genExp_appends _
  | sqrt e ih => exact (ih h).bind fun _ => Appends.emit _
  | sin e ih => exact (ih h).bind fun _ => genSin_appends _
  | cos e ih => exact (ih h).bind fun _ => genCos_appends _
  | neg e ih => exact (ih h).bind fun _ => Appends.emit _

theorem generateIr_yields {varMap : FMap String Reg} {σ : String → Option F} (e : JitRepr F)
    (h : ∀ n ∈ e.collectVariables, varMap.get n ≠ none) (hΓ : ReprFacts varMap σ Γ) :
    Yields args Γ (generateIr varMap e) (reprValue σ e) := by
  induction e generalizing Γ with
  | constant c => exact Yields.emit ev_f64const
  | named n =>
    simp only [generateIr, reprValue]
    cases hv : varMap.get n with
    | some r =>
      obtain ⟨x, h1, h2⟩ := hΓ n r hv
      rw [h1]
      exact Yields.pure h2
    | none => exact absurd hv (h n (by simp [JitRepr.collectVariables]))
  | add l r il ir | sub l r il ir | mul l r il ir | div l r il ir =>
    simp only [JitRepr.collectVariables, List.mem_append] at h
    exact (il (fun n hn => h n (.inl hn)) hΓ).seq
      (fun v _ => (ir (fun n hn => h n (.inr hn)) (hΓ.mono (List.subset_cons_self _ _))).seq
        (fun w _ => Yields.emit (by inst)) fun _ => Appends.emit _)
      fun _ => (generateIr_appends r fun n hn => h n (.inr hn)).bind fun _ => Appends.emit _
  | pow l r il ir =>
    simp only [JitRepr.collectVariables, List.mem_append] at h
    simp only [generateIr, reprValue]
    cases reprPowSpecial r with
    | some s =>
      exact (il (fun n hn => h n (.inl hn)) hΓ).seq
        (fun v _ => genPowSpecial_yields s (by reg)) fun _ => genPowSpecial_appends _ _
    | none =>
      exact (il (fun n hn => h n (.inl hn)) hΓ).seq
        (fun v _ => (ir (fun n hn => h n (.inr hn)) (hΓ.mono (List.subset_cons_self _ _))).seq
          (fun w _ => genPow_yields (by reg) (by reg)) fun _ => genPow_appends _ _)
        fun _ => (generateIr_appends r fun n hn => h n (.inr hn)).bind fun _ => genPow_appends _ _
  | ln e ih => exact (ih h hΓ).seq (fun _ _ => genLn_yields (by reg)) fun _ => genLn_appends _
  | exp e ih => exact (ih h hΓ).seq (fun _ _ => genExp_yields (by reg)) fun _ => genExp_appends _
  | sqrt e ih => exact (ih h hΓ).seq (fun _ _ => Yields.emit (by inst)) fun _ => Appends.emit _
  | sin e ih => exact (ih h hΓ).seq (fun _ _ => genSin_yields (by reg)) fun _ => genSin_appends _
  | cos e ih => exact (ih h hΓ).seq (fun _ _ => genCos_yields (by reg)) fun _ => genCos_appends _
  | neg e ih => exact (ih h hΓ).seq (fun _ _ => Yields.emit (by inst)) fun _ => Appends.emit _

omit [FloatBits F] in
theorem generateIr_error {varMap : FMap String Reg} (e : JitRepr F)
    {n : String} {pre post : List String} (hs : e.collectVariables = pre ++ n :: post)
    (hp : ∀ m ∈ pre, varMap.get m ≠ none) (hn : varMap.get n = none) (b : Builder F) :
    generateIr varMap e b = .error (.compilationError ("Unknown variable: " ++ n)) := by
  induction e generalizing pre post b with
  | constant c => simp [JitRepr.collectVariables] at hs
  | named m =>
    simp only [JitRepr.collectVariables] at hs
    have : m = n := by
      cases pre with
      | nil => simp at hs; exact hs.1
      | cons a as => simp at hs
    subst this
    simp only [generateIr, hn, Gen.fail]
  | add l r il ir | sub l r il ir | mul l r il ir | div l r il ir =>
    simp only [generateIr]
    rcases split_first hp hs with ⟨post', h⟩ | ⟨hl, pre', h, hm⟩
    · exact bind_error (il h hp b)
    · exact (generateIr_appends l hl).bind_error (fun a b' => bind_error (ir h hm b')) b
  | pow l r il ir =>
    simp only [generateIr]
    rcases split_first hp hs with ⟨post', h⟩ | ⟨hl, pre', h, hm⟩
    · exact bind_error (il h hp b)
    · refine (generateIr_appends l hl).bind_error (fun a b' => ?_) b
      cases hc : reprPowSpecial r with
      | some s => rw [reprPowSpecial_vars hc] at h; simp at h
      | none => exact bind_error (ir h hm b')
  | ln e ih | exp e ih | sqrt e ih | sin e ih | cos e ih | neg e ih => exact bind_error (ih hs hp b)

/-! Parameters. -/

theorem lookupArgs_append {β : Type} (ns ms : List String) (xs ys : List β) (n : String)
    (hl : ns.length = xs.length) : lookupArgs (ns ++ ms) (xs ++ ys) n =
      match lookupArgs ms ys n with
      | some y => some y
      | none => lookupArgs ns xs n := by
  induction ns generalizing xs with
  | nil =>
    have : xs = [] := List.length_eq_zero_iff.mp hl.symm
    subst this
    simp only [List.nil_append, lookupArgs]
    cases lookupArgs ms ys n <;> rfl
  | cons a as ih =>
    cases xs with
    | nil => simp at hl
    | cons x xs =>
      simp only [List.cons_append, lookupArgs, ih xs (by simpa using hl)]
      cases lookupArgs ms ys n <;> rfl

theorem lookupArgs_isSome {β : Type} (ns : List String) (xs : List β) (n : String)
    (hl : ns.length = xs.length) : lookupArgs ns xs n ≠ none ↔ n ∈ ns := by
  induction ns generalizing xs with
  | nil => simp [lookupArgs]
  | cons a as ih =>
    cases xs with
    | nil => simp at hl
    | cons x xs =>
      have := ih xs (by simpa using hl)
      simp only [lookupArgs]
      cases h : lookupArgs as xs n with
      | some y => simp [← this, h]
      | none =>
        have : n ∉ as := by rw [← this]; simp [h]
        by_cases hn : a = n
        · simp [hn]
        · simp [hn, this, Ne.symm hn]

theorem bindParams_get (m : FMap String Reg) (first : Reg) (ns : List String) (n : String) :
    (bindParams m first ns).get n =
      match lookupArgs ns (List.range' first ns.length) n with
      | some r => some r
      | none => m.get n := by
  induction ns generalizing m first with
  | nil => simp [bindParams, lookupArgs]
  | cons a as ih =>
    simp only [bindParams, ih, List.length_cons, List.range'_succ, lookupArgs]
    cases lookupArgs as (List.range' (first + 1) as.length) n with
    | some r => rfl
    | none =>
      simp only [FMap.insert]
      by_cases h : n = a
      · simp [h]
      · simp [h, Ne.symm h]

theorem varMapOf_get (ds ps : List String) (n : String) :
    (varMapOf ds ps).get n =
      lookupArgs (ds ++ ps) (List.range' 0 (ds.length + ps.length)) n := by
  have h : List.range' 0 (ds.length + ps.length) =
      List.range' 0 ds.length ++ List.range' ds.length ps.length := by
    simpa using (List.range'_append (s := 0) (m := ds.length) (n := ps.length) (step := 1)).symm
  rw [h, lookupArgs_append _ _ _ _ _ (by simp), varMapOf, bindParams_get]
  cases lookupArgs ps (List.range' ds.length ps.length) n with
  | some r => rfl
  | none =>
    simp only [bindParams_get]
    cases lookupArgs ds (List.range' 0 ds.length) n <;> rfl

theorem lookupArgs_index {β : Type} (ns : List String) (xs : List β) (first : ℕ) (n : String)
    (hl : ns.length = xs.length) (full : List β) (hf : ∀ j x, xs[j]? = some x →
      full[first + j]? = some x) {r : ℕ}
    (h : lookupArgs ns (List.range' first ns.length) n = some r) :
    ∃ x, lookupArgs ns xs n = some x ∧ full[r]? = some x := by
  induction ns generalizing xs first with
  | nil => simp [lookupArgs] at h
  | cons a as ih =>
    cases xs with
    | nil => simp at hl
    | cons x xs =>
      have hf' : ∀ j y, xs[j]? = some y → full[first + 1 + j]? = some y := fun j y hy => by
        have := hf (j + 1) y (by simpa using hy)
        rwa [show first + 1 + j = first + (j + 1) by omega]
      simp only [List.length_cons, List.range'_succ, lookupArgs] at h ⊢
      cases h1 : lookupArgs as (List.range' (first + 1) as.length) n with
      | some r' =>
        simp only [h1, Option.some.injEq] at h
        subst h
        obtain ⟨y, h2, h3⟩ := ih xs (first + 1) (by simpa using hl) hf' h1
        exact ⟨y, by simp [h2], h3⟩
      | none =>
        simp only [h1] at h
        have hn : n ∉ as := by
          rw [← lookupArgs_isSome as (List.range' (first + 1) as.length) n (by simp)]
          simp [h1]
        have h2 : lookupArgs as xs n = none := by
          by_contra hc
          exact hn ((lookupArgs_isSome as xs n (by simpa using hl)).mp hc)
        split_ifs at h with ha
        · obtain rfl : first = r := by simpa using h
          exact ⟨x, by simp [h2, ha], by simpa using hf 0 x (by simp)⟩

/-- What is known at function entry: parameter `i` holds argument `i`. -/
def entryFacts (xs : List F) : Facts F := xs.zipIdx.map fun p => (p.2, .f64 p.1)

theorem entry_ok (xs : List F) : Ok (xs.map Val.f64) ⟨xs.length, []⟩ (entryFacts xs) := by
  refine ⟨xs.map Val.f64, rfl, by simp, ?_⟩
  intro p hp
  simp only [entryFacts, List.mem_map] at hp
  obtain ⟨q, hq, rfl⟩ := hp
  have := List.mem_zipIdx_iff_getElem?.mp hq
  simp [this]

omit [FloatOps F] [FloatBits F] in
theorem mem_entryFacts {xs : List F} {i : ℕ} {x : F} (h : xs[i]? = some x) :
    (i, Val.f64 x) ∈ entryFacts xs := by
  simp only [entryFacts, List.mem_map]
  exact ⟨(x, i), List.mem_zipIdx_iff_getElem?.mpr h, rfl⟩

theorem run_of_yields {xs : List F} {Γ : Facts F} {g : Gen F Reg} {o : Option F} {n : ℕ}
    {code : List (Inst F)} {r : Reg} {sig : JitSignature} {st : CompilationStats F}
    (hb : build n g = .ok (n, code, r)) (hn : n = xs.length)
    (hΓ : Ok (xs.map Val.f64) ⟨xs.length, []⟩ Γ)
    (h : Yields (xs.map Val.f64) Γ g o) :
    run ⟨n, code, r, sig, st⟩ xs = Result.ofOption o := by
  subst hn
  obtain ⟨r', b', h1, h2⟩ := h _ hΓ
  simp only [build, h1, Except.ok.injEq, Prod.mk.injEq, true_and] at hb
  obtain ⟨rfl, rfl⟩ := hb
  cases o with
  | none =>
    simp only [Trapped] at h2
    simp [run, h2, Result.ofOption]
  | some v =>
    obtain ⟨ρ, h3, -, h4⟩ := h2
    have := h4 _ List.mem_cons_self
    simp only at this
    simp [run, h3, getF, this, Result.ofOption]

end Verif.Jit
