import Verif.Lemmas.EgglogEngine
import Mathlib.Algebra.Order.Round
import Mathlib.Logic.Encodable.Basic
import Mathlib.Data.Rat.Encodable

/-! A faithful engine exists. -/

namespace Verif.Egglog
open Verif Verif.Spec Verif.Spec.Egglog XReal

section
variable {F : Type} {parse : Text → Option F}

theorem cut_unique {stop : Char} {s s' r r' : Text} (h : ∀ c ∈ s, c ≠ stop)
    (h' : ∀ c ∈ s', c ≠ stop) (e : s ++ stop :: r = s' ++ stop :: r') : s = s' ∧ r = r' := by
  induction s generalizing s' with
  | nil =>
    cases s' with
    | nil => simpa using e
    | cons c cs =>
      simp only [List.nil_append, List.cons_append, List.cons.injEq] at e
      exact absurd e.1.symm (h' c (by simp))
  | cons d ds ih =>
    cases s' with
    | nil =>
      simp only [List.nil_append, List.cons_append, List.cons.injEq] at e
      exact absurd e.1 (h d (by simp))
    | cons c cs =>
      simp only [List.cons_append, List.cons.injEq] at e
      obtain ⟨rfl, e⟩ := e
      obtain ⟨rfl, rfl⟩ := ih (fun x hx => h x (by simp [hx])) (fun x hx => h' x (by simp [hx])) e
      exact ⟨rfl, rfl⟩

theorem Reads.code {s s' : Text} {t t' : Expr F} (h : Reads parse s t) (h' : Reads parse s' t')
    {r r' : Text} (e : s ++ r = s' ++ r') : s = s' ∧ t = t' ∧ r = r' := by
  induction h generalizing s' t' r r' with
  | const hs hc =>
    cases h' <;> simp at e
    rename_i hs' hc'
    obtain ⟨rfl, rfl⟩ := cut_unique (fun c hc => (hs c hc).2.1) (fun c hc => (hs' c hc).2.1) e
    rw [hc] at hc'
    simp at hc'
    simp [hc']
  | var hn =>
    cases h' <;> simp at e
    rename_i hn'
    obtain ⟨h1, h2⟩ := cut_unique (fun c hc => (hn c hc).1) (fun c hc => (hn' c hc).1) e
    have := String.toList_inj.1 h1
    subst this
    simp at h2
    simp [h2]
  | add _ _ ih1 ih2 | sub _ _ ih1 ih2 | mul _ _ ih1 ih2 | div _ _ ih1 ih2 | pow _ _ ih1 ih2 =>
    cases h' <;> simp at e
    rename_i ha hb
    obtain ⟨rfl, rfl, e⟩ := ih1 ha e
    simp at e
    obtain ⟨rfl, rfl, e⟩ := ih2 hb e
    simp at e
    simp [e]
  | ln _ ih | exp _ ih | sqrt _ ih | sin _ ih | cos _ ih | neg _ ih =>
    cases h' <;> simp at e
    rename_i ha
    obtain ⟨rfl, rfl, e⟩ := ih ha e
    simp at e
    simp [e]

theorem Reads.unique {s : Text} {t t' : Expr F} (h : Reads parse s t) (h' : Reads parse s t') :
    t = t' := (Reads.code h h' (r := []) (r' := []) rfl).2.1

end

/-! ### Number texts -/

/-- A number text is decoded from its length. -/
noncomputable def exParse (s : Text) : Option XReal :=
  match s.length with
  | 0 => some XReal.nan
  | 1 => some XReal.pinf
  | 2 => some XReal.ninf
  | n + 3 => (Encodable.decode (α := ℚ) n).map fun q : ℚ => fin (q : ℝ)

/-- Numbers that have a text. -/
def Nice (c : XReal) : Prop := (∃ q : ℚ, c = fin (q : ℝ)) ∨ c = XReal.nan ∨ c = XReal.pinf ∨ c = XReal.ninf

/-- A text of `n` characters. -/
def digits (n : ℕ) : Text := List.replicate n '1'

theorem digits_plain (n : ℕ) : NumberText (digits n) := by
  intro c hc
  rw [digits, List.mem_replicate] at hc
  rw [hc.2]; decide

theorem nice_text {c : XReal} (h : Nice c) : ∃ s, NumberText s ∧ exParse s = some c := by
  rcases h with ⟨q, rfl⟩ | rfl | rfl | rfl
  · refine ⟨digits (Encodable.encode q + 3), digits_plain _, ?_⟩
    simp [exParse, digits]
  · exact ⟨digits 0, digits_plain _, by simp [exParse, digits]⟩
  · exact ⟨digits 1, digits_plain _, by simp [exParse, digits]⟩
  · exact ⟨digits 2, digits_plain _, by simp [exParse, digits]⟩

/-- Rounding to one decimal. -/
noncomputable def exRound : XReal → XReal
  | fin x => fin ((round (10 * x) : ℤ) / 10)
  | c => c

theorem exRound_nice (c : XReal) : Nice (exRound c) := by
  cases c with
  | fin x => exact .inl ⟨(round (10 * x) : ℤ) / 10, by simp [exRound]⟩
  | nan => exact .inr (.inl rfl)
  | pinf => exact .inr (.inr (.inl rfl))
  | ninf => exact .inr (.inr (.inr rfl))

theorem exRound_tenth : RoundsToTenth exRound := by
  intro x
  refine ⟨round (10 * x), rfl, ?_⟩
  have h := abs_sub_round (10 * x)
  rw [abs_le] at h ⊢
  constructor <;> linarith [h.1, h.2]

theorem exRound_of_tenth (k : ℤ) : exRound (fin ((k : ℝ) / 10)) = fin ((k : ℝ) / 10) := by
  have : (10 : ℝ) * ((k : ℝ) / 10) = k := by ring
  simp [exRound, this]

/-- `format!("{c:.1}")` for these texts. -/
noncomputable def exFmt (c : XReal) : Text := (nice_text (exRound_nice c)).choose

theorem exFmt_prints : PrintsRounded exFmt exParse exRound where
  plain c := (nice_text (exRound_nice c)).choose_spec.1
  reads c := (nice_text (exRound_nice c)).choose_spec.2

theorem nice_add {a b : XReal} (ha : Nice a) (hb : Nice b) : Nice (FloatOps.add a b) := by
  show Nice (XReal.add a b)
  rcases ha with ⟨p, rfl⟩ | rfl | rfl | rfl <;> rcases hb with ⟨q, rfl⟩ | rfl | rfl | rfl <;>
    simp [XReal.add, Nice]
  exact ⟨p + q, by push_cast; rfl⟩

theorem nice_neg {a : XReal} (ha : Nice a) : Nice (XReal.neg a) := by
  rcases ha with ⟨p, rfl⟩ | rfl | rfl | rfl <;> simp [XReal.neg, Nice]
  exact ⟨-p, by push_cast; rfl⟩

theorem nice_sub {a b : XReal} (ha : Nice a) (hb : Nice b) : Nice (FloatOps.sub a b) :=
  nice_add ha (nice_neg hb)

theorem nice_infOf (r : ℝ) : Nice (infOf r) := by
  unfold infOf; split_ifs <;> simp [Nice]

theorem nice_mul {a b : XReal} (ha : Nice a) (hb : Nice b) : Nice (FloatOps.mul a b) := by
  show Nice (XReal.mul a b)
  rcases ha with ⟨p, rfl⟩ | rfl | rfl | rfl <;> rcases hb with ⟨q, rfl⟩ | rfl | rfl | rfl
  case inl.inl => exact .inl ⟨p * q, by simp [XReal.mul]⟩
  all_goals first | exact nice_infOf _ | simp [XReal.mul, Nice]

theorem nice_div {a b : XReal} (ha : Nice a) (hb : Nice b) : Nice (FloatOps.div a b) := by
  show Nice (XReal.div a b)
  rcases ha with ⟨p, rfl⟩ | rfl | rfl | rfl <;> rcases hb with ⟨q, rfl⟩ | rfl | rfl | rfl
  case inl.inl =>
    simp only [XReal.div]
    split_ifs
    · exact nice_infOf _
    · exact .inl ⟨p / q, by simp⟩
  all_goals simp only [XReal.div]
  all_goals first
    | (split_ifs <;> simp [Nice]; done)
    | (simp [Nice]; done)
    | exact .inl ⟨0, by simp⟩

/-- The variables of an `f64` position. -/
def Num.vars : Num → List String
  | .lit _ => []
  | .var n => [n]
  | .add a b | .sub a b | .mul a b | .div a b => a.vars ++ b.vars

theorem nice_num {κ : String → XReal} (c : Num) (h : ∀ n ∈ c.vars, Nice (κ n)) :
    Nice (c.inst κ) := by
  induction c with
  | lit q => exact .inl ⟨q, rfl⟩
  | var n => exact h n (by simp [Num.vars])
  | add a b iha ihb =>
    exact nice_add (iha fun n hn => h n (by simp [Num.vars, hn]))
      (ihb fun n hn => h n (by simp [Num.vars, hn]))
  | sub a b iha ihb =>
    exact nice_sub (iha fun n hn => h n (by simp [Num.vars, hn]))
      (ihb fun n hn => h n (by simp [Num.vars, hn]))
  | mul a b iha ihb =>
    exact nice_mul (iha fun n hn => h n (by simp [Num.vars, hn]))
      (ihb fun n hn => h n (by simp [Num.vars, hn]))
  | div a b iha ihb =>
    exact nice_div (iha fun n hn => h n (by simp [Num.vars, hn]))
      (ihb fun n hn => h n (by simp [Num.vars, hn]))

/-- The variables at `f64` positions of one side of a rule. -/
def numVars : Pat → List String
  | .hole _ => []
  | .const c => c.vars
  | .add l r | .sub l r | .mul l r | .div l r | .pow l r => numVars l ++ numVars r
  | .ln e | .exp e | .sqrt e | .sin e | .cos e | .neg e => numVars e

/-- The variables that stand for a whole literal. -/
def litVars : Pat → List String
  | .const (.var n) => [n]
  | .hole _ | .const _ => []
  | .add l r | .sub l r | .mul l r | .div l r | .pow l r => litVars l ++ litVars r
  | .ln e | .exp e | .sqrt e | .sin e | .cos e | .neg e => litVars e

theorem rules_numVars : ∀ p ∈ rules, ∀ n ∈ numVars p.2, n ∈ litVars p.1 := by decide

/-- Every literal has a text and every name can be written. -/
def Writable (t : Expr XReal) : Prop :=
  NamesIn PlainName t ∧ ∀ c, Sub (.const c) t → Nice c

theorem Writable.child {t c : Expr XReal} (h : Writable t) (hc : c ∈ children t) : Writable c :=
  ⟨fun n hn => h.1 n (occurs_child hc hn), fun k hk => h.2 k (.step hc hk)⟩

theorem occurs_of_child {n : String} {t : Expr XReal} (ht : t ≠ .var n) (h : Occurs n t) :
    ∃ c ∈ children t, Occurs n c := by
  cases h
  case var => exact absurd rfl ht
  all_goals
    rename_i ho
    first
    | exact ⟨_, .head _, ho⟩
    | exact ⟨_, .tail _ (.head _), ho⟩

theorem Writable.intro {t : Expr XReal} (ht : ∀ n, t ≠ .var n) (ht' : ∀ c, t ≠ .const c)
    (h : ∀ c ∈ children t, Writable c) : Writable t := by
  refine ⟨fun n hn => ?_, fun k hk => ?_⟩
  · obtain ⟨c, hc, ho⟩ := occurs_of_child (ht n) hn
    exact (h c hc).1 n ho
  · cases hk with
    | refl => exact absurd rfl (ht' k)
    | step hc hs => exact (h _ hc).2 k hs

theorem Writable.text {t : Expr XReal} (h : Writable t) : ∃ s, Reads exParse s t := by
  induction t with
  | const c =>
    obtain ⟨s, h1, h2⟩ := nice_text (h.2 c .refl)
    exact ⟨_, .const h1 h2⟩
  | var n => exact ⟨_, .var (h.1 n .var)⟩
  | add l r ihl ihr | sub l r ihl ihr | mul l r ihl ihr | div l r ihl ihr | pow l r ihl ihr =>
    obtain ⟨a, ha⟩ := ihl (h.child (by simp [children]))
    obtain ⟨b, hb⟩ := ihr (h.child (by simp [children]))
    first
      | exact ⟨_, .add ha hb⟩ | exact ⟨_, .sub ha hb⟩ | exact ⟨_, .mul ha hb⟩
      | exact ⟨_, .div ha hb⟩ | exact ⟨_, .pow ha hb⟩
  | ln e ih | exp e ih | sqrt e ih | sin e ih | cos e ih | neg e ih =>
    obtain ⟨a, ha⟩ := ih (h.child (by simp [children]))
    first
      | exact ⟨_, .ln ha⟩ | exact ⟨_, .exp ha⟩ | exact ⟨_, .sqrt ha⟩
      | exact ⟨_, .sin ha⟩ | exact ⟨_, .cos ha⟩ | exact ⟨_, .neg ha⟩

theorem Reads.writable {s : Text} {t : Expr XReal} (h : Reads exParse s t) : Writable t := by
  induction h with
  | @const s c hs hc =>
    refine ⟨fun n hn => (by cases hn), fun k hk => ?_⟩
    have : k = c := by
      cases hk with
      | refl => rfl
      | step hc hs => simp [children] at hc
    subst this
    unfold exParse at hc
    split at hc
    · simp at hc; rw [← hc]; exact .inr (.inl rfl)
    · simp at hc; rw [← hc]; exact .inr (.inr (.inl rfl))
    · simp at hc; rw [← hc]; exact .inr (.inr (.inr rfl))
    · rw [Option.map_eq_some_iff] at hc
      obtain ⟨q, -, rfl⟩ := hc
      exact .inl ⟨q, rfl⟩
  | @var n hn =>
    refine ⟨fun m hm => (by cases hm; exact hn), fun k hk => ?_⟩
    cases hk with
    | step hc hs => simp [children] at hc
  | add _ _ ih1 ih2 | sub _ _ ih1 ih2 | mul _ _ ih1 ih2 | div _ _ ih1 ih2 | pow _ _ ih1 ih2 =>
    exact Writable.intro (by simp) (by simp) (by
      intro c hc
      simp only [children, List.mem_cons, List.not_mem_nil, or_false] at hc
      rcases hc with rfl | rfl
      · exact ih1
      · exact ih2)
  | ln _ ih | exp _ ih | sqrt _ ih | sin _ ih | cos _ ih | neg _ ih =>
    exact Writable.intro (by simp) (by simp) (by
      intro c hc
      simp only [children, List.mem_cons, List.not_mem_nil, or_false] at hc
      subst hc; exact ih)

/-- Everything stored is writable. -/
def AllWritable (G : EGraph XReal) : Prop := ∀ s t, G s t → Writable s ∧ Writable t

theorem AllWritable.close {R : EGraph XReal} (h : AllWritable R) : AllWritable (EGraph.Close R) := by
  intro s t hst
  induction hst with
  | base hb => exact h _ _ hb
  | symm _ ih => exact ⟨ih.2, ih.1⟩
  | trans _ _ ih1 ih2 => exact ⟨ih1.1, ih2.2⟩
  | child _ hc ih => exact ⟨ih.1.child hc, ih.1.child hc⟩
  | add _ _ _ ih0 ih1 ih2 | sub _ _ _ ih0 ih1 ih2 | mul _ _ _ ih0 ih1 ih2
  | div _ _ _ ih0 ih1 ih2 | pow _ _ _ ih0 ih1 ih2 =>
    refine ⟨ih0.1, Writable.intro (by simp) (by simp) ?_⟩
    intro c hc
    simp only [children, List.mem_cons, List.not_mem_nil, or_false] at hc
    rcases hc with rfl | rfl
    · exact ih1.2
    · exact ih2.2
  | ln _ _ ih0 ih1 | exp _ _ ih0 ih1 | sqrt _ _ ih0 ih1 | sin _ _ ih0 ih1 | cos _ _ ih0 ih1
  | neg _ _ ih0 ih1 =>
    refine ⟨ih0.1, Writable.intro (by simp) (by simp) ?_⟩
    intro c hc
    simp only [children, List.mem_cons, List.not_mem_nil, or_false] at hc
    subst hc; exact ih1.2

theorem writable_holes {p : Pat} {σ : String → Expr XReal} {κ : String → XReal}
    (h : Writable (p.inst σ κ)) :
    (∀ x ∈ holes p, Writable (σ x)) ∧ ∀ x ∈ litVars p, Nice (κ x) := by
  induction p with
  | hole n => simpa [holes, litVars, Pat.inst] using h
  | const c =>
    refine ⟨by simp [holes], fun x hx => ?_⟩
    cases c <;> simp [litVars] at hx
    subst hx
    exact h.2 _ .refl
  | add l r ihl ihr | sub l r ihl ihr | mul l r ihl ihr | div l r ihl ihr | pow l r ihl ihr =>
    have h1 := ihl (h.child (by simp [children, Pat.inst]))
    have h2 := ihr (h.child (by simp [children, Pat.inst]))
    simp only [holes, litVars, List.mem_append]
    exact ⟨fun x hx => hx.elim (h1.1 x) (h2.1 x), fun x hx => hx.elim (h1.2 x) (h2.2 x)⟩
  | ln e ih | exp e ih | sqrt e ih | sin e ih | cos e ih | neg e ih =>
    exact ih (h.child (by simp [children, Pat.inst]))

theorem writable_inst {p : Pat} {σ : String → Expr XReal} {κ : String → XReal}
    (h1 : ∀ x ∈ holes p, Writable (σ x)) (h2 : ∀ x ∈ numVars p, Nice (κ x)) :
    Writable (p.inst σ κ) := by
  induction p with
  | hole n => exact h1 n (by simp [holes])
  | const c =>
    refine ⟨fun n hn => (by cases hn), fun k hk => ?_⟩
    cases hk with
    | refl => exact nice_num c h2
    | step hc hs => simp [children, Pat.inst] at hc
  | add l r ihl ihr | sub l r ihl ihr | mul l r ihl ihr | div l r ihl ihr | pow l r ihl ihr =>
    refine Writable.intro (by simp [Pat.inst]) (by simp [Pat.inst]) ?_
    intro c hc
    simp only [Pat.inst, children, List.mem_cons, List.not_mem_nil, or_false] at hc
    rcases hc with rfl | rfl
    · exact ihl (fun x hx => h1 x (by simp [holes, hx])) (fun x hx => h2 x (by simp [numVars, hx]))
    · exact ihr (fun x hx => h1 x (by simp [holes, hx])) (fun x hx => h2 x (by simp [numVars, hx]))
  | ln e ih | exp e ih | sqrt e ih | sin e ih | cos e ih | neg e ih =>
    refine Writable.intro (by simp [Pat.inst]) (by simp [Pat.inst]) ?_
    intro c hc
    simp only [Pat.inst, children, List.mem_cons, List.not_mem_nil, or_false] at hc
    subst hc
    exact ih h1 h2

theorem AllWritable.round {G : EGraph XReal} (h : AllWritable G) : AllWritable (G.round rules) := by
  refine AllWritable.close ?_
  rintro s t (hst | ⟨hs, p, hp, σ, κ, rfl, rfl⟩)
  · exact h s t hst
  · have hl := (h _ _ hs).1
    have := writable_holes hl
    exact ⟨hl, writable_inst (fun x hx => this.1 x (rules_holes p hp x hx))
      (fun x hx => this.2 x (rules_numVars p hp x hx))⟩

theorem AllWritable.rounds (n : ℕ) : ∀ {G : EGraph XReal}, AllWritable G →
    AllWritable (G.rounds rules n) := by
  induction n with
  | zero => intro G h; exact h
  | succ n ih => intro G h; exact ih h.round

theorem AllWritable.insert {G : EGraph XReal} {t : Expr XReal} (h : AllWritable G)
    (ht : Writable t) : AllWritable (G.insert t) := by
  refine AllWritable.close ?_
  rintro a b (hab | ⟨rfl, rfl⟩)
  · exact h a b hab
  · exact ⟨ht, ht⟩

/-! ### The engine -/

/-- What the engine stores. -/
structure ExState where
  graph : EGraph XReal
  names : ℕ → Option (Expr XReal)
  writable : AllWritable graph

theorem exists_cheapest (G : EGraph XReal) {t : Expr XReal} (h : G t t) : ∃ u, Cheapest G t u := by
  classical
  have hne : ∃ n, ∃ u, G t u ∧ cost u = n := ⟨_, t, h, rfl⟩
  obtain ⟨u, hu, hc⟩ := Nat.find_spec hne
  refine ⟨u, hu, fun w hw => ?_⟩
  rw [hc]
  exact Nat.find_min' hne ⟨w, hw, rfl⟩

theorem exists_answer (s : ExState) {t : Expr XReal} (h : s.graph t t) :
    ∃ text u, Reads exParse text u ∧ Cheapest s.graph t u := by
  obtain ⟨u, hu⟩ := exists_cheapest s.graph h
  obtain ⟨text, ht⟩ := (s.writable _ _ hu.1).2.text
  exact ⟨text, u, ht, hu⟩

open Classical in
/-- An engine that does equality saturation. -/
noncomputable def exEngine : Engine ExState Unit where
  run s
  | .letExpr id text =>
    if h : ∃ t, Reads exParse text t then
      (⟨s.graph.insert h.choose, Function.update s.names id (some h.choose),
        s.writable.insert (Reads.writable h.choose_spec)⟩, .ok [])
    else (s, .error ())
  | .run n => (⟨s.graph.rounds rules n, s.names, s.writable.rounds n⟩, .ok [])
  | .extract id =>
    if h : ∃ t, s.names id = some t ∧ s.graph t t then
      (s, .ok [(exists_answer s h.choose_spec.2).choose])
    else (s, .error ())

theorem exEngine_faithful :
    Faithful exParse rules exEngine ExState.graph ExState.names where
  letExpr s id text t ht _ := by
    have h : ∃ t, Reads exParse text t := ⟨t, ht⟩
    have e : h.choose = t := Reads.unique h.choose_spec ht
    exact ⟨_, [], by simp only [exEngine, dif_pos h]; rfl, by simp only [e], by simp only [e]⟩
  run s n := ⟨_, [], rfl, rfl, rfl⟩
  extract s id t ht hg := by
    have h : ∃ t, s.names id = some t ∧ s.graph t t := ⟨t, ht, hg⟩
    have e : h.choose = t := by
      exact Option.some.inj (h.choose_spec.1.symm.trans ht)
    obtain ⟨u, hu, hc⟩ := (exists_answer s h.choose_spec.2).choose_spec
    refine ⟨s, _, u, [], by simp only [exEngine, dif_pos h], hu, ?_, rfl, rfl⟩
    rw [e] at hc
    exact hc

/-- The engine before any term is given. -/
def exStart : ExState := ⟨EGraph.empty, fun _ => none, fun _ _ h => h.elim⟩

theorem exStart_fresh : Fresh ExState.graph ExState.names exStart := ⟨rfl, fun _ => rfl⟩

end Verif.Egglog
