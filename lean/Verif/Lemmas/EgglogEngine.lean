import Verif.Lemmas.Egglog
import Verif.Lemmas.EgglogText

/-! One call of the optimizer with a faithful engine. -/

namespace Verif.Egglog
open Verif Verif.Spec Verif.Spec.Egglog

section
variable {F : Type} [FloatOps F]

theorem inst_occurs {p : Pat} {σ : String → Expr F} {κ : String → F} {n : String} :
    Occurs n (p.inst σ κ) ↔ ∃ x ∈ holes p, Occurs n (σ x) := by
  induction p with
  | hole x => simp [Pat.inst, holes]
  | const c =>
    simp only [Pat.inst, holes, List.not_mem_nil, false_and, exists_false, iff_false]
    intro h; cases h
  | add l r ihl ihr | sub l r ihl ihr | mul l r ihl ihr | div l r ihl ihr | pow l r ihl ihr =>
    simp only [Pat.inst, holes, List.mem_append, or_and_right, exists_or, ← ihl, ← ihr]
    constructor
    · intro h; cases h <;> simp_all
    · rintro (h | h)
      · first | exact .addL h | exact .subL h | exact .mulL h | exact .divL h | exact .powL h
      · first | exact .addR h | exact .subR h | exact .mulR h | exact .divR h | exact .powR h
  | ln e ih | exp e ih | sqrt e ih | sin e ih | cos e ih | neg e ih =>
    simp only [Pat.inst, holes, ← ih]
    constructor
    · intro h; cases h; assumption
    · intro h; constructor; exact h

/-- Every name in the expression satisfies `P`. -/
def NamesIn {F : Type} (P : String → Prop) (t : Expr F) : Prop := ∀ n, Occurs n t → P n

/-- Every name stored in the e-graph satisfies `P`. -/
def GraphNames {F : Type} (P : String → Prop) (G : EGraph F) : Prop :=
  ∀ s t, G s t → NamesIn P s ∧ NamesIn P t

omit [FloatOps F] in
theorem GraphNames.close {P : String → Prop} {R : EGraph F} (h : GraphNames P R) :
    GraphNames P (EGraph.Close R) := by
  intro s t hst
  induction hst with
  | base hb => exact h _ _ hb
  | symm _ ih => exact ⟨ih.2, ih.1⟩
  | trans _ _ ih1 ih2 => exact ⟨ih1.1, ih2.2⟩
  | child _ hc ih =>
    exact ⟨fun n hn => ih.1 n (occurs_child hc hn), fun n hn => ih.1 n (occurs_child hc hn)⟩
  | add _ _ _ ih0 ih1 ih2 | sub _ _ _ ih0 ih1 ih2 | mul _ _ _ ih0 ih1 ih2
  | div _ _ _ ih0 ih1 ih2 | pow _ _ _ ih0 ih1 ih2 =>
    refine ⟨ih0.1, fun n hn => ?_⟩
    cases hn
    · exact ih1.2 n (by assumption)
    · exact ih2.2 n (by assumption)
  | ln _ _ ih0 ih1 | exp _ _ ih0 ih1 | sqrt _ _ ih0 ih1 | sin _ _ ih0 ih1 | cos _ _ ih0 ih1
  | neg _ _ ih0 ih1 =>
    refine ⟨ih0.1, fun n hn => ?_⟩
    cases hn
    exact ih1.2 n (by assumption)

theorem GraphNames.round {P : String → Prop} {G : EGraph F} (h : GraphNames P G) :
    GraphNames P (G.round rules) := by
  refine GraphNames.close ?_
  rintro s t (hst | ⟨hs, p, hp, σ, κ, rfl, rfl⟩)
  · exact h s t hst
  · refine ⟨(h _ _ hs).1, fun n hn => (h _ _ hs).1 n ?_⟩
    obtain ⟨x, hx, ho⟩ := inst_occurs.1 hn
    exact inst_occurs.2 ⟨x, rules_holes p hp x hx, ho⟩

theorem GraphNames.rounds {P : String → Prop} (n : ℕ) : ∀ {G : EGraph F}, GraphNames P G →
    GraphNames P (G.rounds rules n) := by
  induction n with
  | zero => intro G h; exact h
  | succ n ih => intro G h; exact ih (GraphNames.round h)

omit [FloatOps F] in
theorem GraphNames.insert {P : String → Prop} {G : EGraph F} {t : Expr F} (h : GraphNames P G)
    (ht : NamesIn P t) : GraphNames P (G.insert t) := by
  refine GraphNames.close ?_
  rintro a b (hab | ⟨rfl, rfl⟩)
  · exact h a b hab
  · exact ⟨ht, ht⟩

omit [FloatOps F] in
theorem insert_mono {G : EGraph F} {t a b : Expr F} (h : G a b) : G.insert t a b :=
  .base (.inl h)

omit [FloatOps F] in
theorem insert_self {G : EGraph F} {t : Expr F} : G.insert t t t := .base (.inr ⟨rfl, rfl⟩)

theorem round_mono {rs : List (Pat × Pat)} {G : EGraph F} {a b : Expr F} (h : G a b) :
    G.round rs a b := .base (.inl h)

theorem rounds_mono {rs : List (Pat × Pat)} (n : ℕ) : ∀ {G : EGraph F} {a b : Expr F}, G a b →
    G.rounds rs n a b := by
  induction n with
  | zero => intro G a b h; exact h
  | succ n ih => intro G a b h; exact ih (round_mono h)

theorem rounds_add {rs : List (Pat × Pat)} (m n : ℕ) : ∀ (G : EGraph F),
    G.rounds rs (m + n) = (G.rounds rs m).rounds rs n := by
  induction m with
  | zero => intro G; simp [EGraph.rounds]
  | succ m ih =>
    intro G
    rw [Nat.succ_add]
    simp only [EGraph.rounds]
    exact ih _

omit [FloatOps F] in
theorem occurs_mapConst {f : F → F} {e : Expr F} {n : String} :
    Occurs n (mapConst f e) ↔ Occurs n e := by
  induction e with
  | const c => constructor <;> intro h <;> cases h
  | var m => rfl
  | add l r ihl ihr =>
    constructor <;> intro h <;> cases h
    · exact .addL (ihl.1 (by assumption))
    · exact .addR (ihr.1 (by assumption))
    · exact .addL (ihl.2 (by assumption))
    · exact .addR (ihr.2 (by assumption))
  | sub l r ihl ihr =>
    constructor <;> intro h <;> cases h
    · exact .subL (ihl.1 (by assumption))
    · exact .subR (ihr.1 (by assumption))
    · exact .subL (ihl.2 (by assumption))
    · exact .subR (ihr.2 (by assumption))
  | mul l r ihl ihr =>
    constructor <;> intro h <;> cases h
    · exact .mulL (ihl.1 (by assumption))
    · exact .mulR (ihr.1 (by assumption))
    · exact .mulL (ihl.2 (by assumption))
    · exact .mulR (ihr.2 (by assumption))
  | div l r ihl ihr =>
    constructor <;> intro h <;> cases h
    · exact .divL (ihl.1 (by assumption))
    · exact .divR (ihr.1 (by assumption))
    · exact .divL (ihl.2 (by assumption))
    · exact .divR (ihr.2 (by assumption))
  | pow l r ihl ihr =>
    constructor <;> intro h <;> cases h
    · exact .powL (ihl.1 (by assumption))
    · exact .powR (ihr.1 (by assumption))
    · exact .powL (ihl.2 (by assumption))
    · exact .powR (ihr.2 (by assumption))
  | ln e ih => exact ⟨fun h => by cases h; exact .ln (ih.1 (by assumption)),
      fun h => by cases h; exact .ln (ih.2 (by assumption))⟩
  | exp e ih => exact ⟨fun h => by cases h; exact .exp (ih.1 (by assumption)),
      fun h => by cases h; exact .exp (ih.2 (by assumption))⟩
  | sqrt e ih => exact ⟨fun h => by cases h; exact .sqrt (ih.1 (by assumption)),
      fun h => by cases h; exact .sqrt (ih.2 (by assumption))⟩
  | sin e ih => exact ⟨fun h => by cases h; exact .sin (ih.1 (by assumption)),
      fun h => by cases h; exact .sin (ih.2 (by assumption))⟩
  | cos e ih => exact ⟨fun h => by cases h; exact .cos (ih.1 (by assumption)),
      fun h => by cases h; exact .cos (ih.2 (by assumption))⟩
  | neg e ih => exact ⟨fun h => by cases h; exact .neg (ih.1 (by assumption)),
      fun h => by cases h; exact .neg (ih.2 (by assumption))⟩

omit [FloatOps F] in
theorem mapConst_id {f : F → F} (e : Expr F) (h : ∀ c, Sub (.const c) e → f c = c) :
    mapConst f e = e := by
  induction e with
  | const c => rw [mapConst, h c .refl]
  | var n => rfl
  | add l r ihl ihr | sub l r ihl ihr | mul l r ihl ihr | div l r ihl ihr | pow l r ihl ihr =>
    rw [mapConst, ihl fun c hc => h c (.step (by simp [children]) hc),
      ihr fun c hc => h c (.step (by simp [children]) hc)]
  | ln e ih | exp e ih | sqrt e ih | sin e ih | cos e ih | neg e ih =>
    rw [mapConst, ih fun c hc => h c (.step (by simp [children]) hc)]

omit [FloatOps F] in
theorem sub_iff {s e : Expr F} : Sub s e ↔ s = e ∨ ∃ c ∈ children e, Sub s c := by
  constructor
  · intro h
    cases h with
    | refl => exact .inl rfl
    | step hc hs => exact .inr ⟨_, hc, hs⟩
  · rintro (rfl | ⟨c, hc, hs⟩)
    · exact .refl
    · exact .step hc hs

omit [FloatOps F] in
theorem sub_add {s l r : Expr F} : Sub s (.add l r) ↔ s = .add l r ∨ Sub s l ∨ Sub s r := by
  rw [sub_iff]; simp [children]

omit [FloatOps F] in
theorem sub_sub {s l r : Expr F} : Sub s (.sub l r) ↔ s = .sub l r ∨ Sub s l ∨ Sub s r := by
  rw [sub_iff]; simp [children]

omit [FloatOps F] in
theorem sub_mul {s l r : Expr F} : Sub s (.mul l r) ↔ s = .mul l r ∨ Sub s l ∨ Sub s r := by
  rw [sub_iff]; simp [children]

omit [FloatOps F] in
theorem sub_div {s l r : Expr F} : Sub s (.div l r) ↔ s = .div l r ∨ Sub s l ∨ Sub s r := by
  rw [sub_iff]; simp [children]

omit [FloatOps F] in
theorem sub_pow {s l r : Expr F} : Sub s (.pow l r) ↔ s = .pow l r ∨ Sub s l ∨ Sub s r := by
  rw [sub_iff]; simp [children]

omit [FloatOps F] in
theorem sub_ln {s e : Expr F} : Sub s (.ln e) ↔ s = .ln e ∨ Sub s e := by
  rw [sub_iff]; simp [children]

omit [FloatOps F] in
theorem sub_exp {s e : Expr F} : Sub s (.exp e) ↔ s = .exp e ∨ Sub s e := by
  rw [sub_iff]; simp [children]

omit [FloatOps F] in
theorem sub_sqrt {s e : Expr F} : Sub s (.sqrt e) ↔ s = .sqrt e ∨ Sub s e := by
  rw [sub_iff]; simp [children]

omit [FloatOps F] in
theorem sub_sin {s e : Expr F} : Sub s (.sin e) ↔ s = .sin e ∨ Sub s e := by
  rw [sub_iff]; simp [children]

omit [FloatOps F] in
theorem sub_cos {s e : Expr F} : Sub s (.cos e) ↔ s = .cos e ∨ Sub s e := by
  rw [sub_iff]; simp [children]

omit [FloatOps F] in
theorem sub_neg {s e : Expr F} : Sub s (.neg e) ↔ s = .neg e ∨ Sub s e := by
  rw [sub_iff]; simp [children]

omit [FloatOps F] in
theorem sub_const {s : Expr F} {c : F} : Sub s (.const c) ↔ s = .const c := by
  rw [sub_iff]; simp [children]

omit [FloatOps F] in
theorem sub_var {s : Expr F} {n : String} : Sub s (.var n) ↔ s = .var n := by
  rw [sub_iff]; simp [children]

/-- A name without parentheses. -/
def NoParen (n : String) : Prop := ∀ c ∈ n.toList, c ≠ '(' ∧ c ≠ ')'

variable {S Err : Type} {parse : Text → Option F} {fmt1 : F → Text} {round : F → F}
  {E : Engine S Err} {graph : S → EGraph F} {names : S → ℕ → Option (Expr F)}

/-- What holds of an optimizer between calls. -/
def Ready {F S : Type} (graph : S → EGraph F) (names : S → ℕ → Option (Expr F)) (o : Optimizer S) : Prop :=
  (∀ id, o.counter ≤ id → names o.egraph id = none) ∧ GraphNames NoParen (graph o.egraph)

theorem optimize_step (hE : Faithful parse rules E graph names)
    (hf : PrintsRounded fmt1 parse round) {o : Optimizer S} (ho : Ready graph names o)
    {e : Expr F} (hn : GoodNames e) :
    ∃ o' u r, optimize fmt1 parse E o e = (o', .ok r) ∧ o'.counter = o.counter + 1 ∧
      Ready graph names o' ∧
      graph o'.egraph = ((graph o.egraph).insert (mapConst round e)).rounds rules 5 ∧
      Cheapest (graph o'.egraph) (mapConst round e) u ∧
      ((SqrtFree u ∧ r = u) ∨ (¬ SqrtFree u ∧ r = e)) := by
  have ht := print_reads hf e hn.1
  obtain ⟨s₁, out₁, h1, g1, n1⟩ := hE.letExpr o.egraph o.counter _ _ ht (ho.1 _ le_rfl)
  obtain ⟨s₂, out₂, h2, g2, n2⟩ := hE.run s₁ 5
  have hid : names s₂ o.counter = some (mapConst round e) := by rw [n2, n1]; simp
  have hg2 : graph s₂ = ((graph o.egraph).insert (mapConst round e)).rounds rules 5 := by
    rw [g2, g1]
  have htt : graph s₂ (mapConst round e) (mapConst round e) := by
    rw [hg2]; exact rounds_mono 5 insert_self
  obtain ⟨s₃, text, u, rest, h3, hu, hc, g3, n3⟩ := hE.extract s₂ o.counter _ hid htt
  have hgn : GraphNames NoParen (graph s₂) := by
    rw [hg2]
    exact (ho.2.insert fun n hn' => hn.2 n (occurs_mapConst.1 hn')).rounds 5
  have hpu : ParenFree u := (hgn _ _ hc.1).2
  have ha := parseExpr_reads hu hpu
  have hready : Ready graph names ⟨s₃, o.counter + 1⟩ := by
    refine ⟨?_, by rw [g3]; exact hgn⟩
    intro id hid'
    rw [n3, n2, n1, Function.update_of_ne (by rintro rfl; simp at hid')]
    exact ho.1 id (by simp at hid'; omega)
  by_cases hs : SqrtFree u
  · refine ⟨⟨s₃, o.counter + 1⟩, u, u, ?_, rfl, hready, by rw [g3, hg2], by rw [g3]; exact hc,
      .inl ⟨hs, rfl⟩⟩
    simp only [optimize, h1, h2, h3, ha.1 hs]
  · refine ⟨⟨s₃, o.counter + 1⟩, u, e, ?_, rfl, hready, by rw [g3, hg2], by rw [g3]; exact hc,
      .inr ⟨hs, rfl⟩⟩
    simp only [optimize, h1, h2, h3, ha.2 hs]

omit [FloatOps F] in
theorem fresh_ready {s : S} (h : Fresh graph names s) : Ready graph names ⟨s, 0⟩ := by
  refine ⟨fun id _ => h.2 id, ?_⟩
  intro a b hab
  rw [h.1] at hab
  exact hab.elim

end

end Verif.Egglog
