import Verif.Props.DoubleExpFam2
import Verif.Props.DoubleDiscrete

/-!
# C146: a sample of one

The joint exponential-family log-density of one observation and the exponential-family log-density of that observation
are the same floating-point value, for every parameter and every observation, whether the result is finite, infinite or
not a number.
-/

namespace Verif
open Format FloatOps ExponentialFamily

variable {f : Format} {L : Libm}

/-- The library returns values of the format. -/
structure Libm.Closed (f : Format) (L : Libm) : Prop where
  ln : ∀ q, f.Valid (L.ln q)
  exp : ∀ q, f.Valid (L.exp q)
  lnGamma : ∀ v, f.Valid (L.lnGamma v)

theorem prec_pos (hf : f.Std) : 1 ≤ f.prec := by rcases hf with rfl | rfl <;> decide

theorem valid_neg {a : FVal} (h : f.Valid a) : f.Valid (Flt.neg a) := by
  cases a with
  | fin q => exact rep_neg h
  | _ => trivial

theorem valid_add (hf : f.Std) (a b : FVal) : f.Valid (Flt.add f a b) := by
  cases a <;> cases b <;> simp only [Flt.add] <;> first | trivial | (exact f.round_valid (prec_pos hf) _) | skip
  split_ifs <;> trivial

theorem valid_sub (hf : f.Std) (a b : FVal) : f.Valid (Flt.sub f a b) := valid_add hf _ _

theorem valid_mul (hf : f.Std) (a b : FVal) : f.Valid (Flt.mul f a b) := by
  cases a <;> cases b <;> simp only [Flt.mul] <;> first | trivial | (exact f.round_valid (prec_pos hf) _) |
    (split_ifs <;> trivial)

theorem valid_ln (hC : L.Closed f) (a : FVal) : f.Valid (Flt.ln L a) := by
  cases a <;> simp only [Flt.ln]
  all_goals first | trivial | (split_ifs <;> first | trivial | exact hC.ln _)

theorem add_zero_valid {a : FVal} (h : f.Valid a) : Flt.add f (.fin 0) a = a := by
  cases a with
  | fin q => show f.round (0 + q) = _; rw [zero_add]; exact f.round_exact h
  | _ => rfl

theorem one_mul_valid {a : FVal} (h : f.Valid a) : Flt.mul f (.fin 1) a = a := by
  cases a with
  | fin q => show f.round (1 * q) = _; rw [one_mul]; exact f.round_exact h
  | inf b => cases b <;> simp [Flt.mul]
  | nan => rfl

theorem zip_zero {n : ℕ} {s : List (Flt f L)} (hn : s.length = n) (hs : ∀ v ∈ s, f.Valid v) :
    List.zipWith FloatOps.add (List.replicate n (zero : Flt f L)) s = s := by
  induction s generalizing n with
  | nil => simp
  | cons a s ih =>
    obtain ⟨m, rfl⟩ : ∃ m, n = m + 1 := ⟨s.length, by simpa using hn.symm⟩
    rw [List.replicate_succ, List.zipWith_cons_cons,
      ih (by simpa using hn) fun v hv => hs v (List.mem_cons_of_mem _ hv)]
    exact congrArg (· :: s) (add_zero_valid (hs a List.mem_cons_self))

/-- **C146** for any exponential family whatever, with any number of statistics: if its statistic has the declared
length and its values are values of the format, the joint value of one observation is the value of the observation. -/
theorem C146_any_family (hf : f.Std) {D X : Type} [e : ExponentialFamily D X (Flt f L)] [ArrayStat D] {d : D} {x : X}
    (hlen : (sufficientStatistic d x).length = ArrayStat.dim D) (hs : ∀ v ∈ sufficientStatistic d x, f.Valid v)
    (hA : f.Valid (logPartition d)) (hb : f.Valid (baseLogDensity d x))
    (he : expFamLogDensity d x = expFamLogDensityDefault (naturalAndLogPartition d) (sufficientStatistic d x)
      (baseLogDensity d x)) :
    (IID.ofDist d).iidLogDensity [x] = expFamLogDensity d x := by
  rw [he]
  have h1 : sumSufficientStats (ArrayStat.dim D) [sufficientStatistic d x] = sufficientStatistic d x := zip_zero hlen hs
  have h2 : (FloatOps.sum [baseLogDensity d x] : Flt f L) = baseLogDensity d x := add_zero_valid hb
  have h3 : (FloatOps.ofNat 1 : Flt f L) *. (naturalAndLogPartition d).2 = (naturalAndLogPartition d).2 := by
    show Flt.mul f (f.round ((1 : ℕ) : ℚ)) _ = _
    rw [Nat.cast_one, f.round_exact hf.rep_one]
    exact one_mul_valid hA
  unfold IID.iidLogDensity computeIidExpFamLogDensity IID.ofDist expFamLogDensityDefault
  simp only [List.isEmpty_cons, Bool.false_eq_true, if_false, List.map_cons, List.map_nil, List.length_cons,
    List.length_nil, zero_add, h1, h2, h3]

theorem valid_ofRat (hf : f.Std) (q : ℚ) : f.Valid (ofRat q : Flt f L) := f.round_valid (prec_pos hf) _

theorem valid_logFactorial (hf : f.Std) (k : ℕ) : f.Valid (logFactorial k : Flt f L) := by
  unfold logFactorial
  split_ifs with h
  · have hk : k < (logFactorialTable (F := Flt f L)).length := by
      show k < 21
      omega
    rw [List.getD_eq_getElem?_getD, List.getElem?_eq_getElem hk, Option.getD_some]
    have hall : ∀ v ∈ (logFactorialTable : List (Flt f L)), f.Valid v := by
      intro v hv
      simp only [logFactorialTable, List.mem_cons, List.not_mem_nil, or_false] at hv
      rcases hv with h | h | h | h | h | h | h | h | h | h | h | h | h | h | h | h | h | h | h | h | h <;> rw [h] <;>
        exact f.round_valid (prec_pos hf) _
    exact hall _ (List.getElem_mem hk)
  · unfold stirlingLogFactorialPrecise
    rw [if_neg (by omega)]
    exact valid_add hf _ _

/-- **C146**, the continuous families: whatever the parameters (accepted or not) and the observation, any of them
infinite or not a number. -/
theorem C146_continuous (hf : f.Std) (hC : L.Closed f) {a b x : Flt f L} (hx : f.Valid x) :
    (IID.ofDist (⟨a, b⟩ : Normal (Flt f L))).iidLogDensity [x] = expFamLogDensity (⟨a, b⟩ : Normal (Flt f L)) x ∧
    (IID.ofDist ({} : StdNormal (Flt f L))).iidLogDensity [x] = expFamLogDensity ({} : StdNormal (Flt f L)) x ∧
    (IID.ofDist (⟨a⟩ : Exponential (Flt f L))).iidLogDensity [x] = expFamLogDensity (⟨a⟩ : Exponential (Flt f L)) x ∧
    (IID.ofDist (⟨a, b⟩ : Gamma (Flt f L))).iidLogDensity [x] = expFamLogDensity (⟨a, b⟩ : Gamma (Flt f L)) x ∧
    (IID.ofDist (⟨a, b⟩ : Beta (Flt f L))).iidLogDensity [x] = expFamLogDensity (⟨a, b⟩ : Beta (Flt f L)) x ∧
    (IID.ofDist (⟨a⟩ : ChiSquared (Flt f L))).iidLogDensity [x] = expFamLogDensity (⟨a⟩ : ChiSquared (Flt f L)) x := by
  have h0 : f.Valid (.fin 0) := f.rep_zero
  have two : ∀ u v : Flt f L, f.Valid u → f.Valid v → ∀ w ∈ [u, v], f.Valid w := by
    intro u v hu hv w hw
    simp only [List.mem_cons, List.not_mem_nil, or_false] at hw
    rcases hw with rfl | rfl <;> assumption
  refine ⟨?_, ?_, ?_, ?_, ?_, ?_⟩
  · exact C146_any_family hf rfl (two _ _ hx (valid_mul hf _ _)) (valid_add hf _ _) h0 rfl
  · exact C146_any_family hf rfl (two _ _ hx (valid_mul hf _ _)) (valid_mul hf _ _) h0 rfl
  · exact C146_any_family hf rfl (fun w hw => by rw [List.mem_singleton.mp hw]; exact hx) (valid_ln hC _) h0 rfl
  · exact C146_any_family hf rfl (two _ _ (valid_ln hC _) hx) (valid_sub hf _ _) h0 rfl
  · exact C146_any_family hf rfl (two _ _ (valid_ln hC _) (valid_ln hC _)) (valid_sub hf _ _) h0 rfl
  · exact C146_any_family hf rfl (two _ _ (valid_ln hC _) hx) (valid_add hf _ _) h0 rfl

/-- **C146**, the discrete families with an array of statistics. -/
theorem C146_discrete (hf : f.Std) (hC : L.Closed f) {p : Flt f L} (hp : f.Valid p) (y : UInt8) (n k : ℕ) :
    (IID.ofDist (⟨p⟩ : Bernoulli (Flt f L))).iidLogDensity [y] = expFamLogDensity (⟨p⟩ : Bernoulli (Flt f L)) y ∧
    (IID.ofDist (⟨n, p⟩ : Binomial (Flt f L))).iidLogDensity [k] = expFamLogDensity (⟨n, p⟩ : Binomial (Flt f L)) k ∧
    (IID.ofDist (⟨p⟩ : Geometric (Flt f L))).iidLogDensity [k] = expFamLogDensity (⟨p⟩ : Geometric (Flt f L)) k ∧
    (IID.ofDist (⟨n, p⟩ : NegativeBinomial (Flt f L))).iidLogDensity [k] =
      expFamLogDensity (⟨n, p⟩ : NegativeBinomial (Flt f L)) k ∧
    (IID.ofDist (⟨p⟩ : Poisson (Flt f L))).iidLogDensity [k] = expFamLogDensity (⟨p⟩ : Poisson (Flt f L)) k := by
  have h0 : f.Valid (.fin 0) := f.rep_zero
  have one : ∀ (u : Flt f L), f.Valid u → ∀ w ∈ [u], f.Valid w := by
    intro u hu w hw
    rwa [List.mem_singleton.mp hw]
  refine ⟨?_, ?_, ?_, ?_, ?_⟩
  · exact C146_any_family hf rfl (one _ (valid_ofRat hf _)) (valid_ln hC _) h0 rfl
  · refine C146_any_family hf rfl (one _ (valid_ofRat hf _)) (valid_mul hf _ _) ?_ rfl
    show f.Valid (if k > n then negInf else logBinomialCoefficient n k : Flt f L)
    unfold logBinomialCoefficient
    split_ifs
    · trivial
    · exact valid_sub hf _ _
  · exact C146_any_family hf rfl (one _ (valid_ofRat hf _)) (valid_neg (valid_ln hC _)) h0 rfl
  · exact C146_any_family hf rfl (one _ (valid_ofRat hf _)) (valid_mul hf _ _) (valid_sub hf _ _) rfl
  · exact C146_any_family hf rfl (one _ (valid_ofRat hf _)) hp (valid_neg (valid_logFactorial hf _)) rfl

/-- there is such a library, and it is accurate -/
theorem exists_libm_closed (hf : f.Std) : ∃ L : Libm, L.Accurate f ∧ L.Closed f := by
  classical
  obtain ⟨L, hL⟩ := exists_libm hf
  refine ⟨{ L with
    ln := fun q => if f.Valid (L.ln q) then L.ln q else .nan
    exp := fun q => if f.Valid (L.exp q) then L.exp q else .nan
    lnGamma := fun v => if f.Valid (L.lnGamma v) then L.lnGamma v else .nan }, ⟨?_, ?_⟩, ⟨?_, ?_, ?_⟩⟩
  · intro q h0 hq
    obtain ⟨r, h1, h2, h3⟩ := hL.ln q h0 hq
    refine ⟨r, ?_, h2, h3⟩
    show (if f.Valid (L.ln q) then L.ln q else .nan) = _
    rw [if_pos (by rw [h1]; exact h2), h1]
  · intro q hq
    rcases hL.exp q hq with ⟨r, h1, h2, h3⟩ | ⟨h1, h2⟩
    · refine .inl ⟨r, ?_, h2, h3⟩
      show (if f.Valid (L.exp q) then L.exp q else .nan) = _
      rw [if_pos (by rw [h1]; exact h2), h1]
    · refine .inr ⟨?_, h2⟩
      show (if f.Valid (L.exp q) then L.exp q else .nan) = _
      rw [if_pos (by rw [h1]; trivial), h1]
  all_goals
    intro q
    dsimp only
    split_ifs with h
    · exact h
    · trivial

/-- the hypotheses are met by infinite observations and by finite ones -/
example (hf : f.Std) : ∃ L : Libm, L.Accurate f ∧ L.Closed f ∧ f.Valid (Flt.posInf (f := f) (L := L)) ∧
    f.Valid (Flt.fin (f := f) (L := L) (1/2)) := by
  obtain ⟨L, h1, h2⟩ := exists_libm_closed hf
  exact ⟨L, h1, h2, trivial, hf.rep_half⟩

end Verif
