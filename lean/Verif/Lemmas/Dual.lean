import Verif.Spec.Autodiff
import Mathlib.Analysis.SpecialFunctions.Log.Deriv
import Mathlib.Analysis.SpecialFunctions.ExpDeriv
import Mathlib.Analysis.SpecialFunctions.Sqrt
import Mathlib.Analysis.SpecialFunctions.Pow.Deriv
import Mathlib.Analysis.SpecialFunctions.Trigonometric.Deriv
import Mathlib.Analysis.Calculus.Deriv.Abs

/-!
# The differentiation rules of dual numbers
-/

namespace Verif
open FloatOps XReal Spec Filter Topology

namespace Dual

theorem zero_eq : (FloatOps.zero : Dual XReal) = ⟨fin 0, fin 0⟩ := rfl
theorem one_eq : (FloatOps.one : Dual XReal) = ⟨fin 1, fin 0⟩ := rfl
theorem add_eq (a b : Dual XReal) : (a +. b) = ⟨a.val +. b.val, a.der +. b.der⟩ := rfl
theorem sub_eq (a b : Dual XReal) : (a -. b) = ⟨a.val -. b.val, a.der -. b.der⟩ := rfl
theorem mul_eq (a b : Dual XReal) : (a *. b) = ⟨a.val *. b.val, a.der *. b.val +. a.val *. b.der⟩ := rfl
theorem div_eq (a b : Dual XReal) :
    (a /. b) = ⟨a.val /. b.val, (a.der *. b.val -. a.val *. b.der) /. (b.val *. b.val)⟩ := rfl
theorem neg_eq (a : Dual XReal) : FloatOps.neg a = ⟨FloatOps.neg a.val, FloatOps.neg a.der⟩ := rfl
theorem ln_eq (a : Dual XReal) : FloatOps.ln a = ⟨FloatOps.ln a.val, a.der /. a.val⟩ := rfl
theorem exp_eq (a : Dual XReal) : FloatOps.exp a = ⟨FloatOps.exp a.val, FloatOps.exp a.val *. a.der⟩ := rfl
theorem sqrt_eq (a : Dual XReal) : FloatOps.sqrt a =
    ⟨FloatOps.sqrt a.val, a.der /. (ofRat 2 *. FloatOps.sqrt a.val)⟩ := rfl
theorem sin_eq (a : Dual XReal) : FloatOps.sin a = ⟨FloatOps.sin a.val, FloatOps.cos a.val *. a.der⟩ := rfl
theorem cos_eq (a : Dual XReal) : FloatOps.cos a =
    ⟨FloatOps.cos a.val, FloatOps.neg (FloatOps.sin a.val *. a.der)⟩ := rfl
theorem abs_eq (a : Dual XReal) : FloatOps.abs a =
    ⟨FloatOps.abs a.val, if a.val <. FloatOps.zero then FloatOps.neg a.der else a.der⟩ := rfl
theorem powf_eq (a b : Dual XReal) : FloatOps.powf a b =
    ⟨FloatOps.powf a.val b.val,
     if b.der ==. FloatOps.zero then b.val *. FloatOps.powf a.val (b.val -. FloatOps.one) *. a.der
     else FloatOps.powf a.val b.val *. (b.der *. FloatOps.ln a.val +. b.val *. a.der /. a.val)⟩ := rfl
theorem gt_eq (a b : Dual XReal) : FloatOps.gt a b = FloatOps.gt a.val b.val := rfl
theorem ge_eq (a b : Dual XReal) : FloatOps.ge a b = FloatOps.ge a.val b.val := rfl
theorem lt_eq (a b : Dual XReal) : (a <. b) = (a.val <. b.val) := rfl
theorem le_eq (a b : Dual XReal) : (a ≤. b) = (a.val ≤. b.val) := rfl

end Dual

namespace Spec.Tracks
variable {g h : ℝ → ℝ} {t : ℝ} {a b : Dual XReal}

theorem val (ha : Tracks g t a) : a.val = fin (g t) := by obtain ⟨_, rfl, _⟩ := ha; rfl

theorem continuousAt (ha : Tracks g t a) : ContinuousAt g t := by
  obtain ⟨_, _, h⟩ := ha; exact h.continuousAt

theorem pos (ha : Tracks g t a) (h0 : 0 < g t) : ∀ᶠ s in 𝓝 t, 0 < g s :=
  ha.continuousAt.eventually (lt_mem_nhds h0)

theorem lt_const {c : ℝ} (ha : Tracks g t a) (h0 : g t < c) : ∀ᶠ s in 𝓝 t, g s < c :=
  ha.continuousAt.eventually (gt_mem_nhds h0)

theorem congr' (ha : Tracks g t a) (e : ∀ᶠ s in 𝓝 t, h s = g s) : Tracks h t a := by
  obtain ⟨g', rfl, hd⟩ := ha
  have e' : h =ᶠ[𝓝 t] g := e
  exact ⟨g', by rw [e'.eq_of_nhds], hd.congr_of_eventuallyEq e'⟩

theorem congr (ha : Tracks g t a) (e : ∀ s, h s = g s) : Tracks h t a :=
  ha.congr' (Eventually.of_forall e)

theorem const (c t : ℝ) : Tracks (fun _ => c) t (Dual.const (fin c)) :=
  ⟨0, rfl, hasDerivAt_const t c⟩

theorem zero (t : ℝ) : Tracks (fun _ => 0) t FloatOps.zero := const 0 t
theorem one (t : ℝ) : Tracks (fun _ => 1) t FloatOps.one := const 1 t
theorem ofRat (q : ℚ) (t : ℝ) : Tracks (fun _ => (q : ℝ)) t (FloatOps.ofRat q) := const _ t
theorem ofNat (n : ℕ) (t : ℝ) : Tracks (fun _ => (n : ℝ)) t (FloatOps.ofNat n) := by
  have h : Tracks (fun _ => (((n : ℚ)) : ℝ)) t (FloatOps.ofNat n) := ofRat (n : ℚ) t
  exact h.congr fun _ => by simp
theorem pi (t : ℝ) : Tracks (fun _ => Real.pi) t FloatOps.pi := const _ t

/-- the seed of a derivative with respect to the point -/
theorem id (t : ℝ) : Tracks (fun s => s) t ⟨fin t, fin 1⟩ := ⟨1, rfl, hasDerivAt_id t⟩

theorem add (ha : Tracks g t a) (hb : Tracks h t b) : Tracks (fun s => g s + h s) t (a +. b) := by
  obtain ⟨g', rfl, hg⟩ := ha
  obtain ⟨h', rfl, hh⟩ := hb
  exact ⟨g' + h', rfl, hg.add hh⟩

theorem sub (ha : Tracks g t a) (hb : Tracks h t b) : Tracks (fun s => g s - h s) t (a -. b) := by
  obtain ⟨g', rfl, hg⟩ := ha
  obtain ⟨h', rfl, hh⟩ := hb
  exact ⟨g' - h', by rw [Dual.sub_eq]; simp, hg.sub hh⟩

theorem mul (ha : Tracks g t a) (hb : Tracks h t b) : Tracks (fun s => g s * h s) t (a *. b) := by
  obtain ⟨g', rfl, hg⟩ := ha
  obtain ⟨h', rfl, hh⟩ := hb
  exact ⟨g' * h t + g t * h', by rw [Dual.mul_eq]; simp, hg.mul hh⟩

theorem div (ha : Tracks g t a) (hb : Tracks h t b) (h0 : h t ≠ 0) :
    Tracks (fun s => g s / h s) t (a /. b) := by
  obtain ⟨g', rfl, hg⟩ := ha
  obtain ⟨h', rfl, hh⟩ := hb
  refine ⟨(g' * h t - g t * h') / h t ^ 2, ?_, hg.div hh h0⟩
  rw [Dual.div_eq]
  simp [f_div _ _ h0, f_div _ _ (mul_ne_zero h0 h0), _root_.sq]

theorem neg (ha : Tracks g t a) : Tracks (fun s => -g s) t (FloatOps.neg a) := by
  obtain ⟨g', rfl, hg⟩ := ha
  exact ⟨-g', rfl, hg.neg⟩

theorem ln (ha : Tracks g t a) (h0 : 0 < g t) : Tracks (fun s => Real.log (g s)) t (FloatOps.ln a) := by
  obtain ⟨g', rfl, hg⟩ := ha
  exact ⟨g' / g t, by rw [Dual.ln_eq]; simp [f_ln _ h0, f_div _ _ h0.ne'], hg.log h0.ne'⟩

theorem exp (ha : Tracks g t a) : Tracks (fun s => Real.exp (g s)) t (FloatOps.exp a) := by
  obtain ⟨g', rfl, hg⟩ := ha
  exact ⟨Real.exp (g t) * g', rfl, hg.exp⟩

theorem sqrt (ha : Tracks g t a) (h0 : 0 < g t) : Tracks (fun s => √(g s)) t (FloatOps.sqrt a) := by
  obtain ⟨g', rfl, hg⟩ := ha
  refine ⟨g' / (2 * √(g t)), ?_, hg.sqrt h0.ne'⟩
  have : 2 * √(g t) ≠ 0 := by positivity
  rw [Dual.sqrt_eq]
  simp [f_sqrt _ h0.le, f_div _ _ this]

theorem sin (ha : Tracks g t a) : Tracks (fun s => Real.sin (g s)) t (FloatOps.sin a) := by
  obtain ⟨g', rfl, hg⟩ := ha
  exact ⟨Real.cos (g t) * g', rfl, hg.sin⟩

theorem cos (ha : Tracks g t a) : Tracks (fun s => Real.cos (g s)) t (FloatOps.cos a) := by
  obtain ⟨g', rfl, hg⟩ := ha
  exact ⟨-Real.sin (g t) * g', by rw [Dual.cos_eq]; simp, hg.cos⟩

theorem abs (ha : Tracks g t a) (h0 : g t ≠ 0) : Tracks (fun s => |g s|) t (FloatOps.abs a) := by
  obtain ⟨g', rfl, hg⟩ := ha
  rcases lt_or_gt_of_ne h0 with h0 | h0
  · refine ⟨-g', ?_, ?_⟩
    · rw [Dual.abs_eq]; simp [h0]
    · have e : (fun s => |g s|) =ᶠ[𝓝 t] fun s => -g s :=
        (hg.continuousAt.eventually (gt_mem_nhds h0)).mono fun s hs => abs_of_neg hs
      exact hg.neg.congr_of_eventuallyEq e
  · refine ⟨g', ?_, ?_⟩
    · rw [Dual.abs_eq]; simp [not_lt.mpr h0.le]
    · have e : (fun s => |g s|) =ᶠ[𝓝 t] g :=
        (hg.continuousAt.eventually (lt_mem_nhds h0)).mono fun s hs => abs_of_pos hs
      exact hg.congr_of_eventuallyEq e

theorem powf_pos (ha : Tracks g t a) (hb : Tracks h t b) (h0 : 0 < g t) :
    Tracks (fun s => g s ^ h s) t (FloatOps.powf a b) := by
  obtain ⟨g', rfl, hg⟩ := ha
  obtain ⟨h', rfl, hh⟩ := hb
  have hd := hg.rpow hh h0
  refine ⟨_, ?_, hd⟩
  rw [Dual.powf_eq]
  by_cases e : h' = 0
  · subst e
    simp [f_powf_pos _ _ h0]
    ring
  · simp [e, f_powf_pos _ _ h0, f_ln _ h0, f_div _ _ h0.ne', Real.rpow_sub_one h0.ne']
    field_simp
    ring

theorem powf_nat (ha : Tracks g t a) {n : ℕ} (hn : 1 ≤ n) :
    Tracks (fun s => g s ^ (n : ℝ)) t (FloatOps.powf a (Dual.const (fin (n : ℝ)))) := by
  obtain ⟨g', rfl, hg⟩ := ha
  have hd := hg.pow n
  obtain ⟨m, rfl⟩ : ∃ m, n = m + 1 := ⟨n - 1, by omega⟩
  have e1 := f_powf_nat (g t) (m + 1)
  have e2 := f_powf_nat (g t) m
  have e3 : ((m + 1 : ℕ) : ℝ) - 1 = m := by push_cast; ring
  refine ⟨((m + 1 : ℕ) : ℝ) * g t ^ m * g', ?_, ?_⟩
  · rw [Dual.powf_eq]
    have hz : ((Dual.const (fin ((m + 1 : ℕ) : ℝ)) : Dual XReal).der ==. FloatOps.zero) = true := by
      simp [Dual.const]
    rw [if_pos hz]
    show (⟨FloatOps.powf (fin (g t)) (fin ((m + 1 : ℕ) : ℝ)), fin ((m + 1 : ℕ) : ℝ) *.
      FloatOps.powf (fin (g t)) (fin ((m + 1 : ℕ) : ℝ) -. fin 1) *. fin g'⟩ : Dual XReal) = _
    rw [e1, f_sub, e3, e2]
    simp only [Real.rpow_natCast]
    rfl
  · simp only [Real.rpow_natCast]
    exact hd

theorem foldl_sum {ι : Type} (xs : List ι) {f : ι → ℝ → ℝ} {d : ι → Dual XReal}
    (hx : ∀ i ∈ xs, Tracks (f i) t (d i)) (ha : Tracks g t a) :
    Tracks (fun s => g s + (xs.map fun i => f i s).sum) t ((xs.map d).foldl FloatOps.add a) := by
  induction xs generalizing g a with
  | nil => simpa using ha
  | cons x xs ih =>
    have := ih (fun i hi => hx i (List.mem_cons_of_mem _ hi)) (ha.add (hx x List.mem_cons_self))
    simpa [add_assoc] using this

theorem sum {ι : Type} (xs : List ι) {f : ι → ℝ → ℝ} {d : ι → Dual XReal}
    (hx : ∀ i ∈ xs, Tracks (f i) t (d i)) :
    Tracks (fun s => (xs.map fun i => f i s).sum) t (FloatOps.sum (xs.map d)) := by
  have := foldl_sum xs hx (zero t)
  simpa [FloatOps.sum] using this

end Spec.Tracks
end Verif
