import Verif.Props.DoubleGamma
import Verif.Props.DoubleSum

/-!
# Approximate sums over samples, for the exponential-family joint log-density
-/

namespace Verif
open Format FloatOps

variable {f : Format} {L : Libm}

theorem App.terms {ι : Type} (hf : f.Std) (xs : List ι) {v : ι → Flt f L} {x X : ι → ℝ} {k : ℝ} (hk' : k ≤ 1000)
    (h : ∀ i ∈ xs, App f k (v i) (x i) (X i)) :
    ∃ rs : List ℚ, xs.map v = rs.map Flt.fin ∧ rs.length = xs.length ∧ (∀ r ∈ rs, f.Representable r) ∧
      |(rs.map fun r : ℚ => (r : ℝ)).sum - (xs.map x).sum| ≤ k * f.u * (xs.map X).sum ∧
      (rs.map fun r : ℚ => |(r : ℝ)|).sum ≤ 2 * (xs.map X).sum ∧ |(xs.map x).sum| ≤ (xs.map X).sum := by
  induction xs with
  | nil => exact ⟨[], by simp⟩
  | cons i xs ih =>
    obtain ⟨rs, e1, e2, e3, e4, e5, e6⟩ := ih fun j hj => h j (List.mem_cons_of_mem _ hj)
    obtain ⟨r, g1, g2⟩ := h i List.mem_cons_self
    refine ⟨r :: rs, by simp only [List.map_cons, e1, g1], by simp [e2], by simpa using ⟨g2.rep, e3⟩, ?_, ?_, ?_⟩
    · simp only [List.map_cons, List.sum_cons]
      rw [add_sub_add_comm, mul_add]
      exact (abs_add_le _ _).trans (add_le_add g2.err e4)
    · simp only [List.map_cons, List.sum_cons]
      linarith [g2.size hf hk']
    · simp only [List.map_cons, List.sum_cons]
      exact (abs_add_le _ _).trans (add_le_add g2.mag e6)

/-- the sum of `n` approximations, added from the left; the sizes count `n` times -/
theorem App.sum {ι : Type} (hf : f.Std) (xs : List ι) {v : ι → Flt f L} {x X : ι → ℝ} {k m : ℝ} (hk : 0 ≤ k)
    (hm : k + 4 ≤ m) (hm' : m ≤ 1000) (hn : xs.length * f.u ≤ 1/1000)
    (h : ∀ i ∈ xs, App f k (v i) (x i) (X i)) (hB : (xs.map X).sum ≤ 2 ^ 90) :
    App f m (FloatOps.sum (xs.map v) : Flt f L) (xs.map x).sum (xs.length * (xs.map X).sum) := by
  have hu := u_pos f
  obtain ⟨rs, e1, e2, e3, e4, e5, e6⟩ := App.terms hf xs (by linarith) h
  have hX : 0 ≤ (xs.map X).sum := (abs_nonneg _).trans e6
  rcases eq_or_ne xs [] with rfl | hne
  · exact ⟨0, rfl, f.rep_zero, by simp, by simp⟩
  have hn1 : (1 : ℝ) ≤ xs.length := by exact_mod_cast List.length_pos_of_ne_nil hne
  have hlen : (rs.length : ℝ) = xs.length := by rw [e2]
  have hem : (2 : ℝ) * 2 ^ 90 ≤ 2 ^ (f.emax - 3) := by
    have : (2 : ℝ) * 2 ^ 90 = 2 ^ (91 : ℤ) := by norm_num
    rw [this]
    exact zpow_le_zpow_right₀ (by norm_num) (by have := hf.emax_ge; omega)
  obtain ⟨r, hr⟩ := C91_sum_finite (L := L) hf rs e3 (by rw [hlen]; linarith) (by linarith)
  have he := C91_sum hf rs e3 hr
  have hg : (1 + f.u) ^ rs.length - 1 ≤ 2 * rs.length * f.u := grow_le (by rw [hlen]; linarith)
  rw [hlen] at hg
  have hrep : f.Representable r := by
    have hval : (FloatOps.sum (rs.map (Flt.fin (f := f) (L := L))) : Flt f L) = .fin r := hr
    rw [sum_flt] at hval
    exact (foldl_add_err hf rs e3 (rep_zero f) (S := 0) (T := 0) (k := 0) (by simp) (by simp) hval).1
  refine ⟨r, by rw [e1]; exact hr, hrep, e6.trans (le_mul_of_one_le_left hX hn1), ?_⟩
  have h1 : ((1 + f.u) ^ rs.length - 1) * (rs.map fun x : ℚ => |(x : ℝ)|).sum ≤
      (2 * xs.length * f.u) * (2 * (xs.map X).sum) :=
    mul_le_mul hg e5 (List.sum_nonneg fun z hz => by
      obtain ⟨w, -, rfl⟩ := List.mem_map.mp hz; exact abs_nonneg _) (by positivity)
  have h2 := abs_sub_le (r : ℝ) (rs.map fun x : ℚ => (x : ℝ)).sum (xs.map x).sum
  have h3 : k * f.u * (xs.map X).sum ≤ k * f.u * (xs.length * (xs.map X).sum) :=
    mul_le_mul_of_nonneg_left (le_mul_of_one_le_left hX hn1) (by positivity)
  have h4 : (k + 4) * f.u * (xs.length * (xs.map X).sum) ≤ m * f.u * (xs.length * (xs.map X).sum) := by gcongr
  linarith

/-- small counts are numbers of the format -/
theorem rep_count (hf : f.Std) {n : ℕ} (hn : n * f.u ≤ 1/1000) : f.Representable n := by
  have hlt : (n : ℝ) < 2 ^ f.prec := by
    unfold Format.u at hn
    rw [mul_one_div, div_le_iff₀ (by positivity)] at hn
    have : (0 : ℝ) < 2 ^ f.prec := by positivity
    linarith
  refine ⟨⟨n, 0, ?_, by have := hf.emin_le; omega, by simp⟩, ?_⟩
  · have : (n : ℕ) < 2 ^ f.prec := by exact_mod_cast hlt
    rw [abs_of_nonneg (by positivity)]
    exact_mod_cast this
  · have hnu : (n : ℝ) ≤ 2 ^ 53 / 1000 := by
      have := u_ge hf
      have h2 : (n : ℝ) * (1 / 2 ^ 53) ≤ 1/1000 := (mul_le_mul_of_nonneg_left this (by positivity)).trans hn
      norm_num at h2 ⊢
      linarith
    have h1 : (n : ℚ) ≤ 2 ^ (100 : ℤ) := by
      have : (n : ℝ) ≤ ((2 ^ (100 : ℤ) : ℚ) : ℝ) := by rw [cast_zpow]; exact hnu.trans (by norm_num)
      exact_mod_cast this
    rw [abs_of_nonneg (by positivity)]
    exact lt_of_le_of_lt h1 (zpow_lt_zpow_right₀ (by norm_num) (by have := hf.emax_ge; omega))

theorem App.count (hf : f.Std) {n : ℕ} (hn : n * f.u ≤ 1/1000) : App f 0 (f.round (n : ℚ)) n n := by
  rw [f.round_exact (rep_count hf hn)]
  have := App.exact (rep_count hf hn)
  simpa using this

theorem sumStats_one {F X : Type} [FloatOps F] (g : X → F) (xs : List X) :
    sumSufficientStats 1 (xs.map fun x => [g x]) = [FloatOps.sum (xs.map g)] := by
  have : ∀ a : F, (xs.map fun x => [g x]).foldl (fun sum stat => List.zipWith FloatOps.add sum stat) [a]
      = [(xs.map g).foldl FloatOps.add a] := by
    induction xs with
    | nil => intro a; rfl
    | cons x xs ih => intro a; exact ih _
  exact this zero

theorem sumStats_two {F X : Type} [FloatOps F] (g h : X → F) (xs : List X) :
    sumSufficientStats 2 (xs.map fun x => [g x, h x]) = [FloatOps.sum (xs.map g), FloatOps.sum (xs.map h)] := by
  have : ∀ a b : F, (xs.map fun x => [g x, h x]).foldl (fun sum stat => List.zipWith FloatOps.add sum stat) [a, b]
      = [(xs.map g).foldl FloatOps.add a, (xs.map h).foldl FloatOps.add b] := by
    induction xs with
    | nil => intro a b; rfl
    | cons x xs ih => intro a b; exact ih _ _
  exact this zero zero

theorem sum_const_zero {X : Type} (xs : List X) :
    (FloatOps.sum (xs.map fun _ => (Flt.fin 0 : Flt f L)) : Flt f L) = Flt.fin 0 := by
  have h0 : Flt.add f (.fin 0) (.fin 0) = .fin 0 := by
    show f.round (0 + 0) = _
    rw [add_zero]; exact f.round_exact f.rep_zero
  show (xs.map fun _ => FVal.fin 0).foldl (Flt.add f) (.fin 0) = .fin 0
  induction xs with
  | nil => rfl
  | cons x xs ih => simpa [List.foldl_cons, h0] using ih

theorem App.add_zero {k : ℝ} {v : FVal} {x X : ℝ} (h : App f k v x X) :
    Flt.add f v (.fin 0) = v ∧ Flt.add f (.fin 0) v = v := by
  obtain ⟨r, rfl, hr⟩ := h
  constructor
  · show f.round (r + 0) = _
    rw [_root_.add_zero]; exact f.round_exact hr.rep
  · show f.round (0 + r) = _
    rw [zero_add]; exact f.round_exact hr.rep

end Verif
