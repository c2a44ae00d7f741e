import Verif.Lemmas.Num
import Verif.Model.DistDiscrete

/-! Closed forms of the modelled log-densities on finite inputs. -/

namespace Verif
open FloatOps XReal

section
variable {μ σ x : ℝ}

theorem Normal.ld (hσ : 0 < σ) :
    logDensityWrtRoot (⟨fin μ, fin σ⟩ : Normal XReal) (fin x) =
      fin (-(1/2) * Real.log (2 * Real.pi) - Real.log σ - 1/2 * ((x - μ)/σ) * ((x - μ)/σ)) := by
  simp [logDensityWrtRoot, f_div _ _ hσ.ne', f_ln _ hσ, f_ln _ two_pi_pos']

theorem Exponential.ld_of_nonneg {r : ℝ} (hr : 0 < r) (hx : 0 ≤ x) :
    logDensityWrtRoot (⟨fin r⟩ : Exponential XReal) (fin x) = fin (Real.log r - r * x) := by
  simp [logDensityWrtRoot, f_ln _ hr, hx]

theorem Exponential.ld_of_neg {r : ℝ} (hx : x < 0) :
    logDensityWrtRoot (⟨fin r⟩ : Exponential XReal) (fin x) = ninf := by
  simp [logDensityWrtRoot, not_le.mpr hx]

theorem Gamma.ld_of_pos {a b : ℝ} (ha : 0 < a) (hb : 0 < b) (hx : 0 < x) :
    logDensityWrtRoot (⟨fin a, fin b⟩ : Gamma XReal) (fin x) =
      fin (a * Real.log b - Real.log (Real.Gamma a) + (a - 1) * Real.log x - b * x) := by
  simp [logDensityWrtRoot, f_ln _ hb, f_ln _ hx, f_lnGamma _ ha, hx]

theorem Gamma.ld_of_nonpos {a b : ℝ} (hx : x ≤ 0) :
    logDensityWrtRoot (⟨fin a, fin b⟩ : Gamma XReal) (fin x) = ninf := by
  simp [logDensityWrtRoot, not_lt.mpr hx]

theorem Beta.ld_of_mem {a b : ℝ} (ha : 0 < a) (hb : 0 < b) (h0 : 0 < x) (h1 : x < 1) :
    logDensityWrtRoot (⟨fin a, fin b⟩ : Beta XReal) (fin x) =
      fin (Real.log (Real.Gamma (a + b)) - Real.log (Real.Gamma a) - Real.log (Real.Gamma b)
        + (a - 1) * Real.log x + (b - 1) * Real.log (1 - x)) := by
  simp [logDensityWrtRoot, f_ln _ h0, f_ln (1 - x) (by linarith), f_lnGamma _ ha, f_lnGamma _ hb,
    f_lnGamma _ (add_pos ha hb), h0, h1]

theorem Beta.ld_of_not_mem {a b : ℝ} (h : ¬ (0 < x ∧ x < 1)) :
    logDensityWrtRoot (⟨fin a, fin b⟩ : Beta XReal) (fin x) = ninf := by
  have hc : ¬ (FloatOps.gt (fin x) (FloatOps.zero : XReal) && (fin x <. (FloatOps.one : XReal))) = true := by
    simpa using h
  show (if _ then _ else _) = _
  rw [if_neg hc]
  rfl

theorem ChiSquared.ld_of_pos {k : ℝ} (hk : 0 < k) (hx : 0 < x) :
    logDensityWrtRoot (⟨fin k⟩ : ChiSquared XReal) (fin x) =
      fin (-(k/2) * Real.log 2 - Real.log (Real.Gamma (k/2)) + (k/2 - 1) * Real.log x - x / 2) := by
  have h2 : (1 : ℝ) + 1 = 2 := by norm_num
  simp [logDensityWrtRoot, h2, f_div _ _ (two_ne_zero (α := ℝ)), f_ln _ (two_pos (α := ℝ)), f_ln _ hx,
    f_lnGamma (k/2) (by positivity), hx]

theorem ChiSquared.ld_of_nonpos {k : ℝ} (hx : x ≤ 0) :
    logDensityWrtRoot (⟨fin k⟩ : ChiSquared XReal) (fin x) = ninf := by
  simp [logDensityWrtRoot, not_lt.mpr hx]

theorem Cauchy.ld {l s : ℝ} (hs : 0 < s) :
    logDensityWrtRoot (⟨fin l, fin s⟩ : Cauchy XReal) (fin x) =
      fin (-Real.log (1 + (x - l)/s * ((x - l)/s)) - Real.log s - Real.log Real.pi) := by
  have h1 : 0 < 1 + (x - l)/s * ((x - l)/s) := by
    have := mul_self_nonneg ((x - l)/s)
    linarith
  simp [logDensityWrtRoot, f_div _ _ hs.ne', f_ln _ hs, f_ln _ Real.pi_pos, f_ln _ h1]

theorem midpoint_fin (a b : ℝ) : midpoint (fin a) (fin b) = fin ((a + b)/2) := by
  simp [midpoint, f_div _ _ (two_ne_zero (α := ℝ))]

theorem StudentT.ld {ν : ℝ} (hν : 0 < ν) :
    logDensityWrtRoot (⟨fin ν⟩ : StudentT XReal) (fin x) =
      fin (Real.log (Real.Gamma ((ν + 1)/2)) - Real.log (Real.Gamma (ν/2))
        - 1/2 * Real.log (ν * Real.pi) + -((ν + 1)/2) * Real.log (1 + x * x / ν)) := by
  have h1 : 0 < 1 + x * x / ν := by
    have := div_nonneg (mul_self_nonneg x) hν.le
    linarith
  have h2 : 0 < ν * Real.pi := by positivity
  simp [logDensityWrtRoot, StudentT.logPdf, midpoint_fin, f_div _ _ hν.ne',
    f_div _ _ (two_ne_zero (α := ℝ)), f_ln _ h1, f_ln _ h2,
    f_lnGamma ((ν+1)/2) (by positivity), f_lnGamma (ν/2) (by positivity)]

end

/-! ### discrete -/

theorem Geometric.ld_of_pos {p : ℝ} (h0 : 0 < p) (h1 : p < 1) {k : ℕ} (hk : 1 ≤ k) :
    logDensityWrtRoot (⟨fin p⟩ : Geometric XReal) k =
      fin ((k - 1) * Real.log (1 - p) + Real.log p) := by
  simp [logDensityWrtRoot, hk, f_ln _ h0, f_ln (1 - p) (by linarith)]

theorem Binomial.ld_of_le {p : ℝ} (h0 : 0 < p) (h1 : p < 1) {n k : ℕ} (hk : k ≤ n) :
    logDensityWrtRoot (⟨n, fin p⟩ : Binomial XReal) k =
      fin (k * Real.log p + (n - k) * Real.log (1 - p)) := by
  simp [logDensityWrtRoot, hk, f_ln _ h0, f_ln (1 - p) (by linarith)]

theorem NegativeBinomial.ld {p : ℝ} (h0 : 0 < p) (h1 : p < 1) {r k : ℕ} :
    logDensityWrtRoot (⟨r, fin p⟩ : NegativeBinomial XReal) k =
      fin (r * Real.log p + k * Real.log (1 - p)) := by
  simp [logDensityWrtRoot, f_ln _ h0, f_ln (1 - p) (by linarith)]

theorem logFact_fold (k : ℕ) :
    (List.range' 1 k).foldl (fun acc i => acc +. FloatOps.ln (FloatOps.ofNat i : XReal)) (fin 0)
      = fin (Real.log (Nat.factorial k)) := by
  induction k with
  | zero => simp
  | succ k ih =>
    rw [List.range'_1_concat, List.foldl_append, ih]
    have h1 : (0 : ℝ) < ((1 + k : ℕ) : ℝ) := by positivity
    have h2 : ((Nat.factorial k : ℕ) : ℝ) ≠ 0 := by positivity
    simp only [List.foldl_cons, List.foldl_nil, f_ofNat, f_ln _ h1, f_add]
    congr 1
    rw [Nat.factorial_succ, Nat.cast_mul, Real.log_mul (by positivity) h2, add_comm 1 k]
    ring

theorem Poisson.ld {r : ℝ} (hr : 0 < r) (k : ℕ) :
    logDensityWrtRoot (⟨fin r⟩ : Poisson XReal) k =
      fin (k * Real.log r - r - Real.log (Nat.factorial k)) := by
  have h := logFact_fold k
  simp only [f_ofNat] at h
  simp only [logDensityWrtRoot, f_zero, f_ofNat, f_ln _ hr, f_mul, f_sub, h]

end Verif
