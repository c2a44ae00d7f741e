import Verif.Props.DoubleExpr
import Verif.Props.MathJit
import Verif.Props.Tagless
import Verif.Lemmas.FltRange

/-!
# C95: the expression helpers and patterns in floating point
-/

namespace Verif
open Format FloatOps Tagless

variable {f : Format} {L : Libm}

/-! ## Polynomials and inner products -/

/-- `Σ g(cᵢ) yⁱ` -/
theorem foldr_poly (g : ℚ → ℝ) (y : ℝ) (cs : List ℚ) :
    cs.foldr (fun c s => g c + y * s) 0 = ∑ i : Fin cs.length, g cs[i] * y ^ (i : ℕ) := by
  induction cs with
  | nil => simp
  | cons c cs ih =>
    rw [List.foldr_cons, ih]
    rw [show ∑ i : Fin (c :: cs).length, g (c :: cs)[i] * y ^ (i : ℕ) =
      ∑ i : Fin (cs.length + 1), g (c :: cs)[i] * y ^ (i : ℕ) from rfl, Fin.sum_univ_succ, Finset.mul_sum]
    simp only [Fin.getElem_fin, Fin.val_zero, List.getElem_cons_zero, pow_zero, mul_one, Fin.val_succ,
      List.getElem_cons_succ]
    congr 1
    exact Finset.sum_congr rfl fun i _ => by ring

theorem within_horner (hf : f.Std) (cs : List ℚ) (hc : ∀ c ∈ cs, f.Representable c) {x r : ℚ}
    (hx : f.Representable x)
    (h : hornerExpr (directEval (F := Flt f L)) (cs.map (Flt.fin (f := f) (L := L))) (Flt.fin x) = Flt.fin r) :
    Within f (2 * cs.length) r (cs.foldr (fun (c : ℚ) (s : ℝ) => (c : ℝ) + x * s) 0)
      (cs.foldr (fun (c : ℚ) (s : ℝ) => (|(c : ℝ)| + 2 ^ f.emin / f.u) + |(x : ℝ)| * s) 0) := by
  have hu := u_pos f
  have ht : (0 : ℝ) < 2 ^ f.emin / f.u := by positivity
  induction cs generalizing r with
  | nil =>
    have h0 : Flt.fin (f := f) (L := L) 0 = Flt.fin r := h
    obtain rfl := FVal.fin.inj h0
    simpa using Within.exact (rep_zero f)
  | cons c cs ih =>
    have wc := Within.exact (hc c (by simp))
    rw [List.foldr_cons, List.foldr_cons]
    rcases cs with _ | ⟨d, cs⟩
    · have h0 : Flt.fin (f := f) (L := L) c = Flt.fin r := h
      obtain rfl := FVal.fin.inj h0
      simp only [List.foldr_nil, mul_zero, add_zero]
      exact wc.mono (Nat.zero_le _) (by linarith)
    · rw [List.map_cons, List.map_cons, hornerExpr_cons, ← List.map_cons] at h
      obtain ⟨y, z, hy, hz, h3⟩ := flt_add_inv (show Flt.add f (Flt.mul f _ _) _ = .fin r from h)
      obtain ⟨a, x', ha, hx', h4⟩ := flt_mul_inv hy
      obtain rfl := FVal.fin.inj hx'
      obtain rfl := FVal.fin.inj hz
      have wa := ih (fun c hc' => hc c (List.mem_cons_of_mem _ hc')) ha
      generalize hP : (d :: cs).foldr (fun (c : ℚ) (s : ℝ) => (c : ℝ) + x * s) 0 = P at *
      generalize hM : (d :: cs).foldr (fun (c : ℚ) (s : ℝ) => (|(c : ℝ)| + 2 ^ f.emin / f.u) + |(x : ℝ)| * s) 0 = M at *
      have w := (wa.mul hf (Within.exact hx) h4).add_same hf (wc.mono (Nat.zero_le _) le_rfl) h3
      have w' := w.mono (m := 2 * (c :: d :: cs).length)
        (Y := |(c : ℝ)| + 2 ^ f.emin / f.u + |(x : ℝ)| * M) (by simp only [List.length_cons]; omega) (by linarith)
      rw [mul_comm (x : ℝ) P, add_comm (c : ℝ)]
      exact w'

/-- **C95**: Horner evaluation of a polynomial with `n` coefficients, when it yields a finite number, is
within `(1+u)^(2n) - 1` of the exact value relative to `Σ |cᵢ| |x|ⁱ` (each coefficient counted with at
least the bound of the normal range). -/
theorem C95_horner (hf : f.Std) (cs : List ℚ) (hc : ∀ c ∈ cs, f.Representable c) {x r : ℚ}
    (hx : f.Representable x)
    (h : horner (directEval (F := Flt f L)) (cs.map (Flt.fin (f := f) (L := L))) (Flt.fin x) = Flt.fin r) :
    |(r : ℝ) - ∑ i : Fin cs.length, (cs[i] : ℝ) * (x : ℝ) ^ (i : ℕ)| ≤
      ((1 + f.u) ^ (2 * cs.length) - 1) *
        ∑ i : Fin cs.length, (|(cs[i] : ℝ)| + 2 ^ f.emin / f.u) * |(x : ℝ)| ^ (i : ℕ) := by
  rw [← C68_expression_variant_agrees] at h
  have e : (cs.map (Flt.fin (f := f) (L := L))).map (directEval (F := Flt f L)).constant =
      cs.map (Flt.fin (f := f) (L := L)) := List.map_id _
  rw [e] at h
  have w := (within_horner hf cs hc hx h).err
  rw [foldr_poly (fun c => (c : ℝ)), foldr_poly (fun c => |(c : ℝ)| + 2 ^ f.emin / f.u)] at w
  exact w

theorem within_dot (hf : f.Std) (l : List (ℚ × ℚ)) (hl : ∀ p ∈ l, f.Representable p.1 ∧ f.Representable p.2)
    {k : ℕ} {a r : ℚ} {x X : ℝ} (hk : 1 ≤ k) (ha : Within f k a x X)
    (h : l.foldl (fun s p => Flt.add f s (Flt.mul f (.fin p.1) (.fin p.2))) (.fin a) = .fin r) :
    Within f (k + l.length) r (x + (l.map fun p => (p.1 : ℝ) * p.2).sum)
      (X + (l.map fun p => |(p.1 : ℝ) * p.2| + 2 ^ f.emin / f.u).sum) := by
  induction l using List.reverseRecOn generalizing r with
  | nil => simp only [List.foldl_nil, FVal.fin.injEq] at h; subst h; simpa using ha
  | append_singleton l p ih =>
    rw [List.foldl_append] at h
    obtain ⟨s, t, hs, ht, h3⟩ := flt_add_inv (show Flt.add f _ _ = .fin r from h)
    obtain ⟨p1, p2, h4, h5, h6⟩ := flt_mul_inv ht
    obtain rfl := FVal.fin.inj h4
    obtain rfl := FVal.fin.inj h5
    have w := ih (fun q hq => hl q (by simp [hq])) hs
    obtain ⟨r1, r2⟩ := hl p (by simp)
    have w2 := (Within.exact r1).mul hf (Within.exact r2) h6
    have w3 := w.add_same hf (w2.mono (m := k + l.length) (by omega) le_rfl) h3
    simp only [List.map_append, List.sum_append, List.length_append, List.map_cons, List.map_nil,
      List.sum_cons, List.sum_nil, add_zero, List.length_singleton]
    rw [← add_assoc k, ← add_assoc x, ← add_assoc X, abs_mul]
    exact w3

/-- **C95**: an inner product of two vectors of the same length `n`, when it is a finite number, is within
`(1+u)^n - 1` of the exact one relative to `Σ |pᵢ sᵢ|` (each term counted with at least the bound of the
normal range). -/
theorem C95_dot_product (hf : f.Std) (ps ss : List ℚ) (hlen : ps.length = ss.length)
    (hp : ∀ p ∈ ps, f.Representable p) (hs : ∀ s ∈ ss, f.Representable s) {r : ℚ}
    (h : Tagless.dotProduct (directEval (F := Flt f L)) (ps.map (Flt.fin (f := f) (L := L)))
      (ss.map (Flt.fin (f := f) (L := L))) = .ok (Flt.fin r)) :
    |(r : ℝ) - ((ps.zip ss).map fun p => (p.1 : ℝ) * p.2).sum| ≤
      ((1 + f.u) ^ ps.length - 1) * ((ps.zip ss).map fun p => |(p.1 : ℝ) * p.2| + 2 ^ f.emin / f.u).sum := by
  unfold Tagless.dotProduct at h
  rw [if_neg (by simp [hlen])] at h
  rcases ps with _ | ⟨p, ps⟩
  · rw [if_pos (by simp)] at h
    have h0 : Flt.fin (f := f) (L := L) 0 = Flt.fin r := Except.ok.inj h
    obtain rfl := FVal.fin.inj h0
    simp
  · rcases ss with _ | ⟨s, ss⟩
    · simp at hlen
    · rw [if_neg (by simp), index_ok (by simp), index_ok (by simp)] at h
      change dotLoop directEval _ _ _ _ = _ at h
      rw [dotLoop_eq _ _ _ (by simpa using hlen)] at h
      have h1 := Except.ok.inj h
      simp only [List.map_cons, List.zip_cons_cons, List.drop_one, List.tail_cons, List.getElem_cons_zero] at h1
      have e : (ps.map (Flt.fin (f := f) (L := L))).zip (ss.map (Flt.fin (f := f) (L := L))) =
          (ps.zip ss).map (fun p => (Flt.fin (f := f) (L := L) p.1, Flt.fin (f := f) (L := L) p.2)) := by
        rw [List.zip_map]; rfl
      rw [e, List.foldl_map] at h1
      have hmem : ∀ q ∈ ps.zip ss, f.Representable q.1 ∧ f.Representable q.2 := fun q hq =>
        ⟨hp _ (List.mem_cons_of_mem _ (List.of_mem_zip hq).1), hs _ (List.mem_cons_of_mem _ (List.of_mem_zip hq).2)⟩
      have h2 : (ps.zip ss).foldl (fun s p => Flt.add f s (Flt.mul f (.fin p.1) (.fin p.2)))
          (Flt.mul f (.fin p) (.fin s)) = .fin r := h1
      have hfin : ∃ a, Flt.mul f (.fin p) (.fin s) = .fin a := by
        rcases f.round_cases (p * s) with ⟨b, hb⟩ | hb
        · exact ⟨b, hb⟩
        · exfalso
          have key : ∀ l : List (ℚ × ℚ), ∀ r, l.foldl (fun s p => Flt.add f s (Flt.mul f (.fin p.1) (.fin p.2)))
              (Flt.mul f (.fin p) (.fin s)) ≠ .fin r := by
            intro l
            induction l using List.reverseRecOn with
            | nil =>
              intro r hr
              have : f.round (p * s) = .fin r := hr
              rw [hb] at this; cases this
            | append_singleton l q ih =>
              intro r hr
              rw [List.foldl_append] at hr
              obtain ⟨s', t, hs', -⟩ := flt_add_inv (show Flt.add f _ _ = .fin r from hr)
              exact ih _ hs'
          exact key _ _ h2
      obtain ⟨a, ha⟩ := hfin
      rw [ha] at h2
      have w0 := (Within.exact (hp p (by simp))).mul hf (Within.exact (hs s (by simp))) ha
      have w := (within_dot hf _ hmem (k := 0 + 0 + 1) (by omega) w0 h2).err
      have hl : (ps.zip ss).length = ps.length := by
        rw [List.length_zip]; simp at hlen; omega
      simp only [List.zip_cons_cons, List.map_cons, List.sum_cons]
      rw [hl] at w
      rw [abs_mul]
      rw [show (p :: ps).length = 0 + 0 + 1 + ps.length by simp only [List.length_cons]; omega]
      exact w

/-! ## The patterns are the densities -/

/-- **C95**: on the support the exponential pattern, evaluated directly, is bit for bit the log-density
method, so `C88_exponential` holds of it. -/
theorem C95_exponential_pattern {r x : ℚ} {d : Exponential (Flt f L)}
    (h : Exponential.new (Flt.fin r) = .ok d) (hx : 0 ≤ x) :
    Tagless.exponentialLogDensity (directEval (F := Flt f L)) (Flt.fin x) (Flt.fin r) =
      logDensityWrtRoot d (Flt.fin x) := by
  obtain ⟨-, rfl⟩ := Exponential.new_flt h
  rw [exponential_flt, if_pos hx]; rfl

/-! ## The logistic function and softplus -/

/-- `1 + exp(x)` as computed -/
theorem one_plus_exp (hf : f.Std) (hL : L.Accurate f) {x : ℚ} (hx : f.Representable x) :
    (∃ s : ℚ, Flt.add f (.fin 1) (Flt.exp L (.fin x)) = .fin s ∧ f.Representable s ∧
      |(s : ℝ) - (1 + Real.exp x)| ≤ 7/2 * f.u * (1 + Real.exp x)) ∨
    (Flt.add f (.fin 1) (Flt.exp L (.fin x)) = .inf false ∧ (2 : ℝ) ^ (f.emax - 1) ≤ Real.exp x) := by
  have hu := u_pos f
  have hul : f.u ≤ 1/1000 := hf.u_le.trans (by norm_num)
  have hE := Real.exp_pos (x : ℝ)
  rcases hL.exp x hx with ⟨e, he, her, hee⟩ | ⟨hi, hb⟩
  · left
    obtain ⟨s, hs⟩ := round_add_small hf (a := e) (d := 1) her (by
      rw [abs_one]
      exact one_le_zpow₀ (by norm_num) (by rcases hf with rfl | rfl <;> decide))
    rw [add_comm] at hs
    obtain ⟨hsr, hse⟩ := near_round_add hf hf.rep_one her hs
    refine ⟨s, by simp only [Flt.exp, he]; exact hs, hsr, ?_⟩
    have hη := hf.eta_le
    have h4 : f.u ^ 4 ≤ f.u * (1/1000) := by
      calc f.u ^ 4 = f.u * (f.u * (f.u * f.u)) := by ring
        _ ≤ f.u * (1/1000 * (1 * 1)) := by gcongr <;> linarith
        _ = _ := by ring
    push_cast at hse
    have h1 : |(1 : ℝ) + e| ≤ 1 + Real.exp x + (2 * f.u * Real.exp x + 2 ^ f.emin) := by
      have e1 : (1 : ℝ) + e = (1 + Real.exp x) + (e - Real.exp x) := by ring
      rw [e1]
      refine (abs_add_le _ _).trans ?_
      rw [abs_of_pos (by linarith : (0 : ℝ) < 1 + Real.exp x)]
      linarith
    have h2 : f.u * |(1 : ℝ) + e| ≤ f.u * (1 + Real.exp x + (2 * f.u * Real.exp x + 2 ^ f.emin)) := by gcongr
    have h3 := abs_sub_le (s : ℝ) (1 + e) (1 + Real.exp x)
    rw [add_sub_add_left_eq_sub] at h3
    have h5 : f.u * (f.u * Real.exp x) ≤ 1/1000 * (f.u * Real.exp x) := by gcongr
    have h6 : f.u * 2 ^ f.emin ≤ 1 * 2 ^ f.emin := by gcongr; linarith
    have h7 : 0 < f.u * Real.exp x := by positivity
    linarith
  · right
    exact ⟨by simp only [Flt.exp, hi]; rfl, hb⟩

/-- **C95**: the logistic function is a finite number for every finite argument, accurate to 5 units of
roundoff relative to the exact value (down to the bottom of the normal range). -/
theorem C95_logistic (hf : f.Std) (hL : L.Accurate f) {x : ℚ} (hx : f.Representable x) :
    ∃ r : ℚ, Tagless.logistic (directEval (F := Flt f L)) (Flt.fin x) = Flt.fin r ∧ f.Representable r ∧
      |(r : ℝ) - 1 / (1 + Real.exp (-x))| ≤ 5 * f.u * (1 / (1 + Real.exp (-x))) + 2 ^ (1 - f.emax) := by
  have hu := u_pos f
  have hul : f.u ≤ 1/1000 := hf.u_le.trans (by norm_num)
  have hD : 0 < 1 + Real.exp (-x) := by positivity
  have hD1 : 1 ≤ 1 + Real.exp (-x) := by linarith [Real.exp_pos (-(x : ℝ))]
  have e0 : Tagless.logistic (directEval (F := Flt f L)) (Flt.fin x) =
      Flt.div f (.fin 1) (Flt.add f (.fin 1) (Flt.exp L (.fin (-x)))) := rfl
  rw [e0]
  have hη : (2 : ℝ) ^ f.emin ≤ 2 ^ (1 - f.emax) :=
    zpow_le_zpow_right₀ (by norm_num) (by rcases hf with rfl | rfl <;> decide)
  rcases one_plus_exp hf hL (rep_neg hx) with ⟨s, hs, hsr, hse⟩ | ⟨hi, hb⟩
  · push_cast at hse
    set D := 1 + Real.exp (-x) with hDd
    have hs1 := abs_le.mp hse
    have hk : 7/2 * f.u * D ≤ 7/2000 * D := by
      have := mul_le_mul_of_nonneg_right hul hD.le
      linarith
    have hsD : 0.99 * D ≤ s := by linarith
    have hs0 : (0 : ℝ) < s := by linarith
    have hsq : s ≠ 0 := by rintro rfl; simp at hs0
    have h1s : 1 / (s : ℝ) ≤ 1.02 * (1 / D) := by
      rw [div_le_iff₀ hs0]
      have : 1.02 * (1 / D) * (0.99 * D) ≤ 1.02 * (1 / D) * s := by gcongr
      have e : 1.02 * (1 / D) * (0.99 * D) = 1.0098 := by field_simp; norm_num
      linarith
    have hsz : |(1 : ℚ) / s| ≤ 2 ^ (100 : ℤ) := by
      refine rat_le ?_
      push_cast
      rw [abs_of_pos (by positivity)]
      have h2 : 1 / D ≤ 1 := by rw [div_le_one hD]; exact hD1
      have : (2 : ℝ) ≤ 2 ^ (100 : ℤ) := by norm_num
      linarith
    obtain ⟨r, hr⟩ := round_small hf hsz
    obtain ⟨hrr, hre⟩ := near_round hf hr
    refine ⟨r, ?_, hrr, ?_⟩
    · rw [hs]; simp only [Flt.div, if_neg hsq]; exact hr
    push_cast at hre
    rw [abs_of_pos (by positivity : (0 : ℝ) < 1 / s)] at hre
    have h3 : |1 / (s : ℝ) - 1 / D| ≤ 7/2 * f.u * (1.02 * (1 / D)) := by
      have e : 1 / (s : ℝ) - 1 / D = (D - s) / D * (1 / s) := by field_simp
      rw [e, abs_mul, abs_div, abs_of_pos hD, abs_sub_comm, abs_of_pos (by positivity : (0 : ℝ) < 1 / s)]
      have : |(s : ℝ) - D| / D ≤ 7/2 * f.u := by rw [div_le_iff₀ hD]; exact hse
      exact mul_le_mul this h1s (by positivity) (by positivity)
    have h4 : f.u * (1 / (s : ℝ)) ≤ f.u * (1.02 * (1 / D)) := by gcongr
    have h5 := abs_sub_le (r : ℝ) (1 / s) (1 / D)
    have h6 : 0 < f.u * (1 / D) := by positivity
    linarith
  · refine ⟨0, by rw [hi]; rfl, rep_zero f, ?_⟩
    push_cast at hb
    rw [Rat.cast_zero, zero_sub, abs_neg, abs_of_pos (by positivity)]
    have h1 : 1 / (1 + Real.exp (-x)) ≤ 1 / 2 ^ (f.emax - 1) :=
      one_div_le_one_div_of_le (by positivity) (by linarith)
    rw [one_div ((2 : ℝ) ^ _), ← zpow_neg, neg_sub] at h1
    have : 0 ≤ 5 * f.u * (1 / (1 + Real.exp (-x))) := by positivity
    linarith

/-- **C95**: `softplus` is accurate in absolute terms, or `+∞` when `exp(x)` is at the end of the range. -/
theorem C95_softplus_partial (hf : f.Std) (hL : L.Accurate f) {x : ℚ} (hx : f.Representable x) :
    (∃ r : ℚ, Tagless.softplus (directEval (F := Flt f L)) (Flt.fin x) = Flt.fin r ∧ f.Representable r ∧
      |(r : ℝ) - Real.log (1 + Real.exp x)| ≤ 8 * f.u * (1 + Real.log (1 + Real.exp x))) ∨
    (Tagless.softplus (directEval (F := Flt f L)) (Flt.fin x) = Flt.posInf (f := f) (L := L) ∧
      (2 : ℝ) ^ (f.emax - 1) ≤ Real.exp x) := by
  have hu := u_pos f
  have hul : f.u ≤ 1/1000 := hf.u_le.trans (by norm_num)
  have hD : 0 < 1 + Real.exp x := by positivity
  have e0 : Tagless.softplus (directEval (F := Flt f L)) (Flt.fin x) =
      Flt.ln L (Flt.add f (.fin 1) (Flt.exp L (.fin x))) := rfl
  rw [e0]
  rcases one_plus_exp hf hL hx with ⟨s, hs, hsr, hse⟩ | ⟨hi, hb⟩
  · left
    obtain ⟨hs0, hl⟩ := log_near hD (by linarith) hse
    have hsq : 0 < s := by exact_mod_cast hs0
    obtain ⟨l, hl1, hl2, hl3⟩ := hL.ln s hsq hsr
    refine ⟨l, by rw [hs]; simp only [Flt.ln, if_pos hsq]; exact hl1, hl2, ?_⟩
    have hpos : 0 ≤ Real.log (1 + Real.exp x) := Real.log_nonneg (by linarith [Real.exp_pos (x : ℝ)])
    set lg := Real.log (1 + Real.exp x)
    have h1 : |Real.log s| ≤ lg + 7 * f.u := by
      have := abs_sub_abs_le_abs_sub (Real.log s) lg
      rw [abs_of_nonneg hpos] at this
      linarith
    have h2 : 2 * f.u * |Real.log s| ≤ 2 * f.u * (lg + 7 * f.u) := by gcongr
    have h3 := abs_sub_le (l : ℝ) (Real.log s) lg
    have h4 : f.u * f.u ≤ f.u * (1/1000) := by gcongr
    have h5 : 0 ≤ f.u * lg := by positivity
    linarith
  · right
    exact ⟨by rw [hi]; rfl, hb⟩

/-- **C95** fails for the softplus of large numbers: at `1000` it is `+∞` in doubles although the value
is about `1000`. -/
theorem C95_softplus_violated (hL : L.Accurate f64) :
    Tagless.softplus (directEval (F := Flt f64 L)) (Flt.fin 1000) = Flt.posInf (f := f64) (L := L) ∧
      Real.log (1 + Real.exp 1000) ≤ 1001 := by
  have hr : f64.Representable 1000 :=
    ⟨⟨1000, 0, by norm_num [f64], by norm_num [f64], by norm_num⟩, lt_f64_max (by norm_num)⟩
  have hx := exp_overflow (.inl rfl) hL hr le_rfl
  constructor
  · have e0 : Tagless.softplus (directEval (F := Flt f64 L)) (Flt.fin 1000) =
      Flt.ln L (Flt.add f64 (.fin 1) (L.exp 1000)) := rfl
    rw [e0, hx]; rfl
  · rw [Real.log_le_iff_le_exp (by positivity), show (1001 : ℝ) = 1000 + 1 by norm_num, Real.exp_add]
    have h1 : (1 : ℝ) ≤ Real.exp 1000 := Real.one_le_exp (by norm_num)
    have h2 := Real.exp_one_gt_d9
    nlinarith

/-- **C95** fails for the `log_sum_exp` pattern: for two values `1000` it is `+∞` in doubles although the
value is `1000 + ln 2`; the log-density of a mixture (`C93_logSumExp`) does not have this defect. -/
theorem C95_log_sum_exp_violated (hL : L.Accurate f64) :
    Tagless.logSumExp (directEval (F := Flt f64 L)) [Flt.fin 1000, Flt.fin 1000] =
        Flt.posInf (f := f64) (L := L) ∧
      Real.log (Real.exp 1000 + Real.exp 1000) = 1000 + Real.log 2 := by
  have hr : f64.Representable 1000 :=
    ⟨⟨1000, 0, by norm_num [f64], by norm_num [f64], by norm_num⟩, lt_f64_max (by norm_num)⟩
  have hx := exp_overflow (.inl rfl) hL hr le_rfl
  constructor
  · have e0 : Tagless.logSumExp (directEval (F := Flt f64 L)) [Flt.fin 1000, Flt.fin 1000] =
      Flt.ln L (Flt.add f64 (L.exp 1000) (L.exp 1000)) := rfl
    rw [e0, hx]; rfl
  · rw [← two_mul, Real.log_mul (by norm_num) (Real.exp_pos _).ne', Real.log_exp]; ring

/-- a list of exponentials -/
theorem exps_approx (hL : L.Accurate f) (qs : List ℚ) (hq : ∀ q ∈ qs, f.Representable q)
    (hb : ∀ q ∈ qs, Real.exp q < 2 ^ (f.emax - 1)) :
    ∃ es : List ℚ, qs.map L.exp = es.map FVal.fin ∧ es.length = qs.length ∧
      (∀ e ∈ es, f.Representable e) ∧
      |(es.map fun e : ℚ => (e : ℝ)).sum - (qs.map fun q : ℚ => Real.exp q).sum| ≤
        2 * f.u * (qs.map fun q : ℚ => Real.exp q).sum + qs.length * 2 ^ f.emin ∧
      (es.map fun e : ℚ => |(e : ℝ)|).sum ≤
        (1 + 2 * f.u) * (qs.map fun q : ℚ => Real.exp q).sum + qs.length * 2 ^ f.emin := by
  induction qs with
  | nil => exact ⟨[], by simp⟩
  | cons q qs ih =>
    obtain ⟨es, e1, e2, e3, e4, e5⟩ := ih (fun y hy => hq y (List.mem_cons_of_mem _ hy))
      (fun y hy => hb y (List.mem_cons_of_mem _ hy))
    rcases hL.exp q (hq q (by simp)) with ⟨e, g1, g2, g3⟩ | ⟨-, g⟩
    · refine ⟨e :: es, by simp only [List.map_cons, e1, g1], by simp [e2], ?_, ?_, ?_⟩
      · intro p hp
        rcases List.mem_cons.mp hp with rfl | hp
        exacts [g2, e3 p hp]
      · simp only [List.map_cons, List.sum_cons, List.length_cons]
        rw [add_sub_add_comm]
        push_cast
        refine (abs_add_le _ _).trans ?_
        linarith
      · simp only [List.map_cons, List.sum_cons, List.length_cons]
        push_cast
        have := abs_sub_abs_le_abs_sub (e : ℝ) (Real.exp q)
        rw [abs_of_pos (Real.exp_pos _)] at this
        linarith
    · exact absurd g (not_le.mpr (hb q (by simp)))

/-- **C95**: for at least two values whose exponentials sum to a number inside the range of the format,
the `log_sum_exp` pattern is accurate.  (Missing: the values for which it is not, see
`C95_log_sum_exp_violated`.) -/
theorem C95_log_sum_exp_partial (hf : f.Std) (hL : L.Accurate f) (v w : ℚ) (vs : List ℚ)
    (hq : ∀ q ∈ v :: w :: vs, f.Representable q)
    (hhi : ((v :: w :: vs).map fun q : ℚ => Real.exp q).sum ≤ 2 ^ (f.emax - 4))
    (hlo : 2 ^ f.emin / f.u ≤ ((v :: w :: vs).map fun q : ℚ => Real.exp q).sum)
    (hn : ((v :: w :: vs).length : ℝ) * f.u ≤ 1/100) :
    ∃ r : ℚ, Tagless.logSumExp (directEval (F := Flt f L)) ((v :: w :: vs).map (Flt.fin (f := f) (L := L))) =
        Flt.fin r ∧ f.Representable r ∧
      |(r : ℝ) - Real.log ((v :: w :: vs).map fun q : ℚ => Real.exp q).sum| ≤
        16 * (v :: w :: vs).length * f.u *
          (1 + |Real.log ((v :: w :: vs).map fun q : ℚ => Real.exp q).sum|) := by
  have hu := u_pos f
  have hul : f.u ≤ 1/1000 := hf.u_le.trans (by norm_num)
  have hpos : ∀ q ∈ v :: w :: vs, 0 ≤ Real.exp (q : ℝ) := fun q _ => (Real.exp_pos _).le
  have hsingle : ∀ q ∈ v :: w :: vs, Real.exp (q : ℝ) ≤ ((v :: w :: vs).map fun q : ℚ => Real.exp q).sum := by
    intro q hqm
    exact List.single_le_sum (by simp only [List.mem_map]; rintro _ ⟨p, -, rfl⟩; exact (Real.exp_pos _).le) _
      (List.mem_map.mpr ⟨q, hqm, rfl⟩)
  have hb : ∀ q ∈ v :: w :: vs, Real.exp (q : ℝ) < 2 ^ (f.emax - 1) := fun q hqm =>
    lt_of_le_of_lt ((hsingle q hqm).trans hhi) (zpow_lt_zpow_right₀ (by norm_num) (by omega))
  have hlen : 2 ≤ (v :: w :: vs).length := by simp
  have hS0 : 0 < ((v :: w :: vs).map fun q : ℚ => Real.exp q).sum :=
    lt_of_lt_of_le (Real.exp_pos (v : ℝ)) (hsingle v (by simp))
  obtain ⟨es, h1, h2, h3, h4, h5⟩ := exps_approx hL (v :: w :: vs) hq hb
  have e0 : Tagless.logSumExp (directEval (F := Flt f L)) ((v :: w :: vs).map (Flt.fin (f := f) (L := L))) =
      Flt.ln L (((w :: vs).map L.exp).foldl (Flt.add f) (L.exp v)) := by
    have key : ∀ (l : List ℚ) (a : FVal), (l.map FVal.fin).foldl
        (fun (sum : FVal) (x : FVal) => Flt.add f sum (Flt.exp L x)) a = (l.map L.exp).foldl (Flt.add f) a := by
      intro l a; rw [List.foldl_map, List.foldl_map]; rfl
    exact congrArg (Flt.ln L) (key (w :: vs) (L.exp v))
  rw [e0]
  generalize hSd : ((v :: w :: vs).map fun q : ℚ => Real.exp q).sum = S at *
  generalize hNd : (v :: w :: vs).length = N at *
  rcases es with _ | ⟨e, es⟩
  · simp only [List.length_nil] at h2; omega
  simp only [List.map_cons, List.cons.injEq] at h1
  obtain ⟨g1, g2⟩ := h1
  rw [List.map_cons, g1, g2]
  simp only [List.length_cons] at h2
  simp only [List.map_cons, List.sum_cons] at h4 h5
  have hη : (2 : ℝ) ^ f.emin ≤ f.u * S := by rw [div_le_iff₀ hu] at hlo; linarith
  have hN : (2 : ℝ) ≤ N := by exact_mod_cast hlen
  have hNη : (N : ℝ) * 2 ^ f.emin ≤ N * (f.u * S) := by gcongr
  have hNuS : (N : ℝ) * (f.u * S) ≤ 1/100 * S := by
    have := mul_le_mul_of_nonneg_right hn hS0.le
    linarith
  have hgr : f.grow (0 + es.length) ≤ 2 * N * f.u := by
    have h6 : f.grow (0 + es.length) ≤ f.grow N := grow_mono (by omega)
    exact h6.trans (grow_le (by linarith))
  have huS : f.u * S ≤ 1/1000 * S := by gcongr
  have hrest := fun x hx => h3 x (List.mem_cons_of_mem _ hx)
  have habs : |(e : ℝ)| + (es.map fun e : ℚ => |(e : ℝ)|).sum ≤ 1.1 * S := by linarith
  obtain ⟨t, ht⟩ := foldl_add_fin hf es hrest (a := e) (S := e) (T := |(e : ℝ)|) (k := 0) (h3 e (by simp))
    (by simp [grow_zero]) le_rfl (by linarith) (by
      refine habs.trans ?_
      have : (2 : ℝ) ^ (f.emax - 3) = 2 * 2 ^ (f.emax - 4) := by
        rw [show f.emax - 3 = 1 + (f.emax - 4) by ring, zpow_add₀ (by norm_num)]; norm_num
      rw [this]; linarith)
  obtain ⟨htr, hte⟩ := foldl_add_err hf es hrest (a := e) (S := e) (T := |(e : ℝ)|) (k := 0) (h3 e (by simp))
    (by simp [grow_zero]) le_rfl ht
  have ht' : Flt.ln L (List.foldl (Flt.add f) (.fin e) (es.map FVal.fin)) = Flt.ln L (.fin t) := by rw [ht]
  have h7 : |(t : ℝ) - S| ≤ (6 * N * f.u) * S := by
    have h8 := abs_sub_le (t : ℝ) (e + (es.map fun x : ℚ => (x : ℝ)).sum) S
    have h9 : f.grow (0 + es.length) * (|(e : ℝ)| + (es.map fun e : ℚ => |(e : ℝ)|).sum) ≤
        2 * N * f.u * (1.1 * S) :=
      mul_le_mul hgr habs (add_nonneg (abs_nonneg _) (List.sum_nonneg (by simp))) (by positivity)
    have h10 : 2 * (f.u * S) ≤ N * (f.u * S) := mul_le_mul_of_nonneg_right hN (by positivity)
    have h11 : 0 < N * (f.u * S) := by positivity
    linarith
  obtain ⟨ht0, hl⟩ := log_near hS0 (by linarith) h7
  have htq : 0 < t := by exact_mod_cast ht0
  obtain ⟨l, hl1, hl2, hl3⟩ := hL.ln t htq htr
  refine ⟨l, ht'.trans (by simp only [Flt.ln, if_pos htq]; exact hl1), hl2, ?_⟩
  have h12 : |Real.log t| ≤ |Real.log S| + 2 * (6 * N * f.u) := by
    have := abs_sub_abs_le_abs_sub (Real.log t) (Real.log S); linarith
  have h13 : 2 * f.u * |Real.log t| ≤ 2 * f.u * (|Real.log S| + 2 * (6 * N * f.u)) := by gcongr
  have h14 := abs_sub_le (l : ℝ) (Real.log t) (Real.log S)
  have h15 : f.u * (N * f.u) ≤ f.u * (1/100) := by gcongr
  have h16 : 2 * (f.u * |Real.log S|) ≤ N * (f.u * |Real.log S|) :=
    mul_le_mul_of_nonneg_right hN (by positivity)
  have h17 : 2 * f.u ≤ N * f.u := by gcongr
  have h18 : 0 ≤ N * (f.u * |Real.log S|) := by positivity
  linarith

/-- the hypotheses are met: the values `0` and `1` -/
example (hL : L.Accurate f64) :
    ∃ r : ℚ, Tagless.logSumExp (directEval (F := Flt f64 L)) [Flt.fin 0, Flt.fin 1] = Flt.fin (f := f64) (L := L) r ∧
      |(r : ℝ) - Real.log (1 + Real.exp 1)| ≤ 32 * f64.u * (1 + |Real.log (1 + Real.exp 1)|) := by
  have hf : f64.Std := .inl rfl
  have hu : f64.u = 1 / 2 ^ 53 := rfl
  have h1 : (2 : ℝ) ^ f64.emin / f64.u ≤ 1 := by
    rw [hu, div_le_one (by positivity), show f64.emin = -1074 from rfl, ← zpow_natCast, one_div, ← zpow_neg]
    exact zpow_le_zpow_right₀ (by norm_num) (by norm_num)
  have h3 : (16 : ℝ) ≤ 2 ^ (f64.emax - 4) := by
    calc (16 : ℝ) = 2 ^ (4 : ℤ) := by norm_num
      _ ≤ _ := zpow_le_zpow_right₀ (by norm_num) (by decide)
  have h4 := Real.exp_one_lt_d9
  have h5 := Real.exp_pos 1
  obtain ⟨r, hr, -, he⟩ := C95_log_sum_exp_partial hf hL 0 1 [] (by
      intro q hq
      simp only [List.mem_cons, List.not_mem_nil, or_false] at hq
      rcases hq with rfl | rfl
      exacts [rep_zero _, hf.rep_one]) (by simp; linarith) (by simp; linarith) (by simp [hu]; norm_num)
  refine ⟨r, hr, ?_⟩
  simp only [List.map_cons, List.map_nil, List.sum_cons, List.sum_nil, add_zero, Rat.cast_zero, Real.exp_zero,
    Rat.cast_one, List.length_cons, List.length_nil] at he
  norm_num at he ⊢
  exact he

/-- **C95**: softplus has no relative accuracy for negative arguments: at `-50` it is exactly zero in
doubles although the value is positive. -/
theorem C95_softplus_relative_violated (hL : L.Accurate f64) :
    Tagless.softplus (directEval (F := Flt f64 L)) (Flt.fin (-50)) = Flt.fin (f := f64) (L := L) 0 ∧
      0 < Real.log (1 + Real.exp (-50)) := by
  have hf : f64.Std := .inl rfl
  have hr : f64.Representable (-50) :=
    ⟨⟨-50, 0, by norm_num [f64], by norm_num [f64], by norm_num⟩, lt_f64_max (by norm_num)⟩
  refine ⟨?_, Real.log_pos (by linarith [Real.exp_pos (-50 : ℝ)])⟩
  have e0 : Tagless.softplus (directEval (F := Flt f64 L)) (Flt.fin (-50)) =
      Flt.ln L (Flt.add f64 (.fin 1) (L.exp (-50))) := rfl
  have hexp : Real.exp (-50) ≤ 1 / 2 ^ 60 := by
    rw [← Real.le_log_iff_exp_le (by positivity), one_div, Real.log_inv, Real.log_pow]
    have := Real.log_two_lt_d9
    norm_num
    linarith
  have hE := Real.exp_pos (-50 : ℝ)
  have hu : f64.u = 1 / 2 ^ 53 := rfl
  have hone : f64.round 1 = .fin 1 := f64.round_exact hf.rep_one
  rcases hL.exp (-50) hr with ⟨e, he, her, hee⟩ | ⟨-, hb⟩
  · have hη := hf.eta_le
    push_cast at hee
    rw [hu] at hee hη
    have he1 : |(e : ℝ)| ≤ 1 / 2 ^ 58 := by
      have h1 := abs_sub_abs_le_abs_sub (e : ℝ) (Real.exp (-50))
      rw [abs_of_pos hE] at h1
      norm_num at hη hee hexp ⊢
      linarith
    have he2 : |e| ≤ 1 / 2 ^ 58 := by
      have h2 : ((|e| : ℚ) : ℝ) ≤ ((1 / 2 ^ 58 : ℚ) : ℝ) := by push_cast; exact he1
      exact_mod_cast h2
    have hs : f64.round (1 + e) = .fin 1 := by
      obtain ⟨b1, b2⟩ := abs_le.mp he2
      have b3 : (1 : ℚ) / 2 ^ 58 = 1 / 288230376151711744 := by norm_num
      rw [b3] at b1 b2
      rcases lt_or_ge e 0 with hneg | hpos
      · have := f64.round_eval (q := 1 + e) (-1) (2 ^ 53) (by rw [abs_of_pos (by linarith)]; norm_num; linarith)
          (by rw [abs_of_pos (by linarith)]; norm_num; linarith) (by norm_num [f64])
          (by norm_num [f64]; rw [abs_le]; constructor <;> linarith)
          (.inl (by norm_num [f64]; rw [abs_lt]; constructor <;> linarith))
          (lt_f64_max (by norm_num [f64]))
        rw [this]; norm_num [f64]
      · have := f64.round_eval (q := 1 + e) 0 (2 ^ 52) (by rw [abs_of_pos (by linarith)]; norm_num; linarith)
          (by rw [abs_of_pos (by linarith)]; norm_num; linarith) (by norm_num [f64])
          (by norm_num [f64]; rw [abs_le]; constructor <;> linarith)
          (.inl (by norm_num [f64]; rw [abs_lt]; constructor <;> linarith))
          (lt_f64_max (by norm_num [f64]))
        rw [this]; norm_num [f64]
    obtain ⟨l, hl1, -, hl3⟩ := hL.ln 1 one_pos hf.rep_one
    simp only [Rat.cast_one, Real.log_one, abs_zero, mul_zero, sub_zero] at hl3
    have hl0 : l = 0 := by
      have : (l : ℝ) = 0 := abs_eq_zero.mp (le_antisymm hl3 (abs_nonneg _))
      exact_mod_cast this
    have h3 : Flt.add f64 (.fin 1) (.fin e) = .fin 1 := hs
    rw [e0, he, h3]
    have h4 : Flt.ln L (.fin 1) = L.ln 1 := by simp only [Flt.ln, one_pos, if_true]
    rw [h4, hl1, hl0]
  · exfalso
    have : (1 : ℝ) ≤ 2 ^ (f64.emax - 1) := one_le_zpow₀ (by norm_num) (by decide)
    push_cast at hb
    norm_num at hexp
    linarith

/-- the hypotheses of the polynomial and inner-product bounds are met -/
example : horner (directEval (F := Flt f64 L)) [Flt.fin 1, Flt.fin 3] (Flt.fin 2) = Flt.fin (f := f64) (L := L) 7 ∧
    Tagless.dotProduct (directEval (F := Flt f64 L)) [Flt.fin 3] [Flt.fin 2] = .ok (Flt.fin (f := f64) (L := L) 6) := by
  have r6 : f64.round (3 * 2) = .fin 6 := by
    rw [show (3 : ℚ) * 2 = 6 by norm_num]
    exact f64.round_exact ⟨⟨6, 0, by norm_num [f64], by norm_num [f64], by norm_num⟩, lt_f64_max (by norm_num)⟩
  have r7 : f64.round (6 + 1) = .fin 7 := by
    rw [show (6 : ℚ) + 1 = 7 by norm_num]
    exact f64.round_exact ⟨⟨7, 0, by norm_num [f64], by norm_num [f64], by norm_num⟩, lt_f64_max (by norm_num)⟩
  constructor
  · show Flt.add f64 (f64.round (3 * 2)) (.fin 1) = _
    rw [r6]; exact r7
  · show Except.ok (f64.round (3 * 2)) = _
    rw [r6]; rfl

end Verif
