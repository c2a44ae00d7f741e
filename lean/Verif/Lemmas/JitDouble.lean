import Verif.Lemmas.Appr
import Verif.Lemmas.JitAccuracy
import Verif.Spec.Jit
import Mathlib.Tactic.NormNum

/-! Rounding errors of the rational approximations used by the generated code, in double
precision. -/

namespace Verif
open Format Spec.Jit Accuracy

variable {L : Libm}

set_option maxHeartbeats 1000000 in
theorem lnRational_flt {m : ℚ} (hm : f64.Representable m) (h1 : 1 ≤ m) (h2 : m ≤ 2) :
    ∃ y : ℚ, lnRational (Flt.fin (f := f64) (L := L) m) = Flt.fin y ∧ f64.Representable y ∧
      |(y : ℝ) - lnRat m| ≤ 1e-14 := by
  have h1' : (1 : ℝ) ≤ m := by exact_mod_cast h1
  have h2' : (m : ℝ) ≤ 2 := by exact_mod_cast h2
  have am := Appr.exact hm (X := 2) (by rw [abs_of_nonneg (by linarith)]; exact h2')
  obtain ⟨c1, hc1, ac1⟩ := Appr.lit (-3.757488530222454) (X := 3758e-3) (e := 4173e-19) (by norm_num [abs_le]) (by norm_num) (by norm_num)
  obtain ⟨c2, hc2, ac2⟩ := Appr.lit (-11.05491670172403) (X := 1106e-2) (e := 1228e-18) (by norm_num [abs_le]) (by norm_num) (by norm_num)
  obtain ⟨c3, hc3, ac3⟩ := Appr.lit 11.288438153376154 (X := 1129e-2) (e := 1254e-18) (by norm_num [abs_le]) (by norm_num) (by norm_num)
  obtain ⟨c4, hc4, ac4⟩ := Appr.lit 4.139561514484466 (X := 4140e-3) (e := 4597e-19) (by norm_num [abs_le]) (by norm_num) (by norm_num)
  obtain ⟨c5, hc5, ac5⟩ := Appr.lit (-0.722936179175468) (X := 7230e-4) (e := 8027e-20) (by norm_num [abs_le]) (by norm_num) (by norm_num)
  obtain ⟨c6, hc6, ac6⟩ := Appr.lit 0.12040216214642954 (X := 1205e-4) (e := 1338e-20) (by norm_num [abs_le]) (by norm_num) (by norm_num)
  obtain ⟨c7, hc7, ac7⟩ := Appr.lit (-0.013833868987268428) (X := 1384e-5) (e := 1537e-21) (by norm_num [abs_le]) (by norm_num) (by norm_num)
  obtain ⟨c8, hc8, ac8⟩ := Appr.lit 0.0007734501810761601 (X := 7735e-7) (e := 8588e-23) (by norm_num [abs_le]) (by norm_num) (by norm_num)
  obtain ⟨c9, hc9, ac9⟩ := Appr.lit 1 (X := 1000e-3) (e := 1111e-19) (by norm_num [abs_le]) (by norm_num) (by norm_num)
  obtain ⟨c10, hc10, ac10⟩ := Appr.lit 9.97772102587755 (X := 9978e-3) (e := 1108e-18) (by norm_num [abs_le]) (by norm_num) (by norm_num)
  obtain ⟨c11, hc11, ac11⟩ := Appr.lit 10.595600174718957 (X := 1060e-2) (e := 1177e-18) (by norm_num [abs_le]) (by norm_num) (by norm_num)
  obtain ⟨p12, hp12, ap12⟩ := am.mul am (4000e-3) (4441e-19) (by norm_num) (by norm_num) (by norm_num)
  obtain ⟨p13, hp13, ap13⟩ := ap12.mul am (8000e-3) (1777e-18) (by norm_num) (by norm_num) (by norm_num)
  obtain ⟨p14, hp14, ap14⟩ := ap12.mul ap12 (1600e-2) (5330e-18) (by norm_num) (by norm_num) (by norm_num)
  obtain ⟨p15, hp15, ap15⟩ := ap14.mul am (3200e-2) (1422e-17) (by norm_num) (by norm_num) (by norm_num)
  obtain ⟨p16, hp16, ap16⟩ := ap14.mul ap12 (6400e-2) (3554e-17) (by norm_num) (by norm_num) (by norm_num)
  obtain ⟨p17, hp17, ap17⟩ := ap14.mul ap13 (1280e-1) (8529e-17) (by norm_num) (by norm_num) (by norm_num)
  obtain ⟨p18, hp18, ap18⟩ := ac2.mul am (2212e-2) (4912e-18) (by norm_num) (by norm_num) (by norm_num)
  obtain ⟨p19, hp19, ap19⟩ := ac3.mul ap12 (4516e-2) (1505e-17) (by norm_num) (by norm_num) (by norm_num)
  obtain ⟨p20, hp20, ap20⟩ := ac4.mul ap13 (3312e-2) (1472e-17) (by norm_num) (by norm_num) (by norm_num)
  obtain ⟨p21, hp21, ap21⟩ := ac5.mul ap14 (1157e-2) (6423e-18) (by norm_num) (by norm_num) (by norm_num)
  obtain ⟨p22, hp22, ap22⟩ := ac6.mul ap15 (3856e-3) (2570e-18) (by norm_num) (by norm_num) (by norm_num)
  obtain ⟨p23, hp23, ap23⟩ := ac7.mul ap16 (8858e-4) (6886e-19) (by norm_num) (by norm_num) (by norm_num)
  obtain ⟨p24, hp24, ap24⟩ := ac8.mul ap17 (9901e-5) (8796e-20) (by norm_num) (by norm_num) (by norm_num)
  obtain ⟨s25, hs25, as25⟩ := ac1.add ap18 (2588e-2) (8203e-18) (by norm_num) (by norm_num) (by norm_num)
  obtain ⟨s26, hs26, as26⟩ := as25.add ap19 (7104e-2) (3115e-17) (by norm_num) (by norm_num) (by norm_num)
  obtain ⟨s27, hs27, as27⟩ := as26.add ap20 (1042e-1) (5744e-17) (by norm_num) (by norm_num) (by norm_num)
  obtain ⟨s28, hs28, as28⟩ := as27.add ap21 (1158e-1) (7672e-17) (by norm_num) (by norm_num) (by norm_num)
  obtain ⟨s29, hs29, as29⟩ := as28.add ap22 (1197e-1) (9258e-17) (by norm_num) (by norm_num) (by norm_num)
  obtain ⟨s30, hs30, as30⟩ := as29.add ap23 (1206e-1) (1067e-16) (by norm_num) (by norm_num) (by norm_num)
  obtain ⟨s31, hs31, as31⟩ := as30.add ap24 (1207e-1) (1202e-16) (by norm_num) (by norm_num) (by norm_num)
  obtain ⟨p32, hp32, ap32⟩ := ac10.mul am (1996e-2) (4432e-18) (by norm_num) (by norm_num) (by norm_num)
  obtain ⟨p33, hp33, ap33⟩ := ac11.mul ap12 (4240e-2) (1413e-17) (by norm_num) (by norm_num) (by norm_num)
  obtain ⟨s34, hs34, as34⟩ := ac9.add ap32 (2096e-2) (6871e-18) (by norm_num) (by norm_num) (by norm_num)
  obtain ⟨s35, hs35, as35⟩ := as34.add ap33 (6336e-2) (2804e-17) (by norm_num) (by norm_num) (by norm_num)
  have hlog : |lnRat m| ≤ 0.7 := by
    have h := abs_le.mp (lnRat_error h1' h2')
    have h3 := Real.log_nonneg h1'
    have h4 : Real.log m ≤ Real.log 2 := Real.log_le_log (by linarith) h2'
    have h5 := Real.log_two_lt_d9
    rw [abs_le]
    norm_num at h h5 ⊢
    constructor <;> linarith [h.1, h.2]
  have hD : (21.5 : ℝ) ≤ ((1 : ℚ) : ℝ) + ((9.97772102587755 : ℚ) : ℝ) * m +
      ((10.595600174718957 : ℚ) : ℝ) * (m * m) := by
    have : (1 : ℝ) ≤ m * m := by nlinarith
    push_cast
    norm_num
    linarith
  obtain ⟨y, hy, ay⟩ := as31.div as35 21.5 0.7 1e-14 hD (by norm_num) (by
    refine le_of_eq_of_le ?_ hlog
    congr 1
    unfold lnRat
    push_cast
    congr 1 <;> ring) (by norm_num) (by norm_num)
  refine ⟨y, ?_, ay.rep, ?_⟩
  · have e : lnRational (Flt.fin (f := f64) (L := L) m) = (Flt.div f64 (Flt.add f64 (Flt.add f64
        (Flt.add f64 (Flt.add f64 (Flt.add f64 (Flt.add f64 (Flt.add f64
          (f64.round (-3.757488530222454)) (Flt.mul f64 (f64.round (-11.05491670172403)) (.fin m)))
          (Flt.mul f64 (f64.round 11.288438153376154) (Flt.mul f64 (.fin m) (.fin m))))
          (Flt.mul f64 (f64.round 4.139561514484466)
            (Flt.mul f64 (Flt.mul f64 (.fin m) (.fin m)) (.fin m))))
          (Flt.mul f64 (f64.round (-0.722936179175468))
            (Flt.mul f64 (Flt.mul f64 (.fin m) (.fin m)) (Flt.mul f64 (.fin m) (.fin m)))))
          (Flt.mul f64 (f64.round 0.12040216214642954) (Flt.mul f64
            (Flt.mul f64 (Flt.mul f64 (.fin m) (.fin m)) (Flt.mul f64 (.fin m) (.fin m))) (.fin m))))
          (Flt.mul f64 (f64.round (-0.013833868987268428)) (Flt.mul f64
            (Flt.mul f64 (Flt.mul f64 (.fin m) (.fin m)) (Flt.mul f64 (.fin m) (.fin m)))
            (Flt.mul f64 (.fin m) (.fin m)))))
          (Flt.mul f64 (f64.round 0.0007734501810761601) (Flt.mul f64
            (Flt.mul f64 (Flt.mul f64 (.fin m) (.fin m)) (Flt.mul f64 (.fin m) (.fin m)))
            (Flt.mul f64 (Flt.mul f64 (.fin m) (.fin m)) (.fin m)))))
        (Flt.add f64 (Flt.add f64 (f64.round 1) (Flt.mul f64 (f64.round 9.97772102587755) (.fin m)))
          (Flt.mul f64 (f64.round 10.595600174718957) (Flt.mul f64 (.fin m) (.fin m)))) : FVal) := rfl
    rw [e]
    simp only [hc1, hc2, hc3, hc4, hc5, hc6, hc7, hc8, hc9, hc10, hc11, hp12, hp13, hp14, hp15, hp16, hp17, hp18, hp19, hp20, hp21, hp22, hp23, hp24, hs25, hs26, hs27, hs28, hs29, hs30, hs31, hp32, hp33, hs34, hs35, hy]
    rfl
  · have := ay.err
    refine le_of_eq_of_le ?_ this
    congr 2
    unfold lnRat
    push_cast
    congr 1 <;> ring

/-- The numerator and denominator of the approximation of `exp`. -/
theorem expRat_den_ge {r : ℝ} (h0 : -0.1 ≤ r) (h1 : r ≤ 0.7) :
    0.8 ≤ 1 + -0.2739936800272977 * r + 0.021550775407834573 * r ^ 2 := by
  nlinarith [sq_nonneg r]

theorem expRat_abs_le {r : ℝ} (h0 : -0.1 ≤ r) (h1 : r ≤ 0.7) : |expRat r| ≤ 2.2 := by
  have hd := expRat_den_ge h0 h1
  have hr : |r| ≤ 0.7 := abs_le.mpr ⟨by linarith, h1⟩
  have p2 : |r ^ 2| ≤ 0.7 ^ 2 := by rw [abs_pow]; gcongr
  have p3 : |r ^ 3| ≤ 0.7 ^ 3 := by rw [abs_pow]; gcongr
  have p4 : |r ^ 4| ≤ 0.7 ^ 4 := by rw [abs_pow]; gcongr
  have p5 : |r ^ 5| ≤ 0.7 ^ 5 := by rw [abs_pow]; gcongr
  rw [abs_le] at hr p2 p3 p4 p5
  unfold expRat
  rw [abs_div, abs_of_pos (a := 1 + _ + _) (by linarith), div_le_iff₀ (by linarith), abs_le]
  norm_num at hr p2 p3 p4 p5 hd ⊢
  constructor <;> linarith [hr.1, hr.2, p2.1, p2.2, p3.1, p3.2, p4.1, p4.2, p5.1, p5.2]

set_option maxHeartbeats 1000000 in
theorem expRational_flt {r : ℚ} (hr : f64.Representable r) (h1 : (-0.1 : ℝ) ≤ r) (h2 : (r : ℝ) ≤ 0.7) :
    ∃ y : ℚ, expRational (Flt.fin (f := f64) (L := L) r) = Flt.fin y ∧ f64.Representable y ∧
      |(y : ℝ) - expRat r| ≤ 1e-14 := by
  have ar := Appr.exact hr (X := 7e-1) (by rw [abs_le]; norm_num at h1 h2 ⊢; constructor <;> linarith)
  obtain ⟨c1, hc1, ac1⟩ := Appr.lit 0.9999999999972777 (X := 10000e-4) (e := 1111e-19) (by norm_num [abs_le]) (by norm_num) (by norm_num)
  obtain ⟨c2, hc2, ac2⟩ := Appr.lit 0.726006320449981 (X := 7261e-4) (e := 8062e-20) (by norm_num [abs_le]) (by norm_num) (by norm_num)
  obtain ⟨c3, hc3, ac3⟩ := Appr.lit 0.24755708160005133 (X := 2476e-4) (e := 2749e-20) (by norm_num [abs_le]) (by norm_num) (by norm_num)
  obtain ⟨c4, hc4, ac4⟩ := Appr.lit 0.05122075349435326 (X := 5123e-5) (e := 5688e-21) (by norm_num [abs_le]) (by norm_num) (by norm_num)
  obtain ⟨c5, hc5, ac5⟩ := Appr.lit 0.006775629189039916 (X := 6776e-6) (e := 7523e-22) (by norm_num [abs_le]) (by norm_num) (by norm_num)
  obtain ⟨c6, hc6, ac6⟩ := Appr.lit 0.0005110519523480795 (X := 5111e-7) (e := 5675e-23) (by norm_num [abs_le]) (by norm_num) (by norm_num)
  obtain ⟨c7, hc7, ac7⟩ := Appr.lit 1 (X := 1000e-3) (e := 1111e-19) (by norm_num [abs_le]) (by norm_num) (by norm_num)
  obtain ⟨c8, hc8, ac8⟩ := Appr.lit (-0.2739936800272977) (X := 2740e-4) (e := 3043e-20) (by norm_num [abs_le]) (by norm_num) (by norm_num)
  obtain ⟨c9, hc9, ac9⟩ := Appr.lit 0.021550775407834573 (X := 2156e-5) (e := 2394e-21) (by norm_num [abs_le]) (by norm_num) (by norm_num)
  obtain ⟨p10, hp10, ap10⟩ := ar.mul ar (4900e-4) (5441e-20) (by norm_num) (by norm_num) (by norm_num)
  obtain ⟨p11, hp11, ap11⟩ := ap10.mul ar (3430e-4) (7617e-20) (by norm_num) (by norm_num) (by norm_num)
  obtain ⟨p12, hp12, ap12⟩ := ap11.mul ar (2401e-4) (7998e-20) (by norm_num) (by norm_num) (by norm_num)
  obtain ⟨p13, hp13, ap13⟩ := ap12.mul ar (1681e-4) (7465e-20) (by norm_num) (by norm_num) (by norm_num)
  obtain ⟨p14, hp14, ap14⟩ := ac2.mul ar (5083e-4) (1129e-19) (by norm_num) (by norm_num) (by norm_num)
  obtain ⟨p15, hp15, ap15⟩ := ac3.mul ap10 (1214e-4) (4042e-20) (by norm_num) (by norm_num) (by norm_num)
  obtain ⟨p16, hp16, ap16⟩ := ac4.mul ap11 (1758e-5) (7805e-21) (by norm_num) (by norm_num) (by norm_num)
  obtain ⟨p17, hp17, ap17⟩ := ac5.mul ap12 (1627e-6) (9032e-22) (by norm_num) (by norm_num) (by norm_num)
  obtain ⟨p18, hp18, ap18⟩ := ac6.mul ap13 (8592e-8) (5724e-23) (by norm_num) (by norm_num) (by norm_num)
  obtain ⟨s19, hs19, as19⟩ := ac1.add ap14 (1509e-3) (3916e-19) (by norm_num) (by norm_num) (by norm_num)
  obtain ⟨s20, hs20, as20⟩ := as19.add ap15 (1631e-3) (6131e-19) (by norm_num) (by norm_num) (by norm_num)
  obtain ⟨s21, hs21, as21⟩ := as20.add ap16 (1649e-3) (8040e-19) (by norm_num) (by norm_num) (by norm_num)
  obtain ⟨s22, hs22, as22⟩ := as21.add ap17 (1651e-3) (9883e-19) (by norm_num) (by norm_num) (by norm_num)
  obtain ⟨s23, hs23, as23⟩ := as22.add ap18 (1652e-3) (1172e-18) (by norm_num) (by norm_num) (by norm_num)
  obtain ⟨p24, hp24, ap24⟩ := ac8.mul ar (1918e-4) (4260e-20) (by norm_num) (by norm_num) (by norm_num)
  obtain ⟨p25, hp25, ap25⟩ := ac9.mul ap10 (1057e-5) (3520e-21) (by norm_num) (by norm_num) (by norm_num)
  obtain ⟨s26, hs26, as26⟩ := ac7.add ap24 (1192e-3) (2861e-19) (by norm_num) (by norm_num) (by norm_num)
  obtain ⟨s27, hs27, as27⟩ := as26.add ap25 (1203e-3) (4232e-19) (by norm_num) (by norm_num) (by norm_num)
  have hq := expRat_abs_le h1 h2
  have hD := expRat_den_ge h1 h2
  obtain ⟨y, hy, ay⟩ := as23.div as27 0.8 2.2 1e-14 (by
    push_cast
    norm_num at hD ⊢
    linarith) (by norm_num) (by
    refine le_of_eq_of_le ?_ hq
    congr 1
    unfold expRat
    push_cast
    congr 1 <;> ring) (by norm_num) (by norm_num)
  refine ⟨y, ?_, ay.rep, ?_⟩
  · have e : expRational (Flt.fin (f := f64) (L := L) r) = (Flt.div f64
        (Flt.add f64 (Flt.add f64 (Flt.add f64 (Flt.add f64 (Flt.add f64
          (f64.round 0.9999999999972777) (Flt.mul f64 (f64.round 0.726006320449981) (.fin r)))
          (Flt.mul f64 (f64.round 0.24755708160005133) (Flt.mul f64 (.fin r) (.fin r))))
          (Flt.mul f64 (f64.round 0.05122075349435326)
            (Flt.mul f64 (Flt.mul f64 (.fin r) (.fin r)) (.fin r))))
          (Flt.mul f64 (f64.round 0.006775629189039916)
            (Flt.mul f64 (Flt.mul f64 (Flt.mul f64 (.fin r) (.fin r)) (.fin r)) (.fin r))))
          (Flt.mul f64 (f64.round 0.0005110519523480795) (Flt.mul f64
            (Flt.mul f64 (Flt.mul f64 (Flt.mul f64 (.fin r) (.fin r)) (.fin r)) (.fin r)) (.fin r))))
        (Flt.add f64 (Flt.add f64 (f64.round 1) (Flt.mul f64 (f64.round (-0.2739936800272977)) (.fin r)))
          (Flt.mul f64 (f64.round 0.021550775407834573) (Flt.mul f64 (.fin r) (.fin r)))) : FVal) := rfl
    rw [e]
    simp only [hc1, hc2, hc3, hc4, hc5, hc6, hc7, hc8, hc9, hp10, hp11, hp12, hp13, hp14, hp15, hp16, hp17, hp18, hs19, hs20, hs21, hs22, hs23, hp24, hp25, hs26, hs27, hy]
    rfl
  · have := ay.err
    refine le_of_eq_of_le ?_ this
    congr 2
    unfold expRat
    push_cast
    congr 1 <;> ring

theorem expRat_lipschitz {a b : ℝ} (a0 : -0.1 ≤ a) (a1 : a ≤ 0.7) (b0 : -0.1 ≤ b) (b1 : b ≤ 0.7) :
    |expRat a - expRat b| ≤ 2.5 * |a - b| := by
  have ha : |a| ≤ 0.7 := abs_le.mpr ⟨by linarith, a1⟩
  have hb : |b| ≤ 0.7 := abs_le.mpr ⟨by linarith, b1⟩
  have hda := expRat_den_ge a0 a1
  have hdb := expRat_den_ge b0 b1
  have hB := expRat_abs_le b0 b1
  have m : ∀ i j : ℕ, |a ^ i * b ^ j| ≤ 0.7 ^ (i + j) := by
    intro i j
    rw [abs_mul, abs_pow, abs_pow, pow_add]
    gcongr
  have e1 : expRat a - expRat b = (a - b) *
      ((0.726006320449981 + 0.24755708160005133 * (a + b) + 0.05122075349435326 *
        (a ^ 2 + a * b + b ^ 2) + 0.006775629189039916 * (a ^ 3 + a ^ 2 * b + a * b ^ 2 + b ^ 3)
        + 0.0005110519523480795 * (a ^ 4 + a ^ 3 * b + a ^ 2 * b ^ 2 + a * b ^ 3 + b ^ 4)) -
       expRat b * (-0.2739936800272977 + 0.021550775407834573 * (a + b))) /
      (1 + -0.2739936800272977 * a + 0.021550775407834573 * a ^ 2) := by
    have h0 : expRat b * (1 + -0.2739936800272977 * b + 0.021550775407834573 * b ^ 2) =
        0.9999999999972777 + 0.726006320449981 * b + 0.24755708160005133 * b ^ 2
        + 0.05122075349435326 * b ^ 3 + 0.006775629189039916 * b ^ 4
        + 0.0005110519523480795 * b ^ 5 := by
      rw [expRat, div_mul_cancel₀ _ (by linarith)]
    rw [eq_div_iff (by linarith), sub_mul]
    nth_rw 1 [expRat]
    rw [div_mul_cancel₀ _ (by linarith)]
    generalize expRat b = t at h0 ⊢
    linear_combination (-1 : ℝ) * h0
  rw [e1, abs_div, abs_mul, abs_of_pos (a := 1 + _ + _) (by linarith), mul_div_assoc, mul_comm]
  refine mul_le_mul_of_nonneg_right ?_ (abs_nonneg _)
  rw [div_le_iff₀ (by linarith)]
  have n1 := abs_le.mp (m 1 0)
  have n2 := abs_le.mp (m 0 1)
  have n3 := abs_le.mp (m 2 0)
  have n4 := abs_le.mp (m 1 1)
  have n5 := abs_le.mp (m 0 2)
  have n6 := abs_le.mp (m 3 0)
  have n7 := abs_le.mp (m 2 1)
  have n8 := abs_le.mp (m 1 2)
  have n9 := abs_le.mp (m 0 3)
  have n10 := abs_le.mp (m 4 0)
  have n11 := abs_le.mp (m 3 1)
  have n12 := abs_le.mp (m 2 2)
  have n13 := abs_le.mp (m 1 3)
  have n14 := abs_le.mp (m 0 4)
  norm_num at n1 n2 n3 n4 n5 n6 n7 n8 n9 n10 n11 n12 n13 n14
  have hD : |expRat b * (-0.2739936800272977 + 0.021550775407834573 * (a + b))| ≤ 2.2 * 0.305 := by
    rw [abs_mul]
    refine mul_le_mul hB ?_ (abs_nonneg _) (by norm_num)
    rw [abs_le]
    constructor <;> norm_num <;> linarith [n1.1, n1.2, n2.1, n2.2]
  refine (abs_sub _ _).trans ?_
  have hP : |0.726006320449981 + 0.24755708160005133 * (a + b) + 0.05122075349435326 *
        (a ^ 2 + a * b + b ^ 2) + 0.006775629189039916 * (a ^ 3 + a ^ 2 * b + a * b ^ 2 + b ^ 3)
        + 0.0005110519523480795 * (a ^ 4 + a ^ 3 * b + a ^ 2 * b ^ 2 + a * b ^ 3 + b ^ 4)| ≤ 1.2 := by
    rw [abs_le]
    constructor <;> norm_num <;> linarith [n1.1, n1.2, n2.1, n2.2, n3.1, n3.2, n4.1, n4.2, n5.1,
      n5.2, n6.1, n6.2, n7.1, n7.2, n8.1, n8.2, n9.1, n9.2, n10.1, n10.2, n11.1, n11.2, n12.1,
      n12.2, n13.1, n13.2, n14.1, n14.2]
  refine (add_le_add hP hD).trans ?_
  norm_num at hda ⊢
  linarith

/-- `std::f64::consts::LN_2`. -/
theorem ln2_flt : ∃ l, f64.round Flt.ln2Lit = .fin l ∧ Appr l (Real.log 2) 0.69315 1e-16 := by
  obtain ⟨l, h1, h2⟩ := Appr.lit Flt.ln2Lit (X := 0.69315) (e := 7.8e-17)
    (by norm_num [Flt.ln2Lit, abs_le]) (by norm_num) (by norm_num)
  have h3 := LogTab.atanh2
  rw [Real.log_one, sub_zero] at h3
  refine ⟨l, h1, h2.rep, ?_, ?_⟩
  · rw [abs_le]; norm_num at h3 ⊢; constructor <;> linarith
  · have h4 := abs_le.mp h2.err
    norm_num [Flt.ln2Lit] at h3 h4 ⊢
    rw [abs_le]
    constructor <;> linarith

end Verif
