/- C245: `q_to_twotheta` and `twotheta_to_q` (skbeam/core/utils.py 1036-1106) in floating point. -/
import Verif.FlReal
import Mathlib.Analysis.Real.Pi.Bounds
import Mathlib.Analysis.SpecialFunctions.Trigonometric.Bounds
import Mathlib.Analysis.SpecialFunctions.Trigonometric.Inverse
import Mathlib.Analysis.Calculus.MeanValue

namespace Verif.Order.Bragg
open Verif Verif.Fl Real

/-- `(4 * np.pi)`: `np.pi` is the rounded pi; utils.py 1067, 1105. -/
noncomputable def fourPi (fl : ℝ → ℝ) : ℝ := fl (4 * fl π)

/-- `twotheta_to_q` of one angle, with a rounding after every operation and the sine of the library; utils.py 1103-1106. -/
noncomputable def twothetaToQR (fl fsin : ℝ → ℝ) (twoTheta wavelength : ℝ) : ℝ :=
  fl (fl (fourPi fl / wavelength) * fsin (fl (twoTheta / 2)))

open Classical in
/-- `q_to_twotheta` of one value, with a rounding after every operation and the arcsine of the library, which is NaN (`none`)
outside [-1, 1]; utils.py 1065-1068. -/
noncomputable def qToTwothetaR (fl fasin : ℝ → ℝ) (q wavelength : ℝ) : Option ℝ :=
  if |fl (q * fl (wavelength / fourPi fl))| ≤ 1 then some (fl (2 * fasin (fl (q * fl (wavelength / fourPi fl))))) else none

/-! ### Specification -/

/-- The wave number of Bragg's law, q = 4 pi sin(two theta / 2) / wavelength. -/
noncomputable def Spec.bragg (twoTheta wavelength : ℝ) : ℝ := 4 * π / wavelength * sin (twoTheta / 2)

/-- A library function with relative error at most u on [-b, b]. -/
def Spec.Good (u b : ℝ) (f g : ℝ → ℝ) : Prop := ∀ x, |x| ≤ b → |f x - g x| ≤ u * |g x|

/-! ### Relative errors -/

/-- x is y with a relative error of at most e. -/
def R (e x y : ℝ) : Prop := ∃ d, |d| ≤ e ∧ x = y * (1 + d)

theorem R.of_abs {e x y : ℝ} (he : 0 ≤ e) (h : |x - y| ≤ e * |y|) : R e x y := by
  by_cases hy : y = 0
  · subst hy
    simp only [abs_zero, mul_zero, sub_zero] at h
    exact ⟨0, by simpa using he, by simp [abs_nonpos_iff.1 h]⟩
  · refine ⟨(x - y) / y, ?_, by field_simp; ring⟩
    rw [abs_div, div_le_iff₀ (abs_pos.2 hy)]
    exact h

theorem R.abs {e x y : ℝ} (h : R e x y) : |x - y| ≤ e * |y| := by
  obtain ⟨d, hd, rfl⟩ := h
  rw [show y * (1 + d) - y = d * y by ring, abs_mul]
  exact mul_le_mul_of_nonneg_right hd (abs_nonneg _)

theorem R.mono {e e' x y : ℝ} (h : R e x y) (hle : e ≤ e') : R e' x y := by
  obtain ⟨d, hd, rfl⟩ := h
  exact ⟨d, hd.trans hle, rfl⟩

theorem R.nonneg {e x y : ℝ} (h : R e x y) : 0 ≤ e := by
  obtain ⟨d, hd, _⟩ := h
  exact (abs_nonneg d).trans hd

theorem R.refl {x : ℝ} : R 0 x x := ⟨0, by simp, by simp⟩

theorem R.mul {e f x y z w : ℝ} (h : R e x y) (h' : R f z w) : R (e + f + e * f) (x * z) (y * w) := by
  obtain ⟨d, hd, rfl⟩ := h
  obtain ⟨d', hd', rfl⟩ := h'
  refine ⟨d + d' + d * d', ?_, by ring⟩
  have h1 : |d * d'| ≤ e * f := by rw [abs_mul]; exact mul_le_mul hd hd' (abs_nonneg _) ((abs_nonneg d).trans hd)
  have h2 := abs_add_le (d + d') (d * d')
  have h3 := abs_add_le d d'
  linarith

theorem R.inv {e x y : ℝ} (h : R e x y) (he : e < 1) : R (e / (1 - e)) x⁻¹ y⁻¹ := by
  obtain ⟨d, hd, rfl⟩ := h
  have h1 := abs_le.1 hd
  have hp : 0 < 1 + d := by linarith
  refine ⟨-d / (1 + d), ?_, ?_⟩
  · rw [abs_div, abs_neg, abs_of_pos hp, div_le_div_iff₀ hp (by linarith)]
    have := abs_nonneg d
    nlinarith [neg_abs_le d]
  · rw [mul_inv]
    congr 1
    field_simp
    ring

theorem R.trans {e f x y z : ℝ} (h : R e x y) (h' : R f y z) : R (e + f + e * f) x z := by
  obtain ⟨d, hd, rfl⟩ := h
  obtain ⟨d', hd', rfl⟩ := h'
  refine ⟨d + d' + d * d', ?_, by ring⟩
  have h1 : |d * d'| ≤ e * f := by rw [abs_mul]; exact mul_le_mul hd hd' (abs_nonneg _) ((abs_nonneg d).trans hd)
  have h2 := abs_add_le (d + d') (d * d')
  have h3 := abs_add_le d d'
  linarith

theorem R.fl {u : ℝ} {fl : ℝ → ℝ} (hfl : Spec.RelR u fl) (x : ℝ) : R u (fl x) x := R.of_abs hfl.1 (hfl.2 x)

theorem R.rnd {u e x y : ℝ} {fl : ℝ → ℝ} (hfl : Spec.RelR u fl) (h : R e x y) : R (u + e + u * e) (fl x) y := (R.fl hfl x).trans h

/-! ### Sine and arcsine -/

theorem sin_lip (a b : ℝ) : |sin a - sin b| ≤ |a - b| := by
  have := Convex.norm_image_sub_le_of_norm_deriv_le (f := sin) (C := 1) (s := Set.univ) (fun x _ => differentiable_sin x)
    (fun x _ => by rw [Real.deriv_sin]; exact abs_cos_le_one x) convex_univ (Set.mem_univ b) (Set.mem_univ a)
  simpa using this

theorem le_sin (a : ℝ) (h : |a| ≤ 2) : |a| ≤ 3 * |sin a| := by
  have hpi : 3.1415 < π := pi_gt_d4
  have hpi' : π < 3.1416 := pi_lt_d4
  have main : ∀ x : ℝ, 0 ≤ x → x ≤ 2 → x ≤ 3 * sin x := by
    intro x hx hx2
    by_cases hc : x ≤ π / 2
    · have := mul_le_sin hx hc
      have h2 : 1 / 3 * x ≤ 2 / π * x := mul_le_mul_of_nonneg_right (by rw [div_le_div_iff₀ (by norm_num) (by linarith)]; linarith) hx
      linarith
    · push Not at hc
      have := mul_le_sin (show 0 ≤ π - x by linarith) (by linarith)
      rw [sin_pi_sub] at this
      have h2 : 2 / π * (π - x) ≥ 2 / 3.1416 * (3.1415 - 2) := by
        apply mul_le_mul _ (by linarith) (by norm_num) (by positivity)
        rw [div_le_div_iff₀ (by norm_num) (by linarith)]
        linarith
      norm_num at h2
      linarith
  rcases le_total 0 a with h0 | h0
  · rw [abs_of_nonneg h0] at h ⊢
    have := main a h0 h
    rwa [abs_of_nonneg (by linarith)]
  · rw [abs_of_nonpos h0] at h ⊢
    have := main (-a) (by linarith) h
    rw [sin_neg] at this
    rw [abs_of_nonpos (by linarith)]
    linarith

theorem arcsin_le (s : ℝ) (h : |s| ≤ 1) : |arcsin s| ≤ 1.6 * |s| := by
  have hpi' : π < 3.1416 := pi_lt_d4
  have main : ∀ x : ℝ, 0 ≤ x → x ≤ 1 → arcsin x ≤ 1.6 * x := by
    intro x hx hx1
    have := mul_le_sin (arcsin_nonneg.2 hx) (arcsin_le_pi_div_two x)
    rw [sin_arcsin (by linarith) hx1] at this
    have h2 : 1 / 1.6 * arcsin x ≤ 2 / π * arcsin x := mul_le_mul_of_nonneg_right (by rw [div_le_div_iff₀ (by norm_num) (by positivity)]; linarith) (arcsin_nonneg.2 hx)
    norm_num at h2 ⊢
    linarith
  rcases le_total 0 s with h0 | h0
  · rw [abs_of_nonneg h0] at h ⊢
    rw [abs_of_nonneg (arcsin_nonneg.2 h0)]
    exact main s h0 h
  · rw [abs_of_nonpos h0] at h ⊢
    have := main (-s) (by linarith) h
    rw [arcsin_neg] at this
    rwa [abs_of_nonpos (arcsin_nonpos.2 h0)]

/-- The sine of an argument with relative error e. -/
theorem R.sin {e a b : ℝ} (h : R e a b) (hb : |b| ≤ 2) : R (3 * e) (sin a) (sin b) := by
  refine R.of_abs (by linarith [h.nonneg]) ((sin_lip a b).trans (h.abs.trans ?_))
  have := mul_le_mul_of_nonneg_left (le_sin b hb) h.nonneg
  linarith

theorem fourPi_near {u : ℝ} {fl : ℝ → ℝ} (hfl : Spec.RelR u fl) (hu : u ≤ 1 / 1000) : R (2001 / 1000 * u) (fourPi fl) (4 * π) := by
  have h := R.rnd hfl ((R.refl (x := 4)).mul (R.fl hfl π))
  refine h.mono ?_
  have := hfl.1
  nlinarith

/-- C245: `twotheta_to_q` in floating point is Bragg's law within nine units of rounding, for all angles up to more than half a turn. -/
theorem C245_twotheta_to_q (u : ℝ) (hu : u ≤ 1 / 1000) (fl fsin : ℝ → ℝ) (hfl : Spec.RelR u fl) (hsin : Spec.Good u (201 / 100) fsin sin) (t lam : ℝ) (ht : |t| ≤ 4) :
    |twothetaToQR fl fsin t lam - Spec.bragg t lam| ≤ 9 * u * |Spec.bragg t lam| := by
  have hu0 := hfl.1
  have h1 := R.rnd hfl ((fourPi_near hfl hu).mul (R.refl (x := lam⁻¹)))
  rw [← div_eq_mul_inv, ← div_eq_mul_inv] at h1
  have ha : |t / 2| ≤ 2 := by rw [abs_div, abs_two]; linarith
  have h2 := R.fl hfl (t / 2)
  have ha' : |fl (t / 2)| ≤ 201 / 100 := by
    have := h2.abs
    have h3 := abs_sub_abs_le_abs_sub (fl (t / 2)) (t / 2)
    have h4 : u * |t / 2| ≤ 1 / 1000 * 2 := mul_le_mul hu ha (abs_nonneg _) (by norm_num)
    linarith
  have h3 := (R.of_abs hu0 (hsin _ ha')).trans (h2.sin ha)
  have h4 := (R.rnd hfl (h1.mul h3)).abs
  refine h4.trans (mul_le_mul_of_nonneg_right ?_ (abs_nonneg _))
  clear * - hu hu0
  have h2 : u * u ≤ 1 / 1000 * u := mul_le_mul_of_nonneg_right hu hu0
  have h3 : u * u * u ≤ 1 / 1000 * u := by nlinarith [mul_nonneg hu0 hu0]
  have h4 : u * u * u * u ≤ 1 / 1000 * u := by nlinarith [mul_nonneg (mul_nonneg hu0 hu0) hu0]
  have h5 : u * u * u * u * u ≤ 1 / 1000 * u := by nlinarith [mul_nonneg (mul_nonneg (mul_nonneg hu0 hu0) hu0) hu0]
  have h6 : u * u * u * u * u * u ≤ 1 / 1000 * u := by nlinarith [mul_nonneg (mul_nonneg (mul_nonneg (mul_nonneg hu0 hu0) hu0) hu0) hu0]
  ring_nf at h2 h3 h4 h5 h6 ⊢
  linarith

theorem arg_near {u : ℝ} {fl : ℝ → ℝ} (hfl : Spec.RelR u fl) (hu : u ≤ 1 / 1000) (q lam : ℝ) :
    R (403 / 100 * u) (fl (q * fl (lam / fourPi fl))) (q * (lam / (4 * π))) := by
  have hu0 := hfl.1
  have h0 := (fourPi_near hfl hu).inv (by linarith)
  have h0' : R (201 / 100 * u) (fourPi fl)⁻¹ (4 * π)⁻¹ := by
    refine h0.mono ?_
    rw [div_le_iff₀ (by linarith)]
    nlinarith
  have h1 := R.rnd hfl ((R.refl (x := lam)).mul h0')
  rw [← div_eq_mul_inv, ← div_eq_mul_inv] at h1
  have h2 := R.rnd hfl ((R.refl (x := q)).mul h1)
  refine h2.mono ?_
  clear * - hu hu0
  have h2 : u * u ≤ 1 / 1000 * u := mul_le_mul_of_nonneg_right hu hu0
  have h3 : u * u * u ≤ 1 / 1000 * (1 / 1000 * u) := by nlinarith [mul_nonneg hu0 hu0]
  ring_nf at h2 h3 ⊢
  linarith

/-- C245: `q_to_twotheta` in floating point gives, wherever it gives a number, the exact angle of a wave number within nine units of rounding
of the given one; and it does so for all wave numbers at least five units of rounding below the largest, 4 pi / wavelength. -/
theorem C245_q_to_twotheta (u : ℝ) (hu : u ≤ 1 / 1000) (fl fasin : ℝ → ℝ) (hfl : Spec.RelR u fl) (hasin : Spec.Good u 1 fasin arcsin) (q lam : ℝ) (hlam : 0 < lam) :
    (∀ t, qToTwothetaR fl fasin q lam = some t → |t| ≤ 4 ∧ |Spec.bragg t lam - q| ≤ 9 * u * |q|) ∧
    (|q| ≤ (1 - 5 * u) * (4 * π / lam) → ∃ t, qToTwothetaR fl fasin q lam = some t) := by
  have hu0 := hfl.1
  have hpi' : π < 3.1416 := pi_lt_d4
  have hs := arg_near hfl hu q lam
  obtain ⟨s, hsd⟩ : ∃ s, s = fl (q * fl (lam / fourPi fl)) := ⟨_, rfl⟩
  unfold qToTwothetaR
  rw [← hsd] at hs ⊢
  refine ⟨fun t ht => ?_, fun hq => ?_⟩
  · split_ifs at ht with h1
    obtain rfl := Option.some.inj ht
    have ha := (R.rnd hfl ((R.refl (x := 2)).mul (R.of_abs hu0 (hasin s h1))))
    have ha' : R (2001 / 1000 * u) (fl (2 * fasin s)) (2 * arcsin s) := by
      refine ha.mono ?_
      nlinarith
    have hle : |2 * arcsin s| ≤ 16 / 5 := by
      rw [abs_mul, abs_two]
      have := arcsin_le s h1
      norm_num at this
      linarith
    have hle4 : |fl (2 * fasin s)| ≤ 4 := by
      have h2 := ha'.abs
      have h3 := abs_sub_abs_le_abs_sub (fl (2 * fasin s)) (2 * arcsin s)
      have h4 : 2001 / 1000 * u * |2 * arcsin s| ≤ 2001 / 1000 * (1 / 1000) * (16 / 5) := mul_le_mul (by linarith) hle (abs_nonneg _) (by norm_num)
      linarith
    refine ⟨hle4, ?_⟩
    have hsin : |sin (fl (2 * fasin s) / 2) - s| ≤ 3.3 * u * |s| := by
      have h2 := sin_lip (fl (2 * fasin s) / 2) (arcsin s)
      rw [sin_arcsin (neg_le_of_abs_le h1) (le_of_abs_le h1)] at h2
      have h3 := ha'.abs
      rw [abs_mul, abs_two] at h3
      have h4 : |fl (2 * fasin s) / 2 - arcsin s| = |fl (2 * fasin s) - 2 * arcsin s| / 2 := by
        rw [← abs_two (α := ℝ), ← abs_div, abs_two]
        congr 1
        ring
      have h5 := mul_le_mul_of_nonneg_left (arcsin_le s h1) hu0
      have h6 : 0 ≤ u * |s| := mul_nonneg hu0 (abs_nonneg s)
      norm_num at h5 h6 ⊢
      linarith
    have hR := (R.of_abs (by positivity) hsin).trans hs
    have hb := ((R.refl (x := 4 * π / lam)).mul hR).abs
    have e : 4 * π / lam * (q * (lam / (4 * π))) = q := by
      have := pi_pos
      field_simp
    rw [e] at hb
    refine hb.trans (mul_le_mul_of_nonneg_right ?_ (abs_nonneg _))
    norm_num
    nlinarith
  · have hle : |s| ≤ 1 := by
      have h1 := hs.abs
      have h2 := abs_sub_abs_le_abs_sub s (q * (lam / (4 * π)))
      have h3 : |q * (lam / (4 * π))| ≤ 1 - 5 * u := by
        rw [abs_mul, abs_of_pos (show 0 < lam / (4 * π) by positivity)]
        calc |q| * (lam / (4 * π)) ≤ (1 - 5 * u) * (4 * π / lam) * (lam / (4 * π)) := mul_le_mul_of_nonneg_right hq (by positivity)
          _ = 1 - 5 * u := by have := pi_pos; field_simp
      have h4 : 403 / 100 * u * |q * (lam / (4 * π))| ≤ 403 / 100 * u * 1 := mul_le_mul_of_nonneg_left (by linarith) (by linarith)
      linarith
    rw [if_pos hle]
    exact ⟨_, rfl⟩

/-- C245, part that holds: converting q to an angle and back changes q by at most 19 units of rounding, wherever the angle is a number.
Missing: near the largest q the angle may be NaN, `C245_roundtrip_refuted`. -/
theorem C245_roundtrip_partial (u : ℝ) (hu : u ≤ 1 / 1000) (fl fsin fasin : ℝ → ℝ) (hfl : Spec.RelR u fl) (hsin : Spec.Good u (201 / 100) fsin sin)
    (hasin : Spec.Good u 1 fasin arcsin) (q lam : ℝ) (hlam : 0 < lam) (t : ℝ) (ht : qToTwothetaR fl fasin q lam = some t) :
    |twothetaToQR fl fsin t lam - q| ≤ 19 * u * |q| := by
  obtain ⟨ht4, hb⟩ := (C245_q_to_twotheta u hu fl fasin hfl hasin q lam hlam).1 t ht
  have h1 := C245_twotheta_to_q u hu fl fsin hfl hsin t lam ht4
  have hu0 := hfl.1
  have h2 := abs_sub_abs_le_abs_sub (Spec.bragg t lam) q
  have h3 : |Spec.bragg t lam| ≤ (1 + 9 * u) * |q| := by linarith
  have h4 : 9 * u * |Spec.bragg t lam| ≤ 9 * u * ((1 + 9 * u) * |q|) := mul_le_mul_of_nonneg_left h3 (by linarith)
  have h5 : |twothetaToQR fl fsin t lam - q| ≤ |twothetaToQR fl fsin t lam - Spec.bragg t lam| + |Spec.bragg t lam - q| := by
    have := abs_add_le (twothetaToQR fl fsin t lam - Spec.bragg t lam) (Spec.bragg t lam - q)
    rwa [sub_add_sub_cancel] at this
  have h6 : 81 * (u * u) * |q| ≤ u * |q| := by
    apply mul_le_mul_of_nonneg_right _ (abs_nonneg q)
    nlinarith
  calc _ ≤ 9 * u * ((1 + 9 * u) * |q|) + 9 * u * |q| := by linarith
    _ = 18 * u * |q| + 81 * (u * u) * |q| := by ring
    _ ≤ _ := by linarith

/-! ### Doubles -/

theorem roundR_pi : roundR π = ((884279719003555 / 2 ^ 48 : ℚ) : ℝ) := by
  have h1 : (((314159265358979323846 : ℚ) / 10 ^ 20 : ℚ) : ℝ) ≤ π := by
    have := pi_gt_d20
    push_cast
    norm_num at this ⊢
    linarith
  have h2 : π ≤ (((314159265358979323847 : ℚ) / 10 ^ 20 : ℚ) : ℝ) := by
    have := pi_lt_d20
    push_cast
    norm_num at this ⊢
    linarith
  have e1 : round53 ((314159265358979323846 : ℚ) / 10 ^ 20) = 884279719003555 / 2 ^ 48 := by decide +kernel
  have e2 : round53 ((314159265358979323847 : ℚ) / 10 ^ 20) = 884279719003555 / 2 ^ 48 := by decide +kernel
  apply le_antisymm
  · have := roundR_mono _ _ h2
    rwa [roundR_rat, e2] at this
  · have := roundR_mono _ _ h1
    rwa [roundR_rat, e1] at this

theorem roundR_fourPi : fourPi roundR = ((884279719003555 / 2 ^ 46 : ℚ) : ℝ) := by
  unfold fourPi
  rw [roundR_pi, show (4 : ℝ) * ((884279719003555 / 2 ^ 48 : ℚ) : ℝ) = ((4 * (884279719003555 / 2 ^ 48) : ℚ) : ℝ) by push_cast; ring, roundR_rat]
  exact congrArg _ (by decide +kernel)

/-- The sine and arcsine correctly rounded. -/
noncomputable def sinD (x : ℝ) : ℝ := roundR (sin x)
noncomputable def arcsinD (x : ℝ) : ℝ := roundR (arcsin x)

theorem sin_right : sinD (roundR (roundR π / 2)) = 1 := by
  have e : roundR (roundR π / 2) = ((884279719003555 / 2 ^ 49 : ℚ) : ℝ) := by
    rw [roundR_pi, show ((884279719003555 / 2 ^ 48 : ℚ) : ℝ) / 2 = ((884279719003555 / 2 ^ 48 / 2 : ℚ) : ℝ) by push_cast; ring, roundR_rat]
    exact congrArg _ (by decide +kernel)
  have one : roundR 1 = 1 := by
    have := roundR_whole 1 (by norm_num)
    simpa using this
  unfold sinD
  rw [e]
  apply le_antisymm
  · have := roundR_mono _ _ (sin_le_one ((884279719003555 / 2 ^ 49 : ℚ) : ℝ))
    rwa [one] at this
  · have h1 : ((1 - 1 / 2 ^ 60 : ℚ) : ℝ) ≤ sin ((884279719003555 / 2 ^ 49 : ℚ) : ℝ) := by
      rw [← cos_pi_div_two_sub]
      have hc := one_sub_sq_div_two_le_cos (x := π / 2 - ((884279719003555 / 2 ^ 49 : ℚ) : ℝ))
      have hx : |π / 2 - ((884279719003555 / 2 ^ 49 : ℚ) : ℝ)| ≤ 1 / 2 ^ 30 := by
        have := pi_gt_d20
        have := pi_lt_d20
        rw [abs_le]
        push_cast
        norm_num at *
        constructor <;> linarith
      have := sq_le_sq' (neg_le_of_abs_le hx) (le_of_abs_le hx)
      push_cast at *
      norm_num at *
      linarith
    have := roundR_mono _ _ h1
    rw [roundR_rat, show round53 (1 - 1 / 2 ^ 60) = 1 by decide +kernel] at this
    simpa using this

/-- C245, refuted in full: in doubles with correctly rounded functions, at a wavelength of 1.55 the q of a two theta of pi (back scattering),
computed by `twotheta_to_q`, is not accepted by `q_to_twotheta`: the answer is NaN. -/
theorem C245_roundtrip_refuted :
    qToTwothetaR roundR arcsinD (twothetaToQR roundR sinD (roundR π) (roundR (155 / 100))) (roundR (155 / 100)) = none := by
  have el : roundR (155 / 100) = ((6980579422424269 / 4503599627370496 : ℚ) : ℝ) := by
    rw [show (155 / 100 : ℝ) = ((155 / 100 : ℚ) : ℝ) by push_cast; ring, roundR_rat]
    exact congrArg _ (by decide +kernel)
  have key : (1 : ℚ) < round53 (round53 (round53 (884279719003555 / 2 ^ 46 / (6980579422424269 / 4503599627370496))) * round53 ((6980579422424269 / 4503599627370496) / (884279719003555 / 2 ^ 46))) := by
    decide +kernel
  unfold qToTwothetaR twothetaToQR
  rw [sin_right, roundR_fourPi, el, mul_one, ← Rat.cast_div, ← Rat.cast_div, roundR_rat, roundR_rat, roundR_rat, ← Rat.cast_mul, roundR_rat, if_neg]
  push Not
  exact lt_of_lt_of_le (by exact_mod_cast key) (le_abs_self _)

/-! ### The hypotheses are met -/

example : Spec.Good (1 / 2 ^ 53) (201 / 100) sinD sin := fun x _ => roundR_rel.2 (sin x)
example : Spec.Good (1 / 2 ^ 53) 1 arcsinD arcsin := fun x _ => roundR_rel.2 (arcsin x)

/-- In doubles the round trip of a q below the largest by five units of rounding is within 19 units of rounding, about 2.2e-15. -/
example (q lam : ℝ) (hlam : 0 < lam) (hq : |q| ≤ (1 - 5 * (1 / 2 ^ 53)) * (4 * π / lam)) :
    ∃ t, qToTwothetaR roundR arcsinD q lam = some t ∧ |twothetaToQR roundR sinD t lam - q| ≤ 19 * (1 / 2 ^ 53) * |q| := by
  have hu : (1 / 2 ^ 53 : ℝ) ≤ 1 / 1000 := by norm_num
  obtain ⟨t, ht⟩ := (C245_q_to_twotheta _ hu roundR arcsinD roundR_rel (fun x _ => roundR_rel.2 _) q lam hlam).2 hq
  exact ⟨t, ht, C245_roundtrip_partial _ hu roundR sinD arcsinD roundR_rel (fun x _ => roundR_rel.2 _) (fun x _ => roundR_rel.2 _) q lam hlam t ht⟩

end Verif.Order.Bragg
