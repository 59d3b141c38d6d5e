/- C265: `radius_to_twotheta` (skbeam/core/utils.py 638-656) and `hkl_to_q` (recip.py 196-214) in floating point. -/
import Verif.Order.Bragg
import Mathlib.Analysis.SpecialFunctions.Trigonometric.ArctanDeriv
import Mathlib.Analysis.Convex.Deriv

namespace Verif.Order.Bragg
open Verif Verif.Fl Real

/-- `np.arctan(radius / dist_sample)`, utils.py 656, with a rounding after the division and the arctangent of the library. -/
noncomputable def radiusToTwothetaR (fl fatan : ℝ → ℝ) (dist radius : ℝ) : ℝ := fatan (fl (radius / dist))

/-- `np.linalg.norm(hkl_arr, axis=1)` of one row, recip.py 214: squares, their sum from the left, square root. -/
noncomputable def hklToQR (fl : ℝ → ℝ) (v : ℝ × ℝ × ℝ) : ℝ :=
  fl (sqrt (fl (fl (fl (v.1 ^ 2) + fl (v.2.1 ^ 2)) + fl (v.2.2 ^ 2))))

/-! ### Lemmas -/

theorem arctan_concave : ConcaveOn ℝ (Set.Ici 0) arctan := by
  apply AntitoneOn.concaveOn_of_deriv (convex_Ici 0) continuous_arctan.continuousOn differentiable_arctan.differentiableOn
  intro x hx y hy hxy
  rw [interior_Ici, Set.mem_Ioi] at hx hy
  simp only [Real.deriv_arctan]
  apply one_div_le_one_div_of_le (by positivity)
  nlinarith

/-- On the positive axis arctan(s t) is at least s arctan(t) for s up to 1. -/
theorem arctan_mul_ge (t s : ℝ) (ht : 0 ≤ t) (h0 : 0 ≤ s) (h1 : s ≤ 1) : s * arctan t ≤ arctan (s * t) := by
  have := arctan_concave.2 (show (0 : ℝ) ∈ Set.Ici 0 from Set.mem_Ici.2 le_rfl) (show t ∈ Set.Ici 0 from ht) (show 0 ≤ 1 - s by linarith) h0 (by ring)
  simpa using this

/-- A relative error of the tangent is one of the angle, and no larger. -/
theorem R.arctan {e x y : ℝ} (h : R e x y) (he : e < 1) : R e (arctan x) (arctan y) := by
  obtain ⟨d, hd, rfl⟩ := h
  have he0 : 0 ≤ e := (abs_nonneg d).trans hd
  obtain ⟨d1, d2⟩ := abs_le.1 hd
  have main : ∀ t : ℝ, 0 ≤ t → |Real.arctan (t * (1 + d)) - Real.arctan t| ≤ e * Real.arctan t := by
    intro t ht
    have hat : 0 ≤ Real.arctan t := Real.arctan_nonneg.2 ht
    rcases le_total 0 d with hd0 | hd0
    · have h1 : Real.arctan t ≤ Real.arctan (t * (1 + d)) := Real.arctan_strictMono.monotone (by nlinarith)
      have h2 := arctan_mul_ge (t * (1 + d)) (1 / (1 + d)) (by positivity) (by positivity) (by rw [div_le_one (by linarith)]; linarith)
      rw [show 1 / (1 + d) * (t * (1 + d)) = t by field_simp] at h2
      have h3 : Real.arctan (t * (1 + d)) ≤ (1 + d) * Real.arctan t := by
        have := mul_le_mul_of_nonneg_left h2 (show 0 ≤ 1 + d by linarith)
        rwa [← mul_assoc, mul_one_div_cancel (by linarith), one_mul] at this
      rw [abs_of_nonneg (by linarith)]
      nlinarith
    · have h1 : Real.arctan (t * (1 + d)) ≤ Real.arctan t := Real.arctan_strictMono.monotone (by nlinarith)
      have h2 := arctan_mul_ge t (1 + d) ht (by linarith) (by linarith)
      rw [mul_comm (1 + d) t] at h2
      rw [abs_of_nonpos (by linarith)]
      nlinarith
  apply R.of_abs he0
  rcases le_total 0 y with hy | hy
  · rw [abs_of_nonneg (Real.arctan_nonneg.2 hy)]
    exact main y hy
  · have := main (-y) (by linarith)
    rw [neg_mul, Real.arctan_neg, Real.arctan_neg, neg_sub_neg, abs_sub_comm] at this
    have hn : Real.arctan y ≤ 0 := by have := Real.arctan_nonneg.2 (neg_nonneg.2 hy); rw [Real.arctan_neg] at this; linarith
    rwa [abs_of_nonpos hn]

theorem R.add_nonneg {e x y z w : ℝ} (h : R e x y) (h' : R e z w) (hy : 0 ≤ y) (hw : 0 ≤ w) : R e (x + z) (y + w) := by
  apply R.of_abs h.nonneg
  have h1 := h.abs
  have h2 := h'.abs
  rw [abs_of_nonneg hy] at h1
  rw [abs_of_nonneg hw] at h2
  rw [abs_of_nonneg (_root_.add_nonneg hy hw), add_sub_add_comm]
  exact (abs_add_le _ _).trans (by linarith)

theorem R.sqrt {e x y : ℝ} (h : R e x y) (he : e < 1) (hy : 0 ≤ y) : R e (sqrt x) (sqrt y) := by
  obtain ⟨d, hd, rfl⟩ := h
  obtain ⟨d1, d2⟩ := abs_le.1 hd
  refine ⟨Real.sqrt (1 + d) - 1, ?_, ?_⟩
  · rw [abs_le]
    constructor
    · have : 1 - e ≤ Real.sqrt (1 + d) := by
        apply Real.le_sqrt_of_sq_le
        nlinarith [(abs_nonneg d).trans hd]
      linarith
    · have : Real.sqrt (1 + d) ≤ 1 + e := by
        rw [Real.sqrt_le_left (by linarith)]
        nlinarith [(abs_nonneg d).trans hd]
      linarith
  · rw [Real.sqrt_mul hy]; ring

/-! ## C265 -/

/-- C265: two theta of a radius, within three units at every angle however small. -/
theorem C265_radius_to_twotheta (u : ℝ) (hu : u ≤ 1 / 1000) (fl fatan : ℝ → ℝ) (hfl : Spec.RelR u fl) (hat : ∀ x, |fatan x - arctan x| ≤ u * |arctan x|)
    (dist radius : ℝ) : |radiusToTwothetaR fl fatan dist radius - arctan (radius / dist)| ≤ 3 * u * |arctan (radius / dist)| := by
  have hu0 := hfl.1
  have h1 := (R.fl hfl (radius / dist)).arctan (by linarith)
  have h2 : R u (fatan (fl (radius / dist))) (arctan (fl (radius / dist))) := R.of_abs hu0 (hat _)
  exact ((h2.trans h1).mono (by nlinarith)).abs

/-- C265: q of a radius, by radius_to_twotheta and twotheta_to_q, within 16 units. -/
theorem C265_radius_to_q (u : ℝ) (hu : u ≤ 1 / 1000) (fl fsin fatan : ℝ → ℝ) (hfl : Spec.RelR u fl) (hat : ∀ x, |fatan x - arctan x| ≤ u * |arctan x|)
    (hsin : Spec.Good u (201 / 100) fsin sin) (dist radius lam : ℝ) :
    |twothetaToQR fl fsin (radiusToTwothetaR fl fatan dist radius) lam - Spec.bragg (arctan (radius / dist)) lam| ≤
      16 * u * |Spec.bragg (arctan (radius / dist)) lam| := by
  have hu0 := hfl.1
  have h1 := (R.fl hfl (radius / dist)).arctan (by linarith)
  have h2 : R u (fatan (fl (radius / dist))) (arctan (fl (radius / dist))) := R.of_abs hu0 (hat _)
  have ht := h2.trans h1
  obtain ⟨t, htd⟩ : ∃ t, t = radiusToTwothetaR fl fatan dist radius := ⟨_, rfl⟩
  obtain ⟨t0, ht0⟩ : ∃ t0, t0 = arctan (radius / dist) := ⟨_, rfl⟩
  have hR : R (u + u + u * u) t t0 := by rw [htd, ht0]; exact ht
  rw [← htd, ← ht0]
  have hb : |t0| ≤ 16 / 10 := by
    rw [ht0, abs_le]
    have := pi_lt_d4
    constructor <;> linarith [arctan_lt_pi_div_two (radius / dist), neg_pi_div_two_lt_arctan (radius / dist)]
  have ht4 : |t| ≤ 4 := by
    have h3 := hR.abs
    have h4 := abs_add_le (t - t0) t0
    rw [sub_add_cancel] at h4
    nlinarith
  have h5 : R (9 * u) (twothetaToQR fl fsin t lam) (Spec.bragg t lam) := R.of_abs (by linarith) (C245_twotheta_to_q u hu fl fsin hfl hsin t lam ht4)
  have h6 : R (u + u + u * u) (t / 2) (t0 / 2) := by
    obtain ⟨d, hd, e⟩ := hR
    exact ⟨d, hd, by rw [e]; ring⟩
  have h7 := h6.sin (by rw [abs_div, abs_two]; linarith)
  have h8 : R (3 * (u + u + u * u)) (Spec.bragg t lam) (Spec.bragg t0 lam) := by
    obtain ⟨d, hd, e⟩ := h7
    exact ⟨d, hd, by unfold Spec.bragg; rw [e]; ring⟩
  exact ((h5.trans h8).mono (by nlinarith)).abs

/-- C265: the length of (h, k, l), within five units. -/
theorem C265_hkl_to_q (u : ℝ) (hu : u ≤ 1 / 1000) (fl : ℝ → ℝ) (hfl : Spec.RelR u fl) (h k l : ℝ) :
    |hklToQR fl (h, k, l) - sqrt (h ^ 2 + k ^ 2 + l ^ 2)| ≤ 5 * u * sqrt (h ^ 2 + k ^ 2 + l ^ 2) := by
  have hu0 := hfl.1
  have h2 : u * u ≤ 1 / 1000 * u := mul_le_mul_of_nonneg_right hu hu0
  have s1 := R.rnd hfl ((R.fl hfl (h ^ 2)).add_nonneg (R.fl hfl (k ^ 2)) (sq_nonneg h) (sq_nonneg k))
  have s1' : R (201 / 100 * u) _ _ := s1.mono (by nlinarith)
  have s2 := R.rnd hfl (s1'.add_nonneg ((R.fl hfl (l ^ 2)).mono (by linarith)) (by positivity) (sq_nonneg l))
  have s2' : R (302 / 100 * u) _ _ := s2.mono (by nlinarith)
  have s3 := R.rnd hfl (s2'.sqrt (by linarith) (by positivity))
  have := (s3.mono (show u + 302 / 100 * u + u * (302 / 100 * u) ≤ 5 * u by nlinarith)).abs
  rwa [abs_of_nonneg (Real.sqrt_nonneg _)] at this

/-- Double arithmetic satisfies the hypothesis. -/
example : Spec.RelR (1 / 2 ^ 53) roundR := roundR_rel

end Verif.Order.Bragg
