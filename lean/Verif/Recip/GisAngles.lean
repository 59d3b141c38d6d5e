/- The angles of `gisaxs` from its arguments (C282): pixel sizes in micrometres, distance in metres (skbeam/core/recip.py 312-327). -/
import Verif.Recip.GisLaws

namespace Verif.Recip
open Verif Real

namespace Gis

/-! ### Specification -/

/-- `θ` is the angle at the sample, between -90 and 90 degrees, that a length `h` on the detector, in micrometres, subtends at the
distance `d`, in metres. -/
def Spec.Subtends (θ d h : ℝ) : Prop := -(π / 2) < θ ∧ θ < π / 2 ∧ tan θ * (d * 1000000) = h

/-- `θ` is the direction of the vector with horizontal part `u` and vertical part `v`, measured from the vertical. -/
def Spec.FromVertical (θ u v : ℝ) : Prop := -π < θ ∧ θ ≤ π ∧ u = sqrt (u ^ 2 + v ^ 2) * sin θ ∧ v = sqrt (u ^ 2 + v ^ 2) * cos θ

/-- The specification leaves one angle. -/
theorem Spec.Subtends.unique {θ θ' d h : ℝ} (hd : 0 < d) (a : Spec.Subtends θ d h) (b : Spec.Subtends θ' d h) : θ = θ' := by
  have e : tan θ = tan θ' := by
    have h0 : (d * 1000000) ≠ 0 := by positivity
    exact mul_right_cancel₀ h0 (a.2.2.trans b.2.2.symm)
  exact Real.injOn_tan ⟨a.1, a.2.1⟩ ⟨b.1, b.2.1⟩ e

/-! ### Theorems -/

theorem subtends_arctan2 (c pix d : ℝ) (hd : 0 < d) : Spec.Subtends (Geom.arctan2 (c * (pix * (1 / 10 ^ 6))) d) d (c * pix) := by
  rw [arctan2_eq_arctan _ _ hd]
  refine ⟨neg_pi_div_two_lt_arctan _, arctan_lt_pi_div_two _, ?_⟩
  rw [tan_arctan]
  field_simp
  norm_num

theorem fromVertical_arctan2 (u v : ℝ) : Spec.FromVertical (Geom.arctan2 u v) u v := by
  have hn : ‖(⟨v, u⟩ : ℂ)‖ = sqrt (u ^ 2 + v ^ 2) := by
    rw [Complex.norm_def, Complex.normSq_mk]
    congr 1; ring
  refine ⟨Complex.neg_pi_lt_arg _, Complex.arg_le_pi _, ?_, ?_⟩
  · rw [← hn]; exact (Complex.norm_mul_sin_arg ⟨v, u⟩).symm
  · rw [← hn]; exact (Complex.norm_mul_cos_arg ⟨v, u⟩).symm

/-- C282: twice the incident angle is subtended by the rows from the direct to the reflected beam. -/
theorem C282_incident (g : GisaxsArgs) (hd : 0 < g.dist) : Spec.Subtends (2 * g.alphaI) g.dist ((g.reflY - g.incY) * g.pix.2) := by
  have h := subtends_arctan2 (g.reflY - g.incY) g.pix.2 g.dist hd
  have e : 2 * g.alphaI = Geom.arctan2 ((g.reflY - g.incY) * (g.pix.2 * (1 / 10 ^ 6))) g.dist := by
    unfold GisaxsArgs.alphaI GisaxsArgs.py; ring
  rw [e]; exact h

/-- C282: exit plus incident angle is subtended by the rows from the direct beam to the pixel. -/
theorem C282_exit (g : GisaxsArgs) (hd : 0 < g.dist) (y : ℝ) : Spec.Subtends (g.alphaF y + g.alphaI) g.dist ((y - g.incY) * g.pix.2) := by
  have h := subtends_arctan2 (y - g.incY) g.pix.2 g.dist hd
  have e : g.alphaF y + g.alphaI = Geom.arctan2 ((y - g.incY) * (g.pix.2 * (1 / 10 ^ 6))) g.dist := by
    unfold GisaxsArgs.alphaF GisaxsArgs.py; ring
  rw [e]; exact h

/-- C282: twice the sum of the out of plane angles is subtended by the columns from the direct beam to the pixel. -/
theorem C282_out_of_plane (g : GisaxsArgs) (hd : 0 < g.dist) (x : ℝ) : Spec.Subtends (2 * (g.thetaF x + g.thetaI)) g.dist ((x - g.incX) * g.pix.1) := by
  have h := subtends_arctan2 (x - g.incX) g.pix.1 g.dist hd
  have e : 2 * (g.thetaF x + g.thetaI) = Geom.arctan2 ((x - g.incX) * (g.pix.1 * (1 / 10 ^ 6))) g.dist := by
    unfold GisaxsArgs.thetaF GisaxsArgs.px; ring
  rw [e]; exact h

/-- C282: the tilt angle is the direction, on the detector, from the direct to the reflected beam. -/
theorem C282_tilt (g : GisaxsArgs) : Spec.FromVertical g.tilt ((g.reflX - g.incX) * g.pix.1) ((g.reflY - g.incY) * g.pix.2) := by
  have e : g.tilt = Geom.arctan2 ((g.reflX - g.incX) * g.pix.1) ((g.reflY - g.incY) * g.pix.2) := by
    rw [← arctan2_scale (1 / 10 ^ 6) _ _ (by norm_num)]
    unfold GisaxsArgs.tilt GisaxsArgs.px GisaxsArgs.py
    congr 1 <;> ring
  rw [e]; exact fromVertical_arctan2 _ _

/-- C282: at the row of the reflected beam the exit angle is the incident angle, at the row of the direct beam its opposite;
at the column of the direct beam the out of plane angle is the opposite of the one passed in. -/
theorem C282_beams (g : GisaxsArgs) (hd : 0 < g.dist) : g.alphaF g.reflY = g.alphaI ∧ g.alphaF g.incY = -g.alphaI ∧ g.thetaF g.incX = -g.thetaI := by
  refine ⟨?_, ?_, ?_⟩
  · have := (C282_exit g hd g.reflY).unique hd (C282_incident g hd)
    linarith
  · unfold GisaxsArgs.alphaF
    rw [sub_self, zero_mul, arctan2_zero_pos _ hd, zero_sub]
  · unfold GisaxsArgs.thetaF
    rw [sub_self, zero_mul, arctan2_zero_pos _ hd, zero_div, zero_sub]

/-- Non-vacuity: pixels of 100 by 200 micrometres at 1 metre; 5000 rows up and 10000 columns aside both subtend 45 degrees. -/
example : let g : GisaxsArgs := ⟨0, 0, 0, 5000, (100, 200), 1, 1, 1 / 10⟩
    0 < g.dist ∧ g.alphaI = π / 8 ∧ g.thetaF 10000 = π / 8 - 1 / 10 := by
  intro g
  have hd : (0 : ℝ) < g.dist := by norm_num [g]
  have hp := Real.pi_pos
  have s : Spec.Subtends (π / 4) 1 1000000 := ⟨by linarith, by linarith, by rw [tan_pi_div_four]; norm_num⟩
  refine ⟨hd, ?_, ?_⟩
  · have h := C282_incident g hd
    have := h.unique hd (show Spec.Subtends (π / 4) g.dist ((g.reflY - g.incY) * g.pix.2) by norm_num [g]; exact s)
    linarith
  · have h := C282_out_of_plane g hd 10000
    have := h.unique hd (show Spec.Subtends (π / 4) g.dist ((10000 - g.incX) * g.pix.1) by norm_num [g]; exact s)
    have e : g.thetaI = 1 / 10 := rfl
    rw [e] at this
    linarith

end Gis

end Verif.Recip
