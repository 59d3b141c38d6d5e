/- Properties C09, C10: pixel geometry and reciprocal-space conversions. -/
import Verif.Geom.Model

namespace Verif.Geom
open Verif

/-- Pixel (r, c) of an image given as its list of rows. -/
def Spec.at {α : Type} (img : List (List α)) (r c : ℕ) : Option α := img[r]?.bind (fun row => row[c]?)

theorem mesh_at (center : ℝ × ℝ) (shape : ℕ × ℕ) (ps : ℝ × ℝ) (f : ℝ → ℝ → ℝ) (r c : ℕ) :
    Spec.at (mesh (xCoords center shape ps) (yCoords center shape ps) f) r c =
      if r < shape.1 ∧ c < shape.2 then some (f (ps.2 * ((c : ℝ) - center.2)) (ps.1 * ((r : ℝ) - center.1))) else none := by
  unfold Spec.at mesh xCoords yCoords
  by_cases hr : r < shape.1
  · by_cases hc : c < shape.2
    · simp [hr, hc]
    · simp [hr, hc]
  · simp [hr]

/-- `radial_grid`: exactly the pixels of the image have a value, and it is the Euclidean distance to the centre with
rows `ps.1` and columns `ps.2` apart (1 by default). -/
theorem C09_radius (center : ℝ × ℝ) (shape : ℕ × ℕ) (ps : Option (ℝ × ℝ)) (r c : ℕ) :
    Spec.at (radialGrid center shape ps) r c =
      if r < shape.1 ∧ c < shape.2 then
        some (Real.sqrt (((ps.getD (1, 1)).2 * ((c : ℝ) - center.2)) ^ 2 + ((ps.getD (1, 1)).1 * ((r : ℝ) - center.1)) ^ 2))
      else none := by
  unfold radialGrid
  rw [mesh_at]
  simp only [pixelSize, sq]

/-- `angle_grid`: an angle in [-pi, pi] such that (radius, angle) are polar coordinates of the pixel. -/
theorem C09_angle (center : ℝ × ℝ) (shape : ℕ × ℕ) (ps : Option (ℝ × ℝ)) (r c : ℕ) (hr : r < shape.1) (hc : c < shape.2) :
    ∃ ρ θ, Spec.at (radialGrid center shape ps) r c = some ρ ∧ Spec.at (angleGrid center shape ps) r c = some θ ∧
      -Real.pi ≤ θ ∧ θ ≤ Real.pi ∧
      ρ * Real.cos θ = (ps.getD (1, 1)).2 * ((c : ℝ) - center.2) ∧ ρ * Real.sin θ = (ps.getD (1, 1)).1 * ((r : ℝ) - center.1) := by
  unfold radialGrid angleGrid
  simp only [mesh_at, hr, hc, and_self, if_true]
  refine ⟨_, _, rfl, rfl, (Complex.neg_pi_lt_arg _).le, Complex.arg_le_pi _, ?_, ?_⟩
  · have := Complex.norm_mul_cos_arg (⟨(pixelSize ps).2 * ((c : ℝ) - center.2), (pixelSize ps).1 * ((r : ℝ) - center.1)⟩ : ℂ)
    rw [Complex.norm_def] at this
    simpa [arctan2, Complex.normSq_apply, pixelSize] using this
  · have := Complex.norm_mul_sin_arg (⟨(pixelSize ps).2 * ((c : ℝ) - center.2), (pixelSize ps).1 * ((r : ℝ) - center.1)⟩ : ℂ)
    rw [Complex.norm_def] at this
    simpa [arctan2, Complex.normSq_apply, pixelSize] using this

/-- Outside the image the angle grid has no value either. -/
theorem C09_angle_shape (center : ℝ × ℝ) (shape : ℕ × ℕ) (ps : Option (ℝ × ℝ)) (r c : ℕ) :
    (Spec.at (angleGrid center shape ps) r c).isSome = decide (r < shape.1 ∧ c < shape.2) := by
  unfold angleGrid
  rw [mesh_at]
  by_cases h : r < shape.1 ∧ c < shape.2 <;> simp [h]

/-- Radius and angle together determine the pixel. -/
theorem C09_position_determined (center : ℝ × ℝ) (shape : ℕ × ℕ) (ps : Option (ℝ × ℝ))
    (h1 : (ps.getD (1, 1)).1 ≠ 0) (h2 : (ps.getD (1, 1)).2 ≠ 0) (r c r' c' : ℕ)
    (hr : r < shape.1) (hc : c < shape.2) (hr' : r' < shape.1) (hc' : c' < shape.2)
    (hρ : Spec.at (radialGrid center shape ps) r c = Spec.at (radialGrid center shape ps) r' c')
    (hθ : Spec.at (angleGrid center shape ps) r c = Spec.at (angleGrid center shape ps) r' c') : r = r' ∧ c = c' := by
  obtain ⟨ρ, θ, e1, e2, _, _, e3, e4⟩ := C09_angle center shape ps r c hr hc
  obtain ⟨ρ', θ', f1, f2, _, _, f3, f4⟩ := C09_angle center shape ps r' c' hr' hc'
  rw [e1, f1] at hρ
  rw [e2, f2] at hθ
  simp only [Option.some.injEq] at hρ hθ
  subst hρ hθ
  rw [e3] at f3
  rw [e4] at f4
  have a := mul_left_cancel₀ h1 f4
  have b := mul_left_cancel₀ h2 f3
  have a' : (r : ℝ) = r' := by linarith
  have b' : (c : ℝ) = c' := by linarith
  exact ⟨by exact_mod_cast a', by exact_mod_cast b'⟩

/-- A concrete pixel: 3 rows below and 4 half-size columns left of the centre. -/
example : Spec.at (radialGrid (1, 9) (5, 10) (some (1, 1/2))) 4 1 = some 5 := by
  rw [C09_radius]
  norm_num
  rw [show (25 : ℝ) = 5 ^ 2 by norm_num]
  exact Real.sqrt_sq (by norm_num)

/-! ## C10 -/

/-- `q_to_d` and `d_to_q` undo each other on every non-zero value. -/
theorem C10_q_d_inverse (q : ℝ) (h : q ≠ 0) : dToQ (qToD q) = q ∧ qToD (dToQ q) = q := by
  have := Real.pi_pos.ne'
  unfold dToQ qToD
  constructor <;> field_simp

/-- ... and the relation between them is q d = 2 pi. -/
theorem C10_q_d_product (q : ℝ) (h : q ≠ 0) : q * qToD q = 2 * Real.pi ∧ q * dToQ q = 2 * Real.pi := by
  unfold dToQ qToD
  constructor <;> field_simp

/-- Converting q to an angle and back returns q wherever the angle exists. -/
theorem C10_twotheta_of_q (q w : ℝ) (hw : 0 < w) (h : |w * q| ≤ 4 * Real.pi) : twothetaToQ (qToTwotheta q w) w = q := by
  have hp := Real.pi_pos
  unfold twothetaToQ qToTwotheta
  simp only
  have hb := abs_le.1 h
  rw [mul_div_cancel_left₀ _ (by norm_num : (2 : ℝ) ≠ 0), Real.sin_arcsin]
  · field_simp
  · rw [mul_div_assoc', le_div_iff₀ (by positivity)]; linarith [hb.1]
  · rw [mul_div_assoc', div_le_iff₀ (by positivity)]; linarith [hb.2]

/-- Converting an angle to q and back returns the angle (from -pi to pi). -/
theorem C10_q_of_twotheta (t w : ℝ) (hw : 0 < w) (h0 : -Real.pi ≤ t) (h1 : t ≤ Real.pi) : qToTwotheta (twothetaToQ t w) w = t := by
  have hp := Real.pi_pos
  unfold twothetaToQ qToTwotheta
  simp only
  have : 4 * Real.pi / w * Real.sin (t / 2) * (w / (4 * Real.pi)) = Real.sin (t / 2) := by field_simp
  rw [this, Real.arcsin_sin (by linarith) (by linarith)]
  ring

/-- A larger angle has a larger q. -/
theorem C10_q_strictly_increasing (w : ℝ) (hw : 0 < w) (s t : ℝ) (h0 : -Real.pi ≤ s) (h1 : t ≤ Real.pi) (hst : s < t) :
    twothetaToQ s w < twothetaToQ t w := by
  have hp := Real.pi_pos
  unfold twothetaToQ
  simp only
  apply mul_lt_mul_of_pos_left _ (by positivity)
  exact Real.strictMonoOn_sin ⟨by linarith, by linarith⟩ ⟨by linarith, by linarith⟩ (by linarith)

/-- A larger q has a larger angle, and the angles lie between -pi and pi. -/
theorem C10_twotheta_strictly_increasing (w : ℝ) (hw : 0 < w) (p q : ℝ) (h0 : -(4 * Real.pi) ≤ w * p) (h1 : w * q ≤ 4 * Real.pi)
    (hpq : p < q) : qToTwotheta p w < qToTwotheta q w ∧ -Real.pi ≤ qToTwotheta p w ∧ qToTwotheta q w ≤ Real.pi := by
  have hp := Real.pi_pos
  have hwpq : w * p < w * q := mul_lt_mul_of_pos_left hpq hw
  unfold qToTwotheta
  simp only
  refine ⟨?_, by linarith [Real.neg_pi_div_two_le_arcsin (p * (w / (4 * Real.pi)))],
    by linarith [Real.arcsin_le_pi_div_two (q * (w / (4 * Real.pi)))]⟩
  apply mul_lt_mul_of_pos_left _ (by norm_num)
  apply Real.strictMonoOn_arcsin
  · constructor
    · rw [mul_div_assoc', le_div_iff₀ (by positivity)]; linarith
    · rw [mul_div_assoc', div_le_iff₀ (by positivity)]; linarith
  · constructor
    · rw [mul_div_assoc', le_div_iff₀ (by positivity)]; linarith
    · rw [mul_div_assoc', div_le_iff₀ (by positivity)]; linarith
  · exact mul_lt_mul_of_pos_right hpq (by positivity)

/-- Bragg's relation in the form of the documentation. -/
theorem C10_bragg (q w : ℝ) (hw : 0 < w) (h : |w * q| ≤ 4 * Real.pi) : Real.sin (qToTwotheta q w / 2) = w * q / (4 * Real.pi) := by
  have hp := Real.pi_pos
  have := C10_twotheta_of_q q w hw h
  unfold twothetaToQ at this
  simp only at this
  rw [eq_div_iff (by positivity)]
  calc _ = w * (4 * Real.pi / w * Real.sin (qToTwotheta q w / 2)) := by field_simp
    _ = _ := by rw [this]

/-- A larger radius has a larger angle; the angle lies strictly between -pi/2 and pi/2 and its tangent is radius over distance. -/
theorem C10_radius_to_twotheta (dist : ℝ) (hd : 0 < dist) (r s : ℝ) (h : r < s) :
    radiusToTwotheta dist r < radiusToTwotheta dist s ∧ -(Real.pi / 2) < radiusToTwotheta dist r ∧
      radiusToTwotheta dist r < Real.pi / 2 ∧ dist * Real.tan (radiusToTwotheta dist r) = r := by
  unfold radiusToTwotheta
  refine ⟨Real.arctan_strictMono (div_lt_div_of_pos_right h hd), Real.neg_pi_div_two_lt_arctan _, Real.arctan_lt_pi_div_two _, ?_⟩
  rw [Real.tan_arctan]
  field_simp

/-- A non-trivial instance: q = 2 pi at wavelength 1 is d = 1, scattering by 60 degrees. -/
example : qToD (2 * Real.pi) = 1 ∧ qToTwotheta (2 * Real.pi) 1 = Real.pi / 3 := by
  have hp := Real.pi_pos
  constructor
  · unfold qToD; field_simp
  · have : twothetaToQ (Real.pi / 3) 1 = 2 * Real.pi := by
      unfold twothetaToQ
      simp only
      rw [show Real.pi / 3 / 2 = Real.pi / 6 by ring, Real.sin_pi_div_six]
      ring
    rw [← this, C10_q_of_twotheta _ _ one_pos (by linarith) (by linarith)]

end Verif.Geom
