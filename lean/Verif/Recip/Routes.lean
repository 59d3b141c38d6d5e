/- Property C207: the length of q from process_to_q and from the distance to the beam centre. -/
import Verif.Recip.GisaxsProps
import Verif.Geom.Props

namespace Verif.Recip
open Verif Real Matrix

/-- The two routes for a pixel x to the right and y below the direct beam, in units of the distance. -/
theorem routes_core (x y lam : ℝ) (hlam : 0 < lam) :
    let qA := 4 * π / lam * sin (Spec.twoTheta 0 (-arctan y) (-arctan x) / 2)
    let qB := Geom.twothetaToQ (arctan (sqrt (x ^ 2 + y ^ 2))) lam
    0 ≤ qA ∧ 0 ≤ qB ∧ (x * y = 0 → qA = qB) ∧ (x * y ≠ 0 → qB < qA) ∧ qA ^ 2 - qB ^ 2 ≤ (2 * π / lam) ^ 2 * (x * y) ^ 2 := by
  intro qA qB
  have hpi := pi_pos
  have hk : 0 < 4 * π / lam := by positivity
  set s := 1 + x ^ 2 + y ^ 2 with hs
  have hs1 : 1 ≤ s := by nlinarith [sq_nonneg x, sq_nonneg y]
  have hp0 : 0 ≤ (x * y) ^ 2 := sq_nonneg _
  set p := (x * y) ^ 2 with hp
  -- the cosines of the two scattering angles
  have hcA : cos (Spec.twoTheta 0 (-arctan y) (-arctan x)) = 1 / sqrt (s + p) := by
    have hb := dot_bound _ _ (sq_kOut (-arctan y) (-arctan x)) (sq_kIn 0)
    rw [Spec.twoTheta, cos_arccos hb.1 hb.2, dot_eq]
    simp only [Spec.kOut, Spec.kIn, sin_zero, cos_zero, cos_neg, Matrix.cons_val_zero, Matrix.cons_val_one, Matrix.cons_val, mul_zero, mul_one, zero_add, add_zero, cos_arctan]
    rw [one_div_mul_one_div, ← sqrt_mul (by positivity)]
    congr 2
    rw [hs, hp]; ring
  have hcB : cos (arctan (sqrt (x ^ 2 + y ^ 2))) = 1 / sqrt s := by
    rw [cos_arctan, sq_sqrt (by positivity), hs]
    congr 2; ring
  have hA0 : 0 ≤ Spec.twoTheta 0 (-arctan y) (-arctan x) ∧ Spec.twoTheta 0 (-arctan y) (-arctan x) ≤ π := ⟨arccos_nonneg _, arccos_le_pi _⟩
  have hB0 : 0 ≤ arctan (sqrt (x ^ 2 + y ^ 2)) ∧ arctan (sqrt (x ^ 2 + y ^ 2)) ≤ π := by
    refine ⟨arctan_nonneg.2 (sqrt_nonneg _), ?_⟩
    have := arctan_lt_pi_div_two (sqrt (x ^ 2 + y ^ 2)); linarith
  have hsin : ∀ t, sin (t / 2) ^ 2 = (1 - cos t) / 2 := by
    intro t
    have h2 := cos_two_mul (t / 2)
    have h3 := sin_sq_add_cos_sq (t / 2)
    rw [mul_div_cancel₀ _ (two_ne_zero)] at h2
    linarith
  have hqA : 0 ≤ qA := mul_nonneg hk.le (sin_nonneg_of_nonneg_of_le_pi (by linarith [hA0.1]) (by linarith [hA0.2]))
  have hqB : 0 ≤ qB := by
    simp only [qB, Geom.twothetaToQ]
    exact mul_nonneg hk.le (sin_nonneg_of_nonneg_of_le_pi (by linarith [hB0.1]) (by linarith [hB0.2]))
  have hA2 : qA ^ 2 = (2 * π / lam) ^ 2 * (2 * (1 - 1 / sqrt (s + p))) := by
    simp only [qA]
    rw [mul_pow, hsin, hcA]; ring
  have hB2 : qB ^ 2 = (2 * π / lam) ^ 2 * (2 * (1 - 1 / sqrt s)) := by
    simp only [qB, Geom.twothetaToQ]
    rw [mul_pow, hsin, hcB]; ring
  have hk2 : 0 < (2 * π / lam) ^ 2 := by positivity
  have hss : 1 ≤ sqrt s := by rw [one_le_sqrt]; exact hs1
  have hssp : sqrt s ≤ sqrt (s + p) := sqrt_le_sqrt (by linarith)
  refine ⟨hqA, hqB, ?_, ?_, ?_⟩
  · intro h0
    have hp' : p = 0 := by rw [hp, h0]; ring
    rw [hp', add_zero] at hA2
    exact (pow_left_inj₀ hqA hqB two_ne_zero).1 (by rw [hA2, hB2])
  · intro h0
    have hp' : 0 < p := by rw [hp]; positivity
    have h1 : sqrt s < sqrt (s + p) := sqrt_lt_sqrt (by linarith) (by linarith)
    have h2 : 1 / sqrt (s + p) < 1 / sqrt s := one_div_lt_one_div_of_lt (by linarith) h1
    refine lt_of_pow_lt_pow_left₀ 2 hqA ?_
    rw [hA2, hB2]
    exact mul_lt_mul_of_pos_left (by linarith) hk2
  · rw [hA2, hB2, ← mul_sub]
    apply mul_le_mul_of_nonneg_left _ hk2.le
    have e1 : sqrt (s + p) ^ 2 = s + p := sq_sqrt (by linarith)
    have e2 : sqrt s ^ 2 = s := sq_sqrt (by linarith)
    have hd : 1 / sqrt s - 1 / sqrt (s + p) = (sqrt (s + p) - sqrt s) / (sqrt s * sqrt (s + p)) := by
      have : sqrt s ≠ 0 := by linarith
      have : sqrt (s + p) ≠ 0 := by linarith
      field_simp
    have hq : (sqrt (s + p) - sqrt s) * 2 ≤ p := by
      have : (sqrt (s + p) - sqrt s) * (sqrt (s + p) + sqrt s) = p := by ring_nf; rw [e1, e2]; ring
      have h3 : (sqrt (s + p) - sqrt s) * 2 ≤ (sqrt (s + p) - sqrt s) * (sqrt (s + p) + sqrt s) :=
        mul_le_mul_of_nonneg_left (by linarith) (by linarith)
      linarith
    have h4 : (sqrt (s + p) - sqrt s) / (sqrt s * sqrt (s + p)) ≤ sqrt (s + p) - sqrt s := by
      apply div_le_self (by linarith)
      calc (1 : ℝ) = 1 * 1 := by ring
        _ ≤ _ := mul_le_mul hss (by linarith) (by norm_num) (by linarith)
    linarith

section
variable (angles : List (List ℝ)) (h6 : ∀ r ∈ angles, r.length = 6) (c : Ccd) (hdist : 0 < c.dist) (lam : ℝ) (hlam : 0 < lam)
  (ub : Matrix (Fin 3) (Fin 3) ℝ) (hub : ub.det ≠ 0) (frame : String) (hf : frame = "theta" ∨ frame = "phi" ∨ frame = "cart")
  (s : St) (sched : List (List Instr) → List (ℕ × Instr)) (hs : ∀ turns, IsExecution turns (sched turns))
include h6 hdist hlam hub hf hs

theorem routes_both :
    ∃ rows, processToQ angles c lam ub (some frame) s sched = .ok rows ∧
      ∀ (n j i : ℕ) (r : List ℝ), angles[n]? = some r → r.getD 0 0 = 0 → r.getD 4 0 = 0 → r.getD 5 0 = 0 → j < c.ySize → i < c.xSize →
        ∃ q radius, (hklToQ rows)[n * (c.xSize * c.ySize) + (j * c.xSize + i)]? = some q ∧
          Geom.Spec.at (Geom.radialGrid (c.yCen, c.xCen) (c.ySize, c.xSize) (some (c.yPix, c.xPix))) j i = some radius ∧
          let q' := Geom.twothetaToQ (Geom.radiusToTwotheta c.dist radius) lam
          let x := ((i : ℝ) - c.xCen) * c.xPix / c.dist
          let y := ((j : ℝ) - c.yCen) * c.yPix / c.dist
          0 ≤ q ∧ 0 ≤ q' ∧ (x * y = 0 → q = q') ∧ (x * y ≠ 0 → q' < q) ∧ q ^ 2 - q' ^ 2 ≤ (2 * π / lam) ^ 2 * (x * y) ^ 2 := by
  obtain ⟨rows, h1, h2⟩ := C127_bragg angles h6 c lam hlam ub hub frame hf s sched hs
  refine ⟨rows, h1, ?_⟩
  intro n j i r hn hr0 hr4 hr5 hj hi
  have hq := (h2 n j i r hn hj hi).1
  have e4 : (Spec.Angles.ofDegrees r).mu = 0 := by simp only [Spec.Angles.ofDegrees, hr4]; ring
  have e0 : (Spec.Angles.ofDegrees r).delta = 0 := by simp only [Spec.Angles.ofDegrees, hr0]; ring
  have e5 : (Spec.Angles.ofDegrees r).gamma = 0 := by simp only [Spec.Angles.ofDegrees, hr5]; ring
  simp only [Spec.delta, Spec.gamma, e0, e4, e5, zero_sub] at hq
  refine ⟨_, _, hq, by rw [Geom.C09_radius, if_pos ⟨hj, hi⟩], ?_⟩
  have hrad : Geom.radiusToTwotheta c.dist (sqrt ((((some (c.yPix, c.xPix)).getD (1, 1)).2 * ((i : ℝ) - (c.yCen, c.xCen).2)) ^ 2 +
      (((some (c.yPix, c.xPix)).getD (1, 1)).1 * ((j : ℝ) - (c.yCen, c.xCen).1)) ^ 2)) =
      arctan (sqrt ((((i : ℝ) - c.xCen) * c.xPix / c.dist) ^ 2 + (((j : ℝ) - c.yCen) * c.yPix / c.dist) ^ 2)) := by
    unfold Geom.radiusToTwotheta
    congr 1
    rw [div_eq_iff hdist.ne']
    nth_rewrite 3 [← sqrt_sq hdist.le]
    rw [← sqrt_mul (by positivity)]
    congr 1
    simp only [Option.getD_some]
    field_simp
  rw [hrad]
  exact routes_core _ _ lam hlam

/-- C207 (part that holds): with the detector at zero angles, perpendicular to the beam, `hkl_to_q(process_to_q(...))` agrees
with `twotheta_to_q(radius_to_twotheta(dist, radial_grid(...)), wavelength)` for the pixels in the row and in the column of the
direct beam; for the others it is larger, the squares differ by at most (2 pi / lambda)^2 x^2 y^2, where x and y are the
distances to column and row of the direct beam divided by the detector distance.  Missing: exact agreement there
(`C207_routes_refuted`). -/
theorem C207_routes_partial :
    ∃ rows, processToQ angles c lam ub (some frame) s sched = .ok rows ∧
      ∀ (n j i : ℕ) (r : List ℝ), angles[n]? = some r → r.getD 0 0 = 0 → r.getD 4 0 = 0 → r.getD 5 0 = 0 → j < c.ySize → i < c.xSize →
        ∃ q radius, (hklToQ rows)[n * (c.xSize * c.ySize) + (j * c.xSize + i)]? = some q ∧
          Geom.Spec.at (Geom.radialGrid (c.yCen, c.xCen) (c.ySize, c.xSize) (some (c.yPix, c.xPix))) j i = some radius ∧
          let q' := Geom.twothetaToQ (Geom.radiusToTwotheta c.dist radius) lam
          (((j : ℝ) = c.yCen ∨ (i : ℝ) = c.xCen) → q = q') ∧ 0 ≤ q' ∧ q' ≤ q ∧
          q ^ 2 - q' ^ 2 ≤ (2 * π / lam) ^ 2 * ((((i : ℝ) - c.xCen) * c.xPix / c.dist) * (((j : ℝ) - c.yCen) * c.yPix / c.dist)) ^ 2 := by
  obtain ⟨rows, h1, h2⟩ := routes_both angles h6 c hdist lam hlam ub hub frame hf s sched hs
  refine ⟨rows, h1, ?_⟩
  intro n j i r hn hr0 hr4 hr5 hj hi
  obtain ⟨q, radius, a1, a2, a3, a4, a5, a6, a7⟩ := h2 n j i r hn hr0 hr4 hr5 hj hi
  refine ⟨q, radius, a1, a2, ?_, a4, ?_, a7⟩
  · rintro (h | h)
    · apply a5; rw [h]; simp
    · apply a5; rw [h]; simp
  · by_cases h0 : (((i : ℝ) - c.xCen) * c.xPix / c.dist) * (((j : ℝ) - c.yCen) * c.yPix / c.dist) = 0
    · exact (a5 h0).ge
    · exact (a6 h0).le

/-- C207 is false: for every pixel outside the row and the column of the direct beam the two lengths differ. -/
theorem C207_routes_refuted (hp : 0 < c.xPix) (hq : 0 < c.yPix) :
    ∃ rows, processToQ angles c lam ub (some frame) s sched = .ok rows ∧
      ∀ (n j i : ℕ) (r : List ℝ), angles[n]? = some r → r.getD 0 0 = 0 → r.getD 4 0 = 0 → r.getD 5 0 = 0 → j < c.ySize → i < c.xSize →
        (j : ℝ) ≠ c.yCen → (i : ℝ) ≠ c.xCen →
        ∃ q radius, (hklToQ rows)[n * (c.xSize * c.ySize) + (j * c.xSize + i)]? = some q ∧
          Geom.Spec.at (Geom.radialGrid (c.yCen, c.xCen) (c.ySize, c.xSize) (some (c.yPix, c.xPix))) j i = some radius ∧
          Geom.twothetaToQ (Geom.radiusToTwotheta c.dist radius) lam < q := by
  obtain ⟨rows, h1, h2⟩ := routes_both angles h6 c hdist lam hlam ub hub frame hf s sched hs
  refine ⟨rows, h1, ?_⟩
  intro n j i r hn hr0 hr4 hr5 hj hi hjc hic
  obtain ⟨q, radius, a1, a2, a3, a4, a5, a6, a7⟩ := h2 n j i r hn hr0 hr4 hr5 hj hi
  refine ⟨q, radius, a1, a2, a6 ?_⟩
  have d1 := sub_ne_zero.2 hjc
  have d2 := sub_ne_zero.2 hic
  positivity

end

/-- The hypotheses can be met: one image with all angles zero, and there are executions. -/
example : (∀ r ∈ [[0, 0, 0, 0, 0, (0 : ℝ)]], r.length = 6) ∧ (1 : Matrix (Fin 3) (Fin 3) ℝ).det ≠ 0 ∧
    ∃ sched : List (List Instr) → List (ℕ × Instr), ∀ turns, IsExecution turns (sched turns) := by
  refine ⟨by simp, by simp, Spec.oneThread, oneThread_isExecution⟩

end Verif.Recip
