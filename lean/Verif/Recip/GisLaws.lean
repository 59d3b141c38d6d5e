/- Laws of `gisaxs` (C243): unit of length, wavelength, origin of the pixel numbers, mirror image, order of the angles (skbeam/core/recip.py 217-357). -/
import Verif.Recip.GisaxsProps

namespace Verif.Recip
open Verif Real

namespace Gis

/-! ### Specification -/

/-- The fields `gisaxs` returns at pixel row `y` and column `x`: tilt angle, incident angle, the two exit angles and the components of q. -/
noncomputable def Spec.fields (g : GisaxsArgs) (y x : ℝ) : ℝ × ℝ × ℝ × ℝ × ℝ × ℝ × ℝ × ℝ :=
  (g.tilt, g.alphaI, g.alphaF y, g.thetaF x, g.qx y x, g.qy y x, g.qz y x, g.qr y x)

/-- Pixel size and distance in a unit `k` times smaller. -/
def Spec.rescaled (k : ℝ) (g : GisaxsArgs) : GisaxsArgs := { g with pix := (k * g.pix.1, k * g.pix.2), dist := k * g.dist }

/-- The wavelength `k` times as long. -/
def Spec.longer (k : ℝ) (g : GisaxsArgs) : GisaxsArgs := { g with lam := k * g.lam }

/-- Both beams `u` columns and `v` rows further. -/
def Spec.moved (u v : ℝ) (g : GisaxsArgs) : GisaxsArgs := { g with incX := g.incX + u, reflX := g.reflX + u, incY := g.incY + v, reflY := g.reflY + v }

/-- The experiment seen in a mirror that exchanges left and right. -/
def Spec.mirrored (g : GisaxsArgs) : GisaxsArgs := { g with incX := -g.incX, reflX := -g.reflX, thetaI := -g.thetaI }

/-! ### Laws -/

theorem arctan2_scale (k y x : ℝ) (hk : 0 < k) : Geom.arctan2 (k * y) (k * x) = Geom.arctan2 y x := by
  unfold Geom.arctan2
  have e : (⟨k * x, k * y⟩ : ℂ) = (k : ℂ) * ⟨x, y⟩ := by
    apply Complex.ext <;> simp
  rw [e, Complex.arg_real_mul _ hk]

theorem arctan2_neg (y x : ℝ) (hx : 0 < x) : Geom.arctan2 (-y) x = -Geom.arctan2 y x := by
  rw [arctan2_eq_arctan _ _ hx, arctan2_eq_arctan _ _ hx, neg_div, arctan_neg]

/-- C243: only the ratio of pixel size to distance matters; the unit of length can be chosen freely. -/
theorem C243_length_unit (g : GisaxsArgs) (k : ℝ) (hk : 0 < k) (y x : ℝ) : Spec.fields (Spec.rescaled k g) y x = Spec.fields g y x := by
  have hpx : (Spec.rescaled k g).px = k * g.px := by unfold GisaxsArgs.px Spec.rescaled; ring
  have hpy : (Spec.rescaled k g).py = k * g.py := by unfold GisaxsArgs.py Spec.rescaled; ring
  have ht : (Spec.rescaled k g).tilt = g.tilt := by
    unfold GisaxsArgs.tilt
    rw [hpx, hpy, mul_left_comm, mul_left_comm _ k, arctan2_scale _ _ _ hk]
    rfl
  have ha : (Spec.rescaled k g).alphaI = g.alphaI := by
    unfold GisaxsArgs.alphaI
    rw [hpy, mul_left_comm, show (Spec.rescaled k g).dist = k * g.dist from rfl, arctan2_scale _ _ _ hk]
    rfl
  have hf : (Spec.rescaled k g).alphaF y = g.alphaF y := by
    unfold GisaxsArgs.alphaF
    rw [hpy, ha, mul_left_comm, show (Spec.rescaled k g).dist = k * g.dist from rfl, arctan2_scale _ _ _ hk]
    rfl
  have hth : (Spec.rescaled k g).thetaF x = g.thetaF x := by
    unfold GisaxsArgs.thetaF
    rw [hpx, mul_left_comm, show (Spec.rescaled k g).dist = k * g.dist from rfl, arctan2_scale _ _ _ hk]
    rfl
  have hk' : (Spec.rescaled k g).k = g.k := rfl
  have hi : (Spec.rescaled k g).thetaI = g.thetaI := rfl
  simp only [Spec.fields, GisaxsArgs.qr, GisaxsArgs.qz, GisaxsArgs.qy, GisaxsArgs.qx, GisaxsArgs.qy_, GisaxsArgs.qz_, ht, ha, hf, hth, hk', hi]

/-- C243: with `k` times the wavelength the angles are the same and the components of q are `k` times smaller. -/
theorem C243_wavelength (g : GisaxsArgs) (k : ℝ) (hk : 0 < k) (y x : ℝ) :
    Spec.fields (Spec.longer k g) y x = (g.tilt, g.alphaI, g.alphaF y, g.thetaF x, g.qx y x / k, g.qy y x / k, g.qz y x / k, g.qr y x / k) := by
  have hk' : (Spec.longer k g).k = g.k / k := by
    unfold GisaxsArgs.k Spec.longer
    rw [mul_comm k, div_mul_eq_div_div]
  have h1 : (Spec.longer k g).qx y x = g.qx y x / k := by
    rw [GisaxsArgs.qx, hk', ← mul_div_assoc]; rfl
  have h2 : (Spec.longer k g).qy y x = g.qy y x / k := by
    rw [GisaxsArgs.qy, hk', ← mul_div_assoc]; rfl
  have h3 : (Spec.longer k g).qz y x = g.qz y x / k := by
    rw [GisaxsArgs.qz, hk', ← mul_div_assoc]; rfl
  have h4 : (Spec.longer k g).qr y x = g.qr y x / k := by
    rw [GisaxsArgs.qr, h1, h2, GisaxsArgs.qr, div_pow, div_pow, ← add_div, sqrt_div' _ (sq_nonneg k), sqrt_sq hk.le]
  rw [Spec.fields, h1, h2, h3, h4]
  rfl

/-- C243: pixel numbers count from any corner: moving both beams and the pixel together changes nothing. -/
theorem C243_origin (g : GisaxsArgs) (u v y x : ℝ) : Spec.fields (Spec.moved u v g) (y + v) (x + u) = Spec.fields g y x := by
  have e : ∀ a b c : ℝ, a + c - (b + c) = a - b := fun a b c => by ring
  have ht : (Spec.moved u v g).tilt = g.tilt := by
    unfold GisaxsArgs.tilt Spec.moved; simp only [e]; rfl
  have ha : (Spec.moved u v g).alphaI = g.alphaI := by
    unfold GisaxsArgs.alphaI Spec.moved; simp only [e]; rfl
  have hf : (Spec.moved u v g).alphaF (y + v) = g.alphaF y := by
    unfold GisaxsArgs.alphaF; rw [ha]; unfold Spec.moved; simp only [e]; rfl
  have hth : (Spec.moved u v g).thetaF (x + u) = g.thetaF x := by
    unfold GisaxsArgs.thetaF Spec.moved; simp only [e]; rfl
  have hk' : (Spec.moved u v g).k = g.k := rfl
  have hi : (Spec.moved u v g).thetaI = g.thetaI := rfl
  simp only [Spec.fields, GisaxsArgs.qr, GisaxsArgs.qz, GisaxsArgs.qy, GisaxsArgs.qx, GisaxsArgs.qy_, GisaxsArgs.qz_, ht, ha, hf, hth, hk', hi]

/-- C243: in the mirror image of the experiment tilt, horizontal exit angle and q_y change sign, everything else stays. -/
theorem C243_mirror (g : GisaxsArgs) (hd : 0 < g.dist) (hy : g.incY < g.reflY) (hp : 0 < g.pix.2) (y x : ℝ) :
    Spec.fields (Spec.mirrored g) y (-x) = (-g.tilt, g.alphaI, g.alphaF y, -g.thetaF x, g.qx y x, -g.qy y x, g.qz y x, g.qr y x) := by
  have hpy : 0 < g.py := by unfold GisaxsArgs.py; positivity
  have e : ∀ a b : ℝ, -a - -b = -(a - b) := fun a b => by ring
  have ht : (Spec.mirrored g).tilt = -g.tilt := by
    unfold GisaxsArgs.tilt Spec.mirrored
    simp only [e]
    rw [← arctan2_neg _ _ (mul_pos (sub_pos.2 hy) hpy), neg_mul]
    rfl
  have ha : (Spec.mirrored g).alphaI = g.alphaI := rfl
  have hf : (Spec.mirrored g).alphaF y = g.alphaF y := rfl
  have hth : (Spec.mirrored g).thetaF (-x) = -g.thetaF x := by
    unfold GisaxsArgs.thetaF Spec.mirrored
    simp only [e]
    rw [neg_mul, show ({ g with incX := -g.incX, reflX := -g.reflX, thetaI := -g.thetaI } : GisaxsArgs).px = g.px from rfl, arctan2_neg _ _ hd]
    ring
  have hk' : (Spec.mirrored g).k = g.k := rfl
  have hi : (Spec.mirrored g).thetaI = -g.thetaI := rfl
  have h1 : (Spec.mirrored g).qx y (-x) = g.qx y x := by
    simp only [GisaxsArgs.qx, ha, hf, hth, hk', hi, mul_neg, cos_neg]
  have h2' : (Spec.mirrored g).qy_ y (-x) = -g.qy_ y x := by
    simp only [GisaxsArgs.qy_, ha, hf, hth, hi, mul_neg, sin_neg]
    ring
  have h3' : (Spec.mirrored g).qz_ y = g.qz_ y := rfl
  have h2 : (Spec.mirrored g).qy y (-x) = -g.qy y x := by
    rw [GisaxsArgs.qy, h2', h3', ht, hk', sin_neg, cos_neg, GisaxsArgs.qy]
    ring
  have h3 : (Spec.mirrored g).qz y (-x) = g.qz y x := by
    rw [GisaxsArgs.qz, h2', h3', ht, hk', sin_neg, cos_neg, GisaxsArgs.qz]
    ring
  have h4 : (Spec.mirrored g).qr y (-x) = g.qr y x := by
    rw [GisaxsArgs.qr, h1, h2, neg_sq, GisaxsArgs.qr]
  rw [Spec.fields, ht, ha, hf, hth, h1, h2, h3, h4]

/-- C243: the exit angles grow with the pixel numbers: different rows have different vertical exit angles, different columns
different horizontal ones, and no two differ by half a turn or more. -/
theorem C243_order (g : GisaxsArgs) (hd : 0 < g.dist) (hp : 0 < g.pix.1 ∧ 0 < g.pix.2) :
    StrictMono g.alphaF ∧ StrictMono g.thetaF ∧ ∀ y y' x x', |g.alphaF y - g.alphaF y'| < π ∧ |2 * g.thetaF x - 2 * g.thetaF x'| < π := by
  have hpx : 0 < g.px := by unfold GisaxsArgs.px; have := hp.1; positivity
  have hpy : 0 < g.py := by unfold GisaxsArgs.py; have := hp.2; positivity
  refine ⟨fun a b h => ?_, fun a b h => ?_, fun y y' x x' => ⟨?_, ?_⟩⟩
  · unfold GisaxsArgs.alphaF
    rw [arctan2_eq_arctan _ _ hd, arctan2_eq_arctan _ _ hd]
    have : arctan ((a - g.incY) * g.py / g.dist) < arctan ((b - g.incY) * g.py / g.dist) := by
      apply arctan_strictMono
      gcongr
    linarith
  · unfold GisaxsArgs.thetaF
    rw [arctan2_eq_arctan _ _ hd, arctan2_eq_arctan _ _ hd]
    have : arctan ((a - g.incX) * g.px / g.dist) < arctan ((b - g.incX) * g.px / g.dist) := by
      apply arctan_strictMono
      gcongr
    linarith
  · unfold GisaxsArgs.alphaF
    rw [arctan2_eq_arctan _ _ hd, arctan2_eq_arctan _ _ hd, abs_lt]
    have h1 := arctan_lt_pi_div_two ((y - g.incY) * g.py / g.dist)
    have h2 := neg_pi_div_two_lt_arctan ((y - g.incY) * g.py / g.dist)
    have h3 := arctan_lt_pi_div_two ((y' - g.incY) * g.py / g.dist)
    have h4 := neg_pi_div_two_lt_arctan ((y' - g.incY) * g.py / g.dist)
    constructor <;> linarith
  · unfold GisaxsArgs.thetaF
    rw [arctan2_eq_arctan _ _ hd, arctan2_eq_arctan _ _ hd, abs_lt]
    have h1 := arctan_lt_pi_div_two ((x - g.incX) * g.px / g.dist)
    have h2 := neg_pi_div_two_lt_arctan ((x - g.incX) * g.px / g.dist)
    have h3 := arctan_lt_pi_div_two ((x' - g.incX) * g.px / g.dist)
    have h4 := neg_pi_div_two_lt_arctan ((x' - g.incX) * g.px / g.dist)
    constructor <;> linarith

/-- C243: for an untilted sample q_z is the same in all columns of a row; it is zero in the row of the direct beam, positive
above and negative below. -/
theorem C243_direct_beam (g : GisaxsArgs) (hx : g.reflX = g.incX) (hy : g.incY < g.reflY) (hp : 0 < g.pix.2) (hd : 0 < g.dist) (hl : 0 < g.lam) (y x x' : ℝ) :
    g.qz y x = g.qz y x' ∧ (g.incY < y → 0 < g.qz y x) ∧ (y = g.incY → g.qz y x = 0) ∧ (y < g.incY → g.qz y x < 0) := by
  have hpy : 0 < g.py := by unfold GisaxsArgs.py; positivity
  have htilt : g.tilt = 0 := by
    unfold GisaxsArgs.tilt
    rw [hx, sub_self, zero_mul, arctan2_eq_arctan _ _ (mul_pos (sub_pos.2 hy) hpy), zero_div, arctan_zero]
  have hk : 0 < g.k := by unfold GisaxsArgs.k; positivity
  have hq : ∀ x, g.qz y x = (sin (g.alphaF y) + sin g.alphaI) * g.k := by
    intro x
    rw [GisaxsArgs.qz, htilt, cos_zero, sin_zero, mul_one, mul_zero, sub_zero, GisaxsArgs.qz_]
  -- alphaF + alphaI = arctan of the height over the direct beam
  obtain ⟨t, htd⟩ : ∃ t, t = arctan ((y - g.incY) * g.py / g.dist) := ⟨_, rfl⟩
  obtain ⟨r, hrd⟩ : ∃ r, r = arctan ((g.reflY - g.incY) * g.py / g.dist) := ⟨_, rfl⟩
  have hf : g.alphaF y = t - r / 2 := by
    rw [GisaxsArgs.alphaF, GisaxsArgs.alphaI, arctan2_eq_arctan _ _ hd, arctan2_eq_arctan _ _ hd, ← htd, ← hrd]
  have hi : g.alphaI = r / 2 := by
    rw [GisaxsArgs.alphaI, arctan2_eq_arctan _ _ hd, ← hrd]
  have t1 := arctan_lt_pi_div_two ((y - g.incY) * g.py / g.dist)
  have t2 := neg_pi_div_two_lt_arctan ((y - g.incY) * g.py / g.dist)
  have r1 := arctan_lt_pi_div_two ((g.reflY - g.incY) * g.py / g.dist)
  have r2 : 0 < arctan ((g.reflY - g.incY) * g.py / g.dist) := arctan_pos.2 (div_pos (mul_pos (sub_pos.2 hy) hpy) hd)
  rw [← htd] at t1 t2
  rw [← hrd] at r1 r2
  have hs : sin (g.alphaF y) + sin g.alphaI = 2 * sin (t / 2) * cos ((t - r) / 2) := by
    rw [hf, hi, show t - r / 2 = t / 2 + (t - r) / 2 by ring, show r / 2 = t / 2 - (t - r) / 2 by ring, sin_add, sin_sub]
    ring
  have hc : 0 < cos ((t - r) / 2) := cos_pos_of_mem_Ioo ⟨by linarith, by linarith⟩
  refine ⟨by rw [hq x, hq x'], fun h => ?_, fun h => ?_, fun h => ?_⟩
  · have ht : 0 < t := by rw [htd]; exact arctan_pos.2 (div_pos (mul_pos (sub_pos.2 h) hpy) hd)
    have : 0 < sin (t / 2) := sin_pos_of_pos_of_lt_pi (by linarith) (by linarith)
    rw [hq, hs]
    positivity
  · have ht : t = 0 := by rw [htd, h, sub_self, zero_mul, zero_div, arctan_zero]
    rw [hq, hs, ht]
    simp
  · have ht : t < 0 := by rw [htd]; exact arctan_lt_zero.2 (div_neg_of_neg_of_pos (mul_neg_of_neg_of_pos (sub_neg.2 h) hpy) hd)
    have : sin (t / 2) < 0 := sin_neg_of_neg_of_neg_pi_lt (by linarith) (by linarith)
    rw [hq, hs]
    exact mul_neg_of_neg_of_pos (mul_neg_of_neg_of_pos (by linarith) hc) hk

/-- An experiment that meets the hypotheses: the reflected beam is 100 pixels above the direct beam, 2 m away. -/
example : ∃ g : GisaxsArgs, g.reflX = g.incX ∧ g.incY < g.reflY ∧ 0 < g.pix.1 ∧ 0 < g.pix.2 ∧ 0 < g.dist ∧ 0 < g.lam ∧ 0 < g.qz g.reflY 7 :=
  ⟨⟨50, 30, 50, 130, (172, 172), 2, 1, 0⟩, rfl, by norm_num, by norm_num, by norm_num, by norm_num, by norm_num,
    (C243_direct_beam ⟨50, 30, 50, 130, (172, 172), 2, 1, 0⟩ rfl (by norm_num) (by norm_num) (by norm_num) (by norm_num) 130 7 7).2.1 (by norm_num)⟩

end Gis

end Verif.Recip
