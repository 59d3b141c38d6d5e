/- C252: the peak functions in floating point (skbeam/core/fitting/lineshapes.py 58-159): every operation is followed by a rounding. -/
import Verif.Line.Model
import Verif.Order.Bragg

namespace Verif.Line.Round
open Verif Verif.Fl Verif.Order.Bragg

/-! ### Model -/

/-- `gaussian`, lineshapes.py 63-77, with a rounding after every operation; `fexp` is what `np.exp` computes, `s2pi` the constant of line 58. -/
def gaussianF (rnd fexp : ℚ → ℚ) (s2pi x area center sigma : ℚ) : ℚ :=
  rnd (rnd (area / rnd (s2pi * sigma)) * fexp (rnd (rnd (-1 * rnd (rnd (rnd (1 * x) - center) ^ 2)) / rnd (2 * rnd (sigma ^ 2)))))

/-- `lorentzian`, lineshapes.py 80-95, with a rounding after every operation; `pi` is `np.pi`. -/
def lorentzianF (rnd : ℚ → ℚ) (pi x area center sigma : ℚ) : ℚ :=
  rnd (rnd (area / rnd (1 + rnd (rnd (rnd (rnd (1 * x) - center) / sigma) ^ 2))) / rnd (pi * sigma))

/-- `lorentzian2`, lineshapes.py 98-114, with a rounding after every operation. -/
def lorentzian2F (rnd : ℚ → ℚ) (pi x area center sigma : ℚ) : ℚ :=
  rnd (rnd (area / rnd (rnd (1 + rnd (rnd (rnd (x - center) / sigma) ^ 2)) ^ 2)) / rnd (pi * sigma))

/-- `pvoigt`, lineshapes.py 142-159, with a rounding after every operation. -/
def pvoigtF (rnd fexp : ℚ → ℚ) (s2pi pi x area center sigma fraction : ℚ) : ℚ :=
  rnd (rnd (rnd (1 - fraction) * gaussianF rnd fexp s2pi x area center sigma) + rnd (fraction * lorentzianF rnd pi x area center sigma))

/-! ### Specification -/

/-- What every rounding to floating-point numbers satisfies, underflow included: larger numbers are not rounded to smaller ones, the sign does not matter, and 0 and 1
are numbers of the format. -/
def Spec.Rounding (rnd : ℚ → ℚ) : Prop := (∀ x y, x ≤ y → rnd x ≤ rnd y) ∧ (∀ x, rnd (-x) = -rnd x) ∧ rnd 0 = 0 ∧ rnd 1 = 1

/-- A peak as it should look: no negative value, and a point farther from the centre has no larger value (so points equally far have the same, and the centre the
largest). -/
def Spec.Peak (rnd : ℚ → ℚ) (center : ℚ) (f : ℚ → ℚ) : Prop := ∀ x y, rnd x = x → rnd y = y → |x - center| ≤ |y - center| → 0 ≤ f y ∧ f y ≤ f x

/-! ### Shape -/

section
variable {rnd : ℚ → ℚ} (h : Spec.Rounding rnd)
include h

theorem rnd_nonneg {x : ℚ} (hx : 0 ≤ x) : 0 ≤ rnd x := by
  have := h.1 0 x hx
  rwa [h.2.2.1] at this

theorem rnd_abs (x : ℚ) : |rnd x| = rnd |x| := by
  rcases le_total 0 x with hx | hx
  · rw [abs_of_nonneg hx, abs_of_nonneg (rnd_nonneg h hx)]
  · have : 0 ≤ rnd (-x) := rnd_nonneg h (by linarith)
    rw [h.2.1] at this
    rw [abs_of_nonpos hx, h.2.1, abs_of_nonpos (by linarith)]

theorem abs_mono {x y : ℚ} (hxy : |x| ≤ |y|) : |rnd x| ≤ |rnd y| := by
  rw [rnd_abs h, rnd_abs h]
  exact h.1 _ _ hxy

theorem sq_mono {x y : ℚ} (hxy : |x| ≤ |y|) : rnd (x ^ 2) ≤ rnd (y ^ 2) := h.1 _ _ (sq_le_sq.2 hxy)

theorem exponent_mono {c x y b : ℚ} (hb : 0 ≤ b) (hxy : |x - c| ≤ |y - c|) :
    rnd (rnd (-1 * rnd (rnd (y - c) ^ 2)) / b) ≤ rnd (rnd (-1 * rnd (rnd (x - c) ^ 2)) / b) := by
  apply h.1
  apply div_le_div_of_nonneg_right _ hb
  apply h.1
  have := sq_mono h (abs_mono h hxy)
  linarith

theorem gaussian_peak {fexp : ℚ → ℚ} (hm : ∀ x y, x ≤ y → fexp x ≤ fexp y) (h0 : ∀ x, 0 ≤ fexp x) (s2pi area center sigma : ℚ) (hs : 0 ≤ s2pi) (ha : 0 ≤ area) (hsig : 0 < sigma) :
    Spec.Peak rnd center (fun x => gaussianF rnd fexp s2pi x area center sigma) := by
  intro x y hx hy hxy
  have hP : 0 ≤ rnd (area / rnd (s2pi * sigma)) := rnd_nonneg h (div_nonneg ha (rnd_nonneg h (mul_nonneg hs hsig.le)))
  have hB : 0 ≤ rnd (2 * rnd (sigma ^ 2)) := rnd_nonneg h (mul_nonneg (by norm_num) (rnd_nonneg h (sq_nonneg _)))
  simp only [gaussianF, one_mul, hx, hy]
  refine ⟨rnd_nonneg h (mul_nonneg hP (h0 _)), h.1 _ _ (mul_le_mul_of_nonneg_left (hm _ _ (exponent_mono h hB hxy)) hP)⟩

theorem tail_mono {c x y s : ℚ} (hxy : |x - c| ≤ |y - c|) : 1 ≤ rnd (1 + rnd (rnd (rnd (x - c) / s) ^ 2)) ∧
    rnd (1 + rnd (rnd (rnd (x - c) / s) ^ 2)) ≤ rnd (1 + rnd (rnd (rnd (y - c) / s) ^ 2)) := by
  constructor
  · have h1 := rnd_nonneg h (sq_nonneg (rnd (rnd (x - c) / s)))
    have := h.1 1 (1 + rnd (rnd (rnd (x - c) / s) ^ 2)) (by linarith)
    rwa [h.2.2.2] at this
  · apply h.1
    have : |rnd (x - c) / s| ≤ |rnd (y - c) / s| := by
      rw [abs_div, abs_div]
      exact div_le_div_of_nonneg_right (abs_mono h hxy) (abs_nonneg s)
    have := sq_mono h (abs_mono h this)
    linarith

theorem lorentzian_peak (pi area center sigma : ℚ) (hp : 0 ≤ pi) (ha : 0 ≤ area) (hsig : 0 < sigma) :
    Spec.Peak rnd center (fun x => lorentzianF rnd pi x area center sigma) := by
  intro x y hx hy hxy
  have hB : 0 ≤ rnd (pi * sigma) := rnd_nonneg h (mul_nonneg hp hsig.le)
  simp only [lorentzianF, one_mul, hx, hy]
  obtain ⟨t1, t2⟩ := tail_mono h hxy
  refine ⟨rnd_nonneg h (div_nonneg (rnd_nonneg h (div_nonneg ha (by linarith))) hB), ?_⟩
  apply h.1
  apply div_le_div_of_nonneg_right _ hB
  apply h.1
  exact div_le_div_of_nonneg_left ha (by linarith) t2

theorem lorentzian2_peak (pi area center sigma : ℚ) (hp : 0 ≤ pi) (ha : 0 ≤ area) (hsig : 0 < sigma) :
    Spec.Peak rnd center (fun x => lorentzian2F rnd pi x area center sigma) := by
  intro x y hx hy hxy
  have hB : 0 ≤ rnd (pi * sigma) := rnd_nonneg h (mul_nonneg hp hsig.le)
  simp only [lorentzian2F]
  obtain ⟨t1, t2⟩ := tail_mono h hxy
  have t3 : 1 ≤ rnd (rnd (1 + rnd (rnd (rnd (x - center) / sigma) ^ 2)) ^ 2) := by
    have := h.1 1 (rnd (1 + rnd (rnd (rnd (x - center) / sigma) ^ 2)) ^ 2) (one_le_pow₀ t1)
    rwa [h.2.2.2] at this
  refine ⟨rnd_nonneg h (div_nonneg (rnd_nonneg h (div_nonneg ha (rnd_nonneg h (sq_nonneg _)))) hB), ?_⟩
  apply h.1
  apply div_le_div_of_nonneg_right _ hB
  apply h.1
  exact div_le_div_of_nonneg_left ha (by linarith) (h.1 _ _ (pow_le_pow_left₀ (by linarith) t2 2))

end

/-- C252: in floating point, whatever the format and whether or not small numbers underflow, gaussian, lorentzian, lorentzian2 and pvoigt are peaks: nowhere negative,
largest at the centre, equal at equal distances from it and never rising away from it. The denominators may not underflow to 0 (NumPy answers inf or nan then). -/
theorem C252_shape (rnd fexp : ℚ → ℚ) (h : Spec.Rounding rnd) (hm : ∀ x y, x ≤ y → fexp x ≤ fexp y) (h0 : ∀ x, 0 ≤ fexp x) (s2pi pi area center sigma fraction : ℚ)
    (hs : 0 ≤ s2pi) (hp : 0 ≤ pi) (ha : 0 ≤ area) (hsig : 0 < sigma) (hf0 : 0 ≤ fraction) (hf1 : fraction ≤ 1)
    (_hd : rnd (s2pi * sigma) ≠ 0 ∧ rnd (2 * rnd (sigma ^ 2)) ≠ 0 ∧ rnd (pi * sigma) ≠ 0) :
    Spec.Peak rnd center (fun x => gaussianF rnd fexp s2pi x area center sigma) ∧ Spec.Peak rnd center (fun x => lorentzianF rnd pi x area center sigma) ∧
    Spec.Peak rnd center (fun x => lorentzian2F rnd pi x area center sigma) ∧ Spec.Peak rnd center (fun x => pvoigtF rnd fexp s2pi pi x area center sigma fraction) := by
  have g := gaussian_peak h hm h0 s2pi area center sigma hs ha hsig
  have l := lorentzian_peak h pi area center sigma hp ha hsig
  refine ⟨g, l, lorentzian2_peak h pi area center sigma hp ha hsig, ?_⟩
  intro x y hx hy hxy
  obtain ⟨g1, g2⟩ := g x y hx hy hxy
  obtain ⟨l1, l2⟩ := l x y hx hy hxy
  simp only at g1 g2 l1 l2
  have hc : 0 ≤ rnd (1 - fraction) := rnd_nonneg h (by linarith)
  simp only [pvoigtF]
  constructor
  · exact rnd_nonneg h (add_nonneg (rnd_nonneg h (mul_nonneg hc g1)) (rnd_nonneg h (mul_nonneg hf0 l1)))
  · exact h.1 _ _ (add_le_add (h.1 _ _ (mul_le_mul_of_nonneg_left g2 hc)) (h.1 _ _ (mul_le_mul_of_nonneg_left l2 hf0)))

/-! ### Accuracy -/

section
variable {u : ℚ} {rnd : ℚ → ℚ} (hr : Fl.Spec.Rel u rnd) (hu : u ≤ 1 / 1000)
include hr

theorem rc (q : ℚ) : R (u : ℝ) ((rnd q : ℚ) : ℝ) (q : ℝ) := by
  apply R.of_abs (by exact_mod_cast hr.1)
  have := hr.2 q
  have h2 : ((|rnd q - q| : ℚ) : ℝ) ≤ ((u * |q| : ℚ) : ℝ) := Rat.cast_le.2 this
  push_cast at h2
  exact h2

/-- One more rounding. -/
theorem step {q : ℚ} {e y : ℝ} (h : R e (q : ℝ) y) : R (u + e + u * e) ((rnd q : ℚ) : ℝ) y := (rc hr q).trans h

include hu
/-- Coefficients of u with one percent to spare. -/
theorem step' {q : ℚ} {k y : ℝ} (hk0 : 0 ≤ k) (_hk : k ≤ 12) (h : R (k * u) (q : ℝ) y) : R ((k + 1 + k / 500) * u) ((rnd q : ℚ) : ℝ) y := by
  refine (step hr h).mono ?_
  have h0 : (0 : ℝ) ≤ u := by exact_mod_cast hr.1
  have h1 : (u : ℝ) ≤ 1 / 1000 := by
    have : ((u : ℚ) : ℝ) ≤ ((1 / 1000 : ℚ) : ℝ) := Rat.cast_le.2 hu
    simpa using this
  nlinarith [mul_nonneg hk0 h0, mul_le_mul_of_nonneg_left h1 (mul_nonneg hk0 h0)]
end

theorem R.one_add {e a b : ℝ} (h : R e a b) (hb : 0 ≤ b) : R e (1 + a) (1 + b) := by
  apply R.of_abs h.nonneg
  have := h.abs
  rw [abs_of_nonneg hb] at this
  rw [abs_of_nonneg (by linarith : (0 : ℝ) ≤ 1 + b), show 1 + a - (1 + b) = a - b by ring]
  have := h.nonneg
  nlinarith

theorem mul' {u k l x y z w : ℝ} (h : R (k * u) x y) (h' : R (l * u) z w) (hk : 0 ≤ k) (hl : 0 ≤ l) (_hl2 : l ≤ 12) (h0 : 0 ≤ u) (h1 : u ≤ 1 / 1000) :
    R ((k + l + k * l / 1000) * u) (x * z) (y * w) := by
  refine (R.mul h h').mono ?_
  nlinarith [mul_le_mul_of_nonneg_left h1 (mul_nonneg (mul_nonneg hk hl) h0)]

theorem inv' {u k x y : ℝ} (h : R (k * u) x y) (hk : 0 ≤ k) (hk2 : k ≤ 12) (h0 : 0 ≤ u) (h1 : u ≤ 1 / 1000) : R ((k * 1013 / 1000) * u) x⁻¹ y⁻¹ := by
  have hku : k * u ≤ 12 / 1000 := by nlinarith
  refine (R.inv h (by linarith)).mono ?_
  rw [div_le_iff₀ (by linarith)]
  nlinarith [mul_nonneg hk h0]

/-- C252: accuracy of lorentzian: a relative error of at most 11 u, at all distances from the centre. -/
theorem C252_lorentzian (u : ℚ) (hu : u ≤ 1 / 1000) (rnd : ℚ → ℚ) (hr : Fl.Spec.Rel u rnd) (pi : ℚ) (hpi : |(pi : ℝ) - Real.pi| ≤ u * Real.pi) (x area center sigma : ℚ) (hx : rnd x = x) :
    |((lorentzianF rnd pi x area center sigma : ℚ) : ℝ) - lorentzian x area center sigma| ≤ 11 * u * |lorentzian x area center sigma| := by
  have h0 : (0 : ℝ) ≤ u := by exact_mod_cast hr.1
  have h1 : (u : ℝ) ≤ 1 / 1000 := by
    have : ((u : ℚ) : ℝ) ≤ ((1 / 1000 : ℚ) : ℝ) := Rat.cast_le.2 hu
    simpa using this
  have a1 : R (1 * u) ((rnd (x - center) : ℚ) : ℝ) ((x : ℝ) - center) := by simpa using rc hr (x - center)
  have a2 : R (1 * u) ((rnd (x - center) / sigma : ℚ) : ℝ) (((x : ℝ) - center) / sigma) := by
    have := mul' a1 (R.refl (x := (sigma : ℝ)⁻¹) |>.mono (show (0 : ℝ) ≤ 0 * u by simp)) (by norm_num) le_rfl (by norm_num) h0 h1
    push_cast
    rw [div_eq_mul_inv, div_eq_mul_inv]
    exact this.mono (by linarith)
  have a3 := step' hr hu (by norm_num) (by norm_num) a2
  have a4 : R ((2003 / 1000 + 2003 / 1000 + 5 / 1000) * u) (((rnd (rnd (x - center) / sigma)) ^ 2 : ℚ) : ℝ) ((((x : ℝ) - center) / sigma) ^ 2) := by
    have := mul' (a3.mono (show _ ≤ (2003 / 1000 : ℝ) * u by nlinarith)) (a3.mono (show _ ≤ (2003 / 1000 : ℝ) * u by nlinarith)) (by norm_num) (by norm_num) (by norm_num) h0 h1
    push_cast
    rw [pow_two, pow_two]
    exact this.mono (by nlinarith)
  have a5 := step' hr hu (by norm_num) (by norm_num) a4
  have a6 : R (503 / 100 * u) (((1 + rnd ((rnd (rnd (x - center) / sigma)) ^ 2) : ℚ)) : ℝ) (1 + (((x : ℝ) - center) / sigma) ^ 2) := by
    have := (R.one_add a5 (sq_nonneg _)).mono (show _ ≤ (503 / 100 : ℝ) * u by nlinarith)
    push_cast
    exact this
  have a7 := inv' (step' hr hu (by norm_num) (by norm_num) a6) (by norm_num) (by norm_num) h0 h1
  have a8 : R (62 / 10 * u) ((area / rnd (1 + rnd ((rnd (rnd (x - center) / sigma)) ^ 2)) : ℚ) : ℝ) (area / (1 + (((x : ℝ) - center) / sigma) ^ 2)) := by
    have := mul' (R.refl (x := (area : ℝ)) |>.mono (show (0 : ℝ) ≤ 0 * u by simp)) (a7.mono (show _ ≤ (62 / 10 : ℝ) * u by nlinarith)) le_rfl (by norm_num) (by norm_num) h0 h1
    push_cast
    rw [div_eq_mul_inv, div_eq_mul_inv]
    exact this.mono (by nlinarith)
  have a9 := step' hr hu (by norm_num) (by norm_num) a8
  have b1 : R (1 * u) ((pi * sigma : ℚ) : ℝ) (Real.pi * sigma) := by
    have : R (1 * u) (pi : ℝ) Real.pi := R.of_abs (by linarith) (by rw [abs_of_pos Real.pi_pos]; linarith)
    have := mul' this (R.refl (x := (sigma : ℝ)) |>.mono (show (0 : ℝ) ≤ 0 * u by simp)) (by norm_num) le_rfl (by norm_num) h0 h1
    push_cast
    exact this.mono (by linarith)
  have b2 := inv' (step' hr hu (by norm_num) (by norm_num) b1) (by norm_num) (by norm_num) h0 h1
  have c1 : R (95 / 10 * u) ((rnd (area / rnd (1 + rnd ((rnd (rnd (x - center) / sigma)) ^ 2))) / rnd (pi * sigma) : ℚ) : ℝ)
      (area / (1 + (((x : ℝ) - center) / sigma) ^ 2) / (Real.pi * sigma)) := by
    have := mul' (a9.mono (show _ ≤ (73 / 10 : ℝ) * u by nlinarith)) (b2.mono (show _ ≤ (205 / 100 : ℝ) * u by nlinarith)) (by norm_num) (by norm_num) (by norm_num) h0 h1
    push_cast
    rw [div_eq_mul_inv _ ((rnd (pi * sigma) : ℚ) : ℝ), div_eq_mul_inv _ (Real.pi * (sigma : ℝ))]
    exact this.mono (by nlinarith)
  have c2 := (step' hr hu (by norm_num) (by norm_num) c1).mono (show _ ≤ (11 : ℝ) * u by nlinarith)
  have := c2.abs
  unfold lorentzianF lorentzian
  rw [one_mul, hx, one_mul]
  exact this

/-- C252: accuracy of gaussian, z = (x - center)^2 / (2 sigma^2) being the exponent: the relative error grows with z, at most like e^(8 u z). -/
theorem C252_gaussian (u v : ℚ) (hu : u ≤ 1 / 1000) (hv0 : 0 ≤ v) (rnd fexp : ℚ → ℚ) (hr : Fl.Spec.Rel u rnd) (hexp : ∀ q : ℚ, |(fexp q : ℝ) - Real.exp q| ≤ v * Real.exp q)
    (c2pi : ℚ) (hs : |(c2pi : ℝ) - s2pi| ≤ 2 * u * s2pi) (x area center sigma : ℚ) (hx : rnd x = x) (z : ℝ) (hz : z = ((x : ℝ) - center) ^ 2 / (2 * sigma ^ 2)) :
    |((gaussianF rnd fexp c2pi x area center sigma : ℚ) : ℝ) - gaussian x area center sigma| ≤
      ((1 + 6 * u) * (1 + v) * Real.exp (8 * u * z) - 1) * |gaussian x area center sigma| := by
  have h0 : (0 : ℝ) ≤ u := by exact_mod_cast hr.1
  have h0v : (0 : ℝ) ≤ v := by exact_mod_cast hv0
  have h1 : (u : ℝ) ≤ 1 / 1000 := by
    have : ((u : ℚ) : ℝ) ≤ ((1 / 1000 : ℚ) : ℝ) := Rat.cast_le.2 hu
    simpa using this
  have hz0 : 0 ≤ z := by rw [hz]; positivity
  have rf : ∀ y : ℝ, R (0 * (u : ℝ)) y y := fun y => R.refl.mono (by simp)
  have a1 : R (1 * u) ((rnd (x - center) : ℚ) : ℝ) ((x : ℝ) - center) := by simpa using rc hr (x - center)
  have a2 : R (2001 / 1000 * u) (((rnd (x - center)) ^ 2 : ℚ) : ℝ) (((x : ℝ) - center) ^ 2) := by
    have := mul' a1 a1 (by norm_num) (by norm_num) (by norm_num) h0 h1
    push_cast
    rw [pow_two, pow_two]
    exact this.mono (by nlinarith)
  have a3 : R (301 / 100 * u) ((-1 * rnd ((rnd (x - center)) ^ 2) : ℚ) : ℝ) (-1 * ((x : ℝ) - center) ^ 2) := by
    have := mul' (rf (-1)) ((step' hr hu (by norm_num) (by norm_num) a2).mono (show _ ≤ (301 / 100 : ℝ) * u by nlinarith)) le_rfl (by norm_num) (by norm_num) h0 h1
    push_cast
    exact this.mono (by nlinarith)
  have a4 := (step' hr hu (by norm_num) (by norm_num) a3).mono (show _ ≤ (403 / 100 : ℝ) * u by nlinarith)
  have b1 : R (1 * u) ((2 * rnd (sigma ^ 2) : ℚ) : ℝ) (2 * (sigma : ℝ) ^ 2) := by
    have : R (1 * u) ((rnd (sigma ^ 2) : ℚ) : ℝ) ((sigma : ℝ) ^ 2) := by
      have := rc hr (sigma ^ 2)
      rw [one_mul]
      exact_mod_cast this
    have := mul' (rf 2) this le_rfl (by norm_num) (by norm_num) h0 h1
    push_cast
    exact this.mono (by linarith)
  have b2 := (inv' (step' hr hu (by norm_num) (by norm_num) b1) (by norm_num) (by norm_num) h0 h1).mono (show _ ≤ (205 / 100 : ℝ) * u by nlinarith)
  have c1 : R (61 / 10 * u) ((rnd (-1 * rnd ((rnd (x - center)) ^ 2)) / rnd (2 * rnd (sigma ^ 2)) : ℚ) : ℝ) (-z) := by
    have := mul' a4 b2 (by norm_num) (by norm_num) (by norm_num) h0 h1
    push_cast
    rw [hz, show -(((x : ℝ) - center) ^ 2 / (2 * (sigma : ℝ) ^ 2)) = -1 * ((x : ℝ) - center) ^ 2 * (2 * (sigma : ℝ) ^ 2)⁻¹ by rw [div_eq_mul_inv]; ring, div_eq_mul_inv]
    exact this.mono (by nlinarith)
  have c2 := (step' hr hu (by norm_num) (by norm_num) c1).mono (show _ ≤ (8 : ℝ) * u by nlinarith)
  obtain ⟨ex, hex⟩ : ∃ ex : ℚ, ex = rnd (rnd (-1 * rnd ((rnd (x - center)) ^ 2)) / rnd (2 * rnd (sigma ^ 2))) := ⟨_, rfl⟩
  rw [← hex] at c2
  have d1 : R (Real.exp (8 * u * z) - 1) (Real.exp ex) (Real.exp (-z)) := by
    obtain ⟨d, hd, hd2⟩ := c2
    have hd3 : |-z * d| ≤ 8 * u * z := by
      rw [abs_mul, abs_neg, abs_of_nonneg hz0]
      nlinarith
    refine ⟨Real.exp (-z * d) - 1, ?_, ?_⟩
    · obtain ⟨l1, l2⟩ := abs_le.1 hd3
      rw [abs_le]
      constructor
      · have e1 := Real.exp_le_exp.2 l1
        have e2 : 1 ≤ Real.exp (8 * u * z) := Real.one_le_exp (by positivity)
        have e3 : Real.exp (-(8 * u * z)) * Real.exp (8 * u * z) = 1 := by rw [← Real.exp_add]; simp
        have e4 : 0 < Real.exp (-(8 * u * z)) := Real.exp_pos _
        nlinarith
      · linarith [Real.exp_le_exp.2 l2]
    · rw [hd2, show -z * (1 + d) = -z + -z * d by ring, Real.exp_add]
      ring
  have d2 : R (v : ℝ) (fexp ex : ℝ) (Real.exp ex) := R.of_abs h0v (by rw [abs_of_pos (Real.exp_pos _)]; exact hexp ex)
  have d3 := d2.trans d1
  have e1 : R (2 * u) ((c2pi * sigma : ℚ) : ℝ) (s2pi * sigma) := by
    have hpos : 0 < s2pi := Real.sqrt_pos.2 (by positivity)
    have : R (2 * u) (c2pi : ℝ) s2pi := R.of_abs (by linarith) (by rw [abs_of_pos hpos]; exact hs)
    have := mul' this (rf (sigma : ℝ)) (by norm_num) le_rfl (by norm_num) h0 h1
    push_cast
    exact this.mono (by linarith)
  have e2 := inv' (step' hr hu (by norm_num) (by norm_num) e1) (by norm_num) (by norm_num) h0 h1
  have e3 : R (307 / 100 * u) ((area / rnd (c2pi * sigma) : ℚ) : ℝ) (area / (s2pi * sigma)) := by
    have := mul' (rf (area : ℝ)) (e2.mono (show _ ≤ (307 / 100 : ℝ) * u by nlinarith)) le_rfl (by norm_num) (by norm_num) h0 h1
    push_cast
    rw [div_eq_mul_inv, div_eq_mul_inv]
    exact this.mono (by nlinarith)
  have e4 := (step' hr hu (by norm_num) (by norm_num) e3).mono (show _ ≤ (41 / 10 : ℝ) * u by nlinarith)
  have f1 : R (41 / 10 * u + (v + (Real.exp (8 * u * z) - 1) + v * (Real.exp (8 * u * z) - 1)) + 41 / 10 * u * (v + (Real.exp (8 * u * z) - 1) + v * (Real.exp (8 * u * z) - 1)))
      ((rnd (area / rnd (c2pi * sigma)) * fexp ex : ℚ) : ℝ) (area / (s2pi * sigma) * Real.exp (-z)) := by
    push_cast
    exact e4.mul d3
  have f2 := (step hr f1).abs
  have hg : gaussian x area center sigma = area / (s2pi * sigma) * Real.exp (-z) := by
    unfold gaussian
    rw [hz, one_mul]
    congr 2
    ring
  unfold gaussianF
  rw [one_mul, hx, ← hex, hg]
  refine f2.trans (mul_le_mul_of_nonneg_right ?_ (abs_nonneg _))
  obtain ⟨E, hE⟩ : ∃ E, E = Real.exp (8 * u * z) := ⟨_, rfl⟩
  have hE1 : 1 ≤ E := by rw [hE]; exact Real.one_le_exp (by positivity)
  rw [← hE]
  have k1 : (1 + (u : ℝ)) * (1 + 41 / 10 * u) ≤ 1 + 6 * u := by nlinarith
  have k2 : 0 ≤ (1 + (v : ℝ)) * E := by positivity
  have := mul_le_mul_of_nonneg_right k1 k2
  nlinarith

/-! ### The hypotheses are met -/

theorem round53_rounding : Spec.Rounding Fl.round53 :=
  ⟨Fl.round53_correct.mono, Fl.round53_correct.neg, by decide +kernel, by decide +kernel⟩

example : Spec.Rounding Fl.round53 ∧ Fl.Spec.Rel (1 / 2 ^ 53) Fl.round53 ∧ (1 / 2 ^ 53 : ℚ) ≤ 1 / 1000 := ⟨round53_rounding, Fl.round53_rel, by norm_num⟩

/-- A case of the other hypotheses of C252_shape (with a very coarse exponential). -/
example : (∀ x y : ℚ, x ≤ y → (fun q : ℚ => if q < 0 then (1 / 2 : ℚ) else 1) x ≤ (fun q : ℚ => if q < 0 then (1 / 2 : ℚ) else 1) y) ∧
    (Fl.round53 (Fl.round53 (5 / 2) * 3) ≠ 0 ∧ Fl.round53 (2 * Fl.round53 (3 ^ 2)) ≠ 0 ∧ Fl.round53 (Fl.round53 (22 / 7) * 3) ≠ 0) := by
  refine ⟨fun x y hxy => ?_, by decide +kernel⟩
  dsimp only
  split_ifs <;> first | (exfalso; linarith) | norm_num

/-- And of C252_gaussian: an exponential and constants with the accuracy asked for exist, e.g. rationals close enough to the exact values. -/
example : ∃ (fexp : ℚ → ℚ) (c2pi pi : ℚ), (∀ q : ℚ, |(fexp q : ℝ) - Real.exp q| ≤ ((1 / 2 ^ 52 : ℚ) : ℝ) * Real.exp q) ∧
    |(c2pi : ℝ) - s2pi| ≤ 2 * ((1 / 2 ^ 53 : ℚ) : ℝ) * s2pi ∧ |(pi : ℝ) - Real.pi| ≤ ((1 / 2 ^ 53 : ℚ) : ℝ) * Real.pi := by
  have key : ∀ (y e : ℝ), 0 < y → 0 < e → ∃ q : ℚ, |(q : ℝ) - y| ≤ e * y := by
    intro y e hy he
    obtain ⟨q, q1, q2⟩ := exists_rat_btwn (show y < y + e * y by nlinarith)
    exact ⟨q, by rw [abs_of_pos (by linarith)]; linarith⟩
  choose f hf using fun q : ℚ => key (Real.exp q) ((1 / 2 ^ 52 : ℚ) : ℝ) (Real.exp_pos _) (by norm_num)
  obtain ⟨c, hc⟩ := key s2pi (2 * ((1 / 2 ^ 53 : ℚ) : ℝ)) (Real.sqrt_pos.2 (by positivity)) (by norm_num)
  obtain ⟨p, hp⟩ := key Real.pi ((1 / 2 ^ 53 : ℚ) : ℝ) Real.pi_pos (by norm_num)
  exact ⟨f, c, p, hf, hc, hp⟩

end Verif.Line.Round
