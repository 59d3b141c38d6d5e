/- C258: rounding errors of gisaxs (skbeam/core/recip.py 310-346). -/
import Verif.Recip.Round
import Verif.Recip.GisLaws

namespace Verif.Recip.GisRound
open Verif Verif.Recip Verif.Recip.Round Real

/-! ### Model -/

/-- The arithmetic of C254 with `np.arctan2` and the double next to 10 ** (-6). -/
structure Arith2 extends Arith where
  atan2 : ℝ → ℝ → ℝ
  micro : ℝ

/-- A coordinate relative to the direct beam in metres, recip.py:315-324: `(c - inc) * pixel_size` with `pixel_size * 10 ** (-6)`. -/
noncomputable def offs (A : Arith2) (c inc pix : ℝ) : ℝ := A.fl (A.fl (c - inc) * A.fl (pix * A.micro))
/-- recip.py:318. -/
noncomputable def tiltF (A : Arith2) (g : GisaxsArgs) : ℝ := A.atan2 (offs A g.reflX g.incX g.pix.1) (offs A g.reflY g.incY g.pix.2)
/-- recip.py:320. -/
noncomputable def alphaIF (A : Arith2) (g : GisaxsArgs) : ℝ := A.fl (A.atan2 (offs A g.reflY g.incY g.pix.2) g.dist / 2)
/-- recip.py:324. -/
noncomputable def alphaFF (A : Arith2) (g : GisaxsArgs) (y : ℝ) : ℝ := A.fl (A.atan2 (offs A y g.incY g.pix.2) g.dist - alphaIF A g)
/-- recip.py:326-327. -/
noncomputable def thetaFF (A : Arith2) (g : GisaxsArgs) (x : ℝ) : ℝ := A.fl (A.fl (A.atan2 (offs A x g.incX g.pix.1) g.dist / 2) - g.thetaI)
/-- recip.py:332. -/
noncomputable def qxF (A : Arith2) (g : GisaxsArgs) (y x : ℝ) : ℝ :=
  A.fl (A.fl (A.fl (A.cos (alphaFF A g y) * A.cos (A.fl (2 * thetaFF A g x))) - A.fl (A.cos (alphaIF A g) * A.cos (A.fl (2 * g.thetaI)))) * kl A.toArith g.lam)
/-- recip.py:336. -/
noncomputable def qy_F (A : Arith2) (g : GisaxsArgs) (y x : ℝ) : ℝ :=
  A.fl (A.fl (A.cos (alphaFF A g y) * A.sin (A.fl (2 * thetaFF A g x))) - A.fl (A.cos (alphaIF A g) * A.sin (A.fl (2 * g.thetaI))))
/-- recip.py:337. -/
noncomputable def qz_F (A : Arith2) (g : GisaxsArgs) (y : ℝ) : ℝ := A.fl (A.sin (alphaFF A g y) + A.sin (alphaIF A g))
/-- recip.py:338. -/
noncomputable def qyF (A : Arith2) (g : GisaxsArgs) (y x : ℝ) : ℝ :=
  A.fl (A.fl (A.fl (qz_F A g y * A.sin (tiltF A g)) + A.fl (qy_F A g y x * A.cos (tiltF A g))) * kl A.toArith g.lam)
/-- recip.py:341. -/
noncomputable def qzF (A : Arith2) (g : GisaxsArgs) (y x : ℝ) : ℝ :=
  A.fl (A.fl (A.fl (qz_F A g y * A.cos (tiltF A g)) - A.fl (qy_F A g y x * A.sin (tiltF A g))) * kl A.toArith g.lam)
/-- recip.py:344; the square root is correctly rounded (IEEE 754). -/
noncomputable def qrF (A : Arith2) (g : GisaxsArgs) (y x : ℝ) : ℝ := A.fl (sqrt (A.fl (A.fl (qxF A g y x ^ 2) + A.fl (qyF A g y x ^ 2))))

/-! ### Specification -/

/-- The arithmetic of C254, with an error of at most 4u for `np.arctan2` and a relative error of at most u for 10 ** (-6). -/
structure Spec.Accurate2 (u : ℝ) (A : Arith2) : Prop where
  base : Round.Spec.Accurate u A.toArith
  atan2 : ∀ y x, |A.atan2 y x - Geom.arctan2 y x| ≤ 4 * u
  micro : |A.micro - 1 / 10 ^ 6| ≤ u * (1 / 10 ^ 6)

/-! ### The arc tangent of two arguments -/

theorem arctan2_close (y x d : ℝ) (hd : |d| ≤ 1 / 2) : |Geom.arctan2 (y * (1 + d)) x - Geom.arctan2 y x| ≤ |d| := by
  obtain ⟨d1, d2⟩ := abs_le.1 hd
  have hp : 0 < 1 + d := by linarith
  have hpos : ∀ y x : ℝ, 0 < x → |Geom.arctan2 (y * (1 + d)) x - Geom.arctan2 y x| ≤ |d| := by
    intro y x hx
    rw [arctan2_eq_arctan _ _ hx, arctan2_eq_arctan _ _ hx, show y * (1 + d) / x = y / x * (1 + d) by ring]
    exact arctan_close _ _ hd
  rcases lt_trichotomy x 0 with hx | hx | hx
  · rcases lt_trichotomy y 0 with hy | hy | hy
    · have e : ∀ y : ℝ, y < 0 → Geom.arctan2 y x = Geom.arctan2 (-y) (-x) - π := by
        intro y hy
        have := Complex.arg_neg_eq_arg_add_pi_of_im_neg (x := ⟨x, y⟩) hy
        have h2 : (-(⟨x, y⟩ : ℂ)) = ⟨-x, -y⟩ := rfl
        rw [h2] at this
        unfold Geom.arctan2
        linarith
      rw [e y hy, e (y * (1 + d)) (mul_neg_of_neg_of_pos hy hp), ← neg_mul]
      have := hpos (-y) (-x) (by linarith)
      rwa [sub_sub_sub_cancel_right]
    · rw [hy, zero_mul, sub_self, abs_zero]; exact abs_nonneg d
    · have e : ∀ y : ℝ, 0 < y → Geom.arctan2 y x = Geom.arctan2 (-y) (-x) + π := by
        intro y hy
        have := Complex.arg_neg_eq_arg_sub_pi_of_im_pos (x := ⟨x, y⟩) hy
        have h2 : (-(⟨x, y⟩ : ℂ)) = ⟨-x, -y⟩ := rfl
        rw [h2] at this
        unfold Geom.arctan2
        linarith
      rw [e y hy, e (y * (1 + d)) (mul_pos hy hp), ← neg_mul]
      have := hpos (-y) (-x) (by linarith)
      rwa [add_sub_add_right_eq_sub]
  · have := Gis.arctan2_scale (1 + d) y x hp
    rw [hx, mul_zero, mul_comm] at this
    rw [hx, this, sub_self, abs_zero]; exact abs_nonneg d
  · exact hpos y x hx

theorem arctan2_close2 (y x a b : ℝ) (ha : |a| ≤ 1 / 1000) (hb : |b| ≤ 1 / 1000) :
    |Geom.arctan2 (y * (1 + a)) (x * (1 + b)) - Geom.arctan2 y x| ≤ 1002 / 1000 * (|a| + |b|) := by
  obtain ⟨b1, b2⟩ := abs_le.1 hb
  have hp : 0 < 1 + b := by linarith
  have e : Geom.arctan2 (y * (1 + a)) (x * (1 + b)) = Geom.arctan2 (y * (1 + (a - b) / (1 + b))) x := by
    rw [← Gis.arctan2_scale (1 + b) _ x hp, mul_comm x]
    congr 1
    field_simp
    ring
  rw [e]
  have hd : |(a - b) / (1 + b)| ≤ 1002 / 1000 * (|a| + |b|) := by
    rw [abs_div, abs_of_pos hp, div_le_iff₀ hp]
    have h1 : |a - b| ≤ |a| + |b| := abs_sub _ _
    have h2 := abs_nonneg a
    have h3 := abs_nonneg b
    have h4 : 0 ≤ (|a| + |b|) * (b + 1 / 1000) := mul_nonneg (by linarith) (by linarith)
    nlinarith
  refine (arctan2_close y x _ (hd.trans ?_)).trans hd
  nlinarith [abs_nonneg a, abs_nonneg b]

theorem arctan2_le (y x : ℝ) : |Geom.arctan2 y x| ≤ 3142 / 1000 := by
  have := Complex.abs_arg_le_pi ⟨x, y⟩
  have h := Real.pi_lt_d4
  unfold Geom.arctan2
  linarith

section
variable {u : ℝ} (hu : u ≤ 1 / 1000000) {A : Arith2} (hA : Spec.Accurate2 u A) (g : GisaxsArgs)
include hu hA

theorem offs_rel (c inc pix : ℝ) : Order.Bragg.R (401 / 100 * u) (offs A c inc pix) ((c - inc) * (pix * (1 / 10 ^ 6))) := by
  have h0 := hA.base.rel.1
  have r1 : Order.Bragg.R u A.micro (1 / 10 ^ 6) := Order.Bragg.R.of_abs h0 (by rw [abs_of_pos (by norm_num : (0 : ℝ) < 1 / 10 ^ 6)]; exact hA.micro)
  have r2 := Order.Bragg.R.rnd hA.base.rel ((Order.Bragg.R.refl (x := pix)).mul r1)
  have r3 := Order.Bragg.R.fl hA.base.rel (c - inc)
  have r4 := Order.Bragg.R.rnd hA.base.rel (r3.mul r2)
  refine r4.mono ?_
  have h2 : u * u ≤ 1 / 1000000 * u := mul_le_mul_of_nonneg_right hu h0
  have h3 : u * (u * u) ≤ u * (1 / 1000000 * u) := mul_le_mul_of_nonneg_left h2 h0
  have h4 : u * (u * (u * u)) ≤ u * (u * (1 / 1000000 * u)) := mul_le_mul_of_nonneg_left h3 h0
  nlinarith

theorem ang_err (c inc pix dist : ℝ) : |A.atan2 (offs A c inc pix) dist - Geom.arctan2 ((c - inc) * (pix * (1 / 10 ^ 6))) dist| ≤ 81 / 10 * u := by
  have h0 := hA.base.rel.1
  obtain ⟨d, hd, e⟩ := offs_rel hu hA c inc pix
  have h1 := hA.atan2 (offs A c inc pix) dist
  have h2 := arctan2_close ((c - inc) * (pix * (1 / 10 ^ 6))) dist d (by linarith)
  rw [← e] at h2
  have h3 := abs_add_le (A.atan2 (offs A c inc pix) dist - Geom.arctan2 (offs A c inc pix) dist) (Geom.arctan2 (offs A c inc pix) dist - Geom.arctan2 ((c - inc) * (pix * (1 / 10 ^ 6))) dist)
  rw [sub_add_sub_cancel] at h3
  linarith

theorem tilt_err : |tiltF A g - g.tilt| ≤ 13 * u := by
  have h0 := hA.base.rel.1
  obtain ⟨a, ha, ea⟩ := offs_rel hu hA g.reflX g.incX g.pix.1
  obtain ⟨b, hb, eb⟩ := offs_rel hu hA g.reflY g.incY g.pix.2
  have h1 := hA.atan2 (offs A g.reflX g.incX g.pix.1) (offs A g.reflY g.incY g.pix.2)
  have h2 := arctan2_close2 ((g.reflX - g.incX) * (g.pix.1 * (1 / 10 ^ 6))) ((g.reflY - g.incY) * (g.pix.2 * (1 / 10 ^ 6))) a b (by linarith) (by linarith)
  rw [← ea, ← eb] at h2
  have h3 := abs_add_le (tiltF A g - Geom.arctan2 (offs A g.reflX g.incX g.pix.1) (offs A g.reflY g.incY g.pix.2)) (Geom.arctan2 (offs A g.reflX g.incX g.pix.1) (offs A g.reflY g.incY g.pix.2) - g.tilt)
  rw [sub_add_sub_cancel] at h3
  have h4 : |tiltF A g - Geom.arctan2 (offs A g.reflX g.incX g.pix.1) (offs A g.reflY g.incY g.pix.2)| ≤ 4 * u := h1
  have h5 : |Geom.arctan2 (offs A g.reflX g.incX g.pix.1) (offs A g.reflY g.incY g.pix.2) - g.tilt| ≤ 1002 / 1000 * (|a| + |b|) := h2
  nlinarith

theorem half_err {x y : ℝ} (h : |x - y| ≤ 81 / 10 * u) (hy : |y| ≤ 3142 / 1000) : |A.fl (x / 2) - y / 2| ≤ 6 * u ∧ |y / 2| ≤ 1571 / 1000 := by
  have h0 := hA.base.rel.1
  have hM : |y / 2| ≤ 1571 / 1000 := by rw [abs_div, abs_two]; linarith
  refine ⟨?_, hM⟩
  have := flerr hA.base.rel (x := x / 2) (y := y / 2) (e := 81 / 20 * u) (by rw [← sub_div, abs_div, abs_two]; linarith) hM
  nlinarith

theorem alphaI_err : |alphaIF A g - g.alphaI| ≤ 6 * u ∧ |g.alphaI| ≤ 1571 / 1000 :=
  half_err hu hA (ang_err hu hA g.reflY g.incY g.pix.2 g.dist) (arctan2_le _ _)

theorem alphaF_err (y : ℝ) : |alphaFF A g y - g.alphaF y| ≤ 19 * u := by
  have h0 := hA.base.rel.1
  obtain ⟨h1, h2⟩ := alphaI_err hu hA g
  have h3 := ang_err hu hA y g.incY g.pix.2 g.dist
  have h4 := arctan2_le ((y - g.incY) * (g.pix.2 * (1 / 10 ^ 6))) g.dist
  have e1 := abs_sub (A.atan2 (offs A y g.incY g.pix.2) g.dist - Geom.arctan2 ((y - g.incY) * (g.pix.2 * (1 / 10 ^ 6))) g.dist) (alphaIF A g - g.alphaI)
  have e2 := abs_sub (Geom.arctan2 ((y - g.incY) * (g.pix.2 * (1 / 10 ^ 6))) g.dist) g.alphaI
  have := flerr hA.base.rel (x := A.atan2 (offs A y g.incY g.pix.2) g.dist - alphaIF A g) (y := g.alphaF y) (e := 141 / 10 * u) (M := 4713 / 1000)
    (by
      rw [sub_sub_sub_comm] at e1
      have : |A.atan2 (offs A y g.incY g.pix.2) g.dist - alphaIF A g - g.alphaF y| ≤ _ := e1
      linarith)
    (by
      have : |g.alphaF y| ≤ _ := e2
      linarith)
  unfold alphaFF
  nlinarith

theorem thetaF_err (hth : |g.thetaI| ≤ 32 / 10) (x : ℝ) : |thetaFF A g x - g.thetaF x| ≤ 11 * u ∧ |g.thetaF x| ≤ 48 / 10 := by
  have h0 := hA.base.rel.1
  obtain ⟨h1, h2⟩ := half_err hu hA (ang_err hu hA x g.incX g.pix.1 g.dist) (arctan2_le _ _)
  have e2 := abs_sub (Geom.arctan2 ((x - g.incX) * (g.pix.1 * (1 / 10 ^ 6))) g.dist / 2) g.thetaI
  have hM : |g.thetaF x| ≤ 48 / 10 := by
    have : |g.thetaF x| ≤ _ := e2
    linarith
  refine ⟨?_, hM⟩
  have := flerr hA.base.rel (x := A.fl (A.atan2 (offs A x g.incX g.pix.1) g.dist / 2) - g.thetaI) (y := g.thetaF x) (e := 6 * u) (M := 48 / 10)
    (by
      have e : A.fl (A.atan2 (offs A x g.incX g.pix.1) g.dist / 2) - g.thetaI - g.thetaF x = A.fl (A.atan2 (offs A x g.incX g.pix.1) g.dist / 2) -
        Geom.arctan2 ((x - g.incX) * (g.pix.1 * (1 / 10 ^ 6))) g.dist / 2 := by unfold GisaxsArgs.thetaF GisaxsArgs.px; ring
      rw [e]; exact h1)
    hM
  unfold thetaFF
  nlinarith

theorem twice_err {x y a M : ℝ} (h : |x - y| ≤ a * u) (hy : |y| ≤ M) (ha : a ≤ 100) : |A.fl (2 * x) - 2 * y| ≤ (2 * a + 2 * M + 1) * u := by
  have h0 := hA.base.rel.1
  have := flerr hA.base.rel (x := 2 * x) (y := 2 * y) (e := 2 * (a * u)) (M := 2 * M) (by rw [← mul_sub, abs_mul, abs_two]; linarith) (by rw [abs_mul, abs_two]; linarith)
  have h1 : a * u ≤ 100 * u := mul_le_mul_of_nonneg_right ha h0
  nlinarith

omit hA in
theorem scaleM {fl : ℝ → ℝ} (h : Fl.Spec.RelR u fl) {x x' kF k a M : ℝ} (hx : |x - x'| ≤ a * u) (hM : |x'| ≤ M) (hk : 0 < k) (hkF : |kF - k| ≤ 4 * u * k) (ha2 : a ≤ 1000) (hM1 : 1 ≤ M) :
    |fl (x * kF) - x' * k| ≤ (a + 6 * M) * u * k := by
  have h0 := h.1
  have h1 := prod_err hx hkF hM (abs_of_pos hk).le
  have h2 : |x' * k| ≤ M * k := by rw [abs_mul, abs_of_pos hk]; nlinarith
  have h3 := flerr h h1 h2
  have huk : 0 ≤ u * k := mul_nonneg h0 hk.le
  have h5 : u * (u * k) ≤ 1 / 1000000 * (u * k) := mul_le_mul_of_nonneg_right hu huk
  have h4 : a * (u * (u * k)) ≤ 1000 * (u * (u * k)) := mul_le_mul_of_nonneg_right ha2 (mul_nonneg h0 huk)
  have h6 : u * k ≤ M * (u * k) := by nlinarith
  have h7 : M * (u * (u * k)) ≤ M * (1 / 1000000 * (u * k)) := mul_le_mul_of_nonneg_left h5 (by linarith)
  have h8 : u * (a * (u * (u * k))) ≤ u * (1000 * (u * (u * k))) := mul_le_mul_of_nonneg_left h4 h0
  have h9 : u * (u * (u * k)) ≤ u * (1 / 1000000 * (u * k)) := mul_le_mul_of_nonneg_left h5 h0
  nlinarith

omit hA in
theorem mulM {fl : ℝ → ℝ} (h : Fl.Spec.RelR u fl) {x y x' y' a b : ℝ} (hx : |x - x'| ≤ a * u) (hy : |y - y'| ≤ b * u) (hM : |x'| ≤ 2) (hN : |y'| ≤ 1)
    (ha : 0 ≤ a) (ha2 : a ≤ 200) (hb2 : b ≤ 200) : |fl (x * y) - x' * y'| ≤ (a + 2 * b + 3) * u ∧ |x' * y'| ≤ 2 := by
  have h0 := h.1
  have h1 := prod_err hx hy hM hN
  have h2 : |x' * y'| ≤ 2 := by rw [abs_mul]; nlinarith [abs_nonneg x', abs_nonneg y']
  refine ⟨?_, h2⟩
  have h3 := flerr h h1 h2
  have hab : a * b ≤ 40000 := by nlinarith [mul_le_mul_of_nonneg_left hb2 ha]
  have h4 : a * u * (b * u) ≤ 40000 * u * u := by nlinarith [mul_le_mul_of_nonneg_right hab (mul_nonneg h0 h0)]
  have hau : a * u ≤ 200 * u := mul_le_mul_of_nonneg_right ha2 h0
  have hbu : b * u ≤ 200 * u := mul_le_mul_of_nonneg_right hb2 h0
  have h5 : u * u ≤ 1 / 1000000 * u := mul_le_mul_of_nonneg_right hu h0
  have h6 : a * u * 1 + 2 * (b * u) + a * u * (b * u) ≤ 1 / 1000 := by nlinarith
  have h7 := mul_le_mul_of_nonneg_left h6 h0
  nlinarith

omit hA in
theorem length_err {fl : ℝ → ℝ} (h : Fl.Spec.RelR u fl) {X Y a b k : ℝ} (hk : 0 < k) (hx : |X - a| ≤ 90 * u * k) (hy : |Y - b| ≤ 200 * u * k) (ha : |a| ≤ 2 * k) (hb : |b| ≤ 4 * k) :
    |fl (sqrt (fl (fl (X ^ 2) + fl (Y ^ 2)))) - sqrt (a ^ 2 + b ^ 2)| ≤ 310 * u * k := by
  have h0 := h.1
  have hn : ∀ p q : ℝ, sqrt (p ^ 2 + q ^ 2) = ‖(⟨p, q⟩ : ℂ)‖ := fun p q => by rw [Complex.norm_def, Complex.normSq_mk]; congr 1; ring
  have tri : |sqrt (X ^ 2 + Y ^ 2) - sqrt (a ^ 2 + b ^ 2)| ≤ |X - a| + |Y - b| := by
    rw [hn, hn]
    refine (abs_norm_sub_norm_le _ _).trans ?_
    exact (Complex.norm_le_abs_re_add_abs_im _)
  have small : sqrt (a ^ 2 + b ^ 2) ≤ 6 * k := by
    rw [hn]
    have := Complex.norm_le_abs_re_add_abs_im (⟨a, b⟩ : ℂ)
    simp only at this
    linarith
  obtain ⟨S, hS⟩ : ∃ S, S = X ^ 2 + Y ^ 2 := ⟨_, rfl⟩
  have hS0 : 0 ≤ S := by rw [hS]; positivity
  have hsum : Order.Bragg.R u (fl (X ^ 2) + fl (Y ^ 2)) S := by
    refine Order.Bragg.R.of_abs h0 ?_
    have e1 := h.2 (X ^ 2)
    have e2 := h.2 (Y ^ 2)
    rw [abs_of_nonneg (sq_nonneg X)] at e1
    rw [abs_of_nonneg (sq_nonneg Y)] at e2
    have e3 := abs_add_le (fl (X ^ 2) - X ^ 2) (fl (Y ^ 2) - Y ^ 2)
    rw [← add_sub_add_comm] at e3
    rw [abs_of_nonneg hS0, hS]
    linarith
  have hs2 := Order.Bragg.R.rnd h hsum
  have h2 : u * u ≤ 1 / 1000000 * u := mul_le_mul_of_nonneg_right hu h0
  obtain ⟨d, hd, e⟩ := hs2.mono (show u + u + u * u ≤ 201 / 100 * u by linarith)
  obtain ⟨d1, d2⟩ := abs_le.1 hd
  have hp : 0 ≤ 1 + d := by linarith
  have hsq : Order.Bragg.R (201 / 100 * u) (sqrt (fl (fl (X ^ 2) + fl (Y ^ 2)))) (sqrt S) := by
    refine ⟨sqrt (1 + d) - 1, ?_, by rw [e, Real.sqrt_mul hS0]; ring⟩
    refine le_trans ?_ hd
    have r0 := Real.sqrt_nonneg (1 + d)
    have r1 := Real.sq_sqrt hp
    have : |sqrt (1 + d) - 1| * (sqrt (1 + d) + 1) = |d| := by
      rw [← abs_of_nonneg (show 0 ≤ sqrt (1 + d) + 1 by linarith), ← abs_mul]
      congr 1
      nlinarith
    nlinarith [abs_nonneg (sqrt (1 + d) - 1)]
  have hf := (Order.Bragg.R.rnd h hsq).mono (show u + 201 / 100 * u + u * (201 / 100 * u) ≤ 302 / 100 * u by nlinarith)
  have hab := hf.abs
  rw [abs_of_nonneg (Real.sqrt_nonneg S)] at hab
  rw [← hS] at tri
  obtain ⟨i1, i2⟩ := abs_le.1 tri
  have huk : u * k ≤ 1 / 1000000 * k := mul_le_mul_of_nonneg_right hu hk.le
  have hbig : sqrt S ≤ 61 / 10 * k := by nlinarith
  have hb2 : 302 / 100 * u * sqrt S ≤ 302 / 100 * u * (61 / 10 * k) := mul_le_mul_of_nonneg_left hbig (by linarith)
  have hfin := abs_add_le (fl (sqrt (fl (fl (X ^ 2) + fl (Y ^ 2)))) - sqrt S) (sqrt S - sqrt (a ^ 2 + b ^ 2))
  rw [sub_add_sub_cancel] at hfin
  have huk0 : 0 ≤ u * k := mul_nonneg h0 hk.le
  nlinarith

variable (hth : |g.thetaI| ≤ 32 / 10)

include hth

theorem parts_err (y x : ℝ) :
    |A.fl (A.fl (A.cos (alphaFF A g y) * A.cos (A.fl (2 * thetaFF A g x))) - A.fl (A.cos (alphaIF A g) * A.cos (A.fl (2 * g.thetaI)))) -
      (cos (g.alphaF y) * cos (2 * g.thetaF x) - cos g.alphaI * cos (2 * g.thetaI))| ≤ 78 * u ∧ |cos (g.alphaF y) * cos (2 * g.thetaF x) - cos g.alphaI * cos (2 * g.thetaI)| ≤ 2 ∧
    |qy_F A g y x - g.qy_ y x| ≤ 78 * u ∧ |g.qy_ y x| ≤ 2 ∧ |qz_F A g y - g.qz_ y| ≤ 30 * u ∧ |g.qz_ y| ≤ 2 := by
  have h0 := hA.base.rel.1
  obtain ⟨i1, _⟩ := alphaI_err hu hA g
  have f1 := alphaF_err hu hA g y
  obtain ⟨t1, t2⟩ := thetaF_err hu hA g hth x
  have t3 := twice_err hu hA t1 t2 (by norm_num)
  have t4 := twice_err hu hA (x := g.thetaI) (y := g.thetaI) (a := 0) (M := 32 / 10) (by simp) hth (by norm_num)
  obtain ⟨si, ci⟩ := sin_err hA.base i1
  obtain ⟨sf, cf⟩ := sin_err hA.base f1
  obtain ⟨st, ct⟩ := sin_err hA.base t3
  obtain ⟨sj, cj⟩ := sin_err hA.base t4
  have p1 := mulfl hu hA.base.rel cf ct (abs_cos_le_one _) (abs_cos_le_one _) (by norm_num) (by norm_num) (by norm_num)
  have p2 := mulfl hu hA.base.rel ci cj (abs_cos_le_one _) (abs_cos_le_one _) (by norm_num) (by norm_num) (by norm_num)
  have p3 := mulfl hu hA.base.rel cf st (abs_cos_le_one _) (abs_sin_le_one _) (by norm_num) (by norm_num) (by norm_num)
  have p4 := mulfl hu hA.base.rel ci sj (abs_cos_le_one _) (abs_sin_le_one _) (by norm_num) (by norm_num) (by norm_num)
  have one : ∀ a b : ℝ, |a| ≤ 1 → |b| ≤ 1 → |a * b| ≤ 1 := fun a b ha hb => by rw [abs_mul]; exact mul_le_one₀ ha (abs_nonneg _) hb
  have m1 := one _ _ (abs_cos_le_one (g.alphaF y)) (abs_cos_le_one (2 * g.thetaF x))
  have m2 := one _ _ (abs_cos_le_one g.alphaI) (abs_cos_le_one (2 * g.thetaI))
  have m3 := one _ _ (abs_cos_le_one (g.alphaF y)) (abs_sin_le_one (2 * g.thetaF x))
  have m4 := one _ _ (abs_cos_le_one g.alphaI) (abs_sin_le_one (2 * g.thetaI))
  have q1 := (combine hu hA.base.rel (k := 1) one_pos (by rw [mul_one]; exact p1) (by rw [mul_one]; exact p2) m1 m2 (by norm_num) (by norm_num)).1
  have q2 := (combine hu hA.base.rel (k := 1) one_pos (by rw [mul_one]; exact p3) (by rw [mul_one]; exact p4) m3 m4 (by norm_num) (by norm_num)).1
  have q3 := (combine hu hA.base.rel (k := 1) one_pos (by rw [mul_one]; exact sf) (by rw [mul_one]; exact si) (abs_sin_le_one _) (abs_sin_le_one _) (by norm_num) (by norm_num)).2
  refine ⟨q1.trans (by nlinarith), (abs_sub _ _).trans (by linarith), q2.trans (by nlinarith), (abs_sub _ _).trans (by linarith), q3.trans (by nlinarith), (abs_add_le _ _).trans ?_⟩
  linarith [abs_sin_le_one (g.alphaF y), abs_sin_le_one g.alphaI]

theorem turned_err (y x : ℝ) :
    |A.fl (A.fl (qz_F A g y * A.sin (tiltF A g)) + A.fl (qy_F A g y x * A.cos (tiltF A g))) - (g.qz_ y * sin g.tilt + g.qy_ y x * cos g.tilt)| ≤ 176 * u ∧
    |A.fl (A.fl (qz_F A g y * A.cos (tiltF A g)) - A.fl (qy_F A g y x * A.sin (tiltF A g))) - (g.qz_ y * cos g.tilt - g.qy_ y x * sin g.tilt)| ≤ 176 * u ∧
    |g.qz_ y * sin g.tilt + g.qy_ y x * cos g.tilt| ≤ 4 ∧ |g.qz_ y * cos g.tilt - g.qy_ y x * sin g.tilt| ≤ 4 := by
  have h0 := hA.base.rel.1
  obtain ⟨_, _, a1, a2, b1, b2⟩ := parts_err hu hA g hth y x
  obtain ⟨ts, tc⟩ := sin_err hA.base (tilt_err hu hA g)
  obtain ⟨p1, m1⟩ := mulM hu hA.base.rel b1 ts b2 (abs_sin_le_one _) (by norm_num) (by norm_num) (by norm_num)
  obtain ⟨p2, m2⟩ := mulM hu hA.base.rel a1 tc a2 (abs_cos_le_one _) (by norm_num) (by norm_num) (by norm_num)
  obtain ⟨p3, m3⟩ := mulM hu hA.base.rel b1 tc b2 (abs_cos_le_one _) (by norm_num) (by norm_num) (by norm_num)
  obtain ⟨p4, m4⟩ := mulM hu hA.base.rel a1 ts a2 (abs_sin_le_one _) (by norm_num) (by norm_num) (by norm_num)
  have q1 := (combine hu hA.base.rel (k := 2) (a := 61 / 2) (b := 109 / 2) two_pos (p1.trans (by nlinarith)) (p2.trans (by nlinarith)) m1 m2 (by norm_num) (by norm_num)).2
  have q2 := (combine hu hA.base.rel (k := 2) (a := 61 / 2) (b := 109 / 2) two_pos (p3.trans (by nlinarith)) (p4.trans (by nlinarith)) m3 m4 (by norm_num) (by norm_num)).1
  exact ⟨q1.trans (by nlinarith), q2.trans (by nlinarith), (abs_add_le _ _).trans (by linarith), (abs_sub _ _).trans (by linarith)⟩

end

/-! ## C258 -/

/-- C258: the angles that gisaxs returns, for every geometry (the out-of-plane angle for an incident angle up to a half turn). -/
theorem C258_angles (u : ℝ) (hu : u ≤ 1 / 1000000) (A : Arith2) (hA : Spec.Accurate2 u A) (g : GisaxsArgs) (y x : ℝ) :
    |tiltF A g - g.tilt| ≤ 13 * u ∧ |alphaIF A g - g.alphaI| ≤ 6 * u ∧ |alphaFF A g y - g.alphaF y| ≤ 19 * u ∧ (|g.thetaI| ≤ π → |thetaFF A g x - g.thetaF x| ≤ 11 * u) :=
  ⟨tilt_err hu hA g, (alphaI_err hu hA g).1, alphaF_err hu hA g y, fun h => (thetaF_err hu hA g (h.trans (by linarith [Real.pi_lt_d2])) x).1⟩

/-- C258: the components of q and the length of the component parallel to the surface, in units of 2 pi / wavelength. -/
theorem C258_q (u : ℝ) (hu : u ≤ 1 / 1000000) (A : Arith2) (hA : Spec.Accurate2 u A) (g : GisaxsArgs) (hl : 0 < g.lam) (hth : |g.thetaI| ≤ π) (y x : ℝ) :
    |qxF A g y x - g.qx y x| ≤ 90 * u * (2 * π / g.lam) ∧ |qyF A g y x - g.qy y x| ≤ 200 * u * (2 * π / g.lam) ∧ |qzF A g y x - g.qz y x| ≤ 200 * u * (2 * π / g.lam) ∧
    |qrF A g y x - g.qr y x| ≤ 310 * u * (2 * π / g.lam) := by
  have hth' : |g.thetaI| ≤ 32 / 10 := hth.trans (by linarith [Real.pi_lt_d2])
  have h0 := hA.base.rel.1
  obtain ⟨k, hk⟩ : ∃ k, k = 2 * π / g.lam := ⟨_, rfl⟩
  have hkp : 0 < k := by rw [hk]; positivity
  have hkl := kl_err hu hA.base g.lam hl
  obtain ⟨p1, p2, _⟩ := parts_err hu hA g hth' y x
  obtain ⟨t1, t2, t3, t4⟩ := turned_err hu hA g hth' y x
  rw [← hk] at hkl ⊢
  have hx : |qxF A g y x - g.qx y x| ≤ 90 * u * k := by
    have := scaleM hu hA.base.rel p1 p2 hkp hkl (by norm_num) (by norm_num)
    rw [show g.qx y x = (cos (g.alphaF y) * cos (2 * g.thetaF x) - cos g.alphaI * cos (2 * g.thetaI)) * k by rw [hk]; rfl]
    unfold qxF
    refine this.trans (le_of_eq (by ring))
  have hy : |qyF A g y x - g.qy y x| ≤ 200 * u * k := by
    have := scaleM hu hA.base.rel t1 t3 hkp hkl (by norm_num) (by norm_num)
    rw [show g.qy y x = (g.qz_ y * sin g.tilt + g.qy_ y x * cos g.tilt) * k by rw [hk]; rfl]
    unfold qyF
    refine this.trans (le_of_eq (by ring))
  have hz : |qzF A g y x - g.qz y x| ≤ 200 * u * k := by
    have := scaleM hu hA.base.rel t2 t4 hkp hkl (by norm_num) (by norm_num)
    rw [show g.qz y x = (g.qz_ y * cos g.tilt - g.qy_ y x * sin g.tilt) * k by rw [hk]; rfl]
    unfold qzF
    refine this.trans (le_of_eq (by ring))
  refine ⟨hx, hy, hz, ?_⟩
  have mx : |g.qx y x| ≤ 2 * k := by
    rw [show g.qx y x = (cos (g.alphaF y) * cos (2 * g.thetaF x) - cos g.alphaI * cos (2 * g.thetaI)) * k by rw [hk]; rfl, abs_mul, abs_of_pos hkp]
    exact mul_le_mul_of_nonneg_right p2 hkp.le
  have my : |g.qy y x| ≤ 4 * k := by
    rw [show g.qy y x = (g.qz_ y * sin g.tilt + g.qy_ y x * cos g.tilt) * k by rw [hk]; rfl, abs_mul, abs_of_pos hkp]
    exact mul_le_mul_of_nonneg_right t3 hkp.le
  exact length_err hu hA.base.rel hkp hx hy mx my

/-- Double arithmetic with correctly rounded library functions is such an arithmetic. -/
theorem double_accurate2 : Spec.Accurate2 (1 / 2 ^ 53) ⟨⟨Fl.roundR, fun x => Fl.roundR (Real.sin x), fun x => Fl.roundR (Real.cos x), fun x => Fl.roundR (arctan x), Fl.roundR π⟩,
    fun y x => Fl.roundR (Geom.arctan2 y x), Fl.roundR (1 / 10 ^ 6)⟩ where
  base := double_accurate
  atan2 y x := (Fl.roundR_rel.2 _).trans (by have := arctan2_le y x; nlinarith)
  micro := by have := Fl.roundR_rel.2 (1 / 10 ^ 6); rwa [abs_of_pos (by norm_num : (0 : ℝ) < 1 / 10 ^ 6)] at this

/-- A detector one metre away, at a wavelength of 1, meets the hypotheses. -/
example : 0 < (⟨2, 3, 4, 5, (10, 20), 1, 1, 0⟩ : GisaxsArgs).lam ∧ |(⟨2, 3, 4, 5, (10, 20), 1, 1, 0⟩ : GisaxsArgs).thetaI| ≤ π := by
  constructor
  · norm_num
  · simp [Real.pi_pos.le]

end Verif.Recip.GisRound
