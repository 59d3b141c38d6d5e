/- C254: rounding errors of process_to_q (skbeam/core/recip.py 166-176, src/ctrans.c 163-299). -/
import Verif.Recip.Props
import Verif.FlReal
import Verif.Order.Bragg

namespace Verif.Recip.Round
open Verif Verif.Recip Real Matrix

/-! ### Model

The arithmetic of one pixel, with a rounding after every operation.  Multiplication by -1.0 is exact in every format and is not rounded.  That the rows hold what this
arithmetic gives for their pixel, on every schedule, does not depend on the arithmetic (C126). -/

/-- The arithmetic of the machine and its libraries; `pi` is `np.pi` and `M_PI`. -/
structure Arith where
  fl : ℝ → ℝ
  sin : ℝ → ℝ
  cos : ℝ → ℝ
  atan : ℝ → ℝ
  pi : ℝ

/-- `setting_angles * np.pi / 180.0`, recip.py:168. -/
noncomputable def rad (A : Arith) (deg : ℝ) : ℝ := A.fl (A.fl (deg * A.pi) / 180)

/-- One value of `calcDeltaGamma`, ctrans.c:203-220. -/
noncomputable def delgam (A : Arith) (cen : ℝ) (n : ℕ) (pos pix dist : ℝ) : ℝ := A.fl (cen - A.atan (A.fl (A.fl ((n : ℝ) - pos) * A.fl (pix / dist))))

/-- `kl`, ctrans.c:236. -/
noncomputable def kl (A : Arith) (lam : ℝ) : ℝ := A.fl (A.fl (2 * A.pi) / lam)

/-- `calcQTheta`, ctrans.c:237-249. -/
noncomputable def qThetaF (A : Arith) (theta mu lam del gam : ℝ) : Fin 3 → ℝ :=
  ![A.fl (A.fl (-A.sin gam * kl A lam) - A.fl (A.sin mu * kl A lam)),
    A.fl (A.fl (A.fl (A.cos (A.fl (del - theta)) * A.cos gam) * kl A lam) - A.fl (A.fl (A.cos theta * A.cos mu) * kl A lam)),
    A.fl (A.fl (A.fl (A.sin (A.fl (del - theta)) * A.cos gam) * kl A lam) + A.fl (A.fl (A.sin theta * A.cos mu) * kl A lam))]

/-- The matrix of `calcQPhiFromQTheta`, ctrans.c:258-266. -/
noncomputable def phiF (A : Arith) (chi phi : ℝ) : Fin 3 → Fin 3 → ℝ :=
  ![![A.cos chi, 0, -A.sin chi],
    ![A.fl (A.sin phi * A.sin chi), A.cos phi, A.fl (A.sin phi * A.cos chi)],
    ![A.fl (A.cos phi * A.sin chi), -A.sin phi, A.fl (A.cos phi * A.cos chi)]]

/-- `matmulti` for one pixel, ctrans.c:278-299. -/
def matF (fl : ℝ → ℝ) (m : Fin 3 → Fin 3 → ℝ) (v : Fin 3 → ℝ) (k : Fin 3) : ℝ :=
  fl (fl (fl (0 + fl (m k 0 * v 0)) + fl (m k 1 * v 1)) + fl (m k 2 * v 2))

/-- The row of pixel (j, i) of an image taken at the angles `r` (degrees); ctrans.c:189-197.  `inv` is what `np.linalg.inv(ub)` computed. -/
noncomputable def pixelF (A : Arith) (c : Ccd) (lam : ℝ) (inv : Fin 3 → Fin 3 → ℝ) (mode : ℕ) (r : List ℝ) (j i : ℕ) : Fin 3 → ℝ :=
  let qt := qThetaF A (rad A (r.getD 1 0)) (rad A (r.getD 4 0)) lam (delgam A (rad A (r.getD 0 0)) j c.yCen c.yPix c.dist) (delgam A (rad A (r.getD 5 0)) i c.xCen c.xPix c.dist)
  let qp := if mode > 1 then matF A.fl (phiF A (rad A (r.getD 2 0)) (rad A (r.getD 3 0))) qt else qt
  if mode = 4 then matF A.fl (fun i => ![-inv i 2, inv i 1, inv i 0]) qp else qp

/-! ### Specification -/

/-- What is assumed of the arithmetic: a relative error of at most u for the basic operations and pi, an absolute error of at most u for sine and cosine, 2u for the arc
tangent. -/
structure Spec.Accurate (u : ℝ) (A : Arith) : Prop where
  rel : Fl.Spec.RelR u A.fl
  sin : ∀ x, |A.sin x - Real.sin x| ≤ u
  cos : ∀ x, |A.cos x - Real.cos x| ≤ u
  atan : ∀ x, |A.atan x - arctan x| ≤ 2 * u
  pi : |A.pi - π| ≤ u * π

/-! ### Errors of the parts -/

theorem arctan_close (t d : ℝ) (hd : |d| ≤ 1 / 2) : |arctan (t * (1 + d)) - arctan t| ≤ |d| := by
  have key : ∀ x ∈ segment ℝ t (t * (1 + d)), ‖deriv arctan x‖ ≤ 1 / (1 + t ^ 2 / 4) := by
    intro x hx
    rw [segment_eq_image'] at hx
    obtain ⟨s, ⟨s0, s1⟩, rfl⟩ := hx
    rw [Real.deriv_arctan, Real.norm_eq_abs, abs_of_pos (by positivity)]
    apply one_div_le_one_div_of_le (by positivity)
    obtain ⟨d1, d2⟩ := abs_le.1 hd
    have e : (t + s • (t * (1 + d) - t)) ^ 2 = t ^ 2 * (1 + s * d) ^ 2 := by simp only [smul_eq_mul]; ring
    rw [e]
    have h1 : 1 / 2 ≤ 1 + s * d := by nlinarith
    have h2 : 1 / 4 ≤ (1 + s * d) ^ 2 := by nlinarith
    nlinarith [sq_nonneg t]
  have := (convex_segment t (t * (1 + d))).norm_image_sub_le_of_norm_deriv_le (fun x _ => Real.differentiable_arctan x) key (left_mem_segment ℝ _ _) (right_mem_segment ℝ _ _)
  rw [Real.norm_eq_abs, Real.norm_eq_abs, show t * (1 + d) - t = t * d by ring, abs_mul] at this
  refine this.trans ?_
  have h3 : |t| ≤ 1 + t ^ 2 / 4 := by nlinarith [sq_abs t, sq_nonneg (|t| - 2)]
  rw [← mul_assoc, one_div, inv_mul_eq_div]
  have : |t| / (1 + t ^ 2 / 4) ≤ 1 := (div_le_one (by positivity)).2 h3
  nlinarith [abs_nonneg d]

section
variable {u : ℝ} (hu : u ≤ 1 / 1000000)

theorem flerr {fl : ℝ → ℝ} (h : Fl.Spec.RelR u fl) {x y e M : ℝ} (hx : |x - y| ≤ e) (hy : |y| ≤ M) : |fl x - y| ≤ e + u * (M + e) := by
  have h1 := h.2 x
  have h2 : |x| ≤ M + e := by
    have := abs_add_le (x - y) y
    rw [sub_add_cancel] at this
    linarith
  have h3 := abs_add_le (fl x - x) (x - y)
  rw [sub_add_sub_cancel] at h3
  nlinarith [h.1, mul_le_mul_of_nonneg_left h2 h.1]

theorem prod_err {x y x' y' e f M N : ℝ} (hx : |x - x'| ≤ e) (hy : |y - y'| ≤ f) (hM : |x'| ≤ M) (hN : |y'| ≤ N) : |x * y - x' * y'| ≤ e * N + M * f + e * f := by
  have e1 : x * y - x' * y' = (x - x') * y' + x' * (y - y') + (x - x') * (y - y') := by ring
  rw [e1]
  have h1 := abs_add_le ((x - x') * y' + x' * (y - y')) ((x - x') * (y - y'))
  have h2 := abs_add_le ((x - x') * y') (x' * (y - y'))
  rw [abs_mul] at h1
  rw [abs_mul, abs_mul] at h2
  have he := (abs_nonneg _).trans hx
  have hf := (abs_nonneg _).trans hy
  have hM0 := (abs_nonneg _).trans hM
  have a1 := mul_le_mul hx hN (abs_nonneg _) he
  have a2 := mul_le_mul hM hy (abs_nonneg _) hM0
  have a3 := mul_le_mul hx hy (abs_nonneg _) he
  linarith

include hu

theorem three_u (h0 : 0 ≤ u) : 3 * u + 3 * u ^ 2 + u ^ 3 ≤ 301 / 100 * u := by
  have h2 : u * u ≤ 1 / 1000000 * u := mul_le_mul_of_nonneg_right hu h0
  have h3 : u * u * u ≤ 1 / 1000000 * u * u := mul_le_mul_of_nonneg_right h2 h0
  nlinarith

theorem mulfl {fl : ℝ → ℝ} (h : Fl.Spec.RelR u fl) {x y x' y' a b : ℝ} (hx : |x - x'| ≤ a * u) (hy : |y - y'| ≤ b * u) (hM : |x'| ≤ 1) (hN : |y'| ≤ 1)
    (ha : 0 ≤ a) (ha2 : a ≤ 200) (hb2 : b ≤ 200) : |fl (x * y) - x' * y'| ≤ (a + b + 2) * u := by
  have h0 := h.1
  have h1 := prod_err hx hy hM hN
  have h2 : |x' * y'| ≤ 1 := by rw [abs_mul]; exact mul_le_one₀ hM (abs_nonneg _) hN
  have h3 := flerr h h1 h2
  have hab : a * b ≤ 40000 := by nlinarith [mul_le_mul_of_nonneg_left hb2 ha]
  have hau : a * u ≤ 200 * u := mul_le_mul_of_nonneg_right ha2 h0
  have hbu : b * u ≤ 200 * u := mul_le_mul_of_nonneg_right hb2 h0
  have h4 : a * u * (b * u) ≤ 40000 * u * u := by nlinarith [mul_le_mul_of_nonneg_right hab (mul_nonneg h0 h0)]
  have h5 : u * u ≤ 1 / 1000000 * u := mul_le_mul_of_nonneg_right hu h0
  have h6 : a * u * 1 + 1 * (b * u) + a * u * (b * u) ≤ 1 / 1000 := by nlinarith
  have h7 := mul_le_mul_of_nonneg_left h6 h0
  nlinarith

theorem scale {fl : ℝ → ℝ} (h : Fl.Spec.RelR u fl) {x x' kF k a : ℝ} (hx : |x - x'| ≤ a * u) (hM : |x'| ≤ 1) (hk : 0 < k) (hkF : |kF - k| ≤ 4 * u * k) (ha2 : a ≤ 200) :
    |fl (x * kF) - x' * k| ≤ (a + 6) * u * k := by
  have h0 := h.1
  have h1 := prod_err hx hkF hM (abs_of_pos hk).le
  have h2 : |x' * k| ≤ k := by rw [abs_mul, abs_of_pos hk]; nlinarith
  have h3 := flerr h h1 h2
  have huk : 0 ≤ u * k := mul_nonneg h0 hk.le
  have h5 : u * (u * k) ≤ 1 / 1000000 * (u * k) := mul_le_mul_of_nonneg_right hu huk
  have h4 : a * (u * (u * k)) ≤ 200 * (u * (u * k)) := mul_le_mul_of_nonneg_right ha2 (mul_nonneg h0 huk)
  have h6 : a * u * k + 1 * (4 * u * k) + a * u * (4 * u * k) ≤ k / 1000 := by
    have : a * (u * k) ≤ 200 * (u * k) := mul_le_mul_of_nonneg_right ha2 huk
    have : u * k ≤ 1 / 1000000 * k := mul_le_mul_of_nonneg_right hu hk.le
    nlinarith
  have h7 := mul_le_mul_of_nonneg_left h6 h0
  nlinarith

theorem combine {fl : ℝ → ℝ} (h : Fl.Spec.RelR u fl) {x y x' y' k a b : ℝ} (hk : 0 < k) (hx : |x - x'| ≤ a * u * k) (hy : |y - y'| ≤ b * u * k) (hM : |x'| ≤ k) (hN : |y'| ≤ k)
    (ha2 : a ≤ 200) (hb2 : b ≤ 200) :
    |fl (x - y) - (x' - y')| ≤ (a + b + 3) * u * k ∧ |fl (x + y) - (x' + y')| ≤ (a + b + 3) * u * k := by
  have h0 := h.1
  have huk : 0 ≤ u * k := mul_nonneg h0 hk.le
  have hu2 : u * k ≤ 1 / 1000000 * k := mul_le_mul_of_nonneg_right hu hk.le
  have h6 : (a + b) * u * k ≤ k / 1000 := by
    have : (a + b) * (u * k) ≤ 400 * (u * k) := mul_le_mul_of_nonneg_right (by linarith) huk
    nlinarith
  have h7 := mul_le_mul_of_nonneg_left h6 h0
  obtain ⟨x1, x2⟩ := abs_le.1 hx
  obtain ⟨y1, y2⟩ := abs_le.1 hy
  obtain ⟨m1, m2⟩ := abs_le.1 hM
  obtain ⟨n1, n2⟩ := abs_le.1 hN
  constructor
  · have := flerr h (x := x - y) (y := x' - y') (e := (a + b) * u * k) (M := 2 * k) (abs_le.2 ⟨by linarith, by linarith⟩) (abs_le.2 ⟨by linarith, by linarith⟩)
    nlinarith
  · have := flerr h (x := x + y) (y := x' + y') (e := (a + b) * u * k) (M := 2 * k) (abs_le.2 ⟨by linarith, by linarith⟩) (abs_le.2 ⟨by linarith, by linarith⟩)
    nlinarith

/-- Three products and their sum. -/
theorem matF_err {fl : ℝ → ℝ} (h : Fl.Spec.RelR u fl) (m m' : Fin 3 → Fin 3 → ℝ) (v v' : Fin 3 → ℝ) (e N f V : ℝ) (hm : ∀ k j, |m k j - m' k j| ≤ e) (hN : ∀ k j, |m' k j| ≤ N)
    (hv : ∀ j, |v j - v' j| ≤ f) (hV : ∀ j, |v' j| ≤ V) (k : Fin 3) : |matF fl m v k - ∑ j, m' k j * v' j| ≤ 301 / 100 * (e * V + N * f + e * f) + 10 * u * (N * V) := by
  have h0 := h.1
  obtain ⟨g, hg⟩ : ∃ g, g = e * V + N * f + e * f := ⟨_, rfl⟩
  obtain ⟨W, hW⟩ : ∃ W, W = N * V := ⟨_, rfl⟩
  have hp : ∀ j, |m k j * v j - m' k j * v' j| ≤ g := fun j => by rw [hg]; exact prod_err (hm k j) (hv j) (hN k j) (hV j)
  have hpW : ∀ j, |m' k j * v' j| ≤ W := fun j => by
    rw [abs_mul, hW]
    exact mul_le_mul (hN k j) (hV j) (abs_nonneg _) ((abs_nonneg _).trans (hN k j))
  have hg0 : 0 ≤ g := (abs_nonneg _).trans (hp 0)
  have hW0 : 0 ≤ W := (abs_nonneg _).trans (hpW 0)
  have hf : ∀ j, |fl (m k j * v j) - m' k j * v' j| ≤ g + u * (W + g) := fun j => flerr h (hp j) (hpW j)
  rw [← hg, ← hW]
  unfold matF
  rw [Fin.sum_univ_three]
  obtain ⟨a, ha⟩ : ∃ a, a = g + u * (W + g) := ⟨_, rfl⟩
  have hug : u * g ≤ 1 / 1000000 * g := mul_le_mul_of_nonneg_right hu hg0
  have huW : u * W ≤ 1 / 1000000 * W := mul_le_mul_of_nonneg_right hu hW0
  have huW0 : 0 ≤ u * W := mul_nonneg h0 hW0
  have hug0 : 0 ≤ u * g := mul_nonneg h0 hg0
  have b1 : a ≤ 1000001 / 1000000 * g + u * W := by rw [ha]; linarith
  have t0 := hf 0
  have t1 := hf 1
  have t2 := hf 2
  rw [← ha] at t0 t1 t2
  have hmul : ∀ z, z ≤ 10 * g + 10 * W → u * z ≤ 10 * (u * g) + 10 * (u * W) := fun z hz => by
    have := mul_le_mul_of_nonneg_left hz h0
    linarith
  have s1 := flerr h (x := 0 + fl (m k 0 * v 0)) (y := m' k 0 * v' 0) (e := a) (M := W) (by rw [zero_add]; exact t0) (hpW 0)
  obtain ⟨c1, hc1⟩ : ∃ c, c = a + u * (W + a) := ⟨_, rfl⟩
  rw [← hc1] at s1
  have d1 : c1 ≤ 1001 / 1000 * g + 21 / 10 * (u * W) := by
    have : u * (W + a) ≤ u * (W + (1000001 / 1000000 * g + u * W)) := mul_le_mul_of_nonneg_left (by linarith) h0
    have h3 : u * (u * W) ≤ 1 / 1000000 * (u * W) := mul_le_mul_of_nonneg_right hu huW0
    rw [hc1]
    nlinarith
  have s2 := flerr h (x := fl (0 + fl (m k 0 * v 0)) + fl (m k 1 * v 1)) (y := m' k 0 * v' 0 + m' k 1 * v' 1) (e := c1 + a) (M := 2 * W)
    (by have := abs_add_le (fl (0 + fl (m k 0 * v 0)) - m' k 0 * v' 0) (fl (m k 1 * v 1) - m' k 1 * v' 1)
        rw [← add_sub_add_comm] at this
        linarith)
    (by have := abs_add_le (m' k 0 * v' 0) (m' k 1 * v' 1)
        linarith [hpW 0, hpW 1])
  obtain ⟨c2, hc2⟩ : ∃ c, c = c1 + a + u * (2 * W + (c1 + a)) := ⟨_, rfl⟩
  rw [← hc2] at s2
  have h3 : u * (u * W) ≤ 1 / 1000000 * (u * W) := mul_le_mul_of_nonneg_right hu huW0
  have d2 : c2 ≤ 2003 / 1000 * g + 52 / 10 * (u * W) := by
    have : u * (2 * W + (c1 + a)) ≤ u * (2 * W + (3 * g + 4 * (u * W))) := mul_le_mul_of_nonneg_left (by linarith) h0
    rw [hc2]
    nlinarith
  have s3 := flerr h (x := fl (fl (0 + fl (m k 0 * v 0)) + fl (m k 1 * v 1)) + fl (m k 2 * v 2)) (y := m' k 0 * v' 0 + m' k 1 * v' 1 + m' k 2 * v' 2) (e := c2 + a) (M := 3 * W)
    (by have := abs_add_le (fl (fl (0 + fl (m k 0 * v 0)) + fl (m k 1 * v 1)) - (m' k 0 * v' 0 + m' k 1 * v' 1)) (fl (m k 2 * v 2) - m' k 2 * v' 2)
        rw [← add_sub_add_comm] at this
        linarith)
    (by have := abs_add_le (m' k 0 * v' 0 + m' k 1 * v' 1) (m' k 2 * v' 2)
        have := abs_add_le (m' k 0 * v' 0) (m' k 1 * v' 1)
        linarith [hpW 0, hpW 1, hpW 2])
  refine s3.trans ?_
  have : u * (3 * W + (c2 + a)) ≤ u * (3 * W + (4 * g + 7 * (u * W))) := mul_le_mul_of_nonneg_left (by linarith) h0
  nlinarith

variable {A : Arith} (hA : Spec.Accurate u A)
include hA

theorem rad_err (a : ℝ) (ha : |a| ≤ 360) : |rad A a - a * π / 180| ≤ 19 * u ∧ |a * π / 180| ≤ 63 / 10 := by
  have h0 := hA.rel.1
  have hpi := Real.pi_lt_d4
  have hb : |a * π / 180| ≤ 63 / 10 := by
    rw [abs_div, abs_mul, abs_of_pos Real.pi_pos, abs_of_pos (by norm_num : (0 : ℝ) < 180), div_le_iff₀ (by norm_num)]
    have := mul_le_mul ha hpi.le Real.pi_pos.le (by norm_num)
    linarith
  refine ⟨?_, hb⟩
  have r1 : Order.Bragg.R u A.pi π := Order.Bragg.R.of_abs h0 (by rw [abs_of_pos Real.pi_pos]; exact hA.pi)
  have r2 := Order.Bragg.R.rnd hA.rel ((Order.Bragg.R.refl (x := a)).mul r1)
  have r3 := Order.Bragg.R.rnd hA.rel (r2.mul (Order.Bragg.R.refl (x := (180 : ℝ)⁻¹)))
  rw [← div_eq_mul_inv, ← div_eq_mul_inv] at r3
  have := (r3.mono ((le_of_eq (by ring)).trans (three_u hu h0))).abs
  unfold rad
  refine this.trans ?_
  nlinarith

theorem kl_err (lam : ℝ) (hl : 0 < lam) : |kl A lam - 2 * π / lam| ≤ 4 * u * (2 * π / lam) := by
  have h0 := hA.rel.1
  have hk : 0 < 2 * π / lam := by positivity
  have r1 : Order.Bragg.R u A.pi π := Order.Bragg.R.of_abs h0 (by rw [abs_of_pos Real.pi_pos]; exact hA.pi)
  have r2 := Order.Bragg.R.rnd hA.rel ((Order.Bragg.R.refl (x := (2 : ℝ))).mul r1)
  have r3 := Order.Bragg.R.rnd hA.rel (r2.mul (Order.Bragg.R.refl (x := lam⁻¹)))
  rw [← div_eq_mul_inv, ← div_eq_mul_inv] at r3
  have := (r3.mono (((le_of_eq (by ring)).trans (three_u hu h0)).trans (show _ ≤ 4 * u by linarith))).abs
  rwa [abs_of_pos hk] at this

theorem delgam_err (cenF cen : ℝ) (hc : |cenF - cen| ≤ 19 * u) (hb : |cen| ≤ 63 / 10) (n : ℕ) (pos pix dist : ℝ) :
    |delgam A cenF n pos pix dist - (cen - arctan (((n : ℝ) - pos) * pix / dist))| ≤ 33 * u ∧ |cen - arctan (((n : ℝ) - pos) * pix / dist)| ≤ 79 / 10 := by
  have h0 := hA.rel.1
  have r1 := Order.Bragg.R.fl hA.rel ((n : ℝ) - pos)
  have r2 := Order.Bragg.R.fl hA.rel (pix / dist)
  have r3 := (Order.Bragg.R.rnd hA.rel (r1.mul r2)).mono ((le_of_eq (by ring)).trans (three_u hu h0))
  rw [← mul_div_assoc] at r3
  obtain ⟨d, hd, hd2⟩ := r3
  have hat := arctan_close (((n : ℝ) - pos) * pix / dist) d (by linarith)
  rw [← hd2] at hat
  have hat2 := hA.atan (A.fl (A.fl ((n : ℝ) - pos) * A.fl (pix / dist)))
  have hsm : |arctan (((n : ℝ) - pos) * pix / dist)| ≤ 158 / 100 := by
    have := Real.pi_lt_d4
    rw [abs_le]
    have := Real.neg_pi_div_two_lt_arctan (((n : ℝ) - pos) * pix / dist)
    have := Real.arctan_lt_pi_div_two (((n : ℝ) - pos) * pix / dist)
    constructor <;> linarith
  obtain ⟨a1, a2⟩ := abs_le.1 hat
  obtain ⟨b1, b2⟩ := abs_le.1 hat2
  obtain ⟨c1, c2⟩ := abs_le.1 hc
  obtain ⟨e1, e2⟩ := abs_le.1 hb
  obtain ⟨f1, f2⟩ := abs_le.1 hsm
  have hM : |cen - arctan (((n : ℝ) - pos) * pix / dist)| ≤ 79 / 10 := abs_le.2 ⟨by linarith, by linarith⟩
  refine ⟨?_, hM⟩
  have := flerr hA.rel (x := cenF - A.atan (A.fl (A.fl ((n : ℝ) - pos) * A.fl (pix / dist)))) (y := cen - arctan (((n : ℝ) - pos) * pix / dist)) (e := 2402 / 100 * u)
    (abs_le.2 ⟨by linarith, by linarith⟩) hM
  unfold delgam
  refine this.trans ?_
  nlinarith

omit hu in
theorem sin_err {x y a : ℝ} (h : |x - y| ≤ a * u) : |A.sin x - Real.sin y| ≤ (a + 1) * u ∧ |A.cos x - Real.cos y| ≤ (a + 1) * u := by
  have h1 := hA.sin x
  have h2 := hA.cos x
  have h3 : |Real.sin x - Real.sin y| ≤ |x - y| := Real.abs_sin_sub_sin_le x y
  have h4 : |Real.cos x - Real.cos y| ≤ |x - y| := Real.abs_cos_sub_cos_le x y
  constructor
  · have := abs_add_le (A.sin x - Real.sin x) (Real.sin x - Real.sin y)
    rw [sub_add_sub_cancel] at this
    linarith
  · have := abs_add_le (A.cos x - Real.cos x) (Real.cos x - Real.cos y)
    rw [sub_add_sub_cancel] at this
    linarith

/-- q in the theta frame. -/
theorem qTheta_err (theta theta' mu mu' lam del del' gam gam' : ℝ) (hl : 0 < lam) (ht : |theta - theta'| ≤ 19 * u) (ht' : |theta'| ≤ 63 / 10) (hm : |mu - mu'| ≤ 19 * u)
    (hd : |del - del'| ≤ 33 * u) (hd' : |del'| ≤ 79 / 10) (hg : |gam - gam'| ≤ 33 * u) (k : Fin 3) :
    |qThetaF A theta mu lam del gam k - qThetaFun theta' mu' lam k del' gam'| ≤ 170 * u * (2 * π / lam) ∧ |qThetaFun theta' mu' lam k del' gam'| ≤ 2 * (2 * π / lam) := by
  have h0 := hA.rel.1
  have hk : 0 < 2 * π / lam := by positivity
  have hkl := kl_err hu hA lam hl
  obtain ⟨K, hK⟩ : ∃ K, K = 2 * π / lam := ⟨_, rfl⟩
  obtain ⟨KF, hKF⟩ : ∃ K, K = kl A lam := ⟨_, rfl⟩
  rw [← hK] at hk hkl
  rw [← hKF] at hkl
  have hdt : |A.fl (del - theta) - (del' - theta')| ≤ 67 * u := by
    obtain ⟨d1, d2⟩ := abs_le.1 hd
    obtain ⟨d3, d4⟩ := abs_le.1 hd'
    obtain ⟨t1, t2⟩ := abs_le.1 ht
    obtain ⟨t3, t4⟩ := abs_le.1 ht'
    have := flerr hA.rel (x := del - theta) (y := del' - theta') (e := 52 * u) (M := 142 / 10) (abs_le.2 ⟨by linarith, by linarith⟩) (abs_le.2 ⟨by linarith, by linarith⟩)
    refine this.trans ?_
    nlinarith
  have bs := Real.abs_sin_le_one
  have bc := Real.abs_cos_le_one
  have prod1 : ∀ x y : ℝ, |x| ≤ 1 → |y| ≤ 1 → |x * y| ≤ 1 := fun x y hx hy => by rw [abs_mul]; exact mul_le_one₀ hx (abs_nonneg _) hy
  have prodK : ∀ x : ℝ, |x| ≤ 1 → |x * K| ≤ K := fun x hx => by rw [abs_mul, abs_of_pos hk]; nlinarith
  have huK : 0 ≤ u * K := mul_nonneg h0 hk.le
  have sub2 : ∀ x y : ℝ, |x| ≤ K → |y| ≤ K → |x - y| ≤ 2 * K ∧ |x + y| ≤ 2 * K := fun x y hx hy => by
    obtain ⟨x1, x2⟩ := abs_le.1 hx
    obtain ⟨y1, y2⟩ := abs_le.1 hy
    exact ⟨abs_le.2 ⟨by linarith, by linarith⟩, abs_le.2 ⟨by linarith, by linarith⟩⟩
  obtain ⟨sdt, cdt⟩ := sin_err hA hdt
  obtain ⟨sg, cg⟩ := sin_err hA hg
  obtain ⟨st, ct⟩ := sin_err hA ht
  obtain ⟨sm, cm⟩ := sin_err hA hm
  fin_cases k
  · simp only [qThetaF, qThetaFun, Fin.zero_eta, Matrix.cons_val_zero]
    rw [← hK, ← hKF]
    have e1 := scale hu hA.rel (x := -A.sin gam) (x' := -1 * Real.sin gam') (a := 34) (by rw [show -A.sin gam - -1 * Real.sin gam' = -(A.sin gam - Real.sin gam') by ring, abs_neg]; linarith)
      (by rw [neg_one_mul, abs_neg]; exact bs _) hk hkl (by norm_num)
    have e2 := scale hu hA.rel (x := A.sin mu) (x' := Real.sin mu') (a := 20) (by linarith) (bs _) hk hkl (by norm_num)
    have b1 := prodK (-1 * Real.sin gam') (by rw [neg_one_mul, abs_neg]; exact bs _)
    have b2 := prodK (Real.sin mu') (bs _)
    refine ⟨(combine hu hA.rel hk e1 e2 b1 b2 (by norm_num) (by norm_num)).1.trans ?_, (sub2 _ _ b1 b2).1⟩
    nlinarith
  · simp only [qThetaF, qThetaFun, Fin.mk_one, Matrix.cons_val_one, Matrix.cons_val_zero]
    rw [← hK, ← hKF]
    have p1 := mulfl hu hA.rel (a := 68) (b := 34) (by linarith : |A.cos (A.fl (del - theta)) - Real.cos (del' - theta')| ≤ 68 * u) (by linarith : |A.cos gam - Real.cos gam'| ≤ 34 * u)
      (bc _) (bc _) (by norm_num) (by norm_num) (by norm_num)
    have p2 := mulfl hu hA.rel (a := 20) (b := 20) (by linarith : |A.cos theta - Real.cos theta'| ≤ 20 * u) (by linarith : |A.cos mu - Real.cos mu'| ≤ 20 * u)
      (bc _) (bc _) (by norm_num) (by norm_num) (by norm_num)
    have e1 := scale hu hA.rel p1 (prod1 _ _ (bc _) (bc _)) hk hkl (by norm_num)
    have e2 := scale hu hA.rel p2 (prod1 _ _ (bc _) (bc _)) hk hkl (by norm_num)
    have b1 := prodK _ (prod1 _ _ (bc (del' - theta')) (bc gam'))
    have b2 := prodK _ (prod1 _ _ (bc theta') (bc mu'))
    refine ⟨(combine hu hA.rel hk e1 e2 b1 b2 (by norm_num) (by norm_num)).1.trans ?_, (sub2 _ _ b1 b2).1⟩
    nlinarith
  · simp only [qThetaF, qThetaFun, Fin.reduceFinMk, Matrix.cons_val]
    rw [← hK, ← hKF]
    have p1 := mulfl hu hA.rel (a := 68) (b := 34) (by linarith : |A.sin (A.fl (del - theta)) - Real.sin (del' - theta')| ≤ 68 * u) (by linarith : |A.cos gam - Real.cos gam'| ≤ 34 * u)
      (bs _) (bc _) (by norm_num) (by norm_num) (by norm_num)
    have p2 := mulfl hu hA.rel (a := 20) (b := 20) (by linarith : |A.sin theta - Real.sin theta'| ≤ 20 * u) (by linarith : |A.cos mu - Real.cos mu'| ≤ 20 * u)
      (bs _) (bc _) (by norm_num) (by norm_num) (by norm_num)
    have e1 := scale hu hA.rel p1 (prod1 _ _ (bs _) (bc _)) hk hkl (by norm_num)
    have e2 := scale hu hA.rel p2 (prod1 _ _ (bs _) (bc _)) hk hkl (by norm_num)
    have b1 := prodK _ (prod1 _ _ (bs (del' - theta')) (bc gam'))
    have b2 := prodK _ (prod1 _ _ (bs theta') (bc mu'))
    refine ⟨(combine hu hA.rel hk e1 e2 b1 b2 (by norm_num) (by norm_num)).2.trans ?_, (sub2 _ _ b1 b2).2⟩
    nlinarith

/-- The matrix of the phi frame. -/
theorem phi_err (chi chi' phi phi' : ℝ) (hc : |chi - chi'| ≤ 19 * u) (hp : |phi - phi'| ≤ 19 * u) (k j : Fin 3) :
    |phiF A chi phi k j - phiMatrix chi' phi' k j| ≤ 42 * u ∧ |phiMatrix chi' phi' k j| ≤ 1 := by
  have h0 := hA.rel.1
  have bs := Real.abs_sin_le_one
  have bc := Real.abs_cos_le_one
  have prod1 : ∀ x y : ℝ, |x| ≤ 1 → |y| ≤ 1 → |x * y| ≤ 1 := fun x y hx hy => by rw [abs_mul]; exact mul_le_one₀ hx (abs_nonneg _) hy
  obtain ⟨sc, cc⟩ := sin_err hA hc
  obtain ⟨sp, cp⟩ := sin_err hA hp
  norm_num at sc cc sp cp
  have pr : ∀ x x' y y' : ℝ, |x - x'| ≤ 20 * u → |y - y'| ≤ 20 * u → |x'| ≤ 1 → |y'| ≤ 1 → |A.fl (x * y) - x' * y'| ≤ 42 * u := fun x x' y y' h1 h2 h3 h4 =>
    (mulfl hu hA.rel h1 h2 h3 h4 (by norm_num) (by norm_num) (by norm_num)).trans (by linarith)
  have ng : ∀ x y : ℝ, |-x - -1 * y| = |x - y| := fun x y => by rw [show -x - -1 * y = -(x - y) by ring, abs_neg]
  have ng2 : ∀ y : ℝ, |-1 * y| = |y| := fun y => by rw [neg_one_mul, abs_neg]
  fin_cases k <;> fin_cases j
  · exact ⟨show |A.cos chi - Real.cos chi'| ≤ 42 * u by linarith, show |Real.cos chi'| ≤ 1 from bc _⟩
  · exact ⟨show |(0 : ℝ) - 0| ≤ 42 * u by rw [sub_zero, abs_zero]; linarith, show |(0 : ℝ)| ≤ 1 by rw [abs_zero]; norm_num⟩
  · exact ⟨show |-A.sin chi - -1 * Real.sin chi'| ≤ 42 * u by rw [ng]; linarith, show |-1 * Real.sin chi'| ≤ 1 by rw [ng2]; exact bs _⟩
  · exact ⟨show |A.fl (A.sin phi * A.sin chi) - Real.sin phi' * Real.sin chi'| ≤ 42 * u from pr _ _ _ _ sp sc (bs _) (bs _),
      show |Real.sin phi' * Real.sin chi'| ≤ 1 from prod1 _ _ (bs _) (bs _)⟩
  · exact ⟨show |A.cos phi - Real.cos phi'| ≤ 42 * u by linarith, show |Real.cos phi'| ≤ 1 from bc _⟩
  · exact ⟨show |A.fl (A.sin phi * A.cos chi) - Real.sin phi' * Real.cos chi'| ≤ 42 * u from pr _ _ _ _ sp cc (bs _) (bc _),
      show |Real.sin phi' * Real.cos chi'| ≤ 1 from prod1 _ _ (bs _) (bc _)⟩
  · exact ⟨show |A.fl (A.cos phi * A.sin chi) - Real.cos phi' * Real.sin chi'| ≤ 42 * u from pr _ _ _ _ cp sc (bc _) (bs _),
      show |Real.cos phi' * Real.sin chi'| ≤ 1 from prod1 _ _ (bc _) (bs _)⟩
  · exact ⟨show |-A.sin phi - -1 * Real.sin phi'| ≤ 42 * u by rw [ng]; linarith, show |-1 * Real.sin phi'| ≤ 1 by rw [ng2]; exact bs _⟩
  · exact ⟨show |A.fl (A.cos phi * A.cos chi) - Real.cos phi' * Real.cos chi'| ≤ 42 * u from pr _ _ _ _ cp cc (bc _) (bc _),
      show |Real.cos phi' * Real.cos chi'| ≤ 1 from prod1 _ _ (bc _) (bc _)⟩

/-- The row of a pixel in the theta and phi frames. -/
theorem frames (c : Ccd) (lam : ℝ) (hl : 0 < lam) (r : List ℝ) (hr : ∀ k, |r.getD k 0| ≤ 360) (j i : ℕ) (k : Fin 3) (inv : Fin 3 → Fin 3 → ℝ) (a : Recip.Spec.Angles)
    (ha : a = Recip.Spec.Angles.ofDegrees r) :
    |pixelF A c lam inv 1 r j i k - Recip.Spec.qTheta lam a (Recip.Spec.delta c a j) (Recip.Spec.gamma c a i) k| ≤ 170 * u * (2 * π / lam) ∧
    (∀ mode, mode = 2 ∨ mode = 3 → |pixelF A c lam inv mode r j i k - Recip.Spec.qPhi lam a (Recip.Spec.delta c a j) (Recip.Spec.gamma c a i) k| ≤ 800 * u * (2 * π / lam)) ∧
    (∀ (inv' : Fin 3 → Fin 3 → ℝ) (e N : ℝ), (∀ p q, |inv p q - inv' p q| ≤ e) → (∀ p q, |inv' p q| ≤ N) → 
      |pixelF A c lam inv 4 r j i k - ∑ l, permuteUB inv' k l * Recip.Spec.qPhi lam a (Recip.Spec.delta c a j) (Recip.Spec.gamma c a i) l| ≤ (19 * e + 2500 * u * N) * (2 * π / lam)) := by
  have h0 := hA.rel.1
  have hK : 0 < 2 * π / lam := by positivity
  have e0 := rad_err hu hA _ (hr 0)
  have e1 := rad_err hu hA _ (hr 1)
  have e2 := rad_err hu hA _ (hr 2)
  have e3 := rad_err hu hA _ (hr 3)
  have e4 := rad_err hu hA _ (hr 4)
  have e5 := rad_err hu hA _ (hr 5)
  have f0 := delgam_err hu hA _ _ e0.1 e0.2 j c.yCen c.yPix c.dist
  have f5 := delgam_err hu hA _ _ e5.1 e5.2 i c.xCen c.xPix c.dist
  have hq := qTheta_err hu hA _ _ _ _ lam _ _ _ _ hl e1.1 e1.2 e4.1 f0.1 f0.2 f5.1
  obtain ⟨qtF, hqtF⟩ : ∃ q, q = qThetaF A (rad A (r.getD 1 0)) (rad A (r.getD 4 0)) lam (delgam A (rad A (r.getD 0 0)) j c.yCen c.yPix c.dist)
    (delgam A (rad A (r.getD 5 0)) i c.xCen c.xPix c.dist) := ⟨_, rfl⟩
  obtain ⟨qt, hqt⟩ : ∃ q : Fin 3 → ℝ, q = fun k => qThetaFun (r.getD 1 0 * π / 180) (r.getD 4 0 * π / 180) lam k (r.getD 0 0 * π / 180 - arctan (((j : ℝ) - c.yCen) * c.yPix / c.dist))
    (r.getD 5 0 * π / 180 - arctan (((i : ℝ) - c.xCen) * c.xPix / c.dist)) := ⟨_, rfl⟩
  have hspec : Recip.Spec.qTheta lam a (Recip.Spec.delta c a j) (Recip.Spec.gamma c a i) = qt := by
    rw [← qThetaFun_eq, hqt, ha]
    rfl
  have hq1 : ∀ k, |qtF k - qt k| ≤ 170 * u * (2 * π / lam) := fun k => by rw [hqtF, hqt]; exact (hq k).1
  have hq2 : ∀ k, |qt k| ≤ 2 * (2 * π / lam) := fun k => by rw [hqt]; exact (hq k).2
  have hphi := phi_err hu hA _ _ _ _ e2.1 e3.1
  have hspec2 : Recip.Spec.qPhi lam a (Recip.Spec.delta c a j) (Recip.Spec.gamma c a i) = fun k => ∑ l, phiMatrix (r.getD 2 0 * π / 180) (r.getD 3 0 * π / 180) k l * qt l := by
    rw [phiMatrix_eq, ← hspec, ha]
    rfl
  have hp := fun k => matF_err hu hA.rel (phiF A (rad A (r.getD 2 0)) (rad A (r.getD 3 0))) (phiMatrix (r.getD 2 0 * π / 180) (r.getD 3 0 * π / 180)) qtF qt _ _ _ _
    (fun k j => (hphi k j).1) (fun k j => (hphi k j).2) hq1 hq2 k
  obtain ⟨K, hKe⟩ : ∃ K, K = 2 * π / lam := ⟨_, rfl⟩
  rw [← hKe] at hp hq1 hq2 hK ⊢
  have huK : 0 ≤ u * K := mul_nonneg h0 hK.le
  have huuK : u * (u * K) ≤ 1 / 1000000 * (u * K) := mul_le_mul_of_nonneg_right hu huK
  have hp' : ∀ k, |matF A.fl (phiF A (rad A (r.getD 2 0)) (rad A (r.getD 3 0))) qtF k - ∑ l, phiMatrix (r.getD 2 0 * π / 180) (r.getD 3 0 * π / 180) k l * qt l| ≤ 800 * u * K := fun k => by
    refine (hp k).trans ?_
    nlinarith
  refine ⟨?_, ?_, ?_⟩
  · rw [hspec]
    have : pixelF A c lam inv 1 r j i = qtF := by
      unfold pixelF
      rw [← hqtF]
      simp
    rw [this]
    exact hq1 k
  · intro mode hmode
    rw [hspec2]
    have : pixelF A c lam inv mode r j i = matF A.fl (phiF A (rad A (r.getD 2 0)) (rad A (r.getD 3 0))) qtF := by
      unfold pixelF
      rw [← hqtF]
      rcases hmode with rfl | rfl <;> simp
    rw [this]
    exact hp' k
  · intro inv' e N he hN
    rw [hspec2]
    have : pixelF A c lam inv 4 r j i = matF A.fl (fun i => ![-inv i 2, inv i 1, inv i 0]) (matF A.fl (phiF A (rad A (r.getD 2 0)) (rad A (r.getD 3 0))) qtF) := by
      unfold pixelF
      rw [← hqtF]
      simp
    rw [this]
    have hV : ∀ l, |∑ m, phiMatrix (r.getD 2 0 * π / 180) (r.getD 3 0 * π / 180) l m * qt m| ≤ 6 * K := by
      intro l
      refine (Finset.abs_sum_le_sum_abs _ _).trans ?_
      rw [Fin.sum_univ_three]
      have : ∀ m, |phiMatrix (r.getD 2 0 * π / 180) (r.getD 3 0 * π / 180) l m * qt m| ≤ 2 * K := fun m => by
        rw [abs_mul]
        have := mul_le_mul (hphi l m).2 (hq2 m) (abs_nonneg _) (by norm_num)
        linarith
      linarith [this 0, this 1, this 2]
    have hm1 : ∀ p q, |(![-inv p 2, inv p 1, inv p 0] : Fin 3 → ℝ) q - permuteUB inv' p q| ≤ e := by
      intro p q
      fin_cases q
      · show |-inv p 2 - -1 * inv' p 2| ≤ e
        rw [show -inv p 2 - -1 * inv' p 2 = -(inv p 2 - inv' p 2) by ring, abs_neg]
        exact he _ _
      · exact he p 1
      · exact he p 0
    have hm2 : ∀ p q, |permuteUB inv' p q| ≤ N := by
      intro p q
      fin_cases q
      · show |-1 * inv' p 2| ≤ N
        rw [neg_one_mul, abs_neg]
        exact hN _ _
      · exact hN p 1
      · exact hN p 0
    have := matF_err hu hA.rel (fun i => ![-inv i 2, inv i 1, inv i 0]) (permuteUB inv') _ _ e N _ _ hm1 hm2 hp' hV k
    refine this.trans ?_
    have he0 : 0 ≤ e := (abs_nonneg _).trans (he 0 0)
    have hN0 : 0 ≤ N := (abs_nonneg _).trans (hN 0 0)
    have t1 : 0 ≤ N * (u * K) := mul_nonneg hN0 huK
    have t2 : 0 ≤ e * K := mul_nonneg he0 hK.le
    have t3 : u * (e * K) ≤ 1 / 1000000 * (e * K) := mul_le_mul_of_nonneg_right hu t2
    nlinarith

end

/-! ## C254 -/

/-- C254: for angles up to a full turn either way, every component of q of every pixel is in the theta frame within 170 u, in the phi and cart frames within 800 u of
the exact vector, in units of 2 pi / wavelength. -/
theorem C254_q (u : ℝ) (hu : u ≤ 1 / 1000000) (A : Arith) (hA : Spec.Accurate u A) (c : Ccd) (lam : ℝ) (hl : 0 < lam) (ub : Matrix (Fin 3) (Fin 3) ℝ) (inv : Fin 3 → Fin 3 → ℝ) (r : List ℝ)
    (hr : ∀ k, |r.getD k 0| ≤ 360) (j i : ℕ) (k : Fin 3) :
    |pixelF A c lam inv 1 r j i k - Recip.Spec.inFrame c lam ub 1 (Recip.Spec.Angles.ofDegrees r) j i k| ≤ 170 * u * (2 * π / lam) ∧
    |pixelF A c lam inv 2 r j i k - Recip.Spec.inFrame c lam ub 2 (Recip.Spec.Angles.ofDegrees r) j i k| ≤ 800 * u * (2 * π / lam) ∧
    |pixelF A c lam inv 3 r j i k - Recip.Spec.inFrame c lam ub 3 (Recip.Spec.Angles.ofDegrees r) j i k| ≤ 800 * u * (2 * π / lam) := by
  obtain ⟨h1, h2, _⟩ := frames hu hA c lam hl r hr j i k inv _ rfl
  exact ⟨h1, h2 2 (Or.inl rfl), h2 3 (Or.inr rfl)⟩

/-- C254: h, k and l likewise, with a matrix inverted with an error of at most e in every element, N bounding the elements of the inverse. -/
theorem C254_hkl (u : ℝ) (hu : u ≤ 1 / 1000000) (A : Arith) (hA : Spec.Accurate u A) (c : Ccd) (lam : ℝ) (hl : 0 < lam) (ub : Matrix (Fin 3) (Fin 3) ℝ) (inv : Fin 3 → Fin 3 → ℝ) (e N : ℝ)
    (he : ∀ p q, |inv p q - ub⁻¹ p q| ≤ e) (hN : ∀ p q, |ub⁻¹ p q| ≤ N) (r : List ℝ) (hr : ∀ k, |r.getD k 0| ≤ 360) (j i : ℕ) (k : Fin 3) :
    |pixelF A c lam inv 4 r j i k - Recip.Spec.inFrame c lam ub 4 (Recip.Spec.Angles.ofDegrees r) j i k| ≤ (19 * e + 2500 * u * N) * (2 * π / lam) := by
  obtain ⟨_, _, h3⟩ := frames hu hA c lam hl r hr j i k inv _ rfl
  have := h3 (fun p q => ub⁻¹ p q) e N he hN
  have hs : Recip.Spec.inFrame c lam ub 4 (Recip.Spec.Angles.ofDegrees r) j i k = ∑ l, permuteUB (fun p q => ub⁻¹ p q) k l *
      Recip.Spec.qPhi lam (Recip.Spec.Angles.ofDegrees r) (Recip.Spec.delta c (Recip.Spec.Angles.ofDegrees r) j) (Recip.Spec.gamma c (Recip.Spec.Angles.ofDegrees r) i) l := by
    show (ub⁻¹ *ᵥ Recip.Spec.axes _) k = _
    simp only [Matrix.mulVec, dotProduct, Fin.sum_univ_three, Recip.Spec.axes, permuteUB, Matrix.cons_val_zero, Matrix.cons_val_one, Matrix.cons_val]
    ring
  rw [hs]
  exact this

/-- Double arithmetic with correctly rounded library functions is such an arithmetic. -/
theorem double_accurate : Spec.Accurate (1 / 2 ^ 53) ⟨Fl.roundR, fun x => Fl.roundR (Real.sin x), fun x => Fl.roundR (Real.cos x), fun x => Fl.roundR (arctan x), Fl.roundR π⟩ where
  rel := Fl.roundR_rel
  sin x := (Fl.roundR_rel.2 _).trans (by nlinarith [Real.abs_sin_le_one x])
  cos x := (Fl.roundR_rel.2 _).trans (by nlinarith [Real.abs_cos_le_one x])
  atan x := (Fl.roundR_rel.2 _).trans (by
    have h1 := Real.neg_pi_div_two_lt_arctan x
    have h2 := Real.arctan_lt_pi_div_two x
    have h3 := Real.pi_lt_d4
    have : |arctan x| ≤ 2 := abs_le.2 ⟨by linarith, by linarith⟩
    nlinarith)
  pi := by have := Fl.roundR_rel.2 π; rwa [abs_of_pos Real.pi_pos] at this

example : (1 / 2 ^ 53 : ℝ) ≤ 1 / 1000000 ∧ ∀ k, |([30, 15, 90, -45, 1, 2] : List ℝ).getD k 0| ≤ 360 := by
  refine ⟨by norm_num, fun k => ?_⟩
  rcases k with _ | _ | _ | _ | _ | _ | k <;> norm_num [abs_le]

end Verif.Recip.Round
