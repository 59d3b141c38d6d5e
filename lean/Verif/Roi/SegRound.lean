/- angle_grid and segmented_rings in double precision (skbeam/core/utils.py:599-635, skbeam/core/roi.py:224-298). -/
import Verif.Roi.RingsRound
import Mathlib.Analysis.Real.Pi.Bounds
import Mathlib.Analysis.SpecialFunctions.Trigonometric.Bounds

namespace Verif.Roi.Rnd

open Fl

/-! ## Model -/

/-- The angle of one pixel, utils.py:632-635 with the default pixel size; `at2 y x` is what `np.arctan2(y, x)` returns. -/
noncomputable def angleF (fl : ℝ → ℝ) (at2 : ℝ → ℝ → ℝ) (center : ℝ × ℝ) (r c : ℕ) : ℝ :=
  at2 (fl (1 * fl ((r : ℝ) - center.1))) (fl (1 * fl ((c : ℝ) - center.2)))

/-- `2 * np.pi`. -/
noncomputable def twoPiF (fl : ℝ → ℝ) : ℝ := fl (2 * fl Real.pi)

/-- roi.py:273. -/
noncomputable def wrapF (fl : ℝ → ℝ) (a : ℝ) : ℝ := if a < 0 then fl (twoPiF fl + a) else a

/-- roi.py:275-281: `np.linspace(0, 2 * np.pi, num=1 + segments)` (the multiples of the step, the last one replaced by the end point) plus
the offset, or the given angles plus the offset. -/
noncomputable def segmentEdgesF (fl : ℝ → ℝ) (segments : ℕ ⊕ List ℝ) (offset : ℝ) : List ℝ :=
  match segments with
  | .inl n => (List.range (n + 1)).map (fun (k : ℕ) => fl ((if k = n then twoPiF fl else fl (fl (k * fl (twoPiF fl / n)) + 0)) + offset))
  | .inr l => l.map (fun a => fl (a + offset))

/-- `segmented_rings`, roi.py:224-298, in rounded arithmetic, for ascending segment edges and at least one segment. -/
noncomputable def segmentedRingsF (fl : ℝ → ℝ) (at2 : ℝ → ℝ → ℝ) (edges : List ℝ) (segments : ℕ ⊕ List ℝ) (center : ℝ × ℝ) (shape : ℕ × ℕ)
    (offset : ℝ) : Py (List (List ℕ)) :=
  if edgesOkF fl edges then
    .ok ((List.range shape.1).map (fun r => (List.range shape.2).map (fun c =>
      segLabel edges (segmentEdgesF fl segments offset) (radiusF fl center (1, 1) r c) (wrapF fl (angleF fl at2 center r c)))))
  else .error .valueError

/-! ## Specification -/

/-- `np.arctan2` is accurate to a relative error u. -/
def Spec.Arctan2 (u : ℝ) (at2 : ℝ → ℝ → ℝ) : Prop := ∀ y x, |at2 y x - Geom.arctan2 y x| ≤ u * |Geom.arctan2 y x|

/-- The azimuth of pixel (r, c), in [0, 2 pi). -/
noncomputable def Spec.azimuth (center : ℝ × ℝ) (r c : ℕ) : ℝ :=
  if Complex.arg ⟨(c : ℝ) - center.2, (r : ℝ) - center.1⟩ < 0 then 2 * Real.pi + Complex.arg ⟨(c : ℝ) - center.2, (r : ℝ) - center.1⟩
  else Complex.arg ⟨(c : ℝ) - center.2, (r : ℝ) - center.1⟩

/-! ## Proofs -/

/-- Stretching the coordinates a little turns the direction a little. -/
theorem arg_stretch (x y a b u : ℝ) (hu0 : 0 ≤ u) (hu : u ≤ 1 / 1000) (ha : (1 - u) ^ 2 ≤ a) (ha' : a ≤ (1 + u) ^ 2)
    (hb : (1 - u) ^ 2 ≤ b) (hb' : b ≤ (1 + u) ^ 2) :
    |Complex.arg ⟨a * x, b * y⟩ - Complex.arg ⟨x, y⟩| ≤ 4 * u ∧ (Complex.arg ⟨a * x, b * y⟩ < 0 ↔ Complex.arg ⟨x, y⟩ < 0) := by
  have hlow : (99 / 100 : ℝ) ≤ (1 - u) ^ 2 := by nlinarith
  have hapos : 0 < a := by linarith
  have hbpos : 0 < b := by linarith
  have hsign : Complex.arg ⟨a * x, b * y⟩ < 0 ↔ Complex.arg ⟨x, y⟩ < 0 := by
    rw [Complex.arg_neg_iff, Complex.arg_neg_iff]
    simp only
    constructor
    · intro h; by_contra hc; have := mul_nonneg hbpos.le (not_lt.1 hc); linarith
    · intro h; exact mul_neg_of_pos_of_neg hbpos h
  refine ⟨?_, hsign⟩
  by_cases hz : x = 0 ∧ y = 0
  · rw [hz.1, hz.2]; simp; linarith
  set z : ℂ := ⟨x, y⟩ with hzdef
  set w : ℂ := ⟨a * x, b * y⟩ with hwdef
  have hzne : z ≠ 0 := by
    intro h
    have h1 := congrArg Complex.re h
    have h2 := congrArg Complex.im h
    exact hz ⟨h1, h2⟩
  have hwne : w ≠ 0 := by
    intro h
    have h1 := congrArg Complex.re h
    have h2 := congrArg Complex.im h
    simp only [hwdef, Complex.zero_re, Complex.zero_im] at h1 h2
    exact hz ⟨(mul_eq_zero.1 h1).resolve_left hapos.ne', (mul_eq_zero.1 h2).resolve_left hbpos.ne'⟩
  have hnz : 0 < ‖z‖ := norm_pos_iff.2 hzne
  have hnw : 0 < ‖w‖ := norm_pos_iff.2 hwne
  have e1 := Complex.norm_mul_cos_arg z
  have e2 := Complex.norm_mul_sin_arg z
  have e3 := Complex.norm_mul_cos_arg w
  have e4 := Complex.norm_mul_sin_arg w
  set φ := Complex.arg z
  set ψ := Complex.arg w
  simp only [hzdef, hwdef] at e1 e2 e3 e4
  set R := ‖z‖
  set S := ‖w‖
  have hR2 : R ^ 2 = x ^ 2 + y ^ 2 := by
    rw [← e1, ← e2]
    nlinarith [Real.sin_sq_add_cos_sq φ]
  have hS2 : S ^ 2 = (a * x) ^ 2 + (b * y) ^ 2 := by
    rw [← e3, ← e4]
    nlinarith [Real.sin_sq_add_cos_sq ψ]
  have hSR : 99 / 100 * R ≤ S := by
    have h1 : (99 / 100 * R) ^ 2 ≤ S ^ 2 := by
      rw [mul_pow, hR2, hS2, mul_add, mul_pow, mul_pow]
      have h1 : (99 / 100 : ℝ) ^ 2 ≤ a ^ 2 := pow_le_pow_left₀ (by norm_num) (by linarith) 2
      have h2 : (99 / 100 : ℝ) ^ 2 ≤ b ^ 2 := pow_le_pow_left₀ (by norm_num) (by linarith) 2
      exact add_le_add (mul_le_mul_of_nonneg_right h1 (sq_nonneg _)) (mul_le_mul_of_nonneg_right h2 (sq_nonneg _))
    exact le_of_sq_le_sq h1 hnw.le
  have hRS : 0 < R * S := mul_pos hnz hnw
  have hsin : R * S * Real.sin (ψ - φ) = (b - a) * (x * y) := by
    rw [Real.sin_sub]
    calc R * S * (Real.sin ψ * Real.cos φ - Real.cos ψ * Real.sin φ) =
        (S * Real.sin ψ) * (R * Real.cos φ) - (S * Real.cos ψ) * (R * Real.sin φ) := by ring
      _ = _ := by rw [e1, e2, e3, e4]; ring
  have hcos : R * S * Real.cos (ψ - φ) = a * x ^ 2 + b * y ^ 2 := by
    rw [Real.cos_sub]
    calc R * S * (Real.cos ψ * Real.cos φ + Real.sin ψ * Real.sin φ) =
        (S * Real.cos ψ) * (R * Real.cos φ) + (S * Real.sin ψ) * (R * Real.sin φ) := by ring
      _ = _ := by rw [e1, e2, e3, e4]; ring
  have hcospos : 0 < Real.cos (ψ - φ) := by
    have h1 : 0 < a * x ^ 2 + b * y ^ 2 := by
      have : 0 < R ^ 2 := by positivity
      rw [hR2] at this
      nlinarith [sq_nonneg x, sq_nonneg y]
    rw [← hcos] at h1
    exact (mul_pos_iff_of_pos_left hRS).1 h1
  -- the difference lies in (-pi, pi)
  have hπ := Real.pi_pos
  have hdiff : |ψ - φ| < 2 * Real.pi ∧ |ψ - φ| ≤ Real.pi := by
    have p1 := Complex.neg_pi_lt_arg z
    have p2 := Complex.arg_le_pi z
    have p3 := Complex.neg_pi_lt_arg w
    have p4 := Complex.arg_le_pi w
    have key : |ψ - φ| ≤ Real.pi := by
      rw [abs_le]
      by_cases hneg : φ < 0
      · have := hsign.2 hneg
        change ψ < 0 at this
        constructor <;> linarith
      · have : ¬ ψ < 0 := fun h => hneg (hsign.1 h)
        constructor <;> linarith
    exact ⟨by linarith, key⟩
  have hhalf : |ψ - φ| < Real.pi / 2 := by
    by_contra hc
    have h1 : Real.cos |ψ - φ| ≤ 0 := Real.cos_nonpos_of_pi_div_two_le_of_le (not_lt.1 hc) (by linarith [hdiff.2])
    rw [Real.cos_abs] at h1
    linarith
  have hs1 : 2 / Real.pi * |ψ - φ| ≤ Real.sin |ψ - φ| := Real.mul_le_sin (abs_nonneg _) hhalf.le
  have hs2 : Real.sin |ψ - φ| = |Real.sin (ψ - φ)| := by
    rcases le_total 0 (ψ - φ) with h | h
    · rw [abs_of_nonneg h] at hhalf ⊢
      rw [abs_of_nonneg (Real.sin_nonneg_of_nonneg_of_le_pi h (by linarith))]
    · rw [abs_of_nonpos h] at hhalf ⊢
      have : 0 ≤ Real.sin (-(ψ - φ)) := Real.sin_nonneg_of_nonneg_of_le_pi (by linarith) (by linarith)
      rw [Real.sin_neg] at this ⊢
      rw [abs_of_nonpos (by linarith)]
  have hba : |b - a| ≤ 4 * u := by
    have h4 : (1 + u) ^ 2 - (1 - u) ^ 2 = 4 * u := by ring
    rw [abs_le]
    constructor <;> linarith
  have hxy : |x * y| ≤ R ^ 2 / 2 := by
    rw [hR2, abs_le]
    constructor
    · linarith [sq_nonneg (x + y), add_sq x y]
    · linarith [sq_nonneg (x - y), sub_sq x y]
  have hsinb : |Real.sin (ψ - φ)| ≤ 200 / 99 * u := by
    have h1 : R * S * |Real.sin (ψ - φ)| ≤ 4 * u * (R ^ 2 / 2) := by
      calc R * S * |Real.sin (ψ - φ)| = |R * S * Real.sin (ψ - φ)| := by rw [abs_mul, abs_of_pos hRS]
        _ = |b - a| * |x * y| := by rw [hsin, abs_mul]
        _ ≤ 4 * u * (R ^ 2 / 2) := mul_le_mul hba hxy (abs_nonneg _) (by linarith)
    have h2 : R * (99 / 100 * R) * |Real.sin (ψ - φ)| ≤ R * S * |Real.sin (ψ - φ)| :=
      mul_le_mul_of_nonneg_right (mul_le_mul_of_nonneg_left hSR hnz.le) (abs_nonneg _)
    have h3 : 0 < R ^ 2 := by positivity
    have h4 : R ^ 2 * |Real.sin (ψ - φ)| ≤ R ^ 2 * (200 / 99 * u) := by linarith [h1, h2]
    exact le_of_mul_le_mul_left h4 h3
  have hpi : Real.pi < 3.15 := Real.pi_lt_d2
  have h5 : |ψ - φ| = Real.pi / 2 * (2 / Real.pi * |ψ - φ|) := by field_simp
  rw [h5]
  calc Real.pi / 2 * (2 / Real.pi * |ψ - φ|) ≤ Real.pi / 2 * (200 / 99 * u) :=
        mul_le_mul_of_nonneg_left (hs1.trans (hs2 ▸ hsinb)) (by linarith)
    _ ≤ 3.15 / 2 * (200 / 99 * u) := mul_le_mul_of_nonneg_right (by linarith) (by linarith)
    _ ≤ 4 * u := by linarith

section
variable {u : ℝ} {fl : ℝ → ℝ} (hrel : Spec.RelR u fl) (hu : u ≤ 1 / 1000)
include hrel hu

/-- Two roundings of a coordinate multiply it by a factor near 1. -/
theorem coord_factor (d : ℝ) : ∃ a, (1 - u) ^ 2 ≤ a ∧ a ≤ (1 + u) ^ 2 ∧ fl (1 * fl d) = a * d := by
  have hu0 := hrel.1
  have one : ∀ x, ∃ a, 1 - u ≤ a ∧ a ≤ 1 + u ∧ fl x = a * x := by
    intro x
    by_cases hx : x = 0
    · exact ⟨1, by linarith, by linarith, by rw [hx, fl_zero hrel]; ring⟩
    · refine ⟨fl x / x, ?_, ?_, by field_simp⟩
      all_goals
        have h := hrel.2 x
        have h2 : |fl x / x - 1| ≤ u := by
          have : fl x / x - 1 = (fl x - x) / x := by field_simp
          rw [this, abs_div, div_le_iff₀ (abs_pos.2 hx)]
          exact h
        rw [abs_le] at h2
        linarith [h2.1, h2.2]
  obtain ⟨a, a1, a2, a3⟩ := one d
  obtain ⟨b, b1, b2, b3⟩ := one (fl d)
  refine ⟨b * a, ?_, ?_, ?_⟩
  · calc (1 - u) ^ 2 = (1 - u) * (1 - u) := by ring
      _ ≤ b * a := mul_le_mul b1 a1 (by linarith) (by linarith)
  · calc b * a ≤ (1 + u) * (1 + u) := mul_le_mul b2 a2 (by linarith) (by linarith)
      _ = (1 + u) ^ 2 := by ring
  · rw [one_mul, b3, a3]; ring

theorem twoPi_near : |twoPiF fl - 2 * Real.pi| ≤ 14 * u := by
  have hu0 := hrel.1
  have hπ := Real.pi_pos
  have hπ2 : Real.pi < 3.15 := Real.pi_lt_d2
  have h1 := fl_bracket hrel (by linarith) (x := Real.pi) (y := Real.pi) (n := 0) hπ.le (by simp) (by simp)
  have h2 := fl_bracket hrel (by linarith) (x := 2 * Real.pi) (y := 2 * fl Real.pi) (n := 1) (by linarith) (by simp only [zero_add] at h1; linarith [h1.1])
    (by simp only [zero_add] at h1; linarith [h1.2])
  unfold twoPiF
  change 2 * Real.pi * (1 - u) ^ 2 ≤ _ ∧ _ ≤ 2 * Real.pi * (1 + u) ^ 2 at h2
  have e1 : (1 + u) ^ 2 ≤ 1 + 2.001 * u := by nlinarith
  have e2 : 1 - 2 * u ≤ (1 - u) ^ 2 := by rw [sub_sq]; nlinarith [sq_nonneg u]
  rw [abs_le]
  constructor
  · have : 2 * Real.pi * (1 - 2 * u) ≤ 2 * Real.pi * (1 - u) ^ 2 := mul_le_mul_of_nonneg_left e2 (by linarith)
    nlinarith [h2.1]
  · have : 2 * Real.pi * (1 + u) ^ 2 ≤ 2 * Real.pi * (1 + 2.001 * u) := mul_le_mul_of_nonneg_left e1 (by linarith)
    have h3 : 2 * Real.pi * (2.001 * u) ≤ 14 * u := by
      have : 2 * Real.pi * (2.001 * u) ≤ 2 * 3.15 * (2.001 * u) := mul_le_mul_of_nonneg_right (by linarith) (by linarith)
      linarith
    linarith [h2.2]

/-- The computed angle is near the azimuth of the pixel. -/
theorem angle_near {at2 : ℝ → ℝ → ℝ} (hat : Spec.Arctan2 u at2) (center : ℝ × ℝ) (r c : ℕ) :
    |wrapF fl (angleF fl at2 center r c) - Spec.azimuth center r c| ≤ 32 * u := by
  have hu0 := hrel.1
  have hπ := Real.pi_pos
  have hπ2 : Real.pi < 3.15 := Real.pi_lt_d2
  obtain ⟨a, a1, a2, a3⟩ := coord_factor hrel hu ((c : ℝ) - center.2)
  obtain ⟨b, b1, b2, b3⟩ := coord_factor hrel hu ((r : ℝ) - center.1)
  obtain ⟨s1, s2⟩ := arg_stretch ((c : ℝ) - center.2) ((r : ℝ) - center.1) a b u hu0 hu a1 a2 b1 b2
  have h := hat (b * ((r : ℝ) - center.1)) (a * ((c : ℝ) - center.2))
  have hA : angleF fl at2 center r c = at2 (b * ((r : ℝ) - center.1)) (a * ((c : ℝ) - center.2)) := by
    unfold angleF
    rw [a3, b3]
  rw [hA]
  unfold Geom.arctan2 at h
  set φ := Complex.arg ⟨(c : ℝ) - center.2, (r : ℝ) - center.1⟩ with hφ
  set ψ := Complex.arg ⟨a * ((c : ℝ) - center.2), b * ((r : ℝ) - center.1)⟩ with hψ
  set A := at2 (b * ((r : ℝ) - center.1)) (a * ((c : ℝ) - center.2)) with hAdef
  have hψb : |ψ| ≤ Real.pi := Complex.abs_arg_le_pi _
  have hAψ : |A - ψ| ≤ 3.15 * u := by
    calc |A - ψ| ≤ u * |ψ| := h
      _ ≤ u * 3.15 := mul_le_mul_of_nonneg_left (by linarith) hu0
      _ = 3.15 * u := by ring
  have hsgn : A < 0 ↔ ψ < 0 := by
    rw [abs_le] at h
    constructor
    · intro hA0
      by_contra hc
      rw [abs_of_nonneg (not_lt.1 hc)] at h
      have : 0 ≤ ψ - u * ψ := by nlinarith [not_lt.1 hc]
      linarith [h.1]
    · intro hψ0
      rw [abs_of_neg hψ0] at h
      nlinarith [h.2]
  have hAφ : |A - φ| ≤ 7.15 * u := by
    calc |A - φ| = |(A - ψ) + (ψ - φ)| := by ring_nf
      _ ≤ |A - ψ| + |ψ - φ| := abs_add_le _ _
      _ ≤ 7.15 * u := by linarith
  unfold wrapF Spec.azimuth
  rw [← hφ]
  by_cases hneg : φ < 0
  · rw [if_pos hneg, if_pos (hsgn.2 (s2.2 hneg))]
    have hP := twoPi_near hrel hu
    have hφb : -Real.pi < φ := Complex.neg_pi_lt_arg _
    have hr := hrel.2 (twoPiF fl + A)
    rw [abs_le] at hP hAφ
    have hsum : |twoPiF fl + A| ≤ 6.4 := by
      rw [abs_le]
      constructor <;> nlinarith [hP.1, hP.2, hAφ.1, hAφ.2]
    have hr2 : |fl (twoPiF fl + A) - (twoPiF fl + A)| ≤ 6.4 * u := by
      calc _ ≤ u * |twoPiF fl + A| := hr
        _ ≤ u * 6.4 := mul_le_mul_of_nonneg_left hsum hu0
        _ = 6.4 * u := by ring
    rw [abs_le] at hr2 ⊢
    constructor <;> linarith [hr2.1, hr2.2, hP.1, hP.2, hAφ.1, hAφ.2]
  · rw [if_neg hneg, if_neg (fun h0 => hneg (s2.1 (hsgn.1 h0)))]
    linarith

/-- The computed segment edges are near the exact ones. -/
theorem edges_near (segments : ℕ ⊕ List ℝ) (hseg : ∀ n, segments = .inl n → 1 ≤ n) (offset : ℝ) :
    List.Forall₂ (fun e' e => |e' - e| ≤ (45 + |e|) * u) (segmentEdgesF fl segments offset) (segmentEdges segments offset) := by
  have hu0 := hrel.1
  have hπ := Real.pi_pos
  have hπ2 : Real.pi < 3.15 := Real.pi_lt_d2
  have step : ∀ x y : ℝ, |x - y| ≤ 40 * u → |fl (x + offset) - (y + offset)| ≤ (45 + |y + offset|) * u := by
    intro x y hxy
    have h := hrel.2 (x + offset)
    have h1 : |x + offset| ≤ |y + offset| + 40 * u := by
      calc |x + offset| = |(y + offset) + (x - y)| := by ring_nf
        _ ≤ |y + offset| + |x - y| := abs_add_le _ _
        _ ≤ _ := by linarith
    have h2 : u * |x + offset| ≤ u * (|y + offset| + 40 * u) := mul_le_mul_of_nonneg_left h1 hu0
    calc |fl (x + offset) - (y + offset)| = |(fl (x + offset) - (x + offset)) + (x - y)| := by ring_nf
      _ ≤ |fl (x + offset) - (x + offset)| + |x - y| := abs_add_le _ _
      _ ≤ u * (|y + offset| + 40 * u) + 40 * u := by linarith
      _ ≤ (45 + |y + offset|) * u := by nlinarith
  cases segments with
  | inl n =>
    have hn := hseg n rfl
    have hn0 : (0 : ℝ) < n := by exact_mod_cast hn
    unfold segmentEdgesF segmentEdges
    simp only
    rw [List.forall₂_map_left_iff, List.forall₂_map_right_iff, List.forall₂_same]
    intro k hk
    have hkn : k ≤ n := by have := List.mem_range.1 hk; omega
    have hkR : (k : ℝ) ≤ n := by exact_mod_cast hkn
    have hk0 : (0 : ℝ) ≤ k := Nat.cast_nonneg _
    apply step
    have hP := twoPi_near hrel hu
    by_cases hlast : k = n
    · rw [if_pos hlast, hlast]
      have : (n : ℝ) * (2 * Real.pi / n) = 2 * Real.pi := by field_simp
      rw [this]
      linarith
    · rw [if_neg hlast, add_zero]
      have b1 := fl_bracket hrel (by linarith) (x := Real.pi) (y := Real.pi) (n := 0) hπ.le (by simp) (by simp)
      simp only [zero_add] at b1
      have b2 := fl_bracket hrel (by linarith) (x := 2 * Real.pi) (y := 2 * fl Real.pi) (n := 1) (by linarith) (by linarith [b1.1]) (by linarith [b1.2])
      change 2 * Real.pi * (1 - u) ^ 2 ≤ twoPiF fl ∧ twoPiF fl ≤ 2 * Real.pi * (1 + u) ^ 2 at b2
      have b3 := fl_bracket hrel (by linarith) (x := 2 * Real.pi / n) (y := twoPiF fl / n) (n := 2) (by positivity)
        (by rw [div_mul_eq_mul_div]; exact div_le_div_of_nonneg_right b2.1 hn0.le)
        (by rw [div_mul_eq_mul_div]; exact div_le_div_of_nonneg_right b2.2 hn0.le)
      have b4 := fl_bracket hrel (by linarith) (x := k * (2 * Real.pi / n)) (y := k * fl (twoPiF fl / n)) (n := 3) (by positivity)
        (by rw [mul_assoc]; exact mul_le_mul_of_nonneg_left b3.1 hk0) (by rw [mul_assoc]; exact mul_le_mul_of_nonneg_left b3.2 hk0)
      have b5 := fl_bracket hrel (by linarith) (x := k * (2 * Real.pi / n)) (n := 4) (by positivity) b4.1 b4.2
      have hval : (k : ℝ) * (2 * Real.pi / n) ≤ 6.3 := by
        calc (k : ℝ) * (2 * Real.pi / n) ≤ n * (2 * Real.pi / n) := mul_le_mul_of_nonneg_right hkR (by positivity)
          _ = 2 * Real.pi := by field_simp
          _ ≤ 6.3 := by linarith
      have hval0 : 0 ≤ (k : ℝ) * (2 * Real.pi / n) := by positivity
      have p1 : (1 + u) ^ (4 + 1) ≤ 1 + 5.1 * u := by
        have q2 : (1 + u) ^ 2 ≤ 1 + 2.001 * u := by nlinarith
        have q4 : (1 + u) ^ 4 ≤ 1 + 4.02 * u := by
          calc (1 + u) ^ 4 = ((1 + u) ^ 2) ^ 2 := by ring
            _ ≤ (1 + 2.001 * u) ^ 2 := pow_le_pow_left₀ (by positivity) q2 2
            _ ≤ 1 + 4.02 * u := by nlinarith
        calc (1 + u) ^ (4 + 1) = (1 + u) ^ 4 * (1 + u) := by ring
          _ ≤ (1 + 4.02 * u) * (1 + u) := mul_le_mul_of_nonneg_right q4 (by linarith)
          _ ≤ 1 + 5.1 * u := by nlinarith
      have p2 : 1 - 5 * u ≤ (1 - u) ^ (4 + 1) := by
        have := one_add_mul_le_pow (a := -u) (by linarith) 5
        have e : (1 + -u) = 1 - u := by ring
        rw [e] at this
        push_cast at this
        change _ ≤ (1 - u) ^ 5
        linarith
      rw [abs_le]
      constructor
      · have := mul_le_mul_of_nonneg_left p2 hval0
        nlinarith [b5.1]
      · have := mul_le_mul_of_nonneg_left p1 hval0
        nlinarith [b5.2]
  | inr l =>
    unfold segmentEdgesF segmentEdges
    simp only
    rw [List.forall₂_map_left_iff, List.forall₂_map_right_iff, List.forall₂_same]
    intro a _
    exact step a a (by simp; linarith)

end

theorem digitize_near (l' l : List ℝ) (x' x : ℝ) (h : List.Forall₂ (fun e' e => (e' ≤ x' ↔ e ≤ x)) l' l) : digitizeG l' x' = digitizeG l x := by
  unfold digitizeG
  induction h with
  | nil => rfl
  | cons h1 _ ih => simp only [List.countP_cons, ih, h1]

theorem segLabel_congr (edges s s' : List ℝ) (ρ ρ' θ θ' : ℝ) (hρ : ∀ e ∈ edges, (e ≤ ρ' ↔ e ≤ ρ)) (hlen : s'.length = s.length)
    (hd : digitizeG s' θ' = digitizeG s θ) : segLabel edges s' ρ' θ' = segLabel edges s ρ θ := by
  unfold segLabel
  rw [hd, hlen]
  have hget : ∀ i, i < edges.length → (edges.getD i 0 ≤ ρ' ↔ edges.getD i 0 ≤ ρ) := by
    intro i hi
    have : edges.getD i 0 ∈ edges := by
      rw [List.getD_eq_getElem?_getD, List.getElem?_eq_getElem hi]
      exact List.getElem_mem hi
    exact hρ _ this
  have key : ∀ (l : List ℕ), (∀ i ∈ l, 2 * i + 1 < edges.length) → ∀ acc, l.foldl (fun lab i =>
      if edges.getD (2 * i) 0 ≤ ρ' ∧ ρ' < edges.getD (2 * i + 1) 0 then digitizeG s θ + (s.length - 1) * i else lab) acc =
      l.foldl (fun lab i => if edges.getD (2 * i) 0 ≤ ρ ∧ ρ < edges.getD (2 * i + 1) 0 then digitizeG s θ + (s.length - 1) * i else lab) acc := by
    intro l
    induction l with
    | nil => intro _ _; rfl
    | cons i t ih =>
      intro hl acc
      have hi := hl i (by simp)
      simp only [List.foldl_cons]
      have hc : (edges.getD (2 * i) 0 ≤ ρ' ∧ ρ' < edges.getD (2 * i + 1) 0) ↔ (edges.getD (2 * i) 0 ≤ ρ ∧ ρ < edges.getD (2 * i + 1) 0) := by
        rw [hget (2 * i) (by omega), ← not_le, ← not_le, hget (2 * i + 1) hi]
      simp only [hc]
      exact ih (fun j hj => hl j (by simp [hj])) _
  apply key
  intro i hi
  have := List.mem_range.1 hi
  omega

theorem exact_at (edges seg : List ℝ) (center : ℝ × ℝ) (shape : ℕ × ℕ) (r c : ℕ) (hr : r < shape.1) (hc : c < shape.2) :
    Geom.Spec.at (List.zipWith (fun rr aa => List.zipWith (fun ρ a => segLabel edges seg ρ (wrapAngle a)) rr aa)
      (Geom.radialGrid center shape none) (Geom.angleGrid center shape none)) r c =
    some (segLabel edges seg (Roi.Spec.radius center r c) (Spec.azimuth center r c)) := by
  unfold Geom.Spec.at Geom.radialGrid Geom.angleGrid Geom.mesh Geom.xCoords Geom.yCoords Geom.pixelSize
  simp only [List.map_map, Option.getD_none, one_mul, List.getElem?_zipWith, List.getElem?_map, List.getElem?_range hr, Option.map_some,
    Function.comp, Option.bind_some, List.getElem?_range hc]
  unfold Roi.Spec.radius Spec.azimuth wrapAngle Geom.arctan2
  simp only [sq]

/-! ## C231 -/

/-- `segmented_rings` in rounded arithmetic accepts the same edges as in exact arithmetic, and returns an image of the same shape in which
every pixel that is not within a few roundings of an edge of a ring or of a segment has the same label. -/
theorem C231_labels_partial {u : ℝ} {fl : ℝ → ℝ} (hrel : Spec.RelR u fl) (hu : u ≤ 1 / 1000) {at2 : ℝ → ℝ → ℝ} (hat : Spec.Arctan2 u at2)
    (edges : List ℝ) (segments : ℕ ⊕ List ℝ) (hseg : ∀ n, segments = .inl n → 1 ≤ n) (center : ℝ × ℝ) (shape : ℕ × ℕ) (offset : ℝ) :
    (∀ e, segmentedRings edges segments center shape offset = .error e → segmentedRingsF fl at2 edges segments center shape offset = .error e) ∧
    ∀ img, segmentedRings edges segments center shape offset = .ok img →
      ∃ img', segmentedRingsF fl at2 edges segments center shape offset = .ok img' ∧
        (∀ r c, (Geom.Spec.at img' r c).isSome = decide (r < shape.1 ∧ c < shape.2)) ∧
        ∀ r c, r < shape.1 → c < shape.2 →
          (∀ e ∈ edges, e ≤ Roi.Spec.radius center r c * (1 - u) ^ 4 ∨ Roi.Spec.radius center r c * (1 + u) ^ 4 < e) →
          (∀ e ∈ segmentEdges segments offset, (80 + |e|) * u < |Spec.azimuth center r c - e|) →
          Geom.Spec.at img' r c = Geom.Spec.at img r c := by
  have hu0 := hrel.1
  have hat' : ∀ (f : ℕ → ℕ → ℕ) (r c : ℕ), Geom.Spec.at ((List.range shape.1).map (fun r => (List.range shape.2).map (fun c => f r c))) r c =
      if r < shape.1 ∧ c < shape.2 then some (f r c) else none := by
    intro f r c
    unfold Geom.Spec.at
    by_cases hr : r < shape.1
    · by_cases hc : c < shape.2 <;> simp [hr, hc]
    · simp [hr]
  unfold segmentedRings segmentedRingsF
  rw [edgesOkF_eq hrel (by linarith)]
  by_cases hok : edgesOk edges
  · rw [if_pos hok, if_pos hok]
    refine ⟨fun e he => absurd he (by simp), ?_⟩
    intro img himg
    injection himg with himg
    refine ⟨_, rfl, ?_, ?_⟩
    · intro r c
      rw [hat']
      by_cases hrc : r < shape.1 ∧ c < shape.2 <;> simp [hrc]
    · intro r c hr hc hfar hang
      rw [hat', if_pos ⟨hr, hc⟩, ← himg]
      have hexact := exact_at edges (segmentEdges segments offset) center shape r c hr hc
      rw [hexact]
      congr 1
      have hlen : (segmentEdgesF fl segments offset).length = (segmentEdges segments offset).length :=
        (edges_near hrel hu segments hseg offset).length_eq
      have h1 := radius_near hrel (by linarith) center (1, 1) r c
      rw [dist_one] at h1
      have hR : 0 ≤ Roi.Spec.radius center r c := Real.sqrt_nonneg _
      have hl : Roi.Spec.radius center r c * (1 - u) ^ 4 ≤ Roi.Spec.radius center r c := by
        have : (1 - u) ^ 4 ≤ 1 := pow_le_one₀ (by linarith) (by linarith)
        nlinarith
      have hg : Roi.Spec.radius center r c ≤ Roi.Spec.radius center r c * (1 + u) ^ 4 := by
        have : 1 ≤ (1 + u) ^ 4 := one_le_pow₀ (by linarith)
        nlinarith
      apply segLabel_congr _ _ _ _ _ _ _ _ hlen
      · apply digitize_near
        have hA := angle_near hrel hu hat center r c
        have hE := edges_near hrel hu segments hseg offset
        rw [List.forall₂_iff_get] at hE ⊢
        refine ⟨hE.1, fun i h1 h2 => ?_⟩
        have e1 := hE.2 i h1 h2
        have e2 := hang _ (List.getElem_mem h2)
        simp only [List.get_eq_getElem] at e1 ⊢
        set e' := (segmentEdgesF fl segments offset)[i]
        set e := (segmentEdges segments offset)[i]
        set θ := Spec.azimuth center r c
        set θ' := wrapF fl (angleF fl at2 center r c)
        have hnn : 0 ≤ |e| * u := mul_nonneg (abs_nonneg _) hu0
        rw [abs_le] at hA e1
        rcases le_or_gt e θ with h | h
        · rw [abs_of_nonneg (sub_nonneg.2 h)] at e2
          exact ⟨fun _ => h, fun _ => by linarith [hA.1, e1.2]⟩
        · rw [abs_of_neg (sub_neg.2 h)] at e2
          exact ⟨fun h3 => by linarith [hA.2, e1.1], fun h3 => by linarith⟩
      · intro e he
        rcases hfar e he with h2 | h2
        · exact ⟨fun _ => h2.trans hl, fun _ => h2.trans h1.1⟩
        · exact ⟨fun h3 => absurd (h3.trans h1.2) (not_le.2 h2), fun h3 => absurd (h3.trans hg) (not_le.2 h2)⟩
  · rw [if_neg hok, if_neg hok]
    exact ⟨fun e he => he, fun img himg => by cases himg⟩

/-- A pixel that meets the conditions: the one at (1, 1) in a ring cut in two halves. -/
example : ∃ img, segmentedRingsF roundR (fun y x => roundR (Geom.arctan2 y x)) [1, 2] (.inl 2) (0, 0) (2, 2) 0 = .ok img ∧
    Geom.Spec.at img 1 1 = some 1 := by
  have hat : Spec.Arctan2 (1 / 2 ^ 53) (fun y x => roundR (Geom.arctan2 y x)) := fun y x => roundR_rel.2 _
  have hok : edgesOk [(1 : ℝ), 2] = true := by
    rw [edgesOk_iff]
    norm_num
  have hπ1 : 3.14 < Real.pi := Real.pi_gt_d2
  have hπ2 : Real.pi < 3.15 := Real.pi_lt_d2
  norm_num at hπ1 hπ2
  obtain ⟨img0, hex, hex1⟩ : ∃ img0, segmentedRings [1, 2] (.inl 2) (0, 0) (2, 2) 0 = .ok img0 ∧
      Geom.Spec.at img0 1 1 = some (segLabel [1, 2] (segmentEdges (.inl 2) 0) (Roi.Spec.radius (0, 0) 1 1) (Spec.azimuth (0, 0) 1 1)) := by
    unfold segmentedRings
    rw [if_pos hok]
    exact ⟨_, rfl, exact_at _ _ _ _ _ _ (by decide) (by decide)⟩
  obtain ⟨img, h1, _, h3⟩ := (C231_labels_partial roundR_rel (by norm_num) hat [1, 2] (.inl 2) (fun n hn => by injection hn; omega) (0, 0) (2, 2) 0).2 _ hex
  refine ⟨img, h1, ?_⟩
  have hrad : Roi.Spec.radius (0, 0) 1 1 = Real.sqrt 2 := by
    unfold Roi.Spec.radius
    norm_num
  have hs1 : (1.4 : ℝ) ≤ Real.sqrt 2 := Real.le_sqrt_of_sq_le (by norm_num)
  have hs2 : Real.sqrt 2 ≤ 1.5 := Real.sqrt_le_iff.2 ⟨by norm_num, by norm_num⟩
  have haz : Spec.azimuth (0, 0) 1 1 = Real.pi / 4 := by
    have ha : Complex.arg ⟨1, 1⟩ = Real.pi / 4 := by
      rw [Complex.arg_of_re_nonneg (by norm_num)]
      have h2 : ‖(⟨1, 1⟩ : ℂ)‖ = Real.sqrt 2 := by
        rw [Complex.norm_def, Complex.normSq_mk]
        norm_num
      rw [h2]
      have h3 : (1 : ℝ) / Real.sqrt 2 = Real.sin (Real.pi / 4) := by
        rw [Real.sin_pi_div_four]
        have := Real.mul_self_sqrt (show (0 : ℝ) ≤ 2 by norm_num)
        field_simp
        linarith
      rw [h3]
      exact Real.arcsin_sin (by linarith) (by linarith)
    unfold Spec.azimuth
    simp only [Nat.cast_one, sub_zero, ha]
    rw [if_neg (by linarith)]
  have hse : segmentEdges (.inl 2) 0 = [0, Real.pi, 2 * Real.pi] := by
    unfold segmentEdges
    simp [List.range_succ]
  rw [h3 1 1 (by decide) (by decide) ?_ ?_, hex1, haz, hse, hrad]
  · have hdig : digitizeG [0, Real.pi, 2 * Real.pi] (Real.pi / 4) = 1 := by
      unfold digitizeG
      have a1 : 0 ≤ Real.pi / 4 := by linarith
      have a2 : ¬ Real.pi ≤ Real.pi / 4 := by linarith
      have a3 : ¬ 2 * Real.pi ≤ Real.pi / 4 := by linarith
      simp only [List.countP_cons, List.countP_nil, a1, a2, a3, decide_true, decide_false]
      simp
    unfold segLabel
    rw [hdig]
    have b1 : 1 ≤ Real.sqrt 2 := by linarith
    have b2 : Real.sqrt 2 < 2 := by linarith
    simp [List.range_succ, b2]
  · rw [hrad]
    intro e he
    simp only [List.mem_cons, List.not_mem_nil, or_false] at he
    rcases he with rfl | rfl
    · left
      have h1 : 1.4 * (1 - 1 / 2 ^ 53 : ℝ) ^ 4 ≤ Real.sqrt 2 * (1 - 1 / 2 ^ 53) ^ 4 := mul_le_mul_of_nonneg_right hs1 (by positivity)
      refine le_trans ?_ h1
      norm_num
    · right
      have h1 : Real.sqrt 2 * (1 + 1 / 2 ^ 53 : ℝ) ^ 4 ≤ 1.5 * (1 + 1 / 2 ^ 53) ^ 4 := mul_le_mul_of_nonneg_right hs2 (by positivity)
      refine lt_of_le_of_lt h1 ?_
      norm_num
  · rw [haz, hse]
    intro e he
    simp only [List.mem_cons, List.not_mem_nil, or_false] at he
    rcases he with rfl | rfl | rfl
    · rw [abs_zero, sub_zero, abs_of_pos (by linarith)]
      norm_num
      linarith
    · rw [abs_of_pos Real.pi_pos, abs_of_neg (by linarith)]
      norm_num
      linarith
    · rw [abs_of_pos (show 0 < 2 * Real.pi by linarith), abs_of_neg (by linarith)]
      norm_num
      linarith

/-- The number of a segment is not always that of the exact azimuth, nor even one of the numbers of its ring: a pixel just below the axis
counts as being at the angle 2 pi, past the end of the last segment, and gets the label of the first segment of the next ring. -/
theorem C231_labels_refuted (at2 : ℝ → ℝ → ℝ) (hat : Spec.Arctan2 (1 / 2 ^ 53) at2) :
    (∃ img, segmentedRings [1, 2, 2, 3] (.inl 2) (1 / 2 ^ 60, 0) (1, 2) 0 = .ok img ∧ Geom.Spec.at img 0 1 = some 2) ∧
    (∃ img, segmentedRingsF roundR at2 [1, 2, 2, 3] (.inl 2) (1 / 2 ^ 60, 0) (1, 2) 0 = .ok img ∧ Geom.Spec.at img 0 1 = some 3) := by
  set p : ℚ := 884279719003555 / 281474976710656 with hp
  have hπ1 := Real.pi_gt_d20
  have hπ2 := Real.pi_lt_d20
  have hπ0 := Real.pi_pos
  have hw : ∀ z : ℤ, |z| ≤ 2 ^ 53 → roundR z = z := fun z hz => roundR_whole z (by exact_mod_cast hz)
  have h1 : roundR 1 = 1 := by simpa using hw 1 (by norm_num)
  have h0 : roundR 0 = 0 := by simpa using hw 0 (by norm_num)
  have hpi : roundR Real.pi = (p : ℝ) := by
    apply le_antisymm
    · have h := roundR_mono Real.pi ((314159265358979323847 / 100000000000000000000 : ℚ) : ℝ) (by push_cast; norm_num at hπ2 ⊢; linarith)
      rw [roundR_rat, show round53 (314159265358979323847 / 100000000000000000000) = 884279719003555 / 281474976710656 by decide +kernel] at h
      exact h
    · have h := roundR_mono ((314159265358979323846 / 100000000000000000000 : ℚ) : ℝ) Real.pi (by push_cast; norm_num at hπ1 ⊢; linarith)
      rw [roundR_rat, show round53 (314159265358979323846 / 100000000000000000000) = 884279719003555 / 281474976710656 by decide +kernel] at h
      exact h
  have hrat : ∀ (q q' : ℚ), round53 q = q' → roundR (q : ℝ) = (q' : ℝ) := by
    intro q q' h
    rw [roundR_rat, h]
  have hpp : roundR (p : ℝ) = p := hrat p p (by rw [hp]; decide +kernel)
  have h2pp : roundR ((2 * p : ℚ) : ℝ) = ((2 * p : ℚ) : ℝ) := hrat _ _ (by rw [hp]; decide +kernel)
  have h2p : twoPiF roundR = ((2 * p : ℚ) : ℝ) := by
    unfold twoPiF
    rw [hpi]
    have : (2 : ℝ) * (p : ℝ) = ((2 * p : ℚ) : ℝ) := by push_cast; ring
    rw [this, h2pp]
  have hd : roundR (0 - 1 / 2 ^ 60) = -(1 / 2 ^ 60) := by
    have h := hrat (-(1 / 2 ^ 60)) (-(1 / 2 ^ 60)) (by decide +kernel)
    push_cast at h
    rw [zero_sub]
    exact h
  have hd2 : roundR (-(1 / 2 ^ 60)) = -(1 / 2 ^ 60) := by rw [← zero_sub, hd, zero_sub]
  -- the angle of the pixel
  have harg : -(1 / 2 ^ 60) ≤ Complex.arg ⟨1, -(1 / 2 ^ 60)⟩ ∧ Complex.arg ⟨1, -(1 / 2 ^ 60)⟩ < 0 := by
    have hneg : Complex.arg ⟨1, -(1 / 2 ^ 60)⟩ < 0 := by
      rw [Complex.arg_neg_iff]
      norm_num
    refine ⟨?_, hneg⟩
    have h2 := Complex.tan_arg ⟨1, -(1 / 2 ^ 60)⟩
    have h3 : |Complex.arg ⟨1, -(1 / 2 ^ 60)⟩| < Real.pi / 2 := Complex.abs_arg_lt_pi_div_two_iff.2 (Or.inl (by norm_num))
    rw [abs_of_neg hneg] at h3
    have h4 := Real.le_tan (x := -Complex.arg ⟨1, -(1 / 2 ^ 60)⟩) (by linarith) h3
    rw [Real.tan_neg, h2] at h4
    simp only [div_one] at h4
    linarith
  have hA0 : angleF roundR at2 (1 / 2 ^ 60, 0) 0 1 = at2 (-(1 / 2 ^ 60)) 1 := by
    unfold angleF
    simp only [Nat.cast_zero, Nat.cast_one, sub_zero, one_mul, h1, hd, hd2]
  have hA := hat (-(1 / 2 ^ 60)) 1
  rw [← hA0] at hA
  unfold Geom.arctan2 at hA
  rw [abs_of_neg harg.2, abs_le] at hA
  have hAneg : angleF roundR at2 (1 / 2 ^ 60, 0) 0 1 < 0 := by linarith [hA.2, harg.2]
  have hAlow : -(1 / 2 ^ 59) ≤ angleF roundR at2 (1 / 2 ^ 60, 0) 0 1 := by
    have e1 := hA.1
    have e2 := harg.1
    have e3 := harg.2
    set φ := Complex.arg ⟨1, -(1 / 2 ^ 60)⟩
    norm_num at e1 e2 ⊢
    linarith
  have hwrap : wrapF roundR (angleF roundR at2 (1 / 2 ^ 60, 0) 0 1) = ((2 * p : ℚ) : ℝ) := by
    unfold wrapF
    rw [if_pos hAneg, h2p]
    apply le_antisymm
    · have := roundR_mono (((2 * p : ℚ) : ℝ) + angleF roundR at2 (1 / 2 ^ 60, 0) 0 1) ((2 * p : ℚ) : ℝ) (by linarith)
      rwa [h2pp] at this
    · have := roundR_mono ((2 * p - 1 / 2 ^ 59 : ℚ) : ℝ) (((2 * p : ℚ) : ℝ) + angleF roundR at2 (1 / 2 ^ 60, 0) 0 1)
        (by push_cast at hAlow ⊢; linarith)
      rwa [hrat (2 * p - 1 / 2 ^ 59) (2 * p) (by rw [hp]; decide +kernel)] at this
  have hok : edgesOk [(1 : ℝ), 2, 2, 3] = true := by
    rw [edgesOk_iff]
    norm_num
  have hpos : (0 : ℝ) < p := by rw [hp]; norm_num
  have hedges : segmentEdgesF roundR (.inl 2) 0 = [0, (p : ℝ), ((2 * p : ℚ) : ℝ)] := by
    unfold segmentEdgesF
    have h2p' := h2pp
    push_cast at h2p'
    simp [List.range_succ, h2p, h0, hpp, h2p']
  have hrad : radiusF roundR (1 / 2 ^ 60, 0) (1, 1) 0 1 = 1 := by
    unfold radiusF
    have e1 : roundR (-(1 / 2 ^ 60) * -(1 / 2 ^ 60)) = 1 / 2 ^ 120 := by
      have h := hrat (1 / 2 ^ 120) (1 / 2 ^ 120) (by decide +kernel)
      push_cast at h
      rw [show (-(1 / 2 ^ 60) * -(1 / 2 ^ 60) : ℝ) = 1 / 2 ^ 120 by norm_num]
      exact h
    have e2 : roundR (1 + 1 / 2 ^ 120) = 1 := by
      have h := hrat (1 + 1 / 2 ^ 120) 1 (by decide +kernel)
      push_cast at h
      exact h
    simp only [Nat.cast_zero, Nat.cast_one, sub_zero, one_mul, mul_one, h1, hd, hd2, e1, e2, Real.sqrt_one]
  constructor
  · unfold segmentedRings
    rw [if_pos hok]
    refine ⟨_, rfl, ?_⟩
    rw [exact_at _ _ _ _ _ _ (by decide) (by decide)]
    have haz : Spec.azimuth (1 / 2 ^ 60, 0) 0 1 = 2 * Real.pi + Complex.arg ⟨1, -(1 / 2 ^ 60)⟩ := by
      unfold Spec.azimuth
      simp only [Nat.cast_zero, Nat.cast_one, sub_zero, zero_sub]
      rw [if_pos harg.2]
    have hse : segmentEdges (.inl 2) 0 = [0, Real.pi, 2 * Real.pi] := by
      unfold segmentEdges
      simp [List.range_succ]
    have hφ : -1 ≤ Complex.arg ⟨1, -(1 / 2 ^ 60)⟩ := le_trans (by norm_num) harg.1
    have hdig : digitizeG [0, Real.pi, 2 * Real.pi] (2 * Real.pi + Complex.arg ⟨1, -(1 / 2 ^ 60)⟩) = 2 := by
      unfold digitizeG
      have a1 : 0 ≤ 2 * Real.pi + Complex.arg ⟨1, -(1 / 2 ^ 60)⟩ := by norm_num at hπ1; linarith
      have a2 : Real.pi ≤ 2 * Real.pi + Complex.arg ⟨1, -(1 / 2 ^ 60)⟩ := by norm_num at hπ1; linarith
      have a3 : ¬ (2 * Real.pi ≤ 2 * Real.pi + Complex.arg ⟨1, -(1 / 2 ^ 60)⟩) := by linarith [harg.2]
      simp only [List.countP_cons, List.countP_nil, a1, a2, a3, decide_true, decide_false]
      simp
    rw [haz, hse]
    unfold segLabel
    rw [hdig]
    have hr1 : 1 ≤ Roi.Spec.radius (1 / 2 ^ 60, 0) 0 1 := by
      unfold Roi.Spec.radius
      rw [Real.one_le_sqrt]
      norm_num
    have hr2 : Roi.Spec.radius (1 / 2 ^ 60, 0) 0 1 < 2 := by
      unfold Roi.Spec.radius
      rw [Real.sqrt_lt' (by norm_num)]
      norm_num
    have hr3 : ¬ 2 ≤ Roi.Spec.radius (1 / 2 ^ 60, 0) 0 1 := not_le.2 hr2
    generalize Roi.Spec.radius (1 / 2 ^ 60, 0) 0 1 = ρ at hr1 hr2 hr3 ⊢
    simp [List.range_succ, hr1, hr2, hr3]
  · unfold segmentedRingsF
    rw [edgesOkF_eq roundR_rel (by norm_num), if_pos hok]
    refine ⟨_, rfl, ?_⟩
    have : Geom.Spec.at ((List.range 1).map (fun r => (List.range 2).map (fun c => segLabel [1, 2, 2, 3] (segmentEdgesF roundR (.inl 2) 0)
        (radiusF roundR (1 / 2 ^ 60, 0) (1, 1) r c) (wrapF roundR (angleF roundR at2 (1 / 2 ^ 60, 0) r c))))) 0 1 =
        some (segLabel [1, 2, 2, 3] (segmentEdgesF roundR (.inl 2) 0)
        (radiusF roundR (1 / 2 ^ 60, 0) (1, 1) 0 1) (wrapF roundR (angleF roundR at2 (1 / 2 ^ 60, 0) 0 1))) := rfl
    rw [this, hrad, hwrap, hedges]
    have hdig : digitizeG [0, (p : ℝ), ((2 * p : ℚ) : ℝ)] ((2 * p : ℚ) : ℝ) = 3 := by
      unfold digitizeG
      have : (p : ℝ) ≤ 2 * p := by linarith
      simp [hpos.le, this]
    unfold segLabel
    rw [hdig]
    norm_num [List.range_succ]

end Verif.Roi.Rnd
