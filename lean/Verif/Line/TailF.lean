/- C266: gaussian_tail in floating point with underflow (skbeam/core/fitting/lineshapes.py 195-234). -/
import Verif.Line.TailProps
import Mathlib.Analysis.Complex.ExponentialBounds

namespace Verif.Line
open Verif Real

/-- Floating-point arithmetic with the exponential and complementary error function of the library. -/
structure TailArith where
  fl : ℝ → ℝ
  exp : ℝ → ℝ
  erfc : ℝ → ℝ

/-- `v2`, lineshapes.py 231, with a rounding after every operation. -/
noncomputable def tailV2 (A : TailArith) (sigma gamma : ℝ) : ℝ := A.fl (A.fl (A.fl (2 * gamma) * sigma) * A.exp (A.fl (-(1 / 2) / A.fl (gamma ^ 2))))

/-- `v1`, lineshapes.py 230. -/
noncomputable def tailV1 (A : TailArith) (x center sigma gamma : ℝ) : ℝ :=
  A.erfc (A.fl (A.fl (A.fl (x - center) / A.fl (A.fl √2 * sigma)) + A.fl (1 / A.fl (gamma * A.fl √2))))

/-- `temp_a`, lineshapes.py 225-228. -/
noncomputable def tailA (A : TailArith) (x center sigma gamma : ℝ) : ℝ := A.exp (A.fl (min (A.fl (x - center)) 0 / A.fl (gamma * sigma)))

open Classical in
/-- `gaussian_tail`, lineshapes.py 195-234, one point; `none` is NaN or an infinity (division by zero in line 232).  Overflow is not modelled. -/
noncomputable def gaussianTailF (A : TailArith) (x area center sigma gamma : ℝ) : Option ℝ :=
  if tailV2 A sigma gamma = 0 then none
  else some (A.fl (A.fl (area * tailA A x center sigma gamma) * A.fl (tailV1 A x center sigma gamma / tailV2 A sigma gamma)))

/-! ### Specification -/

/-- Arithmetic in a format with underflow: the rounding keeps the order and 0, is accurate to u for numbers of at least 2^-1022, and
the exponential is 0 where the exact value is below half of the smallest number (2^-1075); neither library function is negative. -/
structure Spec.Underflows (u : ℝ) (A : TailArith) : Prop where
  small : u ≤ 1 / 1000
  zero : A.fl 0 = 0
  mono : ∀ x y, x ≤ y → A.fl x ≤ A.fl y
  rel : ∀ x, 1 / 2 ^ 1022 ≤ |x| → |A.fl x - x| ≤ u * |x|
  exp_zero : ∀ x, Real.exp x < 1 / 2 ^ 1075 → A.exp x = 0
  exp_nonneg : ∀ x, 0 ≤ A.exp x
  erfc_nonneg : ∀ x, 0 ≤ A.erfc x

theorem Spec.Underflows.nonneg {u : ℝ} {A : TailArith} (h : Spec.Underflows u A) {x : ℝ} (hx : 0 ≤ x) : 0 ≤ A.fl x := h.zero ▸ h.mono 0 x hx

/-! ## C266 -/

/-- C266: wherever gaussian_tail gives a number, it is not negative. -/
theorem C266_nonneg_partial (u : ℝ) (A : TailArith) (h : Spec.Underflows u A) (x area center sigma gamma : ℝ) (ha : 0 ≤ area) (hs : 0 < sigma)
    (hg : 0 < gamma) (y : ℝ) (hy : gaussianTailF A x area center sigma gamma = some y) : 0 ≤ y := by
  unfold gaussianTailF at hy
  split_ifs at hy with h0
  cases hy
  have hv2 : 0 ≤ tailV2 A sigma gamma := by
    unfold tailV2
    exact h.nonneg (mul_nonneg (h.nonneg (mul_nonneg (h.nonneg (by positivity)) hs.le)) (h.exp_nonneg _))
  apply h.nonneg
  apply mul_nonneg
  · exact h.nonneg (mul_nonneg ha (h.exp_nonneg _))
  · exact h.nonneg (div_nonneg (h.erfc_nonneg _) hv2)

/-- C266: it is a number exactly if v2 has not underflowed, which depends on neither x, area nor center. -/
theorem C266_number_partial (A : TailArith) (x area center x' area' center' sigma gamma : ℝ) :
    (gaussianTailF A x area center sigma gamma).isSome = (gaussianTailF A x' area' center' sigma gamma).isSome := by
  unfold gaussianTailF
  split_ifs <;> rfl

/-- C266, where the claim fails: for gamma up to 0.025 every point of the tail is NaN or infinite, whatever x, area, center and sigma. -/
theorem C266_nan_refuted (u : ℝ) (A : TailArith) (h : Spec.Underflows u A) (x area center sigma gamma : ℝ) (hg0 : 1 / 2 ^ 500 ≤ gamma) (hg : gamma ≤ 1 / 40) :
    gaussianTailF A x area center sigma gamma = none := by
  have hgp : 0 < gamma := lt_of_lt_of_le (by positivity) hg0
  have hu := h.small
  have hsq : gamma ^ 2 ≤ 1 / 1600 := by nlinarith
  have hsq0 : (1 : ℝ) / 2 ^ 1000 ≤ gamma ^ 2 := by
    have : ((1 : ℝ) / 2 ^ 500) ^ 2 ≤ gamma ^ 2 := pow_le_pow_left₀ (by positivity) hg0 2
    refine le_trans (le_of_eq ?_) this
    rw [div_pow, one_pow, ← pow_mul]
  have hlow : (1 : ℝ) / 2 ^ 1022 ≤ 1 / 2 ^ 1000 := one_div_le_one_div_of_le (by positivity) (pow_le_pow_right₀ (by norm_num) (by norm_num))
  have hsqp : 0 < gamma ^ 2 := by positivity
  have r1 := h.rel (gamma ^ 2) (by rw [abs_of_pos hsqp]; linarith)
  rw [abs_of_pos hsqp] at r1
  obtain ⟨g2, hg2⟩ : ∃ g2, g2 = A.fl (gamma ^ 2) := ⟨_, rfl⟩
  rw [← hg2] at r1
  obtain ⟨r1a, r1b⟩ := abs_le.1 r1
  have hub : u * gamma ^ 2 ≤ 1 / 1000 * gamma ^ 2 := mul_le_mul_of_nonneg_right hu hsqp.le
  have hg2p : 0 < g2 := by nlinarith
  have hg2b : g2 ≤ 1001 / 1000 / 1600 := by nlinarith
  have e1 : -(1 / 2) / g2 ≤ -799 := by
    rw [div_le_iff₀ hg2p]
    nlinarith
  have r2 := h.rel (-799) (by
    rw [abs_neg, abs_of_pos (by norm_num : (0 : ℝ) < 799)]
    exact (div_le_one (by positivity)).2 (one_le_pow₀ (by norm_num)) |>.trans (by norm_num))
  have e2 : A.fl (-(1 / 2) / g2) ≤ -798 := by
    have := h.mono _ _ e1
    rw [abs_neg, abs_of_pos (by norm_num : (0 : ℝ) < 799)] at r2
    have := (abs_le.1 r2).2
    nlinarith
  have e3 : A.exp (A.fl (-(1 / 2) / g2)) = 0 := by
    apply h.exp_zero
    have hlog := Real.log_two_lt_d9
    have : Real.exp (A.fl (-(1 / 2) / g2)) < Real.exp (-(1075 * Real.log 2)) := by
      apply Real.exp_lt_exp.2
      nlinarith
    refine this.trans_le (le_of_eq ?_)
    rw [Real.exp_neg, show (1075 : ℝ) * Real.log 2 = ((1075 : ℕ) : ℝ) * Real.log 2 by norm_num, Real.exp_nat_mul, Real.exp_log (by norm_num), one_div]
  unfold gaussianTailF
  rw [if_pos]
  unfold tailV2
  rw [← hg2, e3, mul_zero, h.zero]

/-- The exact tail is a positive number there. -/
theorem C266_exact_positive (x area center sigma gamma : ℝ) (ha : 0 < area) (hs : 0 < sigma) (hg : 0 < gamma) :
    0 < gaussianTail x area center sigma gamma := by
  unfold gaussianTail
  simp only
  have := erfc_pos ((x - center) / (√2 * sigma) + 1 / (gamma * √2))
  positivity

/-- C266: without rounding and underflow it is the tail of the formula (C91), so the arithmetic alone makes the difference. -/
theorem C266_formula (x area center sigma gamma : ℝ) (hs : 0 < sigma) (hg : 0 < gamma) :
    gaussianTailF ⟨id, Real.exp, Line.erfc⟩ x area center sigma gamma = some (gaussianTail x area center sigma gamma) := by
  have hmin : min (x - center) 0 = if x - center > 0 then 0 else x - center := by
    split_ifs with h
    · exact min_eq_right h.le
    · exact min_eq_left (not_lt.1 h)
  unfold gaussianTailF
  rw [if_neg]
  · simp only [tailV2, tailV1, tailA, id, gaussianTail, hmin]
  · have : 0 < Real.exp (-(1 / 2) / gamma ^ 2) := Real.exp_pos _
    simp only [tailV2, id]
    positivity

open Classical in
/-- An arithmetic as assumed: exact but for the underflow of the exponential. -/
example : ∃ A, Spec.Underflows 0 A := by
  refine ⟨⟨id, fun x => if Real.exp x < 1 / 2 ^ 1075 then 0 else Real.exp x, Line.erfc⟩, ⟨by norm_num, rfl, fun _ _ h => h, fun x _ => by simp, ?_, ?_, erfc_nonneg⟩⟩
  · intro x hx; simp only [hx, if_true]
  · intro x; simp only; split_ifs <;> [exact le_rfl; exact (Real.exp_pos x).le]

end Verif.Line
