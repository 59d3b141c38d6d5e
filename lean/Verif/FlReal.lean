/- Rounding of real numbers to double precision, for results that need not be rational (square roots). -/
import Verif.FlMono
import Verif.Speckle.Round
import Mathlib.Algebra.Order.Archimedean.Real.Basic

namespace Verif.Fl

/-- The relative error of a rounding of real numbers is at most u. -/
def Spec.RelR (u : ℝ) (fl : ℝ → ℝ) : Prop := 0 ≤ u ∧ ∀ x, |fl x - x| ≤ u * |x|

/-- Whole numbers up to N in size are represented exactly. -/
def Spec.WholeR (N : ℕ) (fl : ℝ → ℝ) : Prop := ∀ z : ℤ, |z| ≤ N → fl z = z

/-- Double precision for real numbers: the least upper bound of the rounded rational numbers below.  It agrees with round53 on rational
numbers; midpoints between doubles are rational, so elsewhere there are no ties. -/
noncomputable def roundR (x : ℝ) : ℝ := sSup ((fun q : ℚ => (round53 q : ℝ)) '' {q | (q : ℝ) ≤ x})

theorem round53_bounds (q : ℚ) : (round53 q : ℝ) ≤ q + 1 / 2 ^ 53 * |(q : ℝ)| ∧ (q : ℝ) - 1 / 2 ^ 53 * |(q : ℝ)| ≤ round53 q := by
  have h := round53_rel.2 q
  have h2 : ((|round53 q - q| : ℚ) : ℝ) ≤ ((1 / 2 ^ 53 * |q| : ℚ) : ℝ) := Rat.cast_le.2 h
  have h' : |(round53 q : ℝ) - q| ≤ 1 / 2 ^ 53 * |(q : ℝ)| := by
    rw [Rat.cast_abs, Rat.cast_sub, Rat.cast_mul, Rat.cast_abs] at h2
    simpa using h2
  rw [abs_le] at h'
  constructor <;> linarith [h'.1, h'.2]

theorem upper_mono {u x y : ℝ} (h1 : u ≤ 1) (h0 : 0 ≤ u) (h : x ≤ y) : x + u * |x| ≤ y + u * |y| := by
  have := abs_sub_abs_le_abs_sub x y
  have h2 : u * (|x| - |y|) ≤ u * |x - y| := mul_le_mul_of_nonneg_left this h0
  rw [abs_of_nonpos (by linarith : x - y ≤ 0)] at h2
  nlinarith

theorem roundR_bdd (x : ℝ) : BddAbove ((fun q : ℚ => (round53 q : ℝ)) '' {q | (q : ℝ) ≤ x}) := by
  refine ⟨x + 1 / 2 ^ 53 * |x|, ?_⟩
  rintro _ ⟨q, hq, rfl⟩
  exact (round53_bounds q).1.trans (upper_mono (by norm_num) (by norm_num) hq)

theorem roundR_nonempty (x : ℝ) : ((fun q : ℚ => (round53 q : ℝ)) '' {q | (q : ℝ) ≤ x}).Nonempty := by
  obtain ⟨q, hq⟩ := exists_rat_lt x
  exact ⟨_, q, hq.le, rfl⟩

theorem roundR_rat (q : ℚ) : roundR q = round53 q := by
  apply le_antisymm
  · apply csSup_le (roundR_nonempty _)
    rintro _ ⟨p, hp, rfl⟩
    have : p ≤ q := by exact_mod_cast (show (p : ℝ) ≤ q from hp)
    exact Rat.cast_le.2 (round53_correct.mono p q this)
  · exact le_csSup (roundR_bdd _) ⟨q, le_refl (q : ℝ), rfl⟩

theorem roundR_mono (x y : ℝ) (h : x ≤ y) : roundR x ≤ roundR y := by
  apply csSup_le_csSup (roundR_bdd y) (roundR_nonempty x)
  rintro _ ⟨q, hq, rfl⟩
  exact ⟨q, le_trans hq h, rfl⟩

theorem roundR_rel : Spec.RelR (1 / 2 ^ 53) roundR := by
  refine ⟨by norm_num, ?_⟩
  intro x
  have hup : roundR x ≤ x + 1 / 2 ^ 53 * |x| := by
    apply csSup_le (roundR_nonempty _)
    rintro _ ⟨q, hq, rfl⟩
    exact (round53_bounds q).1.trans (upper_mono (by norm_num) (by norm_num) hq)
  have hlow : x - 1 / 2 ^ 53 * |x| ≤ roundR x := by
    apply le_of_forall_pos_lt_add
    intro ε hε
    obtain ⟨q, h1, h2⟩ := exists_rat_btwn (show x - ε / 2 < x by linarith)
    have h3 : (round53 q : ℝ) ≤ roundR x := le_csSup (roundR_bdd x) ⟨q, h2.le, rfl⟩
    have h4 := (round53_bounds q).2
    have h5 : |(q : ℝ)| ≤ |x| + ε / 2 := by
      have := abs_sub_abs_le_abs_sub (q : ℝ) x
      rw [abs_of_neg (by linarith : (q : ℝ) - x < 0)] at this
      linarith
    have h6 : (1 / 2 ^ 53 : ℝ) * |(q : ℝ)| ≤ 1 / 2 ^ 53 * (|x| + ε / 2) := mul_le_mul_of_nonneg_left h5 (by norm_num)
    have h7 : (1 / 2 ^ 53 : ℝ) * (ε / 2) ≤ 1 / 2 * (ε / 2) := mul_le_mul_of_nonneg_right (by norm_num) (by linarith)
    rw [mul_add] at h6
    linarith
  rw [abs_le]
  constructor <;> linarith

theorem roundR_whole : Spec.WholeR (2 ^ 53) roundR := by
  have hn : ∀ n : ℕ, n ≤ 2 ^ 53 → round53 n = n := by
    intro n hn
    rcases Nat.lt_or_eq_of_le hn with h | h
    · exact Speckle.round53_whole n h
    · rw [h]; decide +kernel
  intro z hz
  have h1 : round53 (z : ℚ) = z := by
    obtain ⟨n, rfl | rfl⟩ := z.eq_nat_or_neg
    · exact_mod_cast hn n (by simpa using (by exact_mod_cast hz : |(n : ℤ)| ≤ ((2 ^ 53 : ℕ) : ℤ)))
    · have h1 := hn n (by rw [abs_neg] at hz; simpa using (by exact_mod_cast hz : |(n : ℤ)| ≤ ((2 ^ 53 : ℕ) : ℤ)))
      push_cast
      rw [round53_correct.neg, h1]
  have := roundR_rat z
  rw [h1] at this
  exact_mod_cast this

end Verif.Fl
