/- C260: poisson_dist with the documented arguments, an integer mean and integer counts (skbeam/core/fitting/lineshapes.py 473-501). -/
import Verif.Wrap.Model
import Verif.Line.Model
import Mathlib.Tactic.NormNum

namespace Verif.Wrap
open Verif Real

/-- `np.exp(-K) * np.power(K, bin_values) / gamma(bin_values + 1)`, lineshapes.py 500, for a mean K and an array of counts of integer type `t`:
`np.power` of integers is computed in the type (`np.arange`: int64, `sint 64`), the rest in floating point (exact here). -/
noncomputable def poissonI (t : IntType) (k : ℕ) (K : ℤ) : ℝ := exp (-(K : ℝ)) * ((t.wrap (K ^ k) : ℤ) : ℝ) / Gamma (k + 1)

/-! ### Specification -/

/-- The probability of k photons at the mean K. -/
noncomputable def Spec.poisson (k : ℕ) (K : ℤ) : ℝ := exp (-(K : ℝ)) * (K : ℝ) ^ k / k.factorial

/-! ## C260 -/

/-- C260: the value is the Poisson probability exactly if K^k fits the type. -/
theorem C260_iff_partial (t : IntType) (k : ℕ) (K : ℤ) : poissonI t k K = Spec.poisson k K ↔ t.Holds (K ^ k) := by
  unfold poissonI Spec.poisson
  rw [Real.Gamma_nat_eq_factorial]
  have hf : ((k.factorial : ℕ) : ℝ) ≠ 0 := by exact_mod_cast k.factorial_ne_zero
  rw [div_left_inj' hf, mul_right_inj' (exp_pos _).ne']
  rw [show ((K : ℝ) ^ k) = ((K ^ k : ℤ) : ℝ) by push_cast; rfl, Int.cast_inj, wrap_eq_self]

/-- C260, where the claim fails: at every mean from 2 on, every count from the number of bits on has a wrong probability. -/
theorem C260_large_counts_refuted (t : IntType) (k : ℕ) (K : ℤ) (hK : 2 ≤ K) (hk : t.bits ≤ k) : poissonI t k K ≠ Spec.poisson k K := by
  rw [Ne, C260_iff_partial]
  intro h
  have h1 : (2 : ℤ) ^ t.bits ≤ K ^ k := by
    calc (2 : ℤ) ^ t.bits ≤ 2 ^ k := pow_le_pow_right₀ (by norm_num) hk
      _ ≤ K ^ k := pow_le_pow_left₀ (by norm_num) hK k
  have h2 := h.2
  have h3 := hi_eq t
  have h4 : t.lo ≤ 0 := by unfold IntType.lo; split_ifs <;> simp
  omega

/-- C260, where the claim fails: at an even mean these probabilities are 0. -/
theorem C260_even_mean_refuted (t : IntType) (k : ℕ) (K : ℤ) (hK : 2 ∣ K) (hk : t.bits ≤ k) : poissonI t k K = 0 := by
  have h : t.wrap (K ^ k) = 0 := by
    rw [wrap_iff]
    refine ⟨?_, ?_⟩
    · constructor
      · unfold IntType.lo; split_ifs <;> simp
      · have h3 := hi_eq t
        unfold IntType.hi
        split_ifs
        · have : (0 : ℤ) < 2 ^ (t.bits - 1) := by positivity
          omega
        · have : (0 : ℤ) < 2 ^ t.bits := by positivity
          omega
    · have : (2 : ℤ) ^ t.bits ∣ K ^ k := (pow_dvd_pow 2 hk).trans (pow_dvd_pow_of_dvd hK k)
      exact ((Int.modEq_zero_iff_dvd).2 this).symm
  unfold poissonI
  rw [h]
  simp

/-- C260, where the claim fails: 19 photons at the mean 10 have a negative probability. -/
theorem C260_negative_refuted : poissonI (sint 64 (by norm_num)) 19 10 < 0 ∧ 0 < Spec.poisson 19 10 := by
  have h : (sint 64 (by norm_num)).wrap (10 ^ 19) = -8446744073709551616 := by decide +kernel
  constructor
  · unfold poissonI
    rw [h]
    apply div_neg_of_neg_of_pos
    · apply mul_neg_of_pos_of_neg (exp_pos _)
      norm_num
    · exact Real.Gamma_pos_of_pos (by positivity)
  · unfold Spec.poisson
    positivity

/-- 18 photons at the mean 10 are still right. -/
example : poissonI (sint 64 (by norm_num)) 18 10 = Spec.poisson 18 10 :=
  (C260_iff_partial _ _ _).2 (by constructor <;> norm_num [IntType.lo, IntType.hi, sint])

/-- The specification is the distribution of C90. -/
example (k : ℕ) (K : ℤ) : Spec.poisson k K = Line.poissonDist k K := by
  unfold Spec.poisson Line.poissonDist
  rw [Real.Gamma_nat_eq_factorial, Real.rpow_natCast]

end Verif.Wrap
