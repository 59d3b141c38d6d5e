/- C274: nbinom_dist in floating point with overflow (skbeam/core/fitting/lineshapes.py 428-470). -/
import Verif.Line.PoissonF
import Mathlib.Data.Nat.Choose.Central

namespace Verif.Line
open Verif Real

/-- `nbinom_dist`, lineshapes.py 428-470, with overflow: `co_eff` (467) and the two powers (469) are results of their own, multiplied from the
left.  The rounding of the exponent (`gammaln` and two differences) is left out. -/
noncomputable def nbinomF (A : ExtArith) (k : ℕ) (K M : ℝ) : Ext :=
  Ext.mul A (Ext.mul A (A.out (Real.exp (gammaln (k + M) - gammaln (k + 1) - gammaln M))) (A.out ((M / (K + M)) ^ M))) (A.out ((K / (M + K)) ^ (k : ℝ)))

/-! ### Specification -/

/-- The number of ways to distribute k photons over M modes, Γ(k + M) / (k! Γ(M)). -/
noncomputable def Spec.ways (k : ℕ) (M : ℝ) : ℝ := Gamma (k + M) / (k.factorial * Gamma M)

theorem coeff_eq (k : ℕ) (M : ℝ) (hM : 0 < M) : Real.exp (gammaln (k + M) - gammaln (k + 1) - gammaln M) = Spec.ways k M := by
  have h1 : 0 < Gamma ((k : ℝ) + M) := Gamma_pos_of_pos (by positivity)
  have h2 : 0 < Gamma ((k : ℝ) + 1) := Gamma_pos_of_pos (by positivity)
  have h3 : 0 < Gamma M := Gamma_pos_of_pos hM
  unfold gammaln Spec.ways
  rw [abs_of_pos h1, abs_of_pos h2, abs_of_pos h3, exp_sub, exp_sub, exp_log h1, exp_log h2, exp_log h3, ← Gamma_nat_eq_factorial, div_div]

/-! ## C274 -/

/-- C274: as long as the number of ways is at most 2^1023 the result is a number, not negative. -/
theorem C274_number_partial (A : ExtArith) (h : Spec.Double A) (hone : ∀ x, 0 ≤ x → x ≤ 1 → ∃ y, A.out x = .num y ∧ 0 ≤ y ∧ y ≤ 1)
    (k : ℕ) (K M : ℝ) (hK : 0 ≤ K) (hM : 0 < M) (hw : Spec.ways k M ≤ 2 ^ 1023) : ∃ y, nbinomF A k K M = .num y ∧ 0 ≤ y := by
  have hw0 : 0 ≤ Spec.ways k M := by rw [← coeff_eq k M hM]; exact (exp_pos _).le
  obtain ⟨c, hc1, hc2, hc3, _⟩ := h.number _ hw0 hw
  have a0 : 0 ≤ M / (K + M) := by positivity
  have a1 : M / (K + M) ≤ 1 := (div_le_one (by linarith)).2 (by linarith)
  have b0 : 0 ≤ K / (M + K) := by positivity
  have b1 : K / (M + K) ≤ 1 := (div_le_one (by linarith)).2 (by linarith)
  obtain ⟨p, hp1, hp2, hp3⟩ := hone _ (rpow_nonneg a0 M) (rpow_le_one a0 a1 hM.le)
  obtain ⟨q, hq1, hq2, hq3⟩ := hone _ (rpow_nonneg b0 (k : ℝ)) (rpow_le_one b0 b1 (Nat.cast_nonneg k))
  obtain ⟨t, ht1, ht2, ht3, _⟩ := h.number (c * p) (mul_nonneg hc2 hp2) ((mul_le_of_le_one_right hc2 hp3).trans hc3)
  obtain ⟨r, hr1, hr2, _⟩ := h.number (t * q) (mul_nonneg ht2 hq2) ((mul_le_of_le_one_right ht2 hq3).trans ht3)
  refine ⟨r, ?_, hr2⟩
  unfold nbinomF
  rw [coeff_eq k M hM, hc1, hp1, hq1]
  simp only [Ext.mul]
  rw [ht1]
  simp only
  exact hr1

/-- C274, where the claim fails: if the number of ways is 2^1024 or more the result is infinite or NaN, although the probability is at most 1. -/
theorem C274_infinite_refuted (A : ExtArith) (h : Spec.Double A) (k : ℕ) (K M : ℝ) (hM : 0 < M) (hw : 2 ^ 1024 ≤ Spec.ways k M) :
    ∀ y, nbinomF A k K M ≠ .num y := by
  intro y
  unfold nbinomF
  rw [coeff_eq k M hM, h.over _ hw]
  cases A.out ((M / (K + M)) ^ M) with
  | num p =>
    simp only [Ext.mul]
    by_cases hp : p = 0
    · rw [if_pos hp]; cases A.out ((K / (M + K)) ^ (k : ℝ)) <;> simp [Ext.mul]
    · rw [if_neg hp]
      cases A.out ((K / (M + K)) ^ (k : ℝ)) with
      | num q => simp only [Ext.mul]; split_ifs <;> simp
      | inf => simp [Ext.mul]
      | nan => simp [Ext.mul]
  | inf => cases A.out ((K / (M + K)) ^ (k : ℝ)) <;> simp [Ext.mul] <;> split_ifs <;> simp
  | nan => cases A.out ((K / (M + K)) ^ (k : ℝ)) <;> simp [Ext.mul]

/-- C274, where the claim fails: k photons in k + 1 modes, k from 600 on, at any mean. -/
theorem C274_modes_refuted (A : ExtArith) (h : Spec.Double A) (k : ℕ) (K : ℝ) (hk : 600 ≤ k) : ∀ y, nbinomF A k K (k + 1) ≠ .num y := by
  apply C274_infinite_refuted A h k K _ (by positivity)
  have hways : Spec.ways k ((k : ℝ) + 1) = (Nat.centralBinom k : ℝ) := by
    unfold Spec.ways
    rw [show (k : ℝ) + ((k : ℝ) + 1) = ((2 * k : ℕ) : ℝ) + 1 by push_cast; ring, Gamma_nat_eq_factorial, Gamma_nat_eq_factorial]
    have hc := Nat.choose_mul_factorial_mul_factorial (show k ≤ 2 * k by omega)
    rw [show 2 * k - k = k by omega] at hc
    have hc' : ((Nat.choose (2 * k) k : ℕ) : ℝ) * k.factorial * k.factorial = ((2 * k).factorial : ℝ) := by exact_mod_cast hc
    have hf : ((k.factorial : ℕ) : ℝ) ≠ 0 := by exact_mod_cast k.factorial_ne_zero
    rw [Nat.centralBinom_eq_two_mul_choose, ← hc']
    field_simp
  rw [hways]
  have h600 : 2 ^ 1024 ≤ Nat.centralBinom 600 := by
    have := Nat.four_pow_le_two_mul_self_mul_centralBinom 600 (by norm_num)
    have h2 : 2 ^ 1024 * (2 * 600) ≤ 4 ^ 600 := by decide +kernel
    by_contra hc
    rw [not_le] at hc
    have : Nat.centralBinom 600 * (2 * 600) < 2 ^ 1024 * (2 * 600) := Nat.mul_lt_mul_of_pos_right hc (by norm_num)
    have e : 2 * 600 * Nat.centralBinom 600 = Nat.centralBinom 600 * (2 * 600) := Nat.mul_comm _ _
    omega
  have hmono : Monotone Nat.centralBinom := by
    apply monotone_nat_of_le_succ
    intro n
    have := Nat.succ_mul_centralBinom_succ n
    by_contra hc
    rw [not_le] at hc
    have h1 : (n + 1) * Nat.centralBinom (n + 1) < (n + 1) * Nat.centralBinom n := Nat.mul_lt_mul_of_pos_left hc (by omega)
    have h2 : (n + 1) * Nat.centralBinom n ≤ 2 * (2 * n + 1) * Nat.centralBinom n := Nat.mul_le_mul_right _ (by omega)
    omega
  exact_mod_cast h600.trans (hmono hk)

/-- C274: without overflow it is the probability of the formula (C68). -/
theorem C274_formula (k : ℕ) (K M : ℝ) : nbinomF ⟨.num, Real.exp⟩ k K M = .num (nbinomDist k K M) := by
  unfold nbinomF nbinomDist
  simp only [Ext.mul]

open Classical in
/-- An arithmetic as assumed. -/
example : ∃ A, Spec.Double A ∧ ∀ x, 0 ≤ x → x ≤ 1 → ∃ y, A.out x = .num y ∧ 0 ≤ y ∧ y ≤ 1 := by
  have key : ∀ x : ℝ, x ≤ 2 ^ 1023 → ¬ (2 : ℝ) ^ 1024 ≤ x := by
    intro x h1
    have : (2 : ℝ) ^ 1023 < 2 ^ 1024 := pow_lt_pow_right₀ (by norm_num) (by norm_num)
    exact not_le.2 (lt_of_le_of_lt h1 this)
  refine ⟨⟨fun x => if 2 ^ 1024 ≤ x then .inf else .num x, Real.exp⟩, ⟨fun x hx => by simp only [if_pos hx], fun x h0 h1 => ⟨x, ?_, h0, h1, id⟩,
    fun x hx => ⟨(exp_pos x).le, exp_le_one_iff.2 hx⟩⟩, fun x h0 h1 => ⟨x, ?_, h0, h1⟩⟩
  · simp only [if_neg (key x h1)]
  · simp only [if_neg (key x (h1.trans (one_le_pow₀ (by norm_num))))]

end Verif.Line
