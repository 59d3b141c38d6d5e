/- C273: poisson_dist in floating point with overflow (skbeam/core/fitting/lineshapes.py 473-501). -/
import Verif.Line.Props

namespace Verif.Line
open Verif Real

/-- Floating-point numbers that are not negative: a number, infinity, not a number. -/
inductive Ext where
  | num (x : ℝ)
  | inf
  | nan

/-- Arithmetic: the result of an operation with the exact value x, and the exponential of the library. -/
structure ExtArith where
  out : ℝ → Ext
  exp : ℝ → ℝ

open Classical in
/-- Product, as in IEEE arithmetic. -/
noncomputable def Ext.mul (A : ExtArith) : Ext → Ext → Ext
  | .num x, .num y => A.out (x * y)
  | .num x, .inf => if x = 0 then .nan else .inf
  | .inf, .num y => if y = 0 then .nan else .inf
  | .inf, .inf => .inf
  | _, _ => .nan

open Classical in
/-- Quotient, as in IEEE arithmetic. -/
noncomputable def Ext.div (A : ExtArith) : Ext → Ext → Ext
  | .num x, .num y => if y = 0 then (if x = 0 then .nan else .inf) else A.out (x / y)
  | .num _, .inf => .num 0
  | .inf, .num _ => .inf
  | _, _ => .nan

/-- `np.exp(-K) * np.power(K, bin_values) / gamma(bin_values + 1)`, lineshapes.py 500, for floats: each of the four results overflows on its own. -/
noncomputable def poissonF (A : ExtArith) (k : ℕ) (K : ℝ) : Ext :=
  Ext.div A (Ext.mul A (.num (A.exp (-K))) (A.out (K ^ k))) (A.out (Gamma (k + 1)))

/-! ### Specification -/

/-- Double precision, as far as it matters here: exact values from 2^1024 on overflow; up to 2^1023 the result is a number, which keeps
the bounds 0, 1 and 2^1023; the exponential of a nonpositive number is from 0 to 1. -/
structure Spec.Double (A : ExtArith) : Prop where
  over : ∀ x, 2 ^ 1024 ≤ x → A.out x = .inf
  number : ∀ x, 0 ≤ x → x ≤ 2 ^ 1023 → ∃ y, A.out x = .num y ∧ 0 ≤ y ∧ y ≤ 2 ^ 1023 ∧ (1 ≤ x → 1 ≤ y)
  exp_le : ∀ x ≤ 0, 0 ≤ A.exp x ∧ A.exp x ≤ 1

theorem fact_171 {k : ℕ} (hk : 171 ≤ k) : (2 : ℝ) ^ 1024 ≤ Gamma (k + 1) := by
  rw [Gamma_nat_eq_factorial]
  have h1 : 2 ^ 1024 ≤ (171).factorial := by decide +kernel
  have h2 := Nat.factorial_le hk
  exact_mod_cast h1.trans h2

theorem fact_170 {k : ℕ} (hk : k ≤ 170) : 1 ≤ Gamma ((k : ℝ) + 1) ∧ Gamma ((k : ℝ) + 1) ≤ 2 ^ 1023 := by
  rw [Gamma_nat_eq_factorial]
  have h1 : (170).factorial ≤ 2 ^ 1023 := by decide +kernel
  have h2 := Nat.factorial_le hk
  have h3 := Nat.factorial_pos k
  exact ⟨by exact_mod_cast h3, by exact_mod_cast h2.trans h1⟩

/-! ## C273 -/

/-- C273: up to 170 photons, as long as K^k is at most 2^1023, the result is a number, not negative. -/
theorem C273_number_partial (A : ExtArith) (h : Spec.Double A) (k : ℕ) (K : ℝ) (hK : 0 ≤ K) (hk : k ≤ 170) (hp : K ^ k ≤ 2 ^ 1023) :
    ∃ y, poissonF A k K = .num y ∧ 0 ≤ y := by
  obtain ⟨p, hp1, hp2, hp3, _⟩ := h.number (K ^ k) (pow_nonneg hK k) hp
  obtain ⟨e1, e2⟩ := h.exp_le (-K) (by linarith)
  obtain ⟨t, ht1, ht2, ht3, _⟩ := h.number (A.exp (-K) * p) (mul_nonneg e1 hp2) ((mul_le_of_le_one_left hp2 e2).trans hp3)
  obtain ⟨f1, f2⟩ := fact_170 hk
  obtain ⟨g, hg1, _, _, hg4⟩ := h.number (Gamma ((k : ℝ) + 1)) (by linarith) f2
  have hg := hg4 f1
  obtain ⟨r, hr1, hr2, _⟩ := h.number (t / g) (div_nonneg ht2 (by linarith)) ((div_le_self ht2 hg).trans ht3)
  refine ⟨r, ?_, hr2⟩
  unfold poissonF
  rw [hp1, hg1]
  simp only [Ext.mul]
  rw [ht1]
  simp only [Ext.div]
  rw [if_neg (by linarith), hr1]

/-- C273, where the claim fails: at every mean from 64 on, the probability of 171 photons or more is not a number. -/
theorem C273_nan_refuted (A : ExtArith) (h : Spec.Double A) (k : ℕ) (K : ℝ) (hK : 64 ≤ K) (hk : 171 ≤ k) : poissonF A k K = .nan := by
  have hp : (2 : ℝ) ^ 1024 ≤ K ^ k := by
    calc (2 : ℝ) ^ 1024 ≤ 2 ^ (6 * 171) := pow_le_pow_right₀ (by norm_num) (by norm_num)
      _ = 64 ^ 171 := by rw [pow_mul]; norm_num
      _ ≤ 64 ^ k := pow_le_pow_right₀ (by norm_num) hk
      _ ≤ K ^ k := pow_le_pow_left₀ (by norm_num) hK k
  unfold poissonF
  rw [h.over _ hp, h.over _ (fact_171 hk)]
  simp only [Ext.mul]
  split_ifs <;> rfl

/-- C273, where the claim fails: at smaller means these probabilities are 0 instead of positive, as long as K^k is at most 2^1023. -/
theorem C273_zero_refuted (A : ExtArith) (h : Spec.Double A) (k : ℕ) (K : ℝ) (hK : 0 ≤ K) (hk : 171 ≤ k) (hp : K ^ k ≤ 2 ^ 1023) :
    poissonF A k K = .num 0 := by
  obtain ⟨p, hp1, hp2, hp3, _⟩ := h.number (K ^ k) (pow_nonneg hK k) hp
  obtain ⟨e1, e2⟩ := h.exp_le (-K) (by linarith)
  obtain ⟨t, ht1, _⟩ := h.number (A.exp (-K) * p) (mul_nonneg e1 hp2) ((mul_le_of_le_one_left hp2 e2).trans hp3)
  unfold poissonF
  rw [hp1, h.over _ (fact_171 hk)]
  simp only [Ext.mul]
  rw [ht1]
  rfl

/-- C273: without overflow and rounding it is the Poisson probability (C68), which is positive for every mean greater than 0. -/
theorem C273_formula (k : ℕ) (K : ℝ) (hK : 0 < K) : poissonF ⟨.num, Real.exp⟩ k K = .num (poissonDist k K) ∧ 0 < poissonDist k K := by
  have hg : 0 < Gamma ((k : ℝ) + 1) := Gamma_pos_of_pos (by positivity)
  constructor
  · unfold poissonF poissonDist
    simp only [Ext.mul, Ext.div]
    rw [if_neg hg.ne', rpow_natCast]
  · unfold poissonDist
    have := rpow_pos_of_pos hK (k : ℝ)
    positivity

open Classical in
/-- An arithmetic as assumed, and the mean 200 with 200 photons. -/
example : ∃ A, Spec.Double A ∧ poissonF A 200 200 = .nan := by
  have h : Spec.Double ⟨fun x => if 2 ^ 1024 ≤ x then .inf else .num x, Real.exp⟩ := by
    refine ⟨fun x hx => by simp only [if_pos hx], fun x h0 h1 => ⟨x, ?_, h0, h1, id⟩, fun x hx => ⟨(exp_pos x).le, exp_le_one_iff.2 hx⟩⟩
    have : ¬ (2 : ℝ) ^ 1024 ≤ x := by
      have : (2 : ℝ) ^ 1023 < 2 ^ 1024 := pow_lt_pow_right₀ (by norm_num) (by norm_num)
      exact not_le.2 (lt_of_le_of_lt h1 this)
    simp only [if_neg this]
  exact ⟨_, h, C273_nan_refuted _ h 200 200 (by norm_num) (by norm_num)⟩

end Verif.Line
