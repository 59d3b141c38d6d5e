/- Property C188: how the photon-count distributions are related, and the contrast they encode. -/
import Verif.Line.Props
import Mathlib.MeasureTheory.Integral.Gamma
import Mathlib.Analysis.SpecialFunctions.Complex.LogBounds

namespace Verif.Line
open Real MeasureTheory Filter Topology

theorem nbinom_succ (k : ℕ) (K M : ℝ) (hM : 0 < M) :
    nbinomDist (k + 1) K M = nbinomDist k K M * ((M + k) / (k + 1) * (K / (M + K))) := by
  rw [nbinom_eq _ K M hM, nbinom_eq _ K M hM]
  have g1 := Gamma_add_nat M hM (k + 1)
  have g2 := Gamma_add_nat M hM k
  have h1 : ((k + 1 : ℕ) : ℝ) + M = (k + M) + 1 := by push_cast; ring
  rw [h1, Real.Gamma_add_one (by positivity), g2, Nat.factorial_succ] at g1
  have p3 : 0 < Gamma M := Real.Gamma_pos_of_pos hM
  have p4 : (0 : ℝ) < (k.factorial : ℝ) := by positivity
  have g3 : Ring.choose (M + ((k + 1 : ℕ) : ℝ) - 1) (k + 1) = (M + k) / (k + 1) * Ring.choose (M + k - 1) k := by
    have hk : (0 : ℝ) < k + 1 := by positivity
    rw [div_mul_eq_mul_div, eq_div_iff hk.ne']
    apply mul_left_cancel₀ (mul_pos p4 p3).ne'
    push_cast at g1 ⊢
    linear_combination -g1
  rw [g3, pow_succ]
  ring

/-- `(k + 1) P(k + 1)` is `K` times a negative binomial probability with one more mode. -/
theorem nbinom_shift (k : ℕ) (K M : ℝ) (hK : 0 < K) (hM : 0 < M) :
    ((k + 1 : ℕ) : ℝ) * nbinomDist (k + 1) K M = K * nbinomDist k (K * (M + 1) / M) (M + 1) := by
  have hr : K * (M + 1) / M / (M + 1 + K * (M + 1) / M) = K / (M + K) := by field_simp
  have hq : (M + 1) / (K * (M + 1) / M + (M + 1)) = M / (K + M) := by field_simp
  induction k with
  | zero =>
    rw [nbinom_succ _ _ _ hM, nbinom_eq _ _ _ hM, nbinom_eq _ _ _ (by positivity), hq, rpow_add (by positivity), rpow_one]
    simp only [pow_zero, Ring.choose_zero_right]
    push_cast
    field_simp
    ring
  | succ k ih =>
    rw [nbinom_succ _ _ _ hM, nbinom_succ _ (K * (M + 1) / M) _ (by positivity), hr]
    rw [← mul_assoc K, ← ih]
    push_cast
    field_simp
    ring

/-- A sum over counts weighted by `k (k - 1)`, from sums weighted by `k` of the shifted distribution. -/
theorem hasSum_pairs (P Q : ℕ → ℝ) (c v : ℝ) (h : ∀ k : ℕ, ((k + 1 : ℕ) : ℝ) * P (k + 1) = c * Q k)
    (hQ : HasSum (fun k : ℕ => (k : ℝ) * Q k) v) : HasSum (fun k : ℕ => (k : ℝ) * (k - 1) * P k) (c * v) := by
  rw [← hasSum_nat_add_iff' 1]
  simp only [Finset.range_one, Finset.sum_singleton, Nat.cast_zero, zero_mul, sub_zero]
  refine (hQ.mul_left c).congr_fun' (fun k => ?_)
  have := h k
  push_cast at this ⊢
  linear_combination (k : ℝ) * this

/-- C188: the pair expectation `<k (k - 1)>` of the negative binomial distribution is `K^2 (1 + 1/M)`.  Together with the mean
K (C90) the contrast `(<k (k - 1)> - <k>^2) / <k>^2` is 1/M. -/
theorem C188_contrast (K M : ℝ) (hK : 0 < K) (hM : 0 < M) :
    HasSum (fun k : ℕ => (k : ℝ) * (k - 1) * nbinomDist k K M) (K ^ 2 * (1 + 1 / M)) := by
  have h := hasSum_pairs (fun k => nbinomDist k K M) (fun k => nbinomDist k (K * (M + 1) / M) (M + 1)) K (K * (M + 1) / M)
    (fun k => nbinom_shift k K M hK hM) (C90_nbinom_mean _ _ (by positivity) (by positivity))
  have e : K ^ 2 * (1 + 1 / M) = K * (K * (M + 1) / M) := by field_simp
  rw [e]
  exact h

/-- C188: the pair expectation of the Poisson distribution is `K^2`: no contrast. -/
theorem C188_poisson_pairs (K : ℝ) : HasSum (fun k : ℕ => (k : ℝ) * (k - 1) * poissonDist k K) (K ^ 2) := by
  rw [pow_two]
  refine hasSum_pairs (fun k => poissonDist k K) (fun k => poissonDist k K) K K (fun k => ?_) (C90_poisson_mean K)
  simp only [poisson_eq, Nat.factorial_succ]
  push_cast
  have : ((k.factorial : ℕ) : ℝ) ≠ 0 := by positivity
  field_simp
  ring

/-- C188: with more and more modes the negative binomial probabilities become the Poisson probabilities. -/
theorem C188_poisson_limit (k : ℕ) (K : ℝ) (hK : 0 ≤ K) : Tendsto (fun M => nbinomDist k K M) atTop (𝓝 (poissonDist k K)) := by
  induction k with
  | zero =>
    have h := (tendsto_one_add_div_rpow_exp K).inv₀ (exp_ne_zero K)
    rw [← exp_neg] at h
    have e : poissonDist 0 K = exp (-K) := by rw [poisson_eq]; simp
    rw [e]
    refine h.congr' ?_
    filter_upwards [eventually_gt_atTop 0] with M hM
    rw [nbinom_eq _ _ _ hM]
    simp only [pow_zero, Ring.choose_zero_right, mul_one]
    rw [← inv_rpow (by positivity)]
    congr 1
    field_simp
    ring
  | succ k ih =>
    have h1 : Tendsto (fun M : ℝ => (M + k) / (k + 1) * (K / (M + K))) atTop (𝓝 (1 / (k + 1) * K)) := by
      have h2 : Tendsto (fun M : ℝ => (M + k) / (M + K)) atTop (𝓝 1) := by
        have h3 : Tendsto (fun M : ℝ => 1 + (k - K) / (M + K)) atTop (𝓝 (1 + 0)) :=
          tendsto_const_nhds.add ((tendsto_atTop_add_const_right _ K tendsto_id).const_div_atTop _)
        rw [add_zero] at h3
        refine h3.congr' ?_
        filter_upwards [eventually_gt_atTop 0] with M hM
        have : M + K ≠ 0 := by positivity
        field_simp
        ring
      have h4 := (h2.const_mul (1 / ((k : ℝ) + 1))).mul_const K
      rw [mul_one] at h4
      refine h4.congr (fun M => ?_)
      ring
    have h5 := ih.mul h1
    have e : poissonDist k K * (1 / (k + 1) * K) = poissonDist (k + 1) K := by
      rw [poisson_eq, poisson_eq, Nat.factorial_succ]
      push_cast
      have : ((k.factorial : ℕ) : ℝ) ≠ 0 := by positivity
      field_simp
      ring
    rw [e] at h5
    refine h5.congr' ?_
    filter_upwards [eventually_gt_atTop 0] with M hM
    rw [nbinom_succ _ _ _ hM]

/-- `x` times a gamma density is `K` times a gamma density with one more mode. -/
theorem gamma_shift (x K M : ℝ) (hx : x ≠ 0) (hK : 0 < K) (hM : 0 < M) :
    x * gammaDist x K M = K * gammaDist x (K * (M + 1) / M) (M + 1) := by
  unfold gammaDist
  split_ifs with h
  · simp
  · have hx' : 0 < x := lt_of_le_of_ne (not_lt.1 h) hx.symm
    have e : K * (M + 1) / M / (M + 1) = K / M := by field_simp
    rw [e, Real.Gamma_add_one hM.ne', show M + 1 - 1 = (M - 1) + 1 by ring, rpow_add (by positivity), rpow_one]
    have := (Real.Gamma_pos_of_pos hM).ne'
    field_simp

theorem integral_off_zero (f g : ℝ → ℝ) (h : ∀ x ≠ 0, f x = g x) : ∫ x, f x = ∫ x, g x := by
  apply integral_congr_ae
  have : ({0}ᶜ : Set ℝ) ∈ ae volume := compl_mem_ae_iff.2 (by simp)
  filter_upwards [this] with x hx
  exact h x hx

/-- C188: the gamma distribution of intensities has mean K and second moment `K^2 (1 + 1/M)`: contrast 1/M. -/
theorem C188_gamma_moments (K M : ℝ) (hK : 0 < K) (hM : 0 < M) :
    ∫ x, x * gammaDist x K M = K ∧ ∫ x, x ^ 2 * gammaDist x K M = K ^ 2 * (1 + 1 / M) := by
  have h1 : ∀ K M : ℝ, 0 < K → 0 < M → ∫ x, x * gammaDist x K M = K := by
    intro K M hK hM
    rw [integral_off_zero _ _ (fun x hx => gamma_shift x K M hx hK hM), integral_const_mul, C68_gamma _ _ (by positivity) (by positivity), mul_one]
  refine ⟨h1 K M hK hM, ?_⟩
  rw [integral_off_zero _ (fun x => K * (x * gammaDist x (K * (M + 1) / M) (M + 1))) (fun x hx => by
    linear_combination x * gamma_shift x K M hx hK hM), integral_const_mul, h1 _ _ (by positivity) (by positivity)]
  field_simp

/-- C188 (Mandel's formula): counting photons with Poisson statistics from an intensity that is gamma distributed gives the
negative binomial distribution. -/
theorem C188_poisson_gamma (k : ℕ) (K M : ℝ) (hK : 0 < K) (hM : 0 < M) :
    ∫ x, poissonDist k x * gammaDist x K M = nbinomDist k K M := by
  have hθ : 0 < K / M := by positivity
  have hr : 0 < 1 + M / K := by positivity
  have hG := Real.Gamma_pos_of_pos hM
  have hkM : (0 : ℝ) < k + M := by positivity
  have e1 : ∫ x, poissonDist k x * gammaDist x K M =
      ∫ x in Set.Ioi (0 : ℝ), (1 / k.factorial * (M / K) ^ M / Gamma M) * (x ^ (k + M - 1) * exp (-((1 + M / K) * x))) := by
    rw [← integral_indicator measurableSet_Ioi]
    apply integral_off_zero
    intro x hx
    by_cases h : x < 0
    · rw [Set.indicator_of_notMem (by simpa using h.le)]
      simp [gammaDist, h]
    · have hx' : 0 < x := lt_of_le_of_ne (not_lt.1 h) hx.symm
      rw [Set.indicator_of_mem (by simpa using hx'), poisson_eq]
      unfold gammaDist
      rw [if_neg h, show x / (K / M) = M / K * x by field_simp, mul_rpow (by positivity) hx'.le,
        show (k : ℝ) + M - 1 = k + (M - 1) by ring, rpow_add hx', rpow_natCast,
        show -((1 + M / K) * x) = -x + -(M / K * x) by ring, exp_add, rpow_sub (by positivity : (0 : ℝ) < M / K), rpow_one]
      field_simp
  rw [e1, integral_const_mul, Real.integral_rpow_mul_exp_neg_mul_Ioi hkM hr, nbinom_eq _ _ _ hM, Gamma_add_nat M hM k]
  have p4 : (0 : ℝ) < (k.factorial : ℝ) := by positivity
  have e2 : 1 / (1 + M / K) = K / (M + K) := by field_simp; ring
  have e3 : M / (K + M) = (M / K) * (K / (M + K)) := by
    have : M + K ≠ 0 := by positivity
    rw [add_comm K M]
    field_simp
  rw [e2, rpow_add (by positivity), rpow_natCast, e3, mul_rpow (by positivity) (by positivity)]
  field_simp

/-- The hypotheses are met: a mean of two photons in five modes has contrast 1/5. -/
example : HasSum (fun k : ℕ => (k : ℝ) * (k - 1) * nbinomDist k 2 5) (4 * (6 / 5)) := by
  have h := C188_contrast 2 5 (by norm_num) (by norm_num)
  norm_num at h ⊢
  exact h

end Verif.Line
