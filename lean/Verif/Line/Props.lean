/- Properties C67-C69, C90: line shapes. -/
import Verif.Line.Model
import Mathlib.Analysis.Analytic.Binomial
import Mathlib.Analysis.SpecialFunctions.Trigonometric.Bounds
import Mathlib.Probability.Distributions.Gamma

namespace Verif.Line
open Real MeasureTheory

/-! ## C67 areas -/

/-- Affine substitution. -/
theorem integral_affine (g : ℝ → ℝ) (c s : ℝ) (hs : 0 < s) : ∫ x, g ((x - c) / s) = s * ∫ x, g x := by
  have h1 : ∫ x, g ((x - c) / s) = ∫ x, g (x / s) := by
    exact integral_sub_right_eq_self (fun x => g (x / s)) c
  rw [h1, Measure.integral_comp_div, abs_of_pos hs, smul_eq_mul]

theorem gaussian_eq (x a c s : ℝ) : gaussian x a c s = a / (s2pi * s) * exp (-(1 / 2) * ((x - c) / s) ^ 2) := by
  unfold gaussian
  congr 2
  rw [div_pow]; ring

theorem s2pi_pos : 0 < s2pi := by unfold s2pi; positivity

/-- The integral of `gaussian` is its area parameter. -/
theorem C67_gaussian (area center sigma : ℝ) (hs : 0 < sigma) : ∫ x, gaussian x area center sigma = area := by
  simp only [gaussian_eq]
  rw [integral_const_mul, integral_affine (fun u => exp (-(1 / 2) * u ^ 2)) center sigma hs, integral_gaussian]
  have : √(π / (1 / 2)) = s2pi := by unfold s2pi; congr 1; ring
  rw [this]
  have := s2pi_pos
  field_simp

theorem lorentzian_eq (x a c s : ℝ) : lorentzian x a c s = a / (π * s) * (1 + ((x - c) / s) ^ 2)⁻¹ := by
  unfold lorentzian
  rw [one_mul, div_div, div_mul_eq_div_div, ← div_eq_mul_inv, div_div, div_div]
  ring

/-- The integral of `lorentzian` is its area parameter. -/
theorem C67_lorentzian (area center sigma : ℝ) (hs : 0 < sigma) : ∫ x, lorentzian x area center sigma = area := by
  simp only [lorentzian_eq]
  rw [integral_const_mul, integral_affine (fun u => (1 + u ^ 2)⁻¹) center sigma hs, integral_univ_inv_one_add_sq]
  have := pi_pos
  field_simp

theorem integrable_affine (g : ℝ → ℝ) (hg : Integrable g) (c s : ℝ) (hs : 0 < s) : Integrable (fun x => g ((x - c) / s)) :=
  ((hg.comp_div hs.ne').comp_sub_right c)

theorem integrable_gaussian (area center sigma : ℝ) (hs : 0 < sigma) : Integrable (fun x => gaussian x area center sigma) := by
  simp only [gaussian_eq]
  exact (integrable_affine _ (integrable_exp_neg_mul_sq (b := 1 / 2) (by norm_num)) center sigma hs).const_mul _

theorem integrable_lorentzian (area center sigma : ℝ) (hs : 0 < sigma) : Integrable (fun x => lorentzian x area center sigma) := by
  simp only [lorentzian_eq]
  exact (integrable_affine _ integrable_inv_one_add_sq center sigma hs).const_mul _

/-- The integral of `pvoigt` is its area parameter, for every mixing fraction. -/
theorem C67_pvoigt (area center sigma fraction : ℝ) (hs : 0 < sigma) : ∫ x, pvoigt x area center sigma fraction = area := by
  unfold pvoigt
  rw [integral_add ((integrable_gaussian area center sigma hs).const_mul _) ((integrable_lorentzian area center sigma hs).const_mul _),
    integral_const_mul, integral_const_mul, C67_gaussian area center sigma hs, C67_lorentzian area center sigma hs]
  ring

theorem integrable_sq_lor : Integrable (fun x : ℝ => ((1 + x ^ 2) ^ 2)⁻¹) := by
  apply integrable_inv_one_add_sq.mono'
  · apply Continuous.aestronglyMeasurable
    exact Continuous.inv₀ (by fun_prop) (fun x => by positivity)
  · refine Filter.Eventually.of_forall (fun x => ?_)
    rw [norm_of_nonneg (by positivity)]
    apply inv_anti₀ (by positivity)
    nlinarith [sq_nonneg x]

theorem integral_sq_lor : ∫ x : ℝ, ((1 + x ^ 2) ^ 2)⁻¹ = π / 2 := by
  have hd : ∀ x : ℝ, HasDerivAt (fun x => (x / (1 + x ^ 2) + arctan x) / 2) (((1 + x ^ 2) ^ 2)⁻¹) x := by
    intro x
    have h1 : HasDerivAt (fun x : ℝ => 1 + x ^ 2) (2 * x) x := by
      simpa using ((hasDerivAt_id x).pow 2).const_add 1
    have h2 := ((hasDerivAt_id x).div h1 (by positivity)).add (hasDerivAt_arctan x)
    have h3 := h2.div_const 2
    have e : ((1 * (1 + x ^ 2) - id x * (2 * x)) / (1 + x ^ 2) ^ 2 + 1 / (1 + x ^ 2)) / 2 = ((1 + x ^ 2) ^ 2)⁻¹ := by
      have : (1 + x ^ 2) ≠ 0 := by positivity
      simp only [id]
      field_simp
      ring
    rw [e] at h3
    exact h3
  have hlim : ∀ (f : Filter ℝ), Filter.Tendsto (fun x : ℝ => |x|) f Filter.atTop → Filter.Tendsto (fun x : ℝ => x / (1 + x ^ 2)) f (nhds 0) := by
    intro f hf
    rw [tendsto_zero_iff_abs_tendsto_zero]
    refine squeeze_zero (fun x => abs_nonneg _) (fun x => ?_) (tendsto_inv_atTop_zero.comp hf)
    show |x / (1 + x ^ 2)| ≤ |x|⁻¹
    rw [abs_div, abs_of_pos (show 0 < 1 + x ^ 2 by positivity)]
    by_cases hx : x = 0
    · simp [hx]
    · rw [div_le_iff₀ (by positivity), ← sq_abs x]
      have : 0 < |x| := abs_pos.2 hx
      field_simp
      linarith
  have ht := ((hlim Filter.atTop Filter.tendsto_abs_atTop_atTop).add (tendsto_nhds_of_tendsto_nhdsWithin tendsto_arctan_atTop)).div_const 2
  have hb := ((hlim Filter.atBot Filter.tendsto_abs_atBot_atTop).add (tendsto_nhds_of_tendsto_nhdsWithin tendsto_arctan_atBot)).div_const 2
  rw [integral_of_hasDerivAt_of_tendsto hd integrable_sq_lor hb ht]
  ring

/-- C67 is false for lorentzian2: its integral is half the area parameter. -/
theorem C67_lorentzian2_refuted (area center sigma : ℝ) (hs : 0 < sigma) : ∫ x, lorentzian2 x area center sigma = area / 2 := by
  have he : ∀ x, lorentzian2 x area center sigma = area / (π * sigma) * ((1 + ((x - center) / sigma) ^ 2) ^ 2)⁻¹ := by
    intro x
    unfold lorentzian2
    rw [div_div, div_mul_eq_div_div, ← div_eq_mul_inv, div_div, div_div]
    ring
  simp only [he]
  rw [integral_const_mul, integral_affine (fun u => ((1 + u ^ 2) ^ 2)⁻¹) center sigma hs, integral_sq_lor]
  have := pi_pos
  field_simp

/-- Part of C67 that holds. -/
theorem C67_peaks_partial (area center sigma fraction : ℝ) (hs : 0 < sigma) :
    ∫ x, gaussian x area center sigma = area ∧ ∫ x, lorentzian x area center sigma = area ∧
    ∫ x, pvoigt x area center sigma fraction = area :=
  ⟨C67_gaussian _ _ _ hs, C67_lorentzian _ _ _ hs, C67_pvoigt _ _ _ _ hs⟩

/-! ## C68 normalisation and C90 means of the photon count distributions -/

theorem poisson_eq (k : ℕ) (K : ℝ) : poissonDist k K = exp (-K) * (K ^ k / k.factorial) := by
  unfold poissonDist
  rw [Real.Gamma_nat_eq_factorial, rpow_natCast, mul_div_assoc]

/-- The Poisson probabilities sum to 1. -/
theorem C68_poisson (K : ℝ) : HasSum (fun k => poissonDist k K) 1 := by
  simp only [poisson_eq]
  have h := (NormedSpace.expSeries_div_hasSum_exp (𝔸 := ℝ) K).mul_left (exp (-K))
  rw [← Real.exp_eq_exp_ℝ, ← Real.exp_add] at h
  simpa using h

theorem _root_.HasSum.congr_fun' {f g : ℕ → ℝ} {a : ℝ} (h : HasSum g a) (e : ∀ k, f k = g k) : HasSum f a := by
  rw [funext e]; exact h

/-- The mean of the Poisson probabilities is K. -/
theorem C90_poisson_mean (K : ℝ) : HasSum (fun k : ℕ => (k : ℝ) * poissonDist k K) K := by
  have h := (C68_poisson K).mul_left K
  rw [mul_one] at h
  rw [← hasSum_nat_add_iff' 1]
  simp only [Finset.range_one, Finset.sum_singleton, Nat.cast_zero, zero_mul, sub_zero]
  refine h.congr_fun' (fun k => ?_)
  rw [poisson_eq, poisson_eq, Nat.factorial_succ]
  push_cast
  have : ((k.factorial : ℕ) : ℝ) ≠ 0 := by positivity
  have : (k : ℝ) + 1 ≠ 0 := by positivity
  field_simp
  ring

theorem Gamma_add_nat (M : ℝ) (hM : 0 < M) (k : ℕ) :
    Gamma (k + M) = (k.factorial : ℝ) * Ring.choose (M + k - 1) k * Gamma M := by
  have h := Ring.factorial_nsmul_multichoose_eq_ascPochhammer M k
  rw [Ring.multichoose_eq, nsmul_eq_mul, Polynomial.ascPochhammer_smeval_eq_eval] at h
  rw [h]
  clear h
  induction k with
  | zero => simp
  | succ k ih =>
    rw [ascPochhammer_succ_eval, show ((k + 1 : ℕ) : ℝ) + M = (k + M) + 1 by push_cast; ring,
      Real.Gamma_add_one (by positivity), ih]
    ring

theorem nbinom_eq (k : ℕ) (K M : ℝ) (hM : 0 < M) :
    nbinomDist k K M = (M / (K + M)) ^ M * (Ring.choose (M + k - 1) k * (K / (M + K)) ^ k) := by
  unfold nbinomDist gammaln
  have p1 : 0 < Gamma (k + M) := Real.Gamma_pos_of_pos (by positivity)
  have p2 : 0 < Gamma ((k : ℝ) + 1) := Real.Gamma_pos_of_pos (by positivity)
  have p3 : 0 < Gamma M := Real.Gamma_pos_of_pos hM
  rw [abs_of_pos p1, abs_of_pos p2, abs_of_pos p3, exp_sub, exp_sub, exp_log p1, exp_log p2, exp_log p3, Gamma_add_nat M hM k,
    Real.Gamma_nat_eq_factorial, rpow_natCast]
  have : ((k.factorial : ℕ) : ℝ) ≠ 0 := by positivity
  field_simp

theorem hasSum_choose (M r : ℝ) (h0 : 0 ≤ r) (h1 : r < 1) :
    HasSum (fun k : ℕ => Ring.choose (M + k - 1) k * r ^ k) (1 / (1 - r) ^ M) := by
  have h := (Real.one_div_one_sub_rpow_hasFPowerSeriesOnBall_zero M).hasSum (y := r) (by
    rw [← ENNReal.ofReal_one, Metric.eball_ofReal]
    simpa [abs_of_nonneg h0] using h1)
  simpa [mul_comm] using h

/-- The negative binomial probabilities sum to 1. -/
theorem C68_nbinom (K M : ℝ) (hK : 0 ≤ K) (hM : 0 < M) : HasSum (fun k => nbinomDist k K M) 1 := by
  simp only [fun k => nbinom_eq k K M hM]
  have hr : K / (M + K) < 1 := by rw [div_lt_one (by positivity)]; linarith
  have h := (hasSum_choose M (K / (M + K)) (by positivity) hr).mul_left ((M / (K + M)) ^ M)
  have e : 1 - K / (M + K) = M / (K + M) := by
    have : M + K ≠ 0 := by positivity
    rw [add_comm K M]
    field_simp
    ring
  rw [e, mul_one_div_cancel (rpow_pos_of_pos (by positivity) _).ne'] at h
  exact h

/-- The mean photon count of the negative binomial distribution is K. -/
theorem C90_nbinom_mean (K M : ℝ) (hK : 0 ≤ K) (hM : 0 < M) : HasSum (fun k : ℕ => (k : ℝ) * nbinomDist k K M) K := by
  have hr : K / (M + K) < 1 := by rw [div_lt_one (by positivity)]; linarith
  have h := ((hasSum_choose (M + 1) (K / (M + K)) (by positivity) hr).mul_left (M * (K / (M + K)))).mul_left ((M / (K + M)) ^ M)
  have e : 1 - K / (M + K) = M / (K + M) := by
    have : M + K ≠ 0 := by positivity
    rw [add_comm K M]
    field_simp
    ring
  have hval : (M / (K + M)) ^ M * (M * (K / (M + K)) * (1 / (1 - K / (M + K)) ^ (M + 1))) = K := by
    rw [e, rpow_add (by positivity), rpow_one]
    have : (M / (K + M)) ^ M ≠ 0 := (rpow_pos_of_pos (by positivity) _).ne'
    have : K + M ≠ 0 := by positivity
    rw [add_comm M K]
    field_simp
  rw [hval] at h
  rw [← hasSum_nat_add_iff' 1]
  simp only [Finset.range_one, Finset.sum_singleton, Nat.cast_zero, zero_mul, sub_zero]
  refine h.congr_fun' (fun k => ?_)
  rw [nbinom_eq _ K M hM]
  have g1 := Gamma_add_nat M hM (k + 1)
  have g2 := Gamma_add_nat (M + 1) (by positivity) k
  have : ((k + 1 : ℕ) : ℝ) + M = k + (M + 1) := by push_cast; ring
  rw [this, g2, Real.Gamma_add_one hM.ne', Nat.factorial_succ] at g1
  have p3 : 0 < Gamma M := Real.Gamma_pos_of_pos hM
  have p4 : (0 : ℝ) < (k.factorial : ℝ) := by positivity
  have g3 : ((k + 1 : ℕ) : ℝ) * Ring.choose (M + ((k + 1 : ℕ) : ℝ) - 1) (k + 1) = M * Ring.choose (M + 1 + k - 1) k := by
    have := mul_right_cancel₀ p3.ne' (show ((k.factorial : ℝ) * Ring.choose (M + 1 + k - 1) k * M) * Gamma M =
      (((k + 1 : ℕ) : ℝ) * (k.factorial : ℝ) * Ring.choose (M + ((k + 1 : ℕ) : ℝ) - 1) (k + 1)) * Gamma M by
        rw [← Nat.cast_mul, ← g1]; ring)
    apply mul_left_cancel₀ p4.ne'
    linarith
  rw [pow_succ]
  linear_combination (M / (K + M)) ^ M * (K / (M + K)) ^ k * (K / (M + K)) * g3

/-- The gamma density integrates to 1. -/
theorem C68_gamma (K M : ℝ) (hK : 0 < K) (hM : 0 < M) : ∫ x, gammaDist x K M = 1 := by
  have hr : 0 < M / K := by positivity
  have he : ∀ x, gammaDist x K M = ProbabilityTheory.gammaPDFReal M (M / K) x := by
    intro x
    unfold gammaDist ProbabilityTheory.gammaPDFReal
    by_cases hx : x < 0
    · rw [if_pos hx, if_neg (by linarith)]
    · have hx' : 0 ≤ x := not_lt.1 hx
      rw [if_neg hx, if_pos hx', show x / (K / M) = M / K * x by field_simp, mul_rpow hr.le hx', rpow_sub hr, rpow_one]
      field_simp
  simp only [he]
  rw [integral_eq_lintegral_of_nonneg_ae (Filter.Eventually.of_forall (fun x => ProbabilityTheory.gammaPDFReal_nonneg hM hr x))
    (ProbabilityTheory.measurable_gammaPDFReal M (M / K)).aestronglyMeasurable]
  have := ProbabilityTheory.lintegral_gammaPDF_eq_one hM hr
  unfold ProbabilityTheory.gammaPDF at this
  rw [this]; rfl

/-! ## C69 the Compton peak -/

theorem cos_deg_eq_one_iff (angle : ℝ) : cos (angle * (π / 180)) = 1 ↔ ∃ k : ℤ, angle = 360 * k := by
  rw [cos_eq_one_iff]
  have := pi_pos
  constructor
  · rintro ⟨k, hk⟩
    refine ⟨k, ?_⟩
    field_simp at hk
    linarith
  · rintro ⟨k, rfl⟩
    exact ⟨k, by field_simp; ring⟩

/-- The Compton energy is positive and at most the incident energy, and equal to it exactly for scattering by a multiple of 360 degrees. -/
theorem C69_energy (energy angle : ℝ) (hE : 0 < energy) :
    0 < comptonE energy angle ∧ comptonE energy angle ≤ energy ∧
    (comptonE energy angle = energy ↔ ∃ k : ℤ, angle = 360 * k) := by
  rw [← cos_deg_eq_one_iff]
  unfold comptonE
  have hc := cos_le_one (angle * (π / 180))
  set c := cos (angle * (π / 180)) with hcdef
  have hpos : 0 ≤ energy / 511 * (1 - c) := mul_nonneg (by positivity) (by linarith)
  refine ⟨by positivity, div_le_self hE.le (by linarith), ?_⟩
  rw [div_eq_iff (by positivity)]
  constructor
  · intro h
    have : energy * (energy / 511 * (1 - c)) = 0 := by linarith
    rcases mul_eq_zero.1 this with h | h
    · exact absurd h hE.ne'
    · rcases mul_eq_zero.1 h with h | h
      · exact absurd h (by positivity)
      · linarith
  · intro h
    rw [h]; ring

/-- Without step and tails, the Compton profile has its one maximum where the calibrated energy is the Compton energy,
and that energy is at most the incident energy, with equality only for angles that are multiples of 360 degrees.  (The tail slopes are not 0: the code computes the tails even when their
fractions are 0 and divides by the slopes.) -/
theorem C69_peak (amplitude energy fwhmOffset fwhmFano eOffset eLinear eQuadratic angle fwhmCorr gamma hiGamma epsilon : ℝ)
    (hE : 0 < energy) (hA : 0 < amplitude) (hF : 0 < fwhmOffset) (hFa : 0 ≤ fwhmFano) (hC : 0 < fwhmCorr) (he : 0 ≤ epsilon)
    (_hg : gamma ≠ 0) (_hh : hiGamma ≠ 0) :
    ∃ e0, 0 < e0 ∧ e0 ≤ energy ∧ (e0 = energy ↔ ∃ k : ℤ, angle = 360 * k) ∧
      ∀ x x0, eOffset + x0 * eLinear + x0 ^ 2 * eQuadratic = e0 → eOffset + x * eLinear + x ^ 2 * eQuadratic ≠ e0 →
        compton x amplitude energy fwhmOffset fwhmFano eOffset eLinear eQuadratic angle fwhmCorr 0 0 gamma 0 hiGamma epsilon <
        compton x0 amplitude energy fwhmOffset fwhmFano eOffset eLinear eQuadratic angle fwhmCorr 0 0 gamma 0 hiGamma epsilon := by
  obtain ⟨h1, h2, h3⟩ := C69_energy energy angle hE
  refine ⟨comptonE energy angle, h1, h2, h3, ?_⟩
  intro x x0 hx0 hx
  have hsig : 0 < peakSigma fwhmOffset fwhmFano epsilon (comptonE energy angle) := by
    unfold peakSigma
    apply sqrt_pos.2
    have : 0 < 2 * √(2 * log 2) := by
      have := log_pos (show (1 : ℝ) < 2 by norm_num)
      positivity
    have : 0 < (fwhmOffset / (2 * √(2 * log 2))) ^ 2 := by positivity
    have : 0 ≤ comptonE energy angle * epsilon * fwhmFano := by positivity
    linarith
  unfold compton
  simp only [gt_iff_lt, lt_irrefl, if_false, add_zero, mul_zero, zero_mul, div_one, one_mul]
  rw [gaussian_eq, gaussian_eq]
  unfold energyOf
  rw [hx0]
  have hpos : 0 < amplitude / (s2pi * (peakSigma fwhmOffset fwhmFano epsilon (comptonE energy angle) * fwhmCorr)) := by
    have := s2pi_pos
    positivity
  apply mul_lt_mul_of_pos_left _ hpos
  rw [exp_lt_exp, sub_self]
  have : 0 < ((eOffset + x * eLinear + x ^ 2 * eQuadratic - comptonE energy angle) /
      (peakSigma fwhmOffset fwhmFano epsilon (comptonE energy angle) * fwhmCorr)) ^ 2 := by
    have : eOffset + x * eLinear + x ^ 2 * eQuadratic - comptonE energy angle ≠ 0 := sub_ne_zero.2 hx
    positivity
  simp
  linarith

/-- Instance: 12 keV at 90 degrees. -/
example : comptonE 12 90 = 12 / (1 + 12 / 511) := by
  unfold comptonE
  rw [show (90 : ℝ) * (π / 180) = π / 2 by ring, cos_pi_div_two]
  norm_num

/-! ## C92 width of the elastic peak -/

/-- The elastic peak is at half its maximum exactly at the energies that are half of W away from the incident energy,
where W² = fwhm_offset² + 8 ln 2 · energy · epsilon · fwhm_fanoprime. -/
theorem C92_elastic_width (amplitude energy offset fano eOffset eLinear eQuadratic epsilon x x0 fwhm : ℝ) (hA : 0 < amplitude)
    (hF : 0 < fwhm) (hW : fwhm ^ 2 = offset ^ 2 + 8 * log 2 * (energy * epsilon * fano))
    (h0 : eOffset + x0 * eLinear + x0 ^ 2 * eQuadratic = energy) :
    elastic x amplitude energy offset fano eOffset eLinear eQuadratic epsilon =
      elastic x0 amplitude energy offset fano eOffset eLinear eQuadratic epsilon / 2 ↔
    |eOffset + x * eLinear + x ^ 2 * eQuadratic - energy| = fwhm / 2 := by
  unfold elastic energyOf
  rw [h0, gaussian_eq, gaussian_eq]
  have hl : 0 < log 2 := log_pos (by norm_num)
  have hsq : 0 < √(2 * log 2) := sqrt_pos.2 (by positivity)
  have hs : peakSigma offset fano epsilon energy = fwhm / (2 * √(2 * log 2)) := by
    unfold peakSigma
    rw [sqrt_eq_iff_mul_self_eq_of_pos (by positivity)]
    have h2 : √(2 * log 2) ^ 2 = 2 * log 2 := sq_sqrt (by positivity)
    rw [← pow_two, div_pow, div_pow, mul_pow, h2, hW]
    field_simp
    ring
  rw [hs, sub_self, zero_div]
  set d := eOffset + x * eLinear + x ^ 2 * eQuadratic - energy with hd
  have hsig : 0 < fwhm / (2 * √(2 * log 2)) := by positivity
  have hpre : 0 < amplitude / (s2pi * (fwhm / (2 * √(2 * log 2)))) := by
    have := s2pi_pos
    positivity
  have e1 : -(1 / 2 : ℝ) * (d / (fwhm / (2 * √(2 * log 2)))) ^ 2 = -(log 2 * (2 * d / fwhm) ^ 2) := by
    have h2 : √(2 * log 2) ^ 2 = 2 * log 2 := sq_sqrt (by positivity)
    rw [show d / (fwhm / (2 * √(2 * log 2))) = (2 * d / fwhm) * √(2 * log 2) by field_simp, mul_pow, h2]
    ring
  rw [e1]
  have e2 : exp (-(1 / 2 : ℝ) * 0 ^ 2) = 1 := by norm_num
  rw [e2, mul_one, div_eq_mul_inv, mul_assoc, ← div_eq_mul_inv]
  have e3 : (amplitude / (s2pi * (fwhm / (2 * √(2 * log 2))))) * exp (-(log 2 * (2 * d / fwhm) ^ 2)) =
      amplitude / (s2pi * (fwhm / (2 * √(2 * log 2)))) / 2 ↔ exp (-(log 2 * (2 * d / fwhm) ^ 2)) = exp (-(log 2)) := by
    rw [exp_neg (log 2), exp_log (by norm_num : (0:ℝ) < 2), div_eq_mul_inv (amplitude / _) 2]
    exact mul_right_inj' hpre.ne'
  rw [div_eq_mul_inv amplitude] at e3 ⊢
  rw [mul_assoc] at e3
  rw [e3, exp_eq_exp]
  have e4 : -(log 2 * (2 * d / fwhm) ^ 2) = -(log 2) ↔ (2 * d / fwhm) ^ 2 = 1 := by
    constructor
    · intro h
      have : log 2 * ((2 * d / fwhm) ^ 2 - 1) = 0 := by linarith
      rcases mul_eq_zero.1 this with h | h
      · exact absurd h hl.ne'
      · linarith
    · intro h; rw [h, mul_one]
  rw [e4, ← sq_abs, abs_div, abs_mul, abs_of_pos hF, abs_two]
  have h0 : 0 ≤ 2 * |d| / fwhm := by positivity
  constructor
  · intro h
    have h1 : 2 * |d| / fwhm = 1 := by nlinarith
    rw [div_eq_one_iff_eq hF.ne'] at h1
    linarith
  · intro h
    rw [h]
    field_simp

/-- With no energy-dependent broadening it is half of `fwhm_offset`. -/
theorem C92_elastic_fwhm (amplitude energy fwhm eOffset eLinear eQuadratic epsilon x x0 : ℝ) (hA : 0 < amplitude) (hF : 0 < fwhm)
    (h0 : eOffset + x0 * eLinear + x0 ^ 2 * eQuadratic = energy) :
    elastic x amplitude energy fwhm 0 eOffset eLinear eQuadratic epsilon =
      elastic x0 amplitude energy fwhm 0 eOffset eLinear eQuadratic epsilon / 2 ↔
    |eOffset + x * eLinear + x ^ 2 * eQuadratic - energy| = fwhm / 2 :=
  C92_elastic_width amplitude energy fwhm 0 eOffset eLinear eQuadratic epsilon x x0 fwhm hA hF (by ring) h0

/-- The hypothesis on the width is met whenever the broadening is not negative. -/
example (energy offset fano epsilon : ℝ) (ho : 0 < offset) (hb : 0 ≤ energy * epsilon * fano) :
    ∃ fwhm, 0 < fwhm ∧ fwhm ^ 2 = offset ^ 2 + 8 * log 2 * (energy * epsilon * fano) := by
  have := log_pos (show (1 : ℝ) < 2 by norm_num)
  exact ⟨√(offset ^ 2 + 8 * log 2 * (energy * epsilon * fano)), sqrt_pos.2 (by positivity), sq_sqrt (by positivity)⟩

end Verif.Line
