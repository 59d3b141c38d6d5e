/- Property C150: area and floor of the Compton profile. -/
import Verif.Line.TailProps

namespace Verif.Line
open Real MeasureTheory Filter Topology

/-- The area of a tail of unit area parameter and unit width. -/
noncomputable def Spec.tailArea (gamma : ℝ) : ℝ := ∫ x, gaussianTail x 1 0 1 gamma

theorem tailArea_eq (g : ℝ) (hg : 0 < g) : Spec.tailArea g = (∫ u, tailC g u) / (2 * g * exp (-(1 / (2 * g ^ 2)))) := by
  unfold Spec.tailArea
  simp only [fun x => gaussianTail_eq x 1 0 1 g one_pos hg, sub_zero, div_one, mul_one]
  rw [integral_const_mul]; ring

theorem integral_gaussianTail (area c s g : ℝ) (hs : 0 < s) (hg : 0 < g) :
    ∫ x, gaussianTail x area c s g = area * Spec.tailArea g := by
  simp only [fun x => gaussianTail_eq x area c s g hs hg]
  rw [integral_const_mul, integral_affine (tailC g) c s hs, tailArea_eq g hg]
  have : exp (-(1 / (2 * g ^ 2))) ≠ 0 := (exp_pos _).ne'
  field_simp

theorem integrable_gaussianTail (area c s g : ℝ) (hs : 0 < s) (hg : 0 < g) : Integrable (fun x => gaussianTail x area c s g) := by
  simp only [fun x => gaussianTail_eq x area c s g hs hg]
  exact (integrable_affine _ (integrable_tailC g hg) c s hs).const_mul _

theorem tailArea_bounds (g : ℝ) (hg : 0 < g) : 0 < Spec.tailArea g ∧ Spec.tailArea g < 1 := by
  constructor
  · rw [tailArea_eq g hg]
    apply div_pos _ (by positivity)
    have hnn : 0 ≤ tailC g := fun u => mul_nonneg (exp_pos _).le (erfc_nonneg _)
    rw [integral_pos_iff_support_of_nonneg hnn (integrable_tailC g hg)]
    have : Function.support (tailC g) = Set.univ := by
      ext u
      simp only [Function.mem_support, Set.mem_univ, iff_true]
      exact (mul_pos (exp_pos _) (erfc_pos _)).ne'
    rw [this]; simp
  · have := C91_tail_area_refuted 1 0 1 g one_pos one_pos hg
    exact this

theorem peakSigma_pos (fwhmOffset fwhmFano epsilon e : ℝ) (hF : 0 < fwhmOffset) (h : 0 ≤ e * epsilon * fwhmFano) :
    0 < peakSigma fwhmOffset fwhmFano epsilon e := by
  unfold peakSigma
  apply sqrt_pos.2
  have : 0 < 2 * √(2 * log 2) := by
    have := log_pos (show (1 : ℝ) < 2 by norm_num)
    positivity
  have : 0 < (fwhmOffset / (2 * √(2 * log 2))) ^ 2 := by positivity
  linarith

/-- C150, the area: without a step, the area of the Compton peak over the energy axis (channels times the energy per channel)
is the amplitude times the mean of 1 (the Gaussian) and the areas of the two tails, weighted with 1, f_tail and hi_f_tail. -/
theorem C150_area_partial (amplitude energy fwhmOffset fwhmFano eOffset eLinear angle fwhmCorr fTail gamma hiTail hiGamma epsilon : ℝ)
    (hE : 0 < energy) (hF : 0 < fwhmOffset) (hFa : 0 ≤ fwhmFano) (hC : 0 < fwhmCorr) (he : 0 ≤ epsilon) (hl : 0 < eLinear)
    (hg : 0 < gamma) (hh : 0 < hiGamma) (_hT : 0 ≤ fTail) (_hH : 0 ≤ hiTail) :
    eLinear * ∫ x, compton x amplitude energy fwhmOffset fwhmFano eOffset eLinear 0 angle fwhmCorr 0 fTail gamma hiTail hiGamma epsilon =
      amplitude * (1 + fTail * Spec.tailArea gamma + hiTail * Spec.tailArea hiGamma) / (1 + fTail + hiTail) := by
  obtain ⟨h1, _, _⟩ := C69_energy energy angle hE
  have hsig : 0 < peakSigma fwhmOffset fwhmFano epsilon (comptonE energy angle) := peakSigma_pos _ _ _ _ hF (by positivity)
  set s := peakSigma fwhmOffset fwhmFano epsilon (comptonE energy angle) with hs
  set c := comptonE energy angle with hc
  set F : ℝ → ℝ := fun e => 1 / (1 + 0 + fTail + hiTail) * gaussian e amplitude c (s * fwhmCorr)
    + 1 / (1 + 0 + fTail + hiTail) * fTail * gaussianTail e amplitude c s gamma
    + 1 / (1 + 0 + fTail + hiTail) * hiTail * gaussianTail (-e) amplitude (-c) s hiGamma with hFdef
  have e1 : ∀ x, compton x amplitude energy fwhmOffset fwhmFano eOffset eLinear 0 angle fwhmCorr 0 fTail gamma hiTail hiGamma epsilon =
      F ((x - (-eOffset / eLinear)) / (1 / eLinear)) := by
    intro x
    have : energyOf x eOffset eLinear 0 = (x - (-eOffset / eLinear)) / (1 / eLinear) := by
      unfold energyOf; field_simp; ring
    unfold compton
    simp only [gt_iff_lt, lt_irrefl, if_false, this, hFdef, neg_one_mul, ← hs, ← hc]
    ring
  simp only [e1]
  rw [integral_affine F _ _ (by positivity)]
  have i1 : Integrable (fun e => gaussian e amplitude c (s * fwhmCorr)) := integrable_gaussian _ _ _ (by positivity)
  have i2 := integrable_gaussianTail amplitude c s gamma hsig hg
  have i3 : Integrable (fun e => gaussianTail (-e) amplitude (-c) s hiGamma) := (integrable_gaussianTail amplitude (-c) s hiGamma hsig hh).comp_neg
  have : ∫ e, F e = amplitude * (1 + fTail * Spec.tailArea gamma + hiTail * Spec.tailArea hiGamma) / (1 + fTail + hiTail) := by
    have i12 : Integrable (fun e => 1 / (1 + 0 + fTail + hiTail) * gaussian e amplitude c (s * fwhmCorr)
        + 1 / (1 + 0 + fTail + hiTail) * fTail * gaussianTail e amplitude c s gamma) := (i1.const_mul _).add (i2.const_mul _)
    simp only [hFdef]
    rw [integral_add i12 (i3.const_mul _), integral_add (i1.const_mul _) (i2.const_mul _),
      integral_const_mul, integral_const_mul, integral_const_mul, C67_gaussian _ _ _ (by positivity), integral_gaussianTail _ _ _ _ hsig hg,
      integral_neg_eq_self (fun e => gaussianTail e amplitude (-c) s hiGamma), integral_gaussianTail _ _ _ _ hsig hh]
    ring
  rw [this]
  field_simp

/-- C150 is false as documented (compton_amplitude is the area): with any tail the area is smaller. -/
theorem C150_area_refuted (amplitude energy fwhmOffset fwhmFano eOffset eLinear angle fwhmCorr fTail gamma hiTail hiGamma epsilon : ℝ)
    (hA : 0 < amplitude)
    (hE : 0 < energy) (hF : 0 < fwhmOffset) (hFa : 0 ≤ fwhmFano) (hC : 0 < fwhmCorr) (he : 0 ≤ epsilon) (hl : 0 < eLinear)
    (hg : 0 < gamma) (hh : 0 < hiGamma) (hT : 0 ≤ fTail) (hH : 0 ≤ hiTail) (htail : 0 < fTail ∨ 0 < hiTail) :
    eLinear * ∫ x, compton x amplitude energy fwhmOffset fwhmFano eOffset eLinear 0 angle fwhmCorr 0 fTail gamma hiTail hiGamma epsilon <
      amplitude := by
  rw [C150_area_partial amplitude energy fwhmOffset fwhmFano eOffset eLinear angle fwhmCorr fTail gamma hiTail hiGamma epsilon
    hE hF hFa hC he hl hg hh hT hH, div_lt_iff₀ (by positivity)]
  apply mul_lt_mul_of_pos_left _ hA
  obtain ⟨_, b1⟩ := tailArea_bounds gamma hg
  obtain ⟨_, b2⟩ := tailArea_bounds hiGamma hh
  have c1 : fTail * Spec.tailArea gamma ≤ fTail := mul_le_of_le_one_right hT b1.le
  have c2 : hiTail * Spec.tailArea hiGamma ≤ hiTail := mul_le_of_le_one_right hH b2.le
  rcases htail with h | h
  · have := mul_lt_mul_of_pos_left b1 h; linarith
  · have := mul_lt_mul_of_pos_left b2 h; linarith

theorem tendsto_gaussian_bot (a c s : ℝ) (hs : 0 < s) : Tendsto (fun e => gaussian e a c s) atBot (𝓝 0) := by
  simp only [gaussian_eq]
  rw [show (0 : ℝ) = a / (s2pi * s) * 0 by ring]
  apply Tendsto.const_mul
  apply tendsto_exp_atBot.comp
  have h1 : Tendsto (fun e : ℝ => (e - c) / s) atBot atBot := (tendsto_atBot_add_const_right _ (-c) tendsto_id).atBot_div_const hs
  have h2 : Tendsto (fun u : ℝ => u ^ 2) atBot atTop := by
    have := (tendsto_pow_atTop (α := ℝ) (n := 2) (by norm_num)).comp tendsto_neg_atBot_atTop
    refine this.congr (fun u => by simp)
  have h3 := h2.comp h1
  exact (tendsto_const_mul_atBot_of_neg (by norm_num : -(1 / 2 : ℝ) < 0)).2 h3

theorem tendsto_tail_bot (a c s g : ℝ) (hs : 0 < s) (hg : 0 < g) : Tendsto (fun e => gaussianTail e a c s g) atBot (𝓝 0) := by
  simp only [fun x => gaussianTail_eq x a c s g hs hg]
  rw [show (0 : ℝ) = a / (2 * g * s * exp (-(1 / (2 * g ^ 2)))) * 0 by ring]
  apply Tendsto.const_mul
  have h1 : Tendsto (fun e : ℝ => (e - c) / s) atBot atBot := (tendsto_atBot_add_const_right _ (-c) tendsto_id).atBot_div_const hs
  have h2 : Tendsto (tailC g) atBot (𝓝 0) :=
    squeeze_zero (fun u => mul_nonneg (exp_pos _).le (erfc_nonneg _)) (tailC_le g hg) (tail_bot g hg)
  exact h2.comp h1

theorem tendsto_tail_top (a c s g : ℝ) (hs : 0 < s) (hg : 0 < g) : Tendsto (fun e => gaussianTail e a c s g) atTop (𝓝 0) := by
  simp only [fun x => gaussianTail_eq x a c s g hs hg]
  rw [show (0 : ℝ) = a / (2 * g * s * exp (-(1 / (2 * g ^ 2)))) * 0 by ring]
  apply Tendsto.const_mul
  have h1 : Tendsto (fun e : ℝ => (e - c) / s) atTop atTop := (tendsto_atTop_add_const_right _ (-c) tendsto_id).atTop_div_const hs
  have h2 : Tendsto (tailC g) atTop (𝓝 0) :=
    squeeze_zero (fun u => mul_nonneg (exp_pos _).le (erfc_nonneg _)) (tailC_le g hg) (tail_top g hg)
  exact h2.comp h1

/-- C150, the step: far below the peak the profile levels off at amplitude times the weight of the step among all parts,
divided by the Compton energy e0; in particular it vanishes there without a step. -/
theorem C150_floor (amplitude energy fwhmOffset fwhmFano eOffset eLinear angle fwhmCorr fStep fTail gamma hiTail hiGamma epsilon : ℝ)
    (hE : 0 < energy) (hF : 0 < fwhmOffset) (hFa : 0 ≤ fwhmFano) (hC : 0 < fwhmCorr) (he : 0 ≤ epsilon) (hl : 0 < eLinear)
    (hg : 0 < gamma) (hh : 0 < hiGamma) (hS : 0 ≤ fStep) (_hT : 0 ≤ fTail) (_hH : 0 ≤ hiTail) (e0 : ℝ) (h0 : e0 * (1 + energy / 511 * (1 - cos (angle * (π / 180)))) = energy) :
    Tendsto (fun x => compton x amplitude energy fwhmOffset fwhmFano eOffset eLinear 0 angle fwhmCorr fStep fTail gamma hiTail hiGamma epsilon)
      atBot (𝓝 (amplitude * (fStep / (1 + fStep + fTail + hiTail)) / e0)) := by
  obtain ⟨h1, _, _⟩ := C69_energy energy angle hE
  have hce : comptonE energy angle = e0 := by
    unfold comptonE
    rw [div_eq_iff]
    · exact h0.symm
    · intro hz; rw [hz, mul_zero] at h0; exact hE.ne h0
  rw [hce] at h1
  have hsig : 0 < peakSigma fwhmOffset fwhmFano epsilon e0 := peakSigma_pos _ _ _ _ hF (by positivity)
  have hx : Tendsto (fun x => energyOf x eOffset eLinear 0) atBot atBot := by
    unfold energyOf
    simp only [mul_zero, add_zero]
    exact tendsto_atBot_add_const_left _ _ (tendsto_id.atBot_mul_const hl)
  have t1 := (tendsto_gaussian_bot amplitude e0 (peakSigma fwhmOffset fwhmFano epsilon e0 * fwhmCorr) (by positivity)).comp hx
  have t2 := (tendsto_tail_bot amplitude e0 (peakSigma fwhmOffset fwhmFano epsilon e0) gamma hsig hg).comp hx
  have t3 : Tendsto (fun x => gaussianTail (-1 * energyOf x eOffset eLinear 0) amplitude (-1 * e0) (peakSigma fwhmOffset fwhmFano epsilon e0) hiGamma) atBot (𝓝 0) := by
    simp only [neg_one_mul]
    exact (tendsto_tail_top amplitude (-e0) _ hiGamma hsig hh).comp (tendsto_neg_atBot_atTop.comp hx)
  have t4 : Tendsto (fun x => gaussianStep (energyOf x eOffset eLinear 0) amplitude e0 (peakSigma fwhmOffset fwhmFano epsilon e0) e0) atBot
      (𝓝 (amplitude * 2 / (2 * e0))) := by
    unfold gaussianStep
    apply Tendsto.div_const
    apply Tendsto.const_mul
    apply tendsto_erfc_atBot.comp
    exact (tendsto_atBot_add_const_right _ (-e0) hx).atBot_div_const (by positivity)
  unfold compton
  simp only [hce]
  have key : amplitude * (fStep / (1 + fStep + fTail + hiTail)) / e0 =
      1 / (1 + fStep + fTail + hiTail) * 0 + (1 / (1 + fStep + fTail + hiTail) * fStep * (amplitude * 2 / (2 * e0))) +
        1 / (1 + fStep + fTail + hiTail) * fTail * 0 + 1 / (1 + fStep + fTail + hiTail) * hiTail * 0 := by
    rw [mul_comm 2 e0, mul_div_mul_right _ _ (two_ne_zero)]
    ring
  rw [key]
  refine (((t1.const_mul _).add ?_).add (t2.const_mul _)).add (t3.const_mul _)
  by_cases hs : fStep > 0
  · simp only [if_pos hs]; exact t4.const_mul _
  · have : fStep = 0 := le_antisymm (not_lt.1 hs) hS
    subst this
    simp

/-- The hypotheses are met: 12 keV at 90 degrees, both tails present. -/
example : ∃ e0 : ℝ, e0 * (1 + 12 / 511 * (1 - cos (90 * (π / 180)))) = 12 := by
  rw [show (90 : ℝ) * (π / 180) = π / 2 by ring, cos_pi_div_two]
  exact ⟨12 / (1 + 12 / 511), by norm_num⟩

end Verif.Line
