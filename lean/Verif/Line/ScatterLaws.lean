/- C280: laws of the scattering peaks elastic and compton (skbeam/core/fitting/lineshapes.py 237-392). -/
import Verif.Line.Props

namespace Verif.Line
open Real

/-- C280: both peaks are proportional to their amplitude and add up for added amplitudes. -/
theorem C280_amplitude (x a b s energy fwhmOffset fwhmFano eOffset eLinear eQuadratic angle fwhmCorr fStep fTail gamma hiTail hiGamma epsilon : ℝ) :
    elastic x (s * a + b) energy fwhmOffset fwhmFano eOffset eLinear eQuadratic epsilon =
      s * elastic x a energy fwhmOffset fwhmFano eOffset eLinear eQuadratic epsilon + elastic x b energy fwhmOffset fwhmFano eOffset eLinear eQuadratic epsilon ∧
    compton x (s * a + b) energy fwhmOffset fwhmFano eOffset eLinear eQuadratic angle fwhmCorr fStep fTail gamma hiTail hiGamma epsilon =
      s * compton x a energy fwhmOffset fwhmFano eOffset eLinear eQuadratic angle fwhmCorr fStep fTail gamma hiTail hiGamma epsilon +
        compton x b energy fwhmOffset fwhmFano eOffset eLinear eQuadratic angle fwhmCorr fStep fTail gamma hiTail hiGamma epsilon := by
  constructor
  · unfold elastic gaussian
    ring
  · unfold compton gaussian gaussianTail gaussianStep
    simp only
    split_ifs <;> ring

/-- C280: the Compton peak is the same for scattering to either side and for a full turn more. -/
theorem C280_angle (x amplitude energy fwhmOffset fwhmFano eOffset eLinear eQuadratic angle fwhmCorr fStep fTail gamma hiTail hiGamma epsilon : ℝ) :
    compton x amplitude energy fwhmOffset fwhmFano eOffset eLinear eQuadratic (-angle) fwhmCorr fStep fTail gamma hiTail hiGamma epsilon =
      compton x amplitude energy fwhmOffset fwhmFano eOffset eLinear eQuadratic angle fwhmCorr fStep fTail gamma hiTail hiGamma epsilon ∧
    compton x amplitude energy fwhmOffset fwhmFano eOffset eLinear eQuadratic (angle + 360) fwhmCorr fStep fTail gamma hiTail hiGamma epsilon =
      compton x amplitude energy fwhmOffset fwhmFano eOffset eLinear eQuadratic angle fwhmCorr fStep fTail gamma hiTail hiGamma epsilon := by
  have h1 : comptonE energy (-angle) = comptonE energy angle := by
    unfold comptonE
    rw [neg_mul, cos_neg]
  have h2 : comptonE energy (angle + 360) = comptonE energy angle := by
    unfold comptonE
    rw [show (angle + 360) * (π / 180) = angle * (π / 180) + 2 * π by ring, cos_add_two_pi]
  unfold compton
  simp only [h1, h2, and_self]

/-- C280: only the energies of the channels matter: channels renumbered as x = a u + b (rebinned, cropped) with the calibration converted accordingly
give the same spectra. -/
theorem C280_channels (u a b amplitude energy fwhmOffset fwhmFano eOffset eLinear eQuadratic angle fwhmCorr fStep fTail gamma hiTail hiGamma epsilon : ℝ) :
    elastic u amplitude energy fwhmOffset fwhmFano (eOffset + b * eLinear + b ^ 2 * eQuadratic) (a * eLinear + 2 * a * b * eQuadratic) (a ^ 2 * eQuadratic) epsilon =
      elastic (a * u + b) amplitude energy fwhmOffset fwhmFano eOffset eLinear eQuadratic epsilon ∧
    compton u amplitude energy fwhmOffset fwhmFano (eOffset + b * eLinear + b ^ 2 * eQuadratic) (a * eLinear + 2 * a * b * eQuadratic) (a ^ 2 * eQuadratic)
        angle fwhmCorr fStep fTail gamma hiTail hiGamma epsilon =
      compton (a * u + b) amplitude energy fwhmOffset fwhmFano eOffset eLinear eQuadratic angle fwhmCorr fStep fTail gamma hiTail hiGamma epsilon := by
  have h : energyOf u (eOffset + b * eLinear + b ^ 2 * eQuadratic) (a * eLinear + 2 * a * b * eQuadratic) (a ^ 2 * eQuadratic) =
      energyOf (a * u + b) eOffset eLinear eQuadratic := by
    unfold energyOf
    ring
  unfold elastic compton
  simp only [h, and_self]

/-- C280: forward scattering without broadening, step and tails is the elastic peak. -/
theorem C280_forward (x amplitude energy fwhmOffset fwhmFano eOffset eLinear eQuadratic gamma hiGamma epsilon : ℝ) (_hg : gamma ≠ 0) (_hh : hiGamma ≠ 0) (k : ℤ) :
    compton x amplitude energy fwhmOffset fwhmFano eOffset eLinear eQuadratic (360 * k) 1 0 0 gamma 0 hiGamma epsilon =
      elastic x amplitude energy fwhmOffset fwhmFano eOffset eLinear eQuadratic epsilon := by
  have h : comptonE energy (360 * k) = energy := by
    unfold comptonE
    rw [show (360 * (k : ℝ)) * (π / 180) = k * (2 * π) by ring, cos_int_mul_two_pi]
    simp
  unfold compton elastic
  simp only [h]
  simp

theorem erfc_nonneg' (x : ℝ) : 0 ≤ erfc x := by
  unfold erfc
  apply mul_nonneg
  · positivity
  · exact MeasureTheory.setIntegral_nonneg measurableSet_Ioi (fun t _ => (exp_pos _).le)

theorem tail_nonneg' (x area center sigma gamma : ℝ) (ha : 0 ≤ area) (hs : 0 ≤ sigma) (hg : 0 ≤ gamma) : 0 ≤ gaussianTail x area center sigma gamma := by
  unfold gaussianTail
  simp only
  have := erfc_nonneg' ((x - center) / (√2 * sigma) + 1 / (gamma * √2))
  positivity

/-- C280: both peaks are never negative. -/
theorem C280_nonnegative (x amplitude energy fwhmOffset fwhmFano eOffset eLinear eQuadratic angle fwhmCorr fStep fTail gamma hiTail hiGamma epsilon : ℝ)
    (hA : 0 ≤ amplitude) (hE : 0 < energy) (_hF : 0 < fwhmOffset) (_hFa : 0 ≤ fwhmFano) (_he : 0 ≤ epsilon) (hC : 0 < fwhmCorr)
    (hS : 0 ≤ fStep) (hT : 0 ≤ fTail) (hH : 0 ≤ hiTail) (hg : 0 < gamma) (hh : 0 < hiGamma) :
    0 ≤ elastic x amplitude energy fwhmOffset fwhmFano eOffset eLinear eQuadratic epsilon ∧
    0 ≤ compton x amplitude energy fwhmOffset fwhmFano eOffset eLinear eQuadratic angle fwhmCorr fStep fTail gamma hiTail hiGamma epsilon := by
  have hce := (C69_energy energy angle hE).1
  have hsig : ∀ e, 0 ≤ peakSigma fwhmOffset fwhmFano epsilon e := fun e => sqrt_nonneg _
  have hgauss : ∀ y c s, 0 ≤ s → 0 ≤ gaussian y amplitude c s := fun y c s hs => by
    unfold gaussian s2pi
    positivity
  have hstep : ∀ y c s, 0 ≤ gaussianStep y amplitude c s (comptonE energy angle) := fun y c s => by
    unfold gaussianStep
    have := erfc_nonneg' ((y - c) / (√2 * s))
    positivity
  constructor
  · exact hgauss _ _ _ (hsig _)
  · unfold compton
    simp only
    have hf : 0 ≤ 1 / (1 + fStep + fTail + hiTail) := by positivity
    have t1 := hgauss (energyOf x eOffset eLinear eQuadratic) (comptonE energy angle) (peakSigma fwhmOffset fwhmFano epsilon (comptonE energy angle) * fwhmCorr) (mul_nonneg (hsig _) hC.le)
    have t2 := hstep (energyOf x eOffset eLinear eQuadratic) (comptonE energy angle) (peakSigma fwhmOffset fwhmFano epsilon (comptonE energy angle))
    have t3 := tail_nonneg' (energyOf x eOffset eLinear eQuadratic) amplitude (comptonE energy angle) _ gamma hA (hsig (comptonE energy angle)) hg.le
    have t4 := tail_nonneg' (-1 * energyOf x eOffset eLinear eQuadratic) amplitude (-1 * comptonE energy angle) _ hiGamma hA (hsig (comptonE energy angle)) hh.le
    split_ifs <;> positivity

/-- Instance: forward scattering at channel 3. -/
example : compton 3 2 12 (1/10) (1/10) 0 (1/100) 0 (360 * (1 : ℤ)) 1 0 0 1 0 1 (3/1000) = elastic 3 2 12 (1/10) (1/10) 0 (1/100) 0 (3/1000) :=
  C280_forward 3 2 12 (1/10) (1/10) 0 (1/100) 0 1 1 (3/1000) one_ne_zero one_ne_zero 1

end Verif.Line
