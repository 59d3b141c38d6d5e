/- C267: the peak functions of a spectrum with channel numbers of an integer type
(skbeam/core/fitting/lineshapes.py 237-392, skbeam/core/fitting/xrf_model.py 98-163). -/
import Verif.Wrap.Model
import Verif.Line.Props
import Verif.Xrf.Fit

namespace Verif.Wrap
open Verif Verif.Line Real

/-- `x = e_offset + x * e_linear + x**2 * e_quadratic`, lineshapes.py 279 and 359, xrf_model.py 157, for a channel of integer type `t`:
`x**2` is computed in the type, the products with floats are floats (exact here). -/
def channelEnergyI (t : IntType) (x : ℤ) (eOffset eLinear eQuadratic : ℝ) : ℝ :=
  eOffset + (x : ℝ) * eLinear + ((t.wrap (x ^ 2) : ℤ) : ℝ) * eQuadratic

/-- `elastic`, lineshapes.py 237-284. -/
noncomputable def elasticI (t : IntType) (x : ℤ) (amplitude energy fwhmOffset fwhmFano eOffset eLinear eQuadratic epsilon : ℝ) : ℝ :=
  gaussian (channelEnergyI t x eOffset eLinear eQuadratic) amplitude energy (peakSigma fwhmOffset fwhmFano epsilon energy)

/-- `compton`, lineshapes.py 287-392. -/
noncomputable def comptonI (t : IntType) (x : ℤ) (amplitude energy fwhmOffset fwhmFano eOffset eLinear eQuadratic angle fwhmCorr fStep fTail gamma
    hiTail hiGamma epsilon : ℝ) : ℝ :=
  let e := channelEnergyI t x eOffset eLinear eQuadratic
  let ce := comptonE energy angle
  let sigma := peakSigma fwhmOffset fwhmFano epsilon ce
  let factor := 1 / (1 + fStep + fTail + hiTail)
  factor * gaussian e amplitude ce (sigma * fwhmCorr)
    + (if fStep > 0 then factor * fStep * gaussianStep e amplitude ce sigma ce else 0)
    + factor * fTail * gaussianTail e amplitude ce sigma gamma
    + factor * hiTail * gaussianTail (-1 * e) amplitude (-1 * ce) sigma hiGamma

/-- `element_peak_xrf`, xrf_model.py 98-163. -/
noncomputable def elementPeakI (t : IntType) (x : ℤ) (area center deltaCenter deltaSigma ratio ratioAdjust fwhmOffset fwhmFanoprime
    eOffset eLinear eQuadratic epsilon : ℝ) : ℝ :=
  Xrf.elementPeakE (channelEnergyI t x eOffset eLinear eQuadratic) area center deltaCenter deltaSigma ratio ratioAdjust fwhmOffset fwhmFanoprime epsilon

/-! ## C267 -/

/-- C267: the energy of a channel of an integer type is e_offset + e_linear x + e_quadratic x² exactly if the square of the channel
fits the type or there is no quadratic term. -/
theorem C267_energy (t : IntType) (x : ℤ) (eOffset eLinear eQuadratic : ℝ) :
    channelEnergyI t x eOffset eLinear eQuadratic = eOffset + (x : ℝ) * eLinear + (x : ℝ) ^ 2 * eQuadratic ↔ eQuadratic = 0 ∨ t.Holds (x ^ 2) := by
  unfold channelEnergyI
  rw [add_right_inj, mul_eq_mul_right_iff, or_comm, ← wrap_eq_self]
  apply or_congr_right
  rw [show ((x : ℝ) ^ 2) = ((x ^ 2 : ℤ) : ℝ) by push_cast; rfl, Int.cast_inj]

/-- C267: then the elastic, the Compton and the fluorescence peak are those of the same channel as a float. -/
theorem C267_peaks_partial (t : IntType) (x : ℤ) (eOffset eLinear eQuadratic : ℝ) (h : eQuadratic = 0 ∨ t.Holds (x ^ 2)) :
    (∀ amplitude energy fwhmOffset fwhmFano epsilon, elasticI t x amplitude energy fwhmOffset fwhmFano eOffset eLinear eQuadratic epsilon =
      elastic (x : ℝ) amplitude energy fwhmOffset fwhmFano eOffset eLinear eQuadratic epsilon) ∧
    (∀ amplitude energy fwhmOffset fwhmFano angle fwhmCorr fStep fTail gamma hiTail hiGamma epsilon,
      comptonI t x amplitude energy fwhmOffset fwhmFano eOffset eLinear eQuadratic angle fwhmCorr fStep fTail gamma hiTail hiGamma epsilon =
      compton (x : ℝ) amplitude energy fwhmOffset fwhmFano eOffset eLinear eQuadratic angle fwhmCorr fStep fTail gamma hiTail hiGamma epsilon) ∧
    (∀ area center deltaCenter deltaSigma ratio ratioAdjust fwhmOffset fwhmFanoprime epsilon,
      elementPeakI t x area center deltaCenter deltaSigma ratio ratioAdjust fwhmOffset fwhmFanoprime eOffset eLinear eQuadratic epsilon =
      Xrf.elementPeak (x : ℝ) area center deltaCenter deltaSigma ratio ratioAdjust fwhmOffset fwhmFanoprime eOffset eLinear eQuadratic epsilon) := by
  have he := (C267_energy t x eOffset eLinear eQuadratic).2 h
  refine ⟨?_, ?_, ?_⟩
  · intros; unfold elasticI elastic; rw [he]; rfl
  · intros; unfold comptonI compton; rw [he]; rfl
  · intros; unfold elementPeakI Xrf.elementPeak; rw [he]

/-- C267: 64-bit channel numbers (np.arange) are safe up to 3 037 000 499 channels. -/
theorem C267_int64 (x : ℤ) (h : |x| ≤ 3037000499) : (sint 64).Holds (x ^ 2) := by
  have h2 : x ^ 2 ≤ 3037000499 ^ 2 := sq_le_sq' (by linarith [neg_abs_le x]) ((le_abs_self x).trans h)
  have h0 := sq_nonneg x
  constructor
  · simp only [IntType.lo, sint, if_true]; norm_num; linarith
  · simp only [IntType.hi, sint, if_true]; norm_num; norm_num at h2; linarith

/-- C267, where the claim fails: the square of a 16-bit channel number that is a multiple of 256 is 0, so the quadratic term is lost. -/
theorem C267_lost_refuted (x : ℤ) (hx : 256 ∣ x) (amplitude energy fwhmOffset fwhmFano eOffset eLinear eQuadratic epsilon : ℝ) :
    elasticI (uint 16) x amplitude energy fwhmOffset fwhmFano eOffset eLinear eQuadratic epsilon =
      elastic (x : ℝ) amplitude energy fwhmOffset fwhmFano eOffset eLinear 0 epsilon := by
  obtain ⟨k, rfl⟩ := hx
  have hw : (uint 16).wrap ((256 * k) ^ 2) = 0 := by
    rw [wrap_uint, mul_pow]
    norm_num
  unfold elasticI elastic channelEnergyI energyOf
  rw [hw]
  simp

/-- C267, where the claim fails: the channel whose energy is the incident energy is then not at the maximum of the elastic peak. -/
theorem C267_shifted_refuted (x : ℤ) (hx : 256 ∣ x) (hx0 : x ≠ 0) (amplitude energy fwhmOffset fwhmFano eOffset eLinear eQuadratic epsilon : ℝ)
    (hA : 0 < amplitude) (hs : 0 < peakSigma fwhmOffset fwhmFano epsilon energy) (hq : eQuadratic ≠ 0)
    (he : eOffset + (x : ℝ) * eLinear + (x : ℝ) ^ 2 * eQuadratic = energy) :
    elasticI (uint 16) x amplitude energy fwhmOffset fwhmFano eOffset eLinear eQuadratic epsilon <
      elastic (x : ℝ) amplitude energy fwhmOffset fwhmFano eOffset eLinear eQuadratic epsilon := by
  rw [C267_lost_refuted x hx]
  unfold elastic energyOf
  rw [he, gaussian_eq, gaussian_eq]
  obtain ⟨s, hs'⟩ : ∃ s, s = peakSigma fwhmOffset fwhmFano epsilon energy := ⟨_, rfl⟩
  rw [← hs'] at hs ⊢
  have hpos : 0 < amplitude / (s2pi * s) := by
    have := s2pi_pos
    positivity
  apply mul_lt_mul_of_pos_left _ hpos
  rw [exp_lt_exp]
  have hne : eOffset + (x : ℝ) * eLinear + (x : ℝ) ^ 2 * 0 - energy ≠ 0 := by
    rw [← he]
    have : (x : ℝ) ^ 2 * eQuadratic ≠ 0 := mul_ne_zero (pow_ne_zero 2 (Int.cast_ne_zero.2 hx0)) hq
    intro h
    apply this
    linarith
  have : 0 < ((eOffset + (x : ℝ) * eLinear + (x : ℝ) ^ 2 * 0 - energy) / s) ^ 2 := by positivity
  simp only [sub_self, zero_div]
  nlinarith

/-- Instance: 1024 channels of 10 eV with a quadratic term, 16-bit channel number 512. -/
example : ¬ (uint 16).Holds ((512 : ℤ) ^ 2) ∧ channelEnergyI (uint 16) 512 0 (1 / 100) (1 / 1000000) = 512 / 100 := by
  constructor
  · simp [IntType.Holds, IntType.lo, IntType.hi, uint]
  · have : (uint 16).wrap ((512 : ℤ) ^ 2) = 0 := by decide +kernel
    unfold channelEnergyI
    rw [this]
    norm_num

end Verif.Wrap
