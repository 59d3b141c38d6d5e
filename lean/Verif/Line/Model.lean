/- Model of skbeam/core/fitting/lineshapes.py over the reals.  Every function is applied elementwise by NumPy, so each is
modelled at one point.  Floating-point rounding and overflow are not modelled. -/
import Mathlib.Analysis.SpecialFunctions.Gaussian.GaussianIntegral
import Mathlib.Analysis.SpecialFunctions.Gamma.Basic
import Mathlib.Analysis.SpecialFunctions.ImproperIntegrals
import Mathlib.Analysis.SpecialFunctions.Pow.Real

namespace Verif.Line
open Real

/-- `s2pi`; lineshapes.py 58. -/
noncomputable def s2pi : ℝ := √(2 * π)

/-- `gaussian`; lineshapes.py 63-77. -/
noncomputable def gaussian (x area center sigma : ℝ) : ℝ :=
  (area / (s2pi * sigma)) * exp (-1 * (1 * x - center) ^ 2 / (2 * sigma ^ 2))

/-- `lorentzian`; lineshapes.py 80-95. -/
noncomputable def lorentzian (x area center sigma : ℝ) : ℝ :=
  (area / (1 + ((1 * x - center) / sigma) ^ 2)) / (π * sigma)

/-- `lorentzian2`; lineshapes.py 98-114. -/
noncomputable def lorentzian2 (x area center sigma : ℝ) : ℝ :=
  (area / (1 + ((x - center) / sigma) ^ 2) ^ 2) / (π * sigma)

/-- `pvoigt`; lineshapes.py 142-159. -/
noncomputable def pvoigt (x area center sigma fraction : ℝ) : ℝ :=
  (1 - fraction) * gaussian x area center sigma + fraction * lorentzian x area center sigma

/-- scipy.special.erfc, by its defining integral (library function, trusted). -/
noncomputable def erfc (x : ℝ) : ℝ := 2 / √π * ∫ t in Set.Ioi x, exp (-t ^ 2)

/-- `gausssian_step`; lineshapes.py 162-192. -/
noncomputable def gaussianStep (x area center sigma peakE : ℝ) : ℝ :=
  area * erfc ((x - center) / (√2 * sigma)) / (2 * peakE)

/-- `gaussian_tail`; lineshapes.py 195-234. -/
noncomputable def gaussianTail (x area center sigma gamma : ℝ) : ℝ :=
  let dxNeg := if x - center > 0 then 0 else x - center
  let tempA := exp (dxNeg / (gamma * sigma))
  let v1 := erfc ((x - center) / (√2 * sigma) + 1 / (gamma * √2))
  let v2 := 2 * gamma * sigma * exp (-(1/2) / gamma ^ 2)
  area * tempA * (v1 / v2)

/-- Energy calibration; lineshapes.py 279 and 359. -/
def energyOf (x eOffset eLinear eQuadratic : ℝ) : ℝ := eOffset + x * eLinear + x ^ 2 * eQuadratic

/-- Peak width; lineshapes.py 281-282 and 366-367. -/
noncomputable def peakSigma (fwhmOffset fwhmFano epsilon energy : ℝ) : ℝ :=
  √((fwhmOffset / (2 * √(2 * log 2))) ^ 2 + energy * epsilon * fwhmFano)

/-- `elastic`; lineshapes.py 237-284. -/
noncomputable def elastic (x amplitude energy fwhmOffset fwhmFano eOffset eLinear eQuadratic epsilon : ℝ) : ℝ :=
  gaussian (energyOf x eOffset eLinear eQuadratic) amplitude energy (peakSigma fwhmOffset fwhmFano epsilon energy)

/-- Energy of the Compton peak; lineshapes.py 362-364 (`np.deg2rad` = times pi / 180). -/
noncomputable def comptonE (energy angle : ℝ) : ℝ := energy / (1 + energy / 511 * (1 - cos (angle * (π / 180))))

/-- `compton`; lineshapes.py 287-392. -/
noncomputable def compton (x amplitude energy fwhmOffset fwhmFano eOffset eLinear eQuadratic angle fwhmCorr fStep fTail gamma
    hiTail hiGamma epsilon : ℝ) : ℝ :=
  let e := energyOf x eOffset eLinear eQuadratic
  let ce := comptonE energy angle
  let sigma := peakSigma fwhmOffset fwhmFano epsilon ce
  let factor := 1 / (1 + fStep + fTail + hiTail)
  factor * gaussian e amplitude ce (sigma * fwhmCorr)
    + (if fStep > 0 then factor * fStep * gaussianStep e amplitude ce sigma ce else 0)
    + factor * fTail * gaussianTail e amplitude ce sigma gamma
    + factor * hiTail * gaussianTail (-1 * e) amplitude (-1 * ce) sigma hiGamma

/-- scipy.special.gammaln: log |Gamma x|. -/
noncomputable def gammaln (x : ℝ) : ℝ := log |Gamma x|

/-- `gamma_dist`: density of `scipy.stats.gamma(M, 0, K/M)`; lineshapes.py 395-425.  scipy's formula for the density of
the gamma distribution with shape M and scale K/M. -/
noncomputable def gammaDist (x K M : ℝ) : ℝ :=
  if x < 0 then 0 else (x / (K / M)) ^ (M - 1) * exp (-(x / (K / M))) / Gamma M / (K / M)

/-- `nbinom_dist` at the photon count `k`; lineshapes.py 428-470. -/
noncomputable def nbinomDist (k : ℕ) (K M : ℝ) : ℝ :=
  exp (gammaln (k + M) - gammaln (k + 1) - gammaln M) * (M / (K + M)) ^ M * (K / (M + K)) ^ (k : ℝ)

/-- `poisson_dist` at the photon count `k`; lineshapes.py 473-501. -/
noncomputable def poissonDist (k : ℕ) (K : ℝ) : ℝ := exp (-K) * K ^ (k : ℝ) / Gamma (k + 1)

end Verif.Line
