/- Model of `voigt`, skbeam/core/fitting/lineshapes.py. -/
import Verif.Line.Model
import Mathlib.Analysis.SpecialFunctions.Complex.Log

namespace Verif.Line
open Real

/-- scipy.special.wofz, the Faddeeva function `exp(-z^2) erfc(-iz)` (library function, trusted): by its integral
representation above the real axis (DLMF 7.7.2), by Dawson's integral on the axis and by reflection below it. -/
noncomputable def wofz (z : ℂ) : ℂ :=
  if 0 < z.im then Complex.I / π * ∫ t : ℝ, Complex.exp (-(t : ℂ) ^ 2) / (z - t)
  else if z.im = 0 then exp (-z.re ^ 2) * (1 + Complex.I * (2 / √π * ∫ t in (0:ℝ)..z.re, exp (t ^ 2) : ℝ))
  else 2 * Complex.exp (-z ^ 2) - (starRingEnd ℂ) (Complex.I / π * ∫ t : ℝ, Complex.exp (-(t : ℂ) ^ 2) / ((starRingEnd ℂ) z - t))

/-- `voigt`; lineshapes.py 117-139.  `gamma = none` is the default `None`. -/
noncomputable def voigt (x area center sigma : ℝ) (gamma : Option ℝ) : ℝ :=
  let g := gamma.getD sigma
  let z : ℂ := ((x : ℂ) - center + Complex.I * g) / (sigma * (√2 : ℝ))
  area * (wofz z).re / (sigma * s2pi)

end Verif.Line
