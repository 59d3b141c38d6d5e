/- Model of find_support (skbeam/core/cdi.py), the shrink-wrap support update, with SciPy's Gaussian filter. -/
import Verif.Cdi.Model

namespace Verif.Cdi
open Finset Verif

/-- Boundary mode "reflect" of scipy.ndimage: position i of an axis of length n continued as d c b a | a b c d | d c b a
(used by the call at cdi.py 144). -/
def reflectIdx (n : ℕ) (i : ℤ) : ℕ :=
  let m := (i % (2 * (n : ℤ))).toNat
  if m < n then m else 2 * n - 1 - m

/-- The radius of the filter: `int(truncate * sd + 0.5)` with `truncate = 4.0`; cdi.py 144. -/
noncomputable def gaussRadius (sigma : ℝ) : ℕ := ⌊4 * sigma + 1 / 2⌋₊

/-- The filter weight before normalisation: `exp(-0.5 / sigma2 * x ** 2)`; cdi.py 144. -/
noncomputable def gaussPhi (sigma : ℝ) (x : ℤ) : ℝ := Real.exp (-0.5 / sigma ^ 2 * (x : ℝ) ^ 2)

/-- The normalised weights on -R..R (position k stands for the offset k - R); cdi.py 144. -/
noncomputable def gaussKernel (sigma : ℝ) (k : ℕ) : ℝ :=
  gaussPhi sigma ((k : ℤ) - gaussRadius sigma)
    / ∑ k ∈ range (2 * gaussRadius sigma + 1), gaussPhi sigma ((k : ℤ) - gaussRadius sigma)

/-- `correlate1d` with these weights along an axis of length n, mode "reflect". -/
noncomputable def filter1 (sigma : ℝ) (n : ℕ) (x : ℕ → ℝ) (i : ℕ) : ℝ :=
  ∑ k ∈ range (2 * gaussRadius sigma + 1), gaussKernel sigma k * x (reflectIdx n ((i : ℤ) + k - gaussRadius sigma))

open Classical in
/-- `gaussian_filter(x, sigma)` of a real r x c array: along the first axis, then along the second; axes with
`sigma <= 1e-15` are skipped; cdi.py 144.  Real arithmetic (the magnitudes of an integer-typed object would be filtered
with integer rounding; not modelled). -/
noncomputable def gaussianFilter (r c : ℕ) (sigma : ℝ) (x : ℕ → ℕ → ℝ) : ℕ → ℕ → ℝ :=
  if sigma > 1e-15 then
    let y := fun i j => filter1 sigma r (fun a => x a j) i
    fun i j => filter1 sigma c (fun b => y i b) j
  else x

open Classical in
/-- `find_support`; cdi.py 125-146, for an r x c array (`np.max` of an array without elements raises ValueError). -/
noncomputable def findSupport (r c : ℕ) (sigma threshold : ℝ) (x : Arr) : Py (ℕ → ℕ → Bool) :=
  let conv := gaussianFilter r c sigma (fun i j => ‖x i j‖)
  if h : (range r ×ˢ range c).Nonempty then
    .ok (fun i j => decide (threshold * (range r ×ˢ range c).sup' h (fun q => conv q.1 q.2) ≤ conv i j))
  else .error .valueError

end Verif.Cdi
