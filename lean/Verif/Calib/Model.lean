/- Model of skbeam/core/calibration.py, over the real numbers. -/
import Verif.Dft
import Verif.Np

namespace Verif.Calib
open Finset Verif

/-- `np.linspace(-pi, pi, n + 1)[k]`; calibration.py 200 (n = phi_steps - 1 sectors). -/
noncomputable def phiStep (n k : ℕ) : ℝ := -Real.pi + k * ((Real.pi - -Real.pi) / n)

/-- `bin_edges_to_centers(phi_steps)[k]`; calibration.py 224. -/
noncomputable def phiCenter (n k : ℕ) : ℝ := (phiStep n k + phiStep n (k + 1)) / 2

/-- `np.mean(np.diff(phi_centers))`; calibration.py 226. -/
noncomputable def delta (n : ℕ) : ℝ := (∑ k ∈ range (n - 1), (phiCenter n (k + 1) - phiCenter n k)) / (n - 1 : ℕ)

/-- Entry `(ring k, sector s)` of `ring_trace` after line 220 (the traces cut to a common length and transposed). -/
noncomputable def entry (traces : List (List ℝ)) (k s : ℕ) : ℝ := (traces.getD s []).getD k 0

/-- Shortest trace, `mm`; calibration.py 218-219 (at least one sector: otherwise np.min raises ValueError). -/
def minLen (traces : List (List ℝ)) : ℕ := (traces.tail.map List.length).foldl min (traces.headD []).length

/-- `mean_dr[s]`; calibration.py 222. -/
noncomputable def meanDr (traces : List (List ℝ)) (s : ℕ) : ℝ :=
  (∑ k ∈ range (minLen traces), (entry traces k s - (∑ t ∈ range traces.length, entry traces k t) / traces.length)) / minLen traces

/-- The part of `refine_center` from the found rings on; calibration.py 218-233.  `traces` holds, for every azimuthal
sector, the radii of the rings found in it; `center` and the result are (row, column), `ps` is (pixel_height,
pixel_width).  Division by zero is 0 here (NaN in NumPy: no ring, or one sector). -/
noncomputable def refineFromTraces (traces : List (List ℝ)) (center ps : ℝ × ℝ) : Py (ℝ × ℝ) :=
  if traces = [] then .error .valueError
  else
    let n := traces.length
    let colShift := (∑ s ∈ range n, Real.sin (phiCenter n s) * meanDr traces s) * delta n / (Real.pi * ps.2)
    let rowShift := (∑ s ∈ range n, Real.cos (phiCenter n s) * meanDr traces s) * delta n / (Real.pi * ps.1)
    .ok (center.1 + rowShift, center.2 + colShift)

/-- Mean and standard deviation over the first `min(len(tan2theta), len(peaks_x), max_peak_count)` peaks of
`estimate_d_blind`; calibration.py 121-127 (a negative max_peak_count is not modelled; with no peak numpy gives
NaN where the division here gives 0, every theorem assumes at least one). -/
noncomputable def estimateFromPeaks (peaks twoTheta : List ℝ) (maxPeaks : ℕ) : ℝ × ℝ :=
  let n := min (min twoTheta.length peaks.length) maxPeaks
  let d := List.zipWith (fun p t => p / Real.tan t) (peaks.take n) (twoTheta.take n)
  let mean := d.sum / d.length
  (mean, √((d.map (fun v => (v - mean) ^ 2)).sum / d.length))

end Verif.Calib
