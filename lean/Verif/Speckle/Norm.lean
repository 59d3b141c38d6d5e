/- Normalised bin edges of speckle visibility: speckle.py normalize_bin_edges. -/
import Verif.Np
import Verif.Utils.Model

namespace Verif.Speckle
open Verif

/-- `norm_bin_edges[i, j]`; speckle.py 321.  A mean of 0 gives NaN and infinities in NumPy and zeros here; the theorems
assume it is not 0. -/
def normEdge (mean : ℚ) (maxCts i : ℕ) : List ℚ := (Np.arange (maxCts * 2 ^ i)).map (fun k => k / (mean * 2 ^ i))

/-- `normalize_bin_edges`; speckle.py 291-324. -/
def normalizeBinEdges (numTimes numRois : ℕ) (mean : List ℚ) (maxCts : ℕ) : Py (List (List (List ℚ)) × List (List (List ℚ))) :=
  if 0 < numTimes ∧ mean.length < numRois then .error .indexError
  else
    let edges := (List.range numTimes).map (fun (i : ℕ) => (mean.take numRois).map (fun (m : ℚ) => normEdge m maxCts i))
    .ok (edges, edges.map (fun row => row.map Utils.binEdgesToCenters))

end Verif.Speckle
