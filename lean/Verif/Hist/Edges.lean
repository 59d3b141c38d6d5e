/- Reported edges and centres of a histogram; accumulators/histogram.pyx. -/
import Verif.Hist.Model
import Verif.Utils.Model

namespace Verif.Hist
open Verif

/-- The property `edges`, histogram.pyx:276-279. -/
def edges (h : Hist) : List (List ℚ) := h.axes.map (fun a => Np.linspace a.low a.high (a.nbin + 1))

/-- The property `centers`, histogram.pyx:281-283. -/
def centers (h : Hist) : List (List ℚ) := (edges h).map Utils.binEdgesToCenters

end Verif.Hist
