/- Model of skbeam/core/stats.py. -/
import Verif.Binned.Model

namespace Verif.Stats
open Verif

/-- `_defaults["bins"]`, utils.py:58. -/
def defaultBins : ℤ := 100

/-- `scipy.stats.binned_statistic(x, ..., bins=edges)`: the number of a sample's bin (0 = below, number of bins + 1 =
above).  scipy digitizes and moves the samples that are not below the last edge but round to it into the last bin. -/
def binNo (edges : List ℚ) (x : ℚ) : ℕ :=
  let n := Np.digitize edges x
  let last := edges.getLast?.getD 0
  if last ≤ x ∧ Binned.sameRounded (Binned.decimals edges) x last then n - 1 else n

/-- `scipy.stats.binned_statistic(x, y, statistic=stat, bins=edges)[0]`, library code used at stats.py:91: `stat` of the values
of every bin, in sample order.  Arrays of different lengths raise AttributeError; fewer than two edges and edges that do
not increase (equally spaced here) raise ValueError. -/
def binnedStatistic {β : Type} (x y : List ℚ) (stat : List ℚ → β) (edges : List ℚ) : Py (List β) :=
  if x.length ≠ y.length then .error .attributeError
  else if Binned.minWidth edges ≤ 0 then .error .valueError
  else .ok ((List.range (edges.length - 1)).map (fun i => stat (((x.zip y).filter (fun p => binNo edges p.1 = i + 1)).map Prod.snd)))

/-- A given limit, or an extreme of the coordinates (`np.min`, `np.max`; ValueError when there are none), stats.py:80-84. -/
def limit (given extreme : Option ℚ) : Py ℚ :=
  match given, extreme with
  | some a, _ => .ok a
  | none, some a => .ok a
  | none, none => .error .valueError

/-- `statistics_1D`, stats.py:51-93.  `stat` is the function that the statistic names (the value for an empty bin included);
finite coordinates.  A negative number of points raises ValueError. -/
def statistics1D {β : Type} (x y : List ℚ) (stat : List ℚ → β) (nx : Option ℤ) (mn mx : Option ℚ) : Py (List ℚ × List β) := do
  let lo ← limit mn x.min?
  let hi ← limit mx x.max?
  let n := nx.getD defaultBins
  if n + 1 < 0 then .error .valueError
  else do
    let bins := Np.linspace lo hi (n + 1).toNat
    let val ← binnedStatistic x y stat bins
    return (bins, val)

end Verif.Stats
