/- Model of the numeric helpers of skbeam/core/utils.py. -/
import Verif.Np

namespace Verif.Utils
open Verif

/-- `multi_tau_lags`, skbeam/core/utils.py:1109-1165.  The two nested append loops (1156-1162) are a
`flatMap`; `dict_lags` is an association list in insertion order. -/
def multiTauLags (levels channels : ℕ) : Py (ℕ × List ℕ × List (ℕ × List ℕ)) :=
  if channels % 2 ≠ 0 then .error .valueError
  else
    let tot := (levels + 1) * channels / 2
    let lagSteps := List.range channels
    let level (i : ℕ) := (List.range (channels / 2)).map (fun j => (channels / 2 + j) * 2 ^ (i - 1))
    let is := List.range' 2 (levels + 1 - 2)
    .ok (tot, lagSteps ++ is.flatMap level, (1, lagSteps) :: is.map (fun i => (i, level i)))

/-- One run of the `while` loop of `geometric_series`, skbeam/core/utils.py:1205-1206, with fuel; the list is
kept newest first.  `none` = the loop has not finished within the fuel. -/
def geomLoop (ratio n : ℚ) : ℕ → ℚ → List ℚ → Option (List ℚ)
  | 0, _, _ => none
  | f + 1, last, acc =>
    if last * ratio < n then geomLoop ratio n f (last * ratio) (last * ratio :: acc) else some acc

/-- `geometric_series`, skbeam/core/utils.py:1168-1207. -/
def geometricSeries (fuel : ℕ) (ratio n first : ℚ) : Option (List ℚ) :=
  (geomLoop ratio n fuel first [first]).map List.reverse

/-- Python truth value as a number, as used by `sum((... is not None, ...))`. -/
def isSome01 {α : Type} (o : Option α) : ℕ := if o.isSome then 1 else 0

/-- `a + np.arange(n+1) * step`. -/
def arith (a step : ℚ) (n : ℕ) : List ℚ := (List.range (n + 1)).map (fun (k : ℕ) => a + k * step)

/-- The argument-dependent part of `bin_edges`, skbeam/core/utils.py:759-793.  The debug message (772-784) is
omitted.  `int(x // y)` is the floor of the quotient; division by zero raises, an empty `arange` makes `ret[-1]`
raise IndexError.  The last branch cannot be reached from `binEdges`. -/
def binEdgesCore : Option ℚ → Option ℚ → Option ℤ → Option ℚ → Py (List ℚ)
  | some a, some b, some n, none => .ok (Np.linspace a b (n.toNat + 1))
  | some a, some b, none, some s =>
    if s > b - a then .error .valueError
    else if s = 0 then .error .zeroDivision
    else if ⌊(b - a) / s⌋ + 1 ≤ 0 then .error .indexError
    else if a + ⌊(b - a) / s⌋ * s > b then .ok (arith a s ⌊(b - a) / s⌋.toNat).dropLast
    else .ok (arith a s ⌊(b - a) / s⌋.toNat)
  | some a, none, some n, some s => .ok (arith a s n.toNat)
  | none, some b, some n, some s =>
    .ok ((List.range (n.toNat + 1)).reverse.map (fun (k : ℕ) => b - k * s))
  | _, _, _, _ => .error .typeError

/-- `range_min is not None and range_max is not None and range_max <= range_min` (751-752). -/
def badRange : Option ℚ → Option ℚ → Bool
  | some a, some b => decide (b ≤ a)
  | _, _ => false
/-- `nbins is not None and nbins <= 0` (755-756). -/
def badNbins : Option ℤ → Bool
  | some n => decide (n ≤ 0)
  | none => false

/-- `bin_edges`, skbeam/core/utils.py:694-793: argument checks (747-757), then `binEdgesCore`. -/
def binEdges (mn mx : Option ℚ) (nbins : Option ℤ) (step : Option ℚ) : Py (List ℚ) :=
  if isSome01 mn + isSome01 mx + isSome01 step + isSome01 nbins ≠ 3 then .error .valueError
  else if badRange mn mx then .error .valueError
  else if badNbins nbins then .error .valueError
  else binEdgesCore mn mx nbins step

/-- Loop body of `subtract_reference_images`, skbeam/core/utils.py:447-453. -/
def subRefLoop {α : Type} [Sub α] (ref : α) : List (α × Bool) → List α
  | [] => []
  | (img, true) :: t => subRefLoop img t
  | (img, false) :: t => (img - ref) :: subRefLoop ref t

/-- `subtract_reference_images`, skbeam/core/utils.py:407-456; `α` is the image type. -/
def subtractReferenceImages {α : Type} [Sub α] (imgs : List α) (isRef : List Bool) : Py (List α) :=
  match isRef with
  | [] => .error .indexError
  | false :: _ => .error .valueError
  | true :: refs =>
    match imgs with
    | [] => .error .indexError
    | img :: rest => .ok (subRefLoop img (rest.zip refs))

/-- `pairwise`, skbeam/core/utils.py:977-981. -/
def pairwise {α : Type} (l : List α) : List (α × α) := l.zip l.tail

/-- `bin_edges_to_centers`, skbeam/core/utils.py:956-973. -/
def binEdgesToCenters (e : List ℚ) : List ℚ := List.zipWith (fun a b => (a + b) * (1 / 2)) e.dropLast e.tail

/-- `bin_1D`, skbeam/core/utils.py:520-563. `np.min`/`np.max` of an empty array raise ValueError, as does
`np.histogram` for weights of another length; `np.linspace` rejects a negative number of points and an empty
edge array makes `np.histogram` raise IndexError. -/
def bin1D (x y : List ℚ) (nx : Option ℤ) (mn mx : Option ℚ) : Py (List ℚ × List ℚ × List ℚ) := do
  let lo ← match mn with
    | some a => .ok a
    | none => match x.min? with | some a => .ok a | none => .error .valueError
  let hi ← match mx with
    | some b => .ok b
    | none => match x.max? with | some b => .ok b | none => .error .valueError
  let n : ℤ := match nx with | some n => n | none => pyInt (hi - lo)
  if n + 1 < 0 then .error .valueError
  else if n + 1 = 0 then .error .indexError
  else if x.length ≠ y.length then .error .valueError
  else do
    let bins := Np.linspace lo hi (n.toNat + 1)
    let val ← Np.histogram (x.zip y) bins
    let count ← Np.histogram (x.map (fun v => (v, 1))) bins
    return (bins, val, count)

/-- Row-major `ravel` of an `h × w` image. -/
def ravel {α : Type} {h w : ℕ} (img : Fin h → Fin w → α) : List α :=
  (List.finRange h).flatMap (fun r => (List.finRange w).map (img r))

/-- `np.meshgrid(xs, ys)` followed by `ravel`: x runs fastest. -/
def meshX (xs ys : List ℚ) : List ℚ := ys.flatMap (fun _ => xs)
/-- see `meshX`. -/
def meshY (xs ys : List ℚ) : List ℚ := ys.flatMap (fun y => xs.map (fun _ => y))

/-- `img_to_relative_xyi`, skbeam/core/utils.py:459-517; `img.shape = (h, w)`. -/
def imgToRelativeXyi {h w : ℕ} (img : Fin h → Fin w → ℚ) (cx cy : ℚ) (px py : Option ℚ) :
    Py (List ℚ × List ℚ × List ℚ) := do
  let (px, py) ← (match px, py with
    | some a, some b =>
      if a ≤ 0 then .error .valueError else if b ≤ 0 then .error .valueError else .ok (a, b)
    | none, none => .ok (1, 1)
    | _, _ => .error .valueError : Py (ℚ × ℚ))
  let xs := (Np.arange h).map (fun k => px * (k - cx))
  let ys := (Np.arange w).map (fun k => py * (k - cy))
  return (meshX xs ys, meshY xs ys, ravel img)

/-- `np.arange(start, stop, step)` for positive `step`. -/
def arangeStep (start stop step : ℚ) : List ℚ :=
  (List.range ⌈(stop - start) / step⌉.toNat).map (fun (k : ℕ) => start + k * step)

/-- The default bins of `bin_grid`, skbeam/core/utils.py:1245-1247.  `res` stands for the value of
`np.hypot(*pixel_sizes)`; `np.min`/`np.max` of an empty radius map raise ValueError, a zero step raises
ZeroDivisionError. -/
def binGridBins (r : List ℚ) (res : ℚ) : Py (List ℚ) :=
  match r.min?, r.max? with
  | some lo, some hi =>
    if res = 0 then .error .zeroDivision
    else .ok (arangeStep (lo - res * (1 / 2)) (hi + res * (1 / 2)) res)
  | _, _ => .error .valueError

/-- `bin_grid` with `statistic` "count" (number of pixels per bin), skbeam/core/utils.py:1243-1253.  Pixels are
(radius, value, mask) triples in flat order.  `scipy.stats.binned_statistic` is modelled by the exact half-open
bins (last one closed) that it shares with `np.histogram`. -/
def binGridCount (px : List (ℚ × ℚ × Bool)) (res : ℚ) (bins : Option (List ℚ)) : Py (List ℚ × List ℚ) := do
  let bins ← match bins with
    | some b => .ok b
    | none => binGridBins (px.map (fun p => p.1)) res
  let used := px.filter (fun p => p.2.2)
  let cnt ← Np.histogram (used.map (fun p => (p.1, 1))) bins
  return (binEdgesToCenters bins, cnt)

end Verif.Utils
