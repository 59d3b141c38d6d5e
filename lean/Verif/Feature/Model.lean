/- Model of skbeam/core/feature.py, skbeam/core/fitting/funcs.py and skbeam/core/spectroscopy.py.

Library functions that are parameters of the model: `argsort` (any sorting permutation: NumPy's default sort is not
stable), `lstsq` (any least-squares minimiser) and `simps` (Simpson's rule). -/
import Verif.Np
import Mathlib.Analysis.SpecialFunctions.Log.Basic
import Mathlib.Analysis.SpecialFunctions.Sqrt

namespace Verif.Feature
open Verif

/-! ### feature.py -/

/-- `filter_n_largest`; feature.py 220-254.  `y[cands]` with an index outside `y` raises IndexError (candidates are
a non-negative integer array here: an empty Python list would become a float array, whose use as an index raises). -/
def filterNLargest (argsort : List ℚ → List ℕ) (y : List ℚ) (cands : List ℕ) (N : ℤ) : Py (List ℕ) :=
  if N ≤ 0 then .error .valueError
  else if cands.any (fun c => y.length ≤ c) then .error .indexError
  else
    let sortedArgs := argsort (cands.map (fun c => y.getD c 0))
    if (cands.length : ℤ) < N then .ok ((sortedArgs.map (fun i => cands.getD i 0)).reverse)
    else .ok (((sortedArgs.drop (sortedArgs.length - N.toNat)).map (fun i => cands.getD i 0)).reverse)

/-- `y[max(0, ind - window) : min(len(y), ind + window + 1)]`; feature.py 129 and 288. -/
def windowSlice {α : Type} (y : List α) (ind window : ℕ) : List α :=
  (y.take (min y.length (ind + window + 1))).drop (ind - window)

/-- `np.ptp`: maximum minus minimum; ValueError for an empty array. -/
def ptp {α : Type} [LinearOrder α] [Sub α] : List α → Py α
  | [] => .error .valueError
  | a :: t => .ok (t.foldl max a - t.foldl min a)

/-- `filter_peak_height`; feature.py 257-293. -/
def filterPeakHeight {α : Type} [LinearOrder α] [Sub α] (y : List α) (thresh : α) (window : ℕ) : List ℕ → Py (List ℕ)
  | [] => .ok []
  | ind :: rest =>
    match ptp (windowSlice y ind window) with
    | .error e => .error e
    | .ok h =>
      match filterPeakHeight y thresh window rest with
      | .error e => .error e
      | .ok out => .ok (if h > thresh then ind :: out else out)

/-- Sum of squared residuals of `b0 x^2 + b1 x + b2`. -/
noncomputable def sse (x y : List ℝ) (b : ℝ × ℝ × ℝ) : ℝ :=
  (List.zipWith (fun u v => (b.1 * u ^ 2 + b.2.1 * u + b.2.2 - v) ^ 2) x y).sum

/-- What is used of `np.linalg.lstsq`: the result minimises the sum of squared residuals. -/
def IsLstsq (lstsq : List ℝ → List ℝ → ℝ × ℝ × ℝ) : Prop := ∀ x y b, sse x y (lstsq x y) ≤ sse x y b

/-- `fit_quad_to_peak`; fitting/funcs.py 6-44 (coefficients and R^2; fewer than three points raise a plain Exception).
Division by 0 is 0 here; NumPy gives NaN or infinity (only for a vanishing quadratic coefficient or constant data). -/
noncomputable def fitQuadToPeak (lstsq : List ℝ → List ℝ → ℝ × ℝ × ℝ) (x y : List ℝ) : Py ((ℝ × ℝ × ℝ) × ℝ) :=
  if x.length < 3 then .error .exception
  else
    let beta := lstsq x y
    let mean := y.sum / y.length
    .ok ((beta.1, -beta.2.1 / (2 * beta.1), beta.2.2 - beta.1 * (beta.2.1 / (2 * beta.1)) ^ 2),
      1 - sse x y beta / (y.map (fun v => (v - mean) ^ 2)).sum)

open Classical in
/-- `refine_quadratic`; feature.py 142-178.  `PeakRejection` is `none`. -/
noncomputable def refineQuadratic (lstsq : List ℝ → List ℝ → ℝ × ℝ × ℝ) (rval : Option ℝ) (x y : List ℝ) : Py (Option (ℝ × ℝ)) :=
  match fitQuadToPeak lstsq x y with
  | .error e => .error e
  | .ok (beta, r2) => .ok (match rval with
    | none => some (beta.2.1, beta.2.2)
    | some t => if r2 < t then none else some (beta.2.1, beta.2.2))

open Classical in
/-- `refine_log_quadratic`; feature.py 181-217. -/
noncomputable def refineLogQuadratic (lstsq : List ℝ → List ℝ → ℝ × ℝ × ℝ) (rval : Option ℝ) (x y : List ℝ) : Py (Option (ℝ × ℝ)) :=
  match fitQuadToPeak lstsq x (y.map Real.log) with
  | .error e => .error e
  | .ok (beta, r2) => .ok (match rval with
    | none => some (beta.2.1, Real.exp beta.2.2)
    | some t => if r2 < t then none else some (beta.2.1, Real.exp beta.2.2))

/-- `peak_refinement`; feature.py 62-139: rejected candidates are left out, other exceptions propagate. -/
def peakRefinement {α : Type} (refine : List α → List α → Py (Option (α × α))) (x y : List α) (window : ℕ) : List ℕ → Py (List (α × α))
  | [] => .ok []
  | ind :: rest =>
    match refine (windowSlice x ind window) ((y.take (min x.length (ind + window + 1))).drop (ind - window)) with
    | .error e => .error e
    | .ok r =>
      match peakRefinement refine x y window rest with
      | .error e => .error e
      | .ok out => .ok (match r with | none => out | some p => p :: out)

/-! ### spectroscopy.py -/

/-- `align_and_scale`; spectroscopy.py 51-88.  `base` is `base_sigma`. -/
noncomputable def alignLoop (pk : List ℝ → List ℝ → Py (ℝ × ℝ × ℝ)) : Option ℝ → List (List ℝ × List ℝ) → Py (List (List ℝ × List ℝ))
  | _, [] => .ok []
  | base, (e, c) :: rest =>
    match pk e c with
    | .error err => .error err
    | .ok r =>
      match alignLoop pk (some (base.getD r.2.2)) rest with
      | .error err => .error err
      | .ok out => .ok ((e.map (fun v => (v - r.1) * base.getD r.2.2 / r.2.2), c) :: out)

/-- see `alignLoop` -/
noncomputable def alignAndScale (pk : List ℝ → List ℝ → Py (ℝ × ℝ × ℝ)) (spectra : List (List ℝ × List ℝ)) : Py (List (List ℝ × List ℝ)) :=
  alignLoop pk none spectra

/-- A Python slice `l[a:b]` with integer bounds. -/
def pySlice {α : Type} (l : List α) (a b : ℤ) : List α :=
  let n : ℤ := l.length
  let norm := fun (i : ℤ) => (if i < 0 then max 0 (i + n) else min i n).toNat
  (l.take (norm b)).drop (norm a)

/-- `np.argmax`: position of the first maximum. -/
noncomputable def argmax (y : List ℝ) : ℕ := open Classical in y.findIdx (fun v => decide (∀ w ∈ y, w ≤ v))

/-- `find_largest_peak`; spectroscopy.py 91-139.  `np.max(j - window, 0)` takes the maximum of a single number along
axis 0, i.e. is `j - window`. -/
noncomputable def findLargestPeak (lstsq : List ℝ → List ℝ → ℝ × ℝ × ℝ) (x y : List ℝ) (window : Option ℕ) : Py (ℝ × ℝ × ℝ) :=
  let j : ℤ := argmax y
  let (a, b) : ℤ × ℤ := match window with
    | some w => (j - w, j + w + 1)
    | none => (0, -1)
  match fitQuadToPeak lstsq (pySlice x a b) ((pySlice y a b).map Real.log) with
  | .error e => .error e
  | .ok (beta, _) => .ok (beta.2.1, Real.exp beta.2.2, 1 / √(-2 * beta.1))

/-- All consecutive differences have the same sign; spectroscopy.py 275-280 (at least one difference). -/
def sameSign (x : List ℚ) : Bool :=
  (List.zip x x.tail).all (fun p => p.1 < p.2) || (List.zip x x.tail).all (fun p => p.2 < p.1) || (List.zip x x.tail).all (fun p => p.1 = p.2)

/-- The samples integrated for one region; spectroscopy.py 340-349. -/
def region (x y : List ℚ) (lo hi : ℚ) : List ℚ × List ℚ :=
  let bot := Np.searchsortedLeft x lo
  let top := Np.searchsortedLeft x hi + 1
  ((y.take top).drop bot, (x.take top).drop bot)

/-- `integrate_ROI`; spectroscopy.py 227-351.  An array of fewer than two points makes `eval_x_arr_sign[0]` raise
IndexError. -/
def integrateROI (simps : List ℚ → List ℚ → ℚ) (x y xmin xmax : List ℚ) : Py ℚ :=
  if x.length ≠ y.length then .error .valueError
  else if x.length < 2 then .error .indexError
  else if sameSign x = false then .error .valueError
  else
    let dec := x.getD 1 0 < x.getD 0 0
    let x' := if dec then x.reverse else x
    let y' := if dec then y.reverse else y
    if xmin.length ≠ xmax.length then .error .valueError
    else if (List.zip xmin xmax).any (fun p => p.2 ≤ p.1) then .error .valueError
    else if xmin.any (fun v => v < x'.headD 0) then .error .valueError
    else if xmax.any (fun v => x'.getLastD 0 < v) then .error .valueError
    else .ok (((List.zip xmin xmax).map (fun p => simps (region x' y' p.1 p.2).1 (region x' y' p.1 p.2).2)).sum)

/-- `integrate_ROI_spectrum`; spectroscopy.py 142-181: `bin_edges[:-1] + np.diff(bin_edges)`. -/
def integrateROISpectrum (simps : List ℚ → List ℚ → ℚ) (edges counts xmin xmax : List ℚ) : Py ℚ :=
  integrateROI simps (List.zipWith (fun a b => a + (b - a)) edges.dropLast edges.tail) counts xmin xmax

end Verif.Feature
