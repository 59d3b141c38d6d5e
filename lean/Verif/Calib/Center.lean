/- Model of `refine_center` as a whole, skbeam/core/calibration.py:139-233, over the real numbers. -/
import Verif.Calib.Blind
import Verif.Geom.Model

namespace Verif.Calib
open Verif

/-- A pixel: azimuth, radius, intensity. -/
structure Pix where
  phi : ℝ
  r : ℝ
  v : ℝ

/-- `phi`, `r`, `II`, calibration.py:196-198. -/
noncomputable def pixels (center : ℝ × ℝ) (shape : ℕ × ℕ) (ps : ℝ × ℝ) (image : List (List ℝ)) : List Pix :=
  List.zipWith (fun p (q : ℝ × ℝ) => ⟨p, q.1, q.2⟩) (Geom.angleGrid center shape (some ps)).flatten
    ((Geom.radialGrid center shape (some ps)).flatten.zip image.flatten)

open Classical in
/-- `r[mask]`, `II[mask]`, calibration.py:203-204, of sector k of n. -/
noncomputable def sector (n k : ℕ) (px : List Pix) : List Pix :=
  px.filter (fun p => decide (p.phi ≤ phiStep n (k + 1)) && decide (phiStep n k < p.phi))

/-- The limits of `bin_1D`, utils.py:540-547; `np.min` of an empty array raises ValueError. -/
noncomputable def limit (given : Option ℝ) (f : ℝ → ℝ → ℝ) (x : List ℝ) : Py ℝ :=
  match given with
  | some a => .ok a
  | none => match x with | [] => .error .valueError | a :: t => .ok (t.foldl f a)

/-- Edge k of `np.linspace(lo, hi, nx + 1)`, utils.py:552. -/
noncomputable def edge (lo hi : ℝ) (nx k : ℕ) : ℝ := lo + k * ((hi - lo) / nx)

open Classical in
/-- `np.histogram` with explicit edges puts x into bin k if it is in [edge k, edge (k+1)), the last bin being closed. -/
noncomputable def inBin (lo hi : ℝ) (nx k : ℕ) (x : ℝ) : Bool :=
  decide (edge lo hi nx k ≤ x) && (decide (x < edge lo hi nx (k + 1)) || (decide (k + 1 = nx) && decide (x = edge lo hi nx nx)))

/-- One bin of `bin_1D`, utils.py:520-563: its centre, the sum of intensities and the number of pixels. -/
noncomputable def binOf (lo hi : ℝ) (nx : ℕ) (px : List Pix) (k : ℕ) : ℝ × ℝ × ℕ :=
  let inside := px.filter (fun p => inBin lo hi nx k p.r)
  ((edge lo hi nx k + edge lo hi nx (k + 1)) * (1 / 2), (inside.map Pix.v).sum, inside.length)

open Classical in
/-- `bin_1D(r[mask], II[mask], nx=nx, min_x=min_x, max_x=max_x)` with the centres of calibration.py:208; decreasing edges
make `np.histogram` raise ValueError. -/
noncomputable def bins (nx : ℕ) (mn mx : Option ℝ) (px : List Pix) : Py (List (ℝ × ℝ × ℕ)) := do
  let lo ← limit mn min (px.map Pix.r)
  let hi ← limit mx max (px.map Pix.r)
  if hi < lo ∧ 0 < nx then .error .valueError else .ok ((List.range nx).map (binOf lo hi nx px))

open Classical in
/-- The radii of the rings found in one sector, calibration.py:205-214 (`max_peaks` not negative).  Without a ring,
`filter_peak_height` returns an empty array of floats, which NumPy does not accept as an index. -/
noncomputable def traceOf (thresh : ℝ) (w maxPeaks : ℕ) (b : List (ℝ × ℝ × ℕ)) : Py (List ℝ) := do
  let kept := b.filter (fun c => decide (10 < c.2.1))
  let avg := kept.map (fun c => c.2.1 / (c.2.2 : ℝ))
  let cands ← peaks avg thresh w
  if cands = [] then .error .indexError
  else .ok ((cands.take maxPeaks).map (fun i => (kept.map Prod.fst).getD i 0))

/-- Monadic map: the first error is reported. -/
def each {α β : Type} (f : α → Py β) : List α → Py (List β)
  | [] => .ok []
  | a :: t => do
    let b ← f a
    let bs ← each f t
    .ok (b :: bs)

/-- `refine_center`, calibration.py:139-233.  `none` is a centre of NaNs: with `max_peaks` 0 the mean over rings is a mean of
nothing, and with one sector the mean width is.  `phi_steps < 1` makes `np.min` of no lengths raise
ValueError (a negative number makes `np.linspace` do so). -/
noncomputable def refineCenter (image : List (List ℝ)) (center : ℝ × ℝ) (shape : ℕ × ℕ) (ps : ℝ × ℝ) (phiSteps : ℕ) (maxPeaks : ℕ) (thresh : ℝ)
    (w : ℕ) (nx : Option ℕ) (mn mx : Option ℝ) : Py (Option (ℝ × ℝ)) := do
  let nx := nx.getD (shape.1 + shape.2)
  let px := pixels center shape ps image
  let n := phiSteps - 1
  let hist ← each (fun k => bins nx mn mx (sector n k px)) (List.range n)
  let traces ← each (traceOf thresh w maxPeaks) hist
  let c ← refineFromTraces traces center ps
  .ok (if minLen traces = 0 ∨ n = 1 then none else some c)

end Verif.Calib
