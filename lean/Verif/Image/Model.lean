/- Ring centres and images from radial data (skbeam/core/image.py). -/
import Verif.Np
import Verif.Geom.Model

namespace Verif.Image

/-! ### Ring centre

Pixel values are exact rationals; images are lists of rows of equal length.  NaN pixels are not modelled. -/

/-- `np.correlate(a, b, mode="full")[j]` for two arrays of length N: the sum over n of `a[n + j - (N - 1)] * b[n]`, with
terms outside the arrays left out (image.py:98, 100). -/
def correlateFullAt (a b : List ℚ) (N j : ℕ) : ℚ :=
  ((List.range N).map (fun n => if N - 1 ≤ n + j ∧ n + j - (N - 1) < N
    then (a[n + j - (N - 1)]?).getD 0 * (b[n]?).getD 0 else 0)).sum

/-- The whole array `np.correlate(a, b, mode="full")`, of length 2N - 1. -/
def correlateFull (a b : List ℚ) (N : ℕ) : List ℚ := (List.range (2 * N - 1)).map (correlateFullAt a b N)

/-- `np.argmax`: position of the first maximum (0 for an empty list, where numpy raises). -/
def argmaxGo : List ℚ → ℕ → ℚ → ℕ → ℕ
  | [], best, _, _ => best
  | x :: t, best, bv, i => if bv < x then argmaxGo t i x (i + 1) else argmaxGo t best bv (i + 1)
/-- `np.argmax`. -/
def argmax : List ℚ → ℕ
  | [] => 0
  | x :: t => argmaxGo t 0 x 1

/-- The index of the best mirror position of one row, image.py:96-100, before the division by 2. -/
def rowPeak (N : ℕ) (v : List ℚ) : ℕ :=
  argmax (List.zipWith (· / ·) (correlateFull v v.reverse N)
    (correlateFull (List.replicate N 1) (List.replicate N 1) N))

/-- `np.histogram(est_by_row, bins=np.arange(0, dim + 1))[0]`, image.py:101: the count of estimates in each bin; the last
bin also counts an estimate equal to `dim`. -/
def votes (dim : ℕ) (est : List ℚ) : List ℚ :=
  (List.range dim).map (fun (b : ℕ) => ((est.countP (fun e => decide ((b : ℚ) ≤ e) &&
    (decide (e < b + 1) || (decide (b + 1 = dim) && decide (e = b + 1)))) : ℕ) : ℚ))

/-- `bins[np.argmax(vals)]` for one axis, image.py:73, 76-101; `bins[k] = k`. -/
def mirrorAxis (dim : ℕ) (rows : List (List ℚ)) : ℕ :=
  argmax (votes dim (rows.map (fun v => (rowPeak dim v : ℚ) / 2)))

/-- `input_image.T`. -/
def transpose (ncols : ℕ) (img : List (List ℚ)) : List (List ℚ) :=
  (List.range ncols).map (fun c => img.map (fun row => (row[c]?).getD 0))

/-- `find_ring_center_acorr_1D`, image.py:52-73, for an image with at least one row and one column (numpy raises
otherwise). -/
def findRingCenter (img : List (List ℚ)) : ℕ × ℕ :=
  let ncols := (img.headD []).length
  (mirrorAxis img.length (transpose ncols img), mirrorAxis ncols img)

/-! ### Image from a radial profile -/

/-- One element of `np.interp(x, xp, fp, left, right)` for ascending xp: numpy looks up the last xp[j] ≤ x. -/
noncomputable def interpAt (xp fp : List ℝ) (left right x : ℝ) : ℝ :=
  let k := xp.countP (fun a => decide (a ≤ x))
  if k = 0 then left
  else if k = xp.length then
    if (xp[k - 1]?).getD 0 < x then right else (fp[k - 1]?).getD 0
  else
    let x0 := (xp[k - 1]?).getD 0
    let y0 := (fp[k - 1]?).getD 0
    if x0 = x then y0 else (((fp[k]?).getD 0 - y0) / ((xp[k]?).getD 0 - x0)) * (x - x0) + y0

/-- `int(x)`: truncation towards zero. -/
noncomputable def pyIntR (x : ℝ) : ℤ := if 0 ≤ x then ⌊x⌋ else ⌈x⌉

/-- `np.max`. -/
noncomputable def maxList : List ℝ → Option ℝ
  | [] => none
  | x :: t => some (t.foldl max x)

/-- The default dimensions, image.py:165-166, 243-244: ValueError for no radii. -/
noncomputable def defaultDims (radii : List ℝ) (ps : ℝ × ℝ) : Py (ℤ × ℤ) :=
  match maxList (radii.map (· / ps.1)), maxList (radii.map (· / ps.2)) with
  | some my, some mx => .ok (2 * pyIntR (my + 1 / 2) + 1, 2 * pyIntR (mx + 1 / 2) + 1)
  | _, _ => .error .valueError

/-- The choice of dimensions and centre, image.py:158-169, 237-247. -/
noncomputable def frame (radii : List ℝ) (dims : Option (ℤ × ℤ)) (center : Option (ℝ × ℝ)) (ps : ℝ × ℝ) :
    Py ((ℤ × ℤ) × (ℝ × ℝ)) :=
  match dims, center with
  | none, some _ => .error .valueError
  | none, none => do
    let d ← defaultDims radii ps
    .ok (d, (((d.1 : ℝ) - 1) / 2, ((d.2 : ℝ) - 1) / 2))
  | some d, none => .ok (d, (((d.1 : ℝ) - 1) / 2, ((d.2 : ℝ) - 1) / 2))
  | some d, some c => .ok (d, c)

/-- `construct_circ_avg_image`, image.py:104-174.  `left` and `right` are accepted and not used by the code.  np.interp
raises ValueError for an empty or unequal-length profile.  Integer dimensions only. -/
noncomputable def circAvgImage (radii intensities : List ℝ) (dims : Option (ℤ × ℤ)) (center : Option (ℝ × ℝ))
    (ps : ℝ × ℝ) (_left _right : Option ℝ) : Py (List (List ℝ)) := do
  let (d, c) ← frame radii dims center ps
  if radii = [] ∨ radii.length ≠ intensities.length then .error .valueError
  else .ok ((Geom.radialGrid c (d.1.toNat, d.2.toNat) (some ps)).map (fun row =>
    row.map (fun r => interpAt radii intensities ((intensities[0]?).getD 0) 0 r)))

/-! ### Image from a polar image -/

/-- `x % (2 * np.pi)`. -/
noncomputable def mod2pi (x : ℝ) : ℝ := x - 2 * Real.pi * ⌊x / (2 * Real.pi)⌋

/-- The cell used by linear interpolation on an ascending grid: the last grid point ≤ x, kept between the first and the
last but one (scipy's `RegularGridInterpolator`). -/
noncomputable def cellOf (g : List ℝ) (x : ℝ) : ℕ :=
  min (g.countP (fun a => decide (a ≤ x)) - 1) (g.length - 2)

/-- Weight of the upper end of that cell. -/
noncomputable def weightOf (g : List ℝ) (x : ℝ) : ℝ :=
  let i := cellOf g x
  (x - (g[i]?).getD 0) / ((g[i + 1]?).getD 0 - (g[i]?).getD 0)

/-- Entry of a 2-D array of values with NaN = `none`. -/
def at2 (img : List (List (Option ℝ))) (i j : ℕ) : Option ℝ :=
  match img[i]? with | some row => (row[j]?).getD none | none => none

/-- `RegularGridInterpolator((g, h), img, bounds_error=False, fill_value=np.nan)` at one point, image.py:287-289: NaN
outside the grid, bilinear inside; a NaN corner makes the value NaN, whatever its weight. -/
noncomputable def bilinear (g h : List ℝ) (img : List (List (Option ℝ))) (x y : ℝ) : Option ℝ :=
  if x < (g.headD 0) ∨ g.getLastD 0 < x ∨ y < h.headD 0 ∨ h.getLastD 0 < y then none
  else
    let i := cellOf g x
    let j := cellOf h y
    let s := weightOf g x
    let t := weightOf h y
    match at2 img i j, at2 img i (j + 1), at2 img (i + 1) j, at2 img (i + 1) (j + 1) with
    | some a, some b, some c, some d =>
      some ((1 - s) * (1 - t) * a + (1 - s) * t * b + s * (1 - t) * c + s * t * d)
    | _, _, _, _ => none

/-- Strictly ascending, as scipy demands of grid points. -/
def Ascending (g : List ℝ) : Prop := g.Pairwise (· < ·)

/-- The angle padding, image.py:274: last angle minus a turn in front, first angle plus a turn behind. -/
noncomputable def padGrid (a : List ℝ) : List ℝ :=
  (a.getLastD 0 - 2 * Real.pi) :: a ++ [a.headD 0 + 2 * Real.pi]

/-- The column padding, image.py:276-279: last column in front, first column behind. -/
def padRow (row : List (Option ℝ)) : List (Option ℝ) := (row.getLastD none) :: row ++ [row.headD none]

/-- What a call leaves behind: its result, and the caller's `angles` and `image` arrays, both of which the code writes
to (image.py:236, 257). -/
structure RphiOut where
  result : Py (List (List (Option ℝ)))
  angles : List ℝ
  image : List (List (Option ℝ))

/-- Blanking the masked points, image.py:236. -/
def applyMask (mask : Option (List (List Bool))) (image : List (List (Option ℝ))) : List (List (Option ℝ)) :=
  match mask with
  | none => image
  | some m => List.zipWith (fun mr r => List.zipWith (fun b v => if b then v else none) mr r) m image

/-- Shape of a rectangular array. -/
def shapeOf {α : Type} (img : List (List α)) : ℕ × ℕ := (img.length, (img.headD []).length)

open Classical in
/-- The part after mask and shape handling, image.py:256-292: first the angle arithmetic, then the interpolator (which
raises ValueError when the grids do not fit the image or are not ascending).  `np.diff(angles) < 0` nowhere is the same
as every earlier angle being ≤ every later one. -/
noncomputable def rphiCore (radii angles0 : List ℝ) (image : List (List (Option ℝ))) (d : ℤ × ℤ) (c : ℝ × ℝ)
    (ps : ℝ × ℝ) (anglemin : ℝ) : Py (List (List (Option ℝ))) :=
  let angles := angles0.map mod2pi
  if ¬ angles.Pairwise (· ≤ ·) then .error .valueError
  else
    let anglesp := padGrid angles
    if (shapeOf image).2 = 0 then .error .indexError
    else if radii.length ≠ (shapeOf image).1 ∨ anglesp.length ≠ (shapeOf image).2 + 2 ∨ ¬ Ascending radii ∨
      ¬ Ascending anglesp then .error .valueError
    else .ok (List.zipWith (fun rr ar => List.zipWith (fun r a => bilinear radii anglesp (image.map padRow) r
        (mod2pi (a - anglemin))) rr ar)
      (Geom.radialGrid c (d.1.toNat, d.2.toNat) (some ps)) (Geom.angleGrid c (d.1.toNat, d.2.toNat) (some ps)))

/-- `construct_rphi_avg_image`, image.py:177-292, for two-dimensional masks and at least two radii.  With a mask of the
wrong shape the error message itself fails with TypeError when `shape` is not given (image.py:232). -/
noncomputable def rphiImage (radii angles : List ℝ) (image : List (List (Option ℝ)))
    (mask : Option (List (List Bool))) (center : Option (ℝ × ℝ)) (shape : Option (ℤ × ℤ)) (ps : ℝ × ℝ) : RphiOut :=
  match (match mask with
    | none => none
    | some m => if shapeOf m ≠ shapeOf image then some (if shape.isNone then PyErr.typeError else PyErr.valueError)
      else none) with
  | some e => ⟨.error e, angles, image⟩
  | none =>
    let image' := applyMask mask image
    match frame radii shape center ps with
    | .error e => ⟨.error e, angles, image'⟩
    | .ok (d, c) =>
      match angles with
      | [] => ⟨.error .indexError, angles, image'⟩
      | a0 :: _ =>
        let angles' := angles.map (· - a0)
        ⟨rphiCore radii angles' image' d c ps a0, angles', image'⟩

end Verif.Image
