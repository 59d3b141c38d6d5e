/- Regions of interest: skbeam/core/roi.py. -/
import Verif.Np
import Verif.Utils.Model
import Verif.Geom.Model

namespace Verif.Roi
open Verif

/-! ### rectangles, roi.py:57-96 -/

/-- The exclusive end of a Python slice with stop `b` on an axis of length `n`: a negative stop counts from the end. -/
def sliceStop (n : ℕ) (b : ℤ) : ℤ := if b < 0 then n + b else min b n

/-- Start of a Python slice on an axis of length `n`: a negative bound counts from the end. -/
def sliceStart (n : ℕ) (a : ℤ) : ℤ := if a < 0 then max (n + a) 0 else a

/-- Is index `r` selected by `slice(lo, hi)` on an axis of length `n`? -/
def inSlice (n : ℕ) (lo hi : ℤ) (r : ℕ) : Bool :=
  decide (sliceStart n lo ≤ r) && decide ((r : ℤ) < sliceStop n hi)

/-- roi.py:84-88: the selection of one rectangle `(x, y, w, h)`: the first coordinate runs along axis 0. -/
def rectSel (shape : ℕ × ℕ) (q : ℤ × ℤ × ℤ × ℤ) (r c : ℕ) : Bool :=
  inSlice shape.1 (max q.1 0) (min (q.1 + q.2.2.1) shape.1) r &&
  inSlice shape.2 (max q.2.1 0) (min (q.2.1 + q.2.2.2) shape.2) c

/-- roi.py:90: `np.any(labels_grid[slc1, slc2])`. -/
def anyLabelled (shape : ℕ × ℕ) (L : ℕ → ℕ → ℕ) (sel : ℕ → ℕ → Bool) : Bool :=
  (List.range shape.1).any (fun r => (List.range shape.2).any (fun c => sel r c && decide (L r c ≠ 0)))

/-- roi.py:83-94: the loop, `i` is the number of rectangles done. -/
def rectLoop (shape : ℕ × ℕ) : ℕ → List (ℤ × ℤ × ℤ × ℤ) → (ℕ → ℕ → ℕ) → Py (ℕ → ℕ → ℕ)
  | _, [], L => .ok L
  | i, q :: t, L =>
    if anyLabelled shape L (rectSel shape q) then .error .valueError
    else rectLoop shape (i + 1) t (fun r c => if rectSel shape q r c then i + 1 else L r c)

/-- `rectangles`, roi.py:57-96, integer coordinates.  The label image is a function of (row, column), meaningful for
row < shape.1 and column < shape.2. -/
def rectangles (coords : List (ℤ × ℤ × ℤ × ℤ)) (shape : ℕ × ℕ) : Py (ℕ → ℕ → ℕ) := rectLoop shape 0 coords (fun _ _ => 0)

/-! ### _make_roi, rings, bar, box -/

/-- `np.digitize(x, edges, right=False)` for ascending edges in any ordered type. -/
def digitizeG {α : Type} [LinearOrder α] (edges : List α) (x : α) : ℕ := edges.countP (fun e => decide (e ≤ x))

/-- `_make_roi`, roi.py:559-561, one pixel with coordinate `x`. -/
def makeRoi {α : Type} [LinearOrder α] (edges : List α) (x : α) : ℕ :=
  let d := digitizeG edges x
  ((if d % 2 ≠ 0 then d else 0) + 1) / 2

/-- roi.py:125-135, 259-269, 598-608: the validation of the flattened edges. -/
def edgesOk {α : Type} [LinearOrder α] (edges : List α) : Bool :=
  decide (edges.length % 2 = 0) && decide (edges.IsChain (· ≤ ·))

/-- `rings`, roi.py:99-137; `edges` is the flattened list inner, outer, inner, outer, .... -/
noncomputable def rings (edges : List ℝ) (center : ℝ × ℝ) (shape : ℕ × ℕ) : Py (List (List ℕ)) :=
  if edgesOk edges then .ok ((Geom.radialGrid center shape none).map (fun row => row.map (makeRoi edges))) else .error .valueError

/-- `bar`, roi.py:565-614.  `values` is the raveled coordinate image; the result is raveled (row-major).  A values image
of the wrong size makes `reshape` raise ValueError.  Line 611: vertical bars replace `values`. -/
def bar (edges : List ℚ) (shape : ℕ × ℕ) (horizontal : Bool) (values : Option (List ℚ)) : Py (List ℕ) :=
  if edgesOk edges then
    let v := match values with
      | none => (List.range shape.1).flatMap (fun (r : ℕ) => List.replicate shape.2 (r : ℚ))
      | some v => v
    let v := if horizontal then v else (List.range shape.1).flatMap (fun _ => (List.range shape.2).map (fun (c : ℕ) => (c : ℚ)))
    if v.length = shape.1 * shape.2 then .ok (v.map (makeRoi edges)) else .error .valueError
  else .error .valueError

/-- `box`, roi.py:617-671, for edges given as pairs of integers.  `values` are the raveled h_values and v_values with
their common shape; they are used for their shape only.  (Giving just one of them raises AttributeError.) -/
def box (shape : ℕ × ℕ) (vEdges : List (ℤ × ℤ)) (hEdges : Option (List (ℤ × ℤ)))
    (values : Option ((ℕ × ℕ) × List ℚ × List ℚ)) : Py (ℕ → ℕ → ℕ) :=
  let hE := hEdges.getD vEdges
  let shp := match values with | none => shape | some (s, _, _) => s
  rectangles (hE.flatMap (fun h => vEdges.map (fun v => (h.1, v.1, h.2 - h.1, v.2 - v.1)))) shp

/-! ### ring_edges, roi.py:140-221 -/

/-- A width or spacing argument: a number, or a list together with "all entries are Python ints". -/
inductive Arg
  | scalar (q : ℚ)
  | list (isInt : Bool) (l : List ℚ)

/-- roi.py:187-189: both lists. -/
def bothListsBad : Arg → Arg → Bool
  | .list _ w, .list _ s => decide ((w.length : ℤ) ≠ (s.length : ℤ) - 1)
  | _, _ => false

/-- roi.py:190-208: the number of rings. -/
def numRings (width spacing : Arg) : Option ℤ → Py ℤ
  | none => match width, spacing with
    | .list _ w, _ => .ok w.length
    | .scalar _, .list _ s => .ok (s.length + 1)
    | .scalar _, .scalar _ => .error .valueError
  | some n => match width, spacing with
    | .list _ w, .list _ s => if n ≠ w.length then .error .valueError else if n - 1 ≠ s.length then .error .valueError else .ok n
    | .list _ w, .scalar _ => if n ≠ w.length then .error .valueError else .ok n
    | .scalar _, .list _ s => if n - 1 ≠ s.length then .error .valueError else .ok n
    | .scalar _, .scalar _ => .ok n

/-- roi.py:211-214: `np.ones(n) * q` for a scalar (negative n raises ValueError). -/
def regular (a : Arg) (n : ℤ) : Py (List ℚ) :=
  match a with
  | .list _ l => .ok l
  | .scalar q => if n < 0 then .error .valueError else .ok (List.replicate n.toNat q)

/-- roi.py:217: `np.insert(spacing, 0, inner_radius)`: the inserted value is cast to the dtype of `spacing`, so a list of
ints truncates it. -/
def inserted (spacing : Arg) (inner : ℚ) : ℚ :=
  match spacing with
  | .list true _ => (pyInt inner : ℚ)
  | _ => inner

/-- `np.cumsum` starting from `a`. -/
def cumsum (a : ℚ) : List ℚ → List ℚ
  | [] => []
  | x :: t => (a + x) :: cumsum (a + x) t

/-- `.reshape(-1, 2)`. -/
def pairs : List ℚ → List (ℚ × ℚ)
  | a :: b :: t => (a, b) :: pairs t
  | _ => []

/-- `ring_edges`, roi.py:140-221.  Line 218 stacks two lists, which raises ValueError unless they have equal length. -/
def ringEdges (inner : ℚ) (width spacing : Arg) (num : Option ℤ) : Py (List (ℚ × ℚ)) :=
  if bothListsBad width spacing then .error .valueError
  else match numRings width spacing num with
    | .error e => .error e
    | .ok n => match regular width n, regular spacing (n - 1) with
      | .ok w, .ok s =>
        let all := inserted spacing inner :: s
        if all.length ≠ w.length then .error .valueError
        else .ok (pairs (cumsum 0 ((all.zip w).flatMap (fun p => [p.1, p.2]))))
      | .error e, _ => .error e
      | _, .error e => .error e

/-! ### segmented_rings, roi.py:224-298 -/

/-- roi.py:275-281: the segment edges for a number of segments or a list of angles. -/
noncomputable def segmentEdges (segments : ℕ ⊕ List ℝ) (offset : ℝ) : List ℝ :=
  match segments with
  | .inl n => (List.range (n + 1)).map (fun (k : ℕ) => k * (2 * Real.pi / n) + offset)
  | .inr l => l.map (fun a => a + offset)

/-- roi.py:273: angles in [0, 2 pi). -/
noncomputable def wrapAngle (a : ℝ) : ℝ := if a < 0 then 2 * Real.pi + a else a

open Classical in
/-- roi.py:293-296: the label of one pixel at radius ρ and (wrapped) angle θ; later rings overwrite earlier ones. -/
noncomputable def segLabel (edges seg : List ℝ) (ρ θ : ℝ) : ℕ :=
  (List.range (edges.length / 2)).foldl (fun lab i =>
    if edges.getD (2 * i) 0 ≤ ρ ∧ ρ < edges.getD (2 * i + 1) 0 then digitizeG seg θ + (seg.length - 1) * i else lab) 0

/-- `segmented_rings`, roi.py:224-298, for ascending segment edges. -/
noncomputable def segmentedRings (edges : List ℝ) (segments : ℕ ⊕ List ℝ) (center : ℝ × ℝ) (shape : ℕ × ℕ) (offset : ℝ) :
    Py (List (List ℕ)) :=
  if edgesOk edges then
    .ok (List.zipWith (fun rr aa => List.zipWith (fun ρ a => segLabel edges (segmentEdges segments offset) ρ (wrapAngle a)) rr aa)
      (Geom.radialGrid center shape none) (Geom.angleGrid center shape none))
  else .error .valueError

/-! ### statistics; images are raveled, so a labelled image is a list of (label, value) -/

/-- `roi_max_counts`, roi.py:301-324.  `ndimage.maximum(img, labels)` is the maximum over the pixels with label > 0 and
raises ValueError when there are none. -/
def maxStep (labels : List ℤ) (cur : Py ℚ) (img : List ℚ) : Py ℚ :=
  match cur with
  | .error e => .error e
  | .ok m => match (((labels.zip img).filter (fun p => decide (0 < p.1))).map Prod.snd).max? with
    | none => .error .valueError
    | some x => .ok (max m x)
/-- see `maxStep`. -/
def roiMaxCounts (imagesSets : List (List (List ℚ))) (labels : List ℤ) : Py ℚ :=
  imagesSets.foldl (fun cur set => set.foldl (maxStep labels) cur) (.ok 0)

/-- `image[labels == n]`. -/
def select (labels : List ℤ) (img : List ℚ) (n : ℤ) : List ℚ := ((labels.zip img).filter (fun p => decide (p.1 = n))).map Prod.snd

/-- `np.arange(1, m + 1)`. -/
def arange1 (m : ℤ) : List ℤ := (List.range m.toNat).map (fun (k : ℕ) => (k : ℤ) + 1)

/-- `roi_pixel_values`, roi.py:327-362 (sizes compared instead of shapes; `np.max` of an empty array raises). -/
def roiPixelValues (img : List ℚ) (labels : List ℤ) (index : Option (List ℤ)) : Py (List (List ℚ) × List ℤ) :=
  if labels.length ≠ img.length then .error .valueError
  else match index with
    | some idx => .ok (idx.map (select labels img), idx)
    | none => match labels.max? with
      | none => .error .valueError
      | some m => .ok ((arange1 m).map (select labels img), arange1 m)

/-- `np.unique`: the distinct values, ascending. -/
def unique (l : List ℤ) : List ℤ := (l.insertionSort (· ≤ ·)).dedup

/-- `ndimage.mean` of one label: NaN (none) when no pixel has it. -/
def labelMean (labels : List ℤ) (img : List ℚ) (n : ℤ) : Option ℚ :=
  let v := select labels img n
  if v = [] then none else some (v.sum / v.length)

/-- roi.py:397-399: the default index; `list.remove(0)` raises ValueError when 0 is not there. -/
def defaultIndex (labels : List ℤ) : Py (List ℤ) :=
  if 0 ∈ unique labels then .ok ((unique labels).erase 0) else .error .valueError

/-- roi.py:396-403: the index used. -/
def chooseIndex (labels : List ℤ) : Option (List ℤ) → Py (List ℤ)
  | some i => .ok i
  | none => defaultIndex labels

/-- `mean_intensity`, roi.py:365-410: one row per image.  An empty series raises IndexError on `images[0]`. -/
def meanIntensity (images : List (List ℚ)) (labels : List ℤ) (index : Option (List ℤ)) : Py (List (List (Option ℚ)) × List ℤ) :=
  match images with
  | [] => .error .indexError
  | img0 :: _ =>
    if labels.length ≠ img0.length then .error .valueError
    else match chooseIndex labels index with
      | .error e => .error e
      | .ok idx => .ok (images.map (fun img => idx.map (labelMean labels img)), idx)

/-- roi.py:458-461: the pixels where the mask is 1 (a mask of another shape would raise; equal lengths assumed). -/
def masked (mask : Option (List ℤ)) (px : List (ℚ × ℚ)) : List (ℚ × ℚ) :=
  match mask with
  | none => px
  | some m => ((px.zip m).filter (fun (p : (ℚ × ℚ) × ℤ) => decide (p.2 = 1))).map Prod.fst

/-- `circular_average`, roi.py:413-469.  `radial` are the raveled (floating-point) values of `radial_grid`; a mask selects
where it is 1; `utils.bin_1D` is modelled in Verif.Utils. -/
def circularAverage (radial img : List ℚ) (mask : Option (List ℤ)) (threshold : ℚ) (nx : ℤ) (mn mx : Option ℚ) :
    Py (List ℚ × List ℚ) :=
  let px := masked mask (radial.zip img)
  match Utils.bin1D (px.map Prod.fst) (px.map Prod.snd) (some nx) mn mx with
  | .error e => .error e
  | .ok (edges, sums, counts) =>
    let keep := (((Utils.binEdgesToCenters edges).zip (sums.zip counts)).filter (fun p => decide (threshold < p.2.2)))
    .ok (keep.map Prod.fst, keep.map (fun p => p.2.1 / p.2.2))

/-- roi.py:495: `labels == num` as an integer array. -/
def indicator (labels : List ℤ) (num : ℤ) : List ℤ := labels.map (fun l => if l = num then 1 else 0)

/-- `np.vstack` of per-frame lists of (at most one) pixel arrays: one row per frame; empty input raises ValueError. -/
def vstackRows (rows : List (List (List ℚ))) : Py (List (List ℚ)) :=
  if rows = [] then .error .valueError else .ok (rows.map (fun r => r.flatten))

/-- roi.py:494-495: all frames, the first exception wins. -/
def kymoRows (labels : List ℤ) (num : ℤ) : List (List ℚ) → Py (List (List (List ℚ)))
  | [] => .ok []
  | img :: t => match roiPixelValues img (indicator labels num) none with
    | .error e => .error e
    | .ok (pix, _) => match kymoRows labels num t with
      | .error e => .error e
      | .ok rest => .ok (pix :: rest)

/-- `kymograph`, roi.py:472-497. -/
def kymograph (images : List (List ℚ)) (labels : List ℤ) (num : ℤ) : Py (List (List ℚ)) :=
  match kymoRows labels num images with
  | .error e => .error e
  | .ok rows => vstackRows rows

/-- `extract_label_indices`, roi.py:500-533: `labels` is the list of rows of a rectangular image with `ncols` columns. -/
def extractLabelIndices (labels : List (List ℤ)) (ncols : ℕ) : List ℤ × List ℕ :=
  let flat := labels.flatten
  let grid := (List.range labels.length).flatMap (fun r => (List.range ncols).map (fun c => r * ncols + c))
  (flat.filter (fun l => decide (0 < l)), ((grid.zip flat).filter (fun p => decide (0 < p.2))).map Prod.fst)

end Verif.Roi
