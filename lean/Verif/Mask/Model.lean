/- Masks and logical image arithmetic: skbeam/core/mask.py, skbeam/core/arithmetic.py. -/
import Verif.Np
import Mathlib.Analysis.Real.Sqrt

namespace Verif.Mask
open Verif

/-! ### bad_to_nan_gen, mask.py:54-81 -/

/-- A frame: its shape and its raveled pixels, NaN as `none`. -/
structure Frame where
  shape : List ℕ
  data : List (Option ℚ)
  deriving DecidableEq

/-- `np.empty(shape); [:] = nan`. -/
def nanFrame (shape : List ℕ) : Frame := ⟨shape, List.replicate shape.prod none⟩

/-- The loop: `n` is the frame number, `cached` is `ret_val` (made from the first bad frame and reused). -/
def badLoop (bad : List ℤ) : ℕ → Option Frame → List Frame → List Frame
  | _, _, [] => []
  | n, cached, im :: t =>
    if (n : ℤ) ∈ bad then
      let ret := cached.getD (nanFrame im.shape)
      ret :: badLoop bad (n + 1) (some ret) t
    else im :: badLoop bad (n + 1) cached t

/-- `bad_to_nan_gen`, mask.py:54-81: the list of all yielded frames. -/
def badToNan (images : List Frame) (bad : List ℤ) : List Frame := badLoop bad 0 none images

/-! ### threshold, mask.py:84-113 -/

/-- One turn of the loop on raveled images: the mask after the frame; NaN >= threshold is False. -/
def thresholdStep (t : ℚ) (mask : List ℚ) (im : List (Option ℚ)) : List ℚ :=
  List.zipWith (fun m v => match v with | some x => if t ≤ x then 0 else m | none => m) mask im

/-- The masks at the moments they are yielded. -/
def thresholdYields (t : ℚ) : List ℚ → List (List (Option ℚ)) → List (List ℚ)
  | _, [] => []
  | mask, im :: rest => thresholdStep t mask im :: thresholdYields t (thresholdStep t mask im) rest

/-- `threshold`, mask.py:84-113.  `images[0]` raises IndexError for an empty series without mask. -/
def threshold (t : ℚ) (images : List (List (Option ℚ))) (mask : Option (List ℚ)) : Py (List (List ℚ)) :=
  match mask, images with
  | some m, _ => .ok (thresholdYields t m images)
  | none, im :: rest => .ok (thresholdYields t (im.map (fun _ => 1)) (im :: rest))
  | none, [] => .error .indexError

/-- What the yielded masks hold once `upTo` frames were processed: the generator yields the same array object every time,
so all of them show its current content. -/
def thresholdKept (t : ℚ) (mask : List ℚ) (images : List (List (Option ℚ))) : List (List ℚ) :=
  List.replicate images.length (images.foldl (thresholdStep t) mask)

/-! ### margin, mask.py:116-134 -/

/-- Is index `i` in the slice `k:-k` of an axis of length `n`?  `-0` is 0, an empty slice. -/
def inMarginSlice (n k i : ℕ) : Bool :=
  let stop := if k = 0 then 0 else n - k
  decide (k ≤ i) && decide (i < stop)

/-- `margin`, one pixel (r, c) of the returned mask: lines 132-134. -/
def margin (shape : ℕ × ℕ) (edge : ℕ) (r c : ℕ) : Bool :=
  let mask := !(inMarginSlice shape.1 edge r && inMarginSlice shape.2 edge c)
  !mask

/-! ### binned_outlier, mask.py:137-187, over the reals -/

/-- A pixel: image value, position r, and whether the starting mask keeps it. -/
structure Px where
  v : ℝ
  r : ℝ
  good : Bool

open Classical in
/-- Which bin `scipy.stats.binned_statistic` uses (scipy is not part of /repo): bin k is [bins k, bins (k+1)), the last
one includes its right edge. -/
noncomputable def inStatBin (bins : List ℝ) (k : ℕ) (x : ℝ) : Bool :=
  decide (bins.getD k 0 ≤ x ∧ (x < bins.getD (k + 1) 0 ∨ (k + 2 = bins.length ∧ x = bins.getD (k + 1) 0)))

/-- mask.py:170-171, 175-176: the values of the unmasked pixels in bin k. -/
noncomputable def binVals (bins : List ℝ) (px : List Px) (k : ℕ) : List ℝ :=
  (px.filter (fun p => p.good && inStatBin bins k p.r)).map (fun p => p.v)

/-- mask.py:175: NaN for an empty bin. -/
noncomputable def binMean (vs : List ℝ) : Option ℝ := if vs.length = 0 then none else some (vs.sum / vs.length)
/-- mask.py:176: `np.std`; NaN for an empty bin. -/
noncomputable def binStd (vs : List ℝ) : Option ℝ :=
  if vs.length = 0 then none else some (Real.sqrt ((vs.map (fun v => (v - vs.sum / vs.length) ^ 2)).sum / vs.length))

/-- The alpha argument: a number, a tuple or an array. -/
inductive Alpha
  | num (a : ℝ)
  | tuple (a b : ℝ)
  | arr (l : List ℝ)

/-- mask.py:177-179: alpha of bin k (of `n` bins). -/
noncomputable def Alpha.at : Alpha → ℕ → ℕ → ℝ
  | .num a, _, _ => a
  | .tuple a b, n, k => a + k * ((b - a) / ((n - 1 : ℕ) : ℝ))
  | .arr l, _, k => l.getD k 0

open Classical in
/-- mask.py:173: `np.digitize(r, bins[:-1], right=True) - 1`: the number of edges (without the last) below r, minus one. -/
noncomputable def intR (bins : List ℝ) (x : ℝ) : ℤ := (bins.dropLast.countP (fun e => decide (e < x)) : ℤ) - 1

/-- numpy indexing of the limit arrays (`n` bins): -1 is the last. -/
def wrapIndex (n : ℕ) (i : ℤ) : ℕ := if i < 0 then (n + i).toNat else i.toNat

open Classical in
/-- `binned_outlier`, mask.py:164-187: the mask value of pixel `p`.  Comparisons with NaN limits are False. -/
noncomputable def outlierKeep (bins : List ℝ) (alpha : Alpha) (px : List Px) (p : Px) : Bool :=
  let n := bins.length - 1
  let k := wrapIndex n (intR bins p.r)
  match binMean (binVals bins px k), binStd (binVals bins px k) with
  | some m, some s => p.good && decide (m - alpha.at n k * s < p.v) && decide (p.v < m + alpha.at n k * s)
  | _, _ => false

/-- `binned_outlier` on the whole (raveled) image. -/
noncomputable def binnedOutlier (bins : List ℝ) (alpha : Alpha) (px : List Px) : List Bool := px.map (outlierKeep bins alpha px)

/-! ### logical operations with an output array, arithmetic.py:58-167

Memory is a function from addresses to booleans, an array of `n` elements a function from element numbers to addresses
(a view).  A numpy ufunc reads all inputs before it writes its output (it copies overlapping operands). -/

abbrev Mem := ℕ → Bool
abbrev View := ℕ → ℕ

/-- Write the `n` values `f` through the view `o`. -/
def write (n : ℕ) (o : View) (f : ℕ → Bool) (m : Mem) : Mem :=
  (List.range n).foldl (fun m' i => fun a => if a = o i then f i else m' a) m

/-- `logical_and(a, b, out)`. -/
def npAnd (n : ℕ) (a b o : View) (m : Mem) : Mem := write n o (fun i => m (a i) && m (b i)) m
/-- `logical_or(a, b, out)`. -/
def npOr (n : ℕ) (a b o : View) (m : Mem) : Mem := write n o (fun i => m (a i) || m (b i)) m
/-- `logical_not(a, out)`. -/
def npNot (n : ℕ) (a o : View) (m : Mem) : Mem := write n o (fun i => !m (a i)) m

/-- `logical_nand(x1, x2, out)`, arithmetic.py:93; the result is the array `out` in the returned memory. -/
def logicalNand (n : ℕ) (x1 x2 out : View) (m : Mem) : Mem := npNot n out out (npAnd n x1 x2 out m)
/-- `logical_nor(x1, x2, out)`, arithmetic.py:129. -/
def logicalNor (n : ℕ) (x1 x2 out : View) (m : Mem) : Mem := npNot n out out (npOr n x1 x2 out m)
/-- `logical_sub(x1, x2, out)`, arithmetic.py:167. -/
def logicalSub (n : ℕ) (x1 x2 out : View) (m : Mem) : Mem := npAnd n x1 out out (npNot n out out (npAnd n x1 x2 out m))

/-- The same with `out=None` (every step makes a new array), arithmetic.py:93, 129, 167. -/
def nandNew (a b : List Bool) : List Bool := (List.zipWith (· && ·) a b).map (!·)
/-- see `nandNew` -/
def norNew (a b : List Bool) : List Bool := (List.zipWith (· || ·) a b).map (!·)
/-- see `nandNew` -/
def subNew (a b : List Bool) : List Bool := List.zipWith (· && ·) a ((List.zipWith (· && ·) a b).map (!·))

end Verif.Mask
