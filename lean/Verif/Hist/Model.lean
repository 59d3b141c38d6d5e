/- Model of skbeam/core/accumulators/histogram.pyx (class Histogram). -/
import Verif.Np
import Mathlib.Data.List.Sort

namespace Verif.Hist
open Verif

/-- One dimension `(nbin, low, high)` of a histogram, histogram.pyx:80-83. -/
structure Axis where
  nbin : ℕ
  low : ℚ
  high : ℚ
  deriving DecidableEq, Repr

/-- Histogram state: axes and the value array in C (row-major) order, histogram.pyx:90-99. -/
structure Hist where
  axes : List Axis
  values : List ℚ
  deriving DecidableEq, Repr

/-- Numeric types of coordinate arrays: the two that `_fillnd` supports, the other members of the fused type
`coordnumtype` (histogram.pyx:22-32), and everything else. -/
inductive DType
  | int64 | float64 | narrow (k : ℕ) | unsupported
  deriving DecidableEq, Repr

/-- A 1-D coordinate array: `mem i` is the i-th element from the data pointer, elements of the array are
`stride` apart (a contiguous array has stride 1; a view such as `a[::2]` has stride 2). -/
structure Coord where
  dtype : DType
  len : ℕ
  stride : ℕ
  mem : ℕ → ℚ

/-- `x[i]`. -/
def Coord.val (c : Coord) (i : ℕ) : ℚ := c.mem (c.stride * i)
/-- `((double*) x.data)[i]`: what `_fillnd` reads, histogram.pyx:233,236,249,259. -/
def Coord.raw (c : Coord) (i : ℕ) : ℚ := c.mem i

/-- `__init__`, histogram.pyx:54-99.  More than 10 dimensions raise ValueError; a bin count of zero divides by
zero (92).  `nbin` is a natural number in the model (numpy rejects negative shapes).  No dimension at all is a
TypeError of the call. -/
def init (axes : List Axis) : Py Hist :=
  if axes = [] then .error .typeError
  else if axes.length > 10 then .error .valueError
  else if axes.any (fun a => a.nbin == 0) then .error .zeroDivision
  else .ok ⟨axes, List.replicate (axes.map Axis.nbin).prod 0⟩

/-- `reset`, histogram.pyx:102-105. -/
def reset (h : Hist) : Hist := { h with values := h.values.map (fun _ => 0) }

/-- `(high - low) / nbin`, histogram.pyx:92; `fl` is the rounding of each floating point operation (identity for
exact arithmetic). -/
def Axis.binsize (fl : ℚ → ℚ) (a : Axis) : ℚ := fl (fl (a.high - a.low) / a.nbin)

/-- `find_indices`, histogram.pyx:286-289 (−1 = out of range). -/
def findIndices (fl : ℚ → ℚ) (pos low high binsize : ℚ) : ℤ :=
  if ¬ (low ≤ pos ∧ pos < high) then -1 else pyInt (fl (fl (pos - low) / binsize))

/-- `data[i] += w`, the sum rounded by `fa`; `none` if `i` is not an index of the array. -/
def addAt (fa : ℚ → ℚ) (v : List ℚ) (i : ℤ) (w : ℚ) : Option (List ℚ) :=
  if 0 ≤ i ∧ i < v.length then some (v.modify i.toNat (fun x => fa (x + w))) else none

/-- The loop of `_fill1d`, histogram.pyx:174-178, over (x, weight) pairs.  Bounds checking is on, so a bad index
is an IndexError.  `fl` rounds the positions, `fa` the contents. -/
def fill1dLoop (fl fa : ℚ → ℚ) (a : Axis) : List ℚ → List (ℚ × ℚ) → List ℚ × Py Unit
  | v, [] => (v, .ok ())
  | v, (x, w) :: t =>
    let xidx := findIndices fl x a.low a.high (a.binsize fl)
    if xidx = -1 then fill1dLoop fl fa a v t
    else match addAt fa v xidx w with
      | none => (v, .error .indexError)
      | some v' => fill1dLoop fl fa a v' t

/-- The loop of `_fill2d`, histogram.pyx:193-200, over ((x, y), weight); `v` is the row-major value array. -/
def fill2dLoop (fl fa : ℚ → ℚ) (a b : Axis) : List ℚ → List ((ℚ × ℚ) × ℚ) → List ℚ × Py Unit
  | v, [] => (v, .ok ())
  | v, ((x, y), w) :: t =>
    let xidx := findIndices fl x a.low a.high (a.binsize fl)
    if xidx = -1 then fill2dLoop fl fa a b v t
    else
      let yidx := findIndices fl y b.low b.high (b.binsize fl)
      if yidx = -1 then fill2dLoop fl fa a b v t
      else if ¬ (xidx < a.nbin ∧ yidx < b.nbin) then (v, .error .indexError)
      else match addAt fa v (xidx * b.nbin + yidx) w with
        | none => (v, .error .indexError)
        | some v' => fill2dLoop fl fa a b v' t

/-- Element strides of a C-ordered array of the given shape (`values.strides // itemsize`, 216-217). -/
def strides : List ℕ → List ℕ
  | [] => []
  | _ :: ns => ns.prod :: strides ns

/-- Per-dimension data of `_fillnd` after reordering: dataindexstrides, low, high, binsize (218-227). -/
structure DimInfo where
  stride : ℕ
  low : ℚ
  high : ℚ
  binsize : ℚ

/-- histogram.pyx:216-227 before reordering. -/
def dimInfos (fl : ℚ → ℚ) (axes : List Axis) : List DimInfo :=
  List.zipWith (fun a s => ⟨s, a.low, a.high, a.binsize fl⟩) axes (strides (axes.map Axis.nbin))

/-- `numtypeindex.get(x.dtype, 999)`, histogram.pyx:212-214. -/
def ctypeIndex : DType → ℕ
  | .int64 => 0
  | .float64 => 1
  | _ => 999

/-- `np.argsort(ctypeindices, kind='mergesort')` applied to the dimensions (215-217, 222-224): a stable sort by
numeric type. -/
def sortDims (cs : List (Coord × DimInfo)) : List (Coord × DimInfo) :=
  cs.insertionSort (fun p q => ctypeIndex p.1.dtype ≤ ctypeIndex q.1.dtype)

/-- The inner loops 247-254 / 257-264 over (value, dimension) pairs, −1 as soon as one is out of range. -/
def ndIndex (fl : ℚ → ℚ) : List (ℚ × DimInfo) → ℤ → ℤ
  | [], d => d
  | (x, di) :: t, d =>
    let xidx := findIndices fl x di.low di.high di.binsize
    if xidx = -1 then -1 else ndIndex fl t (d + di.stride * xidx)

/-- The sample loop of `_fillnd`, histogram.pyx:245-268.  `ints`/`floats` are the pointer arrays (231-237); the
k-th integer array is paired with sorted dimension k, the k-th float array with sorted dimension k+aint_count. A
bad raw-pointer index is undefined behaviour. -/
def fillndLoop (fl fa : ℚ → ℚ) (ints floats : List Coord) (dims : List DimInfo) :
    List ℚ → List (ℕ × ℚ) → List ℚ × Py Unit
  | v, [] => (v, .ok ())
  | v, (i, w) :: t =>
    let d0 := ndIndex fl ((ints.map (·.raw i)).zip dims) 0
    if d0 = -1 then fillndLoop fl fa ints floats dims v t
    else
      let d1 := ndIndex fl ((floats.map (·.raw i)).zip (dims.drop ints.length)) d0
      if d1 = -1 then fillndLoop fl fa ints floats dims v t
      else match addAt fa v d1 w with
        | none => (v, .error .memoryViolation)
        | some v' => fillndLoop fl fa ints floats dims v' t

/-- `_fillnd`, histogram.pyx:204-269. -/
def fillnd (fl fa : ℚ → ℚ) (h : Hist) (coords : List Coord) (ws : List ℚ) (n : ℕ) : List ℚ × Py Unit :=
  if coords.any (fun c => c.dtype ≠ .int64 ∧ c.dtype ≠ .float64) then (h.values, .error .typeError)
  else
    let sorted := sortDims (coords.zip (dimInfos fl h.axes))
    fillndLoop fl fa (coords.filter (fun c => c.dtype = .int64)) (coords.filter (fun c => c.dtype = .float64))
      (sorted.map Prod.snd) h.values ((List.range n).zip ws)

/-- `weight[wstride * i]` for i = 0..n-1 (172,178): a single weight is used for every sample. -/
def expandWeights (ws : List ℚ) (n : ℕ) : List ℚ :=
  match ws with
  | [w] => List.replicate n w
  | ws => ws

/-- `fill`, histogram.pyx:108-162: the new state and whether an exception was raised.  Coordinates are given as
arrays (the scalar/list conversions at 133-139 produce contiguous float64 arrays).  `nd` is the class attribute
`_always_use_fillnd`.  The fused-type dispatch of `_fill1d`/`_fill2d` raises TypeError for other numeric types and,
in 2-D, for two different types.  The rounding of positions and contents are separate parameters here. -/
def fillWith (fl fa : ℚ → ℚ) (nd : Bool) (h : Hist) (coords : List Coord) (weights : List ℚ) : Hist × Py Unit :=
  if coords.length ≠ h.axes.length then (h, .error .valueError)
  else match coords with
    | [] => (h, .error .indexError)
    | c0 :: rest =>
      let n := c0.len
      if (c0 :: rest).any (fun c => c.len ≠ n) then (h, .error .valueError)
      else if weights.length ≠ 1 ∧ weights.length ≠ n then (h, .error .valueError)
      else
        let ws := expandWeights weights n
        let r : List ℚ × Py Unit :=
          if nd then fillnd fl fa h (c0 :: rest) ws n
          else match rest, h.axes with
            | [], [a] =>
              if c0.dtype = .unsupported then (h.values, .error .typeError)
              else fill1dLoop fl fa a h.values (((List.range n).map c0.val).zip ws)
            | [c1], [a, b] =>
              if c0.dtype = .unsupported ∨ c0.dtype ≠ c1.dtype then (h.values, .error .typeError)
              else fill2dLoop fl fa a b h.values (((List.range n).map (fun i => (c0.val i, c1.val i))).zip ws)
            | _, _ => fillnd fl fa h (c0 :: rest) ws n
        ({ h with values := r.1 }, r.2)

/-- `fill`, histogram.pyx:108-162, in an arithmetic with rounding `fl` (identity for exact arithmetic). -/
def fill (fl : ℚ → ℚ) (nd : Bool) (h : Hist) (coords : List Coord) (weights : List ℚ) : Hist × Py Unit := fillWith fl fl nd h coords weights

end Verif.Hist
