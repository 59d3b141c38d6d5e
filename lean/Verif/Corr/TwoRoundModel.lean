/- Model of two_time_corr and one_time_from_two_time (skbeam/core/correlation.py) in floating-point arithmetic: every arithmetic
operation of `Verif/Corr/TwoModel.lean` on pixel values and on entries of the matrix is followed by a rounding function.
Integer operations (counters, indices) and the image times (multiples of a half, far below 2^52) are exact.  No overflow or
underflow. -/
import Verif.Corr.TwoModel
import Verif.Corr.RoundModel

namespace Verif.Corr.Rnd
open Verif
variable (fl : ℚ → ℚ)

/-- `np.bincount(label_array, weights=w)[1:][r]`, correlation.py:738-743: the weights are added to their bins one by one, in the
order of the array; a NaN (`none`) only reaches the bin of its own label. -/
def binnedO (labels : List ℕ) (w : Frame) (r : ℕ) : Option ℚ :=
  (labels.zip w).foldl (fun acc p => if p.1 = r + 1 then Option.map₂ (fun x y => fl (x + y)) acc p.2 else acc) (some 0)

/-- `tmp_binned / (pi_binned * fi_binned) * num_pixels` for one ROI, correlation.py:738-743, 752, 754: the product of the two
images, the product of the two sums, the quotient and the final product are rounded. -/
def twoVal (labels : List ℕ) (past fut : Frame) (r : ℕ) : Option ℚ :=
  match binnedO fl labels (List.zipWith (Option.map₂ (fun x y => fl (x * y))) past fut) r, binnedO fl labels past r,
    binnedO fl labels fut r with
  | some t, some p, some f => if fl (p * f) = 0 then none else some (fl (fl (t / fl (p * f)) * numPixels labels r))
  | _, _, _ => none

/-- The body of the loop over delays, correlation.py:729-754. -/
def oneDelay2 (c : Cfg) (lags : List ℕ) (nf : ℕ) (r : Ring Frame) (level : ℕ) (time : ℚ) (a : TAcc) (i : ℕ) : TAcc :=
  let t := level * c.n / 2 + i
  let bufNo := slot c.n (r.cur level)
  let delayNo := (((bufNo : ℤ) - i) % c.n).toNat
  match lags[t]? with
  | none => { a with err := true }
  | some lag =>
    (cellsOf level time lag).foldl (writeCell nf (twoVal fl c.labels (r.buf level delayNo) (r.buf level bufNo))) a

/-- correlation.py:581-605 for level 0 and 620-651 for the other levels. -/
def process2 (c : Cfg) (lags : List ℕ) (nf : ℕ) (r : Ring Frame) (level : ℕ) (a : TAcc) : TAcc :=
  if a.err then a
  else if level = 0 then
    let a1 := { a with count := put1 a.count 0 (a.count 0 + 1), time := a.time + 1 }
    let a2 := (delays c.n 0 (r.img 0)).foldl (oneDelay2 fl c lags nf r 0 (a1.time : ℚ)) a1
    { a2 with timeInd := put1 a2.timeInd 0 (a2.timeInd 0 ++ [(a1.time : ℚ)]) }
  else
    let a1 := { a with count := put1 a.count level (a.count level + 1) }
    let t1 := (a1.count level - 1) * 2
    match (a1.timeInd (level - 1))[t1]?, (a1.timeInd (level - 1))[t1 + 1]? with
    | some x, some y =>
      let time := (x + y) / 2
      let a2 := { a1 with timeInd := put1 a1.timeInd level (a1.timeInd level ++ [time]) }
      (delays c.n level (r.img level)).foldl (oneDelay2 fl c lags nf r level time) a2
    | _, _ => { a1 with err := true }

/-- One pass of the frame loop, correlation.py:578-656. -/
def step2 (c : Cfg) (lags : List ℕ) (nf : ℕ) (s : TSt) (x : Frame) : TSt := feed (avg fl) c.L c.n (process2 fl c lags nf) s x

/-- `lazy_two_time` run over a list of images. -/
def lazyTwoTime (c : Cfg) (pixels lags : List ℕ) (nf : ℕ) : TSt → List (List (Option ℚ)) → TSt × Option PyErr
  | s, [] => (s, none)
  | s, im :: rest =>
    match select pixels im with
    | .error e => (s, some e)
    | .ok x =>
      let s' := step2 fl c lags nf s x
      if s'.2.err then (s', some .indexError) else lazyTwoTime c pixels lags nf s' rest

/-- `np.tril(x0) + np.tril(x0).T - np.diag(np.diag(x0))` at (a, b), correlation.py:674-675: the sum, then the difference. -/
def symAt (x : ℕ → ℕ → Option ℚ) (a b : ℕ) : Option ℚ :=
  Option.map₂ (fun y z => fl (y - z))
    (Option.map₂ (fun y z => fl (y + z)) (if b ≤ a then x a b else some 0) (if a ≤ b then x b a else some 0))
    (if a = b then x a a else some 0)

/-- `two_time_state_to_results`, correlation.py:673-676. -/
def toResults (c : Cfg) (s : TSt) : TSt :=
  (s.1, { s.2 with g2 := fun r => if r < rois c then symAt fl (s.2.g2 r) else s.2.g2 r })

/-- `two_time_corr`, correlation.py:483-499. -/
def twoTimeCorr (numLevels numBufs : ℕ) (labels : List ℤ) (images : List (List (Option ℚ))) (nf : ℕ) :
    Py (ℕ → ℕ → ℕ → Option ℚ) :=
  match validate numBufs numLevels labels with
  | .error e => .error e
  | .ok (c, pixels, lags) =>
    match lazyTwoTime fl c pixels lags nf (init2 c) images with
    | (_, some e) => .error e
    | (s, none) => if images = [] then .error .unboundLocal else .ok (toResults fl c s).2.g2

/-- A floating-point sum of the numbers of a list: they are added two by two, in any order and with any grouping (`np.sum` splits
long arrays into blocks with eight partial sums each), and every addition is rounded.  (Adding a number to an initial zero is exact
and left out.) -/
inductive Sum : List ℚ → ℚ → Prop
  | nil : Sum [] 0
  | one (x : ℚ) : Sum [x] x
  | add {l m k : List ℚ} {a b : ℚ} (hl : Sum l a) (hm : Sum m b) (hl0 : l ≠ []) (hm0 : m ≠ []) (hk : k.Perm (l ++ m)) : Sum k (fl (a + b))

/-- `np.nanmean` of a list: NaNs are replaced by zeros, the sum (computed by `sum`) is divided by the number of the other entries;
`none` (NaN) when there is no number. -/
def nanmean (sum : List ℚ → ℚ) (l : List (Option ℚ)) : Option ℚ :=
  if (l.filterMap id).length = 0 then none else some (fl (sum (l.map (·.getD 0)) / (l.filterMap id).length))

/-- `one_time_from_two_time`, correlation.py:933-945 (without errors). -/
def oneTimeFromTwoTime (sum : List ℚ → ℚ) (m : ℕ) (g : ℕ → ℕ → Option ℚ) : List (Option ℚ) :=
  (List.range m).map (fun j => nanmean fl sum (diagK m g j))

end Verif.Corr.Rnd
