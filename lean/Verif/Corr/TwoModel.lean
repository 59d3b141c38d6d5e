/- Model of the two-time part of skbeam/core/correlation.py. -/
import Verif.Corr.Model

namespace Verif.Corr
open Verif

/-- `np.bincount(label_array, weights=w)[1:][r]` when weights may be NaN (`none`): a NaN only reaches the bin of its
own label, correlation.py:738-743. -/
def binnedO (labels : List ℕ) (w : Frame) (r : ℕ) : Option ℚ :=
  (List.zipWith (fun l x => if l = r + 1 then x else some 0) labels w).foldr (Option.map₂ (· + ·)) (some 0)

/-- `tmp_binned / (pi_binned * fi_binned) * num_pixels` for one ROI, correlation.py:738-743, 752, 754; `none` is the
NaN or infinity of a NaN pixel or of a division by zero. -/
def twoVal (labels : List ℕ) (past fut : Frame) (r : ℕ) : Option ℚ :=
  match binnedO labels (List.zipWith (Option.map₂ (· * ·)) past fut) r, binnedO labels past r, binnedO labels fut r with
  | some t, some p, some f => if p * f = 0 then none else some (t / (p * f) * numPixels labels r)
  | _, _, _ => none

/-- The position addressed by the Python index z on an axis of length `len` (negative indices count from the end);
`none` is IndexError. -/
def pyIndex (len : ℕ) (z : ℤ) : Option ℕ :=
  if 0 ≤ z then (if z < len then some z.toNat else none)
  else if -(len : ℤ) ≤ z then some (z + len).toNat else none

/-- `current_img_time`, `time_ind`, `count_level` and `g2` (ROI, t1, t2) of `_two_time_internal_state`
(correlation.py:757-817); `err` records that an IndexError has been raised. -/
structure TAcc where
  time : ℕ
  timeInd : ℕ → List ℚ
  count : ℕ → ℕ
  g2 : ℕ → ℕ → ℕ → Option ℚ
  err : Bool

/-- `g2[:, p, q] = val`. -/
def put3 (g : ℕ → ℕ → ℕ → Option ℚ) (p q : ℕ) (val : ℕ → Option ℚ) : ℕ → ℕ → ℕ → Option ℚ :=
  fun r a b => if a = p ∧ b = q then val r else g r a b

/-- `g2[:, int(x), int(y)] = val`, correlation.py:752, 754.  `nf` is the length of both time axes. -/
def writeCell (nf : ℕ) (val : ℕ → Option ℚ) (a : TAcc) (xy : ℚ × ℚ) : TAcc :=
  if a.err then a
  else
    match pyIndex nf (pyInt xy.1), pyIndex nf (pyInt xy.2) with
    | some p, some q => { a with g2 := put3 a.g2 p q val }
    | _, _ => { a with err := true }

/-- The index pairs written for one delay, correlation.py:745-754.  At level 0 the time is a Python int; at every
other level it is the float of correlation.py:628. -/
def cellsOf (level : ℕ) (time : ℚ) (lag : ℕ) : List (ℚ × ℚ) :=
  if level = 0 then [(time - 1, time - lag - 1)]
  else
    (List.range (2 * 2 ^ (level - 1))).map (fun (j : ℕ) =>
      (time - 1 + ((j : ℚ) - 2 ^ (level - 1) + 1), time - lag - 1 + ((j : ℚ) - 2 ^ (level - 1) + 1)))

/-- The body of the loop over delays, correlation.py:729-754. -/
def oneDelay2 (c : Cfg) (lags : List ℕ) (nf : ℕ) (r : Ring Frame) (level : ℕ) (time : ℚ) (a : TAcc) (i : ℕ) : TAcc :=
  let t := level * c.n / 2 + i
  let bufNo := slot c.n (r.cur level)
  let delayNo := (((bufNo : ℤ) - i) % c.n).toNat
  match lags[t]? with
  | none => { a with err := true }
  | some lag =>
    (cellsOf level time lag).foldl (writeCell nf (twoVal c.labels (r.buf level delayNo) (r.buf level bufNo))) a

/-- correlation.py:581-605 for level 0 and 620-651 for the other levels (the ring update itself is `push0`/`pushUp`).
Nothing happens once an exception has been raised. -/
def process2 (c : Cfg) (lags : List ℕ) (nf : ℕ) (r : Ring Frame) (level : ℕ) (a : TAcc) : TAcc :=
  if a.err then a
  else if level = 0 then
    let a1 := { a with count := put1 a.count 0 (a.count 0 + 1), time := a.time + 1 }
    let a2 := (delays c.n 0 (r.img 0)).foldl (oneDelay2 c lags nf r 0 (a1.time : ℚ)) a1
    { a2 with timeInd := put1 a2.timeInd 0 (a2.timeInd 0 ++ [(a1.time : ℚ)]) }
  else
    let a1 := { a with count := put1 a.count level (a.count level + 1) }
    let t1 := (a1.count level - 1) * 2
    match (a1.timeInd (level - 1))[t1]?, (a1.timeInd (level - 1))[t1 + 1]? with
    | some x, some y =>
      let time := (x + y) / 2
      let a2 := { a1 with timeInd := put1 a1.timeInd level (a1.timeInd level ++ [time]) }
      (delays c.n level (r.img level)).foldl (oneDelay2 c lags nf r level time) a2
    | _, _ => { a1 with err := true }

abbrev TSt := Ring Frame × TAcc

/-- `_init_state_two_time`, correlation.py:776-817. -/
def init2 (c : Cfg) : TSt :=
  (Ring.init (List.replicate c.labels.length (some 0)),
    { time := 0, timeInd := fun _ => [], count := fun _ => 0, g2 := fun _ _ _ => some 0, err := false })

/-- One pass of the frame loop, correlation.py:578-656. -/
def step2 (c : Cfg) (lags : List ℕ) (nf : ℕ) (s : TSt) (x : Frame) : TSt := feed avg c.L c.n (process2 c lags nf) s x

/-- `lazy_two_time` run over a list of images: the state last reached and the exception that ended the run, if any. -/
def lazyTwoTime (c : Cfg) (pixels lags : List ℕ) (nf : ℕ) : TSt → List (List (Option ℚ)) → TSt × Option PyErr
  | s, [] => (s, none)
  | s, im :: rest =>
    match select pixels im with
    | .error e => (s, some e)
    | .ok x =>
      let s' := step2 c lags nf s x
      if s'.2.err then (s', some .indexError) else lazyTwoTime c pixels lags nf s' rest

/-- `np.tril(x0) + np.tril(x0).T - np.diag(np.diag(x0))` at (a, b), correlation.py:674-675. -/
def symAt (x : ℕ → ℕ → Option ℚ) (a b : ℕ) : Option ℚ :=
  Option.map₂ (· - ·)
    (Option.map₂ (· + ·) (if b ≤ a then x a b else some 0) (if a ≤ b then x b a else some 0))
    (if a = b then x a a else some 0)

/-- `two_time_state_to_results`, correlation.py:673-676: it overwrites the matrices of the state in place.
(Without any ROI `np.max` of the empty label array raises ValueError, which is not modelled.) -/
def toResults (c : Cfg) (s : TSt) : TSt :=
  (s.1, { s.2 with g2 := fun r => if r < rois c then symAt (s.2.g2 r) else s.2.g2 r })

/-- `two_time_corr`, correlation.py:483-499: run over all images, then convert (`result` is unbound without images). -/
def twoTimeCorr (numLevels numBufs : ℕ) (labels : List ℤ) (images : List (List (Option ℚ))) (nf : ℕ) :
    Py (ℕ → ℕ → ℕ → Option ℚ) :=
  match validate numBufs numLevels labels with
  | .error e => .error e
  | .ok (c, pixels, lags) =>
    match lazyTwoTime c pixels lags nf (init2 c) images with
    | (_, some e) => .error e
    | (s, none) => if images = [] then .error .unboundLocal else .ok (toResults c s).2.g2

/-- `np.nanmean` of a list; `none` (NaN) when there is no number. -/
def nanmean (l : List (Option ℚ)) : Option ℚ :=
  let v := l.filterMap id
  if v.length = 0 then none else some (v.sum / v.length)

/-- `np.diag(g, k=j)` of an m × m matrix. -/
def diagK (m : ℕ) (g : ℕ → ℕ → Option ℚ) (j : ℕ) : List (Option ℚ) := (List.range (m - j)).map (fun t => g t (t + j))

/-- `one_time_from_two_time`, correlation.py:933-945 (without errors). -/
def oneTimeFromTwoTime (m : ℕ) (g : ℕ → ℕ → Option ℚ) : List (Option ℚ) :=
  (List.range m).map (fun j => nanmean (diagK m g j))

end Verif.Corr
