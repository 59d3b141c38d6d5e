/- Model of skbeam/core/correlation.py (multi-tau one-time and two-time correlation). -/
import Verif.Utils.Model
import Mathlib.Logic.Function.Basic

namespace Verif.Corr
open Verif

/-! ### Frames -/

/-- The selected pixels of one frame; `none` is NaN.  Exact rational arithmetic replaces float64. -/
abbrev Frame := List (Option ℚ)

/-- `(a + b) / 2` elementwise with NaN propagation (correlation.py:371-373, 622-624). -/
def avg (a b : Frame) : Frame :=
  List.zipWith (fun x y => match x, y with | some x, some y => some ((x + y) / 2) | _, _ => none) a b

/-- The pixel values when no pixel is NaN (`np.isnan(img).any()` is false), correlation.py:148. -/
def good : Frame → Option (List ℚ)
  | [] => some []
  | none :: _ => none
  | some x :: t => (good t).map (x :: ·)

/-- `np.bincount(label_array, weights=w)[1:][r]`, correlation.py:155. -/
def binned (labels : List ℕ) (w : List ℚ) (r : ℕ) : ℚ :=
  (List.zipWith (fun l x => if l = r + 1 then x else 0) labels w).sum

/-- `num_pixels[r] = np.bincount(label_array)[1:][r]`, correlation.py:874. -/
def numPixels (labels : List ℕ) (r : ℕ) : ℕ := labels.count (r + 1)

/-! ### Ring buffers and the level cascade (shared by the two generators) -/

/-- `buf`, `img_per_level`, `track_level`, `cur` (correlation.py:886-892).  Arrays are functions of their indices;
that every index used is inside the array is a theorem (C46_indices_in_bounds). -/
structure Ring (F : Type) where
  buf : ℕ → ℕ → F
  img : ℕ → ℕ
  track : ℕ → Bool
  cur : ℕ → ℕ

/-- The slot addressed by the Python index `c - 1` in an axis of length n (`-1` is the last slot). -/
def slot (n c : ℕ) : ℕ := if c = 0 then n - 1 else c - 1

/-- `prev - 1` with `prev = 1 + (c - 2) % num_bufs`, correlation.py:368, 618. -/
def prevSlot (n c : ℕ) : ℕ := (((c : ℤ) - 2) % n).toNat

/-- `arr[i, j] = x`. -/
def put2 {F : Type} (f : ℕ → ℕ → F) (i j : ℕ) (x : F) : ℕ → ℕ → F :=
  fun a b => if a = i ∧ b = j then x else f a b

/-- `arr[i] = x`. -/
def put1 {F : Type} (f : ℕ → F) (i : ℕ) (x : F) : ℕ → F := fun a => if a = i then x else f a

/-- correlation.py:334-337 (579, 587), and the increment of `img_per_level` at the head of the process functions
(128, 720). -/
def Ring.push0 {F : Type} (n : ℕ) (r : Ring F) (x : F) : Ring F :=
  let c := (1 + r.cur 0) % n
  { buf := put2 r.buf 0 (slot n c) x, img := put1 r.img 0 (r.img 0 + 1), track := r.track, cur := put1 r.cur 0 c }

/-- correlation.py:368-376 (618-634) with the increment of `img_per_level`. -/
def Ring.pushUp {F : Type} (av : F → F → F) (n : ℕ) (r : Ring F) (level : ℕ) : Ring F :=
  let c := 1 + r.cur level % n
  { buf := put2 r.buf level (slot n c)
      (av (r.buf (level - 1) (prevSlot n (r.cur (level - 1)))) (r.buf (level - 1) (slot n (r.cur (level - 1)))))
    img := put1 r.img level (r.img level + 1)
    track := put1 r.track level false
    cur := put1 r.cur level c }

/-- The `while processing` loop, correlation.py:363-399 (613-655); the first argument is `num_levels - level`. -/
def cascade {F A : Type} (av : F → F → F) (n : ℕ) (process : Ring F → ℕ → A → A) :
    ℕ → ℕ → Ring F × A → Ring F × A
  | 0, _, s => s
  | fuel + 1, level, (r, a) =>
    if r.track level = false then ({ r with track := put1 r.track level true }, a)
    else
      let r' := r.pushUp av n level
      cascade av n process fuel (level + 1) (r', process r' level a)

/-- One frame through all levels. -/
def feed {F A : Type} (av : F → F → F) (L n : ℕ) (process : Ring F → ℕ → A → A) (s : Ring F × A) (x : F) :
    Ring F × A :=
  let r := s.1.push0 n x
  cascade av n process (L - 1) 1 (r, process r 0 s.2)

/-- The initial ring state, correlation.py:886-892. -/
def Ring.init {F : Type} (z : F) : Ring F :=
  { buf := fun _ _ => z, img := fun _ => 0, track := fun _ => false, cur := fun _ => 1 }

/-! ### One-time correlation -/

/-- `G`, `past_intensity`, `future_intensity` (row, ROI) and `norm` (level, position in level). -/
structure Acc where
  G : ℕ → ℕ → ℚ
  past : ℕ → ℕ → ℚ
  fut : ℕ → ℕ → ℚ
  norm : ℕ → ℕ → ℕ

/-- Numbers of the configuration: levels, buffers, remapped labels of the selected pixels. -/
structure Cfg where
  L : ℕ
  n : ℕ
  labels : List ℕ

/-- `lev_len[:level].sum()`, correlation.py:143, 882: the first level has n lags, the others n/2. -/
def levBefore (n level : ℕ) : ℕ := if level = 0 then 0 else n + (level - 1) * (n / 2)

/-- `arr[t] += (binned / num_pixels - arr[t]) / normalize` for one ROI, correlation.py:155-156. -/
def upd (labels : List ℕ) (arr : ℕ → ℕ → ℚ) (t : ℕ) (w : List ℚ) (normalize : ℚ) : ℕ → ℕ → ℚ :=
  fun a r => if a = t then arr t r + (binned labels w r / numPixels labels r - arr t r) / normalize else arr a r

/-- The body of the loop over delays, correlation.py:133-156. -/
def oneDelay (c : Cfg) (r : Ring Frame) (level : ℕ) (a : Acc) (i : ℕ) : Acc :=
  let t := level * c.n / 2 + i
  let bufNo := slot c.n (r.cur level)
  let delayNo := (((bufNo : ℤ) - i) % c.n).toNat
  let pastImg := r.buf level delayNo
  let futImg := r.buf level bufNo
  let ind := t - levBefore c.n level
  let normalize : ℚ := (r.img level : ℚ) - i - a.norm level ind
  match good pastImg, good futImg with
  | some p, some f =>
    { a with
      G := upd c.labels a.G t (List.zipWith (· * ·) p f) normalize
      past := upd c.labels a.past t p normalize
      fut := upd c.labels a.fut t f normalize }
  | _, _ => { a with norm := put2 a.norm level ind (a.norm level ind + 1) }

/-- `range(i_min, min(img_per_level[level], num_bufs))`, correlation.py:131-132, 724-729. -/
def delays (n level img : ℕ) : List ℕ :=
  let lo := if level = 0 then 0 else n / 2
  (List.range (min img n - lo)).map (· + lo)

/-- `_one_time_process`, correlation.py:128-157 (`img_per_level` already incremented by `push0`/`pushUp`). -/
def process (c : Cfg) (r : Ring Frame) (level : ℕ) (a : Acc) : Acc :=
  (delays c.n level (r.img level)).foldl (oneDelay c r level) a

/-- The state carried from frame to frame. -/
abbrev St := Ring Frame × Acc

/-- `_init_state_one_time`, correlation.py:236-256. -/
def init (c : Cfg) : St :=
  (Ring.init (List.replicate c.labels.length (some 0)), ⟨fun _ _ => 0, fun _ _ => 0, fun _ _ => 0, fun _ _ => 0⟩)

/-- One pass of the frame loop, correlation.py:329-399. -/
def step (c : Cfg) (s : St) (x : Frame) : St := feed avg c.L c.n (process c) s x

/-- Number of rows of `G`, correlation.py:236. -/
def rows (c : Cfg) : ℕ := (c.L + 1) * c.n / 2

/-- Number of ROIs (`num_rois`), correlation.py:871; labels are remapped to 1..num_rois. -/
def rois (c : Cfg) : ℕ := c.labels.foldl max 0

/-- The truncation index `g_max`, correlation.py:404-407: first row with a zero past intensity, or all rows. -/
def gMax (c : Cfg) (a : Acc) : ℕ :=
  (List.range (rows c)).findIdx (fun t => (List.range (rois c)).any (fun r => a.past t r = 0))

/-- One element of the `g2` table; `none` stands for the NaN/inf of a division by zero, correlation.py:409. -/
def g2At (a : Acc) (t r : ℕ) : Option ℚ :=
  if a.past t r * a.fut t r = 0 then none else some (a.G t r / (a.past t r * a.fut t r))

/-- What is yielded after a frame: g2 rows, lag steps (correlation.py:409-410). -/
structure Res where
  g2 : List (List (Option ℚ))
  lags : List ℕ
  deriving DecidableEq, Repr

/-- correlation.py:404-410; `lags` is the lag table of `multi_tau_lags` (correlation.py:877). -/
def result (c : Cfg) (lags : List ℕ) (s : St) : Res :=
  { g2 := (List.range (gMax c s.2)).map (fun t => (List.range (rois c)).map (fun r => g2At s.2 t r))
    lags := lags.take (gMax c s.2) }

/-- `np.ravel(image)[pixel_list]`, correlation.py:337: IndexError when the image is too small. -/
def select (pixels : List ℕ) (image : List (Option ℚ)) : Py Frame :=
  pixels.mapM (fun p => match image[p]? with | some v => .ok v | none => .error .indexError)

/-- The generator: everything yielded, the state reached, and the exception that ended it, if any
(correlation.py:329-410). -/
def lazyOneTime (c : Cfg) (pixels lags : List ℕ) : St → List (List (Option ℚ)) → List Res × St × Option PyErr
  | s, [] => ([], s, none)
  | s, im :: rest =>
    match select pixels im with
    | .error e => ([], s, some e)
    | .ok x =>
      let s' := step c s x
      let r := lazyOneTime c pixels lags s' rest
      (result c lags s' :: r.1, r.2)

/-! ### Labels -/

/-- `np.ravel(labels) > 0` at a flat position, roi.py:526. -/
def posAt (labels : List ℤ) (k : ℕ) : Bool := match labels[k]? with | some l => decide (0 < l) | none => false

/-- `extract_label_indices`, roi.py:523-533, for a label image given as its raveled list (`grid[0] * ncols + grid[1]`
is the flat position). -/
def extractLabelIndices (labels : List ℤ) : List ℤ × List ℕ :=
  (labels.filter (fun l => decide (0 < l)), (List.range labels.length).filter (posAt labels))

/-- Insert into a sorted duplicate-free list. -/
def insU (x : ℤ) : List ℤ → List ℤ
  | [] => [x]
  | y :: t => if x < y then x :: y :: t else if x = y then y :: t else y :: insU x t

/-- `np.unique`: sorted distinct values. -/
def unique (l : List ℤ) : List ℤ := l.foldr insU []

/-- The remapping loop, correlation.py:865-868: for the k-th smallest label (in order), overwrite it by k. -/
def remapLoop : List (ℤ × ℕ) → List ℤ → List ℤ
  | [], arr => arr
  | (l, k) :: t, arr => remapLoop t (arr.map (fun x => if x = l then (k : ℤ) else x))

/-- correlation.py:865-868. -/
def remap (arr : List ℤ) : List ℤ := remapLoop ((unique arr).zipIdx 1) arr

/-- `_validate_and_transform_inputs`, correlation.py:860-882: configuration, pixel list and lag table. -/
def validate (numBufs numLevels : ℕ) (labels : List ℤ) : Py (Cfg × List ℕ × List ℕ) :=
  if numBufs % 2 ≠ 0 then .error .valueError
  else
    match Utils.multiTauLags numLevels numBufs with
    | .error e => .error e
    | .ok (_, lags, _) =>
      .ok ({ L := numLevels, n := numBufs, labels := (remap (extractLabelIndices labels).1).map Int.toNat },
        (extractLabelIndices labels).2, lags)

/-- `multi_tau_auto_corr`, correlation.py:426-429: the last result; with no frames `result` is unbound. -/
def multiTauAutoCorr (numLevels numBufs : ℕ) (labels : List ℤ) (images : List (List (Option ℚ))) : Py Res := do
  let (c, pixels, lags) ← validate numBufs numLevels labels
  let out := lazyOneTime c pixels lags (init c) images
  match out.2.2 with
  | some e => .error e
  | none => match out.1.getLast? with
    | none => .error .unboundLocal
    | some r => .ok r

end Verif.Corr
