/- Model of skbeam/core/dpc.py. -/
import Verif.Dft
import Verif.Np

namespace Verif.Dpc
open Finset Verif

/-- A 2-D array: its shape and its entries (only those within the shape matter). -/
structure Img (α : Type) where
  rows : ℕ
  cols : ℕ
  px : ℕ → ℕ → α

/-- The `roi` argument: a list or tuple, or the NumPy array named in the docstring. -/
inductive RoiArg where
  | none
  | seq (r c row col : ℕ)
  | ndarray (r c row col : ℕ)

/-- Python index into an axis of length n: negative indices count from the end, None out of range. -/
def pyIndex (n : ℕ) (i : ℤ) : Option ℕ :=
  if 0 ≤ i ∧ i < n then some i.toNat else if i < 0 ∧ 0 ≤ i + n then some (i + n).toNat else none

/-- `im[row, column] = 0` for each bad pixel; dpc.py 81-82. -/
def zeroPixels {α : Type} [Zero α] (im : Img α) : List (ℤ × ℤ) → Py (Img α)
  | [] => .ok im
  | (i, j) :: rest =>
    match pyIndex im.rows i, pyIndex im.cols j with
    | some a, some b => zeroPixels { im with px := fun i' j' => if i' = a ∧ j' = b then 0 else im.px i' j' } rest
    | _, _ => .error .indexError

/-- `im[r : r + row, c : c + col]`; dpc.py 86 (non-negative bounds). -/
def crop {α : Type} (im : Img α) (r c row col : ℕ) : Img α :=
  ⟨min (r + row) im.rows - r, min (c + col) im.cols - c, fun i j => im.px (r + i) (c + j)⟩

/-- `np.sum(im, axis=0)`; dpc.py 88. -/
def colSums {α : Type} [AddCommMonoid α] (im : Img α) : List α := (List.range im.cols).map (fun j => ∑ i ∈ range im.rows, im.px i j)

/-- `np.sum(im, axis=1)`; dpc.py 89. -/
def rowSums {α : Type} [AddCommMonoid α] (im : Img α) : List α := (List.range im.rows).map (fun i => ∑ j ∈ range im.cols, im.px i j)

/-- The image used by image_reduction (after bad pixels and ROI), with the contents of the caller's array afterwards.
`if roi` on an array of four elements raises ValueError. -/
def reduceImage {α : Type} [Zero α] (im : Img α) (roi : RoiArg) (bad : List (ℤ × ℤ)) : Py (Img α × Img α) :=
  -- im.copy(): the caller's image `im` is not touched
  match zeroPixels im bad with
  | .error e => .error e
  | .ok cp =>
    match roi with
    | .none => .ok (im, cp)
    | .seq r c row col => .ok (im, crop cp r c row col)
    | .ndarray _ _ _ _ => .error .valueError

/-- `image_reduction`; dpc.py 51-91: (caller's image afterwards, xline, yline). -/
def imageReduction {α : Type} [AddCommMonoid α] (im : Img α) (roi : RoiArg) (bad : List (ℤ × ℤ)) : Py (Img α × List α × List α) :=
  match reduceImage im roi bad with
  | .error e => .error e
  | .ok (caller, im') => .ok (caller, colSums im', rowSums im')

/-- `dpc_internal_state` without the two constant reference arrays; dpc.py 298. -/
structure State (α : Type) where
  ax : ℕ → ℕ → α
  ay : ℕ → ℕ → α
  gx : ℕ → ℕ → α
  gy : ℕ → ℕ → α
  index : ℕ

/-- `initialize_state`; dpc.py 412-423. -/
def initState {α : Type} [Zero α] : State α := ⟨fun _ _ => 0, fun _ _ => 0, fun _ _ => 0, fun _ _ => 0, 0⟩

/-- `a[i, j] = v`. -/
def put {α : Type} (a : ℕ → ℕ → α) (i j : ℕ) (v : α) : ℕ → ℕ → α := fun i' j' => if i' = i ∧ j' = j then v else a i' j'

/-- One frame; dpc.py 434-452.  `fit` stands for lines 437-445 (reduction, IFFT, two fits) and returns
((ax, gx), (ay, gy)).  `np.unravel_index` raises ValueError for an index outside the scan. -/
def step {α ι : Type} (fit : ι → (α × α) × (α × α)) (rows cols : ℕ) (st : State α) (im : ι) : Py (State α) :=
  if st.index < rows * cols then
    let i := st.index / cols
    let j := st.index % cols
    let f := fit im
    .ok { gx := put st.gx i j f.1.2, gy := put st.gy i j f.2.2, ax := put st.ax i j f.1.1, ay := put st.ay i j f.2.1, index := st.index + 1 }
  else .error .valueError

/-- `lazy_dpc`; dpc.py 342-453: the states at the successive yields and the exception that ended the generator, if any. -/
def lazyDpc {α ι : Type} (fit : ι → (α × α) × (α × α)) (rows cols : ℕ) : State α → List ι → List (State α) × Option PyErr
  | _, [] => ([], none)
  | st, im :: rest =>
    match step fit rows cols st im with
    | .error e => ([], some e)
    | .ok st' =>
      let r := lazyDpc fit rows cols st' rest
      (st' :: r.1, r.2)

/-- The yielded objects as seen once the generator has finished: all of them are the same mutable state. -/
def collected {α ι : Type} (fit : ι → (α × α) × (α × α)) (rows cols : ℕ) (st : State α) (ims : List ι) : List (State α) :=
  let ys := (lazyDpc fit rows cols st ims).1
  ys.map (fun _ => ys.getLastD st)

/-! ### fitting -/

/-- `beta` of `_rss_factory` without the factor i: `np.linspace(-(length - 1) // 2, (length - 1) // 2, length)[m]`; dpc.py 113. -/
noncomputable def beta (len m : ℕ) : ℝ :=
  let lo : ℤ := (-((len : ℤ) - 1)) / 2
  let hi : ℤ := ((len : ℤ) - 1) / 2
  if len = 1 then lo else lo + m * (((hi : ℝ) - lo) / ((len : ℝ) - 1))

/-- `_rss`; dpc.py 115-146. -/
noncomputable def rss (len : ℕ) (v : ℝ × ℝ) (ref diff : ℕ → ℂ) : ℝ :=
  ∑ m ∈ range len, ((diff m - ref m * v.1 * Complex.exp (v.2 * (Complex.I * beta len m))) *
    (starRingEnd ℂ) (diff m - ref m * v.1 * Complex.exp (v.2 * (Complex.I * beta len m)))).re

/-- `np.fft.fftshift(np.fft.ifft(line))`; dpc.py 420-421, 440-441. -/
noncomputable def lineTransform (len : ℕ) (line : ℕ → ℝ) : ℕ → ℂ := Dft.fftshift len (Dft.ifft len (fun m => (line m : ℂ)))

/-! ### recon -/

/-- `gx_padding`; dpc.py 260-271. -/
noncomputable def pad {α : Type} [Zero α] (padding rows cols : ℕ) (g : ℕ → ℕ → α) : Img α :=
  ⟨rows * (2 * padding + 1), cols * (2 * padding + 1), fun i j =>
    if padding * rows ≤ i ∧ i < (padding + 1) * rows ∧ padding * cols ≤ j ∧ j < (padding + 1) * cols then g (i - padding * rows) (j - padding * cols) else 0⟩

/-- `a[roi_slice]`; dpc.py 269, 291. -/
def cropCentre {α : Type} (padding rows cols : ℕ) (a : ℕ → ℕ → α) : ℕ → ℕ → α := fun i j => a (padding * rows + i) (padding * cols + j)

/-- `ax[m]` (or `ay`): `2 pi arange(1 - mid, n - mid + 1)[m] / (n step)` with `mid = n // 2 + 1`; dpc.py 276-279. -/
noncomputable def kappa (n : ℕ) (step : ℝ) (m : ℕ) : ℝ := 2 * Real.pi * ((1 : ℝ) - (n / 2 + 1 : ℕ) + m) / (n * step)

open Classical in
/-- `c` before ifftshift; dpc.py 282-289. -/
noncomputable def coeff (n m : ℕ) (sx sy w : ℝ) (tx ty : ℕ → ℕ → ℂ) (k l : ℕ) : ℂ :=
  let kx : ℝ := kappa m sx l
  let ky : ℝ := kappa n sy k
  let div : ℝ := kx ^ 2 * (1 - w) + ky ^ 2 * w
  if div = 0 then 0 else -Complex.I * ((kx : ℂ) * tx k l * (1 - w) + (ky : ℂ) * ty k l * w) / (div : ℂ)

/-- The phase before cropping; dpc.py 273-291. -/
noncomputable def solve (n m : ℕ) (sx sy w : ℝ) (gx gy : ℕ → ℕ → ℝ) : ℕ → ℕ → ℝ :=
  let tx := Dft.fftshift2 n m (Dft.fft2 n m (fun i j => (gx i j : ℂ)))
  let ty := Dft.fftshift2 n m (Dft.fft2 n m (fun i j => (gy i j : ℂ)))
  let c := Dft.ifftshift2 n m (coeff n m sx sy w tx ty)
  fun i j => (Dft.ifft2 n m c i j).re

open Classical in
/-- `recon`; dpc.py 214-293. -/
noncomputable def recon (rows cols : ℕ) (gx gy : ℕ → ℕ → ℝ) (sx sy : ℝ) (padding : ℕ) (w : ℝ) : Py (Img ℝ) :=
  if w < 0 ∨ 1 < w then .error .valueError
  else
    let px := pad padding rows cols gx
    let py := pad padding rows cols gy
    .ok ⟨rows, cols, cropCentre padding rows cols (solve px.rows px.cols sx sy w px.px py.px)⟩

open Classical in
/-- `reconstruct_phase_from_partial_info`; dpc.py 456-539.  `pixel` and `focus` are None as `none`; `lenx`, `leny` the
lengths of the reference lines.  The argument `scale` is accepted and never read.  Without a pixel size and with
`negate=False`, gx stays None, and `rows, cols = np.asarray(None).shape` raises ValueError. -/
noncomputable def reconstruct (rows cols : ℕ) (st : State ℝ) (lenx leny : ℕ) (energy sx sy : ℝ) (pixel focus : Option ℝ)
    (negate _scale : Bool) (padding : ℕ) (w : ℝ) : Py (Img ℝ × Img ℝ) :=
  if w < 0 ∨ 1 < w then .error .valueError
  else
    let truthy := fun (o : Option ℝ) => o.getD 0 ≠ 0
    let scaled := truthy pixel ∧ truthy focus
    let factor := pixel.getD 0 / (12.4e-4 / energy * focus.getD 0)
    let gx : Option (ℕ → ℕ → ℝ) := if scaled then some (fun i j => st.gx i j * lenx * factor) else none
    let gy : ℕ → ℕ → ℝ := if scaled then fun i j => st.gy i j * leny * factor else st.gy
    let gx' : Option (ℕ → ℕ → ℝ) := if negate then some (fun i j => -1 * (gx.getD st.gx) i j) else gx
    match gx' with
    | none => .error .valueError
    | some g =>
      match recon rows cols g gy sx sy padding w with
      | .error e => .error e
      | .ok phase => .ok (phase, ⟨rows, cols, fun i j => (st.ax i j + st.ay i j) / 2⟩)

open Classical in
/-- `dpc_runner`; dpc.py 301-339, for a two-element pixel_size.  With no frame, `dpc_state` is never assigned. -/
noncomputable def dpcRunner {ι : Type} (fit : ι → (ℝ × ℝ) × (ℝ × ℝ)) (ims : List ι) (pixel : ℝ × ℝ) (focus : ℝ) (rows cols : ℕ)
    (lenx leny : ℕ) (sx sy energy : ℝ) (padding : ℕ) (w : ℝ) (negate scale : Bool) : Py (Img ℝ × Img ℝ) :=
  if pixel.1 ≠ pixel.2 then .error .valueError
  else
    match lazyDpc fit rows cols initState ims with
    | (_, some e) => .error e
    | (ys, none) =>
      match ys.getLast? with
      | none => .error .unboundLocal
      | some st => reconstruct rows cols st lenx leny energy sx sy (some pixel.1) (some focus) negate scale padding w

end Verif.Dpc
