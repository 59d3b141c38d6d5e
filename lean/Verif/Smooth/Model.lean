/- Model of the two-dimensional Savitzky-Golay filter, skbeam/core/smoothing.py:40-149.  Images and kernels are exact
rationals; `fftconvolve` is exact convolution; `np.linalg.pinv` is any matrix with the four Moore-Penrose properties. -/
import Verif.Np
import Mathlib.Data.Matrix.Mul
import Mathlib.Algebra.BigOperators.Fin

namespace Verif.Smooth
open Verif

/-- An N × M image: sizes and entries. -/
structure Img where
  N : ℕ
  M : ℕ
  px : ℕ → ℕ → ℚ

/-- `exps`, smoothing.py:78. -/
def exps (order : ℕ) : List (ℕ × ℕ) := (List.range (order + 1)).flatMap (fun k => (List.range (k + 1)).map (fun n => (k - n, n)))

/-- `ind[a]`, smoothing.py:81. -/
def ind (h a : ℕ) : ℚ := -(h : ℚ) + a

/-- The matrix A, smoothing.py:82-90.  Row a * w + b (here: row (a, b)) belongs to dx = ind[a], dy = ind[b]. -/
def design (h order : ℕ) : Matrix (Fin (2 * h + 1) × Fin (2 * h + 1)) (Fin (exps order).length) ℚ :=
  fun p i => ind h p.1 ^ ((exps order).get i).1 * ind h p.2 ^ ((exps order).get i).2

/-- What `np.linalg.pinv(A)` is: the four Moore-Penrose conditions. -/
structure IsPinv {m n : Type} [Fintype m] [Fintype n] (A : Matrix m n ℚ) (P : Matrix n m ℚ) : Prop where
  apa : A * P * A = A
  pap : P * A * P = P
  sap : (A * P).transpose = A * P
  spa : (P * A).transpose = P * A

/-- `band - np.abs(value - band)`. -/
def below (band value : ℚ) : ℚ := band - |value - band|
/-- `band + np.abs(value - band)`. -/
def above (band value : ℚ) : ℚ := band + |value - band|

/-- The padded image, smoothing.py:93-134, entry (i, j) of an (N + 2 h) × (M + 2 h) array.  The two corners that the code
fills from the bands already written (lines 125-134) are written out here. -/
def pad (h : ℕ) (im : Img) (i j : ℕ) : ℚ :=
  let N := im.N
  let M := im.M
  let img := im.px
  -- bands left and right of image row r
  let left (r j : ℕ) := below (img r 0) (img r (h - j))
  let right (r j : ℕ) := above (img r (M - 1)) (img r (M - 2 - (j - (M + h))))
  let bottom (i c : ℕ) := above (img (N - 1) c) (img (N - 2 - (i - (N + h))) c)
  if i < h then
    if j < h then below (img 0 0) (img (h - i) (h - j))
    else if j < M + h then below (img 0 (j - h)) (img (h - i) (j - h))
    else below (right 0 j) (right (h - i) j)
  else if i < N + h then
    if j < h then left (i - h) j
    else if j < M + h then img (i - h) (j - h)
    else right (i - h) j
  else
    if j < h then below (bottom i 0) (bottom i (h - j))
    else if j < M + h then bottom i (j - h)
    else above (img (N - 1) (M - 1)) (img (N - 2 - (i - (N + h))) (M - 2 - (j - (M + h))))

/-- `fftconvolve(S, k, mode="valid")` with a (2 h + 1) × (2 h + 1) kernel, entry (i, j). -/
def convValid (h : ℕ) (S : ℕ → ℕ → ℚ) (k : Fin (2 * h + 1) × Fin (2 * h + 1) → ℚ) (i j : ℕ) : ℚ :=
  ∑ p : Fin (2 * h + 1) × Fin (2 * h + 1), S (i + (2 * h - p.1)) (j + (2 * h - p.2)) * k p

/-- The `derivative` argument. -/
inductive Deriv
  | none
  | col
  | row
  | both
  | other

/-- What the call returns: one image, two images, or None. -/
inductive Res
  | one (a : Img)
  | two (a b : Img)
  | nothing

/-- The kernels, smoothing.py:137-149: a row index that does not exist raises IndexError.  `pinv` stands for
`np.linalg.pinv(A)`. -/
def kernelRow (h order : ℕ) (pinv : (h order : ℕ) → Matrix (Fin (exps order).length) (Fin (2 * h + 1) × Fin (2 * h + 1)) ℚ) (i : ℕ) :
    Py (Fin (2 * h + 1) × Fin (2 * h + 1) → ℚ) :=
  if hi : i < (exps order).length then .ok (pinv h order ⟨i, hi⟩) else .error .indexError

/-- `fftconvolve` of the padded image: an image of the original size. -/
def filtered (h : ℕ) (im : Img) (k : Fin (2 * h + 1) × Fin (2 * h + 1) → ℚ) : Img := ⟨im.N, im.M, convValid h (pad h im) k⟩

/-- After the checks: padding, kernel and convolution, smoothing.py:93-149. -/
def run (im : Img) (h order : ℕ) (pinv : (h order : ℕ) → Matrix (Fin (exps order).length) (Fin (2 * h + 1) × Fin (2 * h + 1)) ℚ)
    (d : Deriv) : Py Res :=
  if im.N = 0 ∨ im.M = 0 then .error .indexError
  else if h = 0 ∨ im.N ≤ h ∨ im.M ≤ h then .error .valueError
  else match d with
    | .none => do .ok (.one (filtered h im (← kernelRow h order pinv 0)))
    | .col => do let c ← kernelRow h order pinv 1; .ok (.one (filtered h im (fun p => - c p)))
    | .row => do let r ← kernelRow h order pinv 2; .ok (.one (filtered h im (fun p => - r p)))
    | .both => do
      let c ← kernelRow h order pinv 1
      let r ← kernelRow h order pinv 2
      .ok (.two (filtered h im (fun p => - r p)) (filtered h im (fun p => - c p)))
    | .other => .ok .nothing

/-- `sgolay2d`, smoothing.py:62-149.  A window of size 1, or an image with too few rows or columns for the borders, raises
ValueError from the assignments.  Simplification: an image with exactly two rows (or columns) and a window larger than 3 is
also reported as ValueError, where numpy would repeat the single border row. -/
def sgolay2d (im : Img) (window order : ℕ)
    (pinv : (h order : ℕ) → Matrix (Fin (exps order).length) (Fin (2 * h + 1) × Fin (2 * h + 1)) ℚ) (d : Deriv) : Py Res :=
  let nterms : ℚ := (order + 1) * (order + 2) / 2
  if window % 2 = 0 then .error .valueError
  else if (window : ℚ) ^ 2 < nterms then .error .valueError
  else run im (window / 2) order pinv d

end Verif.Smooth
