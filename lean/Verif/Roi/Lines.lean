/- Labelled lines: roi.py lines. -/
import Verif.Np

namespace Verif.Roi
open Verif

/-- Pixels of a line from one point to another: `skimage.draw.line`, a library function, kept as a parameter. -/
abbrev LineFn := ℤ → ℤ → ℤ → ℤ → List (ℤ × ℤ)

/-- Position meant by a NumPy index: negative ones count from the end. -/
def npIndex (n : ℕ) (i : ℤ) : ℤ := if i < 0 then i + n else i

/-- Index valid for an axis of length n. -/
def npValid (n : ℕ) (i : ℤ) : Bool := decide (-(n : ℤ) ≤ i) && decide (i < n)

/-- `label_array[rr, cc] = label`; roi.py 709 (an index outside the image raises IndexError and nothing is written). -/
def assign (shape : ℕ × ℕ) (L : ℕ → ℕ → ℕ) (px : List (ℤ × ℤ)) (label : ℕ) : Py (ℕ → ℕ → ℕ) :=
  if px.all (fun p => npValid shape.1 p.1 && npValid shape.2 p.2) then
    .ok (fun r c => if px.any (fun p => npIndex shape.1 p.1 = r && npIndex shape.2 p.2 = c) then label else L r c)
  else .error .indexError

/-- The loop of `lines`; roi.py 694-709, `label` lines done so far. -/
def linesLoop (line : LineFn) (shape : ℕ × ℕ) : ℕ → List (List ℤ) → (ℕ → ℕ → ℕ) → Py (ℕ → ℕ → ℕ)
  | _, [], L => .ok L
  | label, [x0, y0, x1, y1] :: t, L => do
    let L' ← assign shape L (line (max x0 0) (max y0 0) (min x1 (shape.1 - 1)) (min y1 (shape.2 - 1))) (label + 1)
    linesLoop line shape (label + 1) t L'
  | _, _ :: _, _ => .error .valueError

/-- `lines`; roi.py 674-710 (a shape whose product is 0 is not excluded: every index is then invalid). -/
def lines (line : LineFn) (endPoints : List (List ℤ)) (shape : ℕ × ℕ) : Py (ℕ → ℕ → ℕ) :=
  linesLoop line shape 0 endPoints (fun _ _ => 0)

end Verif.Roi
