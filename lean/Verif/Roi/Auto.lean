/- Model of `auto_find_center_rings` of skbeam/core/roi.py and its properties (C175). -/
import Verif.Np

namespace Verif.Roi.Auto
open Verif

/-- What `ransac(points, CircleModel, ...)` returns: centre and radius of the circle, and for each point whether it is an
inlier. -/
structure Fit where
  cx : ℚ
  cy : ℚ
  r : ℚ
  inliers : List Bool
  deriving DecidableEq

/-- `edge_pts_xy[~inliers]`; roi.py 770. -/
def outliers {α : Type} (pts : List α) (inl : List Bool) : List α :=
  (pts.zip inl).filterMap (fun q => if q.2 then none else some q.1)

/-- `image[rr, cc] = v`. -/
def draw (image : ℕ × ℕ → ℚ) (pix : List (ℕ × ℕ)) (v : ℚ) : ℕ × ℕ → ℚ := fun p => if p ∈ pix then v else image p

/-- The loop of roi.py 758-770 from ring `i` on, with `todo` rings to go.  `ransac i` is the `i`-th call of scikit-image's
ransac (random, so it may differ between calls; it may raise), `perimeter row col radius` is `draw.circle_perimeter` clipped
to the image.  `center` is `none` until the first ring. -/
def loop {α : Type} (ransac : ℕ → List α → Py Fit) (perimeter : ℤ → ℤ → ℤ → List (ℕ × ℕ)) :
    ℕ → ℕ → List α → (ℕ × ℕ → ℚ) → List ℚ → Option (ℤ × ℤ) → Py (Option (ℤ × ℤ) × (ℕ × ℕ → ℚ) × List ℚ)
  | 0, _, _, image, radii, center => .ok (center, image, radii)
  | todo + 1, i, pts, image, radii, center =>
    match ransac i pts with
    | .error e => .error e
    | .ok f =>
      let c := if i = 0 then (pyInt f.cx, pyInt f.cy) else center.getD (0, 0)
      loop ransac perimeter todo (i + 1) (outliers pts f.inliers)
        (draw image (perimeter c.2 c.1 (pyInt f.r)) ((i : ℚ) + 1)) (radii ++ [f.r]) (some c)

/-- `auto_find_center_rings`; roi.py 713-772.  `image` is the grey-value copy of the input and `edgePts` the edge points Canny
finds in it; both come from scikit-image.  Without rings `center` is never assigned. -/
def autoFindCenterRings {α : Type} (ransac : ℕ → List α → Py Fit) (perimeter : ℤ → ℤ → ℤ → List (ℕ × ℕ))
    (edgePts : List α) (image : ℕ × ℕ → ℚ) (noRings : ℕ) : Py ((ℤ × ℤ) × (ℕ × ℕ → ℚ) × List ℚ) :=
  match loop ransac perimeter noRings 0 edgePts image [] none with
  | .error e => .error e
  | .ok (none, _, _) => .error .unboundLocal
  | .ok (some c, img, radii) => .ok (c, img, radii)

end Verif.Roi.Auto
