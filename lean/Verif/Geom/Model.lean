/- Detector geometry and reciprocal-space conversions (skbeam/core/utils.py), over the real numbers: rounding is not
modelled. -/
import Verif.Np
import Mathlib.Analysis.SpecialFunctions.Complex.Arg
import Mathlib.Analysis.SpecialFunctions.Trigonometric.Arctan
import Mathlib.Analysis.SpecialFunctions.Trigonometric.Inverse

namespace Verif.Geom

/-- `pixel_size[1] * (np.arange(shape[1]) - center[1])`, utils.py:593-595, 632-634: column coordinates. -/
noncomputable def xCoords (center : ℝ × ℝ) (shape : ℕ × ℕ) (ps : ℝ × ℝ) : List ℝ :=
  (List.range shape.2).map (fun (c : ℕ) => ps.2 * ((c : ℝ) - center.2))
/-- `pixel_size[0] * (np.arange(shape[0]) - center[0])`: row coordinates. -/
noncomputable def yCoords (center : ℝ × ℝ) (shape : ℕ × ℕ) (ps : ℝ × ℝ) : List ℝ :=
  (List.range shape.1).map (fun (r : ℕ) => ps.1 * ((r : ℝ) - center.1))

/-- utils.py:590-591, 628-629: the default pixel size. -/
noncomputable def pixelSize (ps : Option (ℝ × ℝ)) : ℝ × ℝ := ps.getD (1, 1)

/-- An elementwise function of the two arrays `np.meshgrid(xs, ys)` returns: row r, column c holds f xs[c] ys[r]. -/
noncomputable def mesh (xs ys : List ℝ) (f : ℝ → ℝ → ℝ) : List (List ℝ) := ys.map (fun y => xs.map (fun x => f x y))

/-- `radial_grid`, utils.py:566-596. -/
noncomputable def radialGrid (center : ℝ × ℝ) (shape : ℕ × ℕ) (ps : Option (ℝ × ℝ)) : List (List ℝ) :=
  mesh (xCoords center shape (pixelSize ps)) (yCoords center shape (pixelSize ps)) (fun x y => Real.sqrt (x * x + y * y))

/-- `np.arctan2(y, x)`: the argument of x + iy (signed zeros are not modelled). -/
noncomputable def arctan2 (y x : ℝ) : ℝ := Complex.arg ⟨x, y⟩

/-- `angle_grid`, utils.py:599-635. -/
noncomputable def angleGrid (center : ℝ × ℝ) (shape : ℕ × ℕ) (ps : Option (ℝ × ℝ)) : List (List ℝ) :=
  mesh (xCoords center shape (pixelSize ps)) (yCoords center shape (pixelSize ps)) (fun x y => arctan2 y x)

/-- `radius_to_twotheta`, utils.py:638-656 (one element). -/
noncomputable def radiusToTwotheta (dist radius : ℝ) : ℝ := Real.arctan (radius / dist)

/-- `q_to_d`, utils.py:984-1007 (one element). -/
noncomputable def qToD (q : ℝ) : ℝ := (2 * Real.pi) / q
/-- `d_to_q`, utils.py:1010-1033 (one element). -/
noncomputable def dToQ (d : ℝ) : ℝ := (2 * Real.pi) / d
/-- `q_to_twotheta`, utils.py:1036-1068 (one element).  Outside [-1, 1] np.arcsin gives NaN; the theorems stay inside. -/
noncomputable def qToTwotheta (q wavelength : ℝ) : ℝ :=
  let preFactor := wavelength / (4 * Real.pi)
  2 * Real.arcsin (q * preFactor)
/-- `twotheta_to_q`, utils.py:1071-1106 (one element). -/
noncomputable def twothetaToQ (twoTheta wavelength : ℝ) : ℝ :=
  let preFactor := (4 * Real.pi) / wavelength
  preFactor * Real.sin (twoTheta / 2)

end Verif.Geom
