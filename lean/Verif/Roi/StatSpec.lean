/- Reference statistics over regions of interest. -/
import Mathlib.Data.Rat.Defs
import Mathlib.Algebra.Order.Field.Rat

namespace Verif.Roi.Spec

/-- The values of the pixels whose label is n, in raveled pixel order. -/
def roiValues (labels : List ℤ) (img : List ℚ) (n : ℤ) : List ℚ :=
  (List.range labels.length).filterMap (fun p => if labels[p]? = some n then img[p]? else none)

/-- Radius x lies in bin k of the n bins of width w starting at lo; the last bin includes its right edge. -/
def inBin (lo w : ℚ) (n k : ℕ) (x : ℚ) : Prop :=
  lo + k * w ≤ x ∧ (x < lo + (k + 1 : ℕ) * w ∨ (k + 1 = n ∧ x = lo + (k + 1 : ℕ) * w))

instance (lo w : ℚ) (n k : ℕ) (x : ℚ) : Decidable (inBin lo w n k x) := by unfold inBin; infer_instance

/-- The intensities of the pixels (radius, intensity) in bin k. -/
def binValues (px : List (ℚ × ℚ)) (lo w : ℚ) (n k : ℕ) : List ℚ := (px.filter (fun p => decide (inBin lo w n k p.1))).map Prod.snd

end Verif.Roi.Spec
