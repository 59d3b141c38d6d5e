/- What the region-of-interest functions should do, independent of the model. -/
import Mathlib.Data.Real.Basic
import Mathlib.Analysis.Real.Sqrt

namespace Verif.Roi.Spec

/-- A rectangle (x, y, w, h): corner, extent along axis 0 (first coordinate) and along axis 1. -/
def inRect (q : ℤ × ℤ × ℤ × ℤ) (r c : ℕ) : Prop :=
  q.1 ≤ r ∧ (r : ℤ) < q.1 + q.2.2.1 ∧ q.2.1 ≤ c ∧ (c : ℤ) < q.2.1 + q.2.2.2

instance (q : ℤ × ℤ × ℤ × ℤ) (r c : ℕ) : Decidable (inRect q r c) := by unfold inRect; infer_instance

/-- The k-th interval of a flat list inner, outer, inner, outer, ... contains x. -/
def inPair {α : Type} [LinearOrder α] (edges : List α) (k : ℕ) (x : α) : Prop :=
  ∃ a b, edges[2 * k]? = some a ∧ edges[2 * k + 1]? = some b ∧ a ≤ x ∧ x < b

/-- Distance of pixel (r, c) from the centre. -/
noncomputable def radius (center : ℝ × ℝ) (r c : ℕ) : ℝ := Real.sqrt (((c : ℝ) - center.2) ^ 2 + ((r : ℝ) - center.1) ^ 2)

/-- Two labels of the requested shape: `lab` is k+1 exactly inside region k and 0 exactly outside all regions. -/
def Labels (inRegion : ℕ → Prop) (lab : ℕ) : Prop := (∀ k, lab = k + 1 ↔ inRegion k) ∧ (lab = 0 ↔ ∀ k, ¬ inRegion k)

end Verif.Roi.Spec
