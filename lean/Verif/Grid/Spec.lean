/- Specification side of C41-C45: what it means for a point to lie in a voxel. -/
import Verif.Grid.Model

namespace Verif.Grid.Spec
open Verif.Grid

/-- x lies in the i-th of the n equal half-open bins of [lo, hi). -/
def inBin (a : Axis) (i : ℕ) (x : ℚ) : Prop :=
  a.lo + i * ((a.hi - a.lo) / a.n) ≤ x ∧ x < a.lo + (i + 1) * ((a.hi - a.lo) / a.n)

instance (a : Axis) (i : ℕ) (x : ℚ) : Decidable (inBin a i x) := by unfold inBin; infer_instance

/-- The point lies in voxel (i, j, k). -/
def inVoxel (g : Grid) (i j k : ℕ) (p : Pt) : Prop := inBin g.x i p.x ∧ inBin g.y j p.y ∧ inBin g.z k p.z

instance (g : Grid) (i j k : ℕ) (p : Pt) : Decidable (inVoxel g i j k p) := by unfold inVoxel; infer_instance

/-- The intensities (NaN dropped) of the points lying in voxel (i, j, k). -/
def values (g : Grid) (i j k : ℕ) (data : List Pt) : List ℚ :=
  data.filterMap (fun p => if inVoxel g i j k p then p.v else none)

/-- A proper grid: non-empty ranges and at least one bin per axis. -/
def Proper (g : Grid) : Prop := (g.x.lo < g.x.hi ∧ 0 < g.x.n) ∧ (g.y.lo < g.y.hi ∧ 0 < g.y.n) ∧ (g.z.lo < g.z.hi ∧ 0 < g.z.n)

/-- A schedule of the data over T threads: every point is handled exactly once, by some thread, in any order. -/
def Schedules (T : ℕ) (data : List Pt) (ev : List (ℕ × Pt)) : Prop :=
  (ev.map Prod.snd).Perm data ∧ ∀ e ∈ ev, e.1 < T

end Verif.Grid.Spec
