/- Specification of the speckle-visibility distributions. -/
import Mathlib.Data.Rat.Defs
import Mathlib.Algebra.BigOperators.Group.List.Basic
import Mathlib.Data.List.Range

namespace Verif.Speckle.Spec

/-- Mean of a list, 0 if it is empty. -/
def mean (xs : List ℚ) : ℚ := xs.sum / (xs.length : ℚ)

/-- The sum of frames `s, …, s + n - 1` at every pixel. -/
def groupSum {P : ℕ} (g : ℕ → Fin P → ℚ) (s n : ℕ) (p : Fin P) : ℚ := ((List.range n).map (fun i => g (s + i) p)).sum

/-- Fraction of the values equal to `K`. -/
def fraction (xs : List ℚ) (K : ℕ) : ℚ := (xs.countP (fun x => x = (K : ℚ)) : ℚ) / (xs.length : ℚ)

/-- The values of the pixels with a given label. -/
def pixels {P : ℕ} (labels : Fin P → ℕ) (label : ℕ) (f : Fin P → ℚ) : List ℚ :=
  ((List.finRange P).filter (fun p => labels p = label)).map f

end Verif.Speckle.Spec
