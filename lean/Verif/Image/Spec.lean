/- What the functions of skbeam/core/image.py are supposed to compute, independently of how. -/
import Mathlib.Algebra.BigOperators.Fin
import Mathlib.Data.Rat.Defs
import Mathlib.Data.Real.Basic
import Mathlib.Analysis.SpecialFunctions.Complex.Arg
import Mathlib.Algebra.Order.BigOperators.Group.Finset
import Mathlib.Algebra.Order.Field.Basic

namespace Verif.Image.Spec
open Finset

/-- Positions p of a row of N pixels whose mirror image j - p (about position j/2) also lies in the row. -/
def overlap (N j : ℕ) : Finset ℕ := (range N).filter (fun p => p ≤ j ∧ j - p < N)

/-- Mean over the overlap of the product of a pixel and its mirror pixel: how well the row mirrors about j/2. -/
def mirrorScore (v : ℕ → ℚ) (N j : ℕ) : ℚ := (∑ p ∈ overlap N j, v p * v (j - p)) / (overlap N j).card

/-- The row mirrors exactly about position j/2, as far as both pixels lie in the row. -/
def Symmetric (v : ℕ → ℚ) (N j : ℕ) : Prop := ∀ p q, p < N → q < N → p + q = j → v p = v q

/-- The row mirrors better about position j/2 than about any other of the 2N-1 whole and half pixel positions. -/
def BestMirror (v : ℕ → ℚ) (N j : ℕ) : Prop :=
  j < 2 * N - 1 ∧ ∀ k, k < 2 * N - 1 → k ≠ j → mirrorScore v N k < mirrorScore v N j

/-- The piecewise linear profile through (x i, y i), i < n: y 0 below the first x, zero above the last. -/
def IsProfile (n : ℕ) (x y : ℕ → ℝ) (ρ value : ℝ) : Prop :=
  (ρ < x 0 → value = y 0) ∧ (x (n - 1) < ρ → value = 0) ∧
  (∀ i, i < n → ρ = x i → value = y i) ∧
  (∀ i, i + 1 < n → x i ≤ ρ → ρ ≤ x (i + 1) →
    value * (x (i + 1) - x i) = y i * (x (i + 1) - ρ) + y (i + 1) * (ρ - x i))

/-- Distance of pixel (row, col) from the centre, for pixels of height ps.1 and width ps.2. -/
noncomputable def distance (center ps : ℝ × ℝ) (row col : ℕ) : ℝ :=
  Real.sqrt ((ps.2 * (col - center.2)) ^ 2 + (ps.1 * (row - center.1)) ^ 2)

/-- Direction of pixel (row, col) from the centre: 0 towards larger columns, growing towards larger rows. -/
noncomputable def direction (center ps : ℝ × ℝ) (row col : ℕ) : ℝ :=
  Complex.arg ⟨ps.2 * (col - center.2), ps.1 * (row - center.1)⟩

/-- The sampled angles continued periodically by one turn: α n = α 0 + 2π. -/
noncomputable def wrapAngle (n : ℕ) (a : ℕ → ℝ) (j : ℕ) : ℝ := if j < n then a j else a 0 + 2 * Real.pi
/-- The column of a sampled angle, continued periodically. -/
def wrapCol (n j : ℕ) : ℕ := if j < n then j else 0

/-- Bilinear interpolation between two numbers per direction: v is the value at fraction s between rows lo and hi and
fraction t between columns left and right. -/
def IsBilinear (ll lr hl hr : ℝ) (s t v : ℝ) : Prop :=
  v = (1 - s) * ((1 - t) * ll + t * lr) + s * ((1 - t) * hl + t * hr)

end Verif.Image.Spec
