/- Specification of the cross-correlation at one displacement. -/
import Mathlib.Algebra.BigOperators.Group.Finset.Basic
import Mathlib.Algebra.Order.Ring.Rat
import Mathlib.Data.Finset.Prod

namespace Verif.Cross.Spec
open Finset

/-- The ordered pairs (p, p') of pixels of the region S with displacement p - p' = (s, t). -/
def pairs (S : Finset (ℕ × ℕ)) (s t : ℤ) : Finset ((ℕ × ℕ) × (ℕ × ℕ)) :=
  (S ×ˢ S).filter (fun pp => (pp.1.1 : ℤ) - pp.2.1 = s ∧ (pp.1.2 : ℤ) - pp.2.2 = t)

/-- The sum of a(p) b(p') over those pairs. -/
def pairSum (S : Finset (ℕ × ℕ)) (a b : ℕ → ℕ → ℚ) (s t : ℤ) : ℚ :=
  ∑ pp ∈ pairs S s t, a pp.1.1 pp.1.2 * b pp.2.1 pp.2.2

end Verif.Cross.Spec
