/-
Round-to-nearest-even to a 53-bit significand (IEEE-754 binary64 arithmetic without exponent limits), as an
executable function on ℚ.  Used only for concrete witnesses of rounding-related defects.
-/
import Mathlib.Data.Rat.Floor
import Mathlib.Tactic.NormNum

namespace Verif.Fl

/-- `2^e` for an integer exponent. -/
def pow2 (e : ℤ) : ℚ := if 0 ≤ e then (2 : ℚ) ^ e.toNat else 1 / (2 : ℚ) ^ (-e).toNat

/-- Round a non-negative rational to the nearest integer, ties to even. -/
def roundHalfEven (q : ℚ) : ℤ :=
  let f := ⌊q⌋
  let r := q - f
  if r < 1 / 2 then f else if 1 / 2 < r then f + 1 else if f % 2 = 0 then f else f + 1

/-- Round a positive rational to 53 significant bits. -/
def roundPos (q : ℚ) : ℚ :=
  let e0 : ℤ := (Nat.log2 q.num.natAbs : ℤ) - (Nat.log2 q.den : ℤ) - 52
  -- |q| / 2^e0 lies in (2^51, 2^53) ; shift by one if it is below 2^52
  let e : ℤ := if q / pow2 e0 < (2 : ℚ) ^ 52 then e0 - 1 else e0
  (roundHalfEven (q / pow2 e) : ℚ) * pow2 e

/-- Correctly rounded binary64 result of an exact real operation (no overflow/underflow). -/
def round53 (q : ℚ) : ℚ := if q = 0 then 0 else if 0 < q then roundPos q else - roundPos (-q)

-- tests of the definition on known doubles
example : round53 (1 / 3) = 6004799503160661 / 2 ^ 54 := by decide +kernel
example : round53 (1 / 10) = 3602879701896397 / 2 ^ 55 := by decide +kernel
example : round53 3 = 3 := by decide +kernel
example : round53 (-1 / 3) = -6004799503160661 / 2 ^ 54 := by decide +kernel

end Verif.Fl
