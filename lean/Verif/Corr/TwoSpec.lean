/- Specification of the two-time correlation, in terms of pixel values over time only. -/
import Verif.Corr.Spec

namespace Verif.Corr.Spec
open Finset

variable (v : ℕ → ℕ → Option ℚ) (P : ℕ) (lab : ℕ → ℕ)

/-- A pixel of ROI r is NaN somewhere in the k-th group of 2^l frames. -/
abbrev RoiBad (r l k : ℕ) : Prop :=
  ∃ p ∈ range P, lab p = r + 1 ∧ ∃ j ∈ range (2 ^ l), v (k * 2 ^ l + j) p = none

/-- `<I1 I2> / (<I1> <I2>)` for the k1-th and k2-th group of 2^l frames, averages over the pixels of ROI r; `none` when
undefined (a NaN pixel of the ROI, or zero mean intensity). -/
def twoTime (l k1 k2 r : ℕ) : Option ℚ :=
  if RoiBad v P lab r l k1 ∨ RoiBad v P lab r l k2 then none
  else if roiMean P lab r (blockAvg v l k1) * roiMean P lab r (blockAvg v l k2) = 0 then none
  else some (roiMean P lab r (fun p => blockAvg v l k1 p * blockAvg v l k2 p) /
    (roiMean P lab r (blockAvg v l k1) * roiMean P lab r (blockAvg v l k2)))

end Verif.Corr.Spec
