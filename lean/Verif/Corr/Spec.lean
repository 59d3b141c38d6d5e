/- Specification of multi-tau correlation, in terms of pixel values over time only. -/
import Mathlib.Algebra.BigOperators.Group.Finset.Basic
import Mathlib.Algebra.Order.Ring.Rat
import Mathlib.Data.Finset.Card

namespace Verif.Corr.Spec
open Finset

variable (v : ℕ → ℕ → Option ℚ) (P : ℕ) (lab : ℕ → ℕ)

/-- The k-th group of 2^l consecutive frames contains a NaN in one of the P selected pixels (`v t p` is the value of
pixel p in frame t, `none` for NaN). -/
abbrev BlockBad (l k : ℕ) : Prop := ∃ j ∈ range (2 ^ l), ∃ p ∈ range P, v (k * 2 ^ l + j) p = none

/-- The mean of pixel p over the k-th group of 2^l consecutive frames (meaningful when the group is not bad). -/
def blockAvg (l k p : ℕ) : ℚ := (∑ j ∈ range (2 ^ l), (v (k * 2 ^ l + j) p).getD 0) / 2 ^ l

/-- The mean of `w` over the pixels of ROI r (labelled r+1). -/
def roiMean (r : ℕ) (w : ℕ → ℚ) : ℚ :=
  (∑ p ∈ (range P).filter (fun p => lab p = r + 1), w p) / ((range P).filter (fun p => lab p = r + 1)).card

/-- The pairs of good level-l frames (k, k+i) among the first N level-l frames, by their first member. -/
def pairs (l i N : ℕ) : Finset ℕ := (range (N - i)).filter (fun k => ¬ BlockBad v P l k ∧ ¬ BlockBad v P l (k + i))

/-- The mean of q over those pairs; 0 when there is none (the row is then still untouched). -/
def pairMean (l i N : ℕ) (q : ℕ → ℚ) : ℚ :=
  if (pairs v P l i N).card = 0 then 0 else (∑ k ∈ pairs v P l i N, q k) / (pairs v P l i N).card

/-- `<I(t) I(t+lag)>`: pixel products averaged over the ROI and over all good pairs. -/
def G (l i N r : ℕ) : ℚ :=
  pairMean v P l i N (fun k => roiMean P lab r (fun p => blockAvg v l k p * blockAvg v l (k + i) p))

/-- `<I(t)>` over the same pairs. -/
def past (l i N r : ℕ) : ℚ := pairMean v P l i N (fun k => roiMean P lab r (blockAvg v l k))

/-- `<I(t+lag)>` over the same pairs. -/
def future (l i N r : ℕ) : ℚ := pairMean v P l i N (fun k => roiMean P lab r (blockAvg v l (k + i)))

end Verif.Corr.Spec
