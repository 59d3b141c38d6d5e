/- Model of skbeam/core/speckle.py: xsvs (61-228) and _process (231-288).

A frame is given after extraction of the ROI pixels (speckle.py 122, 177): `P` pixels, NaN is `none`.  The arrays of
objects that NumPy initialises with the integer 0 are modelled with the zero frame resp. zero distribution, which is what
broadcasting the integer gives.  Probabilities are indexed by level, label and bin; exact arithmetic. -/
import Verif.Utils.Model
import Mathlib.Data.Rat.Defs
import Mathlib.Data.Fintype.Basic
import Mathlib.Analysis.SpecialFunctions.Pow.Real

namespace Verif.Speckle

/-- The ROI pixels of one image, `(np.ravel(img))[indices]`; speckle.py 177. -/
abbrev Fr (P : ℕ) := Fin P → Option ℚ

/-- NumPy addition with NaN. -/
def nanAdd : Option ℚ → Option ℚ → Option ℚ
  | some a, some b => some (a + b)
  | _, _ => none

/-- Sum of two frames; speckle.py 204. -/
def Fr.add {P : ℕ} (a b : Fr P) : Fr P := fun p => nanAdd (a p) (b p)

/-- `np.isnan(frame).any()`; speckle.py 273. -/
def Fr.bad {P : ℕ} (a : Fr P) : Bool := (List.finRange P).any (fun p => (a p).isNone)

/-- `buf[level, buf_no][labels == label]`; speckle.py 278. -/
def roiData {P : ℕ} (labels : Fin P → ℕ) (label : ℕ) (f : Fr P) : List ℚ :=
  ((List.finRange P).filter (fun p => labels p = label)).filterMap f

/-- Bin `b` of `np.arange(E)` used as histogram edges contains `x`: [b, b+1), the last one closed. -/
def inBin (E b : ℕ) (x : ℚ) : Bool := b + 1 < E && (b : ℚ) ≤ x && (x < b + 1 || (b + 2 = E && x = b + 1))

/-- `np.nan_to_num(np.histogram(roi_data, bins=np.arange(E), density=True)[0])[b]`: counts divided by the number of values
within the edges (all bins have width 1), 0 if there is none; speckle.py 146, 283-284. -/
def speHist (E : ℕ) (xs : List ℚ) (b : ℕ) : ℚ :=
  (xs.countP (inBin E b) : ℚ) / (xs.countP (fun x => (List.range E).any (fun b => inBin E b x)) : ℚ)

/-- The working arrays for one image set; speckle.py 153-171. -/
structure XState (P : ℕ) where
  buf : ℕ → ℕ → Fr P
  cur : ℕ → ℤ
  trackLevel : ℕ → Bool
  trackBad : ℕ → ℕ
  imgPer : ℕ → ℕ
  prob : ℕ → ℕ → ℕ → ℚ
  probPow : ℕ → ℕ → ℕ → ℚ

/-- speckle.py 153-171. -/
def XState.init (P tb : ℕ) : XState P :=
  ⟨fun _ _ _ => some 0, fun _ => tb, fun _ => false, fun _ => 0, fun _ => 0, fun _ _ _ => 0, fun _ _ _ => 0⟩

/-- Python index into an axis of length tb (index -1 is the last). -/
def pyIdx (tb : ℕ) (i : ℤ) : ℕ := (if i < 0 then i + tb else i).toNat

/-- `_process`; speckle.py 231-288.  `maxCts * 2^level` edges (146). -/
def process {P : ℕ} (labels : Fin P → ℕ) (maxCts level bufNo : ℕ) (st : XState P) : XState P :=
  let st := { st with imgPer := Function.update st.imgPer level (st.imgPer level + 1) }
  if (st.buf level bufNo).bad then { st with trackBad := Function.update st.trackBad level (st.trackBad level + 1) }
  else
    let c : ℚ := (st.imgPer level : ℚ) - st.trackBad level
    let h := fun (label b : ℕ) => speHist (maxCts * 2 ^ level) (roiData labels label (st.buf level bufNo)) b
    { st with
      prob := Function.update st.prob level (fun label b => st.prob level label b + (h label b - st.prob level label b) / c)
      probPow := Function.update st.probPow level (fun label b => st.probPow level label b + (h label b ^ 2 - st.probPow level label b) / c) }

/-- The while loop over the levels; speckle.py 197-220.  `fuel` bounds the iterations (`xsvsFrame` gives enough). -/
def levelLoop {P : ℕ} (labels : Fin P → ℕ) (maxCts tb numTimes : ℕ) : ℕ → ℕ → XState P → XState P
  | 0, _, st => st
  | fuel + 1, level, st =>
    if level < numTimes then
      if st.trackLevel level = false then
        levelLoop labels maxCts tb numTimes fuel level { st with trackLevel := Function.update st.trackLevel level true }
      else
        let prev := 1 + (st.cur (level - 1) - 2) % tb
        let st := { st with cur := Function.update st.cur level (1 + st.cur level % tb) }
        let cl := pyIdx tb (st.cur level - 1)
        let s := (st.buf (level - 1) (pyIdx tb (prev - 1))).add (st.buf (level - 1) (pyIdx tb (st.cur (level - 1) - 1)))
        let st := { st with buf := Function.update st.buf level (Function.update (st.buf level) cl s)
                            trackLevel := Function.update st.trackLevel level false }
        levelLoop labels maxCts tb numTimes fuel (level + 1) (process labels maxCts level cl st)
    else st

/-- One frame; speckle.py 173-220. -/
def xsvsFrame {P : ℕ} (labels : Fin P → ℕ) (maxCts tb numTimes : ℕ) (st : XState P) (f : Fr P) : XState P :=
  let st := { st with cur := Function.update st.cur 0 ((1 + st.cur 0) % tb) }
  let c0 := pyIdx tb (st.cur 0 - 1)
  let st := { st with buf := Function.update st.buf 0 (Function.update (st.buf 0) c0 f) }
  levelLoop labels maxCts tb numTimes (2 * numTimes) 1 (process labels maxCts 0 c0 st)

/-- The averages over the image sets; `prob_k_all` and `prob_k_pow_all`. -/
abbrev Acc := (ℕ → ℕ → ℕ → ℚ) × (ℕ → ℕ → ℕ → ℚ)

/-- speckle.py 222-223, inside the loop over the frames. -/
def accStep {P : ℕ} (i : ℕ) (a : Acc) (st : XState P) : Acc :=
  (fun l r b => a.1 l r b + (st.prob l r b - a.1 l r b) / (i + 1),
   fun l r b => a.2 l r b + (st.probPow l r b - a.2 l r b) / (i + 1))

/-- One image set; speckle.py 150-223. -/
def xsvsSet {P : ℕ} (labels : Fin P → ℕ) (maxCts tb numTimes i : ℕ) (a : Acc) (frames : List (Fr P)) : Acc :=
  (frames.foldl (fun (s : XState P × Acc) f =>
    (xsvsFrame labels maxCts tb numTimes s.1 f, accStep i s.2 (xsvsFrame labels maxCts tb numTimes s.1 f))) (XState.init P tb, a)).2

/-- All image sets; speckle.py 135-223 (`numTimes` is the length of the geometric series of integration times). -/
def xsvsAll {P : ℕ} (labels : Fin P → ℕ) (maxCts tb numTimes : ℕ) (sets : List (List (Fr P))) : Acc :=
  (sets.foldl (fun (s : ℕ × Acc) fs => (s.1 + 1, xsvsSet labels maxCts tb numTimes s.1 s.2 fs)) (0, (fun _ _ _ => 0, fun _ _ _ => 0))).2

/-- `prob_k_std_dev`; speckle.py 225.  NaN (`none`) for a negative argument. -/
noncomputable def stdDev (a : Acc) (l r b : ℕ) : Option ℝ :=
  if a.2 l r b - a.1 l r b ^ 2 < 0 then none else some (Real.sqrt ((a.2 l r b - a.1 l r b ^ 2 : ℚ) : ℝ))

end Verif.Speckle
