/- Model of skbeam/core/fitting/background.py (`snip_method`), over the reals. -/
import Verif.Np
import Mathlib.Analysis.SpecialFunctions.Log.Basic
import Mathlib.Analysis.SpecialFunctions.Pow.Real
import Mathlib.Algebra.Order.Floor.Ring

namespace Verif.Snip
open Finset Verif

/-- `scipy.signal.convolve(background, boxcar(k), mode="same") / k`; background.py 154-161: entry i of the centred part of
the full convolution, samples outside the spectrum are zero.  Rounding and scipy's choice of an FFT method left out. -/
noncomputable def smooth (k n : ℕ) (b : ℕ → ℝ) (i : ℕ) : ℝ :=
  (∑ j ∈ range k, let t : ℤ := i + ((k - 1) / 2 : ℕ) - j; if 0 ≤ t ∧ t < n then b t.toNat else 0) / k

/-- `np.log(np.log(background + 1) + 1)`; background.py 167.  (`Real.log` is total: the NaN of numpy for smoothed values
below `1/e - 1` is not modelled, theorems assume non-negative spectra.) -/
noncomputable def lls (x : ℝ) : ℝ := Real.log (Real.log (x + 1) + 1)

/-- `np.exp(np.exp(background) - 1) - 1`; background.py 197. -/
noncomputable def invLls (x : ℝ) : ℝ := Real.exp (Real.exp x - 1) - 1

/-- Arguments of `snip_method` besides the spectrum; `binning` is spectral_binning, `sq` the factor 2 sqrt(2 log 2). -/
structure Args where
  eOff : ℝ
  eLin : ℝ
  eQuad : ℝ
  xmin : ℝ := 0
  xmax : ℝ := 4096
  epsilon : ℝ
  width : ℝ
  decreaseFactor : ℝ
  binning : Option ℝ := none
  conVal : Option ℕ := none
  iterNum : Option ℕ := none
  widthThreshold : ℝ

/-- Boxcar size; background.py 125-129 with `_defaults`, line 49. -/
def conValOf (a : Args) : ℕ := a.conVal.getD (if a.binning.isSome then 5 else 3)

/-- Number of first passes; background.py 131-135 with `_defaults`. -/
def iterNumOf (a : Args) : ℕ := a.iterNum.getD (if a.binning.isSome then 5 else 3)

/-- `window_p`; background.py 140-151, 163-165. -/
noncomputable def windowP (a : Args) (i : ℕ) : ℝ :=
  let e0 : ℝ := if a.binning.isSome then i * a.binning.getD 1 else i
  let energy := a.eOff + e0 * a.eLin + e0 ^ 2 * a.eQuad
  let std : ℝ := 2 * √(2 * Real.log 2)
  let fwhm := std * √(max ((a.eOff / std) ^ 2 + energy * a.epsilon * a.eLin) 0)
  let w := a.width * fwhm / a.eLin
  if a.binning.isSome ∧ 0 < a.binning.getD 0 then w / 2 else w

/-- `np.clip(x, np.max([xmin, 0]), np.min([xmax, n - 1])).astype(int64)`; background.py 173-176: np.clip is
minimum(maximum(x, lo), hi), astype truncates towards zero.  With `xmax <= -1` every value is clipped to `xmax`, and a
negative index counts from the end (too large a one raises IndexError, see `snip`). -/
noncomputable def clipIdx (a : Args) (n : ℕ) (x : ℝ) : ℕ :=
  open Classical in
  if a.xmax ≤ -1 then n - ⌊-a.xmax⌋₊ else ⌊min (max x (max a.xmin 0)) (min a.xmax (n - 1))⌋₊

/-- One snipping pass with the window widths w; background.py 173-179 and 185-191. -/
noncomputable def pass (a : Args) (n : ℕ) (w b : ℕ → ℝ) (i : ℕ) : ℝ :=
  let temp := (b (clipIdx a n (i - w i)) + b (clipIdx a n (i + w i))) / 2
  open Classical in if temp < b i then temp else b i

/-- The first iter_num passes; background.py 172-179. -/
noncomputable def first (a : Args) (n : ℕ) : ℕ → (ℕ → ℝ) → (ℕ → ℝ)
  | 0, b => b
  | k + 1, b => first a n k (pass a n (windowP a) b)

/-- Window widths in pass m of the while loop; background.py 181, 194. -/
noncomputable def widthAt (a : Args) : ℕ → ℕ → ℝ
  | 0 => windowP a
  | m + 1 => fun i => widthAt a m i / a.decreaseFactor

/-- State after m passes of the while loop; background.py 184-195. -/
noncomputable def loop (a : Args) (n : ℕ) (b : ℕ → ℝ) : ℕ → ℕ → ℝ
  | 0 => b
  | m + 1 => pass a n (widthAt a m) (loop a n b m)

/-- The loop test fails before pass m: `max_current_width < width_threshold`; background.py 182-184, 195. -/
def Stops (a : Args) (n m : ℕ) : Prop := ∀ i < n, widthAt a m i < a.widthThreshold

open Classical in
/-- `snip_method`; background.py 124-202: `.ok none` when the while loop never ends, ValueError (`np.convolve`) for an
empty spectrum or an empty boxcar.  With `e_lin = 0` every fwhm is `|e_off|` and the windows are `width * |e_off| / 0`: if
that is +inf, it stays so and the loop never ends (for `decrease_factor > 0`); the windows -inf and NaN, and infinite windows
with `decrease_factor <= 0`, are not modelled (the theorems that speak of a result assume `e_lin` not 0).  An index below -n
raises IndexError in the first pass that is made.  The replacement of non-finite results by 0 (199-200) is left out:
reals are finite. -/
noncomputable def snip (a : Args) (spectrum : List ℝ) : Py (Option (ℕ → ℝ)) :=
  if spectrum.length = 0 ∨ conValOf a = 0 then .error .valueError
  else
    let n := spectrum.length
    if (a.xmax ≤ -1 ∧ n < ⌊-a.xmax⌋₊) ∧ (0 < iterNumOf a ∨ ¬ Stops a n 0 ∨ (a.eLin = 0 ∧ 0 < a.width * |a.eOff|)) then .error .indexError
    else if a.eLin = 0 ∧ 0 < a.width * |a.eOff| then .ok none
    else
      let b := fun i => lls (smooth (conValOf a) n (fun m => spectrum.getD m 0) i)
      let b1 := first a n (iterNumOf a) b
      .ok (if h : ∃ m, Stops a n m then some (fun i => invLls (loop a n b1 (Nat.find h) i)) else none)

end Verif.Snip
