/- Model of `estimate_d_blind` as a whole, skbeam/core/calibration.py:57-127, over the real numbers. -/
import Verif.Calib.Model
import Verif.Feature.Model
import Verif.Consts.Model

namespace Verif.Calib
open Verif

/-- `scipy.signal.argrelmax(y, order=w)[0]`, used at calibration.py:115, 210: positions greater than their neighbours up to
`w` away, positions outside the array being replaced by the first or last one (mode "clip"); `w < 1` raises ValueError. -/
def argrelmax {α : Type} [LinearOrder α] [Zero α] (y : List α) (w : ℕ) : Py (List ℕ) :=
  if w < 1 then .error .valueError
  else .ok ((List.range y.length).filter (fun i => (List.range w).all (fun s =>
    decide (y.getD (min (i + (s + 1)) (y.length - 1)) 0 < y.getD i 0) && decide (y.getD (i - (s + 1)) 0 < y.getD i 0))))

/-- `np.max`. -/
def npMax {α : Type} [LinearOrder α] : List α → Py α
  | [] => .error .valueError
  | a :: t => .ok (t.foldl max a)

/-- The peaks of a profile: local maxima whose window is high enough; calibration.py:115-117 and 210-212. -/
def peaks {α : Type} [LinearOrder α] [Zero α] [Sub α] [Mul α] (y : List α) (thresh : α) (w : ℕ) : Py (List ℕ) := do
  let cands ← argrelmax y w
  let m ← npMax y
  Feature.filterPeakHeight y (thresh * m) w cands

/-- `estimate_d_blind`, calibration.py:57-127.  `standards` is `calibration_standards`.  Without a peak, `peak_refinement`
returns an empty tuple, which cannot be unpacked.  Simplifications: `max_peak_count` is not negative; the logarithm of a
number that is not positive (NaN or -inf in NumPy) and the angle of a reflection that does not exist at the wavelength
(NaN in NumPy) are numbers here, the theorems exclude both. -/
noncomputable def estimateDBlind (lstsq : List ℝ → List ℝ → ℝ × ℝ × ℝ) (standards : String → Option (List Consts.Reflection)) (name : String)
    (wavelength : ℝ) (x ring : List ℝ) (w maxPeaks : ℕ) (thresh : ℝ) : Py (ℝ × ℝ) :=
  match standards name with
  | none => .error .keyError
  | some cal => do
    let cands ← peaks ring thresh w
    let pk ← Feature.peakRefinement (Feature.refineLogQuadratic lstsq none) x ring w cands
    match pk with
    | [] => .error .valueError
    | _ :: _ => .ok (estimateFromPeaks (pk.map Prod.fst) (Consts.convert2theta cal wavelength) maxPeaks)

end Verif.Calib
