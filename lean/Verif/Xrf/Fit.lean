/- Model of skbeam/core/fitting/xrf_model.py: ranges, non-negative least squares, per-pixel fits, areas. -/
import Verif.Line.Model
import Verif.Xrf.Model
import Mathlib.Data.Rat.Floor
import Mathlib.Algebra.Order.Round
import Mathlib.Algebra.BigOperators.Fin

namespace Verif.Xrf
open Verif Finset

/-! ### trim, define_range -/

/-- `trim`; xrf_model.py 1140-1163: boolean indexing of arrays of different length raises IndexError. -/
def trim {α : Type} (x : List ℚ) (y : List α) (low high : ℚ) : Py (List ℚ × List α) :=
  if x.length ≠ y.length then .error .indexError
  else
    let kept := (x.zip y).filter (fun p => decide (low ≤ p.1 ∧ p.1 ≤ high))
    .ok (kept.map Prod.fst, kept.map Prod.snd)

/-- `np.around` to integer: round half to even. -/
def roundEven (q : ℚ) : ℤ :=
  if q - ⌊q⌋ < 1 / 2 then ⌊q⌋ else if 1 / 2 < q - ⌊q⌋ then ⌊q⌋ + 1 else if ⌊q⌋ % 2 = 0 then ⌊q⌋ else ⌊q⌋ + 1

/-- `define_range`; xrf_model.py 1166-1195 (exact arithmetic; division by zero raises for Python floats). -/
def defineRange {α : Type} (data : List α) (low high a0 a1 : ℚ) : Py (List ℚ × List α) :=
  if a1 = 0 then .error .zeroDivision
  else trim ((List.range data.length).map (fun (k : ℕ) => (k : ℚ))) data (roundEven ((low - a0) / a1)) (roundEven ((high - a0) / a1))

/-! ### least squares -/

/-- scipy's `nnls` on an m x k matrix: coefficients and residual norm. -/
abbrev Nnls := (m k : ℕ) → (ℕ → ℕ → ℝ) → (ℕ → ℝ) → (ℕ → ℝ) × ℝ

/-- `nnls_fit`; xrf_model.py 1309-1335. -/
noncomputable def nnlsFit (nnls : Nnls) (m k : ℕ) (spectrum : ℕ → ℝ) (A : ℕ → ℕ → ℝ) (weights : Option (ℕ → ℝ)) : (ℕ → ℝ) × ℝ :=
  match weights with
  | none => nnls m k A spectrum
  | some w => nnls m k (fun i j => A i j * √(w i)) (fun i => spectrum i * √(w i))

/-- One pixel's result: coefficients, background sum, r_squared (`none` for division by zero: numpy gives nan or -inf). -/
structure PixelFit where
  coef : ℕ → ℝ
  bgSum : ℝ
  r2 : Option ℝ

open Classical in
/-- `fit_per_line_nnls`; xrf_model.py 1488-1528: the spectra of a row have m channels.  Without snip the name `bg` is
unbound in line 1522. -/
noncomputable def fitRow (nnls : Nnls) (snip : (ℕ → ℝ) → ℕ → ℝ) (m k : ℕ) (A : ℕ → ℕ → ℝ) (useSnip : Bool) : List (ℕ → ℝ) → Py (List PixelFit)
  | [] => .ok []
  | y :: rest =>
    if useSnip then do
      let bg := snip y
      let fit := nnlsFit nnls m k (fun i => y i - bg i) A none
      let mean := (∑ i ∈ range m, y i) / m
      let sst := ∑ i ∈ range m, (y i - mean) ^ 2
      let more ← fitRow nnls snip m k A useSnip rest
      .ok (⟨fit.1, ∑ i ∈ range m, bg i, if sst = 0 then none else some (1 - fit.2 / sst)⟩ :: more)
    else .error .unboundLocal

/-- State of the process pool of `fit_pixel_multiprocess_nnls`: results by task number. -/
abbrev Pool (α : Type) := ℕ → Option (Py α)

/-- A worker finishes task n; xrf_model.py 1571-1573 (`apply_async`; every task is a function of its row only). -/
def finish {ι α : Type} (task : ι → Py α) (rows : List ι) (p : Pool α) (n : ℕ) : Pool α :=
  match rows[n]? with
  | none => p
  | some r => fun k => if k = n then some (task r) else p k

/-- `[r.get() for r in result_pool]`; xrf_model.py 1575: collected in task order, the first failed task raises.
`none`: a result is not there yet (get waits). -/
def collect {α : Type} (p : Pool α) : List ℕ → Option (Py (List α))
  | [] => some (.ok [])
  | n :: rest =>
    match p n with
    | none => none
    | some (.error e) => some (.error e)
    | some (.ok v) =>
      match collect p rest with
      | none => none
      | some (.error e) => some (.error e)
      | some (.ok vs) => some (.ok (v :: vs))

/-- `fit_pixel_multiprocess_nnls`; xrf_model.py 1545-1580, when the workers finish the tasks in the order `schedule`. -/
def fitPixels {ι α : Type} (task : ι → Py α) (rows : List ι) (schedule : List ℕ) : Option (Py (List α)) :=
  collect (schedule.foldl (finish task rows) (fun _ => none)) (List.range rows.length)

/-! ### areas -/

/-- `element_peak_xrf` as a function of the calibrated energy; xrf_model.py 98-163. -/
noncomputable def elementPeakE (e area center deltaCenter deltaSigma ratio ratioAdjust fwhmOffset fwhmFanoprime epsilon : ℝ) : ℝ :=
  let t : ℝ := 2 * √(2 * Real.log 2)
  let sigma := √((fwhmOffset / t) ^ 2 + (center + deltaCenter) * epsilon * fwhmFanoprime)
  Line.gaussian e area (center + deltaCenter) (deltaSigma + sigma) * ratio * ratioAdjust

/-- `element_peak_xrf`; xrf_model.py 98-163: x is the channel. -/
noncomputable def elementPeak (x area center deltaCenter deltaSigma ratio ratioAdjust fwhmOffset fwhmFanoprime eOffset eLinear eQuadratic epsilon : ℝ) : ℝ :=
  elementPeakE (eOffset + x * eLinear + x ^ 2 * eQuadratic) area center deltaCenter deltaSigma ratio ratioAdjust fwhmOffset fwhmFanoprime epsilon

/-- `get_relative_cs_ratio`; xrf_model.py 1624-1649 (division by zero for Python floats raises). -/
def relativeRatio (cs : Cs) (name : String) : Py ℚ :=
  match split '_' name with
  | [sym, line] => do
    let ts ← transitionsOf (String.ofList (line.toList.map Char.toUpper))
    if (ts.map (cs sym)).sum = 0 then .error .zeroDivision else .ok (cs sym (ts.headD "") / (ts.map (cs sym)).sum)
  | _ => .error .valueError

/-- One map of `calculate_area`; xrf_model.py 1603-1615: coefficient of component i at a pixel times the column sum (m channels). -/
noncomputable def areaMap (m : ℕ) (A : ℕ → ℕ → ℝ) (coef : ℕ → ℝ) (i : ℕ) : ℝ := coef i * ∑ ch ∈ range m, A ch i

/-! ### linear_spectrum_fitting -/

open Classical in
/-- `result_dict` of `linear_spectrum_fitting` before "background" is added; xrf_model.py 1389-1405: component i is
`out[i] * matv[:, i]`, left out when its sum is zero. -/
noncomputable def resultDict (m : ℕ) (A : ℕ → ℕ → ℝ) (out : ℕ → ℝ) (names : List String) : Dict (ℕ → ℝ) :=
  (names.zipIdx).foldl (fun d ni =>
    let y := fun ch => out ni.2 * A ch ni.2
    if ∑ ch ∈ range m, y ch = 0 then d else setKey ni.1 y d) []

end Verif.Xrf
