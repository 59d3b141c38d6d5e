/- Model of skbeam/io: gsas_file_reader.py, save_powder_output.py, binary.py. -/
import Verif.Io.Text
import Mathlib.Data.Int.Log

namespace Verif.Io
open Verif Verif.Xrf

/-! ### save_powder_output.py -/

/-- `np.max`. -/
def maxOf : List ℚ → Option ℚ
  | [] => none
  | [a] => some a
  | a :: t => (maxOf t).map (max a)

/-- `scale`; save_powder_output.py 165-168: 10 to the power min(floor(log10(999999/max)), 0) in exact arithmetic.
`np.max` of nothing raises ValueError; for a negative maximum log10 is NaN and `int(nan)` raises ValueError;
for maximum 0 the quotient is inf and the scale 1. -/
def scaleOf (intensity : List ℚ) : Py ℚ :=
  match maxOf intensity with
  | none => .error .valueError
  | some m => if m < 0 then .error .valueError else if m = 0 then .ok 1 else .ok ((10 : ℚ) ^ (min (Int.log 10 (999999 / m)) 0))

/-- Two-theta start and step in centidegrees; save_powder_output.py 181-182.  For one point numpy's 0/0 is NaN. -/
def tthHeader (tth : List ℚ) : ℚ × Option ℚ :=
  (tth.headD 0 * 100, if tth.length = 1 then none else some ((tth.getLastD 0 - tth.headD 0) / ((tth.length : ℚ) - 1) * 100))

/-- The "BANK" line; save_powder_output.py 189-197, 204-212, 219-227. -/
def bankLine (nChan nRec : ℕ) (t0 : ℚ) (dt : Option ℚ) (mode : Text) : Text :=
  "BANK".toList ++ ' ' :: padLeft 5 (digits 1) ++ ' ' :: padLeft 8 (digits nChan) ++ ' ' :: padLeft 8 (digits nRec) ++ ' ' :: "CONST".toList ++
    ' ' :: fmtF 9 5 (some t0) ++ ' ' :: fmtF 9 5 dt ++ ' ' :: fmtF 9 5 (some 0) ++ ' ' :: fmtF 9 5 (some 0) ++ ' ' :: mode

/-- STD record `"%2i%6.0f" % (1, ii*scale)`; save_powder_output.py 199. -/
def stdRec (scale ii : ℚ) : Text := padLeft 2 (digits 1) ++ fmtF 6 0 (some (ii * scale))

/-- ESD record `"%8.0f%8.0f" % (ii, ee*scale)`; save_powder_output.py 214. -/
def esdRec (scale ii ee : ℚ) : Text := fmtF 8 0 (some ii) ++ fmtF 8 0 (some (ee * scale))

/-- FXYE record; save_powder_output.py 229-232. -/
def fxyeRec (scale xx yy ee : ℚ) : Text := fmtF 22 10 (some (xx * scale)) ++ fmtF 22 10 (some (yy * scale)) ++ fmtF 24 10 (some (ee * scale))

/-- `lines[-1] = "%-80s" % lines[-1]`; save_powder_output.py 238. -/
def padLast : List Text → List Text
  | [] => []
  | [l] => [padRight 80 l]
  | l :: t => l :: padLast t

/-- The lines of the file; save_powder_output.py 165-238, after the checks of `_validate_input`.  `g` is `"%g"`.
`mode = none` is the default None. -/
def gsasLines (g : ℚ → Text) (name : Text) (tth intensity : List ℚ) (mode : Option String) (err : Option (List ℚ)) : Py (List Text) := do
  let scale ← scaleOf intensity
  let title := ("Angular Profile".toList ++ ": ".toList ++ name ++ " scale=".toList ++ g scale).take 80
  let n := intensity.length
  let h := tthHeader tth
  match err with
  | none => .ok (padLast ([padRight 80 title, padRight 80 (bankLine n ((n + 9) / 10) h.1 h.2 "STD".toList)] ++ (chunks 10 (intensity.map (stdRec scale))).map List.flatten))
  | some e =>
    if mode = some "STD" then
      .ok (padLast ([padRight 80 title, padRight 80 (bankLine n ((n + 9) / 10) h.1 h.2 "STD".toList)] ++ (chunks 10 (intensity.map (stdRec scale))).map List.flatten))
    else if mode = some "ESD" then
      .ok (padLast ([padRight 80 title, padRight 80 (bankLine n ((n + 4) / 5) h.1 h.2 "ESD".toList)] ++ (chunks 5 ((intensity.zip e).map (fun p => esdRec scale p.1 p.2))).map List.flatten))
    else if mode = some "FXYE" then
      .ok (padLast ([padRight 80 title, padRight 80 (bankLine n n h.1 h.2 "FXYE".toList)] ++ ((tth.zip (intensity.zip e)).map (fun p => padRight 80 (fxyeRec scale p.1 p.2.1 p.2.2)))))
    else .error .valueError

/-- `"\r\n".join(lines) + "\r\n"`; save_powder_output.py 239. -/
def joinCrLf (lines : List Text) : Text := List.intercalate ['\r', '\n'] lines ++ ['\r', '\n']

/-- `_validate_input`; save_powder_output.py 245-272. -/
def validateInput (tth intensity : List ℚ) (err : Option (List ℚ)) (ext : Text) : Py Unit :=
  if tth.length ≠ intensity.length then .error .valueError
  else match err with
    | some e => if intensity.length ≠ e.length then .error .valueError else .ok ()
    | none => if ext = ".xye".toList then .error .valueError else .ok ()

/-- Files by path.  Directories are known by the predicate `exists_`. -/
abbrev Fs := Text → Option Text

/-- `_create_file_path`; save_powder_output.py 275-310.  `join` is `os.path.join`.  An existing file is removed. -/
def createFilePath (join : Text → Text → Text) (existsDir : Text → Bool) (fs : Fs) (dir : Option Text) (name ext : Text) : Py Text × Fs :=
  let path : Py Text := match dir with
    | none => .ok (name ++ ext)
    | some d => if existsDir d then .ok (join d name ++ ext) else .error .valueError
  match path with
  | .error e => (.error e, fs)
  | .ok p => (.ok p, fun q => if q = p then none else fs q)

/-- `gsas_writer`; save_powder_output.py 137-242. -/
def gsasWriter (g : ℚ → Text) (join : Text → Text → Text) (existsDir : Text → Bool) (fs : Fs) (tth intensity : List ℚ) (name : Text) (mode : Option String)
    (err : Option (List ℚ)) (dir : Option Text) : Py Unit × Fs :=
  match validateInput tth intensity err ".gsas".toList with
  | .error e => (.error e, fs)
  | .ok _ => match createFilePath join existsDir fs dir name ".gsas".toList with
    | (.error e, fs') => (.error e, fs')
    | (.ok path, fs') => match gsasLines g name tth intensity mode err with
      | .error e => (.error e, fs')
      | .ok lines => (.ok (), fun q => if q = path then some (joinCrLf lines) else fs' q)

/-- Header of `save_output`; save_powder_output.py 93-100, 107-115. -/
def saveHeader (name : Text) (isQ : Bool) (n : ℕ) : Text :=
  let nl := "\n        ".toList
  name ++ nl ++ "This file contains integrated powder x-ray diffraction".toList ++ nl ++ "intensities.".toList ++ nl ++
  (if isQ then "First column represents Q values (Angstroms) and second".toList ++ nl ++ "column represents intensities and if there is a third".toList ++ nl ++
      "column it represents the error values of intensities.".toList
    else "First column represents two theta values (degrees) and".toList ++ nl ++ "second column represents intensities and if there is".toList ++ nl ++
      "a third column it represents the error values of intensities.".toList) ++ nl ++
  "Number of data points in the file : ".toList ++ digits n ++ nl ++ "######################################################".toList ++ ['\n']

/-- `np.savetxt(f, np.c_[...])`: one line per row, `fmt` is `"%.18e"`, columns separated by a blank. -/
def saveRows (fmt : ℚ → Text) (rows : List (List ℚ)) : Text := rows.flatMap (fun r => List.intercalate [' '] (r.map fmt) ++ ['\n'])

/-- `save_output`; save_powder_output.py 52-119. -/
def saveOutput (fmt : ℚ → Text) (join : Text → Text → Text) (existsDir : Text → Bool) (fs : Fs) (tth intensity : List ℚ) (name : Text) (qOr2theta : String) (ext : Text)
    (err : Option (List ℚ)) (dir : Option Text) : Py Unit × Fs :=
  if qOr2theta ≠ "Q" ∧ qOr2theta ≠ "2theta" then (.error .valueError, fs)
  else match validateInput tth intensity err ext with
  | .error e => (.error e, fs)
  | .ok _ => match createFilePath join existsDir fs dir name ext with
    | (.error e, fs') => (.error e, fs')
    | (.ok path, fs') =>
      let rows : List (List ℚ) := match err with
        | none => (tth.zip intensity).map (fun p => [p.1, p.2])
        | some e => (tth.zip (intensity.zip e)).map (fun p => [p.1, p.2.1, p.2.2])
      (.ok (), fun q => if q = path then some (saveHeader name (qOr2theta = "Q") tth.length ++ saveRows fmt rows) else fs' q)

/-! ### gsas_file_reader.py -/

/-- `_sfloat`; gsas_file_reader.py 248-264. -/
def sfloat (s : Text) : Py (Option ℚ) := if strip s ≠ [] then parseFloat s else .ok (some 0)

/-- `_sint`; gsas_file_reader.py 267-283. -/
def sint (s : Text) : Py ℤ := if strip s ≠ [] then parseInt s else .ok 0

/-- `S[0].split()[k]`. -/
def token (line : Text) (k : ℕ) : Py Text :=
  match (words line)[k]? with
  | none => .error .indexError
  | some w => .ok w

/-- One point: two theta, intensity, weight (1/variance); `none` is NaN. -/
abbrev Point := Option ℚ × Option ℚ × Option ℚ

/-- `start + step * j` with NaN. -/
def xAt (start step : Option ℚ) (j : ℕ) : Option ℚ :=
  match start, step with
  | some a, some b => some (a + b * j)
  | _, _ => none

/-- Centidegrees to degrees. -/
def centi (v : Option ℚ) : Option ℚ := v.map (· / 100)

/-- One field of an STD file; gsas_file_reader.py 223-239.  `none` when the field is not appended. -/
def stdField (start step nch : Option ℚ) (fj : Text × ℕ) : Py (Option Point) := do
  let ni := max (← sint (slice fj.1 0 2)) 1
  let y ← sfloat (slice fj.1 2 8)
  -- `max(y, 0.0)`: NaN stays
  let yi : Option ℚ := y.map (fun v => max v 0)
  let vi : Option ℚ := yi.map (fun v => v / ni)
  match nch with
  | none => .ok none
  | some n =>
    if (fj.2 : ℚ) < n then
      match yi, vi with
      | some y, some v => if v ≤ 0 then .ok (some (xAt start step fj.2, some 0, some 0)) else .ok (some (xAt start step fj.2, some y, some (1 / v)))
      | _, _ => .ok (some (xAt start step fj.2, none, none))
    else .ok none

/-- The fields of the data lines: `line[i:i+w] for i in range(0, k*w, w)`. -/
def fieldsOf (w k : ℕ) (lines : List Text) : List Text := lines.flatMap (fun line => (List.range k).map (fun i => slice line (w * i) (w * i + w)))

/-- Process the fields in order, the first exception wins. -/
def mapPy {α β : Type} (f : α → Py β) : List α → Py (List β)
  | [] => .ok []
  | a :: t => match f a with
    | .error e => .error e
    | .ok b => match mapPy f t with
      | .error e => .error e
      | .ok bs => .ok (b :: bs)

/-- `_get_std_data`; gsas_file_reader.py 187-240. -/
def getStd (file : Text) : Py (List Point) :=
  match (readLines file).drop 1 with
  | [] => .error .indexError
  | h :: lines => do
    let start ← parseFloat (← token h 5)
    let step ← parseFloat (← token h 6)
    let nch ← parseFloat (← token h 2)
    let pts ← mapPy (stdField (centi start) (centi step) nch) (fieldsOf 8 10 lines).zipIdx
    .ok (pts.filterMap id)

/-- Weight from an error bar; NaN compares false. -/
def weightOf (s : Option ℚ) : Option ℚ :=
  match s with
  | none => some 0
  | some v => if 0 < v then some (1 / v ^ 2) else some 0

/-- Intensity of ESD data; NaN compares false. -/
def posOf (y : Option ℚ) : Option ℚ :=
  match y with
  | none => some 0
  | some v => if 0 < v then some v else some 0

/-- One field of an ESD file; gsas_file_reader.py 168-183. -/
def esdField (start step : Option ℚ) (fj : Text × ℕ) : Py Point := do
  let yi ← sfloat (slice fj.1 0 8)
  let ei ← sfloat (slice fj.1 8 16)
  .ok (xAt start step fj.2, posOf yi, weightOf ei)

/-- `_get_esd_data`; gsas_file_reader.py 136-184. -/
def getEsd (file : Text) : Py (List Point) :=
  match (readLines file).drop 1 with
  | [] => .error .indexError
  | h :: lines => do
    let start ← parseFloat (← token h 5)
    let step ← parseFloat (← token h 6)
    mapPy (esdField (centi start) (centi step)) (fieldsOf 16 5 lines).zipIdx

/-- One line of an FXYE file; gsas_file_reader.py 116-131 (a NaN intensity stays NaN, a NaN error counts as no error). -/
def fxyeLine (line : Text) : Py Point := do
  let x ← parseFloat (← token line 0)
  let f ← parseFloat (← token line 1)
  let s ← parseFloat (← token line 2)
  .ok (x, f.map (fun v => if v ≤ 0 then 0 else v), weightOf s)

/-- `_get_fxye_data`; gsas_file_reader.py 91-133. -/
def getFxye (file : Text) : Py (List Point) := mapPy fxyeLine ((readLines file).drop 2)

/-- `gsas_reader`; gsas_file_reader.py 54-88, after the check of the extension. -/
def gsasReader (file : Text) : Py (List Point) :=
  match (readLines file)[1]? with
  | none => .error .indexError
  | some h => do
    let mode ← token h 9
    if mode = "STD".toList then getStd file
    else if mode = "ESD".toList then getEsd file
    else if mode = "FXYE".toList then getFxye file
    else .error .valueError

/-! ### binary.py -/

/-- Resize a flat array to n elements: truncate or pad with zeros (`ndarray.resize`). -/
def resize {α : Type} (zero : α) (n : ℕ) (l : List α) : List α := l.take n ++ List.replicate (n - l.length) zero

/-- `np.fromfile(..., count=-1)`: whole elements of `size` bytes; a trailing incomplete element is dropped. -/
def fromFile {α : Type} (size : ℕ) (decode : List UInt8 → α) (bytes : List UInt8) : List α :=
  ((List.range (bytes.length / size)).map (fun i => decode ((bytes.drop (size * i)).take size)))

/-- `read_binary`; binary.py 44-91: shape and flat data (row-major) and the header. -/
def readBinary {α : Type} (zero : α) (size : ℕ) (decode : List UInt8 → α) (file : List UInt8) (nx ny nz headersize : ℕ) : (List ℕ × List α) × List UInt8 :=
  let header := file.take headersize
  let data := fromFile size decode (file.drop headersize)
  (if nz ≠ 1 then ([nx, ny, nz], resize zero (nx * ny * nz) data)
   else if ny ≠ 1 then ([nx, ny], resize zero (nx * ny) data)
   else ([data.length], data), header)

end Verif.Io
