/- Model of skbeam/io/avizo_io.py (AmiraMesh files) and skbeam/io/fit2d.py (Fit2D masks). -/
import Verif.Io.Model

namespace Verif.Amira
open Verif Verif.Io

/-! ### _read_amira, avizo_io.py 9-38 -/

/-- The line after which the data begin; avizo_io.py 34. -/
def marker : Text := "# Data section follows\n".toList

/-- The loop of `_read_amira`: running with the header read so far and the lines not read yet, or finished. -/
inductive ReadSt
  | running (header rest : List Text)
  | done (header : List Text) (data : Text)
  deriving DecidableEq

/-- One round of the loop; avizo_io.py 31-37.  `readline()` at the end of the file returns the empty string. -/
def readStep : ReadSt → ReadSt
  | .done h d => .done h d
  | .running h [] => .running (h ++ [[]]) []
  | .running h (l :: t) => if l = marker then .done (h ++ [l]) (t.drop 1).flatten else .running (h ++ [l]) t

/-- State after n rounds on a file with the given text. -/
def readAfter (file : Text) : ℕ → ReadSt
  | 0 => .running [] (readLines file)
  | n + 1 => readStep (readAfter file n)

/-! ### _clean_amira_header, avizo_io.py 112-136 -/

/-- `_clean_amira_header` under Python 3: `str.translate` takes one argument, so the first word met raises TypeError; a line
without words gives an empty `filter` object; avizo_io.py 132-136. -/
def cleanHeader (header : List Text) : Py (List (List Text)) :=
  if header.all (fun row => (words row).isEmpty) then .ok (header.map (fun _ => [])) else .error .typeError

/-! ### _create_md_dict, avizo_io.py 139-232, on a cleaned header given as lists of words -/

/-- Bounding box: six numbers (`none` is NaN). -/
structure Box where
  xmin : Option ℚ
  xmax : Option ℚ
  ymin : Option ℚ
  ymax : Option ℚ
  zmin : Option ℚ
  zmax : Option ℚ
  deriving DecidableEq, Repr

/-- The entry "resolution". -/
inductive Resolution
  | isotropic (v : Option ℚ)
  | anisotropic (z y x : Option ℚ)
  deriving DecidableEq, Repr

/-- The metadata dictionary; `none` = no such key. -/
structure Md where
  software : Text
  format : Text
  version : Text
  dims : Option (ℤ × ℤ × ℤ) := none
  dataType : Option Text := none
  coordType : Option Text := none
  box : Option Box := none
  resolution : Option Resolution := none
  units : Option Text := none
  coordinates : Option Text := none
  deriving DecidableEq

/-- `hl[i]`. -/
def word (hl : List Text) (i : ℕ) : Py Text := match hl[i]? with | some w => .ok w | none => .error .indexError

/-- Arithmetic with NaN. -/
def subN : Option ℚ → Option ℚ → Option ℚ
  | some a, some b => some (a - b)
  | _, _ => none

/-- Voxel size along one direction; avizo_io.py 200-205. -/
def voxel (lo hi : Option ℚ) (dim : ℤ) : Option ℚ := if 1 < dim then (subN hi lo).map (· / ((dim - 1 : ℤ) : ℚ)) else some 0

/-- Ratio within one per cent; avizo_io.py 207-212. -/
def within (r r0 : Option ℚ) : Bool := match r, r0 with
  | some a, some b => decide (99 / 100 < a / b) && decide (a / b < 101 / 100)
  | _, _ => false

/-- avizo_io.py 206-218: ZeroDivisionError if the first voxel size is 0. -/
def resolve (rx ry rz : Option ℚ) : Py Resolution :=
  if rx = some 0 then .error .zeroDivision
  else if within ry rx && within rz rx then .ok (.isotropic rx) else .ok (.anisotropic rz ry rx)

/-- Keywords of the header. -/
def kw (s : String) : Text := s.toList

/-- One line of the header; avizo_io.py 161-231. -/
def mdLine (md : Md) (hl : List Text) : Py Md :=
  if kw "define" ∈ hl then do
    let i := hl.idxOf (kw "define")
    let x ← word hl (i + 2); let nx ← parseInt x
    let y ← word hl (i + 3); let ny ← parseInt y
    let z ← word hl (i + 4); let nz ← parseInt z
    .ok { md with dims := some (nx, ny, nz) }
  else if kw "Content" ∈ hl then do
    let t ← word hl (hl.idxOf (kw "Content") + 2)
    .ok { md with dataType := some t }
  else if kw "CoordType" ∈ hl then do
    let t ← word hl (hl.idxOf (kw "CoordType") + 1)
    .ok { md with coordType := some t }
  else if kw "BoundingBox" ∈ hl then do
    let i := hl.idxOf (kw "BoundingBox")
    let a ← word hl (i + 1); let x0 ← parseFloat a
    let b ← word hl (i + 2); let x1 ← parseFloat b
    let c ← word hl (i + 3); let y0 ← parseFloat c
    let d ← word hl (i + 4); let y1 ← parseFloat d
    let e ← word hl (i + 5); let z0 ← parseFloat e
    let f ← word hl (i + 6); let z1 ← parseFloat f
    match md.dims with
    | none => .error .keyError
    | some (nx, ny, nz) => do
      let r ← resolve (voxel x0 x1 nx) (voxel y0 y1 ny) (voxel z0 z1 nz)
      .ok { md with box := some ⟨x0, x1, y0, y1, z0, z1⟩, resolution := some r }
  else if kw "Units" ∈ hl then
    match word hl (hl.idxOf (kw "Units") + 2) with
    | .ok u => .ok { md with units := some u }
    | .error _ => .ok { md with units := some (kw "pixels") }
  else if kw "Coordinates" ∈ hl then do
    let u ← word hl (hl.idxOf (kw "Coordinates") + 1)
    .ok { md with coordinates := some u }
  else .ok md

/-- The entries taken from the first line; avizo_io.py 151-158. -/
def mdFirst (clean : List (List Text)) : Py Md := do
  let l0 ← (match clean with | [] => .error .indexError | l :: _ => .ok l)
  let s ← word l0 1
  let f ← word l0 2
  let v ← word l0 3
  if f = kw "3D" then do
    let v' ← word l0 4
    .ok { software := s, format := v, version := v' }
  else .ok { software := s, format := f, version := v }

/-- `for header_line in clean_header`. -/
def mdLoop : Md → List (List Text) → Py Md
  | md, [] => .ok md
  | md, l :: t => do
    let md' ← mdLine md l
    mdLoop md' t

/-- `_create_md_dict`; avizo_io.py 139-232. -/
def createMd (clean : List (List Text)) : Py Md := do
  let md ← mdFirst clean
  mdLoop md clean

/-! ### _amira_data_to_numpy, avizo_io.py 41-109 -/

/-- `_amira_data_to_numpy` with the conversion of the text to numbers as a parameter (`conv data type`, for the format
"BINARY-LITTLE-ENDIAN"; `str.translate` with two arguments raises TypeError for "ASCII"; for any other format flt_values is
never assigned).  `flt_values[::-1, ..., ...]` has two ellipses and raises IndexError; avizo_io.py 81-109. -/
def toNumpy {α : Type} (zero : α) (conv : Text → Text → Py (List α)) (data : Text) (md : Md) (flipZ : Bool) : Py ((ℕ × ℕ × ℕ) × List α) :=
  match md.dims with
  | none => .error .keyError
  | some (nx, ny, nz) =>
    if md.format = kw "BINARY-LITTLE-ENDIAN" then
      match md.dataType with
      | none => .error .keyError
      | some t => do
        let vals ← conv data t
        if nx < 0 ∨ ny < 0 ∨ nz < 0 then .error .valueError
        else if flipZ then .error .indexError
        else .ok ((nz.toNat, ny.toNat, nx.toNat), resize zero (nz.toNat * ny.toNat * nx.toNat) vals)
    else if md.format = kw "ASCII" then .error .typeError
    else .error .unboundLocal

/-- `load_amiramesh` once `_read_amira` has returned; avizo_io.py 253-257. -/
def loadAfterRead {α : Type} (zero : α) (conv : Text → Text → Py (List α)) (header : List Text) (data : Text) : Py (Md × ((ℕ × ℕ × ℕ) × List α)) := do
  let clean ← cleanHeader header
  let md ← createMd clean
  let a ← toNumpy zero conv data md true
  .ok (md, a)

/-! ### fit2d.py -/

/-- A mask: boolean or integer array. -/
inductive MaskArr
  | bool (a : List (List Bool))
  | int (a : List (List ℤ))
  deriving DecidableEq

/-- `~mask`; fit2d.py 21: logical not of booleans, bitwise complement of integers. -/
def MaskArr.invert : MaskArr → MaskArr
  | .bool a => .bool (a.map (fun r => r.map not))
  | .int a => .int (a.map (fun r => r.map (fun x => -x - 1)))

/-- What a mask file keeps of an array (fabio, `data != 0`). -/
def MaskArr.bits : MaskArr → List (List Bool)
  | .bool a => a
  | .int a => a.map (fun r => r.map (fun x => decide (x ≠ 0)))

/-- `fit2d_save`; fit2d.py 9-22.  `enc` is fabio's encoding of a bit image. -/
def fit2dSave (enc : List (List Bool) → Text) (join : Text → Text → Text) (existsDir : Text → Bool) (fs : Fs) (mask : MaskArr) (name : Text) (dir : Option Text) : Py Unit × Fs :=
  match createFilePath join existsDir fs dir name ".msk".toList with
  | (.error e, fs') => (.error e, fs')
  | (.ok path, fs') => (.ok (), fun q => if q = path then some (enc mask.invert.bits) else fs' q)

/-- `read_fit2d_msk`; fit2d.py 25-40.  `dec` is fabio's decoding. -/
def readFit2d (dec : Text → Option (List (List Bool))) (fs : Fs) (path : Text) : Py (List (List Bool)) :=
  match fs path with
  | none => .error .fileNotFound
  | some t => match dec t with
    | none => .error .exception
    | some a => .ok (a.map (fun r => r.map not))

end Verif.Amira
