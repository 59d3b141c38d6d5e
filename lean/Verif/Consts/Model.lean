/- Model of skbeam/core/constants: basic.py (element table), xrf.py (xraylib wrappers, emission line search), xrs.py (powder
standards). -/
import Verif.Np
import Verif.Io.Text
import Verif.Geom.Model

namespace Verif.Consts
open Verif Verif.Io

/-! ### basic.py -/

/-- `str.lower()` (ASCII). -/
def lower (s : Text) : Text := s.map Char.toLower

/-- The namedtuple `element`; basic.py 54-73.  `data` are the twelve floats. -/
structure Element where
  z : ℤ
  sym : Text
  name : Text
  data : List (Option ℚ)
  deriving DecidableEq, Repr

/-- Keys of the table: atomic numbers and strings. -/
inductive Key where
  | num (z : ℤ)
  | str (s : Text)
  deriving DecidableEq, Repr

/-- A dict in insertion order. -/
abbrev Dct (κ ν : Type) := List (κ × ν)

/-- `d[k] = v`. -/
def put {κ ν : Type} [DecidableEq κ] : Dct κ ν → κ → ν → Dct κ ν
  | [], k, v => [(k, v)]
  | (k', v') :: d, k, v => if k' = k then (k, v) :: d else (k', v') :: put d k v

/-- `d.get(k)`. -/
def get {κ ν : Type} [DecidableEq κ] : Dct κ ν → κ → Option ν
  | [], _ => none
  | (k', v') :: d, k => if k' = k then some v' else get d k

/-- `d.update(...)`. -/
def update {κ ν : Type} [DecidableEq κ] (d : Dct κ ν) (l : List (κ × ν)) : Dct κ ν := l.foldl (fun d p => put d p.1 p.2) d

/-- Local variables of the loop of `read_atomic_constants`; basic.py 87-95. -/
structure PState where
  basic : Dct Key Element := []
  fieldDesc : Bool := false
  z : Option ℤ := none
  abbrev' : Option Text := none
  name : Option Text := none

/-- `[f(x) for x in l]` with exceptions. -/
def mapPy {α β : Type} (f : α → Py β) : List α → Py (List β)
  | [] => .ok []
  | a :: l => match f a with
    | .error e => .error e
    | .ok b => match mapPy f l with
      | .error e => .error e
      | .ok bs => .ok (b :: bs)

/-- One line of the file: `none` is `break`; basic.py 91-112. -/
def readLine (st : PState) (line : Text) : Py (Option PState) :=
  match words line with
  | [] => .error .indexError
  | w :: ws =>
    if w = "#S".toList then
      match ws with
      | zs :: ab :: _ => match parseInt zs with
        | .error e => .error e
        | .ok z => if z = 1000 then .ok none else .ok (some { st with z := some z, abbrev' := some ab })
      | _ => .error .indexError
    else if st.fieldDesc = false ∧ w = "#L".toList then .ok (some { st with fieldDesc := true })
    else if line.take 6 = "#UNAME".toList then
      match ws with
      | nm :: _ => .ok (some { st with name := some nm })
      | [] => .error .indexError
    else if line.head? = some '#' then .ok (some st)
    else match mapPy parseFloat (w :: ws) with
      | .error e => .error e
      | .ok data => match st.z, st.abbrev', st.name with
        | some z, some ab, some nm => if data.length = 12 then .ok (some { st with basic := put st.basic (.str (lower ab)) ⟨z, ab, nm, data⟩ }) else .error .typeError
        | _, _, _ => .error .unboundLocal

/-- The loop over the lines; basic.py 90-113. -/
def readAux : PState → List Text → Py (Dct Key Element)
  | st, [] => .ok st.basic
  | st, l :: ls => match readLine st l with
    | .error e => .error e
    | .ok none => .ok st.basic
    | .ok (some st') => readAux st' ls

/-- `read_atomic_constants`; basic.py 76-113 (the field descriptions, used for docstrings only, are left out). -/
def readAtomicConstants (lines : List Text) : Py (Dct Key Element) := readAux {} lines

/-- The module-level table; basic.py 116-120. -/
def table (b : Dct Key Element) : Dct Key Element :=
  let b1 := update b (b.map (fun p => (Key.num p.2.z, p.2)))
  let b2 := update b1 (b1.map (fun p => (Key.str (lower p.2.name), p.2)))
  update b2 (b2.map (fun p => (Key.str (lower p.2.sym), p.2)))

/-- `BasicElement(Z)`; basic.py 161-171. -/
def basicElement (t : Dct Key Element) (k : Key) : Py Element :=
  let k' := match k with | .str s => .str (lower s) | .num z => .num z
  match get t k' with
  | some e => .ok e
  | none => .error .keyError

/-- `__eq__`; basic.py 190-191. -/
def eq (a b : Element) : Bool := a.z = b.z
/-- `__lt__`; basic.py 193-194. -/
def lt (a b : Element) : Bool := a.z < b.z
/-- `__le__`, `__gt__`, `__ge__` from `functools.total_ordering`; basic.py 146. -/
def le (a b : Element) : Bool := lt a b || eq a b
def gt (a b : Element) : Bool := !lt a b && !eq a b
def ge (a b : Element) : Bool := !lt a b

/-- Atomic number, symbol and name of every record of data/AtomicConstants.dat before scan 1000. -/
def atoms : List (ℤ × String × String) :=
  [(1, "H", "Hydrogen"), (2, "He", "Helium"), (3, "Li", "Lithium"), (4, "Be", "Beryllium"), (5, "B", "Boron"), (6, "C", "Carbon"), (7, "N", "Nitrogen"), (8, "O", "Oxygen"),
  (9, "F", "Fluorine"), (10, "Ne", "Neon"), (11, "Na", "Sodium"), (12, "Mg", "Magnesium"), (13, "Al", "Aluminum"), (14, "Si", "Silicon"), (15, "P", "Phosphorus"),
  (16, "S", "Sulphur"), (17, "Cl", "Chlorine"), (18, "Ar", "Argon"), (19, "K", "Potassium"), (20, "Ca", "Calcium"), (21, "Sc", "Scandium"), (22, "Ti", "Titanium"),
  (23, "V", "Vanadium"), (24, "Cr", "Chromium"), (25, "Mn", "Manganese"), (26, "Fe", "Iron"), (27, "Co", "Cobalt"), (28, "Ni", "Nickel"), (29, "Cu", "Copper"),
  (30, "Zn", "Zinc"), (31, "Ga", "Gallium"), (32, "Ge", "Germanium"), (33, "As", "Arsenic"), (34, "Se", "Selenium"), (35, "Br", "Bromine"), (36, "Kr", "Krypton"),
  (37, "Rb", "Rubidium"), (38, "Sr", "Strontium"), (39, "Y", "Yttrium"), (40, "Zr", "Zirconium"), (41, "Nb", "Niobium"), (42, "Mo", "Molybdenum"), (43, "Tc", "Technetium"),
  (44, "Ru", "Ruthenium"), (45, "Rh", "Rhodium"), (46, "Pd", "Palladium"), (47, "Ag", "Silver"), (48, "Cd", "Cadmium"), (49, "In", "Indium"), (50, "Sn", "Tin"),
  (51, "Sb", "Antimony"), (52, "Te", "Tellurium"), (53, "I", "Iodine"), (54, "Xe", "Xenon"), (55, "Cs", "Cesium"), (56, "Ba", "Barium"), (57, "La", "Lanthanum"),
  (58, "Ce", "Cerium"), (59, "Pr", "Praseodymium"), (60, "Nd", "Neodymium"), (61, "Pm", "Promethium"), (62, "Sm", "Samarium"), (63, "Eu", "Europium"),
  (64, "Gd", "Gadolinium"), (65, "Tb", "Terbium"), (66, "Dy", "Dysprosium"), (67, "Ho", "Holmium"), (68, "Er", "Erbium"), (69, "Tm", "Thulium"), (70, "Yb", "Ytterbium"),
  (71, "Lu", "Lutetium"), (72, "Hf", "Hafnium"), (73, "Ta", "Tantalum"), (74, "W", "Tungsten"), (75, "Re", "Rhenium"), (76, "Os", "Osmium"), (77, "Ir", "Iridium"),
  (78, "Pt", "Platinum"), (79, "Au", "Gold"), (80, "Hg", "Mercury"), (81, "Tl", "Thallium"), (82, "Pb", "Lead"), (83, "Bi", "Bismuth"), (84, "Po", "Polonium"),
  (85, "At", "Astatine"), (86, "Rn", "Radon"), (87, "Fr", "Francium"), (88, "Ra", "Radium"), (89, "Ac", "Actinium"), (90, "Th", "Thorium"), (91, "Pa", "Protactinium"),
  (92, "U", "Uranium"), (93, "Np", "Neptunium"), (94, "Pu", "Plutonium"), (95, "Am", "Americium"), (96, "Cm", "Curium"), (97, "Bk", "Berkelium"), (98, "Cf", "Californium"),
  (99, "Es", "Einsteinium"), (100, "Fm", "Fermium"), (101, "Md", "Mendelevium"), (102, "No", "Nobelium"), (103, "Lr", "Lawrencium")]

/-! ### xrf.py -/

/-- `line_name`; xrf.py 53-79. -/
def lineName : List String := ["Ka1", "Ka2", "Ka3", "Kb1", "Kb2", "Kb3", "Kb4", "kb5", "La1", "La2", "Lb1", "Lb2", "Lb3", "Lb4", "Lb5", "Lg1", "Lg2", "Lg3", "Lg4", "Ll", "Ln",
  "Ma1", "Ma2", "Mb", "Mg"]

/-- `bindingE`; xrf.py 81-106. -/
def bindingE : List String := ["K", "L1", "L2", "L3", "M1", "M2", "M3", "M4", "M5", "N1", "N2", "N3", "N4", "N5", "N6", "N7", "O1", "O2", "O3", "O4", "O5", "P1", "P2", "P3"]

/-- The functions of xraylib used here; `none` is ValueError.  Lines and shells are named by their position in `line_list`
and `shell_list` (xrf.py 136-189). -/
structure XrayLib where
  lineEnergy : ℤ → ℕ → Option ℚ
  edgeEnergy : ℤ → ℕ → Option ℚ
  jump : ℤ → ℕ → Option ℚ
  fluorYield : ℤ → ℕ → Option ℚ
  cs : ℤ → ℕ → ℚ → Option ℚ
  csb : ℤ → ℕ → ℚ → Option ℚ

/-- `info_type`. -/
inductive Info where
  | lines | bindingE | jump | yield | cs (energy : ℚ) | csb (energy : ℚ)

/-- `line_dict`, `shell_dict`; xrf.py 191-193.  (The table of a `dict(...)` call with the positions as values.) -/
def nameDict (l : List String) : Dct Text ℕ := update [] ((l.map (fun s => lower s.toList)).zipIdx)

/-- `XRAYLIB_MAP`: which names; xrf.py 195-204. -/
def Info.dict : Info → Dct Text ℕ
  | .lines | .cs _ | .csb _ => nameDict lineName
  | _ => nameDict Consts.bindingE

/-- `XRAYLIB_MAP`: which function, with the incident energy of `XrayLibWrap_Energy`; xrf.py 195-204, 393. -/
def Info.func (x : XrayLib) : Info → ℤ → ℕ → Option ℚ
  | .lines => x.lineEnergy
  | .bindingE => x.edgeEnergy
  | .jump => x.jump
  | .yield => x.fluorYield
  | .cs e => fun z l => x.cs z l e
  | .csb e => fun z l => x.csb z l e

/-- Lexicographic order of strings by code point. -/
def leText : Text → Text → Bool
  | [], _ => true
  | _ :: _, [] => false
  | a :: s, b :: t => if a.toNat < b.toNat then true else if b.toNat < a.toNat then false else leText s t

/-- `XrayLibWrap._keys` and `__iter__`; xrf.py 274, 303-304. -/
def Info.keys (i : Info) : List Text := (i.dict.map Prod.fst).mergeSort leText

/-- `XrayLibWrap.__len__`; xrf.py 306-307. -/
def Info.len (i : Info) : ℕ := i.keys.length

/-- `XrayLibWrap.__getitem__`, `XrayLibWrap_Energy.__getitem__`; xrf.py 282-301, 379-397. -/
def Info.getItem (x : XrayLib) (i : Info) (z : ℤ) (key : Text) : Py ℚ :=
  match get i.dict (lower key) with
  | none => .error .keyError
  | some l => .ok ((i.func x z l).getD 0)

/-- `Mapping.__contains__`: `self[key]` without KeyError. -/
def Info.contains (x : XrayLib) (i : Info) (z : ℤ) (key : Text) : Bool :=
  match i.getItem x z key with
  | .error _ => false
  | .ok _ => true

/-- `XrayLibWrap.all`, `Mapping.items()`; xrf.py 277-280. -/
def Info.all (x : XrayLib) (i : Info) (z : ℤ) : Py (List (Text × ℚ)) :=
  mapPy (fun k => match i.getItem x z k with | .error e => .error e | .ok v => .ok (k, v)) i.keys

/-- The loop of `line_near`; xrf.py 616-622. -/
def lineNearAux (x : XrayLib) (z : ℤ) (energy delta incident : ℚ) : Dct Text ℚ → List (Text × ℚ) → Py (Dct Text ℚ)
  | out, [] => .ok out
  | out, (k, v) :: l => match (Info.cs incident).getItem x z k with
    | .error e => .error e
    | .ok c =>
      if c = 0 then lineNearAux x z energy delta incident out l
      else if |v - energy| < delta then lineNearAux x z energy delta incident (put out k v) l
      else lineNearAux x z energy delta incident out l

/-- `XrfElement.line_near`; xrf.py 598-622. -/
def lineNear (x : XrayLib) (e : Element) (energy delta incident : ℚ) : Py (Dct Text ℚ) :=
  match Info.lines.all x e.z with
  | .error err => .error err
  | .ok l => lineNearAux x e.z energy delta incident [] l

/-- `emission_line_search`; xrf.py 625-667, with xraylib installed. -/
def emissionLineSearch (x : XrayLib) (t : Dct Key Element) (lineE delta incident : ℚ) (elements : Option (List Key)) : Py (Dct Text (Dct Text ℚ)) :=
  let elements := elements.getD ((List.range 100).map (fun (i : ℕ) => Key.num ((i : ℤ) + 1)))
  match mapPy (basicElement t) elements with
  | .error e => .error e
  | .ok es => match mapPy (fun e => lineNear x e lineE delta incident) es with
    | .error e => .error e
    | .ok cand => .ok ((es.zip cand).foldl (fun out p => if p.2 = [] then out else put out p.1.sym p.2) [])

/-! ### xrs.py -/

/-- `int(x)` of a number: truncation. -/
def intOf (q : ℚ) : ℤ := if q < 0 then ⌈q⌉ else ⌊q⌋

/-- `Reflection(d, HKL(*hkl), q)`; xrs.py 57-105. -/
structure Reflection where
  d : ℝ
  hkl : ℤ × ℤ × ℤ
  q : ℝ

open Classical in
/-- `PowderStandard.__init__`: list.sort is stable; xrs.py 122-125. -/
noncomputable def powderStandard (refl : List (ℝ × (ℚ × ℚ × ℚ) × ℝ)) : List Reflection :=
  (refl.map (fun r => (⟨r.1, (intOf r.2.1.1, intOf r.2.1.2.1, intOf r.2.1.2.2), r.2.2⟩ : Reflection))).mergeSort (fun a b => decide (a.q ≤ b.q))

/-- `zip(d, hkl, q)` with `hkl = repeat((0, 0, 0))` when it is None; xrs.py 195-198, 225-227. -/
def zip3 (d : List ℝ) (hkl : Option (List (ℚ × ℚ × ℚ))) (q : List ℝ) : List (ℝ × (ℚ × ℚ × ℚ) × ℝ) :=
  match hkl with
  | none => (d.zip q).map (fun p => (p.1, (0, 0, 0), p.2))
  | some h => d.zip (h.zip q)

/-- `PowderStandard.from_d`; xrs.py 200-227. -/
noncomputable def fromD (d : List ℝ) (hkl : Option (List (ℚ × ℚ × ℚ))) : List Reflection := powderStandard (zip3 d hkl (d.map Geom.dToQ))

/-- `PowderStandard.from_lambda_2theta_hkl`; xrs.py 166-198. -/
noncomputable def fromTwoTheta (wavelength : ℝ) (tt : List ℝ) (hkl : Option (List (ℚ × ℚ × ℚ))) : List Reflection :=
  let q := tt.map (fun t => Geom.twothetaToQ t wavelength)
  powderStandard (zip3 (q.map Geom.qToD) hkl q)

/-- `PowderStandard.convert_2theta`; xrs.py 149-164. -/
noncomputable def convert2theta (s : List Reflection) (wavelength : ℝ) : List ℝ := s.map (fun r => Geom.qToTwotheta r.q wavelength)

end Verif.Consts
