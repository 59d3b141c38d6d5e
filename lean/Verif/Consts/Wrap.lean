/- Model of the xraylib wrapper objects of skbeam/core/constants/xrf.py: construction, the incident energy attribute, and
the attributes of XrfElement. -/
import Verif.Consts.Model

namespace Verif.Consts
open Verif Verif.Io

/-- The keys of `XRAYLIB_MAP`; xrf.py 195-204. -/
inductive InfoName where
  | lines | cs | csb | bindingE | jump | yield
  deriving DecidableEq, Repr

/-- `XRAYLIB_MAP[info_type]`: a `verbosedict`, whose `__getitem__` raises KeyError for a key that is not there; xrf.py
195-204, utils.py:193-211. -/
def infoOf (s : String) : Py InfoName :=
  if s = "lines" then .ok .lines else if s = "cs" then .ok .cs else if s = "csb" then .ok .csb
  else if s = "binding_e" then .ok .bindingE else if s = "jump" then .ok .jump
  else if s = "yield" then .ok .yield else .error .keyError

/-- A wrapper object: `energy` is `none` for `XrayLibWrap` and the incident energy for `XrayLibWrap_Energy`. -/
structure Wrap where
  z : ℤ
  info : InfoName
  energy : Option ℚ
  deriving DecidableEq, Repr

/-- `XrayLibWrap(element, info_type)` with xraylib installed; xrf.py 269-275 (its argument `energy` is not used). -/
def newWrap (z : ℤ) (info : String) : Py Wrap :=
  match infoOf info with
  | .error e => .error e
  | .ok i => .ok ⟨z, i, none⟩

/-- `XrayLibWrap_Energy(element, info_type, incident_energy)`; xrf.py 355-360. -/
def newWrapEnergy (z : ℤ) (info : String) (energy : ℚ) : Py Wrap :=
  match infoOf info with
  | .error e => .error e
  | .ok i => .ok ⟨z, i, some energy⟩

/-- `XrayLibWrap.info_type`; xrf.py 309-315. -/
def Wrap.infoType (w : Wrap) : String :=
  match w.info with
  | .lines => "lines" | .cs => "cs" | .csb => "csb" | .bindingE => "binding_e" | .jump => "jump" | .yield => "yield"

/-- Assignment to `incident_energy`: the property setter of `XrayLibWrap_Energy` (xrf.py 362-377, with numbers, for
which `float` only rounds); on an `XrayLibWrap` the assignment makes a new attribute that nothing reads. -/
def Wrap.setEnergy (w : Wrap) (e : ℚ) : Wrap :=
  match w.energy with
  | none => w
  | some _ => { w with energy := some e }

/-- `self._map[key.lower()]`: which table; xrf.py 195-204. -/
def Wrap.dict (w : Wrap) : Dct Text ℕ :=
  match w.info with
  | .lines | .cs | .csb => nameDict lineName
  | _ => nameDict Consts.bindingE

/-- `w[key]`, xrf.py 282-301, 379-397: the table lookup comes first (KeyError); a function called with a missing or a
superfluous energy raises TypeError; a ValueError of xraylib becomes 0. -/
def Wrap.getItem (x : XrayLib) (w : Wrap) (key : Text) : Py ℚ :=
  match get w.dict (lower key) with
  | none => .error .keyError
  | some l =>
    match w.info, w.energy with
    | .lines, none => .ok ((x.lineEnergy w.z l).getD 0)
    | .bindingE, none => .ok ((x.edgeEnergy w.z l).getD 0)
    | .jump, none => .ok ((x.jump w.z l).getD 0)
    | .yield, none => .ok ((x.fluorYield w.z l).getD 0)
    | .cs, some e => .ok ((x.cs w.z l e).getD 0)
    | .csb, some e => .ok ((x.csb w.z l e).getD 0)
    | _, _ => .error .typeError

/-- `XrfElement(element)`: the table entry and the four wrappers made by `__init__`; xrf.py 503-512. -/
structure Xrf where
  el : Element
  emissionLine : Wrap
  bindEnergy : Wrap
  jumpFactor : Wrap
  fluorYield : Wrap
  deriving DecidableEq, Repr

/-- `XrfElement.__init__`; xrf.py 503-512; the properties that return the four wrappers, xrf.py 514-523, 565-574, 576-585,
587-596, are the fields. -/
def newXrf (t : Dct Key Element) (k : Key) : Py Xrf :=
  match basicElement t k with
  | .error e => .error e
  | .ok el =>
    match newWrap el.z "lines", newWrap el.z "binding_e", newWrap el.z "jump", newWrap el.z "yield" with
    | .ok a, .ok b, .ok c, .ok d => .ok ⟨el, a, b, c, d⟩
    | _, _, _, _ => .error .keyError

/-- `e.cs(incident_energy)`: a new object at every call; xrf.py 525-543. -/
def Xrf.cs (e : Xrf) (incident : ℚ) : Py Wrap := newWrapEnergy e.el.z "cs" incident

/-- `e.csb(incident_energy)`; xrf.py 545-563. -/
def Xrf.csb (e : Xrf) (incident : ℚ) : Py Wrap := newWrapEnergy e.el.z "csb" incident

/-! ### A session: objects are created, their incident energies are changed -/

/-- Statements of a session, with the constructors of this module. -/
inductive Stmt where
  | wrap (z : ℤ) (info : String)
  | wrapEnergy (z : ℤ) (info : String) (energy : ℚ)
  | cs (k : Key) (energy : ℚ)
  | csb (k : Key) (energy : ℚ)
  | setEnergy (obj : ℕ) (energy : ℚ)

/-- The objects of a session, in order of creation. -/
abbrev Heap := List Wrap

/-- A constructed object is appended; a constructor that raises adds none. -/
def push (h : Heap) : Py Wrap → Heap
  | .ok w => h ++ [w]
  | .error _ => h

/-- One statement. -/
def exec (t : Dct Key Element) (h : Heap) : Stmt → Heap
  | .wrap z info => push h (newWrap z info)
  | .wrapEnergy z info e => push h (newWrapEnergy z info e)
  | .cs k e => push h (match newXrf t k with | .ok el => el.cs e | .error err => .error err)
  | .csb k e => push h (match newXrf t k with | .ok el => el.csb e | .error err => .error err)
  | .setEnergy i e => h.modify i (fun w => w.setEnergy e)

/-- A session. -/
def session (t : Dct Key Element) (h : Heap) (ss : List Stmt) : Heap := ss.foldl (exec t) h

end Verif.Consts
