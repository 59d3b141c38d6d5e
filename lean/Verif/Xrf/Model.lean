/- Model of skbeam/core/fitting/xrf_model.py: fitting strategies, activated lines, parameter names. -/
import Verif.Np
import Mathlib.Data.List.Infix
import Mathlib.Data.List.Sort

namespace Verif.Xrf
open Verif

/-! ### tables -/

/-- xrf_model.py 66-72. -/
def kLine : List String := ["Li_K", "Be_K", "B_K", "C_K", "N_K", "O_K", "F_K", "Ne_K", "Na_K", "Mg_K", "Al_K", "Si_K", "P_K", "S_K", "Cl_K", "Ar_K", "K_K",
  "Ca_K", "Sc_K", "Ti_K", "V_K", "Cr_K", "Mn_K", "Fe_K", "Co_K", "Ni_K", "Cu_K", "Zn_K", "Ga_K", "Ge_K", "As_K", "Se_K", "Br_K",
  "Kr_K", "Rb_K", "Sr_K", "Y_K", "Zr_K", "Nb_K", "Mo_K", "Tc_K", "Ru_K", "Rh_K", "Pd_K", "Ag_K", "Cd_K", "In_K", "Sn_K", "Sb_K", "Te_K", "I_K"]

/-- xrf_model.py 74-81. -/
def lLine : List String := ["Ga_L", "Ge_L", "As_L", "Se_L", "Br_L", "Kr_L", "Rb_L", "Sr_L", "Y_L", "Zr_L", "Nb_L", "Mo_L", "Tc_L", "Ru_L", "Rh_L", "Pd_L",
  "Ag_L", "Cd_L", "In_L", "Sn_L", "Sb_L", "Te_L", "I_L", "Xe_L", "Cs_L", "Ba_L", "La_L", "Ce_L", "Pr_L", "Nd_L", "Pm_L", "Sm_L",
  "Eu_L", "Gd_L", "Tb_L", "Dy_L", "Ho_L", "Er_L", "Tm_L", "Yb_L", "Lu_L", "Hf_L", "Ta_L", "W_L", "Re_L", "Os_L", "Ir_L", "Pt_L",
  "Au_L", "Hg_L", "Tl_L", "Pb_L", "Bi_L", "Po_L", "At_L", "Rn_L", "Fr_L", "Ac_L", "Th_L", "Pa_L", "U_L", "Np_L", "Pu_L", "Am_L"]

/-- xrf_model.py 83-86. -/
def mLine : List String := ["Hf_M", "Ta_M", "W_M", "Re_M", "Os_M", "Ir_M", "Pt_M", "Au_M", "Hg_M", "Tl_M", "Pb_M", "Bi_M", "Sm_M", "Eu_M", "Gd_M", "Tb_M",
  "Dy_M", "Ho_M", "Er_M", "Tm_M", "Yb_M", "Lu_M", "Th_M", "Pa_M", "U_M"]

/-- xrf_model.py 88. -/
def kTransitions : List String := ["ka1", "ka2", "ka3", "kb1", "kb2", "kb3", "kb4", "kb5"]
/-- xrf_model.py 89-90. -/
def lTransitions : List String := ["la1", "la2", "lb1", "lb2", "lb3", "lb4", "lb5", "lg1", "lg2", "lg3", "lg4", "ll", "ln"]
/-- xrf_model.py 91. -/
def mTransitions : List String := ["ma1", "ma2", "mb", "mg"]

/-- TRANSITIONS_LOOKUP; xrf_model.py 93-94. -/
def transitionsOf (line : String) : Py (List String) :=
  if line = "K" then .ok kTransitions else if line = "L" then .ok lTransitions else if line = "M" then .ok mTransitions else .error .keyError

/-- `line_name`; constants/xrf.py 53-79. -/
def lineName : List String := ["Ka1", "Ka2", "Ka3", "Kb1", "Kb2", "Kb3", "Kb4", "kb5", "La1", "La2", "Lb1", "Lb2", "Lb3", "Lb4", "Lb5", "Lg1", "Lg2", "Lg3",
  "Lg4", "Ll", "Ln", "Ma1", "Ma2", "Mb", "Mg"]

/-- Python `str.lower` (ASCII letters). -/
def lower (s : String) : String := String.ofList (s.toList.map Char.toLower)

/-- The names of `emission_line.all`: the sorted keys of the line table; constants/xrf.py 191, 274, 278-280. -/
def allLines : List String := (lineName.map lower).insertionSort (fun a b => a ≤ b)

/-! ### string operations -/

/-- `s.split(c)` for one character, on character lists. -/
def splitList (c : Char) : List Char → List (List Char)
  | [] => [[]]
  | x :: xs => if x = c then [] :: splitList c xs else (x :: (splitList c xs).headD []) :: (splitList c xs).tail

/-- `s.split(c)`. -/
def split (c : Char) (s : String) : List String := (splitList c s.toList).map String.ofList

/-- `s.replace("-", "_")`. -/
def replaceDash (s : String) : String := String.ofList (s.toList.map (fun c => if c = '-' then '_' else c))

/-- `"user" in s.lower()`. -/
def hasUser (s : String) : Bool := decide ("user".toList <:+: (lower s).toList)

/-- `name.split("_")[0]`. -/
def symbolOf (name : String) : String := (split '_' name).headD ""

/-! ### fitting strategies -/

/-- Python dict with string keys, in insertion order. -/
abbrev Dict (α : Type) := List (String × α)

/-- `d[k] = v`. -/
def setKey {α : Type} (k : String) (v : α) : Dict α → Dict α
  | [] => [(k, v)]
  | (k', v') :: d => if k' = k then (k', v) :: d else (k', v') :: setKey k v d

/-- `d.get(k)`. -/
def get {α : Type} (k : String) : Dict α → Option α
  | [] => none
  | (k', v) :: d => if k' = k then some v else get k d

/-- One entry of the parameter dict.  The entry "non_fitting_values" has other fields; the model gives it this type too
but never reads or writes it. -/
structure Entry where
  bound : String
  lo : ℚ
  hi : ℚ
  value : ℚ
  deriving DecidableEq, Repr

/-- `register_strategy`; xrf_model.py 363-378: dictionaries are identified by an object number, RuntimeError is
`PyErr.exception`.  Result and registry afterwards. -/
def registerStrategy (reg : Dict (ℕ × Dict String)) (key : String) (strategy : ℕ × Dict String) (overwrite : Bool) : Py Unit × Dict (ℕ × Dict String) :=
  if overwrite = false ∧ (get key reg).isSome then
    if (get key reg).map Prod.fst = some strategy.1 then (.ok (), reg) else (.error .exception, reg)
  else (.ok (), setKey key strategy reg)

/-- `set_parameter_bound`; xrf_model.py 381-405.  Result and parameter dict afterwards. -/
def setParameterBound (reg : Dict (Dict String)) (param : Dict Entry) (option : String) (extra : Option (Dict String)) : Py Unit × Dict Entry :=
  if (get option reg).isNone then (.error .keyError, param)
  else
    let strat := (get option reg).getD []
    (.ok (), param.map (fun kv => if kv.1 = "non_fitting_values" then kv
      else (kv.1, { kv.2 with bound := (get kv.1 strat).getD ((get kv.1 (extra.getD [])).getD "fixed") })))

/-- `update_parameter_dict`; xrf_model.py 326-351: `values` are the fitted values. -/
def updateParameterDict (param : Dict Entry) (values : Dict ℚ) : Dict Entry :=
  param.map (fun kv =>
    let name := if kv.1 = "coherent_sct_amplitude" ∨ kv.1 = "coherent_sct_energy" then "elastic_" ++ kv.1 else replaceDash kv.1
    (kv.1, { kv.2 with value := (get name values).getD kv.2.value }))

/-! ### activated lines -/

/-- Fluorescence cross section of element and line at the incident energy, 0 if not excited (xraylib). -/
abbrev Cs := String → String → ℚ

/-- `_get_activated_line`; xrf_model.py 1434-1485: `none` is Python's None. -/
def activatedLine (cs : Cs) (name : String) : Option (List String) :=
  let el := symbolOf name
  let pick := fun (lines : List String) => (lines.filter (fun l => cs el l ≠ 0)).map (fun l => el ++ "_" ++ l)
  if name ∈ kLine then if cs el "ka1" = 0 then none else some (pick (allLines.take 4))
  else if name ∈ lLine then if cs el "la1" = 0 then none else some (pick ((allLines.drop 4).take (allLines.length - 4 - 4)))
  else if name ∈ mLine then if cs el "ma1" = 0 then none else some (pick (allLines.drop (allLines.length - 4)))
  else none

/-- `get_activated_lines`; xrf_model.py 1412-1431. -/
def activatedLines (cs : Cs) (names : List String) : List String := names.flatMap (fun n => (activatedLine cs n).getD [])

/-! ### parameter controller -/

/-- PARAM_DEFAULTS; xrf_model.py 411-416. -/
def paramDefault (kind : String) : Entry :=
  if kind = "area" then ⟨"none", 0, 1000000000, 1000⟩
  else if kind = "pos" then ⟨"fixed", -5 / 1000, 5 / 1000, 0⟩
  else if kind = "ratio" then ⟨"fixed", 1 / 10, 5, 1⟩
  else ⟨"fixed", -2 / 100, 2 / 100, 0⟩

/-- PARAM_SUFFIXES[kind]; xrf_model.py 510-511. -/
def suffixOf (kind : String) : Py String :=
  if kind = "pos" then .ok "delta_center" else if kind = "width" then .ok "delta_sigma" else if kind = "ratio" then .ok "ratio_adjust" else .error .keyError

/-- State of a `ParamController`; xrf_model.py 437-443 (`_original_params` is never changed and left out). -/
structure Ctl where
  params : Dict Entry
  elements : List String
  linenames : List String
  strategy : Dict String
  deriving DecidableEq

/-- Parameter name of `_add_area_param`; xrf_model.py 552-567. -/
def areaName (element : String) : Py String :=
  if element ∈ kLine then .ok (symbolOf element ++ "_ka1_area")
  else if element ∈ lLine then .ok (symbolOf element ++ "_la1_area")
  else if element ∈ mLine then .ok (symbolOf element ++ "_ma1_area")
  else if hasUser element then .ok (element ++ "_area")
  else if '-' ∈ element.toList then .ok ("pileup_" ++ replaceDash element ++ "_area")
  else .error .valueError

/-- Names of the parameters added for an element of at most four characters; xrf_model.py 513-524. -/
def lineParamNames (linenames : List String) (element suffix : String) : Py (List String) :=
  match split '_' element with
  | [sym, line] => do
    let ts ← transitionsOf line
    .ok (((ts.map (fun t => sym ++ "_" ++ t)).filter (fun n => n ∈ linenames)).map (fun n => n ++ "_" ++ suffix))
  | _ => .error .valueError

/-- Names of all parameters added by `add_param`; xrf_model.py 507-538. -/
def paramNames (linenames : List String) (kind element : String) : Py (List String) :=
  if kind = "area" then (areaName element).map (fun n => [n])
  else do
    let suffix ← suffixOf kind
    if element.length ≤ 4 then lineParamNames linenames element suffix
    else if hasUser element then .ok [element ++ "_" ++ suffix]
    else .ok ["pileup_" ++ replaceDash element ++ suffix]

/-- Adding one parameter; xrf_model.py 525-528 (and 531-535, 539-543, 569-574). -/
def addOne (kind : String) (constraint : Option String) (s : Ctl) (name : String) : Ctl :=
  { s with params := setKey name (paramDefault kind) s.params
           strategy := match constraint with | none => s.strategy | some c => setKey name c s.strategy }

/-- `add_param`; xrf_model.py 485-574.  Result and state afterwards (also after an exception). -/
def addParam (cs : Cs) (s : Ctl) (kind element : String) (constraint : Option String) : Py Unit × Ctl :=
  let s1 := if element ∈ s.elements then s else { s with elements := s.elements ++ [element], linenames := s.linenames ++ activatedLines cs [element] }
  match paramNames s1.linenames kind element with
  | .error e => (.error e, s1)
  | .ok names => (.ok (), names.foldl (addOne kind constraint) s1)

/-- A sequence of `add_param` calls that stops at the first exception. -/
def addAll (cs : Cs) (s : Ctl) : List (String × String × Option String) → Py Unit × Ctl
  | [] => (.ok (), s)
  | (kind, element, constraint) :: rest =>
    match addParam cs s kind element constraint with
    | (.error e, s') => (.error e, s')
    | (.ok (), s') => addAll cs s' rest

/-- `ParamController(params, elemental_lines)`; xrf_model.py 425-453. -/
def initCtl (cs : Cs) (params : Dict Entry) (elements : List String) : Py Unit × Ctl :=
  addAll cs ⟨params, elements, activatedLines cs elements, []⟩
    (elements.flatMap (fun e => ["pos", "width", "area", "ratio"].map (fun k => (k, e, (none : Option String)))))

/-- `update_element_prop(element_list, **kwargs)`; xrf_model.py 466-483. -/
def updateElementProp (cs : Cs) (s : Ctl) (elements : List String) (kwargs : List (String × Option String)) : Py Unit × Ctl :=
  addAll cs s (elements.flatMap (fun e => kwargs.map (fun kc => (kc.1, e, kc.2))))

/-- `set_strategy(name)`; xrf_model.py 455-464. -/
def setStrategy (reg : Dict (Dict String)) (s : Ctl) (name : String) : Py Unit × Ctl :=
  let r := setParameterBound reg s.params name (some s.strategy)
  (r.1, { s with params := r.2 })

/-! ### what the spectrum model reads -/

/-- Names under which `setup_element_model` looks up the adjustable values with the given suffix ("area",
"delta_center", "delta_sigma", "ratio_adjust") of an elemental line; xrf_model.py 736-1058. -/
def modelReads (cs : Cs) (element suffix : String) : Py (List String) :=
  let el := symbolOf element
  let pick := fun (c : Char) (first : String) =>
    if cs el first = 0 then [] else (allLines.filter (fun l => c ∈ l.toList ∧ cs el l ≠ 0)).map (fun l => el ++ "_" ++ l ++ "_" ++ suffix)
  if element ∈ kLine then .ok (pick 'k' "ka1")
  else if element ∈ lLine then .ok (pick 'l' "la1")
  else if element ∈ mLine then .ok (pick 'm' "ma1")
  else if hasUser element then .ok [element ++ "_" ++ suffix]
  else if (split '-' element).length = 2 then .ok ["pileup_" ++ replaceDash element ++ "_" ++ suffix]
  else .error .valueError

/-- `assemble_models` adds `setup_element_model(element)` to the composite model; it is None, and lmfit raises, for an
element whose first line is not excited; xrf_model.py 739-741, 824-828, 894-898, 1061-1068. -/
def assemble (cs : Cs) : List String → Py (List String)
  | [] => .ok []
  | e :: rest =>
    let el := symbolOf e
    if (e ∈ kLine ∧ cs el "ka1" = 0) ∨ (e ∉ kLine ∧ e ∈ lLine ∧ cs el "la1" = 0) ∨ (e ∉ kLine ∧ e ∉ lLine ∧ e ∈ mLine ∧ cs el "ma1" = 0) then .error .valueError
    else do
      let ns ← modelReads cs e "area"
      let r ← assemble cs rest
      .ok (ns ++ r)

/-- `sum_area`; xrf_model.py 577-606: `values` are the fitted values by name. -/
def sumArea (values : Dict ℚ) (name : String) : Py ℚ :=
  match split '_' name with
  | [sym, line] => do
    let ts ← transitionsOf line
    ts.foldlM (fun (acc : ℚ) t =>
      match get (sym ++ "_" ++ t ++ "_area") values with
      | none => Except.ok acc
      | some a =>
        match get (sym ++ "_" ++ t ++ "_ratio") values, get (sym ++ "_" ++ t ++ "_ratio_adjust") values with
        | some r, some ra => Except.ok (acc + a * r * ra)
        | _, _ => Except.error PyErr.keyError) 0
  | _ => .error .valueError

end Verif.Xrf
