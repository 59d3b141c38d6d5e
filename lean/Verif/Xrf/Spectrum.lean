/- Model of skbeam/core/fitting/xrf_model.py: parameter hints, element models, assembled spectrum, linear model. -/
import Verif.Xrf.Fit

namespace Verif.Xrf
open Verif

/-! ### lmfit parameter hints -/

/-- One entry of lmfit's `Model.param_hints`. -/
structure Hint where
  value : Option ℚ := none
  vary : Option Bool := none
  min : Option ℚ := none
  max : Option ℚ := none
  expr : Option String := none
  deriving DecidableEq, Repr

/-- lmfit `set_param_hint(name, **kwargs)`: the given fields replace those of the hint, the others stay.  The names are those
without the prefix of the model, which lmfit removes; used in xrf_model.py 191-201, 269, 678-706, 758-1056. -/
def setHint (name : String) (f : Hint → Hint) (hs : Dict Hint) : Dict Hint := setKey name (f ((get name hs).getD {})) hs

/-- The fields `_set_parameter_hint` sets for one entry of the parameter dict; xrf_model.py 189-203. -/
def entryHint (e : Entry) : Py (Hint → Hint) :=
  if e.bound = "none" then .ok (fun h => { h with value := some e.value, vary := some true })
  else if e.bound = "fixed" then .ok (fun h => { h with value := some e.value, vary := some false })
  else if e.bound = "lohi" then .ok (fun h => { h with value := some e.value, vary := some true, min := some e.lo, max := some e.hi })
  else if e.bound = "lo" then .ok (fun h => { h with value := some e.value, vary := some true, min := some e.lo })
  else if e.bound = "hi" then .ok (fun h => { h with value := some e.value, vary := some true, max := some e.hi })
  else .error .valueError

/-- `_set_parameter_hint`; xrf_model.py 174-211. -/
def setParameterHint (name : String) (e : Entry) (hs : Dict Hint) : Py (Dict Hint) := do
  let f ← entryHint e
  .ok (setHint name f hs)

/-- `if key in params: _set_parameter_hint(name, params[key], model)`. -/
def setFromParams (params : Dict Entry) (key name : String) (hs : Dict Hint) : Py (Dict Hint) :=
  match get key params with
  | none => .ok hs
  | some e => setParameterHint name e hs

/-- Value of an lmfit parameter without expression: moved into its bounds (lmfit requires min < max). -/
def clip (h : Hint) : Option ℚ := h.value.map (fun v =>
  let w := match h.min with
    | none => v
    | some m => if v < m then m else v
  match h.max with
  | none => w
  | some m => if m < w then m else w)

/-! ### scattering models -/

/-- xrf_model.py 658-673. -/
def comptonNames : List String := ["coherent_sct_energy", "compton_amplitude", "compton_angle", "fwhm_offset", "fwhm_fanoprime", "e_offset", "e_linear",
  "e_quadratic", "compton_gamma", "compton_f_tail", "compton_f_step", "compton_fwhm_corr", "compton_hi_gamma", "compton_hi_f_tail"]

/-- xrf_model.py 628-634. -/
def elementLabels : List String := ["e_offset", "e_linear", "e_quadratic", "fwhm_offset", "fwhm_fanoprime"]

/-- xrf_model.py 636-643. -/
def elasticLabels : List String := ["e_offset", "e_linear", "e_quadratic", "fwhm_offset", "fwhm_fanoprime", "coherent_sct_energy"]

/-- `hint(value, vary=False)`. -/
def fixAt (v : ℚ) (h : Hint) : Hint := { h with value := some v, vary := some false }

/-- `for name in names: if name in params: _set_parameter_hint(name, params[name], model)`; xrf_model.py 676-678, 702-704. -/
def setNames (params : Dict Entry) : List String → Dict Hint → Py (Dict Hint)
  | [], hs => .ok hs
  | n :: ns, hs => do
    let hs ← setFromParams params n n hs
    setNames params ns hs

/-- `setup_compton_model`; xrf_model.py 652-683. -/
def comptonHints (params : Dict Entry) (eps : ℚ) : Py (Dict Hint) := do
  let hs ← setNames params comptonNames (setHint "epsilon" (fixAt (296 / 100)) [])
  .ok (setHint "epsilon" (fixAt eps) hs)

/-- `_copy_model_param_hints`; xrf_model.py 214-269: value of the Compton model's parameter, no expression. -/
def copyHints (comp : Dict Hint) : List String → Dict Hint → Dict Hint
  | [], hs => hs
  | l :: ls, hs => copyHints comp ls (setHint l (fun h => { h with value := (get l comp).bind clip, expr := none }) hs)

/-- `setup_elastic_model`; xrf_model.py 685-708. -/
def elasticHints (params : Dict Entry) (eps : ℚ) (comp : Dict Hint) : Py (Dict Hint) := do
  let hs ← setNames params (elasticLabels ++ ["coherent_sct_amplitude"]) (copyHints comp elasticLabels (setHint "epsilon" (fixAt (296 / 100)) []))
  .ok (setHint "epsilon" (fixAt eps) hs)

/-! ### element models -/

/-- Hints common to all peaks: the ElementModel's own epsilon, the global parameters, epsilon; xrf_model.py 170-171, 757-760, 842-845, 912-915, 973-976, 1022-1025. -/
def baseHints (comp : Dict Hint) (eps : ℚ) : Dict Hint :=
  setHint "epsilon" (fixAt eps) (copyHints comp elementLabels (setHint "epsilon" (fixAt (296 / 100)) []))

/-- Position, width and branching ratio adjustments; xrf_model.py 800-813, 872-885, 945-958, 993-1006, 1043-1056. -/
def adjustHints (params : Dict Entry) (pre : String) (hs : Dict Hint) : Py (Dict Hint) := do
  let hs ← setFromParams params (pre ++ "delta_center") "delta_center" hs
  let hs ← setFromParams params (pre ++ "delta_sigma") "delta_sigma" hs
  setFromParams params (pre ++ "ratio_adjust") "ratio_adjust" hs

/-- Area, position and width hints of a K line before the parameter dict is applied; xrf_model.py 766-785. -/
def kStart (el l : String) (d : ℚ) (hs : Dict Hint) : Dict Hint :=
  if l = "ka1" then
    setHint "delta_sigma" (fixAt 0) (setHint "delta_center" (fixAt 0) (setHint "area" (fun h => { h with value := some d, vary := some true, min := some 0 }) hs))
  else if l = "ka2" then
    setHint "delta_center" (fun h => { fixAt 0 h with expr := some (el ++ "_ka1_" ++ "delta_center") })
      (setHint "delta_sigma" (fun h => { fixAt 0 h with expr := some (el ++ "_ka1_" ++ "delta_sigma") })
        (setHint "area" (fun h => { h with value := some d, vary := some true, expr := some (el ++ "_ka1_" ++ "area") }) hs))
  else
    setHint "delta_sigma" (fixAt 0) (setHint "delta_center" (fixAt 0)
      (setHint "area" (fun h => { h with value := some d, vary := some true, expr := some (el ++ "_ka1_" ++ "area") }) hs))

/-- One K line; xrf_model.py 755-813. -/
def kModel (cs en : Cs) (params : Dict Entry) (comp : Dict Hint) (eps : ℚ) (el l : String) (d : ℚ) : Py (Dict Hint) := do
  let pre := el ++ "_" ++ l ++ "_"
  let hs ← setFromParams params (pre ++ "area") "area" (kStart el l d (baseHints comp eps))
  adjustHints params pre (setHint "ratio_adjust" (fixAt 1) (setHint "ratio" (fixAt (cs el l / cs el "ka1")) (setHint "center" (fixAt (en el l)) hs)))

/-- Area hint of an L or M line before the parameter dict is applied; xrf_model.py 851-856, 921-926. -/
def lmStart (el l first : String) (d : ℚ) (hs : Dict Hint) : Dict Hint :=
  if l = first then setHint "area" (fun h => { h with value := some d, vary := some true }) hs
  else setHint "area" (fun h => { h with value := some d, vary := some true, expr := some (el ++ "_" ++ first ++ "_" ++ "area") }) hs

/-- One L or M line, `first` is la1 or ma1; xrf_model.py 840-885, 910-958 (the M branch applies the area entry twice). -/
def lmModel (cs en : Cs) (params : Dict Entry) (comp : Dict Hint) (eps : ℚ) (first el l : String) (d : ℚ) : Py (Dict Hint) := do
  let pre := el ++ "_" ++ l ++ "_"
  let hs ← setFromParams params (pre ++ "area") "area" (lmStart el l first d (baseHints comp eps))
  adjustHints params pre (setHint "ratio_adjust" (fixAt 1) (setHint "delta_sigma" (fixAt 0) (setHint "delta_center" (fixAt 0)
    (setHint "ratio" (fixAt (cs el l / cs el first)) (setHint "sigma" (fixAt 1) (setHint "center" (fixAt (en el l)) hs))))))

/-- A user or pile-up peak; xrf_model.py 968-1006, 1015-1056 (the two branches set the same hints, in different order). -/
def lonePeak (params : Dict Entry) (comp : Dict Hint) (eps : ℚ) (pre : String) (center d : ℚ) : Py (Dict Hint) := do
  let hs := setHint "ratio_adjust" (fixAt 1) (setHint "ratio" (fixAt 1) (setHint "center" (fixAt center) (setHint "delta_sigma" (fixAt 0) (setHint "delta_center" (fixAt 0)
    (setHint "area" (fun h => { h with value := some d, vary := some true, min := some 0 }) (baseHints comp eps))))))
  let hs ← setFromParams params (pre ++ "area") "area" hs
  adjustHints params pre hs

/-- `if area_name in parameter: default_area = parameter[area_name]["value"]`. -/
def areaValue (params : Dict Entry) (key : String) (d : ℚ) : ℚ := ((get key params).map Entry.value).getD d

/-- Loop over the lines of a shell (`c` is the letter looked for): `default_area` of one line stays for the next;
xrf_model.py 745-818, 830-889, 900-963. -/
def shellLoop (cs : Cs) (params : Dict Entry) (c : Char) (el : String) (mk : String → ℚ → Py (Dict Hint)) : ℚ → List String → Py (List (String × Dict Hint))
  | _, [] => .ok []
  | d, l :: ls =>
    if c ∉ l.toList ∨ cs el l = 0 then shellLoop cs params c el mk d ls
    else do
      let d' := areaValue params (el ++ "_" ++ l ++ "_area") d
      let m ← mk l d'
      let rest ← shellLoop cs params c el mk d' ls
      .ok ((el ++ "_" ++ l ++ "_", m) :: rest)

/-- The completion of a line name; xrf_model.py 1129-1133. -/
def completeLine (line : String) : String :=
  let l := lower line
  if l.length = 1 then l ++ "a1" else if l.length = 2 then l ++ "1" else l

/-- `get_line_energy`; xrf_model.py 1107-1137: `en` is xraylib's line energy for a known element, 0 for a line that does not
exist; the table of line names raises KeyError. -/
def lineEnergy (en : Cs) (name : String) : Py ℚ :=
  match split '_' name with
  | [el, line] => if completeLine line ∈ allLines then .ok (en el (completeLine line)) else .error .keyError
  | _ => .error .valueError

/-- `setup_element_model`; xrf_model.py 710-1059: `none` is Python's None; a model is a list of peaks with prefix and hints. -/
def setupElement (cs en : Cs) (params : Dict Entry) (comp : Dict Hint) (eps : ℚ) (element : String) (d : ℚ) : Py (Option (List (String × Dict Hint))) :=
  let el := symbolOf element
  if element ∈ kLine then
    if cs el "ka1" = 0 then .ok none else (shellLoop cs params 'k' el (kModel cs en params comp eps el) d allLines).map some
  else if element ∈ lLine then
    if cs el "la1" = 0 then .ok none else (shellLoop cs params 'l' el (lmModel cs en params comp eps "la1" el) d allLines).map some
  else if element ∈ mLine then
    if cs el "ma1" = 0 then .ok none else (shellLoop cs params 'm' el (lmModel cs en params comp eps "ma1" el) d allLines).map some
  else if hasUser element then do
    let pre := element ++ "_"
    let m ← lonePeak params comp eps pre 5 (areaValue params (pre ++ "area") d)
    .ok (some [(pre, m)])
  else
    match split '-' element with
    | [l1, l2] => do
      let e1 ← lineEnergy en l1
      let e2 ← lineEnergy en l2
      let pre := "pileup_" ++ replaceDash element ++ "_"
      let m ← lonePeak params comp eps pre (e1 + e2) (areaValue params (pre ++ "area") d)
      .ok (some [(pre, m)])
    | _ => .error .valueError

/-! ### evaluation -/

/-- `CompositeModel.param_hints`: all hints under their full names. -/
def flat (models : List (String × Dict Hint)) : Dict Hint := models.flatMap (fun m => m.2.map (fun bh => (m.1 ++ bh.1, bh.2)))

/-- Value of parameter `b` of one peak in `make_params()` of the composite model (lmfit): the value of the parameter named in
the expression, or the own value inside the bounds.  Expressions here name parameters without expression, one step is enough. -/
def paramValue (models : List (String × Dict Hint)) (m : String × Dict Hint) (b : String) : Option ℚ :=
  match get b m.2 with
  | none => none
  | some h =>
    match h.expr with
    | none => clip h
    | some s => (get s (flat models)).bind clip

/-- One peak of a model evaluated on channel x with the values of `make_params()`. -/
noncomputable def peakValue (models : List (String × Dict Hint)) (m : String × Dict Hint) (x : ℝ) : Option ℝ := do
  let a ← paramValue models m "area"
  let c ← paramValue models m "center"
  let dc ← paramValue models m "delta_center"
  let ds ← paramValue models m "delta_sigma"
  let r ← paramValue models m "ratio"
  let ra ← paramValue models m "ratio_adjust"
  let fo ← paramValue models m "fwhm_offset"
  let ff ← paramValue models m "fwhm_fanoprime"
  let eo ← paramValue models m "e_offset"
  let el ← paramValue models m "e_linear"
  let eq ← paramValue models m "e_quadratic"
  let ep ← paramValue models m "epsilon"
  some (elementPeak x a c dc ds r ra fo ff eo el eq ep)

/-- Sum of the values of a list of peaks. -/
noncomputable def sumPeaks (models : List (String × Dict Hint)) (x : ℝ) : List (String × Dict Hint) → Option ℝ
  | [] => some 0
  | m :: ms => do
    let y ← peakValue models m x
    let s ← sumPeaks models x ms
    some (y + s)

/-- `e_model.eval(x, params=e_model.make_params())`: the sum of the peaks. -/
noncomputable def evalModel (models : List (String × Dict Hint)) (x : ℝ) : Option ℝ := sumPeaks models x models

/-- Arguments of `element_peak_xrf`, in order; xrf_model.py 98-112. -/
def peakParams : List String := ["area", "center", "delta_center", "delta_sigma", "ratio", "ratio_adjust", "fwhm_offset", "fwhm_fanoprime", "e_offset", "e_linear",
  "e_quadratic", "epsilon"]

/-- `"area" in k`. -/
def hasArea (s : String) : Bool := decide ("area".toList <:+: s.toList)

/-- Parameters of `make_params()`: the arguments of all peaks, then the hints that are no arguments. -/
def allParams (models : List (String × Dict Hint)) : List ((String × Dict Hint) × String) :=
  models.flatMap (fun m => peakParams.map (fun b => (m, b))) ++
  models.flatMap (fun m => (m.2.filter (fun bh => bh.1 ∉ peakParams)).map (fun bh => (m, bh.1)))

/-- `element_area[elemental_line]`: the last parameter with "area" in its name; xrf_model.py 1284-1286. -/
def elementArea (models : List (String × Dict Hint)) : Option ℚ :=
  ((allParams models).filter (fun mb => hasArea (mb.1.1 ++ mb.2))).getLast?.bind (fun mb => paramValue models mb.1 mb.2)

/-- One component of the linear model: name, column, area. -/
structure Column where
  name : String
  at' : ℝ → Option ℝ
  area : Option ℚ

/-- Own value of a parameter of the Compton or elastic model. -/
def ownValue (hs : Dict Hint) (b : String) : Option ℚ := (get b hs).bind clip

/-- The Compton model evaluated with its own parameters; xrf_model.py 1292-1296. -/
noncomputable def comptonColumn (comp : Dict Hint) (x : ℝ) : Option ℝ := do
  let a ← ownValue comp "compton_amplitude"
  let en ← ownValue comp "coherent_sct_energy"
  let fo ← ownValue comp "fwhm_offset"
  let ff ← ownValue comp "fwhm_fanoprime"
  let eo ← ownValue comp "e_offset"
  let el ← ownValue comp "e_linear"
  let eq ← ownValue comp "e_quadratic"
  let an ← ownValue comp "compton_angle"
  let fc ← ownValue comp "compton_fwhm_corr"
  let fs ← ownValue comp "compton_f_step"
  let ft ← ownValue comp "compton_f_tail"
  let g ← ownValue comp "compton_gamma"
  let ht ← ownValue comp "compton_hi_f_tail"
  let hg ← ownValue comp "compton_hi_gamma"
  let ep ← ownValue comp "epsilon"
  some (Line.compton x a en fo ff eo el eq an fc fs ft g ht hg ep)

/-- The elastic model evaluated with its own parameters; xrf_model.py 1298-1302. -/
noncomputable def elasticColumn (ela : Dict Hint) (x : ℝ) : Option ℝ := do
  let a ← ownValue ela "coherent_sct_amplitude"
  let en ← ownValue ela "coherent_sct_energy"
  let fo ← ownValue ela "fwhm_offset"
  let ff ← ownValue ela "fwhm_fanoprime"
  let eo ← ownValue ela "e_offset"
  let el ← ownValue ela "e_linear"
  let eq ← ownValue ela "e_quadratic"
  let ep ← ownValue ela "epsilon"
  some (Line.elastic x a en fo ff eo el eq ep)

/-- Loop of `construct_linear_model` over the elemental lines; xrf_model.py 1280-1290. -/
noncomputable def elementColumns (cs en : Cs) (params : Dict Entry) (comp : Dict Hint) (eps d : ℚ) : List String → Py (List Column)
  | [] => .ok []
  | e :: es => do
    let m ← setupElement cs en params comp eps e d
    let rest ← elementColumns cs en params comp eps d es
    match m with
    | none => .ok rest
    | some models => .ok (⟨e, evalModel models, elementArea models⟩ :: rest)

/-- `construct_linear_model`; xrf_model.py 1248-1306: names, columns and areas in one list; `eps` is
params["non_fitting_values"]["epsilon"]. -/
noncomputable def linearModel (cs en : Cs) (params : Dict Entry) (eps : ℚ) (lines : List String) (d : ℚ) : Py (List Column) := do
  let comp ← comptonHints params eps
  let ela ← elasticHints params eps comp
  let cols ← elementColumns cs en params comp eps d lines
  .ok (cols ++ [⟨"compton", comptonColumn comp, ownValue comp "compton_amplitude"⟩, ⟨"elastic", elasticColumn ela, ownValue ela "coherent_sct_amplitude"⟩])

open Classical in
/-- `area_dict` of `linear_spectrum_fitting` before "background" is added; xrf_model.py 1398-1405: coefficient times the area
of the component. -/
noncomputable def areaDict (ch : ℕ) (A : ℕ → ℕ → ℝ) (out : ℕ → ℝ) (names : List String) (area : ℕ → ℝ) : Dict ℝ :=
  (names.zipIdx).foldl (fun d ni => if ∑ c ∈ Finset.range ch, out ni.2 * A c ni.2 = 0 then d else setKey ni.1 (out ni.2 * area ni.2) d) []

/-! ### assembled model -/

/-- `name.startswith(p)`. -/
def startsWith (p name : String) : Bool := p.toList.isPrefixOf name.toList
/-- `name.endswith(p)`. -/
def endsWith (p name : String) : Bool := p.toList.isSuffixOf name.toList

/-- `_copy_model_param_hints_EXPR`; xrf_model.py 272-323 (the entry `hint_values[label]` is not a field lmfit reads). -/
def tie (hints : Dict Hint) : Dict Hint :=
  hints.map (fun nh =>
    if startsWith "compton" nh.1 then nh
    else (nh.1, (if startsWith "elastic" nh.1 then elasticLabels else elementLabels).foldl
      (fun h label => if endsWith label nh.1 ∧ label ≠ nh.1 then { h with expr := some label } else h) nh.2))

/-- Loop of `assemble_models`: adding None to a composite model raises in lmfit; xrf_model.py 1061-1068. -/
def addElements (cs en : Cs) (params : Dict Entry) (comp : Dict Hint) (eps : ℚ) : List String → Py (List (String × Dict Hint))
  | [] => .ok []
  | e :: es => do
    let m ← setupElement cs en params comp eps e 100000
    match m with
    | none => .error .valueError
    | some models => do
      let rest ← addElements cs en params comp eps es
      .ok (models ++ rest)

/-- `assemble_models`; xrf_model.py 1061-1079: the hints of the complete model (lmfit also refuses two components with the same
parameter names; not modelled). -/
def assembled (cs en : Cs) (params : Dict Entry) (eps : ℚ) (lines : List String) : Py (Dict Hint) := do
  let comp ← comptonHints params eps
  let ela ← elasticHints params eps comp
  let models ← addElements cs en params comp eps lines
  .ok (tie (flat (("", comp) :: ("elastic_", ela) :: models)))

/-! ### small functions -/

/-- `k: v[name]`; xrf_model.py 1215. -/
def strategyEntry (name : String) (kv : String × Dict String) : Py (String × String) :=
  match get name kv.2 with
  | none => .error .keyError
  | some v => .ok (kv.1, v)

/-- `extract_strategy`; xrf_model.py 1198-1215: entries are dicts of strings. -/
def extractStrategy (param : Dict (Dict String)) (name : String) : Py (Dict String) :=
  (param.filter (fun kv => kv.1 ≠ "non_fitting_values")).mapM (strategyEntry name)

/-- `params[key]["value"]`. -/
def valueAt (params : Dict Entry) (key : String) : Py ℚ :=
  match get key params with
  | none => .error .keyError
  | some e => .ok e.value

/-- `compute_escape_peak`; xrf_model.py 1218-1245. -/
def escapePeak (params : Dict Entry) (spectrum : List ℚ) (ratio escapeE : ℚ) : Py (List ℚ × List ℚ) := do
  let e0 ← valueAt params "e_offset"
  let e1 ← valueAt params "e_linear"
  let e2 ← valueAt params "e_quadratic"
  .ok ((List.range spectrum.length).map (fun (k : ℕ) => e0 + e1 * (k : ℚ) + e2 * (k : ℚ) ^ 2 - escapeE), spectrum.map (fun s => s * ratio))

end Verif.Xrf
