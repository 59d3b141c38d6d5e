/- Model of skbeam/core/fitting/base/parameter_data.py and of `set_default` in skbeam/core/fitting/models.py. -/
import Verif.Xrf.Spectrum

namespace Verif.Xrf
open Verif

/-- `default_param`; parameter_data.py 208-276.  The entry "non_fitting_values" holds no fitting parameter; its contents are
not modelled (the other functions skip it). -/
def defaultParam : Dict Entry := [
  ("coherent_sct_amplitude", ⟨"none", 1 / 10, 10000000, 100000⟩),
  ("coherent_sct_energy", ⟨"lohi", 9, 13, 10⟩),
  ("compton_amplitude", ⟨"none", 1 / 10, 10000000, 100000⟩),
  ("compton_angle", ⟨"lohi", 80, 100, 90⟩),
  ("compton_f_step", ⟨"fixed", 0, 1 / 100, 1 / 100⟩),
  ("compton_f_tail", ⟨"fixed", 1 / 10000, 3 / 10, 5 / 100⟩),
  ("compton_fwhm_corr", ⟨"lohi", 5 / 10, 25 / 10, 15 / 10⟩),
  ("compton_gamma", ⟨"lohi", 38 / 10, 42 / 10, 4⟩),
  ("compton_hi_f_tail", ⟨"fixed", 1 / 1000000, 1, 1 / 10⟩),
  ("compton_hi_gamma", ⟨"fixed", 1 / 10, 3, 2⟩),
  ("e_linear", ⟨"lohi", 9 / 1000, 11 / 1000, 1 / 100⟩),
  ("e_offset", ⟨"lohi", -1 / 100, 15 / 1000, 0⟩),
  ("e_quadratic", ⟨"lohi", -1 / 1000000, 1 / 1000000, 0⟩),
  ("fwhm_fanoprime", ⟨"fixed", 1 / 10000000, 1 / 10000, 1 / 1000000⟩),
  ("fwhm_offset", ⟨"lohi", 16 / 100, 19 / 100, 178 / 1000⟩),
  ("non_fitting_values", ⟨"", 0, 0, 0⟩)]

/-- The names of a strategy table, in the order of parameter_data.py 105-120. -/
def strategyNames : List String := ["coherent_sct_amplitude", "coherent_sct_energy", "compton_amplitude", "compton_angle", "compton_f_step", "compton_f_tail",
  "compton_fwhm_corr", "compton_gamma", "compton_hi_f_tail", "compton_hi_gamma", "e_linear", "e_offset", "e_quadratic", "fwhm_fanoprime", "fwhm_offset",
  "non_fitting_values"]

/-- `adjust_element`; parameter_data.py 104-121. -/
def adjustElement : Dict String := strategyNames.zip ["none", "fixed", "none", "fixed", "fixed", "fixed", "lohi", "fixed", "fixed", "fixed", "fixed", "fixed",
  "fixed", "fixed", "fixed", "fixed"]
/-- `e_calibration`; parameter_data.py 123-140. -/
def eCalibration : Dict String := strategyNames.zip ["none", "fixed", "none", "fixed", "fixed", "fixed", "fixed", "fixed", "fixed", "fixed", "lohi", "lohi",
  "fixed", "fixed", "fixed", "fixed"]
/-- `linear`; parameter_data.py 142-159. -/
def linearStrategy : Dict String := strategyNames.zip ["none", "fixed", "none", "fixed", "fixed", "fixed", "fixed", "fixed", "fixed", "fixed", "fixed", "fixed",
  "fixed", "fixed", "fixed", "fixed"]
/-- `free_more`; parameter_data.py 161-178. -/
def freeMore : Dict String := strategyNames.zip ["none", "lohi", "none", "lohi", "lohi", "fixed", "lohi", "lohi", "fixed", "fixed", "lohi", "lohi",
  "lohi", "lohi", "lohi", "fixed"]
/-- `fit_with_tail`; parameter_data.py 180-197. -/
def fitWithTail : Dict String := strategyNames.zip ["none", "lohi", "none", "lohi", "fixed", "lohi", "lohi", "fixed", "fixed", "fixed", "lohi", "lohi",
  "lohi", "lohi", "lohi", "fixed"]

/-- `_STRATEGY_REGISTRY`; xrf_model.py 354-360. -/
def registry : Dict (Dict String) := [("linear", linearStrategy), ("adjust_element", adjustElement), ("e_calibration", eCalibration),
  ("fit_with_tail", fitWithTail), ("free_more", freeMore)]

/-- Parameter dicts as objects: address to contents.  Address 0 is the module's `default_param`. -/
abbrev Heap := ℕ → Dict Entry

/-- `get_para`; parameter_data.py 279-285: the module's own object. -/
def getPara : ℕ := 0

/-- `set_parameter_bound(param, option)` on the object at an address; xrf_model.py 381-405. -/
def setBoundAt (h : Heap) (a : ℕ) (option : String) : Py Unit × Heap :=
  let r := setParameterBound registry (h a) option none
  (r.1, Function.update h a r.2)

/-- One pass of the loop of `set_default`; models.py 72-92. -/
def defaultHint (paras : Dict Entry) (name : String) (hs : Dict Hint) : Py (Dict Hint) :=
  match get name paras with
  | none => .ok hs
  | some e =>
    if e.bound = "none" then .ok (setHint name (fun h => { h with vary := some true }) hs)
    else if e.bound = "fixed" then .ok (setHint name (fun h => { h with vary := some false, value := some e.value }) hs)
    else if e.bound = "lo" then .ok (setHint name (fun h => { h with value := some e.value, vary := some true, min := some e.lo }) hs)
    else if e.bound = "hi" then .ok (setHint name (fun h => { h with value := some e.value, vary := some true, max := some e.hi }) hs)
    else if e.bound = "lohi" then .ok (setHint name (fun h => { h with value := some e.value, vary := some true, min := some e.lo, max := some e.hi }) hs)
    else .error .typeError

/-- The loop of `set_default`; models.py 72-92. -/
def defaultHints (paras : Dict Entry) : List String → Dict Hint → Py (Dict Hint)
  | [], hs => .ok hs
  | n :: ns, hs => do
    let hs ← defaultHint paras n hs
    defaultHints paras ns hs

/-- `set_default(model, func)`; models.py 57-92: `args` are the argument names of the function, of which the first is the
independent variable.  (`inspect.getargspec` no longer exists from Python 3.11 on.) -/
def setDefault (paras : Dict Entry) (args : List String) (hs : Dict Hint) : Py (Dict Hint) := defaultHints paras (args.drop 1) hs

end Verif.Xrf
