/- Specification for properties C161-C168: the peaks of a spectrum. -/
import Verif.Xrf.Model
import Mathlib.Analysis.SpecialFunctions.Log.Basic
import Mathlib.Analysis.SpecialFunctions.Trigonometric.Basic

namespace Verif.Xrf
open Verif

/-! ## specification -/

/-- Every entry of the parameter dict has one of the five bound types. -/
def Spec.ValidBounds (params : Dict Entry) : Prop := ∀ k e, get k params = some e → e.bound ∈ ["none", "fixed", "lohi", "lo", "hi"]

/-- The value an entry stands for: moved into the limits its bound type mentions. -/
def Spec.start (e : Entry) : ℚ :=
  if e.bound = "lohi" then min e.hi (max e.lo e.value) else if e.bound = "lo" then max e.lo e.value else if e.bound = "hi" then min e.hi e.value else e.value

/-- An adjustment: its entry if there is one, the default otherwise. -/
def Spec.adjust (params : Dict Entry) (key : String) (default : ℚ) : ℚ := ((get key params).map Spec.start).getD default

/-- The value of an entry that may not be negative unless the entry has its own lower limit. -/
def Spec.nonneg (e : Entry) : ℚ :=
  if e.bound = "lohi" ∨ e.bound = "lo" then Spec.start e else if e.bound = "hi" then min e.hi (max 0 e.value) else max 0 e.value

/-- Area of a K shell, user or pile-up peak. -/
def Spec.kArea (params : Dict Entry) (key : String) (default : ℚ) : ℚ := ((get key params).map Spec.nonneg).getD (max 0 default)

/-- A peak: area, energy, shifts of position and width, branching ratio and its adjustment. -/
structure Spec.Peak where
  area : ℚ
  center : ℚ
  deltaCenter : ℚ
  deltaSigma : ℚ
  ratio : ℚ
  ratioAdjust : ℚ

/-- Gaussian peak on channel x: calibrated energy, width from the detector resolution. -/
noncomputable def Spec.peakAt (params : Dict Entry) (eps : ℚ) (p : Spec.Peak) (x : ℝ) : ℝ :=
  let v := fun key => ((Spec.adjust params key 0 : ℚ) : ℝ)
  let e := v "e_offset" + x * v "e_linear" + x ^ 2 * v "e_quadratic"
  let mu : ℝ := p.center + p.deltaCenter
  let sigma := p.deltaSigma + √((v "fwhm_offset" / (2 * √(2 * Real.log 2))) ^ 2 + mu * eps * v "fwhm_fanoprime")
  p.area / (√(2 * Real.pi) * sigma) * Real.exp (-(e - mu) ^ 2 / (2 * sigma ^ 2)) * p.ratio * p.ratioAdjust

/-- Excited K lines: common area, own energy and branching ratio; position and width shifts of ka2 are those of ka1. -/
def Spec.kPeaks (cs en : Cs) (params : Dict Entry) (el : String) (d : ℚ) : List Spec.Peak :=
  (kTransitions.filter (fun l => cs el l ≠ 0)).map (fun l =>
    let owner := if l = "ka2" then "ka1" else l
    ⟨Spec.kArea params (el ++ "_ka1_area") d, en el l, Spec.adjust params (el ++ "_" ++ owner ++ "_delta_center") 0,
      Spec.adjust params (el ++ "_" ++ owner ++ "_delta_sigma") 0, cs el l / cs el "ka1", Spec.adjust params (el ++ "_" ++ l ++ "_ratio_adjust") 1⟩)

/-- Peak of line l of an L or M shell: the area of the first line, own energy, branching ratio and adjustments. -/
def Spec.lmPeak (cs en : Cs) (params : Dict Entry) (first el : String) (d : ℚ) (l : String) : Spec.Peak :=
  ⟨Spec.adjust params (el ++ "_" ++ first ++ "_area") d, en el l, Spec.adjust params (el ++ "_" ++ l ++ "_delta_center") 0,
    Spec.adjust params (el ++ "_" ++ l ++ "_delta_sigma") 0, cs el l / cs el first, Spec.adjust params (el ++ "_" ++ l ++ "_ratio_adjust") 1⟩

/-- Excited lines of an L or M shell. -/
def Spec.lmPeaks (cs en : Cs) (params : Dict Entry) (lines : List String) (first el : String) (d : ℚ) : List Spec.Peak :=
  (lines.filter (fun l => cs el l ≠ 0)).map (Spec.lmPeak cs en params first el d)

/-- A user or pile-up peak. -/
def Spec.lonePeak (params : Dict Entry) (pre : String) (center d : ℚ) : Spec.Peak :=
  ⟨Spec.kArea params (pre ++ "_area") d, center, Spec.adjust params (pre ++ "_delta_center") 0, Spec.adjust params (pre ++ "_delta_sigma") 0, 1,
    Spec.adjust params (pre ++ "_ratio_adjust") 1⟩

/-- The parameters the spectrum model needs are in the dict. -/
def Spec.HasGlobals (params : Dict Entry) : Prop := ∀ key ∈ ["e_offset", "e_linear", "e_quadratic", "fwhm_offset", "fwhm_fanoprime"], (get key params).isSome

end Verif.Xrf
