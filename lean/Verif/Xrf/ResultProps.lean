/- Properties C119 (continued) and C169: areas of a fit result, fit results written back into the parameter dict. -/
import Verif.Xrf.SpectrumMore

namespace Verif.Xrf
open Verif

/-! ## C119 sum_area -/

/-- The fitted numbers of one line. -/
structure Spec.Fitted where
  area : ℚ
  ratio : ℚ
  ratioAdjust : ℚ

/-- Line t of element sym was fitted with these numbers, or not at all. -/
def Spec.IsFitted (values : Dict ℚ) (sym t : String) : Option Spec.Fitted → Prop
  | none => get (sym ++ "_" ++ t ++ "_area") values = none
  | some f => get (sym ++ "_" ++ t ++ "_area") values = some f.area ∧ get (sym ++ "_" ++ t ++ "_ratio") values = some f.ratio ∧
    get (sym ++ "_" ++ t ++ "_ratio_adjust") values = some f.ratioAdjust

theorem sum_fold (values : Dict ℚ) (sym : String) (fit : String → Option Spec.Fitted) (ts : List String) (h : ∀ t ∈ ts, Spec.IsFitted values sym t (fit t)) (a0 : ℚ) :
    ts.foldlM (fun (acc : ℚ) t =>
      match get (sym ++ "_" ++ t ++ "_area") values with
      | none => Except.ok acc
      | some a =>
        match get (sym ++ "_" ++ t ++ "_ratio") values, get (sym ++ "_" ++ t ++ "_ratio_adjust") values with
        | some r, some ra => Except.ok (acc + a * r * ra)
        | _, _ => Except.error PyErr.keyError) a0 =
    (Except.ok (a0 + ((ts.filterMap fit).map (fun f => f.area * f.ratio * f.ratioAdjust)).sum) : Py ℚ) := by
  induction ts generalizing a0 with
  | nil => simp only [List.foldlM_nil, List.filterMap_nil, List.map_nil, List.sum_nil, add_zero]; rfl
  | cons t ts ih =>
    have ht := h t List.mem_cons_self
    rw [List.foldlM_cons]
    cases hf : fit t with
    | none =>
      rw [hf] at ht
      rw [List.filterMap_cons_none hf, ht]
      exact ih (fun u hu => h u (List.mem_cons_of_mem _ hu)) a0
    | some f =>
      rw [hf] at ht
      obtain ⟨h1, h2, h3⟩ := ht
      rw [List.filterMap_cons_some hf, h1, h2, h3]
      simp only [bind, Except.bind]
      rw [ih (fun u hu => h u (List.mem_cons_of_mem _ hu)), List.map_cons, List.sum_cons]
      congr 1
      ring

/-- sum_area: the total over the fitted lines of the shell of area times branching ratio times its adjustment, which is the
integral of all peaks of the element (C119_peak_area). -/
theorem C119_sum_area (values : Dict ℚ) (sym shell : String) (hs : '_' ∉ sym.toList) (ts : List String)
    (hts : (shell = "K" ∧ ts = ["ka1", "ka2", "ka3", "kb1", "kb2", "kb3", "kb4", "kb5"]) ∨
      (shell = "L" ∧ ts = ["la1", "la2", "lb1", "lb2", "lb3", "lb4", "lb5", "lg1", "lg2", "lg3", "lg4", "ll", "ln"]) ∨ (shell = "M" ∧ ts = ["ma1", "ma2", "mb", "mg"]))
    (fit : String → Option Spec.Fitted) (h : ∀ t ∈ ts, Spec.IsFitted values sym t (fit t)) :
    sumArea values (sym ++ "_" ++ shell) = .ok ((ts.filterMap fit).map (fun f => f.area * f.ratio * f.ratioAdjust)).sum := by
  have hsh : '_' ∉ shell.toList := by rcases hts with ⟨rfl, _⟩ | ⟨rfl, _⟩ | ⟨rfl, _⟩ <;> decide
  have htr : transitionsOf shell = .ok ts := by rcases hts with ⟨rfl, rfl⟩ | ⟨rfl, rfl⟩ | ⟨rfl, rfl⟩ <;> rfl
  unfold sumArea
  rw [show ("_" : String) = String.ofList ['_'] from rfl, split_str '_' sym shell hs hsh]
  simp only [htr, bind, Except.bind]
  exact (sum_fold values sym fit ts h 0).trans (by rw [zero_add])

example : sumArea [("Fe_ka1_area", 10), ("Fe_ka1_ratio", 1), ("Fe_ka1_ratio_adjust", 1), ("Fe_kb1_area", 10), ("Fe_kb1_ratio", 1 / 5), ("Fe_kb1_ratio_adjust", 2), ("Cu_ka1_area", 7)] "Fe_K" = .ok 14 := by
  decide +kernel

/-! ## C169 results written back -/

/-- update_parameter_dict: every entry gets the fitted value of its parameter, an entry that was not fitted keeps its value;
keys, order, bound types and limits stay.  Elastic amplitude and energy are found under the prefix of the elastic peak,
pile-up entries "A-B" under "A_B". -/
theorem C169_update (param : Dict Entry) (values : Dict ℚ) :
    (updateParameterDict param values).length = param.length ∧
    ∀ (i : ℕ) (key : String) (e : Entry), param[i]? = some (key, e) → ∃ e', (updateParameterDict param values)[i]? = some (key, e') ∧
      e'.bound = e.bound ∧ e'.lo = e.lo ∧ e'.hi = e.hi ∧
      (key ∈ ["coherent_sct_amplitude", "coherent_sct_energy"] → e'.value = (get ("elastic_" ++ key) values).getD e.value) ∧
      (key ∉ ["coherent_sct_amplitude", "coherent_sct_energy"] → '-' ∉ key.toList → e'.value = (get key values).getD e.value) ∧
      (∀ a b, '-' ∉ a.toList → '-' ∉ b.toList → key = a ++ "-" ++ b → e'.value = (get (a ++ "_" ++ b) values).getD e.value) := by
  refine ⟨by simp [updateParameterDict], fun i key e h => ?_⟩
  have hel : ∀ k ∈ ["coherent_sct_amplitude", "coherent_sct_energy"], '-' ∉ k.toList := by decide
  have rep : ∀ (a b : String), '-' ∉ a.toList → '-' ∉ b.toList → replaceDash (a ++ "-" ++ b) = a ++ "_" ++ b := by
    intro a b ha hb
    rw [replaceDash_append, replaceDash_append, replaceDash_none a ha, replaceDash_none b hb]
    rfl
  refine ⟨{ e with value := (get (if key = "coherent_sct_amplitude" ∨ key = "coherent_sct_energy" then "elastic_" ++ key else replaceDash key) values).getD e.value },
    by unfold updateParameterDict; rw [List.getElem?_map, h]; rfl, rfl, rfl, rfl, ?_, ?_, ?_⟩
  · intro hk
    simp only [if_pos (show key = "coherent_sct_amplitude" ∨ key = "coherent_sct_energy" by simpa using hk)]
  · intro hk hd
    simp only [if_neg (show ¬(key = "coherent_sct_amplitude" ∨ key = "coherent_sct_energy") by simpa using hk), replaceDash_none key hd]
  · intro a b ha hb hab
    have hk : key ∉ ["coherent_sct_amplitude", "coherent_sct_energy"] := fun hm => hel _ hm (by rw [hab]; simp)
    simp only [if_neg (show ¬(key = "coherent_sct_amplitude" ∨ key = "coherent_sct_energy") by simpa using hk)]
    rw [hab, rep a b ha hb]

/-- After a fit of the assembled model the calibration in the dict is the calibration every peak was fitted with, the elastic
peak included. -/
theorem C169_common_energy (cs en : Cs) (params : Dict Entry) (hv : Spec.ValidBounds params) (hg : Spec.HasGlobals params) (eps : ℚ) (lines : List String) (hints : Dict Hint)
    (h : assembled cs en params eps lines = .ok hints) (v : String → ℚ) (hties : ∀ nh ∈ hints, ∀ s, nh.2.expr = some s → v nh.1 = v s)
    (values : Dict ℚ) (hval : ∀ n ∈ hints.map Prod.fst, get n values = some (v n)) (hn : "elastic_coherent_sct_energy" ∈ hints.map Prod.fst) (i : ℕ) (e : Entry)
    (hi : params[i]? = some ("coherent_sct_energy", e)) :
    ∃ e', (updateParameterDict params values)[i]? = some ("coherent_sct_energy", e') ∧ e'.value = v "coherent_sct_energy" := by
  obtain ⟨e', h1, _, _, _, h2, _⟩ := (C169_update params values).2 i _ e hi
  refine ⟨e', h1, ?_⟩
  rw [h2 (by decide), show ("elastic_" ++ "coherent_sct_energy" : String) = "elastic_coherent_sct_energy" from rfl, hval _ hn]
  exact (C165_tied_partial cs en params hv hg eps lines hints h v hties "e_offset" (by decide)).2.2.2

example : updateParameterDict [("e_offset", ⟨"fixed", 0, 1, 0⟩), ("coherent_sct_energy", ⟨"none", 0, 0, 12⟩), ("pileup_Cl_K-Cl_K_area", ⟨"none", 0, 0, 1⟩), ("Fe_ka1_area", ⟨"lo", 0, 0, 5⟩)]
    [("e_offset", 1 / 2), ("coherent_sct_energy", 11), ("elastic_coherent_sct_energy", 11), ("pileup_Cl_K_Cl_K_area", 3)] =
    [("e_offset", ⟨"fixed", 0, 1, 1 / 2⟩), ("coherent_sct_energy", ⟨"none", 0, 0, 11⟩), ("pileup_Cl_K-Cl_K_area", ⟨"none", 0, 0, 3⟩), ("Fe_ka1_area", ⟨"lo", 0, 0, 5⟩)] := by decide +kernel

-- C169_common_energy: the elastic peak of the example of C165 has that parameter.
example : ((assembled exCs exEn exParams 3 ["Fe_K"]).map (fun hs => decide ("elastic_coherent_sct_energy" ∈ hs.map Prod.fst))).toOption = some true := by decide +kernel

end Verif.Xrf
