/- Properties C165-C168, continued: names of user peaks, line energies, pile-up peaks, escape peaks, bounds of the fit. -/
import Verif.Xrf.SpectrumProps

namespace Verif.Xrf
open Verif

theorem split_two (c : Char) (a b : List Char) (ha : c ∉ a) (hb : c ∉ b) : splitList c (a ++ c :: b) = [a, b] := by
  have h1 : ∀ l : List Char, c ∉ l → splitList c l = [l] := by
    intro l hl
    induction l with
    | nil => rfl
    | cons x xs ih =>
      rw [splitList, if_neg (fun hx => hl (by rw [hx]; simp)), ih (fun hx => hl (by simp [hx]))]
      rfl
  induction a with
  | nil => simp [splitList, h1 b hb]
  | cons x xs ih =>
    rw [List.cons_append, splitList, if_neg (fun hx => ha (by rw [hx]; simp)), ih (fun hx => ha (by simp [hx]))]
    rfl

theorem split_str (c : Char) (a b : String) (ha : c ∉ a.toList) (hb : c ∉ b.toList) : split c (a ++ String.ofList [c] ++ b) = [a, b] := by
  unfold split
  rw [String.toList_append, String.toList_append, String.toList_ofList, List.append_assoc, List.singleton_append, split_two c _ _ ha hb]
  simp

theorem split_length (c : Char) (l : List Char) : (splitList c l).length = l.count c + 1 := by
  induction l with
  | nil => rfl
  | cons a l ih =>
    rw [splitList, List.count_cons]
    split_ifs with h1 <;> simp_all

/-! ## C165 continued -/

theorem startsWith_append (p s t : String) (h : startsWith p s = true) : startsWith p (s ++ t) = true := by
  unfold startsWith at *
  rw [List.isPrefixOf_iff_prefix] at *
  rw [String.toList_append]
  exact h.trans (List.prefix_append _ _)

/-- A user peak whose name starts with "compton" has its own, free calibration and resolution in the assembled model. -/
theorem C165_compton_name_refuted (cs en : Cs) (params : Dict Entry) (hv : Spec.ValidBounds params) (hg : Spec.HasGlobals params) (eps : ℚ) (lines : List String) (hints : Dict Hint)
    (h : assembled cs en params eps lines = .ok hints) (label : String) (hlab : label ∈ ["e_offset", "e_linear", "e_quadratic", "fwhm_offset", "fwhm_fanoprime"])
    (e : String) (he : e ∈ lines) (ht : e ∉ kLine ++ lLine ++ mLine) (hu : hasUser e = true) (hc : startsWith "compton" e = true) :
    ∃ hint, (e ++ "_" ++ label, hint) ∈ hints ∧ hint.expr = none ∧ hint.vary ≠ some false := by
  obtain ⟨comp, ela, models, e1, e2, e3, rfl, hcomp⟩ := assembled_split hv h
  obtain ⟨ms, hs, hsub⟩ := add_mem cs en params comp eps lines models e3 e he
  simp only [List.mem_append, not_or] at ht
  unfold setupElement at hs
  simp only [if_neg ht.1.1, if_neg ht.1.2, if_neg ht.2, if_pos hu, bind, Except.bind] at hs
  obtain ⟨hs', f1, p, _⟩ := lonePeak_ok hv hg hcomp eps (e ++ "_") 5 (areaValue params (e ++ "_" ++ "area") 100000)
  rw [f1] at hs
  have hms : [(e ++ "_", hs')] = ms := by injection hs with hs; injection hs
  refine ⟨{ value := some (Spec.adjust params label 0) }, List.mem_map.2 ⟨(e ++ "_" ++ label, _), List.mem_flatMap.2 ⟨(e ++ "_", hs'), ?_, List.mem_map.2 ⟨_, get_mem _ _ _ (p.globals label hlab), rfl⟩⟩, ?_⟩, rfl, by simp⟩
  · simp [hsub _ (hms ▸ List.mem_singleton.2 rfl)]
  · have : startsWith "compton" (e ++ "_" ++ label) = true := by
      rw [String.append_assoc]
      exact startsWith_append _ _ _ hc
    simp only [this, if_true]

/-! ## C166 line energies and pile-up peaks -/

theorem underscore_line (line t : String) (h : lower line = t) (ht : '_' ∉ t.toList) : '_' ∉ line.toList := by
  intro hm
  apply ht
  rw [← h, lower, String.toList_ofList, List.mem_map]
  exact ⟨'_', hm, by decide⟩

theorem lineEnergy_eq (en : Cs) (el line : String) (hel : '_' ∉ el.toList) (hl : '_' ∉ line.toList) :
    lineEnergy en (el ++ "_" ++ line) = if completeLine line ∈ allLines then .ok (en el (completeLine line)) else .error .keyError := by
  unfold lineEnergy
  rw [show ("_" : String) = String.ofList ['_'] from rfl, split_str '_' el line hel hl]

/-- get_line_energy: a line written in full, in any capitalization, gives the energy of that line; the shell alone or the
shell and series give the energy of the first line of the series. -/
theorem C166_line_energy_partial (en : Cs) (el line : String) (hel : '_' ∉ el.toList) :
    (∀ t ∈ kTransitions ++ lTransitions ++ mTransitions, t.length = 3 → lower line = t → lineEnergy en (el ++ "_" ++ line) = .ok (en el t)) ∧
    (∀ t ∈ ["ka1", "la1", "ma1"], lower line ++ "a1" = t → lineEnergy en (el ++ "_" ++ line) = .ok (en el t)) ∧
    (∀ t ∈ ["ka1", "kb1", "la1", "lb1", "lg1", "ma1"], lower line ++ "1" = t → lineEnergy en (el ++ "_" ++ line) = .ok (en el t)) := by
  have hall : ∀ t ∈ kTransitions ++ lTransitions ++ mTransitions, t ∈ allLines := by decide +kernel
  have hno : ∀ t ∈ kTransitions ++ lTransitions ++ mTransitions, '_' ∉ t.toList := by decide +kernel
  refine ⟨fun t ht h3 h => ?_, fun t ht h => ?_, fun t ht h => ?_⟩
  · rw [lineEnergy_eq en el line hel (underscore_line line t h (hno t ht))]
    have hc : completeLine line = t := by
      unfold completeLine
      simp only [h, h3]
      rfl
    rw [hc, if_pos (hall t ht)]
  · have ht' : t ∈ kTransitions ++ lTransitions ++ mTransitions := by clear h; revert t; decide
    have hl3 : t.length = 3 := by clear h; revert t; decide
    have hl : (lower line).length = 1 := by
      have := congrArg String.length h
      rw [String.length_append, hl3] at this
      have h2 : "a1".length = 2 := rfl
      omega
    have hu : '_' ∉ (lower line).toList := fun hm => hno t ht' (by rw [← h, String.toList_append]; exact List.mem_append_left _ hm)
    rw [lineEnergy_eq en el line hel (underscore_line line _ rfl hu)]
    have hc : completeLine line = t := by
      unfold completeLine
      simp only [hl, if_true]
      exact h
    rw [hc, if_pos (hall t ht')]
  · have ht' : t ∈ kTransitions ++ lTransitions ++ mTransitions := by clear h; revert t; decide
    have hl3 : t.length = 3 := by clear h; revert t; decide
    have hl : (lower line).length = 2 := by
      have := congrArg String.length h
      rw [String.length_append, hl3] at this
      have h2 : "1".length = 1 := rfl
      omega
    have hu : '_' ∉ (lower line).toList := fun hm => hno t ht' (by rw [← h, String.toList_append]; exact List.mem_append_left _ hm)
    rw [lineEnergy_eq en el line hel (underscore_line line _ rfl hu)]
    have hc : completeLine line = t := by
      unfold completeLine
      simp only [hl, if_true]
      exact h
    rw [hc, if_pos (hall t ht')]

/-- The lines whose full name has two letters are not found under that name. -/
theorem C166_short_names_refuted (en : Cs) (el line : String) (hel : '_' ∉ el.toList) (h : lower line ∈ ["ll", "ln", "mb", "mg"]) :
    lineEnergy en (el ++ "_" ++ line) = .error .keyError := by
  have hu : '_' ∉ line.toList := underscore_line line _ rfl (by revert h; generalize lower line = t; intro h; revert t; decide)
  rw [lineEnergy_eq en el line hel hu]
  have hc : completeLine line ∉ allLines := by
    unfold completeLine
    revert h
    generalize lower line = t
    intro h
    revert t
    decide +kernel
  rw [if_neg hc]

/-- A name without exactly one underscore is refused. -/
theorem C166_bad_name (en : Cs) (name : String) (h : name.toList.count '_' ≠ 1) : lineEnergy en name = .error .valueError := by
  unfold lineEnergy
  split
  · rename_i a b hs
    have : (split '_' name).length = 2 := by rw [hs]; rfl
    rw [split, List.length_map, split_length] at this
    omega
  · rfl

theorem replaceDash_none (s : String) (h : '-' ∉ s.toList) : replaceDash s = s := by
  unfold replaceDash
  conv_rhs => rw [← String.ofList_toList (s := s)]
  congr 1
  conv_rhs => rw [← List.map_id s.toList]
  apply List.map_congr_left
  intro c hc
  have hne : c ≠ '-' := by rintro rfl; exact h hc
  rw [if_neg hne, id]

theorem replaceDash_append (s t : String) : replaceDash (s ++ t) = replaceDash s ++ replaceDash t := by
  unfold replaceDash
  rw [String.toList_append, List.map_append, String.ofList_append]

/-- The component of the linear model for a pile-up "A-B" is one peak at the sum of the energies of the two lines, with its
own area and adjustments. -/
theorem C166_pileup (cs en : Cs) (params : Dict Entry) (hv : Spec.ValidBounds params) (hg : Spec.HasGlobals params) (eps d : ℚ) (lines : List String) (cols : List Column)
    (h : linearModel cs en params eps lines d = .ok cols) (c : Column) (hc : c ∈ cols) (a b : String) (hn : c.name = a ++ "-" ++ b) (ha : '-' ∉ a.toList) (hb : '-' ∉ b.toList)
    (hu : hasUser c.name = false) :
    ∃ ea eb, lineEnergy en a = .ok ea ∧ lineEnergy en b = .ok eb ∧
      (∀ x, c.at' x = some (Spec.peakAt params eps (Spec.lonePeak params ("pileup_" ++ a ++ "_" ++ b) (ea + eb) d) x)) ∧
      (hasArea ("pileup_" ++ a ++ "_" ++ b) = false → c.area = some (Spec.kArea params ("pileup_" ++ a ++ "_" ++ b ++ "_area") d)) := by
  obtain ⟨comp, ela, ecols, e1, e2, e3, rfl, hcomp⟩ := linear_split hv h
  have hd : '-' ∈ c.name.toList := by rw [hn]; simp
  have hno : ∀ n ∈ kLine ++ lLine ++ mLine ++ ["compton", "elastic"], '-' ∉ n.toList := by decide +kernel
  have hnt : c.name ∉ kLine ++ lLine ++ mLine ++ ["compton", "elastic"] := fun hm => hno _ hm hd
  simp only [List.mem_append, not_or, List.mem_cons, List.not_mem_nil] at hnt
  have hin : c ∈ ecols := by
    rcases List.mem_append.1 hc with hc | hc
    · exact hc
    · simp only [List.mem_cons, List.not_mem_nil, or_false] at hc
      rcases hc with rfl | rfl
      · exact absurd rfl hnt.2.1
      · exact absurd rfl hnt.2.2.1
  obtain ⟨_, models, hs, hat, har⟩ := mem_columns cs en params comp eps d lines ecols e3 c hin
  unfold setupElement at hs
  simp only [if_neg hnt.1.1.1, if_neg hnt.1.1.2, if_neg hnt.1.2, hu, Bool.false_eq_true, if_false] at hs
  have hsp : split '-' c.name = [a, b] := by rw [hn]; exact split_str '-' a b ha hb
  have hrep : replaceDash c.name = a ++ "_" ++ b := by
    rw [hn, replaceDash_append, replaceDash_append, replaceDash_none a ha, replaceDash_none b hb]
    rfl
  rw [hsp, hrep] at hs
  simp only [bind, Except.bind] at hs
  cases h1 : lineEnergy en a with
  | error x => rw [h1] at hs; cases hs
  | ok ea =>
    rw [h1] at hs
    simp only at hs
    cases h2 : lineEnergy en b with
    | error x => rw [h2] at hs; cases hs
    | ok eb =>
      rw [h2] at hs
      simp only at hs
      have hpre : "pileup_" ++ (a ++ "_" ++ b) = "pileup_" ++ a ++ "_" ++ b := by simp only [String.append_assoc]
      rw [hpre] at hs
      obtain ⟨hs', f1, f2, f3, f4⟩ := lone_ok hv hg hcomp eps ("pileup_" ++ a ++ "_" ++ b) (ea + eb) d
      rw [f1] at hs
      injection hs with hs
      injection hs with hs
      refine ⟨ea, eb, rfl, rfl, ?_, ?_⟩
      · rw [hat, ← hs]; exact f2
      · rw [har, ← hs]; exact f3

/-! ## C167 escape peaks, strategies -/

/-- compute_escape_peak: one energy and one intensity per channel, the calibrated energy moved down by the escape energy, the
counts times the ratio. -/
theorem C167_escape (params : Dict Entry) (spectrum : List ℚ) (ratio escapeE : ℚ) (e0 e1 e2 : Entry) (h0 : get "e_offset" params = some e0) (h1 : get "e_linear" params = some e1)
    (h2 : get "e_quadratic" params = some e2) :
    ∃ xs ys, escapePeak params spectrum ratio escapeE = .ok (xs, ys) ∧ xs.length = spectrum.length ∧ ys.length = spectrum.length ∧
      ∀ (k : ℕ) (y : ℚ), spectrum[k]? = some y → xs[k]? = some (e0.value + e1.value * (k : ℚ) + e2.value * (k : ℚ) ^ 2 - escapeE) ∧ ys[k]? = some (ratio * y) := by
  refine ⟨_, _, by simp only [escapePeak, valueAt, h0, h1, h2, bind, Except.bind]; rfl, by simp, by simp, ?_⟩
  intro k y hk
  obtain ⟨hlt, _⟩ := List.getElem?_eq_some_iff.1 hk
  rw [List.getElem?_map, List.getElem?_range hlt, List.getElem?_map, hk]
  simp [mul_comm]

/-- Without a complete energy calibration there is no result. -/
theorem C167_no_calibration (params : Dict Entry) (spectrum : List ℚ) (ratio escapeE : ℚ)
    (h : get "e_offset" params = none ∨ get "e_linear" params = none ∨ get "e_quadratic" params = none) : escapePeak params spectrum ratio escapeE = .error .keyError := by
  unfold escapePeak valueAt
  cases h0 : get "e_offset" params with
  | none => rfl
  | some a =>
    cases h1 : get "e_linear" params with
    | none => rfl
    | some b =>
      cases h2 : get "e_quadratic" params with
      | none => rfl
      | some c => simp [h0, h1, h2] at h

theorem mapM_get (name : String) (l : Dict (Dict String)) :
    (∃ kv ∈ l, get name kv.2 = none) ∧ l.mapM (strategyEntry name) = .error .keyError ∨
    ∃ r, l.mapM (strategyEntry name) = .ok r ∧
      List.Forall₂ (fun (kv : String × Dict String) (s : String × String) => s.1 = kv.1 ∧ get name kv.2 = some s.2) l r := by
  induction l with
  | nil => exact Or.inr ⟨[], rfl, List.Forall₂.nil⟩
  | cons a l ih =>
    rw [List.mapM_cons, strategyEntry]
    simp only [bind, Except.bind]
    cases hg : get name a.2 with
    | none => exact Or.inl ⟨⟨a, List.mem_cons_self, hg⟩, rfl⟩
    | some v =>
      rcases ih with ⟨⟨kv, hm, hn⟩, h⟩ | ⟨r, h, hf⟩
      · exact Or.inl ⟨⟨kv, List.mem_cons_of_mem _ hm, hn⟩, by simp only [h]⟩
      · exact Or.inr ⟨(a.1, v) :: r, by simp only [h]; rfl, List.Forall₂.cons ⟨rfl, hg⟩ hf⟩

/-- extract_strategy: one entry for every parameter except non_fitting_values, in order, with the parameter's setting in the
named strategy; KeyError exactly when a parameter has no such setting. -/
theorem C167_strategy (param : Dict (Dict String)) (name : String) :
    (∀ r, extractStrategy param name = .ok r →
      List.Forall₂ (fun (kv : String × Dict String) (s : String × String) => s.1 = kv.1 ∧ get name kv.2 = some s.2) (param.filter (fun kv => kv.1 ≠ "non_fitting_values")) r) ∧
    ((∃ kv ∈ param, kv.1 ≠ "non_fitting_values" ∧ get name kv.2 = none) ↔ extractStrategy param name = .error .keyError) ∧
    (∀ err, extractStrategy param name = .error err → err = .keyError) := by
  unfold extractStrategy
  have hmiss : (∃ kv ∈ param, kv.1 ≠ "non_fitting_values" ∧ get name kv.2 = none) ↔ ∃ kv ∈ param.filter (fun kv => kv.1 ≠ "non_fitting_values"), get name kv.2 = none := by
    constructor
    · rintro ⟨kv, h1, h2, h3⟩; exact ⟨kv, List.mem_filter.2 ⟨h1, by simpa using h2⟩, h3⟩
    · rintro ⟨kv, h1, h2⟩; exact ⟨kv, (List.mem_filter.1 h1).1, by simpa using (List.mem_filter.1 h1).2, h2⟩
  rw [hmiss]
  rcases mapM_get name (param.filter (fun kv => kv.1 ≠ "non_fitting_values")) with ⟨h1, h2⟩ | ⟨r, h1, h2⟩
  · rw [h2]
    exact ⟨fun r h => (by cases h), ⟨fun _ => rfl, fun _ => h1⟩, fun err h => by injection h with h; exact h.symm⟩
  · rw [h1]
    refine ⟨fun r' h => (by injection h with h; exact h ▸ h2), ⟨fun ⟨kv, hm, hn⟩ => ?_, fun h => (by cases h)⟩, fun err h => (by cases h)⟩
    obtain ⟨s, _, hs⟩ := forall₂_right h2 kv hm
    rw [hn] at hs
    cases hs.2

/-! ## C168 bounds of the fit -/

/-- What a bound type asks of the fit: fixed or free, lower and upper limit. -/
def Spec.Bounded (e : Entry) (h : Hint) : Prop :=
  h.value = some e.value ∧ h.vary = some (decide (e.bound ≠ "fixed")) ∧ h.expr = none ∧
  h.min = (if e.bound = "lo" ∨ e.bound = "lohi" then some e.lo else none) ∧ h.max = (if e.bound = "hi" ∨ e.bound = "lohi" then some e.hi else none)

theorem bounded_upd {params : Dict Entry} (hv : Spec.ValidBounds params) (key : String) (e : Entry) (h : get key params = some e) : Spec.Bounded e (upd params key {}) := by
  have hb := hv _ _ h
  unfold Spec.Bounded upd
  rw [h]
  simp only [List.mem_cons, List.not_mem_nil, or_false] at hb
  unfold entryHint
  rcases hb with hb | hb | hb | hb | hb <;> simp [hb]

/-- The assembled model fits every global and Compton parameter within the bounds its entry asks for. -/
theorem C168_bounds_partial (cs en : Cs) (params : Dict Entry) (hv : Spec.ValidBounds params) (eps : ℚ) (lines : List String) (hints : Dict Hint)
    (h : assembled cs en params eps lines = .ok hints) (name : String) (hn : name ∈ comptonNames) (e : Entry) (he : get name params = some e) :
    ∃ hint, (name, hint) ∈ hints ∧ Spec.Bounded e hint := by
  obtain ⟨comp, ela, models, e1, e2, e3, rfl, _⟩ := assembled_split hv h
  obtain ⟨hs, f, g⟩ := setNames_ok hv comptonNames (by decide) (setHint "epsilon" (fixAt (296 / 100)) [])
  rw [comptonHints, f] at e1
  injection e1 with e1
  have hne : ∀ n ∈ comptonNames, n ≠ "epsilon" := by decide
  have hget : get name comp = some (upd params name {}) := by
    rw [← e1, get_setHint, if_neg (hne _ hn), g, if_pos ⟨hn, by rw [he]; rfl⟩, get_setHint, if_neg (hne _ hn)]
    rfl
  refine ⟨upd params name {}, List.mem_map.2 ⟨(name, upd params name {}), List.mem_flatMap.2 ⟨("", comp), List.mem_cons_self, List.mem_map.2 ⟨_, get_mem _ _ _ hget, by simp⟩⟩, ?_⟩, bounded_upd hv name e he⟩
  have hel : ∀ n ∈ comptonNames, startsWith "elastic" n = false := by decide +kernel
  have hlb : ∀ n ∈ comptonNames, ∀ a ∈ elementLabels, endsWith a n = true → a = n := by decide +kernel
  simp only [hel name hn, Bool.false_eq_true, if_false]
  split_ifs
  · rfl
  · rw [fold_same name elementLabels (hlb name hn)]

/-- An unknown bound type of a global or Compton parameter is refused. -/
theorem C168_bad_bound (cs en : Cs) (params : Dict Entry) (eps d : ℚ) (lines : List String) (name : String) (hn : name ∈ comptonNames) (e : Entry) (he : get name params = some e)
    (hb : e.bound ∉ ["none", "fixed", "lohi", "lo", "hi"]) :
    assembled cs en params eps lines = .error .valueError ∧ linearModel cs en params eps lines d = .error .valueError := by
  have hs : ∀ ns hs, name ∈ ns → setNames params ns hs = .error .valueError := by
    intro ns
    induction ns with
    | nil => intro _ h; cases h
    | cons n ns ih =>
      intro hs hm
      rw [setNames]
      by_cases hnn : name = n
      · subst hnn
        have : entryHint e = .error .valueError := by
          simp only [List.mem_cons, List.not_mem_nil, or_false, not_or] at hb
          unfold entryHint
          simp [hb]
        simp only [setFromParams, he, setParameterHint, this, bind, Except.bind]
      · have hm' : name ∈ ns := by simpa [hnn] using hm
        simp only [bind, Except.bind]
        unfold setFromParams setParameterHint entryHint
        cases get n params with
        | none => exact ih _ hm'
        | some e' =>
          simp only [bind, Except.bind]
          split_ifs <;> first | rfl | exact ih _ hm'
  have hc : comptonHints params eps = .error .valueError := by
    unfold comptonHints
    rw [hs _ _ hn]
    rfl
  unfold assembled linearModel
  rw [hc]
  exact ⟨rfl, rfl⟩

theorem area_suffix (p : String) : ∀ a ∈ elasticLabels, endsWith a (p ++ "area") = false := by
  intro a ha
  have hdec : ∀ a ∈ elasticLabels, ¬ a.toList <:+ "area".toList ∧ ¬ "area".toList <:+ a.toList := by decide +kernel
  by_contra hc
  have h1 : endsWith a (p ++ "area") = true := by simpa using hc
  have h2 := endsWith_append p "area"
  unfold endsWith at h1 h2
  rw [List.isSuffixOf_iff_suffix] at h1 h2
  rcases List.suffix_or_suffix_of_suffix h1 h2 with h | h
  · exact (hdec a ha).1 h
  · exact (hdec a ha).2 h

theorem tie_area (models : List (String × Dict Hint)) (m : String × Dict Hint) (hm : m ∈ models) (hint : Hint) (hg : get "area" m.2 = some hint) :
    (m.1 ++ "area", hint) ∈ tie (flat models) := by
  refine List.mem_map.2 ⟨(m.1 ++ "area", hint), List.mem_flatMap.2 ⟨m, hm, List.mem_map.2 ⟨_, get_mem _ _ _ hg, rfl⟩⟩, ?_⟩
  have hno : ∀ a ∈ elasticLabels, endsWith a (m.1 ++ "area") = true → a = m.1 ++ "area" := fun a ha h => by rw [area_suffix m.1 a ha] at h; cases h
  have hsub : ∀ a ∈ elementLabels, a ∈ elasticLabels := by decide
  simp only
  split_ifs
  · rfl
  · rw [fold_same _ elasticLabels hno]
  · rw [fold_same _ elementLabels (fun a ha => hno a (hsub a ha))]

/-- Areas of K lines and user peaks: the entry's bound type "none" leaves the default lower limit zero in place. -/
theorem C168_area_refuted (cs en : Cs) (params : Dict Entry) (hv : Spec.ValidBounds params) (hg : Spec.HasGlobals params) (eps : ℚ) (lines : List String) (hints : Dict Hint)
    (h : assembled cs en params eps lines = .ok hints) (e : String) (he : e ∈ lines) (entry : Entry) (hb : entry.bound = "none") :
    (e ∈ kLine → get (symbolOf e ++ "_ka1_area") params = some entry → ∃ hint, (symbolOf e ++ "_ka1_area", hint) ∈ hints ∧ hint.min = some 0 ∧ ¬ Spec.Bounded entry hint) ∧
    (e ∉ kLine ++ lLine ++ mLine → hasUser e = true → get (e ++ "_area") params = some entry → ∃ hint, (e ++ "_area", hint) ∈ hints ∧ hint.min = some 0 ∧ ¬ Spec.Bounded entry hint) := by
  obtain ⟨comp, ela, models, e1, e2, e3, rfl, hcomp⟩ := assembled_split hv h
  obtain ⟨ms, hs, hsub⟩ := add_mem cs en params comp eps lines models e3 e he
  have hmin : ∀ key d, get key params = some entry → (upd params key { value := some d, vary := some true, min := some 0 }).min = some 0 ∧
      ¬ Spec.Bounded entry (upd params key { value := some d, vary := some true, min := some 0 }) := by
    intro key d hk
    unfold upd Spec.Bounded
    rw [hk]
    unfold entryHint
    simp [hb]
  constructor
  · intro hk hp
    unfold setupElement at hs
    simp only [if_pos hk] at hs
    split_ifs at hs with h0
    · injection hs with hs; cases hs
    · cases hsl : shellLoop cs params 'k' (symbolOf e) (kModel cs en params comp eps (symbolOf e)) 100000 allLines with
      | error x => rw [hsl] at hs; cases hs
      | ok ms' =>
        rw [hsl] at hs
        have hms : ms' = ms := by injection hs with hs; injection hs
        rw [shell_filter] at hsl
        obtain ⟨models', f, hf⟩ := shell_ok cs params 'k' (symbolOf e) (kModel cs en params comp eps (symbolOf e))
          (fun l hs => l = "ka1" → ∃ d, get "area" hs = some (upd params (symbolOf e ++ "_" ++ l ++ "_" ++ "area") { value := some d, vary := some true, min := some 0 }))
          (fun l d => by
            obtain ⟨hs, q, p⟩ := kModel_ok hv hg hcomp eps cs en (symbolOf e) l d
            exact ⟨hs, q, fun hl => ⟨d, by have := p.area; rwa [if_pos hl] at this⟩⟩) 100000 (allLines.filter (fun l => 'k' ∈ l.toList ∧ cs (symbolOf e) l ≠ 0))
          (fun l hl => by simpa using (List.mem_filter.1 hl).2)
        rw [hsl] at f
        injection f with f
        rw [← f] at hf
        obtain ⟨m, hm, g1, g2⟩ := forall₂_right hf "ka1" (List.mem_filter.2 ⟨by decide +kernel, by simpa using h0⟩)
        obtain ⟨d, g2⟩ := g2 rfl
        have hname : symbolOf e ++ "_" ++ "ka1" ++ "_" ++ "area" = symbolOf e ++ "_ka1_area" := by simp only [String.append_assoc]; rfl
        rw [hname] at g2
        have := tie_area (("", comp) :: ("elastic_", ela) :: models) m (by simp [hsub m (hms ▸ hm)]) _ g2
        rw [g1, hname] at this
        exact ⟨_, this, hmin _ d hp⟩
  · intro ht hu hp
    simp only [List.mem_append, not_or] at ht
    unfold setupElement at hs
    simp only [if_neg ht.1.1, if_neg ht.1.2, if_neg ht.2, if_pos hu, bind, Except.bind] at hs
    obtain ⟨hs', f1, p, _⟩ := lonePeak_ok hv hg hcomp eps (e ++ "_") 5 (areaValue params (e ++ "_" ++ "area") 100000)
    rw [f1] at hs
    have hms : [(e ++ "_", hs')] = ms := by injection hs with hs; injection hs
    have hname : e ++ "_" ++ "area" = e ++ "_area" := by simp only [String.append_assoc]; rfl
    have g := p.area
    rw [hname] at g
    have := tie_area (("", comp) :: ("elastic_", ela) :: models) (e ++ "_", hs') (by simp [hsub _ (hms ▸ List.mem_singleton.2 rfl)]) _ g
    rw [show (e ++ "_", hs').1 ++ "area" = e ++ "_area" from hname] at this
    exact ⟨_, this, hmin _ _ hp⟩

/-! ## concrete cases -/

/-- A parameter dict with the calibration, scattering parameters and some areas. -/
def exParams : Dict Entry := [("e_offset", ⟨"lohi", -1, 1, 0⟩), ("e_linear", ⟨"lo", 0, 0, 1 / 100⟩), ("e_quadratic", ⟨"fixed", 0, 0, 0⟩), ("fwhm_offset", ⟨"none", 0, 0, 1 / 10⟩),
  ("fwhm_fanoprime", ⟨"hi", 0, 1, 1 / 1000⟩), ("coherent_sct_energy", ⟨"fixed", 0, 0, 12⟩), ("coherent_sct_amplitude", ⟨"none", 0, 0, 1000⟩), ("compton_amplitude", ⟨"none", 0, 0, 2000⟩),
  ("compton_angle", ⟨"fixed", 0, 0, 90⟩), ("compton_gamma", ⟨"fixed", 0, 0, 2⟩), ("compton_f_tail", ⟨"fixed", 0, 0, 1 / 10⟩), ("compton_f_step", ⟨"fixed", 0, 0, 1 / 100⟩),
  ("compton_fwhm_corr", ⟨"fixed", 0, 0, 1⟩), ("compton_hi_gamma", ⟨"fixed", 0, 0, 1⟩), ("compton_hi_f_tail", ⟨"fixed", 0, 0, 1 / 10⟩), ("Fe_ka1_area", ⟨"none", 0, 0, 500⟩),
  ("compton_user_area", ⟨"none", 0, 0, 7⟩)]

theorem ex_valid : Spec.ValidBounds exParams := by
  intro k e h
  have hall : ∀ ke ∈ exParams, ke.2.bound ∈ ["none", "fixed", "lohi", "lo", "hi"] := by decide
  exact hall (k, e) (get_mem k e _ h)

example : Spec.HasGlobals exParams ∧ Spec.HasScatter exParams := by
  unfold Spec.HasGlobals Spec.HasScatter
  decide

/-- All lines excited with the same strength, at 6 keV. -/
def exCs : Cs := fun _ _ => 1
def exEn : Cs := fun _ _ => 6

-- C161, C162, C163, C164, C166: a spectrum with iron K and gold L and M lines, a user peak and a pile-up peak has a linear model.
example : ∃ cols, linearModel exCs exEn exParams 3 ["Fe_K", "Au_L"] 100 = .ok cols ∧ cols.map Column.name = ["Fe_K", "Au_L", "compton", "elastic"] := by
  obtain ⟨cols, h1, h2⟩ := C164_order exCs exEn exParams ex_valid (by unfold Spec.HasGlobals; decide) 3 100 ["Fe_K", "Au_L"] (by decide +kernel)
  refine ⟨cols, h1, h2.trans ?_⟩
  have : ["Fe_K", "Au_L"].filter (Spec.excited exCs) = ["Fe_K", "Au_L"] := by
    apply List.filter_eq_self.2
    intro a ha
    simp only [List.mem_cons, List.not_mem_nil, or_false] at ha
    rcases ha with rfl | rfl <;> simp [Spec.excited, exCs]
  rw [this]
  rfl

-- C165, C168: an assembled model with a K line, an M line and user peaks, one of them named like the Compton parameters.
example : (assembled exCs exEn exParams 3 ["Fe_K", "Au_M", "userpeak1", "compton_user"]).isOk = true := by decide +kernel
example : "compton_user" ∉ kLine ++ lLine ++ mLine ∧ hasUser "compton_user" = true ∧ startsWith "compton" "compton_user" = true := by decide +kernel
example : startsWith "compton" ("userpeak1" ++ "_" ++ "e_offset") = false := by decide +kernel
example : get (symbolOf "Fe_K" ++ "_ka1_area") exParams = some ⟨"none", 0, 0, 500⟩ := by decide +kernel

-- C164: a name that is no line, no user peak and no pile-up.
example : "Fe" ∉ kLine ++ lLine ++ mLine ∧ hasUser "Fe" = false ∧ "Fe".toList.count '-' ≠ 1 := by decide +kernel

-- C163: user names with and without "area".
example : hasUser "user_area1" = true ∧ hasArea "user_area1" = true ∧ hasUser "userpeak1" = true ∧ hasArea "userpeak1" = false := by decide +kernel

-- C166: line names.
example : lower "KB1" = "kb1" ∧ lower "K" ++ "a1" = "ka1" ∧ lower "Lg" ++ "1" = "lg1" ∧ lower "Mb" = "mb" ∧ "Fe".toList.count '_' ≠ 1 := by decide +kernel
example : lineEnergy (fun el l => if el = "Ca" ∧ l = "kb1" then 4 else 0) "Ca_Kb" = .ok 4 := by decide +kernel
example : hasUser "Fe_Ka1-Si_K" = false ∧ '-' ∉ "Fe_Ka1".toList ∧ hasArea ("pileup_" ++ "Fe_Ka1" ++ "_" ++ "Si_K") = false := by decide +kernel
example : (setupElement exCs exEn exParams [] 3 "Fe_Ka1-Si_K" 100).isOk = true := by decide +kernel

-- C167: an escape peak and a strategy.
example : escapePeak exParams [10, 20, 30] (1 / 10) 2 = .ok ([-2, -199 / 100, -198 / 100], [1, 2, 3]) := by decide +kernel
example : get "e_offset" ([] : Dict Entry) = none := rfl
example : extractStrategy [("e_offset", [("linear", "fixed"), ("free", "none")]), ("non_fitting_values", [])] "linear" = .ok [("e_offset", "fixed")] := by decide +kernel
example : extractStrategy [("e_offset", [("linear", "fixed")])] "other" = .error .keyError := by decide +kernel

-- C168: a bound type that does not exist.
example : "low" ∉ ["none", "fixed", "lohi", "lo", "hi"] := by decide

end Verif.Xrf
