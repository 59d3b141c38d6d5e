/- Properties C161-C168: element models, linear model, assembled spectrum. -/
import Verif.Xrf.SpectrumLemmas
import Verif.Xrf.FitProps

namespace Verif.Xrf
open Verif

/-! ## C161 columns -/

theorem elastic_ok {params : Dict Entry} (hv : Spec.ValidBounds params) (eps : ℚ) (comp : Dict Hint) : ∃ ela, elasticHints params eps comp = .ok ela := by
  obtain ⟨hs, e, _⟩ := setNames_ok hv (elasticLabels ++ ["coherent_sct_amplitude"]) (by decide) (copyHints comp elasticLabels (setHint "epsilon" (fixAt (296 / 100)) []))
  exact ⟨_, by rw [elasticHints, e]; rfl⟩

theorem mem_columns (cs en : Cs) (params : Dict Entry) (comp : Dict Hint) (eps d : ℚ) (lines : List String) (cols : List Column)
    (h : elementColumns cs en params comp eps d lines = .ok cols) (c : Column) (hc : c ∈ cols) :
    c.name ∈ lines ∧ ∃ models, setupElement cs en params comp eps c.name d = .ok (some models) ∧ c.at' = evalModel models ∧ c.area = elementArea models := by
  induction lines generalizing cols with
  | nil => simp only [elementColumns, Except.ok.injEq] at h; rw [← h] at hc; cases hc
  | cons e es ih =>
    rw [elementColumns] at h
    simp only [bind, Except.bind] at h
    cases hm : setupElement cs en params comp eps e d with
    | error x => rw [hm] at h; cases h
    | ok m =>
      rw [hm] at h
      simp only at h
      cases hr : elementColumns cs en params comp eps d es with
      | error x => rw [hr] at h; cases h
      | ok rest =>
        rw [hr] at h
        cases m with
        | none =>
          simp only [Except.ok.injEq] at h
          obtain ⟨h1, h2⟩ := ih rest hr (h ▸ hc)
          exact ⟨List.mem_cons_of_mem _ h1, h2⟩
        | some models =>
          simp only [Except.ok.injEq] at h
          rw [← h] at hc
          rcases List.mem_cons.1 hc with rfl | hc
          · exact ⟨List.mem_cons_self, models, hm, rfl, rfl⟩
          · obtain ⟨h1, h2⟩ := ih rest hr hc
            exact ⟨List.mem_cons_of_mem _ h1, h2⟩

theorem linear_split {cs en : Cs} {params : Dict Entry} {eps d : ℚ} {lines : List String} {cols : List Column} (hv : Spec.ValidBounds params)
    (h : linearModel cs en params eps lines d = .ok cols) :
    ∃ comp ela ecols, comptonHints params eps = .ok comp ∧ elasticHints params eps comp = .ok ela ∧ elementColumns cs en params comp eps d lines = .ok ecols ∧
      cols = ecols ++ [⟨"compton", comptonColumn comp, ownValue comp "compton_amplitude"⟩, ⟨"elastic", elasticColumn ela, ownValue ela "coherent_sct_amplitude"⟩] ∧
      (∀ b ∈ comptonNames, (get b comp).bind clip = (get b params).map Spec.start) := by
  obtain ⟨comp, e1, hc, _⟩ := compton_ok hv eps
  obtain ⟨ela, e2⟩ := elastic_ok hv eps comp
  unfold linearModel at h
  rw [e1] at h
  simp only [bind, Except.bind] at h
  rw [e2] at h
  simp only at h
  cases hr : elementColumns cs en params comp eps d lines with
  | error x => rw [hr] at h; cases h
  | ok ecols =>
    rw [hr] at h
    exact ⟨comp, ela, ecols, e1, e2, hr, by injection h with h; exact h.symm, hc⟩

theorem dLK : ∀ n ∈ lLine, n ∉ kLine := by decide +kernel
theorem dMK : ∀ n ∈ mLine, n ∉ kLine := by decide +kernel
theorem dML : ∀ n ∈ mLine, n ∉ lLine := by decide +kernel

/-- The column construct_linear_model returns for an element's K, L or M lines is the sum of the Gaussian peaks of the excited
lines of that shell, each at its energy with its branching ratio, all with one area and the same energy calibration and
resolution; the area returned with it is that area. -/
theorem C161_columns (cs en : Cs) (params : Dict Entry) (hv : Spec.ValidBounds params) (hg : Spec.HasGlobals params) (eps d : ℚ) (lines : List String) (cols : List Column)
    (h : linearModel cs en params eps lines d = .ok cols) (c : Column) (hc : c ∈ cols) :
    (c.name ∈ kLine → (∀ x, c.at' x = some (((Spec.kPeaks cs en params (symbolOf c.name) d).map (fun p => Spec.peakAt params eps p x)).sum)) ∧
      c.area = some (Spec.kArea params (symbolOf c.name ++ "_ka1_area") d)) ∧
    (c.name ∈ lLine → (∀ x, c.at' x = some (((Spec.lmPeaks cs en params lTransitions "la1" (symbolOf c.name) d).map (fun p => Spec.peakAt params eps p x)).sum)) ∧
      c.area = some (Spec.adjust params (symbolOf c.name ++ "_la1_area") d)) ∧
    (c.name ∈ mLine → (∀ x, c.at' x = some (((Spec.lmPeaks cs en params mTransitions "ma1" (symbolOf c.name) d).map (fun p => Spec.peakAt params eps p x)).sum)) ∧
      c.area = some (Spec.adjust params (symbolOf c.name ++ "_ma1_area") d)) := by
  obtain ⟨comp, ela, ecols, e1, e2, e3, rfl, hcomp⟩ := linear_split hv h
  have hnot : ∀ n ∈ kLine ++ lLine ++ mLine, n ≠ "compton" ∧ n ≠ "elastic" := by decide +kernel
  have hin : c.name ∈ kLine ++ lLine ++ mLine → c ∈ ecols := by
    intro hn
    rcases List.mem_append.1 hc with hc | hc
    · exact hc
    · simp only [List.mem_cons, List.not_mem_nil, or_false] at hc
      rcases hc with rfl | rfl
      · exact absurd rfl (hnot _ hn).1
      · exact absurd rfl (hnot _ hn).2
  refine ⟨fun hk => ?_, fun hl => ?_, fun hm => ?_⟩
  · obtain ⟨_, models, hs, hat, har⟩ := mem_columns cs en params comp eps d lines ecols e3 c (hin (by simp [hk]))
    have hex : cs (symbolOf c.name) "ka1" ≠ 0 := by
      intro h0
      unfold setupElement at hs
      simp only [if_pos hk, if_pos h0] at hs
      cases hs
    obtain ⟨models', hs', g1, g2⟩ := k_shell hv hg hcomp eps cs en c.name d hk hex
    rw [hs] at hs'
    injection hs' with hs'
    injection hs' with hs'
    rw [hat, har, hs']
    exact ⟨g1, g2⟩
  · obtain ⟨_, models, hs, hat, har⟩ := mem_columns cs en params comp eps d lines ecols e3 c (hin (by simp [hl]))
    have hex : cs (symbolOf c.name) "la1" ≠ 0 := by
      intro h0
      unfold setupElement at hs
      simp only [if_neg (dLK _ hl), if_pos hl, if_pos h0] at hs
      cases hs
    obtain ⟨models', hs', g1, g2⟩ := lm_shell hv hg hcomp eps cs en (symbolOf c.name) 'l' "la1" lTransitions lTransitions.tail d (noArea_k _ (by simp [hl])) all_l rfl (by decide) hex
    unfold setupElement at hs
    simp only [if_neg (dLK _ hl), if_pos hl, if_neg hex] at hs
    rw [hs'] at hs
    injection hs with hs
    injection hs with hs
    rw [hat, har, ← hs]
    refine ⟨g1, ?_⟩
    rw [g2, join, String.append_assoc]
    rfl
  · obtain ⟨_, models, hs, hat, har⟩ := mem_columns cs en params comp eps d lines ecols e3 c (hin (by simp [hm]))
    have hex : cs (symbolOf c.name) "ma1" ≠ 0 := by
      intro h0
      unfold setupElement at hs
      simp only [if_neg (dMK _ hm), if_neg (dML _ hm), if_pos hm, if_pos h0] at hs
      cases hs
    obtain ⟨models', hs', g1, g2⟩ := lm_shell hv hg hcomp eps cs en (symbolOf c.name) 'm' "ma1" mTransitions mTransitions.tail d (noArea_k _ (by simp [hm])) all_m rfl (by decide) hex
    unfold setupElement at hs
    simp only [if_neg (dMK _ hm), if_neg (dML _ hm), if_pos hm, if_neg hex] at hs
    rw [hs'] at hs
    injection hs with hs
    injection hs with hs
    rw [hat, har, ← hs]
    refine ⟨g1, ?_⟩
    rw [g2, join, String.append_assoc]
    rfl

/-! ## C164 components -/

/-- The element line is excited (its first line has a non-zero cross section). -/
def Spec.excited (cs : Cs) (element : String) : Bool :=
  if element ∈ kLine then cs (symbolOf element) "ka1" ≠ 0 else if element ∈ lLine then cs (symbolOf element) "la1" ≠ 0 else cs (symbolOf element) "ma1" ≠ 0

theorem setup_line {params : Dict Entry} (hv : Spec.ValidBounds params) (hg : Spec.HasGlobals params) {comp : Dict Hint}
    (hc : ∀ b ∈ comptonNames, (get b comp).bind clip = (get b params).map Spec.start) (eps : ℚ) (cs en : Cs) (element : String) (d : ℚ) (he : element ∈ kLine ++ lLine ++ mLine) :
    (Spec.excited cs element = true → ∃ models, setupElement cs en params comp eps element d = .ok (some models)) ∧
    (Spec.excited cs element = false → setupElement cs en params comp eps element d = .ok none) := by
  simp only [List.mem_append] at he
  unfold Spec.excited
  by_cases hk : element ∈ kLine
  · simp only [if_pos hk, decide_eq_true_eq, decide_eq_false_iff_not, ne_eq, not_not]
    refine ⟨fun hex => ?_, fun h0 => ?_⟩
    · obtain ⟨models, h, _⟩ := k_shell hv hg hc eps cs en element d hk hex
      exact ⟨models, h⟩
    · unfold setupElement
      simp only [if_pos hk, if_pos h0]
  · by_cases hl : element ∈ lLine
    · simp only [if_neg hk, if_pos hl, decide_eq_true_eq, decide_eq_false_iff_not, ne_eq, not_not]
      refine ⟨fun hex => ?_, fun h0 => ?_⟩
      · obtain ⟨models, h, _⟩ := lm_shell hv hg hc eps cs en (symbolOf element) 'l' "la1" lTransitions lTransitions.tail d (noArea_k _ (by simp [hl])) all_l rfl (by decide) hex
        refine ⟨models, ?_⟩
        unfold setupElement
        simp only [if_neg hk, if_pos hl, if_neg hex]
        rw [h]
        rfl
      · unfold setupElement
        simp only [if_neg hk, if_pos hl, if_pos h0]
    · have hm : element ∈ mLine := by tauto
      simp only [if_neg hk, if_neg hl, decide_eq_true_eq, decide_eq_false_iff_not, ne_eq, not_not]
      refine ⟨fun hex => ?_, fun h0 => ?_⟩
      · obtain ⟨models, h, _⟩ := lm_shell hv hg hc eps cs en (symbolOf element) 'm' "ma1" mTransitions mTransitions.tail d (noArea_k _ (by simp [hm])) all_m rfl (by decide) hex
        refine ⟨models, ?_⟩
        unfold setupElement
        simp only [if_neg hk, if_neg hl, if_pos hm, if_neg hex]
        rw [h]
        rfl
      · unfold setupElement
        simp only [if_neg hk, if_neg hl, if_pos hm, if_pos h0]

theorem columns_names {params : Dict Entry} (hv : Spec.ValidBounds params) (hg : Spec.HasGlobals params) {comp : Dict Hint}
    (hc : ∀ b ∈ comptonNames, (get b comp).bind clip = (get b params).map Spec.start) (eps : ℚ) (cs en : Cs) (d : ℚ) (lines : List String) (he : ∀ e ∈ lines, e ∈ kLine ++ lLine ++ mLine) :
    ∃ cols, elementColumns cs en params comp eps d lines = .ok cols ∧ cols.map Column.name = lines.filter (Spec.excited cs) := by
  induction lines with
  | nil => exact ⟨[], rfl, rfl⟩
  | cons e es ih =>
    obtain ⟨rest, h1, h2⟩ := ih (fun e' h' => he e' (List.mem_cons_of_mem _ h'))
    obtain ⟨s1, s2⟩ := setup_line hv hg hc eps cs en e d (he e List.mem_cons_self)
    rw [elementColumns]
    simp only [bind, Except.bind]
    by_cases hex : Spec.excited cs e = true
    · obtain ⟨models, hm⟩ := s1 hex
      rw [hm, h1, List.filter_cons_of_pos hex]
      exact ⟨_, rfl, by rw [List.map_cons, h2]⟩
    · rw [s2 (by simpa using hex), h1, List.filter_cons_of_neg hex]
      exact ⟨rest, rfl, h2⟩

/-- construct_linear_model returns one component per excited element line, in the order of the list, then "compton" and
"elastic"; lines that are not excited are left out. -/
theorem C164_order (cs en : Cs) (params : Dict Entry) (hv : Spec.ValidBounds params) (hg : Spec.HasGlobals params) (eps d : ℚ) (lines : List String)
    (he : ∀ e ∈ lines, e ∈ kLine ++ lLine ++ mLine) :
    ∃ cols, linearModel cs en params eps lines d = .ok cols ∧ cols.map Column.name = lines.filter (Spec.excited cs) ++ ["compton", "elastic"] := by
  obtain ⟨comp, e1, hc, _⟩ := compton_ok hv eps
  obtain ⟨ela, e2⟩ := elastic_ok hv eps comp
  obtain ⟨ecols, e3, h3⟩ := columns_names hv hg hc eps cs en d lines he
  refine ⟨ecols ++ [⟨"compton", comptonColumn comp, ownValue comp "compton_amplitude"⟩, ⟨"elastic", elasticColumn ela, ownValue ela "coherent_sct_amplitude"⟩], ?_, ?_⟩
  · unfold linearModel
    rw [e1]
    simp only [bind, Except.bind]
    rw [e2]
    simp only
    rw [e3]
  · rw [List.map_append, h3]
    rfl

/-- All parameters of the scattering peaks are in the dict. -/
def Spec.HasScatter (params : Dict Entry) : Prop := ∀ key ∈ comptonNames ++ ["coherent_sct_amplitude"], (get key params).isSome

theorem elastic_get {params : Dict Entry} (hv : Spec.ValidBounds params) (hs : Spec.HasScatter params) (eps : ℚ) (comp ela : Dict Hint) (h : elasticHints params eps comp = .ok ela) :
    (∀ b ∈ elasticLabels ++ ["coherent_sct_amplitude"], ownValue ela b = some (Spec.adjust params b 0)) ∧ ownValue ela "epsilon" = some eps := by
  obtain ⟨hs1, e, g⟩ := setNames_ok hv (elasticLabels ++ ["coherent_sct_amplitude"]) (by decide) (copyHints comp elasticLabels (setHint "epsilon" (fixAt (296 / 100)) []))
  rw [elasticHints, e] at h
  injection h with h
  rw [← h]
  unfold ownValue
  constructor
  · intro b hb
    have hne : b ≠ "epsilon" := by rintro rfl; revert hb; decide
    have hsc := hs b (by revert b; decide)
    rw [get_setHint, if_neg hne, g, if_pos ⟨hb, hsc⟩]
    obtain ⟨en, hk⟩ := Option.isSome_iff_exists.1 hsc
    have hstart : ∃ v ex, (get b (copyHints comp elasticLabels (setHint "epsilon" (fixAt (296 / 100)) []))).getD {} = { value := v, expr := ex } := by
      simp only [elasticLabels, List.cons_append, List.nil_append, List.mem_cons, List.not_mem_nil, or_false] at hb
      simp only [copyHints, elasticLabels]
      rcases hb with rfl | rfl | rfl | rfl | rfl | rfl | rfl <;> simp [get_setHint, get]
    obtain ⟨v, ex, hst⟩ := hstart
    rw [hst]
    have h2 := clip_upd hv b 0 none ex
    rw [Option.bind_some, ← h2]
    unfold upd
    rw [hk]
    simp only
    unfold entryHint
    have hb' := hv _ _ hk
    simp only [List.mem_cons, List.not_mem_nil, or_false] at hb'
    rcases hb' with hb' | hb' | hb' | hb' | hb' <;> simp [hb', clip]
  · rw [get_setHint, if_pos rfl, g, if_neg (fun h => absurd h.1 (by decide))]
    simp only [copyHints, elasticLabels]
    simp [get_setHint, get, fixAt, clip]

/-- The last two columns are the Compton and elastic peaks with the values of the dict, and their areas are the amplitudes. -/
theorem C164_scatter (cs en : Cs) (params : Dict Entry) (hv : Spec.ValidBounds params) (hs : Spec.HasScatter params) (eps d : ℚ) (lines : List String) (cols : List Column)
    (h : linearModel cs en params eps lines d = .ok cols) :
    ∃ ecols c e, cols = ecols ++ [c, e] ∧ c.name = "compton" ∧ e.name = "elastic" ∧
      c.area = some (Spec.adjust params "compton_amplitude" 0) ∧ e.area = some (Spec.adjust params "coherent_sct_amplitude" 0) ∧
      (let v := fun key => ((Spec.adjust params key 0 : ℚ) : ℝ)
       (∀ x, c.at' x = some (Line.compton x (v "compton_amplitude") (v "coherent_sct_energy") (v "fwhm_offset") (v "fwhm_fanoprime") (v "e_offset") (v "e_linear") (v "e_quadratic")
        (v "compton_angle") (v "compton_fwhm_corr") (v "compton_f_step") (v "compton_f_tail") (v "compton_gamma") (v "compton_hi_f_tail") (v "compton_hi_gamma") eps)) ∧
       (∀ x, e.at' x = some (Line.elastic x (v "coherent_sct_amplitude") (v "coherent_sct_energy") (v "fwhm_offset") (v "fwhm_fanoprime") (v "e_offset") (v "e_linear") (v "e_quadratic") eps))) := by
  obtain ⟨comp, ela, ecols, e1, e2, e3, rfl, hcomp⟩ := linear_split hv h
  obtain ⟨comp', e1', _, hce⟩ := compton_ok hv eps
  rw [e1] at e1'
  injection e1' with e1'
  subst e1'
  have hcv : ∀ b ∈ comptonNames, ownValue comp b = some (Spec.adjust params b 0) := by
    intro b hb
    unfold ownValue Spec.adjust
    rw [hcomp b hb]
    obtain ⟨en, hk⟩ := Option.isSome_iff_exists.1 (hs b (List.mem_append_left _ hb))
    rw [hk]
    rfl
  obtain ⟨he1, he2⟩ := elastic_get hv hs eps comp ela e2
  refine ⟨ecols, _, _, rfl, rfl, rfl, hcv _ (by decide), he1 _ (by decide), ?_, ?_⟩
  · intro x
    simp only [comptonColumn]
    rw [hcv _ (by decide), hcv _ (by decide), hcv _ (by decide), hcv _ (by decide), hcv _ (by decide), hcv _ (by decide), hcv _ (by decide), hcv _ (by decide),
      hcv _ (by decide), hcv _ (by decide), hcv _ (by decide), hcv _ (by decide), hcv _ (by decide), hcv _ (by decide), show ownValue comp "epsilon" = some eps from hce]
    rfl
  · intro x
    simp only [elasticColumn]
    rw [he1 _ (by decide), he1 _ (by decide), he1 _ (by decide), he1 _ (by decide), he1 _ (by decide), he1 _ (by decide), he1 _ (by decide), he2]
    rfl

/-- A name that is in no table, contains no "user" and has no single dash raises, whatever the other names; alone it raises
ValueError. -/
theorem C164_bad_name (cs en : Cs) (params : Dict Entry) (hv : Spec.ValidBounds params) (eps d : ℚ) (lines : List String) (e : String) (hm : e ∈ lines)
    (ht : e ∉ kLine ++ lLine ++ mLine) (hu : hasUser e = false) (hd : e.toList.count '-' ≠ 1) :
    (∃ err, linearModel cs en params eps lines d = .error err) ∧ linearModel cs en params eps [e] d = .error .valueError := by
  obtain ⟨comp, e1, hc, _⟩ := compton_ok hv eps
  obtain ⟨ela, e2⟩ := elastic_ok hv eps comp
  simp only [List.mem_append, not_or] at ht
  have hset : setupElement cs en params comp eps e d = .error .valueError := by
    unfold setupElement
    simp only [if_neg ht.1.1, if_neg ht.1.2, if_neg ht.2, hu, Bool.false_eq_true, if_false]
    have hlen : ∀ l : List Char, (splitList '-' l).length = l.count '-' + 1 := by
      intro l
      induction l with
      | nil => rfl
      | cons a l ih =>
        rw [splitList, List.count_cons]
        split_ifs with h1 <;> simp_all
    have hl := hlen e.toList
    split
    · rename_i l1 l2 hsp
      exfalso
      have : (split '-' e).length = 2 := by rw [hsp]; rfl
      rw [split, List.length_map, hl] at this
      omega
    · rfl
  have hcols : ∃ err, elementColumns cs en params comp eps d lines = .error err := by
    induction lines with
    | nil => cases hm
    | cons a es ih =>
      rw [elementColumns]
      simp only [bind, Except.bind]
      rcases List.mem_cons.1 hm with rfl | hm
      · rw [hset]
        exact ⟨_, rfl⟩
      · obtain ⟨err, h⟩ := ih hm
        cases setupElement cs en params comp eps a d with
        | error x => exact ⟨x, rfl⟩
        | ok m => simp only [h]; exact ⟨err, rfl⟩
  have hlin : ∀ ls err, elementColumns cs en params comp eps d ls = .error err → linearModel cs en params eps ls d = .error err := by
    intro ls err h
    unfold linearModel
    rw [e1]
    simp only [bind, Except.bind]
    rw [e2]
    simp only
    rw [h]
  obtain ⟨err, h⟩ := hcols
  refine ⟨⟨err, hlin _ _ h⟩, hlin _ _ ?_⟩
  rw [elementColumns]
  simp only [bind, Except.bind]
  rw [hset]

/-! ## C162 adjustments of a line -/

theorem get_other {α : Type} {k k' : String} (v : α) (d : Dict α) (h : k' ≠ k) : get k' (setKey k v d) = get k' d := by rw [get_setKey, if_neg h]

theorem adjust_other {k k' : String} (e : Entry) (params : Dict Entry) (d : ℚ) (h : k' ≠ k) : Spec.adjust (setKey k e params) k' d = Spec.adjust params k' d := by
  unfold Spec.adjust
  rw [get_other e params h]

theorem valid_setKey {params : Dict Entry} (hv : Spec.ValidBounds params) (k : String) (e : Entry) (he : e.bound ∈ ["none", "fixed", "lohi", "lo", "hi"]) :
    Spec.ValidBounds (setKey k e params) := by
  intro k' e' h
  rw [get_setKey] at h
  split_ifs at h
  · injection h with h; rw [← h]; exact he
  · exact hv k' e' h

theorem globals_setKey {params : Dict Entry} (hg : Spec.HasGlobals params) (k : String) (e : Entry) : Spec.HasGlobals (setKey k e params) := by
  intro key hk
  rw [get_setKey]
  split_ifs
  · rfl
  · exact hg key hk

theorem long_ne (el suffix : String) (h : 15 ≤ suffix.length) : ∀ key ∈ ["e_offset", "e_linear", "e_quadratic", "fwhm_offset", "fwhm_fanoprime"], key ≠ el ++ suffix := by
  intro key hk he
  have h1 : key.length ≤ 14 := by clear he; revert key; decide
  rw [he, String.length_append] at h1
  omega

theorem peakAt_other (params : Dict Entry) (k : String) (e : Entry) (eps : ℚ) (h : ∀ key ∈ ["e_offset", "e_linear", "e_quadratic", "fwhm_offset", "fwhm_fanoprime"], key ≠ k)
    (p : Spec.Peak) (x : ℝ) : Spec.peakAt (setKey k e params) eps p x = Spec.peakAt params eps p x := by
  unfold Spec.peakAt
  simp only [adjust_other e params 0 (h "e_offset" (by decide)), adjust_other e params 0 (h "e_linear" (by decide)), adjust_other e params 0 (h "e_quadratic" (by decide)),
    adjust_other e params 0 (h "fwhm_offset" (by decide)), adjust_other e params 0 (h "fwhm_fanoprime" (by decide))]

/-- A position or width adjustment given for the ka2 line has no effect: the column of the element is the same for every
value (the parameter stays tied to that of ka1). -/
theorem C162_ka2_refuted (cs en : Cs) (params : Dict Entry) (hv : Spec.ValidBounds params) (hg : Spec.HasGlobals params) (eps d : ℚ) (lines lines' : List String) (el suffix : String)
    (hsuf : suffix = "delta_center" ∨ suffix = "delta_sigma") (e : Entry) (he : e.bound ∈ ["none", "fixed", "lohi", "lo", "hi"]) (cols cols' : List Column)
    (h : linearModel cs en params eps lines d = .ok cols) (h' : linearModel cs en (setKey (el ++ ("_ka2_" ++ suffix)) e params) eps lines' d = .ok cols')
    (c c' : Column) (hc : c ∈ cols) (hc' : c' ∈ cols') (hk : c.name ∈ kLine) (hel : symbolOf c.name = el) (hn : c'.name = c.name) : ∀ x, c'.at' x = c.at' x := by
  intro x
  have g1 := ((C161_columns cs en params hv hg eps d lines cols h c hc).1 hk).1 x
  have g2 := ((C161_columns cs en _ (valid_setKey hv _ e he) (globals_setKey hg _ e) eps d lines' cols' h' c' hc').1 (hn ▸ hk)).1 x
  rw [g1, g2, hn, hel]
  have hlong : 15 ≤ ("_ka2_" ++ suffix).length := by rcases hsuf with rfl | rfl <;> decide
  have hpk : Spec.kPeaks cs en (setKey (el ++ ("_ka2_" ++ suffix)) e params) el d = Spec.kPeaks cs en params el d := by
    unfold Spec.kPeaks
    apply List.map_congr_left
    intro l hl
    have hl' := (List.mem_filter.1 hl).1
    have q0 : el ++ "_ka1_area" ≠ el ++ ("_ka2_" ++ suffix) := by
      intro hh
      have := str_cancel hh
      rcases hsuf with rfl | rfl <;> exact absurd this (by decide)
    have q1 : ∀ t ∈ ["_delta_center", "_delta_sigma"], el ++ "_" ++ (if l = "ka2" then "ka1" else l) ++ t ≠ el ++ ("_ka2_" ++ suffix) := by
      intro t ht hh
      rw [String.append_assoc, String.append_assoc] at hh
      have := str_cancel hh
      clear hh hl
      rcases hsuf with rfl | rfl <;> revert this <;> revert t <;> revert l <;> decide +kernel
    have q2 : el ++ "_" ++ l ++ "_ratio_adjust" ≠ el ++ ("_ka2_" ++ suffix) := by
      intro hh
      rw [String.append_assoc, String.append_assoc] at hh
      have := str_cancel hh
      clear hh hl q1
      rcases hsuf with rfl | rfl <;> revert this <;> revert l <;> decide +kernel
    have q3 : Spec.kArea (setKey (el ++ ("_ka2_" ++ suffix)) e params) (el ++ "_ka1_area") d = Spec.kArea params (el ++ "_ka1_area") d := by
      unfold Spec.kArea
      rw [get_other e params q0]
    simp only [q3, adjust_other e params 0 (q1 "_delta_center" (by decide)), adjust_other e params 0 (q1 "_delta_sigma" (by decide)), adjust_other e params 1 q2]
  rw [hpk]
  simp only [peakAt_other params _ e eps (long_ne el _ hlong)]

theorem lm_moved (cs en : Cs) (params : Dict Entry) (d : ℚ) (l : String) (e : Entry) (el first : String) (ts : List String)
    (hts : ∀ t ∈ first :: l :: ts, '_' ∉ t.toList) (eps : ℚ) (x : ℝ) (hlong : ∀ key ∈ ["e_offset", "e_linear", "e_quadratic", "fwhm_offset", "fwhm_fanoprime"], key ≠ el ++ ("_" ++ l ++ "_delta_center")) :
    ((Spec.lmPeaks cs en (setKey (el ++ ("_" ++ l ++ "_delta_center")) e params) ts first el d).map (fun p => Spec.peakAt (setKey (el ++ ("_" ++ l ++ "_delta_center")) e params) eps p x)).sum =
    ((ts.filter (fun t => cs el t ≠ 0)).map (fun t =>
      Spec.peakAt params eps (if t = l then { Spec.lmPeak cs en params first el d t with deltaCenter := Spec.start e } else Spec.lmPeak cs en params first el d t) x)).sum := by
  unfold Spec.lmPeaks
  rw [List.map_map]
  congr 1
  apply List.map_congr_left
  intro t ht
  have ht' := (List.mem_filter.1 ht).1
  simp only [Function.comp]
  rw [peakAt_other params _ e eps hlong]
  congr 1
  have key : ∀ t' ∈ first :: l :: ts, ∀ s, el ++ "_" ++ t' ++ ("_" ++ s) = el ++ ("_" ++ l ++ "_delta_center") → t' = l ∧ s = "delta_center" := by
    intro t' ht' s hh
    rw [String.append_assoc, String.append_assoc, String.append_assoc] at hh
    have h1 := str_cancel (str_cancel hh)
    have h2 : t' ++ "_" ++ s = l ++ "_" ++ "delta_center" := by rw [String.append_assoc, h1, String.append_assoc]; rfl
    exact str_cut (hts _ ht') (hts _ (by simp)) h2
  unfold Spec.lmPeak
  have n1 : el ++ "_" ++ first ++ "_area" ≠ el ++ ("_" ++ l ++ "_delta_center") := fun hh => absurd (key first (by simp) "area" hh).2 (by decide)
  have n2 : el ++ "_" ++ t ++ "_delta_sigma" ≠ el ++ ("_" ++ l ++ "_delta_center") := fun hh => absurd (key t (by simp [ht']) "delta_sigma" hh).2 (by decide)
  have n3 : el ++ "_" ++ t ++ "_ratio_adjust" ≠ el ++ ("_" ++ l ++ "_delta_center") := fun hh => absurd (key t (by simp [ht']) "ratio_adjust" hh).2 (by decide)
  rw [adjust_other e params d n1, adjust_other e params 0 n2, adjust_other e params 1 n3]
  by_cases htl : t = l
  · rw [if_pos htl]
    congr 1
    have : el ++ "_" ++ t ++ "_delta_center" = el ++ ("_" ++ l ++ "_delta_center") := by rw [htl, String.append_assoc, String.append_assoc, String.append_assoc]
    rw [this]
    unfold Spec.adjust
    rw [get_setKey, if_pos rfl]
    rfl
  · have n4 : el ++ "_" ++ t ++ "_delta_center" ≠ el ++ ("_" ++ l ++ "_delta_center") := fun hh => htl (key t (by simp [ht']) "delta_center" hh).1
    rw [if_neg htl, adjust_other e params 0 n4]

/-- In an L or M shell a position adjustment for a line moves that line's peak by the given value and changes nothing else. -/
theorem C162_own_line_partial (cs en : Cs) (params : Dict Entry) (hv : Spec.ValidBounds params) (hg : Spec.HasGlobals params) (eps d : ℚ) (lines : List String) (l : String)
    (e : Entry) (he : e.bound ∈ ["none", "fixed", "lohi", "lo", "hi"]) (el : String) (hl : l ∈ lTransitions ++ mTransitions) (cols : List Column)
    (h : linearModel cs en (setKey (el ++ ("_" ++ l ++ "_delta_center")) e params) eps lines d = .ok cols) (c : Column) (hc : c ∈ cols) (hel : symbolOf c.name = el) :
    (c.name ∈ lLine → ∀ x, c.at' x = some (((lTransitions.filter (fun t => cs el t ≠ 0)).map (fun t => Spec.peakAt params eps
      (if t = l then { Spec.lmPeak cs en params "la1" el d t with deltaCenter := Spec.start e } else Spec.lmPeak cs en params "la1" el d t) x)).sum)) ∧
    (c.name ∈ mLine → ∀ x, c.at' x = some (((mTransitions.filter (fun t => cs el t ≠ 0)).map (fun t => Spec.peakAt params eps
      (if t = l then { Spec.lmPeak cs en params "ma1" el d t with deltaCenter := Spec.start e } else Spec.lmPeak cs en params "ma1" el d t) x)).sum)) := by
  have hnl : '_' ∉ l.toList := by clear h; revert l; decide +kernel
  have hlong := long_ne el ("_" ++ l ++ "_delta_center") (by clear h; revert l; decide +kernel)
  have g := C161_columns cs en _ (valid_setKey hv _ e he) (globals_setKey hg _ e) eps d lines cols h c hc
  refine ⟨fun hn x => ?_, fun hn x => ?_⟩
  · have hall : ∀ t ∈ lTransitions, '_' ∉ t.toList := by decide +kernel
    rw [(g.2.1 hn).1 x, hel, lm_moved cs en params d l e el "la1" lTransitions _ eps x hlong]
    intro t ht
    rcases List.mem_cons.1 ht with rfl | ht
    · decide
    · rcases List.mem_cons.1 ht with rfl | ht
      · exact hnl
      · exact hall t ht
  · have hall : ∀ t ∈ mTransitions, '_' ∉ t.toList := by decide +kernel
    rw [(g.2.2 hn).1 x, hel, lm_moved cs en params d l e el "ma1" mTransitions _ eps x hlong]
    intro t ht
    rcases List.mem_cons.1 ht with rfl | ht
    · decide
    · rcases List.mem_cons.1 ht with rfl | ht
      · exact hnl
      · exact hall t ht

/-! ## C163 areas -/

/-- The area returned for an element is the area of its main line (ka1, la1 or ma1) in the returned column, when that line's
branching ratio is not adjusted. -/
theorem C163_main_line_partial (cs en : Cs) (params : Dict Entry) (hv : Spec.ValidBounds params) (hg : Spec.HasGlobals params) (eps d : ℚ) (lines : List String) (cols : List Column)
    (h : linearModel cs en params eps lines d = .ok cols) (c : Column) (hc : c ∈ cols) (main : String) (hcs : cs (symbolOf c.name) main ≠ 0)
    (hm : (c.name ∈ kLine ∧ main = "ka1") ∨ (c.name ∈ lLine ∧ main = "la1") ∨ (c.name ∈ mLine ∧ main = "ma1")) (hra : get (symbolOf c.name ++ "_" ++ main ++ "_ratio_adjust") params = none) :
    ∃ (a : ℚ) (others : List Spec.Peak) (p : Spec.Peak), c.area = some a ∧
      (∀ x, c.at' x = some (Spec.peakAt params eps p x + (others.map (fun q => Spec.peakAt params eps q x)).sum)) ∧
      p.center = en (symbolOf c.name) main ∧ p.area = a ∧ p.ratio = 1 ∧ p.ratioAdjust = 1 := by
  have g := C161_columns cs en params hv hg eps d lines cols h c hc
  have hadj : Spec.adjust params (symbolOf c.name ++ "_" ++ main ++ "_ratio_adjust") 1 = 1 := by
    unfold Spec.adjust
    rw [hra]
    rfl
  have hlm : ∀ (ts : List String) (first : String), Spec.lmPeaks cs en params (first :: ts) first (symbolOf c.name) d =
      if cs (symbolOf c.name) first = 0 then Spec.lmPeaks cs en params ts first (symbolOf c.name) d else
        Spec.lmPeak cs en params first (symbolOf c.name) d first :: Spec.lmPeaks cs en params ts first (symbolOf c.name) d := by
    intro ts first
    unfold Spec.lmPeaks
    rw [List.filter_cons]
    split_ifs with h1 h2 h2 <;> simp_all
  rcases hm with ⟨hn, rfl⟩ | ⟨hn, rfl⟩ | ⟨hn, rfl⟩
  · obtain ⟨g1, g2⟩ := g.1 hn
    unfold Spec.kPeaks kTransitions at g1
    rw [List.filter_cons_of_pos (by simpa using hcs), List.map_cons] at g1
    refine ⟨_, _, _, g2, g1, rfl, rfl, ?_, ?_⟩
    · exact div_self hcs
    · exact hadj
  · obtain ⟨g1, g2⟩ := g.2.1 hn
    rw [show lTransitions = "la1" :: lTransitions.tail from rfl, hlm, if_neg hcs] at g1
    refine ⟨_, _, _, g2, g1, rfl, ?_, div_self hcs, hadj⟩
    show Spec.adjust params _ d = _
    rw [join, String.append_assoc]
    rfl
  · obtain ⟨g1, g2⟩ := g.2.2 hn
    rw [show mTransitions = "ma1" :: mTransitions.tail from rfl, hlm, if_neg hcs] at g1
    refine ⟨_, _, _, g2, g1, rfl, ?_, div_self hcs, hadj⟩
    show Spec.adjust params _ d = _
    rw [join, String.append_assoc]
    rfl

theorem user_component (cs en : Cs) {params : Dict Entry} (hv : Spec.ValidBounds params) (hg : Spec.HasGlobals params) (eps d : ℚ) (lines : List String) (cols : List Column)
    (h : linearModel cs en params eps lines d = .ok cols) (c : Column) (hc : c ∈ cols) (ht : c.name ∉ kLine ++ lLine ++ mLine) (hu : hasUser c.name = true) :
    (∀ x, c.at' x = some (Spec.peakAt params eps (Spec.lonePeak params c.name 5 d) x)) ∧
    (hasArea c.name = false → c.area = some (Spec.kArea params (c.name ++ "_area") d)) ∧ (hasArea c.name = true → c.area = some eps) := by
  obtain ⟨comp, ela, ecols, e1, e2, e3, rfl, hcomp⟩ := linear_split hv h
  have hin : c ∈ ecols := by
    rcases List.mem_append.1 hc with hc | hc
    · exact hc
    · simp only [List.mem_cons, List.not_mem_nil, or_false] at hc
      have n1 : hasUser "compton" = false := by decide +kernel
      have n2 : hasUser "elastic" = false := by decide +kernel
      rcases hc with rfl | rfl
      · exact absurd (n1.symm.trans hu) (by decide)
      · exact absurd (n2.symm.trans hu) (by decide)
  obtain ⟨_, models, hs, hat, har⟩ := mem_columns cs en params comp eps d lines ecols e3 c hin
  simp only [List.mem_append, not_or] at ht
  obtain ⟨hs', f1, f2, f3, f4⟩ := lone_ok hv hg hcomp eps c.name 5 d
  unfold setupElement at hs
  simp only [if_neg ht.1.1, if_neg ht.1.2, if_neg ht.2, if_pos hu, bind, Except.bind] at hs
  rw [f1] at hs
  injection hs with hs
  injection hs with hs
  rw [hat, har, ← hs]
  exact ⟨f2, f3, f4⟩

/-- A user peak whose name contains "area" is given the detector constant epsilon as its area, whatever its area parameter. -/
theorem C163_user_name_refuted (cs en : Cs) (params : Dict Entry) (hv : Spec.ValidBounds params) (hg : Spec.HasGlobals params) (eps d : ℚ) (lines : List String) (cols : List Column)
    (h : linearModel cs en params eps lines d = .ok cols) (c : Column) (hc : c ∈ cols) (ht : c.name ∉ kLine ++ lLine ++ mLine) (hu : hasUser c.name = true) (ha : hasArea c.name = true) :
    c.area = some eps ∧ ∀ x, c.at' x = some (Spec.peakAt params eps (Spec.lonePeak params c.name 5 d) x) := by
  obtain ⟨g1, _, g3⟩ := user_component cs en hv hg eps d lines cols h c hc ht hu
  exact ⟨g3 ha, g1⟩

/-- Any other user peak: one peak at 5 keV plus its position adjustment, with its own area. -/
theorem C163_user_peak_partial (cs en : Cs) (params : Dict Entry) (hv : Spec.ValidBounds params) (hg : Spec.HasGlobals params) (eps d : ℚ) (lines : List String) (cols : List Column)
    (h : linearModel cs en params eps lines d = .ok cols) (c : Column) (hc : c ∈ cols) (ht : c.name ∉ kLine ++ lLine ++ mLine) (hu : hasUser c.name = true) (ha : hasArea c.name = false) :
    c.area = some (Spec.lonePeak params c.name 5 d).area ∧ ∀ x, c.at' x = some (Spec.peakAt params eps (Spec.lonePeak params c.name 5 d) x) := by
  obtain ⟨g1, g2, _⟩ := user_component cs en hv hg eps d lines cols h c hc ht hu
  exact ⟨g2 ha, g1⟩

theorem fold_absent {α : Type} (f : String × ℕ → Dict α → Dict α) (n : String) (hf : ∀ ni d, ni.1 ≠ n → get n (f ni d) = get n d) (l : List (String × ℕ)) (hl : n ∉ l.map Prod.fst) (d : Dict α) :
    get n (l.foldl (fun d ni => f ni d) d) = get n d := by
  induction l generalizing d with
  | nil => rfl
  | cons a l ih =>
    rw [List.map_cons, List.mem_cons, not_or] at hl
    rw [List.foldl_cons, ih hl.2, hf _ _ (fun h => hl.1 h.symm)]

theorem fold_present {α : Type} (f : String × ℕ → Dict α → Dict α) (n : String) (hf : ∀ ni d, ni.1 ≠ n → get n (f ni d) = get n d) (l : List (String × ℕ)) (hl : (l.map Prod.fst).Nodup)
    (i : ℕ) (hi : (n, i) ∈ l) (r : Option α) (hr : ∀ d, get n d = none → get n (f (n, i) d) = r) (d : Dict α) (hd : get n d = none) :
    get n (l.foldl (fun d ni => f ni d) d) = r := by
  induction l generalizing d with
  | nil => cases hi
  | cons a l ih =>
    rw [List.map_cons, List.nodup_cons] at hl
    rw [List.foldl_cons]
    rcases List.mem_cons.1 hi with rfl | hi
    · rw [fold_absent f n hf l hl.1, hr d hd]
    · have hne : a.1 ≠ n := by
        rintro rfl
        exact hl.1 (List.mem_map.2 ⟨_, hi, rfl⟩)
      exact ih hl.2 hi _ (by rw [hf _ _ hne, hd])

theorem mem_zipIdx (names : List String) (i : ℕ) (n : String) (h : names[i]? = some n) : (n, i) ∈ names.zipIdx := by
  rw [List.mem_iff_getElem?]
  exact ⟨i, by rw [List.getElem?_zipIdx, h]; simp⟩

/-- linear_spectrum_fitting, components with different names: a component with non-zero counts appears in result_dict as its
coefficient times its column and in area_dict as its coefficient times its area; the others appear in neither. -/
theorem C163_area_dict (m : ℕ) (A : ℕ → ℕ → ℝ) (out area : ℕ → ℝ) (names : List String) (hnd : names.Nodup) (i : ℕ) (n : String) (hi : names[i]? = some n) :
    (∑ c ∈ Finset.range m, out i * A c i ≠ 0 → get n (resultDict m A out names) = some (fun ch => out i * A ch i) ∧ get n (areaDict m A out names area) = some (out i * area i)) ∧
    (∑ c ∈ Finset.range m, out i * A c i = 0 → get n (resultDict m A out names) = none ∧ get n (areaDict m A out names area) = none) := by
  classical
  have hz : (names.zipIdx.map Prod.fst).Nodup := by rw [List.zipIdx_map_fst]; exact hnd
  have hm := mem_zipIdx names i n hi
  unfold resultDict areaDict
  refine ⟨fun h => ⟨?_, ?_⟩, fun h => ⟨?_, ?_⟩⟩
  · refine fold_present (fun ni d => if ∑ ch ∈ Finset.range m, out ni.2 * A ch ni.2 = 0 then d else setKey ni.1 (fun ch => out ni.2 * A ch ni.2) d) n ?_ _ hz i hm _ ?_ [] rfl
    · intro ni d hne
      split_ifs
      · rfl
      · rw [get_setKey, if_neg (fun h => hne h.symm)]
    · intro d _
      simp only [if_neg h, get_setKey, if_true]
  · refine fold_present (fun ni d => if ∑ ch ∈ Finset.range m, out ni.2 * A ch ni.2 = 0 then d else setKey ni.1 (out ni.2 * area ni.2) d) n ?_ _ hz i hm _ ?_ [] rfl
    · intro ni d hne
      split_ifs
      · rfl
      · rw [get_setKey, if_neg (fun h => hne h.symm)]
    · intro d _
      simp only [if_neg h, get_setKey, if_true]
  · refine fold_present (fun ni d => if ∑ ch ∈ Finset.range m, out ni.2 * A ch ni.2 = 0 then d else setKey ni.1 (fun ch => out ni.2 * A ch ni.2) d) n ?_ _ hz i hm _ ?_ [] rfl
    · intro ni d hne
      split_ifs
      · rfl
      · rw [get_setKey, if_neg (fun h => hne h.symm)]
    · intro d hd
      simp only [if_pos h, hd]
  · refine fold_present (fun ni d => if ∑ ch ∈ Finset.range m, out ni.2 * A ch ni.2 = 0 then d else setKey ni.1 (out ni.2 * area ni.2) d) n ?_ _ hz i hm _ ?_ [] rfl
    · intro ni d hne
      split_ifs
      · rfl
      · rw [get_setKey, if_neg (fun h => hne h.symm)]
    · intro d hd
      simp only [if_pos h, hd]

/-! ## C165 common calibration -/

theorem suffix_unique {a b : String} (ha : a ∈ elasticLabels) (hb : b ∈ elasticLabels) (n : String) (h1 : endsWith a n = true) (h2 : endsWith b n = true) : a = b := by
  unfold endsWith at h1 h2
  rw [List.isSuffixOf_iff_suffix] at h1 h2
  have hdec : ∀ a ∈ elasticLabels, ∀ b ∈ elasticLabels, a.toList <:+ b.toList → a = b := by decide +kernel
  rcases List.suffix_or_suffix_of_suffix h1 h2 with h | h
  · exact hdec a ha b hb h
  · exact (hdec b hb a ha h).symm

theorem fold_tie (n label : String) (labels : List String) (hl : ∀ a ∈ labels, a ∈ elasticLabels) (hlab : label ∈ elasticLabels) (he : endsWith label n = true) (hne : label ≠ n) (h : Hint) :
    (labels.foldl (fun h a => if endsWith a n ∧ a ≠ n then { h with expr := some a } else h) h).expr = if label ∈ labels then some label else h.expr := by
  induction labels generalizing h with
  | nil => simp
  | cons a labels ih =>
    rw [List.foldl_cons, ih (fun b hb => hl b (List.mem_cons_of_mem _ hb))]
    by_cases ha : a = label
    · subst ha
      have hcond : endsWith a n = true ∧ a ≠ n := ⟨he, hne⟩
      simp only [hcond, List.mem_cons, true_or, if_true]
      split_ifs <;> first | rfl | simp_all
    · have hna : ¬(endsWith a n = true ∧ a ≠ n) := fun hh => ha (suffix_unique (hl a List.mem_cons_self) hlab n hh.1 he)
      rw [if_neg hna]
      simp [List.mem_cons, Ne.symm ha]

theorem fold_same (n : String) (labels : List String) (hno : ∀ a ∈ labels, endsWith a n = true → a = n) (h : Hint) :
    labels.foldl (fun h a => if endsWith a n ∧ a ≠ n then { h with expr := some a } else h) h = h := by
  induction labels generalizing h with
  | nil => rfl
  | cons a labels ih =>
    rw [List.foldl_cons, if_neg (fun hh => hh.2 (hno a List.mem_cons_self hh.1))]
    exact ih (fun b hb => hno b (List.mem_cons_of_mem _ hb)) h

theorem endsWith_append (p b : String) : endsWith b (p ++ b) = true := by
  unfold endsWith
  rw [List.isSuffixOf_iff_suffix, String.toList_append]
  exact List.suffix_append _ _

theorem get_mem {α : Type} (k : String) (v : α) (d : Dict α) (h : get k d = some v) : (k, v) ∈ d := by
  induction d with
  | nil => cases h
  | cons a d ih =>
    obtain ⟨k', v'⟩ := a
    rw [get] at h
    split_ifs at h with hk
    · injection h with h
      rw [← hk, h]
      exact List.mem_cons_self
    · exact List.mem_cons_of_mem _ (ih h)

/-- A hint of one peak ending in a global name is tied to it. -/
theorem tied (models : List (String × Dict Hint)) (m : String × Dict Hint) (hm : m ∈ models) (label : String) (hh : Hint) (hg : get label m.2 = some hh) (hp : m.1 ≠ "")
    (hc : startsWith "compton" (m.1 ++ label) = false) (hlab : label ∈ elementLabels ∨ (label ∈ elasticLabels ∧ startsWith "elastic" (m.1 ++ label) = true)) :
    ∃ h', (m.1 ++ label, h') ∈ tie (flat models) ∧ h'.expr = some label := by
  have hsub : ∀ a ∈ elementLabels, a ∈ elasticLabels := by decide
  have hmem : (m.1 ++ label, hh) ∈ flat models := List.mem_flatMap.2 ⟨m, hm, List.mem_map.2 ⟨_, get_mem _ _ _ hg, rfl⟩⟩
  have hne : label ≠ m.1 ++ label := by
    intro h0
    have := congrArg String.length h0
    rw [String.length_append] at this
    apply hp
    rw [← String.length_eq_zero_iff]
    omega
  have hel : label ∈ elasticLabels := by rcases hlab with h | h; exacts [hsub _ h, h.1]
  refine ⟨(if startsWith "elastic" (m.1 ++ label) then elasticLabels else elementLabels).foldl
    (fun h a => if endsWith a (m.1 ++ label) ∧ a ≠ (m.1 ++ label) then { h with expr := some a } else h) hh, List.mem_map.2 ⟨(m.1 ++ label, hh), hmem, ?_⟩, ?_⟩
  · simp only [hc, Bool.false_eq_true, if_false]
  · rw [fold_tie _ label _ _ hel (endsWith_append _ _) hne]
    · split_ifs with h1 h2
      · rfl
      · rfl
      · rcases hlab with h | h
        · exact absurd h h2
        · exact absurd h.2 h1
    · intro a ha
      split_ifs at ha
      · exact ha
      · exact hsub a ha

theorem forall₂_right {α β : Type} {R : α → β → Prop} {l : List α} {m : List β} (h : List.Forall₂ R l m) : ∀ a ∈ l, ∃ b ∈ m, R a b := by
  induction h with
  | nil => intro b hb; cases hb
  | cons h1 _ ih =>
    intro a ha
    rcases List.mem_cons.1 ha with rfl | ha
    · exact ⟨_, List.mem_cons_self, h1⟩
    · obtain ⟨b, hb, hr⟩ := ih a ha
      exact ⟨b, List.mem_cons_of_mem _ hb, hr⟩

theorem shell_has (cs : Cs) (params : Dict Entry) (c : Char) (el : String) (mk : String → ℚ → Py (Dict Hint)) (hmk : ∀ l d, ∃ hs, mk l d = .ok hs ∧ ∀ b ∈ elementLabels, (get b hs).isSome)
    (d : ℚ) (models : List (String × Dict Hint)) (h : shellLoop cs params c el mk d allLines = .ok models) (l : String) (hl : l ∈ allLines) (hc : c ∈ l.toList) (hcs : cs el l ≠ 0) :
    ∃ m ∈ models, m.1 = el ++ "_" ++ l ++ "_" ∧ ∀ b ∈ elementLabels, (get b m.2).isSome := by
  rw [shell_filter] at h
  obtain ⟨models', e, hf⟩ := shell_ok cs params c el mk (fun _ hs => ∀ b ∈ elementLabels, (get b hs).isSome) hmk d (allLines.filter (fun l => c ∈ l.toList ∧ cs el l ≠ 0))
    (fun l hl => by simpa using (List.mem_filter.1 hl).2)
  rw [h] at e
  injection e with e
  rw [← e] at hf
  obtain ⟨m, hm, h1, h2⟩ := forall₂_right hf l (List.mem_filter.2 ⟨hl, by simpa using ⟨hc, hcs⟩⟩)
  exact ⟨m, hm, h1, h2⟩

theorem add_mem (cs en : Cs) (params : Dict Entry) (comp : Dict Hint) (eps : ℚ) (lines : List String) (models : List (String × Dict Hint))
    (h : addElements cs en params comp eps lines = .ok models) (e : String) (he : e ∈ lines) :
    ∃ ms, setupElement cs en params comp eps e 100000 = .ok (some ms) ∧ ∀ m ∈ ms, m ∈ models := by
  induction lines generalizing models with
  | nil => cases he
  | cons a es ih =>
    rw [addElements] at h
    simp only [bind, Except.bind] at h
    cases hs : setupElement cs en params comp eps a 100000 with
    | error x => rw [hs] at h; cases h
    | ok r =>
      rw [hs] at h
      cases r with
      | none => cases h
      | some ms =>
        simp only at h
        cases hr : addElements cs en params comp eps es with
        | error x => rw [hr] at h; cases h
        | ok rest =>
          rw [hr] at h
          injection h with h
          rcases List.mem_cons.1 he with rfl | he
          · exact ⟨ms, hs, fun m hm => by rw [← h]; exact List.mem_append_left _ hm⟩
          · obtain ⟨ms', h1, h2⟩ := ih rest hr he
            exact ⟨ms', h1, fun m hm => by rw [← h]; exact List.mem_append_right _ (h2 m hm)⟩

theorem assembled_split {cs en : Cs} {params : Dict Entry} {eps : ℚ} {lines : List String} {hints : Dict Hint} (hv : Spec.ValidBounds params)
    (h : assembled cs en params eps lines = .ok hints) :
    ∃ comp ela models, comptonHints params eps = .ok comp ∧ elasticHints params eps comp = .ok ela ∧ addElements cs en params comp eps lines = .ok models ∧
      hints = tie (flat (("", comp) :: ("elastic_", ela) :: models)) ∧ (∀ b ∈ comptonNames, (get b comp).bind clip = (get b params).map Spec.start) := by
  obtain ⟨comp, e1, hc, _⟩ := compton_ok hv eps
  obtain ⟨ela, e2⟩ := elastic_ok hv eps comp
  unfold assembled at h
  rw [e1] at h
  simp only [bind, Except.bind] at h
  rw [e2] at h
  simp only at h
  cases hr : addElements cs en params comp eps lines with
  | error x => rw [hr] at h; cases h
  | ok models =>
    rw [hr] at h
    exact ⟨comp, ela, models, e1, e2, hr, by injection h with h; exact h.symm, hc⟩

theorem isPeak_has {params : Dict Entry} {eps : ℚ} {pre : String} {hs : Dict Hint} {center ratio : ℚ} {a c s : Hint} (h : IsPeak params eps pre hs center ratio a c s) :
    ∀ b ∈ elementLabels, (get b hs).isSome := fun b hb => by rw [h.globals b hb]; rfl

theorem startsWith_head (p s t : String) (c : Char) (l : List Char) (hs : s.toList = c :: l) (hp : ∀ p' , p.toList = p' → p'.head? ≠ some c) (hp0 : p ≠ "") : startsWith p (s ++ t) = false := by
  unfold startsWith
  rw [String.toList_append, hs]
  have h0 := hp _ rfl
  cases hpl : p.toList with
  | nil => exact absurd (String.toList_eq_nil_iff.1 hpl) hp0
  | cons a q =>
    rw [hpl] at h0
    simp only [List.head?_cons, ne_eq, Option.some.injEq] at h0
    simp [List.isPrefixOf, h0]

theorem symbol_head : ∀ e ∈ kLine ++ lLine ++ mLine, ((symbolOf e).toList.headD 'c').isUpper = true := by decide +kernel

theorem symbol_start (e : String) (he : e ∈ kLine ++ lLine ++ mLine) (t : String) : startsWith "compton" (symbolOf e ++ t) = false := by
  have h := symbol_head e he
  cases hs : (symbolOf e).toList with
  | nil => rw [hs] at h; exact absurd h (by decide)
  | cons c l =>
    rw [hs] at h
    refine startsWith_head "compton" _ t c l hs ?_ (by decide)
    rintro _ rfl hh
    have : c = 'c' := by
      have h1 : "compton".toList.head? = some 'c' := rfl
      rw [h1] at hh
      exact (Option.some.inj hh).symm
    rw [this] at h
    exact absurd (show 'c'.isUpper = true from h) (by decide)

theorem symbol_ne (s : String) : ∀ t, s ++ "_" ++ t ++ "_" ≠ "" := by
  intro t h
  have := congrArg String.length h
  rw [String.length_append, String.length_append, String.length_append] at this
  simp at this

/-- The assembled model: for every assignment of values to parameters that respects the ties lmfit is given, every excited
line of every element uses the global energy calibration and resolution, every user peak too unless its name starts with
"compton", and the elastic peak also the common incident energy. -/
theorem C165_tied_partial (cs en : Cs) (params : Dict Entry) (hv : Spec.ValidBounds params) (hg : Spec.HasGlobals params) (eps : ℚ) (lines : List String) (hints : Dict Hint)
    (h : assembled cs en params eps lines = .ok hints) (v : String → ℚ) (hties : ∀ nh ∈ hints, ∀ s, nh.2.expr = some s → v nh.1 = v s)
    (label : String) (hlab : label ∈ ["e_offset", "e_linear", "e_quadratic", "fwhm_offset", "fwhm_fanoprime"]) :
    (∀ e ∈ lines, ∀ l, (e ∈ kLine ∧ l ∈ kTransitions) ∨ (e ∈ lLine ∧ l ∈ lTransitions) ∨ (e ∈ mLine ∧ l ∈ mTransitions) → cs (symbolOf e) l ≠ 0 →
      v (symbolOf e ++ "_" ++ l ++ "_" ++ label) = v label) ∧
    (∀ e ∈ lines, e ∉ kLine ++ lLine ++ mLine → hasUser e = true → startsWith "compton" (e ++ "_" ++ label) = false → v (e ++ "_" ++ label) = v label) ∧
    v ("elastic_" ++ label) = v label ∧ v ("elastic_" ++ "coherent_sct_energy") = v "coherent_sct_energy" := by
  obtain ⟨comp, ela, models, e1, e2, e3, rfl, hcomp⟩ := assembled_split hv h
  have use : ∀ m ∈ ("", comp) :: ("elastic_", ela) :: models, ∀ lab, (get lab m.2).isSome → m.1 ≠ "" → startsWith "compton" (m.1 ++ lab) = false →
      (lab ∈ elementLabels ∨ (lab ∈ elasticLabels ∧ startsWith "elastic" (m.1 ++ lab) = true)) → v (m.1 ++ lab) = v lab := by
    intro m hm lab hs hp hc hl
    obtain ⟨hh, hs⟩ := Option.isSome_iff_exists.1 hs
    obtain ⟨h', h1, h2⟩ := tied _ m hm lab hh hs hp hc hl
    exact hties _ h1 lab h2
  have hlab' : label ∈ elementLabels := hlab
  have hsetL : ∀ e ∈ lines, e ∈ kLine ++ lLine ++ mLine → ∀ l, (e ∈ kLine ∧ l ∈ kTransitions) ∨ (e ∈ lLine ∧ l ∈ lTransitions) ∨ (e ∈ mLine ∧ l ∈ mTransitions) → cs (symbolOf e) l ≠ 0 →
      ∃ m ∈ models, m.1 = symbolOf e ++ "_" ++ l ++ "_" ∧ ∀ b ∈ elementLabels, (get b m.2).isSome := by
    intro e he _ l hl hcs
    obtain ⟨ms, hs, hsub⟩ := add_mem cs en params comp eps lines models e3 e he
    have hkm : ∀ l ∈ kTransitions, l ∈ allLines ∧ 'k' ∈ l.toList := by decide +kernel
    have hlm : ∀ l ∈ lTransitions, l ∈ allLines ∧ 'l' ∈ l.toList := by decide +kernel
    have hmm : ∀ l ∈ mTransitions, l ∈ allLines ∧ 'm' ∈ l.toList := by decide +kernel
    unfold setupElement at hs
    rcases hl with ⟨hk, hl⟩ | ⟨hk, hl⟩ | ⟨hk, hl⟩
    · simp only [if_pos hk] at hs
      split_ifs at hs with h0
      · injection hs with hs; cases hs
      · cases hsl : shellLoop cs params 'k' (symbolOf e) (kModel cs en params comp eps (symbolOf e)) 100000 allLines with
        | error x => rw [hsl] at hs; cases hs
        | ok ms' =>
          rw [hsl] at hs
          have hms : ms' = ms := by injection hs with hs; injection hs
          obtain ⟨m, hm, h1, h2⟩ := shell_has cs params 'k' (symbolOf e) _ (fun l d => by
            obtain ⟨hs, e, p⟩ := kModel_ok hv hg hcomp eps cs en (symbolOf e) l d; exact ⟨hs, e, isPeak_has p⟩) _ _ hsl l (hkm l hl).1 (hkm l hl).2 hcs
          exact ⟨m, hsub m (hms ▸ hm), h1, h2⟩
    · simp only [if_neg (dLK _ hk), if_pos hk] at hs
      split_ifs at hs with h0
      · injection hs with hs; cases hs
      · cases hsl : shellLoop cs params 'l' (symbolOf e) (lmModel cs en params comp eps "la1" (symbolOf e)) 100000 allLines with
        | error x => rw [hsl] at hs; cases hs
        | ok ms' =>
          rw [hsl] at hs
          have hms : ms' = ms := by injection hs with hs; injection hs
          obtain ⟨m, hm, h1, h2⟩ := shell_has cs params 'l' (symbolOf e) _ (fun l d => by
            obtain ⟨hs, e, p⟩ := lmModel_ok hv hg hcomp eps cs en "la1" (symbolOf e) l d; exact ⟨hs, e, isPeak_has p⟩) _ _ hsl l (hlm l hl).1 (hlm l hl).2 hcs
          exact ⟨m, hsub m (hms ▸ hm), h1, h2⟩
    · simp only [if_neg (dMK _ hk), if_neg (dML _ hk), if_pos hk] at hs
      split_ifs at hs with h0
      · injection hs with hs; cases hs
      · cases hsl : shellLoop cs params 'm' (symbolOf e) (lmModel cs en params comp eps "ma1" (symbolOf e)) 100000 allLines with
        | error x => rw [hsl] at hs; cases hs
        | ok ms' =>
          rw [hsl] at hs
          have hms : ms' = ms := by injection hs with hs; injection hs
          obtain ⟨m, hm, h1, h2⟩ := shell_has cs params 'm' (symbolOf e) _ (fun l d => by
            obtain ⟨hs, e, p⟩ := lmModel_ok hv hg hcomp eps cs en "ma1" (symbolOf e) l d; exact ⟨hs, e, isPeak_has p⟩) _ _ hsl l (hmm l hl).1 (hmm l hl).2 hcs
          exact ⟨m, hsub m (hms ▸ hm), h1, h2⟩
  refine ⟨?_, ?_, ?_, ?_⟩
  · intro e he l hl hcs
    have ht : e ∈ kLine ++ lLine ++ mLine := by simp only [List.mem_append]; tauto
    obtain ⟨m, hm, h1, h2⟩ := hsetL e he ht l hl hcs
    have := use m (by simp [hm]) label (h2 label hlab') (h1 ▸ symbol_ne _ _) (by rw [h1, String.append_assoc, String.append_assoc, String.append_assoc]; exact symbol_start e ht _) (Or.inl hlab')
    rwa [h1] at this
  · intro e he ht hu hc
    obtain ⟨ms, hs, hsub⟩ := add_mem cs en params comp eps lines models e3 e he
    simp only [List.mem_append, not_or] at ht
    unfold setupElement at hs
    simp only [if_neg ht.1.1, if_neg ht.1.2, if_neg ht.2, if_pos hu, bind, Except.bind] at hs
    obtain ⟨hs', f1, p, _⟩ := lonePeak_ok hv hg hcomp eps (e ++ "_") 5 (areaValue params (e ++ "_" ++ "area") 100000)
    rw [f1] at hs
    have hms : [(e ++ "_", hs')] = ms := by injection hs with hs; injection hs
    exact use (e ++ "_", hs') (by simp [hsub _ (hms ▸ List.mem_singleton.2 rfl)]) label (isPeak_has p label hlab')
      (fun h0 => by have := congrArg String.length h0; rw [String.length_append] at this; simp at this) hc (Or.inl hlab')
  all_goals
    have hela : ∀ b ∈ elasticLabels, (get b ela).isSome := by
      obtain ⟨hs1, e, g⟩ := setNames_ok hv (elasticLabels ++ ["coherent_sct_amplitude"]) (by decide) (copyHints comp elasticLabels (setHint "epsilon" (fixAt (296 / 100)) []))
      rw [elasticHints, e] at e2
      injection e2 with e2
      intro b hb
      rw [← e2, get_setHint]
      split_ifs with h1
      · rfl
      · rw [g]
        split_ifs with h2
        · rfl
        · simp only [elasticLabels, List.mem_cons, List.not_mem_nil, or_false] at hb
          simp only [copyHints, elasticLabels]
          rcases hb with rfl | rfl | rfl | rfl | rfl | rfl <;> simp [get_setHint]
  · have hsub : ∀ a ∈ elementLabels, a ∈ elasticLabels := by decide
    have hst : ∀ lab ∈ elementLabels, startsWith "compton" ("elastic_" ++ lab) = false := by decide +kernel
    exact use ("elastic_", ela) (by simp) label (hela label (hsub _ hlab')) (show "elastic_" ≠ "" by decide) (hst label hlab') (Or.inl hlab')
  · exact use ("elastic_", ela) (by simp) "coherent_sct_energy" (hela _ (by decide)) (show "elastic_" ≠ "" by decide)
      (show startsWith "compton" ("elastic_" ++ "coherent_sct_energy") = false by decide +kernel)
      (Or.inr ⟨by decide, show startsWith "elastic" ("elastic_" ++ "coherent_sct_energy") = true by decide +kernel⟩)

end Verif.Xrf
