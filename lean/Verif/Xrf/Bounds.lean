/- Property C168, continued: bounds of the parameters of elements, user peaks and pile-up peaks. -/
import Verif.Xrf.SpectrumMore

namespace Verif.Xrf
open Verif

/-- Like `Spec.Bounded`, but not below 0 where the entry asks for no lower limit. -/
def Spec.BoundedArea (e : Entry) (h : Hint) : Prop :=
  h.value = some e.value ∧ h.vary = some (decide (e.bound ≠ "fixed")) ∧ h.expr = none ∧
  h.min = some (if e.bound = "lo" ∨ e.bound = "lohi" then e.lo else 0) ∧ h.max = (if e.bound = "hi" ∨ e.bound = "lohi" then some e.hi else none)

theorem bounded_from {params : Dict Entry} (hv : Spec.ValidBounds params) (key : String) (e : Entry) (h : get key params = some e) (d : ℚ) (b : Bool) :
    Spec.Bounded e (upd params key { value := some d, vary := some b }) := by
  have hb := hv _ _ h
  unfold Spec.Bounded upd
  rw [h]
  simp only [List.mem_cons, List.not_mem_nil, or_false] at hb
  unfold entryHint
  rcases hb with hb | hb | hb | hb | hb <;> simp [hb]

theorem boundedArea_from {params : Dict Entry} (hv : Spec.ValidBounds params) (key : String) (e : Entry) (h : get key params = some e) (d : ℚ) (b : Bool) :
    Spec.BoundedArea e (upd params key { value := some d, vary := some b, min := some 0 }) := by
  have hb := hv _ _ h
  unfold Spec.BoundedArea upd
  rw [h]
  simp only [List.mem_cons, List.not_mem_nil, or_false] at hb
  unfold entryHint
  rcases hb with hb | hb | hb | hb | hb <;> simp [hb]

/-- The parameters of a peak that are its own. -/
def ownParams : List String := ["area", "delta_center", "delta_sigma", "ratio_adjust"]

theorem own_suffix (p b : String) (hb : b ∈ ownParams) : ∀ a ∈ elasticLabels, endsWith a (p ++ b) = false := by
  intro a ha
  have hdec : ∀ b ∈ ownParams, ∀ a ∈ elasticLabels, ¬ a.toList <:+ b.toList ∧ ¬ b.toList <:+ a.toList := by decide +kernel
  by_contra hc
  have h1 : endsWith a (p ++ b) = true := by simpa using hc
  have h2 := endsWith_append p b
  unfold endsWith at h1 h2
  rw [List.isSuffixOf_iff_suffix] at h1 h2
  rcases List.suffix_or_suffix_of_suffix h1 h2 with h | h
  · exact (hdec b hb a ha).1 h
  · exact (hdec b hb a ha).2 h

theorem tie_own (models : List (String × Dict Hint)) (m : String × Dict Hint) (hm : m ∈ models) (b : String) (hb : b ∈ ownParams) (hint : Hint)
    (hg : get b m.2 = some hint) : (m.1 ++ b, hint) ∈ tie (flat models) := by
  refine List.mem_map.2 ⟨(m.1 ++ b, hint), List.mem_flatMap.2 ⟨m, hm, List.mem_map.2 ⟨_, get_mem _ _ _ hg, rfl⟩⟩, ?_⟩
  have hno : ∀ a ∈ elasticLabels, endsWith a (m.1 ++ b) = true → a = m.1 ++ b := fun a ha h => by rw [own_suffix m.1 b hb a ha] at h; cases h
  have hsub : ∀ a ∈ elementLabels, a ∈ elasticLabels := by decide
  simp only
  split_ifs
  · rfl
  · rw [fold_same _ elasticLabels hno]
  · rw [fold_same _ elementLabels (fun a ha => hno a (hsub a ha))]

theorem shell_get (cs : Cs) (params : Dict Entry) (c : Char) (el : String) (mk : String → ℚ → Py (Dict Hint)) (P : String → Dict Hint → Prop)
    (hmk : ∀ l d, ∃ hs, mk l d = .ok hs ∧ P l hs) (d : ℚ) (models : List (String × Dict Hint)) (h : shellLoop cs params c el mk d allLines = .ok models)
    (l : String) (hl : l ∈ allLines) (hc : c ∈ l.toList) (hcs : cs el l ≠ 0) :
    ∃ m ∈ models, m.1 = el ++ "_" ++ l ++ "_" ∧ P l m.2 := by
  rw [shell_filter] at h
  obtain ⟨models', e, hf⟩ := shell_ok cs params c el mk P hmk d (allLines.filter (fun l => c ∈ l.toList ∧ cs el l ≠ 0))
    (fun l hl => by simpa using (List.mem_filter.1 hl).2)
  rw [h] at e
  injection e with e
  rw [← e] at hf
  exact forall₂_right hf l (List.mem_filter.2 ⟨hl, by simpa using ⟨hc, hcs⟩⟩)

/-- A finished K peak. -/
abbrev KPeak (cs en : Cs) (params : Dict Entry) (eps : ℚ) (el l : String) (hs : Dict Hint) : Prop :=
  ∃ d : ℚ, IsPeak params eps (el ++ "_" ++ l ++ "_") hs (en el l) (cs el l / cs el "ka1")
      (if l = "ka1" then { value := some d, vary := some true, min := some 0 } else { value := some d, vary := some true, expr := some (el ++ "_ka1_" ++ "area") })
      (if l = "ka2" then { value := some 0, vary := some false, expr := some (el ++ "_ka1_" ++ "delta_center") } else { value := some 0, vary := some false })
      (if l = "ka2" then { value := some 0, vary := some false, expr := some (el ++ "_ka1_" ++ "delta_sigma") } else { value := some 0, vary := some false })

/-- A finished L or M peak. -/
abbrev LMPeak (cs en : Cs) (params : Dict Entry) (eps : ℚ) (first el l : String) (hs : Dict Hint) : Prop :=
  ∃ d : ℚ, IsPeak params eps (el ++ "_" ++ l ++ "_") hs (en el l) (cs el l / cs el first)
      (if l = first then { value := some d, vary := some true } else { value := some d, vary := some true, expr := some (el ++ "_" ++ first ++ "_" ++ "area") })
      { value := some 0, vary := some false } { value := some 0, vary := some false }

/-- Shift, width and ratio adjustments of every line except the tied ones of ka2, and the area of la1 and ma1, are fitted within
the bounds their entries ask for; so is the area of ka1 apart from its default lower limit 0. -/
theorem C168_elements_partial (cs en : Cs) (params : Dict Entry) (hv : Spec.ValidBounds params) (hg : Spec.HasGlobals params) (eps : ℚ) (lines : List String)
    (hints : Dict Hint) (h : assembled cs en params eps lines = .ok hints) (e : String) (he : e ∈ lines) (l : String)
    (hl : (e ∈ kLine ∧ l ∈ kTransitions) ∨ (e ∈ lLine ∧ l ∈ lTransitions) ∨ (e ∈ mLine ∧ l ∈ mTransitions)) (hcs : cs (symbolOf e) l ≠ 0)
    (b : String) (entry : Entry) (hp : get (symbolOf e ++ "_" ++ l ++ "_" ++ b) params = some entry) :
    (b = "ratio_adjust" ∨ ((b = "delta_center" ∨ b = "delta_sigma") ∧ l ≠ "ka2") ∨ (b = "area" ∧ (l = "la1" ∨ l = "ma1")) →
      ∃ hint, (symbolOf e ++ "_" ++ l ++ "_" ++ b, hint) ∈ hints ∧ Spec.Bounded entry hint) ∧
    (b = "area" ∧ l = "ka1" → ∃ hint, (symbolOf e ++ "_" ++ l ++ "_" ++ b, hint) ∈ hints ∧ Spec.BoundedArea entry hint) := by
  obtain ⟨comp, ela, models, e1, e2, e3, rfl, hcomp⟩ := assembled_split hv h
  obtain ⟨ms, hs, hsub⟩ := add_mem cs en params comp eps lines models e3 e he
  have hkm : ∀ l ∈ kTransitions, l ∈ allLines ∧ 'k' ∈ l.toList ∧ l ≠ "la1" ∧ l ≠ "ma1" := by decide +kernel
  have hlm : ∀ l ∈ lTransitions, l ∈ allLines ∧ 'l' ∈ l.toList ∧ l ≠ "ka1" ∧ l ≠ "ma1" := by decide +kernel
  have hmm : ∀ l ∈ mTransitions, l ∈ allLines ∧ 'm' ∈ l.toList ∧ l ≠ "ka1" ∧ l ≠ "la1" := by decide +kernel
  have fin : ∀ m ∈ ms, m.1 = symbolOf e ++ "_" ++ l ++ "_" → ∀ b ∈ ownParams, ∀ hint, get b m.2 = some hint →
      (symbolOf e ++ "_" ++ l ++ "_" ++ b, hint) ∈ tie (flat (("", comp) :: ("elastic_", ela) :: models)) := by
    intro m hm h1 b hb hint hgt
    have := tie_own (("", comp) :: ("elastic_", ela) :: models) m (by simp [hsub m hm]) b hb hint hgt
    rwa [h1] at this
  unfold setupElement at hs
  rcases hl with ⟨hk, hl⟩ | ⟨hk, hl⟩ | ⟨hk, hl⟩
  · simp only [if_pos hk] at hs
    split_ifs at hs with h0
    · injection hs with hs; cases hs
    · cases hsl : shellLoop cs params 'k' (symbolOf e) (kModel cs en params comp eps (symbolOf e)) 100000 allLines with
      | error x => rw [hsl] at hs; cases hs
      | ok ms' =>
        rw [hsl] at hs
        have hms : ms' = ms := by injection hs with hs; injection hs
        subst hms
        obtain ⟨m, hm, h1, d, p⟩ := shell_get cs params 'k' (symbolOf e) _ (KPeak cs en params eps (symbolOf e)) (fun l d => by
          obtain ⟨hs, e, p⟩ := kModel_ok hv hg hcomp eps cs en (symbolOf e) l d; exact ⟨hs, e, d, p⟩) _ _ hsl l (hkm l hl).1 (hkm l hl).2.1 hcs
        constructor
        · rintro (rfl | ⟨rfl | rfl, h2⟩ | ⟨rfl, h2⟩)
          · exact ⟨_, fin m hm h1 _ (by decide) _ p.ratioAdjust, bounded_from hv _ _ hp _ _⟩
          · have := p.deltaCenter
            rw [if_neg h2] at this
            exact ⟨_, fin m hm h1 _ (by decide) _ this, bounded_from hv _ _ hp _ _⟩
          · have := p.deltaSigma
            rw [if_neg h2] at this
            exact ⟨_, fin m hm h1 _ (by decide) _ this, bounded_from hv _ _ hp _ _⟩
          · rcases h2 with h2 | h2
            · exact absurd h2 (hkm l hl).2.2.1
            · exact absurd h2 (hkm l hl).2.2.2
        · rintro ⟨rfl, h2⟩
          have := p.area
          rw [if_pos h2] at this
          exact ⟨_, fin m hm h1 _ (by decide) _ this, boundedArea_from hv _ _ hp _ _⟩
  · simp only [if_neg (dLK _ hk), if_pos hk] at hs
    split_ifs at hs with h0
    · injection hs with hs; cases hs
    · cases hsl : shellLoop cs params 'l' (symbolOf e) (lmModel cs en params comp eps "la1" (symbolOf e)) 100000 allLines with
      | error x => rw [hsl] at hs; cases hs
      | ok ms' =>
        rw [hsl] at hs
        have hms : ms' = ms := by injection hs with hs; injection hs
        subst hms
        obtain ⟨m, hm, h1, d, p⟩ := shell_get cs params 'l' (symbolOf e) _ (LMPeak cs en params eps "la1" (symbolOf e)) (fun l d => by
          obtain ⟨hs, e, p⟩ := lmModel_ok hv hg hcomp eps cs en "la1" (symbolOf e) l d; exact ⟨hs, e, d, p⟩) _ _ hsl l (hlm l hl).1 (hlm l hl).2.1 hcs
        constructor
        · rintro (rfl | ⟨rfl | rfl, h2⟩ | ⟨rfl, h2⟩)
          · exact ⟨_, fin m hm h1 _ (by decide) _ p.ratioAdjust, bounded_from hv _ _ hp _ _⟩
          · exact ⟨_, fin m hm h1 _ (by decide) _ p.deltaCenter, bounded_from hv _ _ hp _ _⟩
          · exact ⟨_, fin m hm h1 _ (by decide) _ p.deltaSigma, bounded_from hv _ _ hp _ _⟩
          · rcases h2 with h2 | h2
            · have := p.area
              rw [if_pos h2] at this
              exact ⟨_, fin m hm h1 _ (by decide) _ this, bounded_from hv _ _ hp _ _⟩
            · exact absurd h2 (hlm l hl).2.2.2
        · rintro ⟨_, h2⟩
          exact absurd h2 (hlm l hl).2.2.1
  · simp only [if_neg (dMK _ hk), if_neg (dML _ hk), if_pos hk] at hs
    split_ifs at hs with h0
    · injection hs with hs; cases hs
    · cases hsl : shellLoop cs params 'm' (symbolOf e) (lmModel cs en params comp eps "ma1" (symbolOf e)) 100000 allLines with
      | error x => rw [hsl] at hs; cases hs
      | ok ms' =>
        rw [hsl] at hs
        have hms : ms' = ms := by injection hs with hs; injection hs
        subst hms
        obtain ⟨m, hm, h1, d, p⟩ := shell_get cs params 'm' (symbolOf e) _ (LMPeak cs en params eps "ma1" (symbolOf e)) (fun l d => by
          obtain ⟨hs, e, p⟩ := lmModel_ok hv hg hcomp eps cs en "ma1" (symbolOf e) l d; exact ⟨hs, e, d, p⟩) _ _ hsl l (hmm l hl).1 (hmm l hl).2.1 hcs
        constructor
        · rintro (rfl | ⟨rfl | rfl, h2⟩ | ⟨rfl, h2⟩)
          · exact ⟨_, fin m hm h1 _ (by decide) _ p.ratioAdjust, bounded_from hv _ _ hp _ _⟩
          · exact ⟨_, fin m hm h1 _ (by decide) _ p.deltaCenter, bounded_from hv _ _ hp _ _⟩
          · exact ⟨_, fin m hm h1 _ (by decide) _ p.deltaSigma, bounded_from hv _ _ hp _ _⟩
          · rcases h2 with h2 | h2
            · exact absurd h2 (hmm l hl).2.2.2
            · have := p.area
              rw [if_pos h2] at this
              exact ⟨_, fin m hm h1 _ (by decide) _ this, bounded_from hv _ _ hp _ _⟩
        · rintro ⟨_, h2⟩
          exact absurd h2 (hmm l hl).2.2.1

/-- Areas of all other lines of an element, and shift and width of ka2, follow the main line whatever their entries say: they
are expressions of its parameter. -/
theorem C168_tied_partial (cs en : Cs) (params : Dict Entry) (hv : Spec.ValidBounds params) (hg : Spec.HasGlobals params) (eps : ℚ) (lines : List String)
    (hints : Dict Hint) (h : assembled cs en params eps lines = .ok hints) (e : String) (he : e ∈ lines) (l : String) (hcs : cs (symbolOf e) l ≠ 0) :
    (e ∈ kLine → l ∈ kTransitions → l ≠ "ka1" → ∃ hint, (symbolOf e ++ "_" ++ l ++ "_area", hint) ∈ hints ∧ hint.expr = some (symbolOf e ++ "_ka1_area")) ∧
    (e ∈ lLine → l ∈ lTransitions → l ≠ "la1" → ∃ hint, (symbolOf e ++ "_" ++ l ++ "_area", hint) ∈ hints ∧ hint.expr = some (symbolOf e ++ "_la1_area")) ∧
    (e ∈ mLine → l ∈ mTransitions → l ≠ "ma1" → ∃ hint, (symbolOf e ++ "_" ++ l ++ "_area", hint) ∈ hints ∧ hint.expr = some (symbolOf e ++ "_ma1_area")) ∧
    (e ∈ kLine → l = "ka2" → ∀ b ∈ ["delta_center", "delta_sigma"],
      ∃ hint, (symbolOf e ++ "_ka2_" ++ b, hint) ∈ hints ∧ hint.expr = some (symbolOf e ++ "_ka1_" ++ b)) := by
  obtain ⟨comp, ela, models, e1, e2, e3, rfl, hcomp⟩ := assembled_split hv h
  obtain ⟨ms, hs, hsub⟩ := add_mem cs en params comp eps lines models e3 e he
  have hkm : ∀ l ∈ kTransitions, l ∈ allLines ∧ 'k' ∈ l.toList := by decide +kernel
  have hlm : ∀ l ∈ lTransitions, l ∈ allLines ∧ 'l' ∈ l.toList := by decide +kernel
  have hmm : ∀ l ∈ mTransitions, l ∈ allLines ∧ 'm' ∈ l.toList := by decide +kernel
  have hexpr : ∀ key (hh : Hint) s, hh.expr = some s → (upd params key hh).expr = some s := by
    intro key hh s hx
    unfold upd
    cases hk : get key params with
    | none => exact hx
    | some en =>
      have hb := hv _ _ hk
      simp only [List.mem_cons, List.not_mem_nil, or_false] at hb
      unfold entryHint
      rcases hb with hb | hb | hb | hb | hb <;> simp [hb, hx]
  have fin : ∀ m ∈ ms, m.1 = symbolOf e ++ "_" ++ l ++ "_" → ∀ b ∈ ownParams, ∀ hint, get b m.2 = some hint →
      (symbolOf e ++ "_" ++ l ++ "_" ++ b, hint) ∈ tie (flat (("", comp) :: ("elastic_", ela) :: models)) := by
    intro m hm h1 b hb hint hgt
    have := tie_own (("", comp) :: ("elastic_", ela) :: models) m (by simp [hsub m hm]) b hb hint hgt
    rwa [h1] at this
  have nm : ∀ l, symbolOf e ++ "_" ++ l ++ "_" ++ "area" = symbolOf e ++ "_" ++ l ++ "_area" := by intro l; simp only [String.append_assoc]; rfl
  have nk : symbolOf e ++ "_ka1_" ++ "area" = symbolOf e ++ "_ka1_area" := by simp only [String.append_assoc]; rfl
  have nl : symbolOf e ++ "_" ++ "la1" ++ "_" ++ "area" = symbolOf e ++ "_la1_area" := by simp only [String.append_assoc]; rfl
  have nmm : symbolOf e ++ "_" ++ "ma1" ++ "_" ++ "area" = symbolOf e ++ "_ma1_area" := by simp only [String.append_assoc]; rfl
  unfold setupElement at hs
  have hK : e ∈ kLine → l ∈ allLines → 'k' ∈ l.toList → ∃ m ∈ ms, m.1 = symbolOf e ++ "_" ++ l ++ "_" ∧ KPeak cs en params eps (symbolOf e) l m.2 := by
    intro hk hl1 hl2
    simp only [if_pos hk] at hs
    split_ifs at hs with h0
    · injection hs with hs; cases hs
    · cases hsl : shellLoop cs params 'k' (symbolOf e) (kModel cs en params comp eps (symbolOf e)) 100000 allLines with
      | error x => rw [hsl] at hs; cases hs
      | ok ms' =>
        rw [hsl] at hs
        have hms : ms' = ms := by injection hs with hs; injection hs
        subst hms
        exact shell_get cs params 'k' (symbolOf e) _ (KPeak cs en params eps (symbolOf e)) (fun l d => by
          obtain ⟨hs, e, p⟩ := kModel_ok hv hg hcomp eps cs en (symbolOf e) l d; exact ⟨hs, e, d, p⟩) _ _ hsl l hl1 hl2 hcs
  refine ⟨?_, ?_, ?_, ?_⟩
  · intro hk hl hne
    obtain ⟨m, hm, h1, d, p⟩ := hK hk (hkm l hl).1 (hkm l hl).2
    have := fin m hm h1 _ (by decide) _ p.area
    rw [nm] at this
    exact ⟨_, this, by rw [if_neg hne]; exact hexpr _ _ _ (by rw [nk])⟩
  · intro hk hl hne
    simp only [if_neg (dLK _ hk), if_pos hk] at hs
    split_ifs at hs with h0
    · injection hs with hs; cases hs
    · cases hsl : shellLoop cs params 'l' (symbolOf e) (lmModel cs en params comp eps "la1" (symbolOf e)) 100000 allLines with
      | error x => rw [hsl] at hs; cases hs
      | ok ms' =>
        rw [hsl] at hs
        have hms : ms' = ms := by injection hs with hs; injection hs
        subst hms
        obtain ⟨m, hm, h1, d, p⟩ := shell_get cs params 'l' (symbolOf e) _ (LMPeak cs en params eps "la1" (symbolOf e)) (fun l d => by
          obtain ⟨hs, e, p⟩ := lmModel_ok hv hg hcomp eps cs en "la1" (symbolOf e) l d; exact ⟨hs, e, d, p⟩) _ _ hsl l (hlm l hl).1 (hlm l hl).2 hcs
        have := fin m hm h1 _ (by decide) _ p.area
        rw [nm] at this
        exact ⟨_, this, by rw [if_neg hne]; exact hexpr _ _ _ (by rw [nl])⟩
  · intro hk hl hne
    simp only [if_neg (dMK _ hk), if_neg (dML _ hk), if_pos hk] at hs
    split_ifs at hs with h0
    · injection hs with hs; cases hs
    · cases hsl : shellLoop cs params 'm' (symbolOf e) (lmModel cs en params comp eps "ma1" (symbolOf e)) 100000 allLines with
      | error x => rw [hsl] at hs; cases hs
      | ok ms' =>
        rw [hsl] at hs
        have hms : ms' = ms := by injection hs with hs; injection hs
        subst hms
        obtain ⟨m, hm, h1, d, p⟩ := shell_get cs params 'm' (symbolOf e) _ (LMPeak cs en params eps "ma1" (symbolOf e)) (fun l d => by
          obtain ⟨hs, e, p⟩ := lmModel_ok hv hg hcomp eps cs en "ma1" (symbolOf e) l d; exact ⟨hs, e, d, p⟩) _ _ hsl l (hmm l hl).1 (hmm l hl).2 hcs
        have := fin m hm h1 _ (by decide) _ p.area
        rw [nm] at this
        exact ⟨_, this, by rw [if_neg hne]; exact hexpr _ _ _ (by rw [nmm])⟩
  · intro hk hl b hb
    subst hl
    obtain ⟨m, hm, h1, d, p⟩ := hK hk (by decide +kernel) (by decide)
    have nn : ∀ b, symbolOf e ++ "_" ++ "ka2" ++ "_" ++ b = symbolOf e ++ "_ka2_" ++ b := by
      intro b
      have : symbolOf e ++ "_" ++ "ka2" ++ "_" = symbolOf e ++ "_ka2_" := by simp only [String.append_assoc]; rfl
      rw [this]
    simp only [List.mem_cons, List.not_mem_nil, or_false] at hb
    rcases hb with rfl | rfl
    · have := fin m hm h1 _ (by decide) _ p.deltaCenter
      rw [nn] at this
      exact ⟨_, this, by rw [if_pos rfl]; exact hexpr _ _ _ rfl⟩
    · have := fin m hm h1 _ (by decide) _ p.deltaSigma
      rw [nn] at this
      exact ⟨_, this, by rw [if_pos rfl]; exact hexpr _ _ _ rfl⟩

/-- User and pile-up peaks: shift, width and ratio adjustments are fitted within the bounds their entries ask for, and so is
the area apart from its default lower limit 0. -/
theorem C168_lone_partial (cs en : Cs) (params : Dict Entry) (hv : Spec.ValidBounds params) (hg : Spec.HasGlobals params) (eps : ℚ) (lines : List String)
    (hints : Dict Hint) (h : assembled cs en params eps lines = .ok hints) (e : String) (he : e ∈ lines) (ht : e ∉ kLine ++ lLine ++ mLine)
    (pre : String) (hpre : (hasUser e = true ∧ pre = e ++ "_") ∨ (hasUser e = false ∧ pre = "pileup_" ++ replaceDash e ++ "_"))
    (b : String) (entry : Entry) (hp : get (pre ++ b) params = some entry) :
    (b = "ratio_adjust" ∨ b = "delta_center" ∨ b = "delta_sigma" → ∃ hint, (pre ++ b, hint) ∈ hints ∧ Spec.Bounded entry hint) ∧
    (b = "area" → ∃ hint, (pre ++ b, hint) ∈ hints ∧ Spec.BoundedArea entry hint) := by
  obtain ⟨comp, ela, models, e1, e2, e3, rfl, hcomp⟩ := assembled_split hv h
  obtain ⟨ms, hs, hsub⟩ := add_mem cs en params comp eps lines models e3 e he
  simp only [List.mem_append, not_or] at ht
  have key : ∃ m ∈ ms, m.1 = pre ∧ ∃ center d, IsPeak params eps pre m.2 center 1 { value := some d, vary := some true, min := some 0 }
      { value := some 0, vary := some false } { value := some 0, vary := some false } := by
    unfold setupElement at hs
    rcases hpre with ⟨hu, rfl⟩ | ⟨hu, rfl⟩
    · simp only [if_neg ht.1.1, if_neg ht.1.2, if_neg ht.2, if_pos hu, bind, Except.bind] at hs
      obtain ⟨hs', f1, p, _⟩ := lonePeak_ok hv hg hcomp eps (e ++ "_") 5 (areaValue params (e ++ "_" ++ "area") 100000)
      rw [f1] at hs
      have hms : [(e ++ "_", hs')] = ms := by injection hs with hs; injection hs
      exact ⟨_, by rw [← hms]; exact List.mem_singleton.2 rfl, rfl, _, _, p⟩
    · simp only [if_neg ht.1.1, if_neg ht.1.2, if_neg ht.2, hu, Bool.false_eq_true, if_false, bind, Except.bind] at hs
      split at hs
      · rename_i l1 l2 _
        cases h1 : lineEnergy en l1 with
        | error x => rw [h1] at hs; cases hs
        | ok v1 =>
          cases h2 : lineEnergy en l2 with
          | error x => rw [h1, h2] at hs; cases hs
          | ok v2 =>
            rw [h1, h2] at hs
            simp only at hs
            obtain ⟨hs', f1, p, _⟩ := lonePeak_ok hv hg hcomp eps ("pileup_" ++ replaceDash e ++ "_") (v1 + v2)
              (areaValue params ("pileup_" ++ replaceDash e ++ "_" ++ "area") 100000)
            rw [f1] at hs
            have hms : [("pileup_" ++ replaceDash e ++ "_", hs')] = ms := by injection hs with hs; injection hs
            exact ⟨_, by rw [← hms]; exact List.mem_singleton.2 rfl, rfl, _, _, p⟩
      · cases hs
  obtain ⟨m, hm, h1, center, d, p⟩ := key
  have fin : ∀ b ∈ ownParams, ∀ hint, get b m.2 = some hint → (pre ++ b, hint) ∈ tie (flat (("", comp) :: ("elastic_", ela) :: models)) := by
    intro b hb hint hgt
    have := tie_own (("", comp) :: ("elastic_", ela) :: models) m (by simp [hsub m hm]) b hb hint hgt
    rwa [h1] at this
  constructor
  · rintro (rfl | rfl | rfl)
    · exact ⟨_, fin _ (by decide) _ p.ratioAdjust, bounded_from hv _ _ hp _ _⟩
    · exact ⟨_, fin _ (by decide) _ p.deltaCenter, bounded_from hv _ _ hp _ _⟩
    · exact ⟨_, fin _ (by decide) _ p.deltaSigma, bounded_from hv _ _ hp _ _⟩
  · rintro rfl
    exact ⟨_, fin _ (by decide) _ p.area, boundedArea_from hv _ _ hp _ _⟩

-- a dict with entries for an L line, a shift of a K line and a pile-up peak, of all bound types
example : Spec.ValidBounds (exParams ++ [("Au_la1_area", ⟨"lohi", 1, 9, 5⟩), ("Fe_kb1_delta_center", ⟨"hi", 0, 1, 0⟩), ("pileup_Fe_Ka1_Fe_Ka1_area", ⟨"lo", 2, 0, 3⟩)]) ∧
    (assembled exCs exEn (exParams ++ [("Au_la1_area", ⟨"lohi", 1, 9, 5⟩), ("Fe_kb1_delta_center", ⟨"hi", 0, 1, 0⟩), ("pileup_Fe_Ka1_Fe_Ka1_area", ⟨"lo", 2, 0, 3⟩)]) 3
      ["Fe_K", "Au_L", "Fe_Ka1-Fe_Ka1"]).isOk = true ∧
    "kb1" ∈ kTransitions ∧ "la1" ∈ lTransitions ∧ "Fe_K" ∈ kLine ∧ "Au_L" ∈ lLine ∧ hasUser "Fe_Ka1-Fe_Ka1" = false := by
  refine ⟨?_, by decide +kernel, by decide, by decide, by decide +kernel, by decide +kernel, by decide +kernel⟩
  intro k e h
  have hall : ∀ ke ∈ exParams ++ [("Au_la1_area", ⟨"lohi", 1, 9, 5⟩), ("Fe_kb1_delta_center", ⟨"hi", 0, 1, 0⟩), ("pileup_Fe_Ka1_Fe_Ka1_area", ⟨"lo", 2, 0, 3⟩)],
      ke.2.bound ∈ ["none", "fixed", "lohi", "lo", "hi"] := by decide
  exact hall (k, e) (get_mem k e _ h)

end Verif.Xrf
