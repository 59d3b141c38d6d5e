/- Lemmas on element models and the linear model. -/
import Verif.Xrf.Spectrum
import Verif.Xrf.SpectrumSpec
import Verif.Xrf.Props

namespace Verif.Xrf
open Verif

/-! ## hints -/

theorem get_setHint (n b : String) (f : Hint → Hint) (hs : Dict Hint) :
    get b (setHint n f hs) = if b = n then some (f ((get n hs).getD {})) else get b hs := by
  unfold setHint
  rw [get_setKey]

/-- The update the parameter dict makes to a hint. -/
def upd (params : Dict Entry) (key : String) (h : Hint) : Hint :=
  match get key params with
  | none => h
  | some e => match entryHint e with
    | .ok f => f h
    | .error _ => h

theorem entryHint_ok (e : Entry) (h : e.bound ∈ ["none", "fixed", "lohi", "lo", "hi"]) : ∃ f, entryHint e = .ok f := by
  unfold entryHint
  simp only [List.mem_cons, List.not_mem_nil, or_false] at h
  split_ifs
  all_goals first
    | exact ⟨_, rfl⟩
    | tauto

/-- All names of the hints are in the list. -/
def Keys (S : List String) (hs : Dict Hint) : Prop := ∀ bh ∈ hs, bh.1 ∈ S

theorem keys_setKey {α : Type} (S : String → Prop) (n : String) (v : α) (d : Dict α) (hn : S n) (h : ∀ bh ∈ d, S bh.1) : ∀ bh ∈ setKey n v d, S bh.1 := by
  induction d with
  | nil => intro bh hb; rw [setKey, List.mem_singleton] at hb; rw [hb]; exact hn
  | cons a d ih =>
    obtain ⟨k, w⟩ := a
    rw [setKey]
    have h1 : S k := h (k, w) List.mem_cons_self
    split_ifs
    · intro bh hb
      rcases List.mem_cons.1 hb with hb | hb
      · rw [hb]; exact h1
      · exact h bh (List.mem_cons_of_mem _ hb)
    · intro bh hb
      rcases List.mem_cons.1 hb with hb | hb
      · rw [hb]; exact h1
      · exact ih (fun b hb => h b (List.mem_cons_of_mem _ hb)) bh hb

theorem keys_setHint (S : List String) (n : String) (f : Hint → Hint) (hs : Dict Hint) (hn : n ∈ S) (h : Keys S hs) : Keys S (setHint n f hs) :=
  keys_setKey _ n _ hs hn h

theorem setFrom {params : Dict Entry} (hv : Spec.ValidBounds params) (key name : String) (hs : Dict Hint) (h : Hint) (h0 : get name hs = some h) :
    ∃ hs', setFromParams params key name hs = .ok hs' ∧ (∀ b, get b hs' = if b = name then some (upd params key h) else get b hs) ∧
      (∀ S, name ∈ S → Keys S hs → Keys S hs') := by
  unfold setFromParams upd
  cases hk : get key params with
  | none =>
    refine ⟨hs, rfl, fun b => ?_, fun _ _ h => h⟩
    split_ifs with hb
    · rw [hb, h0]
    · rfl
  | some e =>
    obtain ⟨f, hf⟩ := entryHint_ok e (hv _ _ hk)
    refine ⟨setHint name f hs, ?_, fun b => ?_, fun S => keys_setHint S name f hs⟩
    · simp only [setParameterHint, hf, bind, Except.bind]
    · rw [get_setHint, h0]
      simp only [hf, Option.getD_some]

theorem upd_expr (params : Dict Entry) (key : String) (h : Hint) : (upd params key h).expr = h.expr := by
  unfold upd
  split
  · rfl
  · unfold entryHint
    split_ifs <;> rfl

theorem clip_upd {params : Dict Entry} (hv : Spec.ValidBounds params) (key : String) (d : ℚ) (v : Option Bool) (ex : Option String) :
    clip (upd params key { value := some d, vary := v, expr := ex }) = some (Spec.adjust params key d) := by
  unfold upd Spec.adjust
  cases hk : get key params with
  | none => simp [clip]
  | some e =>
    have hb := hv _ _ hk
    simp only [List.mem_cons, List.not_mem_nil, or_false] at hb
    simp only [Option.map_some, Option.getD_some]
    unfold entryHint Spec.start
    rcases hb with hb | hb | hb | hb | hb <;> simp [hb, clip, min_def, max_def] <;> grind

theorem clip_upd_nonneg {params : Dict Entry} (hv : Spec.ValidBounds params) (key : String) (d : ℚ) (v : Option Bool) :
    clip (upd params key { value := some d, vary := v, min := some 0 }) = some (Spec.kArea params key d) := by
  unfold upd Spec.kArea
  cases hk : get key params with
  | none => simp [clip, max_def]; grind
  | some e =>
    have hb := hv _ _ hk
    simp only [List.mem_cons, List.not_mem_nil, or_false] at hb
    simp only [Option.map_some, Option.getD_some]
    unfold entryHint Spec.nonneg Spec.start
    rcases hb with hb | hb | hb | hb | hb <;> simp [hb, clip, min_def, max_def] <;> grind

/-! ## global parameters -/

theorem setNames_ok {params : Dict Entry} (hv : Spec.ValidBounds params) (ns : List String) (hnd : ns.Nodup) (hs : Dict Hint) :
    ∃ hs', setNames params ns hs = .ok hs' ∧ ∀ b, get b hs' = if b ∈ ns ∧ (get b params).isSome then some (upd params b ((get b hs).getD {})) else get b hs := by
  induction ns generalizing hs with
  | nil => exact ⟨hs, rfl, fun b => by simp⟩
  | cons n ns ih =>
    have h1 : ∃ hs1, setFromParams params n n hs = .ok hs1 ∧ ∀ b, get b hs1 = if b = n ∧ (get b params).isSome then some (upd params b ((get b hs).getD {})) else get b hs := by
      unfold setFromParams
      cases hk : get n params with
      | none => exact ⟨hs, rfl, fun b => by rw [if_neg]; rintro ⟨rfl, h⟩; rw [hk] at h; cases h⟩
      | some e =>
        obtain ⟨f, hf⟩ := entryHint_ok e (hv _ _ hk)
        refine ⟨setHint n f hs, by simp only [setParameterHint, hf, bind, Except.bind], fun b => ?_⟩
        rw [get_setHint]
        by_cases hb : b = n
        · subst hb
          rw [if_pos rfl, if_pos ⟨rfl, by rw [hk]; rfl⟩]
          unfold upd
          rw [hk]
          simp only [hf]
        · rw [if_neg hb, if_neg (fun h => hb h.1)]
    obtain ⟨hs1, e1, g1⟩ := h1
    obtain ⟨hn, hnd'⟩ := List.nodup_cons.1 hnd
    obtain ⟨hs2, e2, g2⟩ := ih hnd' hs1
    refine ⟨hs2, by rw [setNames, e1]; exact e2, fun b => ?_⟩
    rw [g2, g1]
    by_cases hb : b = n
    · subst hb
      simp [hn]
    · simp [hb]

theorem compton_ok {params : Dict Entry} (hv : Spec.ValidBounds params) (eps : ℚ) :
    ∃ comp, comptonHints params eps = .ok comp ∧ (∀ b ∈ comptonNames, (get b comp).bind clip = (get b params).map Spec.start) ∧ (get "epsilon" comp).bind clip = some eps := by
  obtain ⟨hs, e, g⟩ := setNames_ok hv comptonNames (by decide) (setHint "epsilon" (fixAt (296 / 100)) [])
  refine ⟨_, by rw [comptonHints, e]; rfl, ?_, ?_⟩
  · intro b hb
    have hne : b ≠ "epsilon" := by rintro rfl; revert hb; decide
    rw [get_setHint, if_neg hne, g, get_setHint, if_neg hne]
    cases hk : get b params with
    | none => simp [get]
    | some en =>
      rw [if_pos ⟨hb, rfl⟩]
      have h := clip_upd hv b 0 none none
      unfold Spec.adjust at h
      rw [hk] at h
      simp only [get, Option.getD_none, Option.bind_some, Option.map_some, Option.getD_some] at h ⊢
      rw [← h]
      unfold upd
      rw [hk]
      simp only
      unfold entryHint
      have hb' := hv _ _ hk
      simp only [List.mem_cons, List.not_mem_nil, or_false] at hb'
      rcases hb' with hb' | hb' | hb' | hb' | hb' <;> simp [hb', clip]
  · rw [get_setHint, if_pos rfl, g, get_setHint]
    rw [if_neg (fun h => by revert h; simp [comptonNames])]
    simp [fixAt, clip, get]

/-- The global values of the peaks. -/
theorem base_get {params : Dict Entry} (hg : Spec.HasGlobals params) {comp : Dict Hint} (hc : ∀ b ∈ comptonNames, (get b comp).bind clip = (get b params).map Spec.start) (eps : ℚ) :
    (∀ b ∈ elementLabels, get b (baseHints comp eps) = some { value := some (Spec.adjust params b 0) }) ∧
    get "epsilon" (baseHints comp eps) = some { value := some eps, vary := some false } ∧
    (∀ b, b ∉ "epsilon" :: elementLabels → get b (baseHints comp eps) = none) ∧
    ∀ S, "epsilon" :: elementLabels ⊆ S → Keys S (baseHints comp eps) := by
  have hval : ∀ b ∈ elementLabels, (get b comp).bind clip = some (Spec.adjust params b 0) := by
    intro b hb
    rw [hc b (by revert b; decide)]
    unfold Spec.adjust
    have := hg b hb
    cases hk : get b params with
    | none => rw [hk] at this; cases this
    | some e => rfl
  unfold baseHints
  simp only [elementLabels, copyHints]
  refine ⟨?_, ?_, ?_, ?_⟩
  · intro b hb
    rw [← hval b hb]
    simp only [elementLabels, List.mem_cons, List.not_mem_nil, or_false] at hb
    rcases hb with rfl | rfl | rfl | rfl | rfl <;> simp [get_setHint, get]
  · simp [get_setHint, get, fixAt]
  · intro b hb
    simp only [List.mem_cons, List.not_mem_nil, or_false, not_or] at hb
    simp [get_setHint, hb, get]
  · intro S hS
    repeat' apply keys_setHint S _ _ _ (hS (by decide))
    simp [Keys]

/-! ## one peak -/

theorem adjust_ok {params : Dict Entry} (hv : Spec.ValidBounds params) (pre : String) (hs : Dict Hint) (c s r : Hint)
    (hc : get "delta_center" hs = some c) (hs' : get "delta_sigma" hs = some s) (hr : get "ratio_adjust" hs = some r) :
    ∃ hs1, adjustHints params pre hs = .ok hs1 ∧ get "delta_center" hs1 = some (upd params (pre ++ "delta_center") c) ∧
      get "delta_sigma" hs1 = some (upd params (pre ++ "delta_sigma") s) ∧ get "ratio_adjust" hs1 = some (upd params (pre ++ "ratio_adjust") r) ∧
      (∀ b, b ∉ ["delta_center", "delta_sigma", "ratio_adjust"] → get b hs1 = get b hs) ∧
      (∀ S, ["delta_center", "delta_sigma", "ratio_adjust"] ⊆ S → Keys S hs → Keys S hs1) := by
  obtain ⟨h1, e1, g1, k1⟩ := setFrom hv (pre ++ "delta_center") "delta_center" hs c hc
  obtain ⟨h2, e2, g2, k2⟩ := setFrom hv (pre ++ "delta_sigma") "delta_sigma" h1 s (by rw [g1]; simpa using hs')
  obtain ⟨h3, e3, g3, k3⟩ := setFrom hv (pre ++ "ratio_adjust") "ratio_adjust" h2 r (by rw [g2, g1]; simpa using hr)
  refine ⟨h3, ?_, ?_, ?_, ?_, ?_, fun S hS h => k3 S (hS (by decide)) (k2 S (hS (by decide)) (k1 S (hS (by decide)) h))⟩
  · unfold adjustHints
    rw [e1]
    simp only [bind, Except.bind]
    rw [e2]
    exact e3
  · rw [g3, g2, g1]; simp
  · rw [g3, g2]; simp
  · rw [g3]; simp
  · intro b hb
    simp only [List.mem_cons, List.not_mem_nil, or_false, not_or] at hb
    rw [g3, g2, g1, if_neg hb.2.2, if_neg hb.2.1, if_neg hb.1]

/-- The hints of a finished peak. -/
structure IsPeak (params : Dict Entry) (eps : ℚ) (pre : String) (hs : Dict Hint) (center ratio : ℚ) (a c s : Hint) : Prop where
  globals : ∀ b ∈ elementLabels, get b hs = some { value := some (Spec.adjust params b 0) }
  epsilon : get "epsilon" hs = some { value := some eps, vary := some false }
  center : get "center" hs = some { value := some center, vary := some false }
  ratio : get "ratio" hs = some { value := some ratio, vary := some false }
  ratioAdjust : get "ratio_adjust" hs = some (upd params (pre ++ "ratio_adjust") { value := some 1, vary := some false })
  area : get "area" hs = some (upd params (pre ++ "area") a)
  deltaCenter : get "delta_center" hs = some (upd params (pre ++ "delta_center") c)
  deltaSigma : get "delta_sigma" hs = some (upd params (pre ++ "delta_sigma") s)
  keys : Keys (peakParams ++ ["sigma"]) hs

theorem labels_ne {b : String} (hb : b ∈ elementLabels) : b ≠ "epsilon" ∧ b ≠ "center" ∧ b ≠ "ratio" ∧ b ≠ "ratio_adjust" ∧ b ≠ "area" ∧ b ≠ "delta_center" ∧ b ≠ "delta_sigma" ∧ b ≠ "sigma" := by
  revert b; decide

section
variable {params : Dict Entry} (hv : Spec.ValidBounds params) (hg : Spec.HasGlobals params) {comp : Dict Hint}
  (hc : ∀ b ∈ comptonNames, (get b comp).bind clip = (get b params).map Spec.start) (eps : ℚ)
include hv hg hc

theorem kModel_ok (cs en : Cs) (el l : String) (d : ℚ) :
    ∃ hs, kModel cs en params comp eps el l d = .ok hs ∧ IsPeak params eps (el ++ "_" ++ l ++ "_") hs (en el l) (cs el l / cs el "ka1")
      (if l = "ka1" then { value := some d, vary := some true, min := some 0 } else { value := some d, vary := some true, expr := some (el ++ "_ka1_" ++ "area") })
      (if l = "ka2" then { value := some 0, vary := some false, expr := some (el ++ "_ka1_" ++ "delta_center") } else { value := some 0, vary := some false })
      (if l = "ka2" then { value := some 0, vary := some false, expr := some (el ++ "_ka1_" ++ "delta_sigma") } else { value := some 0, vary := some false }) := by
  obtain ⟨b1, b2, b3, b4⟩ := base_get hg hc eps
  have ba := b3 "area" (by decide)
  have bc := b3 "delta_center" (by decide)
  have bs := b3 "delta_sigma" (by decide)
  have s1 : get "area" (kStart el l d (baseHints comp eps)) =
      some (if l = "ka1" then { value := some d, vary := some true, min := some 0 } else { value := some d, vary := some true, expr := some (el ++ "_ka1_" ++ "area") }) := by
    unfold kStart
    split_ifs with h1 h2 <;> simp [get_setHint, ba]
  have s2 : get "delta_center" (kStart el l d (baseHints comp eps)) =
      some (if l = "ka2" then { value := some 0, vary := some false, expr := some (el ++ "_ka1_" ++ "delta_center") } else { value := some 0, vary := some false }) := by
    unfold kStart
    split_ifs with h1 h2
    · rw [h1] at h2; exact absurd h2 (by decide)
    all_goals simp [get_setHint, bc, fixAt]
  have s3 : get "delta_sigma" (kStart el l d (baseHints comp eps)) =
      some (if l = "ka2" then { value := some 0, vary := some false, expr := some (el ++ "_ka1_" ++ "delta_sigma") } else { value := some 0, vary := some false }) := by
    unfold kStart
    split_ifs with h1 h2
    · rw [h1] at h2; exact absurd h2 (by decide)
    all_goals simp [get_setHint, bs, fixAt]
  have s4 : ∀ b, b ∉ ["area", "delta_center", "delta_sigma"] → get b (kStart el l d (baseHints comp eps)) = get b (baseHints comp eps) := by
    intro b hb
    simp only [List.mem_cons, List.not_mem_nil, or_false, not_or] at hb
    unfold kStart
    split_ifs <;> simp [get_setHint, hb]
  have s5 : Keys (peakParams ++ ["sigma"]) (kStart el l d (baseHints comp eps)) := by
    unfold kStart
    split_ifs
    all_goals
      repeat' first
        | exact b4 _ (by decide)
        | apply keys_setHint _ _ _ _ (by decide)
  obtain ⟨h1, e1, g1, k1⟩ := setFrom hv (el ++ "_" ++ l ++ "_" ++ "area") "area" _ _ s1
  obtain ⟨h2, e2, gc, gs, gr, gb, k2⟩ := adjust_ok hv (el ++ "_" ++ l ++ "_")
    (setHint "ratio_adjust" (fixAt 1) (setHint "ratio" (fixAt (cs el l / cs el "ka1")) (setHint "center" (fixAt (en el l)) h1))) _ _ { value := some 1, vary := some false }
    (by simp only [get_setHint, g1]; simpa using s2) (by simp only [get_setHint, g1]; simpa using s3)
    (by simp only [get_setHint, g1]; simp [s4, b3, elementLabels, fixAt])
  refine ⟨h2, ?_, ⟨?_, ?_, ?_, ?_, gr, ?_, gc, gs, ?_⟩⟩
  · unfold kModel
    simp only [bind, Except.bind]
    rw [e1]
    exact e2
  · intro b hb
    obtain ⟨n1, n2, n3, n4, n5, n6, n7, n8⟩ := labels_ne hb
    rw [gb b (by simp [n4, n6, n7])]
    simp only [get_setHint, g1, n2, n3, n4, n5, if_false]
    rw [s4 b (by simp [n5, n6, n7]), b1 b hb]
  · rw [gb _ (by decide)]
    simp only [get_setHint, g1]
    simp [s4, b2]
  · rw [gb _ (by decide)]
    simp only [get_setHint, g1]
    simp [s4, b3, elementLabels, fixAt]
  · rw [gb _ (by decide)]
    simp only [get_setHint, g1]
    simp [s4, b3, elementLabels, fixAt]
  · rw [gb _ (by decide)]
    simp only [get_setHint, g1]
    simp
  · apply k2 _ (by decide)
    repeat' apply keys_setHint _ _ _ _ (by decide)
    exact k1 _ (by decide) s5

theorem lmModel_ok (cs en : Cs) (first el l : String) (d : ℚ) :
    ∃ hs, lmModel cs en params comp eps first el l d = .ok hs ∧ IsPeak params eps (el ++ "_" ++ l ++ "_") hs (en el l) (cs el l / cs el first)
      (if l = first then { value := some d, vary := some true } else { value := some d, vary := some true, expr := some (el ++ "_" ++ first ++ "_" ++ "area") })
      { value := some 0, vary := some false } { value := some 0, vary := some false } := by
  obtain ⟨b1, b2, b3, b4⟩ := base_get hg hc eps
  have ba := b3 "area" (by decide)
  have s1 : get "area" (lmStart el l first d (baseHints comp eps)) =
      some (if l = first then { value := some d, vary := some true } else { value := some d, vary := some true, expr := some (el ++ "_" ++ first ++ "_" ++ "area") }) := by
    unfold lmStart
    split_ifs with h1 <;> simp [get_setHint, ba]
  have s4 : ∀ b, b ≠ "area" → get b (lmStart el l first d (baseHints comp eps)) = get b (baseHints comp eps) := by
    intro b hb
    unfold lmStart
    split_ifs <;> simp [get_setHint, hb]
  have s5 : Keys (peakParams ++ ["sigma"]) (lmStart el l first d (baseHints comp eps)) := by
    unfold lmStart
    split_ifs
    all_goals
      repeat' first
        | exact b4 _ (by decide)
        | apply keys_setHint _ _ _ _ (by decide)
  obtain ⟨h1, e1, g1, k1⟩ := setFrom hv (el ++ "_" ++ l ++ "_" ++ "area") "area" _ _ s1
  obtain ⟨h2, e2, gc, gs, gr, gb, k2⟩ := adjust_ok hv (el ++ "_" ++ l ++ "_")
    (setHint "ratio_adjust" (fixAt 1) (setHint "delta_sigma" (fixAt 0) (setHint "delta_center" (fixAt 0)
    (setHint "ratio" (fixAt (cs el l / cs el first)) (setHint "sigma" (fixAt 1) (setHint "center" (fixAt (en el l)) h1))))))
    { value := some 0, vary := some false } { value := some 0, vary := some false } { value := some 1, vary := some false }
    (by simp only [get_setHint, g1]; simp [s4, b3, elementLabels, fixAt]) (by simp only [get_setHint, g1]; simp [s4, b3, elementLabels, fixAt])
    (by simp only [get_setHint, g1]; simp [s4, b3, elementLabels, fixAt])
  refine ⟨h2, ?_, ⟨?_, ?_, ?_, ?_, gr, ?_, gc, gs, ?_⟩⟩
  · unfold lmModel
    simp only [bind, Except.bind]
    rw [e1]
    exact e2
  · intro b hb
    obtain ⟨n1, n2, n3, n4, n5, n6, n7, n8⟩ := labels_ne hb
    rw [gb b (by simp [n4, n6, n7])]
    simp only [get_setHint, g1, n2, n3, n4, n5, n6, n7, n8, if_false]
    rw [s4 b n5, b1 b hb]
  · rw [gb _ (by decide)]
    simp only [get_setHint, g1]
    simp [s4, b2]
  · rw [gb _ (by decide)]
    simp only [get_setHint, g1]
    simp [s4, b3, elementLabels, fixAt]
  · rw [gb _ (by decide)]
    simp only [get_setHint, g1]
    simp [s4, b3, elementLabels, fixAt]
  · rw [gb _ (by decide)]
    simp only [get_setHint, g1]
    simp
  · apply k2 _ (by decide)
    repeat' apply keys_setHint _ _ _ _ (by decide)
    exact k1 _ (by decide) s5

theorem lonePeak_ok (pre : String) (center d : ℚ) :
    ∃ hs, lonePeak params comp eps pre center d = .ok hs ∧ IsPeak params eps pre hs center 1 { value := some d, vary := some true, min := some 0 }
      { value := some 0, vary := some false } { value := some 0, vary := some false } ∧ Keys peakParams hs := by
  obtain ⟨b1, b2, b3, b4⟩ := base_get hg hc eps
  have ba := b3 "area" (by decide)
  obtain ⟨h1, e1, g1, k1⟩ := setFrom hv (pre ++ "area") "area" (setHint "ratio_adjust" (fixAt 1) (setHint "ratio" (fixAt 1) (setHint "center" (fixAt center) (setHint "delta_sigma" (fixAt 0) (setHint "delta_center" (fixAt 0)
    (setHint "area" (fun h => { h with value := some d, vary := some true, min := some 0 }) (baseHints comp eps)))))))
    { value := some d, vary := some true, min := some 0 } (by simp [get_setHint, ba])
  obtain ⟨h2, e2, gc, gs, gr, gb, k2⟩ := adjust_ok hv pre h1
    { value := some 0, vary := some false } { value := some 0, vary := some false } { value := some 1, vary := some false }
    (by rw [g1]; simp [get_setHint, b3, elementLabels, fixAt]) (by rw [g1]; simp [get_setHint, b3, elementLabels, fixAt])
    (by rw [g1]; simp [get_setHint, b3, elementLabels, fixAt])
  have hkeys : ∀ S, peakParams ⊆ S → Keys S h2 := by
    intro S hS
    apply k2 S (fun b hb => hS (by revert b; decide))
    refine k1 S (hS (by decide)) ?_
    repeat' first
      | exact b4 S (fun b hb => hS (by revert b; decide))
      | apply keys_setHint S _ _ _ (hS (by decide))
  refine ⟨h2, ?_, ⟨?_, ?_, ?_, ?_, gr, ?_, gc, gs, hkeys _ (by decide)⟩, hkeys _ (by decide)⟩
  · unfold lonePeak
    simp only [bind, Except.bind]
    rw [e1]
    exact e2
  · intro b hb
    obtain ⟨n1, n2, n3, n4, n5, n6, n7, n8⟩ := labels_ne hb
    rw [gb b (by simp [n4, n6, n7]), g1]
    simp only [get_setHint, n2, n3, n4, n5, n6, n7, if_false]
    rw [b1 b hb]
  · rw [gb _ (by decide), g1]
    simp [get_setHint, b2]
  · rw [gb _ (by decide), g1]
    simp [get_setHint, b3, elementLabels, fixAt]
  · rw [gb _ (by decide), g1]
    simp [get_setHint, b3, elementLabels, fixAt]
  · rw [gb _ (by decide), g1]
    simp

end

/-! ## evaluation -/

theorem get_flat (p b : String) (hs : Dict Hint) (rest : List (String × Dict Hint)) (h : Hint) (hb : get b hs = some h) :
    get (p ++ b) (flat ((p, hs) :: rest)) = some h := by
  unfold flat
  rw [List.flatMap_cons]
  induction hs with
  | nil => simp [get] at hb
  | cons a hs ih =>
    obtain ⟨k, v⟩ := a
    simp only [List.map_cons, List.cons_append, get] at hb ⊢
    by_cases hk : k = b
    · rw [if_pos (by rw [hk])]
      rwa [if_pos hk] at hb
    · rw [if_neg (fun hh => hk (str_cancel hh))]
      rw [if_neg hk] at hb
      exact ih hb

theorem clip_plain (v : ℚ) (w : Option Bool) : clip { value := some v, vary := w } = some v := rfl

theorem peakAt_eq (params : Dict Entry) (eps : ℚ) (p : Spec.Peak) (x : ℝ) :
    elementPeak x p.area p.center p.deltaCenter p.deltaSigma p.ratio p.ratioAdjust (Spec.adjust params "fwhm_offset" 0 : ℚ) (Spec.adjust params "fwhm_fanoprime" 0 : ℚ)
      (Spec.adjust params "e_offset" 0 : ℚ) (Spec.adjust params "e_linear" 0 : ℚ) (Spec.adjust params "e_quadratic" 0 : ℚ) eps = Spec.peakAt params eps p x := by
  unfold elementPeak elementPeakE Spec.peakAt Line.gaussian Line.s2pi
  simp only [one_mul, neg_one_mul, neg_mul]

theorem value_peak {params : Dict Entry} {eps : ℚ} {pre : String} {hs : Dict Hint} {center ratio : ℚ} {a c s : Hint} (hv : Spec.ValidBounds params)
    (h : IsPeak params eps pre hs center ratio a c s) (models : List (String × Dict Hint)) (A C S : ℚ)
    (hA : paramValue models (pre, hs) "area" = some A) (hC : paramValue models (pre, hs) "delta_center" = some C) (hS : paramValue models (pre, hs) "delta_sigma" = some S) (x : ℝ) :
    peakValue models (pre, hs) x = some (Spec.peakAt params eps ⟨A, center, C, S, ratio, Spec.adjust params (pre ++ "ratio_adjust") 1⟩ x) := by
  have hgl : ∀ b ∈ elementLabels, paramValue models (pre, hs) b = some (Spec.adjust params b 0) := by
    intro b hb
    unfold paramValue
    simp only [h.globals b hb]
    rfl
  have he : paramValue models (pre, hs) "epsilon" = some eps := by unfold paramValue; simp only [h.epsilon]; rfl
  have hce : paramValue models (pre, hs) "center" = some center := by unfold paramValue; simp only [h.center]; rfl
  have hr : paramValue models (pre, hs) "ratio" = some ratio := by unfold paramValue; simp only [h.ratio]; rfl
  have hra : paramValue models (pre, hs) "ratio_adjust" = some (Spec.adjust params (pre ++ "ratio_adjust") 1) := by
    unfold paramValue
    simp only [h.ratioAdjust, upd_expr]
    exact clip_upd hv _ _ _ _
  unfold peakValue
  rw [hA, hC, hS, he, hce, hr, hra, hgl _ (by decide), hgl _ (by decide), hgl _ (by decide), hgl _ (by decide), hgl _ (by decide)]
  simp only [Option.bind_eq_bind, Option.bind_some]
  rw [← peakAt_eq]

theorem value_own {params : Dict Entry} (hv : Spec.ValidBounds params) (models : List (String × Dict Hint)) (pre : String) (hs : Dict Hint) (b key : String) (d : ℚ) (w : Option Bool)
    (h : get b hs = some (upd params key { value := some d, vary := w })) : paramValue models (pre, hs) b = some (Spec.adjust params key d) := by
  unfold paramValue
  simp only [h, upd_expr]
  exact clip_upd hv _ _ _ _

theorem value_own_nonneg {params : Dict Entry} (hv : Spec.ValidBounds params) (models : List (String × Dict Hint)) (pre : String) (hs : Dict Hint) (b key : String) (d : ℚ) (w : Option Bool)
    (h : get b hs = some (upd params key { value := some d, vary := w, min := some 0 })) : paramValue models (pre, hs) b = some (Spec.kArea params key d) := by
  unfold paramValue
  simp only [h, upd_expr]
  exact clip_upd_nonneg hv _ _ _

/-- A parameter tied to one of the first peak. -/
theorem value_tied {params : Dict Entry} (p0 : String) (hs0 : Dict Hint) (rest : List (String × Dict Hint)) (m : String × Dict Hint) (b b0 key : String) (h : Hint) (h0 : Hint)
    (hb : get b m.2 = some (upd params key h)) (hex : h.expr = some (p0 ++ b0)) (hb0 : get b0 hs0 = some h0) (hn : h0.expr = none) :
    paramValue ((p0, hs0) :: rest) m b = paramValue ((p0, hs0) :: rest) (p0, hs0) b0 := by
  unfold paramValue
  simp only [hb, upd_expr, hex, hb0, hn]
  rw [get_flat _ _ _ _ _ hb0]
  rfl

/-! ## the loop over the lines -/

theorem shell_filter (cs : Cs) (params : Dict Entry) (c : Char) (el : String) (mk : String → ℚ → Py (Dict Hint)) (d : ℚ) (ls : List String) :
    shellLoop cs params c el mk d ls = shellLoop cs params c el mk d (ls.filter (fun l => c ∈ l.toList ∧ cs el l ≠ 0)) := by
  induction ls generalizing d with
  | nil => rfl
  | cons l ls ih =>
    rw [shellLoop]
    by_cases h : c ∉ l.toList ∨ cs el l = 0
    · rw [if_pos h, List.filter_cons_of_neg (by simpa [or_iff_not_imp_left] using h)]
      exact ih d
    · have h' := h
      push Not at h'
      rw [if_neg h, List.filter_cons_of_pos (by simpa using h'), shellLoop, if_neg h]
      simp only [← ih]

/-- All lines of the list are taken. -/
theorem shell_ok (cs : Cs) (params : Dict Entry) (c : Char) (el : String) (mk : String → ℚ → Py (Dict Hint)) (P : String → Dict Hint → Prop)
    (hmk : ∀ l d, ∃ hs, mk l d = .ok hs ∧ P l hs) (d : ℚ) (ls : List String) (hall : ∀ l ∈ ls, c ∈ l.toList ∧ cs el l ≠ 0) :
    ∃ models, shellLoop cs params c el mk d ls = .ok models ∧ List.Forall₂ (fun l m => m.1 = el ++ "_" ++ l ++ "_" ∧ P l m.2) ls models := by
  induction ls generalizing d with
  | nil => exact ⟨[], rfl, List.Forall₂.nil⟩
  | cons l ls ih =>
    obtain ⟨h1, h2⟩ := hall l List.mem_cons_self
    rw [shellLoop, if_neg (by push Not; exact ⟨h1, h2⟩)]
    obtain ⟨hs, e1, p1⟩ := hmk l (areaValue params (el ++ "_" ++ l ++ "_area") d)
    obtain ⟨rest, e2, p2⟩ := ih (areaValue params (el ++ "_" ++ l ++ "_area") d) (fun l' hl' => hall l' (List.mem_cons_of_mem _ hl'))
    refine ⟨(el ++ "_" ++ l ++ "_", hs) :: rest, ?_, List.Forall₂.cons ⟨rfl, p1⟩ p2⟩
    simp only [bind, Except.bind]
    rw [e1]
    simp only
    rw [e2]

theorem sumPeaks_ok (models : List (String × Dict Hint)) (x : ℝ) (f : String → ℝ) (ls : List String) (ms : List (String × Dict Hint))
    (h : List.Forall₂ (fun l m => peakValue models m x = some (f l)) ls ms) : sumPeaks models x ms = some ((ls.map f).sum) := by
  induction h with
  | nil => rfl
  | cons h1 _ ih =>
    rw [sumPeaks, h1, ih]
    rfl

/-! ## areas -/

theorem infix_sep {w a b : List Char} {c : Char} (hw : c ∉ w) (h : w <:+: a ++ c :: b) : w <:+: a ∨ w <:+: b := by
  obtain ⟨s, t, h⟩ := h
  rw [List.append_assoc] at h
  rcases List.append_eq_append_iff.1 h with ⟨r, h1, h2⟩ | ⟨r, h1, h2⟩
  · -- a = s ++ r, w ++ t = r ++ c :: b
    rcases List.append_eq_append_iff.1 h2 with ⟨q, h3, h4⟩ | ⟨q, h3, h4⟩
    · left
      exact ⟨s, q, by rw [h1, h3, List.append_assoc]⟩
    · cases q with
      | nil =>
        left
        exact ⟨s, [], by rw [h1, h3]; simp⟩
      | cons y q =>
        exfalso
        rw [List.cons_append, List.cons.injEq] at h4
        exact hw (by rw [h3, ← h4.1]; simp)
  · cases r with
    | nil =>
      simp only [List.nil_append] at h2
      cases w with
      | nil => left; exact List.nil_infix
      | cons y w =>
        rw [List.cons_append, List.cons.injEq] at h2
        exact absurd (by rw [← h2.1]; simp) hw
    | cons y r =>
      rw [List.cons_append, List.cons.injEq] at h2
      right
      exact ⟨r, t, by rw [List.append_assoc]; exact h2.2.symm⟩

theorem hasArea_cut (a b : String) (h : hasArea (a ++ "_" ++ b) = true) : hasArea a = true ∨ hasArea b = true := by
  unfold hasArea at h ⊢
  simp only [decide_eq_true_eq] at h ⊢
  rw [String.toList_append, String.toList_append, List.append_assoc] at h
  exact infix_sep (c := '_') (by decide) (by simpa using h)

theorem hasArea_append (a : String) : hasArea (a ++ "area") = true := by
  unfold hasArea
  rw [decide_eq_true_eq, String.toList_append]
  exact (List.suffix_append _ _).isInfix

theorem elementArea_ok (models : List (String × Dict Hint)) (A : ℚ) (m0 : String × Dict Hint) (h0 : m0 ∈ models) (hk : ∀ m ∈ models, Keys (peakParams ++ ["sigma"]) m.2)
    (hA : ∀ m ∈ models, ∀ b ∈ peakParams ++ ["sigma"], hasArea (m.1 ++ b) = true → paramValue models m b = some A) : elementArea models = some A := by
  unfold elementArea
  have hall : ∀ mb ∈ (allParams models).filter (fun mb => hasArea (mb.1.1 ++ mb.2)), paramValue models mb.1 mb.2 = some A := by
    intro mb hmb
    obtain ⟨h1, h2⟩ := List.mem_filter.1 hmb
    unfold allParams at h1
    rcases List.mem_append.1 h1 with h1 | h1
    · obtain ⟨m, hm, h3⟩ := List.mem_flatMap.1 h1
      obtain ⟨b, hb, rfl⟩ := List.mem_map.1 h3
      exact hA m hm b (List.mem_append_left _ hb) h2
    · obtain ⟨m, hm, h3⟩ := List.mem_flatMap.1 h1
      obtain ⟨bh, hb, rfl⟩ := List.mem_map.1 h3
      exact hA m hm bh.1 (hk m hm bh (List.mem_filter.1 hb).1) h2
  have hne : (m0, "area") ∈ (allParams models).filter (fun mb => hasArea (mb.1.1 ++ mb.2)) := by
    refine List.mem_filter.2 ⟨?_, hasArea_append _⟩
    unfold allParams
    exact List.mem_append_left _ (List.mem_flatMap.2 ⟨m0, h0, List.mem_map.2 ⟨"area", by decide, rfl⟩⟩)
  cases hl : ((allParams models).filter (fun mb => hasArea (mb.1.1 ++ mb.2))).getLast? with
  | none => rw [List.getLast?_eq_none_iff] at hl; rw [hl] at hne; cases hne
  | some mb => exact hall mb (List.mem_of_getLast? hl)

theorem join (s t : String) : s ++ "_" ++ t = s ++ ("_" ++ t) := by rw [String.append_assoc]

theorem adjust_areaValue (params : Dict Entry) (key : String) (d : ℚ) : Spec.adjust params key (areaValue params key d) = Spec.adjust params key d := by
  unfold Spec.adjust areaValue
  cases get key params <;> rfl

theorem kArea_areaValue (params : Dict Entry) (key : String) (d : ℚ) : Spec.kArea params key (areaValue params key d) = Spec.kArea params key d := by
  unfold Spec.kArea areaValue
  cases get key params <;> rfl

theorem noArea_line : ∀ l ∈ allLines, hasArea l = false := by decide +kernel
theorem area_param : ∀ b ∈ peakParams ++ ["sigma"], hasArea b = true → b = "area" := by decide +kernel
theorem noArea_k : ∀ e ∈ kLine ++ lLine ++ mLine, hasArea (symbolOf e) = false := by decide +kernel
theorem all_k : allLines.filter (fun l => 'k' ∈ l.toList) = kTransitions := by decide +kernel
theorem all_l : allLines.filter (fun l => 'l' ∈ l.toList) = lTransitions := by decide +kernel
theorem all_m : allLines.filter (fun l => 'm' ∈ l.toList) = mTransitions := by decide +kernel

theorem forall₂_left {α β : Type} {R : α → β → Prop} {l : List α} {m : List β} (h : List.Forall₂ R l m) : ∀ b ∈ m, ∃ a ∈ l, R a b := by
  induction h with
  | nil => intro b hb; cases hb
  | cons h1 _ ih =>
    intro b hb
    rcases List.mem_cons.1 hb with rfl | hb
    · exact ⟨_, List.mem_cons_self, h1⟩
    · obtain ⟨a, ha, hr⟩ := ih b hb
      exact ⟨a, List.mem_cons_of_mem _ ha, hr⟩

/-- Only the parameter "area" of a line has "area" in its name. -/
theorem line_area (el l b : String) (hel : hasArea el = false) (hl : l ∈ allLines) (hb : b ∈ peakParams ++ ["sigma"]) (h : hasArea (el ++ "_" ++ l ++ "_" ++ b) = true) : b = "area" := by
  rcases hasArea_cut _ _ h with h | h
  · rcases hasArea_cut _ _ h with h | h
    · rw [hel] at h; cases h
    · rw [noArea_line l hl] at h; cases h
  · exact area_param b hb h

section
variable {params : Dict Entry} (hv : Spec.ValidBounds params) (hg : Spec.HasGlobals params) {comp : Dict Hint}
  (hc : ∀ b ∈ comptonNames, (get b comp).bind clip = (get b params).map Spec.start) (eps : ℚ)
include hv hg hc

theorem k_shell (cs en : Cs) (element : String) (d : ℚ) (hk : element ∈ kLine) (hex : cs (symbolOf element) "ka1" ≠ 0) :
    ∃ models, setupElement cs en params comp eps element d = .ok (some models) ∧
      (∀ x, evalModel models x = some (((Spec.kPeaks cs en params (symbolOf element) d).map (fun p => Spec.peakAt params eps p x)).sum)) ∧
      elementArea models = some (Spec.kArea params (symbolOf element ++ "_ka1_area") d) := by
  set el := symbolOf element with hel
  have hna : hasArea el = false := noArea_k element (by simp [hk])
  unfold setupElement
  simp only [if_pos hk, ← hel, if_neg hex]
  rw [shell_filter]
  have hfil : allLines.filter (fun l => decide ('k' ∈ l.toList ∧ cs el l ≠ 0)) = "ka1" :: (["ka2", "ka3", "kb1", "kb2", "kb3", "kb4", "kb5"].filter (fun l => cs el l ≠ 0)) := by
    have : allLines.filter (fun l => decide ('k' ∈ l.toList ∧ cs el l ≠ 0)) = (allLines.filter (fun l => 'k' ∈ l.toList)).filter (fun l => cs el l ≠ 0) := by
      rw [List.filter_filter]; congr 1; funext l; simp [Bool.and_comm]
    rw [this, all_k, kTransitions, List.filter_cons_of_pos (by simpa using hex)]
  have hkt : kTransitions.filter (fun l => cs el l ≠ 0) = "ka1" :: (["ka2", "ka3", "kb1", "kb2", "kb3", "kb4", "kb5"].filter (fun l => cs el l ≠ 0)) := by
    rw [kTransitions, List.filter_cons_of_pos (by simpa using hex)]
  rw [hfil]
  set tl := ["ka2", "ka3", "kb1", "kb2", "kb3", "kb4", "kb5"].filter (fun l => cs el l ≠ 0) with htl
  have htl' : ∀ l ∈ tl, l ≠ "ka1" ∧ l ∈ allLines ∧ 'k' ∈ l.toList ∧ cs el l ≠ 0 := by
    intro l hl
    obtain ⟨h1, h2⟩ := List.mem_filter.1 hl
    have : ∀ l ∈ ["ka2", "ka3", "kb1", "kb2", "kb3", "kb4", "kb5"], l ≠ "ka1" ∧ l ∈ allLines ∧ 'k' ∈ l.toList := by decide +kernel
    exact ⟨(this l h1).1, (this l h1).2.1, (this l h1).2.2, by simpa using h2⟩
  rw [shellLoop, if_neg (by push Not; exact ⟨by decide, hex⟩)]
  obtain ⟨hs0, e0, p0⟩ := kModel_ok hv hg hc eps cs en el "ka1" (areaValue params (el ++ "_" ++ "ka1" ++ "_area") d)
  obtain ⟨rest, e1, p1⟩ := shell_ok cs params 'k' el (kModel cs en params comp eps el)
    (fun l hs => ∃ d', IsPeak params eps (el ++ "_" ++ l ++ "_") hs (en el l) (cs el l / cs el "ka1")
      (if l = "ka1" then { value := some d', vary := some true, min := some 0 } else { value := some d', vary := some true, expr := some (el ++ "_ka1_" ++ "area") })
      (if l = "ka2" then { value := some 0, vary := some false, expr := some (el ++ "_ka1_" ++ "delta_center") } else { value := some 0, vary := some false })
      (if l = "ka2" then { value := some 0, vary := some false, expr := some (el ++ "_ka1_" ++ "delta_sigma") } else { value := some 0, vary := some false }))
    (fun l d => by obtain ⟨hs, e, p⟩ := kModel_ok hv hg hc eps cs en el l d; exact ⟨hs, e, d, p⟩)
    (areaValue params (el ++ "_" ++ "ka1" ++ "_area") d) tl (fun l hl => ⟨(htl' l hl).2.2.1, (htl' l hl).2.2.2⟩)
  simp only [bind, Except.bind]
  rw [e0]
  simp only
  rw [e1]
  refine ⟨_, rfl, ?_⟩
  set pre0 := el ++ "_" ++ "ka1" ++ "_" with hpre0
  have hx : ∀ b, el ++ "_ka1_" ++ b = pre0 ++ b := by
    intro b
    rw [hpre0, join el "ka1", String.append_assoc (s₁ := el) (s₂ := "_" ++ "ka1") (s₃ := "_"), show "_" ++ "ka1" ++ "_" = "_ka1_" from rfl]
  simp only [hx] at p1
  rw [if_pos rfl, if_neg (by decide), if_neg (by decide)] at p0
  set models := (pre0, hs0) :: rest with hmodels
  have hA0 : paramValue models (pre0, hs0) "area" = some (Spec.kArea params (el ++ "_ka1_area") d) := by
    rw [value_own_nonneg hv models pre0 hs0 "area" _ _ _ p0.area]
    have : pre0 ++ "area" = el ++ "_" ++ "ka1" ++ "_area" := by rw [hpre0, join]; rfl
    rw [this, kArea_areaValue, join el "ka1", String.append_assoc (s₁ := el) (s₂ := "_" ++ "ka1") (s₃ := "_area")]
    rfl
  have hC0 := value_own hv models pre0 hs0 "delta_center" _ _ _ p0.deltaCenter
  have hS0 := value_own hv models pre0 hs0 "delta_sigma" _ _ _ p0.deltaSigma
  have hrest : ∀ l m, l ≠ "ka1" → m.1 = el ++ "_" ++ l ++ "_" → (∃ d', IsPeak params eps (el ++ "_" ++ l ++ "_") m.2 (en el l) (cs el l / cs el "ka1")
      (if l = "ka1" then { value := some d', vary := some true, min := some 0 } else { value := some d', vary := some true, expr := some (pre0 ++ "area") })
      (if l = "ka2" then { value := some 0, vary := some false, expr := some (pre0 ++ "delta_center") } else { value := some 0, vary := some false })
      (if l = "ka2" then { value := some 0, vary := some false, expr := some (pre0 ++ "delta_sigma") } else { value := some 0, vary := some false })) →
      paramValue models m "area" = some (Spec.kArea params (el ++ "_ka1_area") d) ∧
      paramValue models m "delta_center" = some (Spec.adjust params (el ++ "_" ++ (if l = "ka2" then "ka1" else l) ++ "_" ++ "delta_center") 0) ∧
      paramValue models m "delta_sigma" = some (Spec.adjust params (el ++ "_" ++ (if l = "ka2" then "ka1" else l) ++ "_" ++ "delta_sigma") 0) := by
    rintro l ⟨m1, m2⟩ hl hm ⟨d', hp⟩
    simp only at hm hp
    subst hm
    rw [if_neg hl] at hp
    refine ⟨?_, ?_, ?_⟩
    · rw [value_tied pre0 hs0 rest _ "area" "area" _ _ _ hp.area rfl p0.area (upd_expr _ _ _)]
      exact hA0
    · by_cases h2 : l = "ka2"
      · have hd := hp.deltaCenter
        rw [if_pos h2] at hd ⊢
        rw [value_tied pre0 hs0 rest _ "delta_center" "delta_center" _ _ _ hd rfl p0.deltaCenter (upd_expr _ _ _)]
        exact hC0
      · have hd := hp.deltaCenter
        rw [if_neg h2] at hd ⊢
        exact value_own hv models _ _ "delta_center" _ _ _ hd
    · by_cases h2 : l = "ka2"
      · have hd := hp.deltaSigma
        rw [if_pos h2] at hd ⊢
        rw [value_tied pre0 hs0 rest _ "delta_sigma" "delta_sigma" _ _ _ hd rfl p0.deltaSigma (upd_expr _ _ _)]
        exact hS0
      · have hd := hp.deltaSigma
        rw [if_neg h2] at hd ⊢
        exact value_own hv models _ _ "delta_sigma" _ _ _ hd
  constructor
  · intro x
    unfold evalModel Spec.kPeaks
    rw [hkt, List.map_map]
    refine sumPeaks_ok models x _ _ _ (List.Forall₂.cons ?_ ?_)
    · rw [value_peak hv p0 models _ _ _ hA0 hC0 hS0]
      simp only [Function.comp]
      rw [if_neg (by decide), hpre0, join _ "delta_center", join _ "delta_sigma", join _ "ratio_adjust"]
      rfl
    · refine (List.forall₂_iff_get.2 ?_)
      obtain ⟨hlen, hget⟩ := List.forall₂_iff_get.1 p1
      refine ⟨hlen, fun i hi hj => ?_⟩
      obtain ⟨hm, hp⟩ := hget i hi hj
      have hl := htl' _ (List.get_mem tl ⟨i, hi⟩)
      obtain ⟨q1, q2, q3⟩ := hrest _ _ hl.1 hm hp
      obtain ⟨d', hp⟩ := hp
      have hmm : rest.get ⟨i, hj⟩ = (el ++ "_" ++ tl.get ⟨i, hi⟩ ++ "_", (rest.get ⟨i, hj⟩).2) := by rw [← hm]
      rw [hmm] at q1 q2 q3 ⊢
      rw [value_peak hv hp models _ _ _ q1 q2 q3]
      simp only [Function.comp]
      rw [join _ "delta_center", join _ "delta_sigma", join _ "ratio_adjust"]
      rfl
  · refine elementArea_ok models _ (pre0, hs0) List.mem_cons_self ?_ ?_
    · intro m hm
      rcases List.mem_cons.1 hm with rfl | hm
      · exact p0.keys
      · obtain ⟨l, _, _, d', hp⟩ := forall₂_left p1 m hm
        exact hp.keys
    · intro m hm b hb hab
      rcases List.mem_cons.1 hm with rfl | hm
      · have := line_area el "ka1" b hna (by decide +kernel) hb hab
        rw [this]
        exact hA0
      · obtain ⟨l, hl, hm1, hp⟩ := forall₂_left p1 m hm
        rw [hm1] at hab
        have := line_area el l b hna (htl' l hl).2.1 hb hab
        rw [this]
        exact (hrest l m (htl' l hl).1 hm1 hp).1

theorem lm_shell (cs en : Cs) (el : String) (c : Char) (first : String) (lines tail : List String) (d : ℚ) (hna : hasArea el = false)
    (hall : allLines.filter (fun l => c ∈ l.toList) = lines) (hlines : lines = first :: tail) (hft : first ∉ tail) (hex : cs el first ≠ 0) :
    ∃ models, shellLoop cs params c el (lmModel cs en params comp eps first el) d allLines = .ok models ∧
      (∀ x, evalModel models x = some (((Spec.lmPeaks cs en params lines first el d).map (fun p => Spec.peakAt params eps p x)).sum)) ∧
      elementArea models = some (Spec.adjust params (el ++ "_" ++ first ++ "_area") d) := by
  have hmem : ∀ l ∈ lines, l ∈ allLines ∧ c ∈ l.toList := by
    intro l hl
    rw [← hall] at hl
    obtain ⟨h1, h2⟩ := List.mem_filter.1 hl
    exact ⟨h1, by simpa using h2⟩
  rw [shell_filter]
  have hkt : lines.filter (fun l => cs el l ≠ 0) = first :: (tail.filter (fun l => cs el l ≠ 0)) := by
    rw [hlines, List.filter_cons_of_pos (by simpa using hex)]
  have hfil : allLines.filter (fun l => decide (c ∈ l.toList ∧ cs el l ≠ 0)) = first :: (tail.filter (fun l => cs el l ≠ 0)) := by
    have : allLines.filter (fun l => decide (c ∈ l.toList ∧ cs el l ≠ 0)) = (allLines.filter (fun l => c ∈ l.toList)).filter (fun l => cs el l ≠ 0) := by
      rw [List.filter_filter]; congr 1; funext l; simp [Bool.and_comm]
    rw [this, hall, hkt]
  rw [hfil]
  set tl := tail.filter (fun l => cs el l ≠ 0) with htl
  have htl' : ∀ l ∈ tl, l ≠ first ∧ l ∈ allLines ∧ c ∈ l.toList ∧ cs el l ≠ 0 := by
    intro l hl
    obtain ⟨h1, h2⟩ := List.mem_filter.1 hl
    have h3 := hmem l (by rw [hlines]; exact List.mem_cons_of_mem _ h1)
    exact ⟨fun h => hft (h ▸ h1), h3.1, h3.2, by simpa using h2⟩
  have hf := hmem first (by rw [hlines]; exact List.mem_cons_self)
  rw [shellLoop, if_neg (by push Not; exact ⟨hf.2, hex⟩)]
  obtain ⟨hs0, e0, p0⟩ := lmModel_ok hv hg hc eps cs en first el first (areaValue params (el ++ "_" ++ first ++ "_area") d)
  obtain ⟨rest, e1, p1⟩ := shell_ok cs params c el (lmModel cs en params comp eps first el)
    (fun l hs => ∃ d', IsPeak params eps (el ++ "_" ++ l ++ "_") hs (en el l) (cs el l / cs el first)
      (if l = first then { value := some d', vary := some true } else { value := some d', vary := some true, expr := some (el ++ "_" ++ first ++ "_" ++ "area") })
      { value := some 0, vary := some false } { value := some 0, vary := some false })
    (fun l d => by obtain ⟨hs, e, p⟩ := lmModel_ok hv hg hc eps cs en first el l d; exact ⟨hs, e, d, p⟩)
    (areaValue params (el ++ "_" ++ first ++ "_area") d) tl (fun l hl => ⟨(htl' l hl).2.2.1, (htl' l hl).2.2.2⟩)
  simp only [bind, Except.bind]
  rw [e0]
  simp only
  rw [e1]
  refine ⟨_, rfl, ?_⟩
  set pre0 := el ++ "_" ++ first ++ "_" with hpre0
  rw [if_pos rfl] at p0
  set models := (pre0, hs0) :: rest with hmodels
  have hA0 : paramValue models (pre0, hs0) "area" = some (Spec.adjust params (el ++ "_" ++ first ++ "_area") d) := by
    rw [value_own hv models pre0 hs0 "area" _ _ _ p0.area]
    have : pre0 ++ "area" = el ++ "_" ++ first ++ "_area" := by rw [hpre0, join]; rfl
    rw [this, adjust_areaValue]
  have hC0 := value_own hv models pre0 hs0 "delta_center" _ _ _ p0.deltaCenter
  have hS0 := value_own hv models pre0 hs0 "delta_sigma" _ _ _ p0.deltaSigma
  have hrest : ∀ l m, l ≠ first → m.1 = el ++ "_" ++ l ++ "_" → (∃ d', IsPeak params eps (el ++ "_" ++ l ++ "_") m.2 (en el l) (cs el l / cs el first)
      (if l = first then { value := some d', vary := some true } else { value := some d', vary := some true, expr := some (pre0 ++ "area") })
      { value := some 0, vary := some false } { value := some 0, vary := some false }) →
      paramValue models m "area" = some (Spec.adjust params (el ++ "_" ++ first ++ "_area") d) ∧
      paramValue models m "delta_center" = some (Spec.adjust params (el ++ "_" ++ l ++ "_" ++ "delta_center") 0) ∧
      paramValue models m "delta_sigma" = some (Spec.adjust params (el ++ "_" ++ l ++ "_" ++ "delta_sigma") 0) := by
    rintro l ⟨m1, m2⟩ hl hm ⟨d', hp⟩
    simp only at hm hp
    subst hm
    rw [if_neg hl] at hp
    refine ⟨?_, ?_, ?_⟩
    · rw [value_tied pre0 hs0 rest _ "area" "area" _ _ _ hp.area rfl p0.area (upd_expr _ _ _)]
      exact hA0
    · exact value_own hv models _ _ "delta_center" _ _ _ hp.deltaCenter
    · exact value_own hv models _ _ "delta_sigma" _ _ _ hp.deltaSigma
  constructor
  · intro x
    unfold evalModel Spec.lmPeaks
    rw [hkt, List.map_map]
    refine sumPeaks_ok models x _ _ _ (List.Forall₂.cons ?_ ?_)
    · rw [value_peak hv p0 models _ _ _ hA0 hC0 hS0]
      simp only [Function.comp]
      rw [hpre0, join _ "delta_center", join _ "delta_sigma", join _ "ratio_adjust"]
      rfl
    · refine (List.forall₂_iff_get.2 ?_)
      obtain ⟨hlen, hget⟩ := List.forall₂_iff_get.1 p1
      refine ⟨hlen, fun i hi hj => ?_⟩
      obtain ⟨hm, hp⟩ := hget i hi hj
      have hl := htl' _ (List.get_mem tl ⟨i, hi⟩)
      obtain ⟨q1, q2, q3⟩ := hrest _ _ hl.1 hm hp
      obtain ⟨d', hp⟩ := hp
      have hmm : rest.get ⟨i, hj⟩ = (el ++ "_" ++ tl.get ⟨i, hi⟩ ++ "_", (rest.get ⟨i, hj⟩).2) := by rw [← hm]
      rw [hmm] at q1 q2 q3 ⊢
      rw [value_peak hv hp models _ _ _ q1 q2 q3]
      simp only [Function.comp]
      rw [join _ "delta_center", join _ "delta_sigma", join _ "ratio_adjust"]
      rfl
  · refine elementArea_ok models _ (pre0, hs0) List.mem_cons_self ?_ ?_
    · intro m hm
      rcases List.mem_cons.1 hm with rfl | hm
      · exact p0.keys
      · obtain ⟨l, _, _, d', hp⟩ := forall₂_left p1 m hm
        exact hp.keys
    · intro m hm b hb hab
      rcases List.mem_cons.1 hm with rfl | hm
      · have := line_area el first b hna hf.1 hb hab
        rw [this]
        exact hA0
      · obtain ⟨l, hl, hm1, hp⟩ := forall₂_left p1 m hm
        rw [hm1] at hab
        have := line_area el l b hna (htl' l hl).2.1 hb hab
        rw [this]
        exact (hrest l m (htl' l hl).1 hm1 hp).1

theorem lone_ok (name : String) (center d : ℚ) :
    ∃ hs, lonePeak params comp eps (name ++ "_") center (areaValue params (name ++ "_" ++ "area") d) = .ok hs ∧
      (∀ x, evalModel [(name ++ "_", hs)] x = some (Spec.peakAt params eps (Spec.lonePeak params name center d) x)) ∧
      (hasArea name = false → elementArea [(name ++ "_", hs)] = some (Spec.kArea params (name ++ "_area") d)) ∧
      (hasArea name = true → elementArea [(name ++ "_", hs)] = some eps) := by
  obtain ⟨hs, e, p, pk⟩ := lonePeak_ok hv hg hc eps (name ++ "_") center (areaValue params (name ++ "_" ++ "area") d)
  have hA0 : paramValue [(name ++ "_", hs)] (name ++ "_", hs) "area" = some (Spec.kArea params (name ++ "_area") d) := by
    rw [value_own_nonneg hv _ _ hs "area" _ _ _ p.area, kArea_areaValue, join]
    rfl
  have hC0 := value_own hv [(name ++ "_", hs)] (name ++ "_") hs "delta_center" _ _ _ p.deltaCenter
  have hS0 := value_own hv [(name ++ "_", hs)] (name ++ "_") hs "delta_sigma" _ _ _ p.deltaSigma
  refine ⟨hs, e, ?_, ?_, ?_⟩
  · intro x
    unfold evalModel
    simp only [sumPeaks]
    rw [value_peak hv p _ _ _ _ hA0 hC0 hS0]
    simp only [Option.bind_eq_bind, Option.bind_some, add_zero]
    unfold Spec.lonePeak
    rw [join _ "delta_center", join _ "delta_sigma", join _ "ratio_adjust"]
    rfl
  · intro hna
    refine elementArea_ok _ _ (name ++ "_", hs) List.mem_cons_self ?_ ?_
    · intro m hm
      rw [List.mem_singleton.1 hm]
      exact p.keys
    · intro m hm b hb hab
      rw [List.mem_singleton.1 hm] at hab ⊢
      rcases hasArea_cut _ _ hab with h | h
      · rw [hna] at h; cases h
      · rw [area_param b hb h]
        exact hA0
  · intro hya
    have hnone : hs.filter (fun bh => bh.1 ∉ peakParams) = [] := by
      rw [List.filter_eq_nil_iff]
      intro bh hb
      simpa using pk bh hb
    have hevery : ∀ b, hasArea (name ++ "_" ++ b) = true := by
      intro b
      unfold hasArea at hya ⊢
      rw [decide_eq_true_eq] at hya ⊢
      rw [String.toList_append, String.toList_append, List.append_assoc]
      exact hya.trans (List.prefix_append _ _).isInfix
    unfold elementArea allParams
    rw [List.filter_eq_self.2]
    · simp only [List.flatMap_cons, List.flatMap_nil, List.append_nil, hnone, List.map_nil]
      have : (peakParams.map (fun b => ((name ++ "_", hs), b))).getLast? = some ((name ++ "_", hs), "epsilon") := rfl
      rw [this]
      unfold paramValue
      simp only [Option.bind_some, p.epsilon]
      rfl
    · intro mb hmb
      simp only [List.flatMap_cons, List.flatMap_nil, List.append_nil, hnone, List.map_nil] at hmb
      obtain ⟨b, _, rfl⟩ := List.mem_map.1 hmb
      exact hevery b

end

end Verif.Xrf
