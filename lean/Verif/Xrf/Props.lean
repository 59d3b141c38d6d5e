/- Properties C70, C72, C74, C114-C116: fitting strategies, activated lines, parameter names. -/
import Verif.Xrf.Model
import Mathlib.Tactic.NormNum

namespace Verif.Xrf
open Verif

/-! ## lemmas on strings and dicts -/

theorem str_cancel {a b c : String} (h : a ++ b = a ++ c) : b = c := by
  have := congrArg String.toList h
  simp only [String.toList_append, List.append_cancel_left_eq] at this
  exact String.toList_inj.mp this

theorem cut {x y b b' : List Char} {c : Char} (hx : c ∉ x) (hy : c ∉ y) (h : x ++ c :: b = y ++ c :: b') : x = y ∧ b = b' := by
  induction x generalizing y with
  | nil =>
    cases y with
    | nil => simpa using h
    | cons z zs => simp only [List.nil_append, List.cons_append, List.cons.injEq] at h; exact absurd (h.1 ▸ List.mem_cons_self) hy
  | cons w ws ih =>
    cases y with
    | nil => simp only [List.nil_append, List.cons_append, List.cons.injEq] at h; exact absurd (h.1 ▸ List.mem_cons_self) hx
    | cons z zs =>
      simp only [List.cons_append, List.cons.injEq] at h
      obtain ⟨h1, h2⟩ := ih (fun hc => hx (List.mem_cons_of_mem _ hc)) (fun hc => hy (List.mem_cons_of_mem _ hc)) h.2
      exact ⟨by rw [h.1, h1], h2⟩

theorem str_cut {a a' b b' : String} (ha : '_' ∉ a.toList) (ha' : '_' ∉ a'.toList) (h : a ++ "_" ++ b = a' ++ "_" ++ b') : a = a' ∧ b = b' := by
  have h1 := congrArg String.toList h
  simp only [String.toList_append, List.append_assoc] at h1
  obtain ⟨h2, h3⟩ := cut (c := '_') ha ha' (by simpa using h1)
  exact ⟨String.toList_inj.mp h2, String.toList_inj.mp h3⟩

theorem split_no_sep (c : Char) (l : List Char) : ∀ p ∈ splitList c l, c ∉ p := by
  induction l with
  | nil => simp [splitList]
  | cons x xs ih =>
    rw [splitList]
    split_ifs with h
    · intro p hp
      rcases List.mem_cons.1 hp with hp | hp
      · rw [hp]; simp
      · exact ih p hp
    · intro p hp
      rcases List.mem_cons.1 hp with hp | hp
      · rw [hp, List.mem_cons]
        rintro (h1 | h1)
        · exact h h1.symm
        · cases hs : splitList c xs with
          | nil => rw [hs] at h1; simp at h1
          | cons q qs => rw [hs] at h1; exact ih q (by rw [hs]; simp) (by simpa using h1)
      · exact ih p (List.mem_of_mem_tail hp)

theorem split_no_sep' (c : Char) (s : String) : ∀ p ∈ split c s, c ∉ p.toList := by
  intro p hp
  obtain ⟨q, hq, rfl⟩ := List.mem_map.1 hp
  rw [String.toList_ofList]
  exact split_no_sep c _ q hq

theorem symbolOf_no_sep (s : String) : '_' ∉ (symbolOf s).toList := by
  unfold symbolOf
  cases h : split '_' s with
  | nil => simp
  | cons p ps => exact split_no_sep' '_' s p (by rw [h]; simp)

theorem get_setKey {α : Type} (k k' : String) (v : α) (d : Dict α) : get k' (setKey k v d) = if k' = k then some v else get k' d := by
  induction d with
  | nil =>
    simp only [setKey, get]
    by_cases h : k' = k
    · rw [if_pos h, if_pos h.symm]
    · rw [if_neg h, if_neg (fun h' => h h'.symm)]
  | cons a d ih =>
    obtain ⟨k0, v0⟩ := a
    simp only [setKey]
    by_cases h : k0 = k
    · rw [if_pos h]
      simp only [get]
      by_cases h2 : k' = k
      · rw [if_pos (by rw [h, h2]), if_pos h2]
      · rw [if_neg (fun h3 => h2 (by rw [← h3, h])), if_neg h2, if_neg (fun h3 => h2 (by rw [← h3, h]))]
    · rw [if_neg h]
      simp only [get]
      rw [ih]
      by_cases h3 : k0 = k'
      · rw [if_pos h3, if_pos h3, if_neg (fun h4 => h (by rw [h3, h4]))]
      · rw [if_neg h3, if_neg h3]

/-! ## C70 strategies -/

/-- The bound type the documentation promises for parameter `k`. -/
def Spec.boundOf (strategy extra : Dict String) (k : String) : String :=
  if (get k strategy).isSome then (get k strategy).getD "" else if (get k extra).isSome then (get k extra).getD "" else "fixed"

/-- Known strategy: keys, order, limits and values are kept, every bound type is the strategy's, else the extra
configuration's, else "fixed"; "non_fitting_values" is untouched.  Unknown strategy: KeyError, nothing changes. -/
theorem C70_bounds (reg : Dict (Dict String)) (param : Dict Entry) (option : String) (extra : Option (Dict String)) :
    (∀ strategy, get option reg = some strategy →
      (setParameterBound reg param option extra).1 = .ok () ∧ (setParameterBound reg param option extra).2.length = param.length ∧
      ∀ (i : ℕ) k e, param[i]? = some (k, e) → ∃ e', (setParameterBound reg param option extra).2[i]? = some (k, e') ∧
        (k = "non_fitting_values" → e' = e) ∧
        (k ≠ "non_fitting_values" → e'.bound = Spec.boundOf strategy (extra.getD []) k ∧ e'.lo = e.lo ∧ e'.hi = e.hi ∧ e'.value = e.value)) ∧
    (get option reg = none → setParameterBound reg param option extra = (.error .keyError, param)) := by
  constructor
  · intro strategy hs
    unfold setParameterBound
    rw [hs]
    simp only [Option.isNone_some, Bool.false_eq_true, if_false, Option.getD_some, List.length_map, List.getElem?_map, true_and]
    intro i k e hi
    rw [hi]
    simp only [Option.map_some]
    by_cases hk : k = "non_fitting_values"
    · rw [if_pos hk]
      exact ⟨e, rfl, fun _ => rfl, fun h => absurd hk h⟩
    · rw [if_neg hk]
      refine ⟨_, rfl, fun h => absurd h hk, fun _ => ⟨?_, rfl, rfl, rfl⟩⟩
      unfold Spec.boundOf
      cases get k strategy <;> cases get k (extra.getD []) <;> simp
  · intro h
    unfold setParameterBound
    rw [h]
    rfl

theorem foldl_addOne_get (kind : String) (c : Option String) (names : List String) (s : Ctl) (n : String) :
    get n (names.foldl (addOne kind c) s).params = (if n ∈ names then some (paramDefault kind) else get n s.params) ∧
    get n (names.foldl (addOne kind c) s).strategy = (if n ∈ names ∧ c.isSome then c else get n s.strategy) := by
  induction names generalizing s with
  | nil => simp
  | cons m ms ih =>
    rw [List.foldl_cons]
    obtain ⟨h1, h2⟩ := ih (addOne kind c s m)
    have p1 : get n (addOne kind c s m).params = if n = m then some (paramDefault kind) else get n s.params := by
      unfold addOne; simp only; rw [get_setKey]
    have p2 : get n (addOne kind c s m).strategy = if n = m ∧ c.isSome then c else get n s.strategy := by
      unfold addOne
      cases c with
      | none => simp
      | some c => simp only; rw [get_setKey]; simp
    rw [h1, h2, p1, p2]
    simp only [List.mem_cons]
    constructor
    · by_cases ha : n ∈ ms <;> by_cases hb : n = m <;> simp [ha, hb]
    · by_cases ha : n ∈ ms <;> by_cases hb : n = m <;> cases c <;> simp [ha, hb]

theorem get_map_entry (f : String → Entry → Entry) (d : Dict Entry) (n : String) :
    get n (d.map (fun kv => (kv.1, f kv.1 kv.2))) = (get n d).map (f n) := by
  induction d with
  | nil => rfl
  | cons a d ih =>
    obtain ⟨k, v⟩ := a
    simp only [List.map_cons, get]
    by_cases h : k = n
    · rw [if_pos h, if_pos h, h]; rfl
    · rw [if_neg h, if_neg h, ih]

theorem get_setBound (reg : Dict (Dict String)) (param : Dict Entry) (option : String) (strategy : Dict String) (extra : Option (Dict String)) (hs : get option reg = some strategy) (n : String) (hn : n ≠ "non_fitting_values") :
    get n (setParameterBound reg param option extra).2 = (get n param).map (fun e => { e with bound := Spec.boundOf strategy (extra.getD []) n }) := by
  unfold setParameterBound
  rw [hs]
  simp only [Option.isNone_some, Bool.false_eq_true, if_false, Option.getD_some]
  have : (param.map (fun kv => if kv.1 = "non_fitting_values" then kv
      else (kv.1, { kv.2 with bound := (get kv.1 strategy).getD ((get kv.1 (extra.getD [])).getD "fixed") }))) =
      param.map (fun kv => (kv.1, (fun k e => if k = "non_fitting_values" then e else { e with bound := (get k strategy).getD ((get k (extra.getD [])).getD "fixed") }) kv.1 kv.2)) := by
    apply List.map_congr_left
    rintro ⟨k, e⟩ _
    simp only
    split_ifs <;> rfl
  rw [this]
  refine (get_map_entry (fun k e => if k = "non_fitting_values" then e else { e with bound := (get k strategy).getD ((get k (extra.getD [])).getD "fixed") }) param n).trans ?_
  simp only [if_neg hn]
  congr 1
  funext e
  have : (get n strategy).getD ((get n (extra.getD [])).getD "fixed") = Spec.boundOf strategy (extra.getD []) n := by
    unfold Spec.boundOf
    cases get n strategy <;> cases get n (extra.getD []) <;> simp
  rw [this]

/-- A constraint given to the controller for an element takes effect when a strategy is set: every parameter added for it
then has that bound type, unless the strategy itself lists the parameter. -/
theorem C70_element_constraint (cs : Cs) (s : Ctl) (kind element c : String) (names : List String) (reg : Dict (Dict String)) (option : String) (strategy : Dict String)
    (hs : get option reg = some strategy)
    (hn : paramNames (if element ∈ s.elements then s else { s with elements := s.elements ++ [element], linenames := s.linenames ++ activatedLines cs [element] }).linenames kind element = .ok names) :
    (addParam cs s kind element (some c)).1 = .ok () ∧
    ∀ n ∈ names, n ≠ "non_fitting_values" → get n strategy = none →
      ∃ e, get n (setStrategy reg (addParam cs s kind element (some c)).2 option).2.params = some e ∧ e.bound = c := by
  unfold addParam
  simp only [hn]
  refine ⟨trivial, fun n hmem hnf hst => ?_⟩
  unfold setStrategy
  simp only
  rw [get_setBound reg _ option strategy _ hs n hnf, (foldl_addOne_get kind (some c) names _ n).1, if_pos hmem]
  refine ⟨_, rfl, ?_⟩
  simp only [Option.getD_some]
  unfold Spec.boundOf
  rw [(foldl_addOne_get kind (some c) names _ n).2, if_pos (c := n ∈ names ∧ (some c).isSome = true) ⟨hmem, rfl⟩, hst]
  rfl

/-- register_strategy: with overwrite, or for a new key, the strategy is stored and every other one kept; without
overwrite an existing different strategy is kept and an exception raised. -/
theorem C70_register (reg : Dict (ℕ × Dict String)) (key : String) (strategy : ℕ × Dict String) (k : String) :
    ((registerStrategy reg key strategy true).1 = .ok () ∧ get k (registerStrategy reg key strategy true).2 = if k = key then some strategy else get k reg) ∧
    (get key reg = none → (registerStrategy reg key strategy false).1 = .ok () ∧ get k (registerStrategy reg key strategy false).2 = if k = key then some strategy else get k reg) ∧
    (∀ old, get key reg = some old → (registerStrategy reg key strategy false).2 = reg ∧ ((registerStrategy reg key strategy false).1 = .ok () ↔ old.1 = strategy.1)) := by
  refine ⟨?_, ?_, ?_⟩
  · unfold registerStrategy
    simp [get_setKey]
  · intro h
    unfold registerStrategy
    simp [h, get_setKey]
  · intro old h
    unfold registerStrategy
    rw [h]
    simp only [Option.isSome_some, and_self, if_true, Option.map_some, Option.some.injEq]
    by_cases he : old.1 = strategy.1
    · rw [if_pos he]; exact ⟨rfl, fun _ => he, fun _ => rfl⟩
    · rw [if_neg he]
      refine ⟨rfl, fun h => (by cases h), fun h => absurd h he⟩

example : setParameterBound [("linear", [("e_linear", "fixed"), ("compton_amplitude", "none")])] [("e_linear", ⟨"lohi", 0, 1, 1 / 2⟩), ("Fe_ka1_area", ⟨"none", 0, 9, 1⟩), ("x", ⟨"hi", 0, 1, 0⟩)]
    "linear" (some [("Fe_ka1_area", "lo")]) = (.ok (), [("e_linear", ⟨"fixed", 0, 1, 1 / 2⟩), ("Fe_ka1_area", ⟨"lo", 0, 9, 1⟩), ("x", ⟨"fixed", 0, 1, 0⟩)]) := by decide +kernel

/-! ## C72 activated lines -/

/-- The excited lines among `lines` of an element, as "El_line" names. -/
def Spec.Excited (cs : Cs) (el : String) (lines : List String) : List String := (lines.filter (fun l => cs el l ≠ 0)).map (fun l => el ++ "_" ++ l)

theorem allLines_eq : allLines = kTransitions ++ lTransitions ++ mTransitions := by decide +kernel

/-- M lines: exactly the excited M lines.  L lines: the excited L lines, preceded by the excited lines kb2 to kb5.
K lines: the excited ones of ka1, ka2, ka3, kb1. -/
theorem C72_lines_partial (cs : Cs) (name : String) :
    (name ∈ mLine → cs (symbolOf name) "ma1" ≠ 0 → activatedLines cs [name] = Spec.Excited cs (symbolOf name) mTransitions) ∧
    (name ∈ lLine → cs (symbolOf name) "la1" ≠ 0 → activatedLines cs [name] = Spec.Excited cs (symbolOf name) ["kb2", "kb3", "kb4", "kb5"] ++ Spec.Excited cs (symbolOf name) lTransitions) ∧
    (name ∈ kLine → cs (symbolOf name) "ka1" ≠ 0 → activatedLines cs [name] = Spec.Excited cs (symbolOf name) ["ka1", "ka2", "ka3", "kb1"]) := by
  have dLK : ∀ n ∈ lLine, n ∉ kLine := by decide +kernel
  have dMK : ∀ n ∈ mLine, n ∉ kLine := by decide +kernel
  have dML : ∀ n ∈ mLine, n ∉ lLine := by decide +kernel
  have e1 : allLines.take 4 = ["ka1", "ka2", "ka3", "kb1"] := by decide +kernel
  have e2 : (allLines.drop 4).take (allLines.length - 4 - 4) = ["kb2", "kb3", "kb4", "kb5"] ++ lTransitions := by decide +kernel
  have e3 : allLines.drop (allLines.length - 4) = mTransitions := by decide +kernel
  unfold activatedLines Spec.Excited
  simp only [List.flatMap_cons, List.flatMap_nil, List.append_nil]
  unfold activatedLine
  refine ⟨?_, ?_, ?_⟩
  · intro h hc
    simp only [if_neg (dMK _ h), if_neg (dML _ h), if_pos h, if_neg hc, Option.getD_some, e3]
  · intro h hc
    simp only [if_neg (dLK _ h), if_pos h, if_neg hc, Option.getD_some, e2, List.filter_append, List.map_append]
  · intro h hc
    simp only [if_pos h, if_neg hc, Option.getD_some, e1]

/-- Whenever an element's kb2 line is excited it is missing among the K lines and listed among the L lines. -/
theorem C72_kb2_refuted (cs : Cs) (name : String) (hkb : cs (symbolOf name) "kb2" ≠ 0) :
    (name ∈ kLine → cs (symbolOf name) "ka1" ≠ 0 → (symbolOf name ++ "_" ++ "kb2") ∉ activatedLines cs [name]) ∧
    (name ∈ lLine → cs (symbolOf name) "la1" ≠ 0 → (symbolOf name ++ "_" ++ "kb2") ∈ activatedLines cs [name]) := by
  constructor
  · intro h hc hmem
    rw [(C72_lines_partial cs name).2.2 h hc] at hmem
    obtain ⟨l, hl, he⟩ := List.mem_map.1 hmem
    have := str_cancel he
    rw [this] at hl
    simp at hl
  · intro h hc
    rw [(C72_lines_partial cs name).2.1 h hc]
    apply List.mem_append_left
    exact List.mem_map.2 ⟨"kb2", List.mem_filter.2 ⟨by simp, by simpa using hkb⟩, rfl⟩

example : ∃ cs : Cs, cs (symbolOf "Ga_K") "kb2" ≠ 0 ∧ cs (symbolOf "Ga_K") "ka1" ≠ 0 ∧ "Ga_K" ∈ kLine := ⟨fun _ _ => 1, by norm_num, by norm_num, by decide +kernel⟩

/-! ## C116 controller histories -/

theorem foldl_addOne_same (kind : String) (c : Option String) (names : List String) (s : Ctl) :
    (names.foldl (addOne kind c) s).elements = s.elements ∧ (names.foldl (addOne kind c) s).linenames = s.linenames := by
  induction names generalizing s with
  | nil => exact ⟨rfl, rfl⟩
  | cons m ms ih => rw [List.foldl_cons]; exact ih _

/-- Consistency of a controller: the line names are the activated lines of the element list, no element twice. -/
def Spec.Consistent (cs : Cs) (s : Ctl) : Prop := s.linenames = activatedLines cs s.elements ∧ s.elements.Nodup

theorem addParam_consistent (cs : Cs) (s : Ctl) (kind element : String) (c : Option String) (h : Spec.Consistent cs s) : Spec.Consistent cs (addParam cs s kind element c).2 := by
  unfold addParam
  have h1 : Spec.Consistent cs (if element ∈ s.elements then s else { s with elements := s.elements ++ [element], linenames := s.linenames ++ activatedLines cs [element] }) := by
    split_ifs with he
    · exact h
    · refine ⟨?_, ?_⟩
      · simp only
        rw [h.1]
        unfold activatedLines
        rw [List.flatMap_append]
      · simp only
        exact List.nodup_append.2 ⟨h.2, by simp, by intro a ha b hb; rw [List.mem_singleton] at hb; rw [hb]; rintro rfl; exact he ha⟩
  simp only
  split
  · exact h1
  · rename_i names _
    obtain ⟨e1, e2⟩ := foldl_addOne_same kind c names (if element ∈ s.elements then s else { s with elements := s.elements ++ [element], linenames := s.linenames ++ activatedLines cs [element] })
    exact ⟨by rw [e1, e2]; exact h1.1, by rw [e1]; exact h1.2⟩

theorem addParam_keeps (cs : Cs) (s : Ctl) (kind element : String) (c : Option String) (n : String) (h : (get n s.params).isSome) : (get n (addParam cs s kind element c).2.params).isSome := by
  unfold addParam
  simp only
  split
  · split_ifs <;> exact h
  · rw [(foldl_addOne_get _ _ _ _ n).1]
    split_ifs
    · rfl
    · exact h
    · exact h

/-- After every history of add_param / update_element_prop calls, also failed ones, starting from a controller for distinct
elements: the line names are those of the element list, no element is listed twice, and no parameter was removed. -/
theorem C116_history (cs : Cs) (params : Dict Entry) (elements : List String) (hnd : elements.Nodup) (calls : List (String × String × Option String)) :
    Spec.Consistent cs (calls.foldl (fun s call => (addParam cs s call.1 call.2.1 call.2.2).2) ⟨params, elements, activatedLines cs elements, []⟩) ∧
    ∀ n, (get n params).isSome → (get n (calls.foldl (fun s call => (addParam cs s call.1 call.2.1 call.2.2).2) ⟨params, elements, activatedLines cs elements, []⟩).params).isSome := by
  have gen : ∀ s : Ctl, Spec.Consistent cs s → Spec.Consistent cs (calls.foldl (fun s call => (addParam cs s call.1 call.2.1 call.2.2).2) s) ∧
      ∀ n, (get n s.params).isSome → (get n (calls.foldl (fun s call => (addParam cs s call.1 call.2.1 call.2.2).2) s).params).isSome := by
    induction calls with
    | nil => exact fun s h => ⟨h, fun n hn => hn⟩
    | cons a rest ih =>
      intro s h
      rw [List.foldl_cons]
      obtain ⟨h1, h2⟩ := ih (addParam cs s a.1 a.2.1 a.2.2).2 (addParam_consistent cs s _ _ _ h)
      exact ⟨h1, fun n hn => h2 n (addParam_keeps cs s _ _ _ n hn)⟩
  exact gen _ ⟨rfl, hnd⟩

/-! ## C74 names -/

theorem mem_activated (cs : Cs) (els : List String) (sym t : String) (hs : '_' ∉ sym.toList) (h : sym ++ "_" ++ t ∈ activatedLines cs els) : cs sym t ≠ 0 := by
  obtain ⟨n, _, hn⟩ := List.mem_flatMap.1 h
  have key : ∀ lines : List String, sym ++ "_" ++ t ∈ (lines.filter (fun l => cs (symbolOf n) l ≠ 0)).map (fun l => symbolOf n ++ "_" ++ l) → cs sym t ≠ 0 := by
    intro lines hm
    obtain ⟨l, hl, he⟩ := List.mem_map.1 hm
    obtain ⟨h1, h2⟩ := str_cut (symbolOf_no_sep n) hs he
    rw [← h1, ← h2]
    simpa using (List.mem_filter.1 hl).2
  unfold activatedLine at hn
  simp only at hn
  split_ifs at hn
  all_goals first
    | exact key _ (by simpa using hn)
    | simp at hn

theorem lookups (cs : Cs) (element suffix : String) :
    (element ∈ kLine → split '_' element = [symbolOf element, "K"]) ∧ (element ∈ lLine → split '_' element = [symbolOf element, "L"]) ∧ (element ∈ mLine → split '_' element = [symbolOf element, "M"]) := by
  have h1 : ∀ e ∈ kLine, split '_' e = [symbolOf e, "K"] := by decide +kernel
  have h2 : ∀ e ∈ lLine, split '_' e = [symbolOf e, "L"] := by decide +kernel
  have h3 : ∀ e ∈ mLine, split '_' e = [symbolOf e, "M"] := by decide +kernel
  exact ⟨h1 element, h2 element, h3 element⟩

/-- The element line is excited: its first line has non-zero cross section. -/
def Spec.IsExcited (cs : Cs) (element : String) : Prop :=
  (element ∈ kLine → cs (symbolOf element) "ka1" ≠ 0) ∧ (element ∈ lLine → cs (symbolOf element) "la1" ≠ 0) ∧ (element ∈ mLine → cs (symbolOf element) "ma1" ≠ 0)

/-- The suffix under which the model reads a kind of adjustment. -/
def Spec.suffix : String → String
  | "pos" => "delta_center"
  | "width" => "delta_sigma"
  | "ratio" => "ratio_adjust"
  | k => k

theorem len_elem : ∀ e ∈ kLine ++ lLine ++ mLine, e.length ≤ 4 := by decide +kernel

theorem pick_mem (cs : Cs) (ts : List String) (c : Char) (hc : ∀ t ∈ ts, c ∈ t.toList) (hall : ∀ t ∈ ts, t ∈ allLines) (els : List String) (sym suffix : String) (hsym : '_' ∉ sym.toList) :
    ∀ n ∈ ((ts.map (fun t => sym ++ "_" ++ t)).filter (fun n => n ∈ activatedLines cs els)).map (fun n => n ++ "_" ++ suffix),
      n ∈ (allLines.filter (fun l => c ∈ l.toList ∧ cs sym l ≠ 0)).map (fun l => sym ++ "_" ++ l ++ "_" ++ suffix) := by
  intro n hn
  obtain ⟨m, hm, rfl⟩ := List.mem_map.1 hn
  obtain ⟨hm1, hm2⟩ := List.mem_filter.1 hm
  obtain ⟨t, ht, rfl⟩ := List.mem_map.1 hm1
  refine List.mem_map.2 ⟨t, List.mem_filter.2 ⟨hall t ht, ?_⟩, rfl⟩
  have := mem_activated cs els sym t hsym (by simpa using hm2)
  simpa using ⟨hc t ht, this⟩

theorem suffixOf_spec (kind suffix : String) (h : suffixOf kind = .ok suffix) : suffix = Spec.suffix kind := by
  unfold suffixOf at h
  split_ifs at h with h1 h2 h3
  · injection h with h; rw [← h, h1]; rfl
  · injection h with h; rw [← h, h2]; rfl
  · injection h with h; rw [← h, h3]; rfl

theorem area_reads (cs : Cs) (sym first : String) (c : Char) (hf : first ∈ allLines) (hc : c ∈ first.toList) (hcs : cs sym first ≠ 0) :
    sym ++ "_" ++ first ++ "_" ++ "area" ∈ (allLines.filter (fun l => c ∈ l.toList ∧ cs sym l ≠ 0)).map (fun l => sym ++ "_" ++ l ++ "_" ++ "area") :=
  List.mem_map.2 ⟨first, List.mem_filter.2 ⟨hf, by simpa using ⟨hc, hcs⟩⟩, rfl⟩

/-- For every excited element line and every user peak, in a consistent controller: each parameter added for it, of any kind,
is stored under a name the spectrum model looks up for that kind. -/
theorem C74_names_partial (cs : Cs) (els : List String) (kind element : String) (names : List String)
    (hel : element ∈ kLine ++ lLine ++ mLine ∨ hasUser element = true) (hex : Spec.IsExcited cs element)
    (hn : paramNames (activatedLines cs els) kind element = .ok names) :
    ∃ reads, modelReads cs element (Spec.suffix kind) = .ok reads ∧ ∀ n ∈ names, n ∈ reads := by
  have dLK : ∀ n ∈ lLine, n ∉ kLine := by decide +kernel
  have dMK : ∀ n ∈ mLine, n ∉ kLine := by decide +kernel
  have dML : ∀ n ∈ mLine, n ∉ lLine := by decide +kernel
  have hkall : ∀ t ∈ kTransitions, t ∈ allLines := by decide +kernel
  have hlall : ∀ t ∈ lTransitions, t ∈ allLines := by decide +kernel
  have hmall : ∀ t ∈ mTransitions, t ∈ allLines := by decide +kernel
  have hkc : ∀ t ∈ kTransitions, 'k' ∈ t.toList := by decide +kernel
  have hlc : ∀ t ∈ lTransitions, 'l' ∈ t.toList := by decide +kernel
  have hmc : ∀ t ∈ mTransitions, 'm' ∈ t.toList := by decide +kernel
  have assoc : ∀ a b c d : String, a ++ b ++ c ++ d = a ++ (b ++ c ++ d) := by intro a b c d; rw [String.append_assoc, String.append_assoc, String.append_assoc]
  by_cases hin : element ∈ kLine ++ lLine ++ mLine
  · have hlen := len_elem element hin
    by_cases harea : kind = "area"
    · subst harea
      unfold paramNames at hn
      rw [if_pos rfl] at hn
      unfold areaName at hn
      unfold modelReads
      simp only
      by_cases hk : element ∈ kLine
      · rw [if_pos hk] at hn ⊢
        rw [if_neg (hex.1 hk)]
        refine ⟨_, rfl, ?_⟩
        injection hn with hn
        rw [← hn]
        intro n h
        rw [List.mem_singleton] at h
        rw [h]
        have := area_reads cs (symbolOf element) "ka1" 'k' (by decide +kernel) (by decide +kernel) (hex.1 hk)
        rw [assoc, String.append_assoc] at this
        exact this
      · rw [if_neg hk] at hn ⊢
        by_cases hl : element ∈ lLine
        · rw [if_pos hl] at hn ⊢
          rw [if_neg (hex.2.1 hl)]
          refine ⟨_, rfl, ?_⟩
          injection hn with hn
          rw [← hn]
          intro n h
          rw [List.mem_singleton] at h
          rw [h]
          have := area_reads cs (symbolOf element) "la1" 'l' (by decide +kernel) (by decide +kernel) (hex.2.1 hl)
          rw [assoc, String.append_assoc] at this
          exact this
        · have hm : element ∈ mLine := by
            rcases List.mem_append.1 hin with h | h
            · rcases List.mem_append.1 h with h | h
              · exact absurd h hk
              · exact absurd h hl
            · exact h
          rw [if_neg hl] at hn ⊢
          rw [if_pos hm] at hn ⊢
          rw [if_neg (hex.2.2 hm)]
          refine ⟨_, rfl, ?_⟩
          injection hn with hn
          rw [← hn]
          intro n h
          rw [List.mem_singleton] at h
          rw [h]
          have := area_reads cs (symbolOf element) "ma1" 'm' (by decide +kernel) (by decide +kernel) (hex.2.2 hm)
          rw [assoc, String.append_assoc] at this
          exact this
    · unfold paramNames at hn
      rw [if_neg harea] at hn
      cases hsuf : suffixOf kind with
      | error e => rw [hsuf] at hn; cases hn
      | ok suffix =>
        rw [hsuf] at hn
        have hsuf' := suffixOf_spec kind suffix hsuf
        rw [← hsuf']
        have hn2 : lineParamNames (activatedLines cs els) element suffix = .ok names := by
          have : (if element.length ≤ 4 then lineParamNames (activatedLines cs els) element suffix else if hasUser element then .ok [element ++ "_" ++ suffix] else .ok ["pileup_" ++ replaceDash element ++ suffix]) = (.ok names : Py (List String)) := hn
          rwa [if_pos hlen] at this
        unfold lineParamNames at hn2
        unfold modelReads
        simp only
        have hl3 := lookups cs element suffix
        by_cases hk : element ∈ kLine
        · rw [hl3.1 hk] at hn2
          rw [if_pos hk, if_neg (hex.1 hk)]
          have hn3 : names = ((kTransitions.map (fun t => symbolOf element ++ "_" ++ t)).filter (fun n => n ∈ activatedLines cs els)).map (fun n => n ++ "_" ++ suffix) := by
            injection hn2 with hn2; exact hn2.symm
          rw [hn3]
          exact ⟨_, rfl, pick_mem cs kTransitions 'k' hkc hkall els _ suffix (symbolOf_no_sep element)⟩
        · rw [if_neg hk]
          by_cases hl : element ∈ lLine
          · rw [hl3.2.1 hl] at hn2
            rw [if_pos hl, if_neg (hex.2.1 hl)]
            have hn3 : names = ((lTransitions.map (fun t => symbolOf element ++ "_" ++ t)).filter (fun n => n ∈ activatedLines cs els)).map (fun n => n ++ "_" ++ suffix) := by
              injection hn2 with hn2; exact hn2.symm
            rw [hn3]
            exact ⟨_, rfl, pick_mem cs lTransitions 'l' hlc hlall els _ suffix (symbolOf_no_sep element)⟩
          · have hm : element ∈ mLine := by
              rcases List.mem_append.1 hin with h | h
              · rcases List.mem_append.1 h with h | h
                · exact absurd h hk
                · exact absurd h hl
              · exact h
            rw [hl3.2.2 hm] at hn2
            rw [if_neg hl, if_pos hm, if_neg (hex.2.2 hm)]
            have hn3 : names = ((mTransitions.map (fun t => symbolOf element ++ "_" ++ t)).filter (fun n => n ∈ activatedLines cs els)).map (fun n => n ++ "_" ++ suffix) := by
              injection hn2 with hn2; exact hn2.symm
            rw [hn3]
            exact ⟨_, rfl, pick_mem cs mTransitions 'm' hmc hmall els _ suffix (symbolOf_no_sep element)⟩
  · have hu : hasUser element = true := by
      rcases hel with h | h
      · exact absurd h hin
      · exact h
    have hk : element ∉ kLine := fun h => hin (by simp [h])
    have hl : element ∉ lLine := fun h => hin (by simp [h])
    have hm : element ∉ mLine := fun h => hin (by simp [h])
    unfold modelReads
    simp only
    rw [if_neg hk, if_neg hl, if_neg hm, if_pos hu]
    refine ⟨_, rfl, ?_⟩
    unfold paramNames at hn
    by_cases harea : kind = "area"
    · subst harea
      rw [if_pos rfl] at hn
      unfold areaName at hn
      rw [if_neg hk, if_neg hl, if_neg hm, if_pos hu] at hn
      injection hn with hn
      rw [← hn]
      intro n h
      rw [List.mem_singleton] at h ⊢
      rw [h, String.append_assoc]
      rfl
    · rw [if_neg harea] at hn
      cases hsuf : suffixOf kind with
      | error e => rw [hsuf] at hn; cases hn
      | ok suffix =>
        rw [hsuf] at hn
        have hsuf' := suffixOf_spec kind suffix hsuf
        rw [← hsuf']
        have hn2 : (if element.length ≤ 4 then lineParamNames (activatedLines cs els) element suffix else if hasUser element then .ok [element ++ "_" ++ suffix] else .ok ["pileup_" ++ replaceDash element ++ suffix]) = (.ok names : Py (List String)) := hn
        by_cases hlen : element.length ≤ 4
        · -- a name of four characters containing "user" is "user" up to case and cannot be split
          rw [if_pos hlen] at hn2
          exfalso
          have h4 : element.toList.length ≤ 4 := hlen
          have hinf : "user".toList <:+: (lower element).toList := of_decide_eq_true hu
          have hlow : (lower element).toList = element.toList.map Char.toLower := by simp [lower]
          rw [hlow] at hinf
          have hlen' : (element.toList.map Char.toLower).length ≤ 4 := by simpa using h4
          have heq : "user".toList = element.toList.map Char.toLower := by
            apply hinf.sublist.eq_of_length_le
            calc _ ≤ 4 := hlen'
              _ = _ := by decide
          have hno : '_' ∉ element.toList := by
            intro h
            have h1 : Char.toLower '_' ∈ element.toList.map Char.toLower := List.mem_map.2 ⟨_, h, rfl⟩
            rw [← heq] at h1
            revert h1
            decide
          have hsp : ∀ l : List Char, '_' ∉ l → splitList '_' l = [l] := by
            intro l
            induction l with
            | nil => intro _; rfl
            | cons x xs ih =>
              intro h
              rw [splitList, if_neg (fun hx => h (by rw [hx]; simp)), ih (fun hx => h (by simp [hx]))]
              rfl
          unfold lineParamNames at hn2
          have : split '_' element = [String.ofList element.toList] := by unfold split; rw [hsp _ hno]; rfl
          rw [this] at hn2
          cases hn2
        · rw [if_neg hlen, if_pos hu] at hn2
          injection hn2 with hn2
          rw [← hn2]
          intro n h
          exact h

/-- For every pileup peak the position, width and ratio parameters are stored under a name the model never looks up (the
underscore before the suffix is missing). -/
theorem C74_pileup_refuted (cs : Cs) (els : List String) (kind element suffix : String) (hsuf : suffixOf kind = .ok suffix) (hlen : 4 < element.length) (hu : hasUser element = false)
    (hpair : (split '-' element).length = 2) :
    paramNames (activatedLines cs els) kind element = .ok ["pileup_" ++ replaceDash element ++ suffix] ∧
    modelReads cs element suffix = .ok ["pileup_" ++ replaceDash element ++ "_" ++ suffix] ∧
    "pileup_" ++ replaceDash element ++ suffix ≠ "pileup_" ++ replaceDash element ++ "_" ++ suffix := by
  have hnot : element ∉ kLine ++ lLine ++ mLine := fun h => by have := len_elem element h; omega
  have hk : element ∉ kLine := fun h => hnot (by simp [h])
  have hl : element ∉ lLine := fun h => hnot (by simp [h])
  have hm : element ∉ mLine := fun h => hnot (by simp [h])
  refine ⟨?_, ?_, ?_⟩
  · unfold paramNames
    rw [if_neg (by rintro rfl; revert hsuf; simp [suffixOf]), hsuf]
    show (if element.length ≤ 4 then _ else if hasUser element = true then _ else _) = _
    rw [if_neg (by omega), if_neg (by simp [hu])]
  · unfold modelReads
    simp only
    rw [if_neg hk, if_neg hl, if_neg hm, if_neg (by simp [hu]), if_pos hpair]
  · intro h
    have := congrArg String.length h
    simp only [String.length_append] at this
    have h1 : "_".length = 1 := by decide
    omega

/-- Pileup areas are stored where the model looks. -/
theorem C74_pileup_area_partial (cs : Cs) (els : List String) (element : String) (hlen : 4 < element.length) (hu : hasUser element = false)
    (hdash : '-' ∈ element.toList) (hpair : (split '-' element).length = 2) :
    paramNames (activatedLines cs els) "area" element = modelReads cs element "area" := by
  have hnot : element ∉ kLine ++ lLine ++ mLine := fun h => by have := len_elem element h; omega
  have hk : element ∉ kLine := fun h => hnot (by simp [h])
  have hl : element ∉ lLine := fun h => hnot (by simp [h])
  have hm : element ∉ mLine := fun h => hnot (by simp [h])
  unfold paramNames modelReads areaName
  simp only
  rw [if_pos trivial, if_neg hk, if_neg hl, if_neg hm, if_neg (by simp [hu]), if_pos hdash, if_neg hk, if_neg hl, if_neg hm, if_neg (by simp [hu]), if_pos hpair]
  show Except.ok [_] = Except.ok [_]
  rw [String.append_assoc, String.append_assoc, String.append_assoc]
  rfl

example : 4 < "Si_Ka1-Si_Ka1".length ∧ hasUser "Si_Ka1-Si_Ka1" = false ∧ (split '-' "Si_Ka1-Si_Ka1").length = 2 ∧ hasUser "user_peak1" = true := by decide +kernel

/-! ## C114 failed add_param -/

/-- A failed add_param for a new element nevertheless lists that element. -/
theorem C114_failed_add_refuted (cs : Cs) (s : Ctl) (kind element : String) (c : Option String) (hnew : element ∉ s.elements) (e : PyErr) (hfail : (addParam cs s kind element c).1 = .error e) :
    (addParam cs s kind element c).2.elements = s.elements ++ [element] := by
  unfold addParam at hfail ⊢
  rw [if_neg hnew] at hfail ⊢
  simp only at hfail ⊢
  split
  · rfl
  · rename_i h
    rw [h] at hfail
    cases hfail

/-- The parameters and constraints are untouched by a failed call. -/
theorem C114_failed_add_partial (cs : Cs) (s : Ctl) (kind element : String) (c : Option String) (e : PyErr) (hfail : (addParam cs s kind element c).1 = .error e) :
    (addParam cs s kind element c).2.params = s.params ∧ (addParam cs s kind element c).2.strategy = s.strategy ∧ (element ∈ s.elements → (addParam cs s kind element c).2 = s) := by
  unfold addParam at hfail ⊢
  simp only at hfail ⊢
  split
  · refine ⟨by split_ifs <;> rfl, by split_ifs <;> rfl, fun h => by rw [if_pos h]⟩
  · rename_i h
    rw [h] at hfail
    cases hfail

example : (addParam (fun _ _ => 1) ⟨[], [], [], []⟩ "pos" "Fe" none).1 = .error .valueError := by decide +kernel

/-! ## C115 assembling -/

/-- With all elements excited and well formed, assembling succeeds; with one element that is not excited it raises. -/
theorem C115_assemble_partial (cs : Cs) (elements : List String) (h : ∀ e ∈ elements, Spec.IsExcited cs e ∧ (e ∈ kLine ++ lLine ++ mLine ∨ hasUser e = true)) :
    ∃ names, assemble cs elements = .ok names := by
  induction elements with
  | nil => exact ⟨_, rfl⟩
  | cons e rest ih =>
    obtain ⟨ns, hns⟩ := ih (fun e' h' => h e' (by simp [h']))
    obtain ⟨h1, h2⟩ := h e (by simp)
    have hr : ∃ r, modelReads cs e "area" = .ok r := by
      unfold modelReads
      simp only
      by_cases hk : e ∈ kLine
      · rw [if_pos hk]; exact ⟨_, rfl⟩
      · rw [if_neg hk]
        by_cases hl : e ∈ lLine
        · rw [if_pos hl]; exact ⟨_, rfl⟩
        · rw [if_neg hl]
          by_cases hm : e ∈ mLine
          · rw [if_pos hm]; exact ⟨_, rfl⟩
          · rw [if_neg hm]
            rcases h2 with h2 | h2
            · simp [hk, hl, hm] at h2
            · rw [if_pos h2]; exact ⟨_, rfl⟩
    obtain ⟨r, hr⟩ := hr
    refine ⟨r ++ ns, ?_⟩
    rw [assemble, if_neg, hr, hns]
    · rfl
    · rintro (⟨ha, hb⟩ | ⟨_, ha, hb⟩ | ⟨_, _, ha, hb⟩)
      · exact h1.1 ha hb
      · exact h1.2.1 ha hb
      · exact h1.2.2 ha hb

/-- C115 is false for lines that are not excited: assembling the model raises ValueError at the first K line whose cross section
vanishes, even if all elements before it are fine. -/
theorem C115_not_excited_refuted (cs : Cs) (before after : List String) (e : String) (he : e ∈ kLine) (hc : cs (symbolOf e) "ka1" = 0)
    (hbefore : ∀ e ∈ before, Spec.IsExcited cs e ∧ (e ∈ kLine ++ lLine ++ mLine ∨ hasUser e = true)) :
    assemble cs (before ++ e :: after) = .error .valueError := by
  induction before with
  | nil => rw [List.nil_append, assemble, if_pos (Or.inl ⟨he, hc⟩)]
  | cons b rest ih =>
    have ih := ih (fun e' h' => hbefore e' (by simp [h']))
    obtain ⟨h1, h2⟩ := hbefore b (by simp)
    rw [List.cons_append, assemble, if_neg, ih]
    · have : ∃ r, modelReads cs b "area" = .ok r := by
        obtain ⟨names, hn⟩ := C115_assemble_partial cs [b] (by intro e he; rw [List.mem_singleton] at he; rw [he]; exact ⟨h1, h2⟩)
        rw [assemble] at hn
        split_ifs at hn
        cases hm : modelReads cs b "area" with
        | ok r => exact ⟨r, rfl⟩
        | error e => rw [hm] at hn; cases hn
      obtain ⟨r, hr⟩ := this
      rw [hr]
      rfl
    · rintro (⟨ha, hb⟩ | ⟨_, ha, hb⟩ | ⟨_, _, ha, hb⟩)
      · exact h1.1 ha hb
      · exact h1.2.1 ha hb
      · exact h1.2.2 ha hb

end Verif.Xrf
