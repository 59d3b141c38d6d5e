/- Properties C171, C172: shipped parameters and strategies, default hints. -/
import Verif.Xrf.Defaults
import Verif.Xrf.Props
import Verif.Xrf.SpectrumLemmas

namespace Verif.Xrf
open Verif

/-! ## Specification -/

namespace Spec

/-- The bound types the documentation lists. -/
def boundTypes : List String := ["none", "fixed", "lo", "hi", "lohi"]

/-- An entry a fit can start from: a known bound type, and a value within its limits. -/
def Startable (e : Entry) : Prop := e.bound ∈ boundTypes ∧ e.lo ≤ e.value ∧ e.value ≤ e.hi ∧ e.lo < e.hi

/-- Names of the default parameters. -/
def globals : List String := ["coherent_sct_amplitude", "coherent_sct_energy", "compton_amplitude", "compton_angle", "compton_f_step", "compton_f_tail",
  "compton_fwhm_corr", "compton_gamma", "compton_hi_f_tail", "compton_hi_gamma", "e_linear", "e_offset", "e_quadratic", "fwhm_fanoprime", "fwhm_offset"]

/-- The area parameters of the given elemental lines: that of the first line of the shell. -/
def AreaOf (es : List String) (n : String) : Prop :=
  ∃ sym, (sym ++ "_K" ∈ es ∧ n = sym ++ "_ka1_area") ∨ (sym ++ "_L" ∈ es ∧ n = sym ++ "_la1_area") ∨ (sym ++ "_M" ∈ es ∧ n = sym ++ "_ma1_area")

end Spec

/-! ## C171 shipped tables -/

/-- The shipped parameter table and the shipped fitting strategies: all have the same parameters, every default can start a fit,
and every strategy names only known bound types. -/
theorem C171_tables :
    defaultParam.map Prod.fst = Spec.globals ++ ["non_fitting_values"] ∧
    (∀ ne ∈ defaultParam, ne.1 ≠ "non_fitting_values" → Spec.Startable ne.2) ∧
    (∀ os ∈ registry, os.2.map Prod.fst = Spec.globals ++ ["non_fitting_values"] ∧ ∀ nb ∈ os.2, nb.2 ∈ Spec.boundTypes) := by
  unfold Spec.Startable
  decide +kernel

def tableElements : List String := kLine ++ lLine ++ mLine

def kinds : List String := ["pos", "width", "area", "ratio"]

def goodArea (e : String) : Bool :=
  match areaName e with
  | .ok n => "_area".toList.isSuffixOf n.toList
  | .error _ => false

theorem goodArea_all : ∀ e ∈ tableElements, goodArea e = true := by decide +kernel

def goodSplit (e : String) : Bool :=
  match split '_' e with
  | [_, l] => decide (e.length ≤ 4) && (match transitionsOf l with | .ok _ => true | .error _ => false)
  | _ => false

theorem goodSplit_all : ∀ e ∈ tableElements, goodSplit e = true := by decide +kernel

def suffixes : List String := ["_area", "_delta_center", "_delta_sigma", "_ratio_adjust"]

def HasSuffix (n : String) : Prop := ∃ s ∈ suffixes, s.toList <:+ n.toList

theorem globals_no_suffix : ∀ n ∈ Spec.globals ++ ["non_fitting_values"], ∀ s ∈ suffixes, s.toList.isSuffixOf n.toList = false := by decide +kernel

theorem not_global (n : String) (h : HasSuffix n) : n ∉ Spec.globals ++ ["non_fitting_values"] := by
  intro hn
  obtain ⟨s, hs, h⟩ := h
  have := globals_no_suffix n hn s hs
  rw [← List.isSuffixOf_iff_suffix] at h
  rw [h] at this
  cases this

theorem paramNames_ok (ln : List String) (kind e : String) (hk : kind ∈ kinds) (he : e ∈ tableElements) :
    ∃ names, paramNames ln kind e = .ok names ∧ ∀ n ∈ names, HasSuffix n := by
  by_cases ha : kind = "area"
  · have hg := goodArea_all e he
    unfold goodArea at hg
    unfold paramNames
    rw [if_pos ha]
    cases h : areaName e with
    | error x => rw [h] at hg; cases hg
    | ok n =>
      rw [h] at hg
      refine ⟨[n], rfl, fun m hm => ?_⟩
      rw [List.mem_singleton.1 hm]
      exact ⟨"_area", by decide, List.isSuffixOf_iff_suffix.1 hg⟩
  · have hg := goodSplit_all e he
    unfold goodSplit at hg
    unfold paramNames
    rw [if_neg ha]
    have hs : ∃ suf, suffixOf kind = .ok suf ∧ "_" ++ suf ∈ suffixes := by
      simp only [kinds, List.mem_cons, List.not_mem_nil, or_false] at hk
      rcases hk with rfl | rfl | rfl | rfl
      · exact ⟨"delta_center", by decide, by decide⟩
      · exact ⟨"delta_sigma", by decide, by decide⟩
      · exact absurd rfl ha
      · exact ⟨"ratio_adjust", by decide, by decide⟩
    obtain ⟨suf, hsuf, hmem⟩ := hs
    rw [hsuf]
    simp only [bind, Except.bind]
    split at hg
    · rename_i sym l heq
      rw [Bool.and_eq_true, decide_eq_true_eq] at hg
      rw [if_pos hg.1]
      unfold lineParamNames
      rw [heq]
      simp only [bind, Except.bind]
      cases ht : transitionsOf l with
      | error x => rw [ht] at hg; cases hg.2
      | ok ts =>
        refine ⟨_, rfl, fun n hn => ?_⟩
        simp only [List.mem_map] at hn
        obtain ⟨m, _, rfl⟩ := hn
        refine ⟨"_" ++ suf, hmem, ?_⟩
        rw [String.append_assoc]
        have : (m ++ ("_" ++ suf)).toList = m.toList ++ ("_" ++ suf).toList := String.toList_append
        rw [this]
        exact List.suffix_append _ _
    · cases hg

theorem addParam_eq (cs : Cs) (s : Ctl) (kind e : String) (c : Option String) (hk : kind ∈ kinds) (he : e ∈ tableElements) :
    ∃ names : List String, (∀ n ∈ names, HasSuffix n) ∧ (kind = "area" → ∀ n, n ∈ names ↔ areaName e = .ok n) ∧ (addParam cs s kind e c).1 = .ok () ∧
      ∀ n, get n (addParam cs s kind e c).2.params = (if n ∈ names then some (paramDefault kind) else get n s.params) ∧
        get n (addParam cs s kind e c).2.strategy = (if n ∈ names ∧ c.isSome then c else get n s.strategy) := by
  unfold addParam
  set s1 := if e ∈ s.elements then s else { s with elements := s.elements ++ [e], linenames := s.linenames ++ activatedLines cs [e] } with hs1
  have hp : s1.params = s.params ∧ s1.strategy = s.strategy := by rw [hs1]; split_ifs <;> exact ⟨rfl, rfl⟩
  obtain ⟨names, hn, hsuf⟩ := paramNames_ok s1.linenames kind e hk he
  simp only [hn]
  refine ⟨names, hsuf, ?_, trivial, fun n => ?_⟩
  · intro ha n
    unfold paramNames at hn
    rw [if_pos ha] at hn
    cases h : areaName e with
    | error x => rw [h] at hn; cases hn
    | ok m =>
      rw [h] at hn
      cases hn
      rw [List.mem_singleton]
      constructor
      · rintro rfl; rfl
      · intro h'; cases h'; rfl
  · rw [← hp.1, ← hp.2]
    exact foldl_addOne_get kind c names s1 n

theorem addAll_inv (cs : Cs) (I : Ctl → Prop) (ops : List (String × String × Option String))
    (h : ∀ op ∈ ops, ∀ s, I s → (addParam cs s op.1 op.2.1 op.2.2).1 = .ok () ∧ I (addParam cs s op.1 op.2.1 op.2.2).2) (s : Ctl) (hs : I s) :
    (addAll cs s ops).1 = .ok () ∧ I (addAll cs s ops).2 := by
  induction ops generalizing s with
  | nil => exact ⟨rfl, hs⟩
  | cons op ops ih =>
    obtain ⟨k, e, c⟩ := op
    unfold addAll
    have := h (k, e, c) (by simp) s hs
    obtain ⟨h1, h2⟩ := this
    cases hr : addParam cs s k e c with
    | mk r s' =>
      simp only [hr] at h1 h2
      subst h1
      exact ih (fun op' hop => h op' (by simp [hop])) s' h2

theorem addAll_est (cs : Cs) (Q : Ctl → Prop) (ops : List (String × String × Option String))
    (hok : ∀ op ∈ ops, ∀ s, (addParam cs s op.1 op.2.1 op.2.2).1 = .ok ())
    (hpres : ∀ op ∈ ops, ∀ s, Q s → Q (addParam cs s op.1 op.2.1 op.2.2).2)
    (op0 : String × String × Option String) (h0 : op0 ∈ ops) (hest : ∀ s, Q (addParam cs s op0.1 op0.2.1 op0.2.2).2) (s : Ctl) :
    Q (addAll cs s ops).2 := by
  induction ops generalizing s with
  | nil => cases h0
  | cons op ops ih =>
    obtain ⟨k, e, c⟩ := op
    unfold addAll
    have h1 := hok (k, e, c) (by simp) s
    cases hr : addParam cs s k e c with
    | mk r s' =>
      simp only [hr] at h1
      subst h1
      by_cases hm : op0 ∈ ops
      · exact ih (fun op' hop => hok op' (by simp [hop])) (fun op' hop => hpres op' (by simp [hop])) hm s'
      · have he : op0 = (k, e, c) := by
          rcases List.mem_cons.1 h0 with h | h
          · exact h
          · exact absurd h hm
        have hq : Q s' := by
          have := hest s
          rw [he] at this
          simp only [hr] at this
          exact this
        exact (addAll_inv cs Q ops (fun op' hop t ht => ⟨hok op' (by simp [hop]) t, hpres op' (by simp [hop]) t ht⟩) s' hq).2

/-- What every reachable controller satisfies: default parameters as shipped, all parameters startable. -/
def Good (s : Ctl) : Prop :=
  (∀ n ∈ Spec.globals, get n s.params = get n defaultParam) ∧ (∀ n e, get n s.params = some e → n ≠ "non_fitting_values" → Spec.Startable e)

theorem paramDefault_startable : ∀ kind ∈ kinds, Spec.Startable (paramDefault kind) := by unfold Spec.Startable; decide +kernel

theorem addParam_good (cs : Cs) (s : Ctl) (kind e : String) (c : Option String) (hk : kind ∈ kinds) (he : e ∈ tableElements) (hs : Good s) :
    (addParam cs s kind e c).1 = .ok () ∧ Good (addParam cs s kind e c).2 := by
  obtain ⟨names, hsuf, _, hok, hget⟩ := addParam_eq cs s kind e c hk he
  refine ⟨hok, fun n hn => ?_, fun n x hx hne => ?_⟩
  · rw [(hget n).1, if_neg, hs.1 n hn]
    intro hm
    exact not_global n (hsuf n hm) (List.mem_append_left _ hn)
  · rw [(hget n).1] at hx
    split_ifs at hx with hm
    · cases hx
      exact paramDefault_startable kind hk
    · exact hs.2 n x hx hne

theorem init_good (cs : Cs) (es : List String) (lines : List String) : Good ⟨defaultParam, es, lines, []⟩ := by
  refine ⟨fun n _ => rfl, fun n e h hne => ?_⟩
  have hmem : (n, e) ∈ defaultParam := by
    have : ∀ d : Dict Entry, get n d = some e → (n, e) ∈ d := by
      intro d
      induction d with
      | nil => intro h; cases h
      | cons a d ih =>
        obtain ⟨k', v'⟩ := a
        intro h
        unfold get at h
        split_ifs at h with hk
        · cases h; rw [hk]; simp
        · exact List.mem_cons_of_mem _ (ih h)
    exact this _ h
  exact C171_tables.2.1 (n, e) hmem hne

/-- The controller built from the shipped defaults and any lines of the tables, and its element strategy. -/
theorem init_ok (cs : Cs) (es : List String) (hes : ∀ e ∈ es, e ∈ tableElements) :
    (initCtl cs defaultParam es).1 = .ok () ∧ Good (initCtl cs defaultParam es).2 ∧ (∀ n, get n (initCtl cs defaultParam es).2.strategy = none) := by
  unfold initCtl
  have key := addAll_inv cs (fun s => Good s ∧ ∀ n, get n s.strategy = none)
    (es.flatMap (fun e => ["pos", "width", "area", "ratio"].map (fun k => (k, e, (none : Option String))))) (by
      rintro ⟨k, e, c⟩ hop s ⟨hg, hst⟩
      simp only [List.mem_flatMap, List.mem_map] at hop
      obtain ⟨e', he', k', hk', heq⟩ := hop
      cases heq
      obtain ⟨names, _, _, _, hget⟩ := addParam_eq cs s k e none hk' (hes e he')
      have := addParam_good cs s k e none hk' (hes e he') hg
      refine ⟨this.1, this.2, fun n => ?_⟩
      rw [(hget n).2, if_neg (by simp), hst n]) ⟨defaultParam, es, activatedLines cs es, []⟩ ⟨init_good cs es _, fun _ => rfl⟩
  exact ⟨key.1, key.2.1, key.2.2⟩

theorem get_registry_bound : ∀ os ∈ registry, ∀ n ∈ Spec.globals, (get n os.2).isSome = true ∧ (get n os.2).getD "" ∈ Spec.boundTypes := by decide +kernel

theorem get_isSome_mem {α : Type} (n : String) (d : Dict α) (h : (get n d).isSome = true) : n ∈ d.map Prod.fst := by
  induction d with
  | nil => cases h
  | cons a d ih =>
    obtain ⟨k, v⟩ := a
    unfold get at h
    split_ifs at h with hk
    · simp [hk]
    · simp [ih h]

theorem get_eq_some_mem {α : Type} (n : String) (v : α) (d : Dict α) (h : get n d = some v) : (n, v) ∈ d := by
  induction d with
  | nil => cases h
  | cons a d ih =>
    obtain ⟨k', v'⟩ := a
    unfold get at h
    split_ifs at h with hk
    · cases h; rw [hk]; simp
    · exact List.mem_cons_of_mem _ (ih h)

/-- C171: for any elemental lines of the tables, the controller built from the shipped defaults and any shipped strategy
work together: nothing is raised, every parameter ends with a known bound type and a value within its limits, the default
parameters keep their shipped value and limits and get the bound type of the strategy, and the parameters of the elements
are fixed. -/
theorem C171_session (cs : Cs) (es : List String) (hes : ∀ e ∈ es, e ∈ kLine ++ lLine ++ mLine) (option : String) (strategy : Dict String)
    (hopt : get option registry = some strategy) :
    ∃ s s', initCtl cs defaultParam es = (.ok (), s) ∧ setStrategy registry s option = (.ok (), s') ∧
      (∀ n e, get n s'.params = some e → n ≠ "non_fitting_values" → Spec.Startable e) ∧
      (∀ n ∈ Spec.globals, ∃ e0 e, get n defaultParam = some e0 ∧ get n s'.params = some e ∧ get n strategy = some e.bound ∧
        e.value = e0.value ∧ e.lo = e0.lo ∧ e.hi = e0.hi) ∧
      (∀ n e, get n s'.params = some e → n ∉ Spec.globals → n ≠ "non_fitting_values" → e.bound = "fixed") := by
  obtain ⟨h1, h2, h3⟩ := init_ok cs es hes
  have hreg := get_eq_some_mem option strategy registry hopt
  set s := (initCtl cs defaultParam es).2 with hs
  have hok : (setStrategy registry s option).1 = .ok () := ((C70_bounds registry s.params option (some s.strategy)).1 strategy hopt).1
  have hget : ∀ n, n ≠ "non_fitting_values" → get n (setStrategy registry s option).2.params =
      (get n s.params).map (fun e => { e with bound := Spec.boundOf strategy s.strategy n }) := fun n hn =>
    get_setBound registry s.params option strategy (some s.strategy) hopt n hn
  have hglob : ∀ n ∈ Spec.globals, n ≠ "non_fitting_values" := by decide
  have hbound : ∀ n, n ∉ Spec.globals → n ≠ "non_fitting_values" → Spec.boundOf strategy s.strategy n = "fixed" := by
    intro n hn hne
    unfold Spec.boundOf
    rw [if_neg, if_neg (by rw [h3 n]; simp)]
    intro hsome
    have := get_isSome_mem n strategy hsome
    rw [(C171_tables.2.2 (option, strategy) hreg).1] at this
    rcases List.mem_append.1 this with h | h
    · exact hn h
    · exact hne (List.mem_singleton.1 h)
  refine ⟨s, (setStrategy registry s option).2, Prod.ext h1 rfl, Prod.ext hok rfl, fun n e he hne => ?_, fun n hn => ?_, fun n e he hn hne => ?_⟩
  · rw [hget n hne] at he
    cases hx : get n s.params with
    | none => rw [hx] at he; cases he
    | some x =>
      rw [hx] at he
      cases he
      have hx' := h2.2 n x hx hne
      refine ⟨?_, hx'.2⟩
      by_cases hn : n ∈ Spec.globals
      · have := get_registry_bound (option, strategy) hreg n hn
        unfold Spec.boundOf
        rw [if_pos this.1]
        exact this.2
      · simp only [hbound n hn hne]; decide
  · have hb := get_registry_bound (option, strategy) hreg n hn
    have hd : (get n defaultParam).isSome = true := by
      have : ∀ n ∈ Spec.globals, (get n defaultParam).isSome = true := by decide +kernel
      exact this n hn
    obtain ⟨e0, he0⟩ := Option.isSome_iff_exists.1 hd
    refine ⟨e0, { e0 with bound := Spec.boundOf strategy s.strategy n }, he0, by rw [hget n (hglob n hn), h2.1 n hn, he0]; rfl, ?_, rfl, rfl, rfl⟩
    simp only
    unfold Spec.boundOf
    simp only [if_pos hb.1]
    obtain ⟨b, hb'⟩ := Option.isSome_iff_exists.1 hb.1
    simp only at hb'
    rw [hb']; rfl
  · rw [hget n hne] at he
    cases hx : get n s.params with
    | none => rw [hx] at he; cases he
    | some x =>
      rw [hx] at he
      cases he
      exact hbound n hn hne

/-! ### the linear strategy -/

theorem kArea : ∀ e ∈ kLine, e.toList = (symbolOf e).toList ++ "_K".toList ∧ areaName e = .ok (symbolOf e ++ "_ka1_area") := by decide +kernel
theorem lArea : ∀ e ∈ lLine, e.toList = (symbolOf e).toList ++ "_L".toList ∧ areaName e = .ok (symbolOf e ++ "_la1_area") := by decide +kernel
theorem mArea : ∀ e ∈ mLine, e.toList = (symbolOf e).toList ++ "_M".toList ∧ areaName e = .ok (symbolOf e ++ "_ma1_area") := by decide +kernel

theorem table_split (e : String) (he : e ∈ tableElements) (sym : String) :
    (e = sym ++ "_K" → areaName e = .ok (sym ++ "_ka1_area")) ∧ (e = sym ++ "_L" → areaName e = .ok (sym ++ "_la1_area")) ∧
    (e = sym ++ "_M" → areaName e = .ok (sym ++ "_ma1_area")) := by
  have inj : ∀ (a b x y : String), a.toList ++ x.toList = b.toList ++ y.toList → x.length = y.length → a = b ∧ x = y := by
    intro a b x y h hl
    have := List.append_inj' h (by rw [String.length_toList, String.length_toList]; exact hl)
    exact ⟨String.toList_inj.1 this.1, String.toList_inj.1 this.2⟩
  have aux : ∀ (x t : String), x ∈ ["_K", "_L", "_M"] → (e.toList = (symbolOf e).toList ++ x.toList ∧ areaName e = .ok (symbolOf e ++ t)) →
      ∀ y ∈ ["_K", "_L", "_M"], e = sym ++ y → y = x ∧ areaName e = .ok (sym ++ t) := by
    intro x t hx ⟨h1, h2⟩ y hy he
    have hl : x.length = y.length := by
      have : ∀ x ∈ ["_K", "_L", "_M"], x.length = 2 := by decide
      rw [this x hx, this y hy]
    have h3 : (symbolOf e).toList ++ x.toList = sym.toList ++ y.toList := by
      rw [← h1]
      conv_lhs => rw [he]
      rw [String.toList_append]
    obtain ⟨h4, h5⟩ := inj _ _ _ _ h3 hl
    exact ⟨h5.symm, by rw [h2, h4]⟩
  have hcases : (e.toList = (symbolOf e).toList ++ "_K".toList ∧ areaName e = .ok (symbolOf e ++ "_ka1_area")) ∨
      (e.toList = (symbolOf e).toList ++ "_L".toList ∧ areaName e = .ok (symbolOf e ++ "_la1_area")) ∨
      (e.toList = (symbolOf e).toList ++ "_M".toList ∧ areaName e = .ok (symbolOf e ++ "_ma1_area")) := by
    rcases List.mem_append.1 he with h | h
    · rcases List.mem_append.1 h with h | h
      · exact Or.inl (kArea e h)
      · exact Or.inr (Or.inl (lArea e h))
    · exact Or.inr (Or.inr (mArea e h))
  rcases hcases with h | h | h
  · have := aux "_K" "_ka1_area" (by decide) h
    exact ⟨fun he => (this "_K" (by decide) he).2, fun he => absurd (this "_L" (by decide) he).1 (by decide), fun he => absurd (this "_M" (by decide) he).1 (by decide)⟩
  · have := aux "_L" "_la1_area" (by decide) h
    exact ⟨fun he => absurd (this "_K" (by decide) he).1 (by decide), fun he => (this "_L" (by decide) he).2, fun he => absurd (this "_M" (by decide) he).1 (by decide)⟩
  · have := aux "_M" "_ma1_area" (by decide) h
    exact ⟨fun he => absurd (this "_K" (by decide) he).1 (by decide), fun he => absurd (this "_L" (by decide) he).1 (by decide), fun he => (this "_M" (by decide) he).2⟩

theorem areaOf_iff (es : List String) (hes : ∀ e ∈ es, e ∈ tableElements) (n : String) : Spec.AreaOf es n ↔ ∃ e ∈ es, areaName e = .ok n := by
  constructor
  · rintro ⟨sym, h | h | h⟩
    · exact ⟨_, h.1, by rw [(table_split _ (hes _ h.1) sym).1 rfl, h.2]⟩
    · exact ⟨_, h.1, by rw [(table_split _ (hes _ h.1) sym).2.1 rfl, h.2]⟩
    · exact ⟨_, h.1, by rw [(table_split _ (hes _ h.1) sym).2.2 rfl, h.2]⟩
  · rintro ⟨e, he, hn⟩
    have hstr : ∀ x : String, e.toList = (symbolOf e).toList ++ x.toList → e = symbolOf e ++ x := by
      intro x h
      apply String.toList_inj.1
      rw [String.toList_append]; exact h
    refine ⟨symbolOf e, ?_⟩
    rcases List.mem_append.1 (hes e he) with h | h
    · rcases List.mem_append.1 h with h | h
      · obtain ⟨h1, h2⟩ := kArea e h
        rw [h2] at hn; cases hn
        exact Or.inl ⟨by rw [← hstr _ h1]; exact he, rfl⟩
      · obtain ⟨h1, h2⟩ := lArea e h
        rw [h2] at hn; cases hn
        exact Or.inr (Or.inl ⟨by rw [← hstr _ h1]; exact he, rfl⟩)
    · obtain ⟨h1, h2⟩ := mArea e h
      rw [h2] at hn; cases hn
      exact Or.inr (Or.inr ⟨by rw [← hstr _ h1]; exact he, rfl⟩)

theorem linear_bounds : ∀ n ∈ Spec.globals, (get n linearStrategy).getD "" = if n = "coherent_sct_amplitude" ∨ n = "compton_amplitude" then "none" else "fixed" := by
  decide +kernel

/-- C171: with the areas of the elements freed (`update_element_prop(elements, area="none")`), the strategy "linear" leaves
free exactly the amplitudes the spectrum is linear in: those of the two scattering peaks and the areas of the elements. -/
theorem C171_linear_free (cs : Cs) (es : List String) (hes : ∀ e ∈ es, e ∈ kLine ++ lLine ++ mLine) :
    ∃ s s' s'', initCtl cs defaultParam es = (.ok (), s) ∧ updateElementProp cs s es [("area", some "none")] = (.ok (), s') ∧
      setStrategy registry s' "linear" = (.ok (), s'') ∧
      ∀ n, n ≠ "non_fitting_values" →
        ((∃ e, get n s''.params = some e ∧ e.bound ≠ "fixed") ↔ n = "coherent_sct_amplitude" ∨ n = "compton_amplitude" ∨ Spec.AreaOf es n) := by
  obtain ⟨h1, h2, h3⟩ := init_ok cs es hes
  set s := (initCtl cs defaultParam es).2 with hs
  have hopt : get "linear" registry = some linearStrategy := by decide +kernel
  have hops : ∀ op ∈ es.flatMap (fun e => [("area", some "none")].map (fun (kc : String × Option String) => (kc.1, e, kc.2))), ∃ e ∈ es, op = ("area", e, some "none") := by
    intro op hop
    simp only [List.map_cons, List.map_nil, List.mem_flatMap, List.mem_singleton] at hop
    exact hop
  have hI := addAll_inv cs (fun t => Good t ∧ ∀ n c, get n t.strategy = some c → c = "none" ∧ ∃ e ∈ es, areaName e = .ok n) _ (by
    intro op hop t ⟨hg, hst⟩
    obtain ⟨e, he, rfl⟩ := hops op hop
    obtain ⟨names, _, harea, _, hget⟩ := addParam_eq cs t "area" e (some "none") (by decide) (hes e he)
    have hgood := addParam_good cs t "area" e (some "none") (by decide) (hes e he) hg
    refine ⟨hgood.1, hgood.2, fun n c hc => ?_⟩
    rw [(hget n).2] at hc
    split_ifs at hc with hm
    · cases hc
      exact ⟨rfl, e, he, (harea rfl n).1 hm.1⟩
    · exact hst n c hc) s ⟨h2, fun n c hc => by rw [h3 n] at hc; cases hc⟩
  have hok : ∀ op ∈ es.flatMap (fun e => [("area", some "none")].map (fun (kc : String × Option String) => (kc.1, e, kc.2))), ∀ t, (addParam cs t op.1 op.2.1 op.2.2).1 = .ok () := by
    intro op hop t
    obtain ⟨e, he, rfl⟩ := hops op hop
    obtain ⟨_, _, _, h, _⟩ := addParam_eq cs t "area" e (some "none") (by decide) (hes e he)
    exact h
  have hE : ∀ e ∈ es, ∀ n, areaName e = .ok n →
      get n (updateElementProp cs s es [("area", some "none")]).2.strategy = some "none" ∧
      (get n (updateElementProp cs s es [("area", some "none")]).2.params).isSome = true := by
    intro e he n hn
    refine addAll_est cs (fun t => get n t.strategy = some "none" ∧ (get n t.params).isSome = true) _ hok ?_ ("area", e, some "none") ?_ ?_ s
    · intro op hop t ⟨ht1, ht2⟩
      obtain ⟨e', he', rfl⟩ := hops op hop
      obtain ⟨names, _, harea, _, hget⟩ := addParam_eq cs t "area" e' (some "none") (by decide) (hes e' he')
      rw [(hget n).1, (hget n).2]
      constructor
      · split_ifs
        · rfl
        · exact ht1
      · split_ifs
        · rfl
        · exact ht2
    · simp only [List.map_cons, List.map_nil, List.mem_flatMap, List.mem_singleton]
      exact ⟨e, he, rfl⟩
    · intro t
      obtain ⟨names, _, harea, _, hget⟩ := addParam_eq cs t "area" e (some "none") (by decide) (hes e he)
      have hm := (harea rfl n).2 hn
      rw [(hget n).1, (hget n).2, if_pos hm, if_pos ⟨hm, rfl⟩]
      exact ⟨rfl, rfl⟩
  set s' := (updateElementProp cs s es [("area", some "none")]).2 with hs'
  have hok' : (setStrategy registry s' "linear").1 = .ok () := ((C70_bounds registry s'.params "linear" (some s'.strategy)).1 linearStrategy hopt).1
  have hget : ∀ n, n ≠ "non_fitting_values" → get n (setStrategy registry s' "linear").2.params =
      (get n s'.params).map (fun e => { e with bound := Spec.boundOf linearStrategy s'.strategy n }) := fun n hn =>
    get_setBound registry s'.params "linear" linearStrategy (some s'.strategy) hopt n hn
  refine ⟨s, s', (setStrategy registry s' "linear").2, Prod.ext h1 rfl, Prod.ext hI.1 rfl, Prod.ext hok' rfl, fun n hne => ?_⟩
  rw [areaOf_iff es hes, hget n hne]
  have hlin : get "linear" registry = some linearStrategy := hopt
  have hreg := get_eq_some_mem "linear" linearStrategy registry hopt
  by_cases hg : n ∈ Spec.globals
  · have hb : Spec.boundOf linearStrategy s'.strategy n = if n = "coherent_sct_amplitude" ∨ n = "compton_amplitude" then "none" else "fixed" := by
      rw [← linear_bounds n hg]
      unfold Spec.boundOf
      rw [if_pos (get_registry_bound ("linear", linearStrategy) hreg n hg).1]
    have hsome : (get n s'.params).isSome = true := by
      rw [show get n s'.params = get n defaultParam from hI.2.1.1 n hg]
      have : ∀ n ∈ Spec.globals, (get n defaultParam).isSome = true := by decide +kernel
      exact this n hg
    obtain ⟨x, hx⟩ := Option.isSome_iff_exists.1 hsome
    have hnot : ¬ ∃ e ∈ es, areaName e = .ok n := by
      rintro ⟨e, he, hn⟩
      have hgood := goodArea_all e (hes e he)
      unfold goodArea at hgood
      rw [hn] at hgood
      exact not_global n ⟨"_area", by decide, List.isSuffixOf_iff_suffix.1 hgood⟩ (List.mem_append_left _ hg)
    rw [hx]
    simp only [Option.map_some, Option.some.injEq, exists_eq_left', hb, hnot, or_false]
    split_ifs with h
    · simp [h]
    · simp [h]
  · have hb : get n linearStrategy = none := by
      cases hx : get n linearStrategy with
      | none => rfl
      | some v =>
        have := get_isSome_mem n linearStrategy (by rw [hx]; rfl)
        rw [(C171_tables.2.2 ("linear", linearStrategy) hreg).1] at this
        rcases List.mem_append.1 this with h | h
        · exact absurd h hg
        · exact absurd (List.mem_singleton.1 h) hne
    have hn1 : n ≠ "coherent_sct_amplitude" := fun h => hg (by rw [h]; decide)
    have hn2 : n ≠ "compton_amplitude" := fun h => hg (by rw [h]; decide)
    simp only [hn1, hn2, false_or]
    constructor
    · rintro ⟨e, he, hbd⟩
      cases hx : get n s'.params with
      | none => rw [hx] at he; cases he
      | some x =>
        rw [hx] at he
        cases he
        unfold Spec.boundOf at hbd
        rw [hb] at hbd
        simp only [Option.isSome_none, Bool.false_eq_true, if_false] at hbd
        cases hst : get n s'.strategy with
        | none => rw [hst] at hbd; exact absurd rfl hbd
        | some c => exact (hI.2.2 n c hst).2
    · rintro ⟨e, he, hn⟩
      obtain ⟨h4, h5⟩ := hE e he n hn
      obtain ⟨x, hx⟩ := Option.isSome_iff_exists.1 h5
      rw [hx]
      refine ⟨_, rfl, ?_⟩
      simp only
      unfold Spec.boundOf
      rw [hb, h4]
      decide

example : ∃ e, get "Fe_ka1_area" ((setStrategy registry (updateElementProp (fun _ _ => 1) (initCtl (fun _ _ => 1) defaultParam ["Fe_K", "Pt_M"]).2 ["Fe_K", "Pt_M"]
    [("area", some "none")]).2 "linear").2.params) = some e ∧ e.bound = "none" := ⟨_, rfl, by decide +kernel⟩

/-! ## C172 get_para and set_default -/

/-- C172: a bound type changed through the dict `get_para` returns stays changed for everyone who calls it later. -/
theorem C172_get_para_refuted : ∃ option, (setBoundAt (fun _ => defaultParam) getPara option).1 = .ok () ∧
    (setBoundAt (fun _ => defaultParam) getPara option).2 getPara ≠ defaultParam := by
  refine ⟨"linear", by decide +kernel, by decide +kernel⟩

/-- What holds: changing another dict does not. -/
theorem C172_get_para_partial (h : Heap) (a : ℕ) (ha : a ≠ getPara) (option : String) : (setBoundAt h a option).2 getPara = h getPara :=
  Function.update_of_ne (Ne.symm ha) _ _

/-- The hint `set_default` should give: as `bound_type` says. -/
def Spec.Follows (e : Entry) (old new : Hint) : Prop :=
  (e.bound = "none" → new = { old with vary := some true }) ∧
  (e.bound = "fixed" → new = { old with vary := some false, value := some e.value }) ∧
  (e.bound = "lo" → new = { old with vary := some true, value := some e.value, min := some e.lo }) ∧
  (e.bound = "hi" → new = { old with vary := some true, value := some e.value, max := some e.hi }) ∧
  (e.bound = "lohi" → new = { old with vary := some true, value := some e.value, min := some e.lo, max := some e.hi })

theorem defaultHint_spec (paras : Dict Entry) (name : String) (hs : Dict Hint) :
    (∀ hs', defaultHint paras name hs = .ok hs' →
      (∀ b, b ≠ name → get b hs' = get b hs) ∧
      (get name paras = none → hs' = hs) ∧
      (∀ e, get name paras = some e → e.bound ∈ Spec.boundTypes ∧ ∃ h, get name hs' = some h ∧ Spec.Follows e ((get name hs).getD {}) h)) ∧
    (defaultHint paras name hs = .error .typeError ↔ ∃ e, get name paras = some e ∧ e.bound ∉ Spec.boundTypes) ∧
    (∀ x, defaultHint paras name hs = .error x → x = .typeError) := by
  unfold defaultHint
  cases hg : get name paras with
  | none =>
    refine ⟨fun hs' h => ?_, by simp, by simp⟩
    cases h
    exact ⟨fun _ _ => rfl, fun _ => rfl, fun e he => by cases he⟩
  | some e =>
    have key : ∀ (f : Hint → Hint), e.bound ∈ Spec.boundTypes → Spec.Follows e ((get name hs).getD {}) (f ((get name hs).getD {})) →
        (∀ hs', (Except.ok (setHint name f hs) : Py (Dict Hint)) = .ok hs' →
          (∀ b, b ≠ name → get b hs' = get b hs) ∧ (some e = none → hs' = hs) ∧
          (∀ e', some e = some e' → e'.bound ∈ Spec.boundTypes ∧ ∃ h, get name hs' = some h ∧ Spec.Follows e' ((get name hs).getD {}) h)) ∧
        ((Except.ok (setHint name f hs) : Py (Dict Hint)) = .error .typeError ↔ ∃ e', some e = some e' ∧ e'.bound ∉ Spec.boundTypes) ∧
        (∀ x, (Except.ok (setHint name f hs) : Py (Dict Hint)) = .error x → x = .typeError) := by
      intro f hb hF
      refine ⟨fun hs' h => ?_, ⟨fun h => (by cases h), fun ⟨e', he', hnb⟩ => (by cases he'; exact absurd hb hnb)⟩, fun x h => by cases h⟩
      cases h
      refine ⟨fun b hbn => by rw [get_setHint, if_neg hbn], fun h => (by cases h), fun e' he' => ?_⟩
      cases he'
      exact ⟨hb, _, by rw [get_setHint, if_pos rfl], hF⟩
    simp only
    by_cases h1 : e.bound = "none"
    · rw [if_pos h1]
      exact key _ (by rw [h1]; decide) ⟨fun _ => rfl, fun h => by rw [h1] at h; exact absurd h (by decide), fun h => by rw [h1] at h; exact absurd h (by decide),
        fun h => by rw [h1] at h; exact absurd h (by decide), fun h => by rw [h1] at h; exact absurd h (by decide)⟩
    rw [if_neg h1]
    by_cases h2 : e.bound = "fixed"
    · rw [if_pos h2]
      exact key _ (by rw [h2]; decide) ⟨fun h => absurd h h1, fun _ => rfl, fun h => by rw [h2] at h; exact absurd h (by decide),
        fun h => by rw [h2] at h; exact absurd h (by decide), fun h => by rw [h2] at h; exact absurd h (by decide)⟩
    rw [if_neg h2]
    by_cases h3 : e.bound = "lo"
    · rw [if_pos h3]
      exact key _ (by rw [h3]; decide) ⟨fun h => absurd h h1, fun h => absurd h h2, fun _ => rfl,
        fun h => by rw [h3] at h; exact absurd h (by decide), fun h => by rw [h3] at h; exact absurd h (by decide)⟩
    rw [if_neg h3]
    by_cases h4 : e.bound = "hi"
    · rw [if_pos h4]
      exact key _ (by rw [h4]; decide) ⟨fun h => absurd h h1, fun h => absurd h h2, fun h => absurd h h3, fun _ => rfl,
        fun h => by rw [h4] at h; exact absurd h (by decide)⟩
    rw [if_neg h4]
    by_cases h5 : e.bound = "lohi"
    · rw [if_pos h5]
      exact key _ (by rw [h5]; decide) ⟨fun h => absurd h h1, fun h => absurd h h2, fun h => absurd h h3, fun h => absurd h h4, fun _ => rfl⟩
    rw [if_neg h5]
    refine ⟨fun hs' h => (by cases h), ⟨fun _ => ⟨e, rfl, ?_⟩, fun _ => rfl⟩, fun x h => by cases h; rfl⟩
    simp [Spec.boundTypes, h1, h2, h3, h4, h5]

/-- C172: `set_default` gives every argument of the function after the first that has an entry the hint its bound type
says, starting from the hint it had, and leaves every other hint alone; it raises TypeError exactly when such an entry has
an unknown bound type. -/
theorem C172_set_default (paras : Dict Entry) (x : String) (args : List String) (hnd : args.Nodup) (hs : Dict Hint) :
    (∀ hs', setDefault paras (x :: args) hs = .ok hs' →
      (∀ n ∈ args, ∀ e, get n paras = some e → e.bound ∈ Spec.boundTypes ∧ ∃ h, get n hs' = some h ∧ Spec.Follows e ((get n hs).getD {}) h) ∧
      (∀ b, (b ∉ args ∨ get b paras = none) → get b hs' = get b hs)) ∧
    ((∃ err, setDefault paras (x :: args) hs = .error err) ↔ ∃ n ∈ args, ∃ e, get n paras = some e ∧ e.bound ∉ Spec.boundTypes) ∧
    (∀ err, setDefault paras (x :: args) hs = .error err → err = .typeError) := by
  unfold setDefault
  rw [List.drop_one, List.tail_cons]
  induction args generalizing hs with
  | nil =>
    refine ⟨fun hs' h => ?_, by simp [defaultHints], by simp [defaultHints]⟩
    cases h
    exact ⟨fun n hn => (by cases hn), fun _ _ => rfl⟩
  | cons a args ih =>
    obtain ⟨hna, hnd⟩ := List.nodup_cons.1 hnd
    obtain ⟨k1, k2, k3⟩ := defaultHint_spec paras a hs
    unfold defaultHints
    cases hd : defaultHint paras a hs with
    | error err =>
      simp only [bind, Except.bind]
      have := k3 err hd
      subst this
      refine ⟨fun hs' h => (by cases h), ⟨fun _ => ?_, fun _ => ⟨_, rfl⟩⟩, fun x h => by cases h; rfl⟩
      obtain ⟨e, he, hb⟩ := k2.1 hd
      exact ⟨a, by simp, e, he, hb⟩
    | ok hs1 =>
      simp only [bind, Except.bind]
      obtain ⟨i1, i2, i3⟩ := ih hnd hs1
      obtain ⟨j1, j2, j3⟩ := k1 hs1 hd
      refine ⟨fun hs' h => ?_, ?_, i3⟩
      · obtain ⟨m1, m2⟩ := i1 hs' h
        refine ⟨fun n hn e he => ?_, fun b hb => ?_⟩
        · rcases List.mem_cons.1 hn with rfl | hn
          · obtain ⟨q1, q2⟩ := j3 e he
            rw [m2 n (Or.inl hna)]
            exact ⟨q1, q2⟩
          · have hne : n ≠ a := fun h => hna (h ▸ hn)
            have := m1 n hn e he
            rw [j1 n hne] at this
            exact this
        · by_cases hba : b = a
          · subst hba
            rcases hb with hb | hb
            · exact absurd (by simp) hb
            · rw [m2 b (Or.inr hb), j2 hb]
          · rw [m2 b (by rcases hb with hb | hb
                         · exact Or.inl (fun h => hb (by simp [h]))
                         · exact Or.inr hb), j1 b hba]
      · rw [i2]
        constructor
        · rintro ⟨n, hn, e, he, hb⟩
          exact ⟨n, by simp [hn], e, he, hb⟩
        · rintro ⟨n, hn, e, he, hb⟩
          rcases List.mem_cons.1 hn with rfl | hn
          · exact absurd (j3 e he).1 hb
          · exact ⟨n, hn, e, he, hb⟩

example : ∃ hs', setDefault defaultParam ["x", "coherent_sct_amplitude", "fwhm_offset", "unknown"] [] = .ok hs' ∧
    get "fwhm_offset" hs' = some { value := some (178 / 1000), vary := some true, min := some (16 / 100), max := some (19 / 100) } := by
  refine ⟨_, rfl, ?_⟩
  decide +kernel

end Verif.Xrf
