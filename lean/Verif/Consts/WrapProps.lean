/- Property C178: the xraylib wrapper objects of an element. -/
import Verif.Consts.Wrap
import Verif.Consts.Props

namespace Verif.Consts
open Verif Verif.Io

/-! ## Specification -/

/-- The name of a line or shell is the n-th of the published list, upper and lower case being the same. -/
def Spec.named (names : List String) (key : Text) (n : ℕ) : Prop :=
  ∃ s, names[n]? = some s ∧ lower key = lower s.toList

/-- The incident energy an object has after a session: the one assigned last to that object, else the one before. -/
def Spec.lastEnergy (i : ℕ) (e : ℚ) : List Stmt → ℚ
  | [] => e
  | .setEnergy j e' :: ss => Spec.lastEnergy i (if j = i then e' else e) ss
  | _ :: ss => Spec.lastEnergy i e ss

/-! ## Lemmas -/

theorem get_named (l : List String)
    (hl : ∀ i < l.length, ∀ m ∈ l, l[i]? = some m → get (nameDict l) (lower m.toList) = some i) (key : Text) (n : ℕ)
    (h : Spec.named l key n) : get (nameDict l) (lower key) = some n := by
  obtain ⟨s, hs, hk⟩ := h
  rw [hk]
  exact hl n (List.getElem?_eq_some_iff.1 hs).1 s (List.mem_of_getElem? hs) hs

theorem get_line (key : Text) (n : ℕ) (h : Spec.named lineName key n) : get (nameDict lineName) (lower key) = some n :=
  get_named lineName (by decide +kernel) key n h

theorem get_shell (key : Text) (n : ℕ) (h : Spec.named bindingE key n) : get (nameDict bindingE) (lower key) = some n :=
  get_named bindingE (by decide +kernel) key n h

theorem get_unnamed (l : List String) (key : Text) (h : ∀ n, ¬ Spec.named l key n) : get (nameDict l) (lower key) = none := by
  cases hg : get (nameDict l) (lower key) with
  | none => rfl
  | some v =>
    exfalso
    have hm := mem_of_get _ _ _ hg
    rcases mem_update _ _ _ hm with hm | hm
    · have h1 := (List.mem_zipIdx hm).2.2
      have hv : v < l.length := by have := (List.mem_zipIdx hm).2.1; simpa using this
      refine h v ⟨l[v], List.getElem?_eq_getElem hv, ?_⟩
      rw [h1]
      simp
    · cases hm

/-! ## C178 -/

/-- C178 (attributes of an element): every attribute of `XrfElement(k)` gives, for a line or shell named in any letter
case, the number xraylib has for the atomic number of the element found under `k`: line energies, binding energies,
jump factors, yields, and cross sections at the incident energy asked for. Construction fails with KeyError exactly when
the element is unknown. -/
theorem C178_attributes (x : XrayLib) (t : Dct Key Element) (k : Key) :
    (∀ err, basicElement t k = .error err → newXrf t k = .error err) ∧
    ∀ el, basicElement t k = .ok el → ∃ e : Xrf, newXrf t k = .ok e ∧ e.el = el ∧
      (∀ key n, Spec.named lineName key n →
        e.emissionLine.getItem x key = .ok ((x.lineEnergy el.z n).getD 0) ∧
        ∀ E : ℚ, ∃ c cb, e.cs E = .ok c ∧ e.csb E = .ok cb ∧
          c.getItem x key = .ok ((x.cs el.z n E).getD 0) ∧ cb.getItem x key = .ok ((x.csb el.z n E).getD 0)) ∧
      (∀ key n, Spec.named bindingE key n →
        e.bindEnergy.getItem x key = .ok ((x.edgeEnergy el.z n).getD 0) ∧
        e.jumpFactor.getItem x key = .ok ((x.jump el.z n).getD 0) ∧
        e.fluorYield.getItem x key = .ok ((x.fluorYield el.z n).getD 0)) := by
  constructor
  · intro err h
    unfold newXrf
    rw [h]
  · intro el h
    refine ⟨⟨el, ⟨el.z, .lines, none⟩, ⟨el.z, .bindingE, none⟩, ⟨el.z, .jump, none⟩, ⟨el.z, .yield, none⟩⟩, ?_, rfl, ?_, ?_⟩
    · unfold newXrf
      rw [h]
      rfl
    · intro key n hn
      have hg := get_line key n hn
      refine ⟨by simp [Wrap.getItem, Wrap.dict, hg], fun E => ⟨⟨el.z, .cs, some E⟩, ⟨el.z, .csb, some E⟩, rfl, rfl, ?_, ?_⟩⟩
      · simp [Wrap.getItem, Wrap.dict, hg]
      · simp [Wrap.getItem, Wrap.dict, hg]
    · intro key n hn
      have hg := get_shell key n hn
      refine ⟨?_, ?_, ?_⟩ <;> simp [Wrap.getItem, Wrap.dict, hg]

theorem lastEnergy_other (i : ℕ) (e : ℚ) (s : Stmt) (ss : List Stmt) (h : ∀ j e', s ≠ .setEnergy j e') :
    Spec.lastEnergy i e (s :: ss) = Spec.lastEnergy i e ss := by
  cases s <;> first | rfl | exact absurd rfl (h _ _)

theorem push_get (h : Heap) (w : Py Wrap) (i : ℕ) (v : Wrap) (hv : h[i]? = some v) : (push h w)[i]? = some v := by
  cases w with
  | error _ => exact hv
  | ok w =>
    unfold push
    rw [List.getElem?_append_left (List.getElem?_eq_some_iff.1 hv).1]
    exact hv

/-- C178 (sessions): whatever else a session does - making other wrappers, of the same element too, or changing their
incident energies - an object for cross sections keeps its element and kind and has the incident energy last assigned to
it, and a wrapper without incident energy never changes. -/
theorem C178_session (t : Dct Key Element) (ss : List Stmt) (h : Heap) (i : ℕ) (z : ℤ) (k : InfoName) :
    (∀ e, h[i]? = some ⟨z, k, some e⟩ → (session t h ss)[i]? = some ⟨z, k, some (Spec.lastEnergy i e ss)⟩) ∧
    (h[i]? = some ⟨z, k, none⟩ → (session t h ss)[i]? = some ⟨z, k, none⟩) := by
  induction ss generalizing h with
  | nil => exact ⟨fun e he => he, fun he => he⟩
  | cons s ss ih =>
    have hs : session t h (s :: ss) = session t (exec t h s) ss := rfl
    rw [hs]
    by_cases hset : ∃ j e', s = .setEnergy j e'
    · obtain ⟨j, e', rfl⟩ := hset
      constructor
      · intro e he
        have h1 : (exec t h (.setEnergy j e'))[i]? = some ⟨z, k, some (if j = i then e' else e)⟩ := by
          show (h.modify j (fun w => w.setEnergy e'))[i]? = _
          rw [List.getElem?_modify, he]
          by_cases hji : j = i <;> simp [hji, Wrap.setEnergy]
        exact (ih _).1 _ h1
      · intro he
        apply (ih _).2
        show (h.modify j (fun w => w.setEnergy e'))[i]? = _
        rw [List.getElem?_modify, he]
        by_cases hji : j = i <;> simp [hji, Wrap.setEnergy]
    · have hne : ∀ j e', s ≠ .setEnergy j e' := fun j e' h => hset ⟨j, e', h⟩
      have hkeep : ∀ v, h[i]? = some v → (exec t h s)[i]? = some v := by
        intro v hv
        cases s with
        | wrap z info => exact push_get h _ i v hv
        | wrapEnergy z info e => exact push_get h _ i v hv
        | cs k e => exact push_get h _ i v hv
        | csb k e => exact push_get h _ i v hv
        | setEnergy j e => exact absurd rfl (hne j e)
      refine ⟨fun e he => ?_, fun he => (ih _).2 (hkeep _ he)⟩
      rw [lastEnergy_other i e s ss hne]
      exact (ih _).1 e (hkeep _ he)

/-- C178 (a session, read back): the cross section read from object i of a session is that of its element at the
incident energy last assigned to this very object. -/
theorem C178_session_value (x : XrayLib) (t : Dct Key Element) (before after : List Stmt) (k : Key) (el : Element)
    (hel : basicElement t k = .ok el) (E : ℚ) (key : Text) (n : ℕ) (hn : Spec.named lineName key n) :
    let i := (session t [] before).length
    ∃ w, (session t [] (before ++ .cs k E :: after))[i]? = some w ∧
      w.getItem x key = .ok ((x.cs el.z n (Spec.lastEnergy i E after)).getD 0) := by
  intro i
  have h0 : session t [] (before ++ .cs k E :: after) = session t (exec t (session t [] before) (.cs k E)) after := by
    unfold session
    rw [List.foldl_append]
    rfl
  have h1 : exec t (session t [] before) (.cs k E) = session t [] before ++ [⟨el.z, .cs, some E⟩] := by
    have hx : newXrf t k = .ok ⟨el, ⟨el.z, .lines, none⟩, ⟨el.z, .bindingE, none⟩, ⟨el.z, .jump, none⟩,
        ⟨el.z, .yield, none⟩⟩ := by
      unfold newXrf
      rw [hel]
      rfl
    show push _ (match newXrf t k with | .ok el => el.cs E | .error err => .error err) = _
    rw [hx]
    rfl
  refine ⟨⟨el.z, .cs, some (Spec.lastEnergy i E after)⟩, ?_, ?_⟩
  · rw [h0, h1]
    apply (C178_session t after _ i el.z .cs).1
    simp [i]
  · simp [Wrap.getItem, Wrap.dict, get_line key n hn]

/-- C178 (kinds): the wrapper classes accept exactly the six kinds of `XRAYLIB_MAP`, remember them, and raise KeyError
for anything else. -/
theorem C178_kinds (z : ℤ) (E : ℚ) (info : String) :
    (info ∈ ["lines", "cs", "csb", "binding_e", "jump", "yield"] →
      ∃ w we, newWrap z info = .ok w ∧ newWrapEnergy z info E = .ok we ∧ w.z = z ∧ we.z = z ∧
        w.infoType = info ∧ we.infoType = info ∧ we.energy = some E) ∧
    (info ∉ ["lines", "cs", "csb", "binding_e", "jump", "yield"] →
      newWrap z info = .error .keyError ∧ newWrapEnergy z info E = .error .keyError) := by
  constructor
  · intro h
    simp only [List.mem_cons, List.not_mem_nil, or_false] at h
    rcases h with h | h | h | h | h | h <;> subst h <;> exact ⟨_, _, rfl, rfl, rfl, rfl, rfl, rfl, rfl⟩
  · intro h
    simp only [List.mem_cons, List.not_mem_nil, or_false, not_or] at h
    simp [newWrap, newWrapEnergy, infoOf, h]

/-- C178 is false for wrappers of the documented other class's kinds: `XrayLibWrap(z, "cs")` and
`XrayLibWrap_Energy(z, "lines", e)` are constructed without complaint and then raise TypeError for every line. -/
theorem C178_readable_refuted (x : XrayLib) (z : ℤ) (E : ℚ) (key : Text) (n : ℕ) (hn : Spec.named lineName key n) :
    ∃ w we, newWrap z "cs" = .ok w ∧ newWrapEnergy z "lines" E = .ok we ∧
      w.getItem x key = .error .typeError ∧ we.getItem x key = .error .typeError := by
  have hg := get_line key n hn
  refine ⟨⟨z, .cs, none⟩, ⟨z, .lines, some E⟩, rfl, rfl, ?_, ?_⟩ <;> simp [Wrap.getItem, Wrap.dict, hg]

/-- C178, the documented kinds of each class (`opts_info_type`): every constructed object can be read for every line or
shell name, and raises KeyError exactly for names that are neither. -/
theorem C178_readable_partial (x : XrayLib) (z : ℤ) (E : ℚ) (key : Text) :
    (∀ info ∈ ["lines", "binding_e", "jump", "yield"], ∃ w, newWrap z info = .ok w ∧
      ((∃ n, Spec.named (if info = "lines" then lineName else bindingE) key n) → ∃ v, w.getItem x key = .ok v) ∧
      ((∀ n, ¬ Spec.named (if info = "lines" then lineName else bindingE) key n) → w.getItem x key = .error .keyError)) ∧
    (∀ info ∈ ["cs", "csb"], ∃ w, newWrapEnergy z info E = .ok w ∧
      ((∃ n, Spec.named lineName key n) → ∃ v, w.getItem x key = .ok v) ∧
      ((∀ n, ¬ Spec.named lineName key n) → w.getItem x key = .error .keyError)) := by
  constructor
  · intro info h
    simp only [List.mem_cons, List.not_mem_nil, or_false] at h
    rcases h with h | h | h | h <;> subst h <;> refine ⟨_, rfl, ?_, ?_⟩
    · rintro ⟨n, hn⟩
      exact ⟨_, by simp [Wrap.getItem, Wrap.dict, get_line key n hn]; rfl⟩
    · intro hn
      simp [Wrap.getItem, Wrap.dict, get_unnamed lineName key hn]
    all_goals first
      | (rintro ⟨n, hn⟩; exact ⟨_, by simp [Wrap.getItem, Wrap.dict, get_shell key n hn]; rfl⟩)
      | (intro hn; simp [Wrap.getItem, Wrap.dict, get_unnamed bindingE key hn])
  · intro info h
    simp only [List.mem_cons, List.not_mem_nil, or_false] at h
    rcases h with h | h <;> subst h <;> refine ⟨_, rfl, ?_, ?_⟩
    all_goals first
      | (rintro ⟨n, hn⟩; exact ⟨_, by simp [Wrap.getItem, Wrap.dict, get_line key n hn]; rfl⟩)
      | (intro hn; simp [Wrap.getItem, Wrap.dict, get_unnamed lineName key hn])

/-- Non-vacuous: names in any case, and two cross-section objects of one element whose energies are changed separately. -/
example : Spec.named lineName "KA1".toList 0 ∧ Spec.named bindingE "l3".toList 3 :=
  ⟨⟨"Ka1", rfl, by decide⟩, ⟨"L3", rfl, by decide⟩⟩
example : session [(.str "zn".toList, ⟨30, "Zn".toList, "Zinc".toList, []⟩)] []
    [.cs (.str "Zn".toList) 10, .cs (.str "ZN".toList) 11, .setEnergy 1 12, .setEnergy 0 13, .setEnergy 1 9]
    = [⟨30, .cs, some 13⟩, ⟨30, .cs, some 9⟩] := by decide +kernel

end Verif.Consts
