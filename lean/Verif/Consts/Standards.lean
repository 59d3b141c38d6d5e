/- C257: powder standards over every history of calls (skbeam/core/constants/xrs.py 108-240). -/
import Verif.Consts.Model

namespace Verif.Consts
open Verif

/-- The list objects of the caller and the powder standards that exist.  A standard holds its own list of reflections (xrs.py 123), which
`reflections` (137-142) hands out as it is; names are left out. -/
structure Shelf where
  given : List (List (ℝ × (ℚ × ℚ × ℚ) × ℝ))
  stds : List (List Reflection)

/-- What a program can do.  `change` and `changeRefl` stand for any in-place modification (append, pop, sort, clear, assignment of an item) of a list of the
caller and of the list got from `standard.reflections`. -/
inductive Act where
  | list (l : List (ℝ × (ℚ × ℚ × ℚ) × ℝ))
  | change (k : ℕ) (l : List (ℝ × (ℚ × ℚ × ℚ) × ℝ))
  | make (k : ℕ)
  | changeRefl (i : ℕ) (l : List Reflection)
  | ask (i : ℕ)

/-- One step; `make` is `PowderStandard(name, given[k])`, xrs.py 122-125. -/
noncomputable def Shelf.step (w : Shelf) : Act → Shelf
  | .list l => { w with given := w.given ++ [l] }
  | .change k l => { w with given := w.given.set k l }
  | .make k => match w.given[k]? with | some l => { w with stds := w.stds ++ [powderStandard l] } | none => w
  | .changeRefl i l => { w with stds := w.stds.set i l }
  | .ask _ => w

noncomputable def Shelf.run (w : Shelf) (acts : List Act) : Shelf := acts.foldl Shelf.step w

/-- What standard i answers: `convert_2theta(wavelength)` (xrs.py 147-164) and the reflections of `reflections` and of iteration (137-145). -/
noncomputable def Shelf.answer (w : Shelf) (i : ℕ) (wavelength : ℝ) : Option (List ℝ × List Reflection) :=
  (w.stds[i]?).map (fun s => (convert2theta s wavelength, s))

/-! ## C257 -/

theorem step_keeps (w : Shelf) (i : ℕ) (s : List Reflection) (hs : w.stds[i]? = some s) (a : Act) (ha : ∀ l, a ≠ .changeRefl i l) : (w.step a).stds[i]? = some s := by
  cases a with
  | list l => exact hs
  | change k l => exact hs
  | make k =>
    simp only [Shelf.step]
    split
    · have hi : i < w.stds.length := (List.getElem?_eq_some_iff.1 hs).1
      show (w.stds ++ _)[i]? = _
      rw [List.getElem?_append_left hi, hs]
    · exact hs
  | changeRefl j l =>
    have hj : j ≠ i := fun h => ha l (by rw [h])
    show (w.stds.set j l)[i]? = _
    rw [List.getElem?_set_ne hj, hs]
  | ask j => exact hs

/-- C257: whatever is done with other standards, with the list the standard was made from, and with the standard itself short of modifying its list of
reflections, it gives the same answers. -/
theorem C257_history_partial (w : Shelf) (i : ℕ) (hi : i < w.stds.length) (acts : List Act) (h : ∀ l, .changeRefl i l ∉ acts) (wavelength : ℝ) :
    (w.run acts).answer i wavelength = w.answer i wavelength := by
  have key : ∀ (acts : List Act) (w : Shelf) (s : List Reflection), w.stds[i]? = some s → (∀ l, .changeRefl i l ∉ acts) → (w.run acts).stds[i]? = some s := by
    intro acts
    induction acts with
    | nil => intro w s hs _; exact hs
    | cons a r ih =>
      intro w s hs ha
      exact ih (w.step a) s (step_keeps w i s hs a (fun l e => ha l (by simp [e]))) (fun l hl => ha l (by simp [hl]))
  unfold Shelf.answer
  rw [key acts w _ (List.getElem?_eq_getElem hi) h, List.getElem?_eq_getElem hi]

/-- C257: a standard made from a list answers for the list as it was then: one two-theta per entry, in order of q, whatever happens to the list afterwards. -/
theorem C257_made_partial (w : Shelf) (k : ℕ) (l : List (ℝ × (ℚ × ℚ × ℚ) × ℝ)) (hk : w.given[k]? = some l) (acts : List Act)
    (h : ∀ m, .changeRefl w.stds.length m ∉ acts) (wavelength : ℝ) :
    ((w.step (.make k)).run acts).answer w.stds.length wavelength = some (convert2theta (powderStandard l) wavelength, powderStandard l) := by
  have e : (w.step (.make k)).stds = w.stds ++ [powderStandard l] := by simp only [Shelf.step, hk]
  rw [C257_history_partial _ _ (by rw [e]; simp) acts h]
  unfold Shelf.answer
  rw [e]
  simp

/-- C257 fails if the list got from `reflections` is modified: removing its first entry changes what the standard answers from then on, to everyone. -/
theorem C257_reflections_refuted (w : Shelf) (i : ℕ) (s : List Reflection) (hs : w.stds[i]? = some s) (hne : s ≠ []) (wavelength : ℝ) :
    (w.run [.changeRefl i s.tail]).answer i wavelength = some ((convert2theta s wavelength).tail, s.tail) ∧
      (w.run [.changeRefl i s.tail]).answer i wavelength ≠ w.answer i wavelength := by
  have hi : i < w.stds.length := (List.getElem?_eq_some_iff.1 hs).1
  have e : (w.run [.changeRefl i s.tail]).answer i wavelength = some ((convert2theta s wavelength).tail, s.tail) := by
    show ((w.stds.set i s.tail)[i]?).map _ = _
    rw [List.getElem?_set_self hi]
    simp [convert2theta, List.map_tail]
  refine ⟨e, ?_⟩
  rw [e]
  unfold Shelf.answer
  rw [hs]
  intro hc
  have h2 := congrArg List.length (Prod.mk.inj (Option.some.inj hc)).2
  rw [List.length_tail] at h2
  have := List.length_pos_of_ne_nil hne
  omega

/-- A standard of one reflection; its list is emptied by the caller, who then makes another. -/
example (wavelength : ℝ) : (((⟨[[(1, (1, 1, 1), 6)]], []⟩ : Shelf).step (.make 0)).run [.change 0 [], .make 0, .changeRefl 1 [], .ask 0]).answer 0 wavelength =
    some (convert2theta (powderStandard [(1, (1, 1, 1), 6)]) wavelength, powderStandard [(1, (1, 1, 1), 6)]) :=
  C257_made_partial ⟨[[(1, (1, 1, 1), 6)]], []⟩ 0 _ rfl _ (by simp) wavelength

end Verif.Consts
