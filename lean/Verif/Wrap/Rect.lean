/- C264: rectangles and box with coordinates of an integer type (skbeam/core/roi.py 57-96, 617-671). -/
import Verif.Wrap.Model
import Verif.Roi.Model
import Mathlib.Tactic.NormNum

namespace Verif.Wrap
open Verif Verif.Roi

/-- roi.py 84-85 for a rectangle (x, y, w, h) of integer type `t`: `col_coor + col_val` and `row_coor + row_val` are computed in the type.
Given here as the rectangle with these ends, for `Roi.rectSel`. -/
def rectEnds (t : IntType) (q : ℤ × ℤ × ℤ × ℤ) : ℤ × ℤ × ℤ × ℤ :=
  (q.1, q.2.1, t.wrap (q.1 + q.2.2.1) - q.1, t.wrap (q.2.1 + q.2.2.2) - q.2.1)

/-- `rectangles`, roi.py 57-96, for coordinates of integer type `t`. -/
def rectanglesI (t : IntType) (coords : List (ℤ × ℤ × ℤ × ℤ)) (shape : ℕ × ℕ) : Py (ℕ → ℕ → ℕ) := rectangles (coords.map (rectEnds t)) shape

/-- `box`, roi.py 617-671, for edges of integer type `t`: line 669 computes `h[1] - h[0]` and `v[1] - v[0]` in the type. -/
def boxI (t : IntType) (shape : ℕ × ℕ) (vEdges : List (ℤ × ℤ)) (hEdges : Option (List (ℤ × ℤ)))
    (values : Option ((ℕ × ℕ) × List ℚ × List ℚ)) : Py (ℕ → ℕ → ℕ) :=
  let hE := hEdges.getD vEdges
  let shp := match values with | none => shape | some (s, _, _) => s
  rectanglesI t (hE.flatMap (fun h => vEdges.map (fun v => (h.1, v.1, t.wrap (h.2 - h.1), t.wrap (v.2 - v.1))))) shp

theorem wrap_back (t : IntType) (a b : ℤ) (hb : t.Holds b) : t.wrap (a + t.wrap (b - a)) = b := by
  rw [wrap_iff]
  refine ⟨hb, ?_⟩
  have h := wrap_modEq t (b - a)
  have := (Int.ModEq.refl a).add h
  rw [add_sub_cancel] at this
  exact this.symm

/-! ## C264 -/

/-- C264: rectangles whose ends fit the type are those of the same numbers as Python integers. -/
theorem C264_rectangles_partial (t : IntType) (coords : List (ℤ × ℤ × ℤ × ℤ)) (shape : ℕ × ℕ)
    (h : ∀ q ∈ coords, t.Holds (q.1 + q.2.2.1) ∧ t.Holds (q.2.1 + q.2.2.2)) : rectanglesI t coords shape = rectangles coords shape := by
  unfold rectanglesI
  congr 1
  conv_rhs => rw [← List.map_id coords]
  apply List.map_congr_left
  intro q hq
  obtain ⟨h1, h2⟩ := h q hq
  obtain ⟨a, b, c, d⟩ := q
  simp only [rectEnds, id] at h1 h2 ⊢
  rw [wrap_of_holds t _ h1, wrap_of_holds t _ h2]
  simp

/-- C264: box is exact in every integer type, although widths may wrap around on the way. -/
theorem C264_box (t : IntType) (shape : ℕ × ℕ) (vEdges : List (ℤ × ℤ)) (hEdges : Option (List (ℤ × ℤ)))
    (values : Option ((ℕ × ℕ) × List ℚ × List ℚ)) (hv : ∀ v ∈ vEdges, t.Holds v.2) (hh : ∀ l, hEdges = some l → ∀ h ∈ l, t.Holds h.2) :
    boxI t shape vEdges hEdges values = box shape vEdges hEdges values := by
  have hh' : ∀ h ∈ hEdges.getD vEdges, t.Holds h.2 := by
    cases hEdges with
    | none => exact hv
    | some l => exact hh l rfl
  unfold boxI box rectanglesI
  simp only
  congr 1
  rw [List.map_flatMap]
  apply List.flatMap_congr
  intro h hm
  rw [List.map_map]
  apply List.map_congr_left
  intro v hm'
  simp only [Function.comp, rectEnds]
  rw [wrap_back t _ _ (hh' h hm), wrap_back t _ _ (hv v hm')]

/-- C264, where the claim fails: the rectangle of rows 200 to 299 and columns 0 to 9, of type uint8 (or of any 8-bit unsigned array), selects
no pixel, for images of every size with at least 201 rows; as Python integers it selects row 200, column 0. -/
theorem C264_lost_refuted (shape : ℕ × ℕ) (h1 : 200 < shape.1) (h2 : 0 < shape.2) :
    (∃ L, rectanglesI (uint 8) [(200, 0, 100, 10)] shape = .ok L ∧ ∀ r c, L r c = 0) ∧
    (∃ L, rectangles [(200, 0, 100, 10)] shape = .ok L ∧ L 200 0 = 1) := by
  have ha : ∀ sel, anyLabelled shape (fun _ _ => 0) sel = false := by
    intro sel; simp [anyLabelled]
  constructor
  · have e : rectEnds (uint 8) (200, 0, 100, 10) = (200, 0, -156, 10) := by decide
    refine ⟨_, by unfold rectanglesI rectangles; simp only [List.map_cons, List.map_nil, e, rectLoop, ha]; rfl, ?_⟩
    intro r c
    have : rectSel shape (200, 0, -156, 10) r c = false := by
      simp [rectSel, inSlice, sliceStart, sliceStop]
      intro h1 h2
      exfalso
      split_ifs at h2 <;> omega
    simp [this]
  · refine ⟨_, by unfold rectangles; simp only [rectLoop, ha]; rfl, ?_⟩
    have : rectSel shape (200, 0, 100, 10) 200 0 = true := by
      simp [rectSel, inSlice, sliceStart, sliceStop]
      constructor
      · split_ifs <;> omega
      · split_ifs <;> omega
    simp [this]

example : (uint 8).Holds (20 + 100) ∧ (sint 16).Holds 1024 := by simp [IntType.Holds, IntType.lo, IntType.hi, uint, sint]

end Verif.Wrap
