/- C256: bin_edges_to_centers with integer edges, whose sums wrap around (skbeam/core/utils.py 956-973). -/
import Verif.Wrap.Model
import Verif.Utils.Model
import Mathlib.Data.List.GetD

namespace Verif.Wrap
open Verif

/-- `bin_edges_to_centers`, utils.py 972-973, for edges of integer type `t`: the sum is formed in the type, the half of it in floating point
(exact for the types up to 32 bits). -/
def centersI (t : IntType) (e : List ℤ) : List ℚ := List.zipWith (fun a b : ℤ => ((t.wrap (a + b) : ℤ) : ℚ) * (1 / 2)) e.dropLast e.tail

/-! ## C256 -/

/-- C256: where the sums of neighbouring edges fit the type the centres are those of the same numbers. -/
theorem C256_exact_partial (t : IntType) (e : List ℤ) (h : ∀ i, i + 1 < e.length → t.Holds (e.getD i 0 + e.getD (i + 1) 0)) :
    centersI t e = Utils.binEdgesToCenters (e.map (fun z : ℤ => (z : ℚ))) := by
  unfold centersI Utils.binEdgesToCenters
  apply List.ext_getElem
  · simp
  intro i h1 h2
  simp only [List.length_zipWith, List.length_dropLast, List.length_tail, lt_min_iff] at h1
  have hi := h i (by omega)
  rw [List.getD_eq_getElem _ _ (by omega), List.getD_eq_getElem _ _ (by omega)] at hi
  simp only [List.getElem_zipWith, List.getElem_dropLast, List.getElem_tail, List.getElem_map, wrap_of_holds t _ hi]
  push_cast
  rfl

/-- C256: in particular when no edge is larger than half the largest number of the type. -/
theorem C256_half_range_partial (t : IntType) (e : List ℤ) (h : ∀ v ∈ e, t.lo ≤ 2 * v ∧ 2 * v ≤ t.hi) :
    centersI t e = Utils.binEdgesToCenters (e.map (fun z : ℤ => (z : ℚ))) := by
  apply C256_exact_partial
  intro i hi
  rw [List.getD_eq_getElem _ _ (by omega), List.getD_eq_getElem _ _ (by omega)]
  have h1 := h _ (List.getElem_mem (show i < e.length by omega))
  have h2 := h _ (List.getElem_mem hi)
  constructor <;> omega

/-- C256 fails beyond: the centre of a bin whose edges add up to more than the largest number of the type lies left of the bin. -/
theorem C256_overflow_refuted (t : IntType) (e : List ℤ) (hv : ∀ v ∈ e, t.Holds v) (i : ℕ) (hi : i + 1 < e.length) (h : t.hi < e.getD i 0 + e.getD (i + 1) 0) :
    ∃ c, (centersI t e)[i]? = some c ∧ c < (e.getD i 0 : ℚ) := by
  have h1 := hv _ (List.getElem_mem (show i < e.length by omega))
  have h2 := hv _ (List.getElem_mem hi)
  rw [List.getD_eq_getElem _ _ (by omega), List.getD_eq_getElem _ _ (by omega)] at h
  have hw : t.wrap (e[i] + e[i + 1]) = e[i] + e[i + 1] - 2 ^ t.bits := by
    rw [wrap_iff]
    have h3 := hi_eq t
    have h4 : t.lo ≤ 0 := by unfold IntType.lo; split_ifs <;> simp
    obtain ⟨h5, h6⟩ := h1
    obtain ⟨h7, h8⟩ := h2
    refine ⟨⟨by omega, ?_⟩, ?_⟩
    · have : t.hi ≤ 2 ^ t.bits := by omega
      omega
    · exact (Int.modEq_iff_dvd.2 ⟨1, by ring⟩)
  refine ⟨((t.wrap (e[i] + e[i + 1]) : ℤ) : ℚ) * (1 / 2), ?_, ?_⟩
  · unfold centersI
    rw [List.getElem?_eq_getElem (by simp; omega)]
    simp
  · rw [List.getD_eq_getElem _ _ (by omega), hw]
    have h3 := hi_eq t
    obtain ⟨h5, h6⟩ := h1
    obtain ⟨h7, h8⟩ := h2
    have : e[i] + e[i + 1] - 2 ^ t.bits < 2 * e[i] := by omega
    have : ((e[i] + e[i + 1] - 2 ^ t.bits : ℤ) : ℚ) < ((2 * e[i] : ℤ) : ℚ) := by exact_mod_cast this
    push_cast at this ⊢
    linarith

/-- Edges 0 100 200 as 8-bit numbers: centres 50 and 22. -/
example : centersI (uint 8 (by norm_num)) [0, 100, 200] = [50, 22] := by decide +kernel

example : ∃ c, (centersI (uint 8 (by norm_num)) [0, 100, 200])[1]? = some c ∧ c < 100 := by
  have := C256_overflow_refuted (uint 8 (by norm_num)) [0, 100, 200] (by simp [IntType.Holds, IntType.lo, IntType.hi, uint]) 1 (by simp) (by simp [IntType.hi, uint])
  simpa using this

example : centersI (uint 8 (by norm_num)) [0, 50, 100] = [25, 75] := by decide +kernel

end Verif.Wrap
