import Verif.Corr.Model
import Mathlib.Data.List.Basic
import Mathlib.Data.List.Induction
import Mathlib.Data.List.Pairwise
import Mathlib.Tactic.Linarith

namespace Verif.Corr
open Verif

theorem mem_insU (x y : ℤ) (l : List ℤ) : y ∈ insU x l ↔ y = x ∨ y ∈ l := by
  induction l with
  | nil => simp [insU]
  | cons a t ih =>
    simp only [insU]
    split
    · simp
    · split
      · next h => subst h; simp
      · simp only [List.mem_cons, ih]; tauto

theorem sorted_insU (x : ℤ) (l : List ℤ) (h : l.Pairwise (· < ·)) : (insU x l).Pairwise (· < ·) := by
  induction l with
  | nil => simp [insU]
  | cons a t ih =>
    rw [List.pairwise_cons] at h
    simp only [insU]
    split
    · next hx =>
      rw [List.pairwise_cons]
      refine ⟨?_, List.pairwise_cons.2 h⟩
      intro b hb
      rcases List.mem_cons.1 hb with rfl | hb
      · exact hx
      · exact hx.trans (h.1 b hb)
    · split
      · exact List.pairwise_cons.2 h
      · next h1 h2 =>
        rw [List.pairwise_cons]
        refine ⟨?_, ih h.2⟩
        intro b hb
        rcases (mem_insU x b t).1 hb with rfl | hb
        · omega
        · exact h.1 b hb

theorem mem_unique (l : List ℤ) (x : ℤ) : x ∈ unique l ↔ x ∈ l := by
  unfold unique
  induction l with
  | nil => simp
  | cons a t ih => rw [List.foldr_cons, mem_insU, ih]; simp

theorem sorted_unique (l : List ℤ) : (unique l).Pairwise (· < ·) := by
  unfold unique
  induction l with
  | nil => simp
  | cons a t ih => rw [List.foldr_cons]; exact sorted_insU a _ ih

/-- The effect of the remapping loop on one element. -/
def loopFn : List (ℤ × ℕ) → ℤ → ℤ
  | [], x => x
  | (l, k) :: t, x => loopFn t (if x = l then (k : ℤ) else x)

theorem remapLoop_eq (ps : List (ℤ × ℕ)) (arr : List ℤ) : remapLoop ps arr = arr.map (loopFn ps) := by
  induction ps generalizing arr with
  | nil => simp [remapLoop, loopFn]
  | cons p t ih => obtain ⟨l, k⟩ := p; simp only [remapLoop, ih, List.map_map]; rfl

theorem loopFn_notMem (us : List ℤ) (s : ℕ) (x : ℤ) (h : x ∉ us) : loopFn (us.zipIdx s) x = x := by
  induction us generalizing s with
  | nil => rfl
  | cons a t ih =>
    simp only [List.mem_cons, not_or] at h
    simp only [List.zipIdx_cons, loopFn, h.1, if_false]
    exact ih (s + 1) h.2

theorem loopFn_get (us : List ℤ) (s : ℕ) (hs : us.Pairwise (· < ·)) (hb : ∀ x ∈ us, (s : ℤ) ≤ x) (j : ℕ)
    (hj : j < us.length) : loopFn (us.zipIdx s) us[j] = ((s + j : ℕ) : ℤ) := by
  induction us generalizing s j with
  | nil => simp at hj
  | cons a t ih =>
    rw [List.pairwise_cons] at hs
    simp only [List.zipIdx_cons, loopFn]
    have ha : (s : ℤ) ≤ a := hb a (by simp)
    cases j with
    | zero =>
      simp only [List.getElem_cons_zero, if_true]
      rw [loopFn_notMem]
      · simp
      · intro hm; have := hs.1 _ hm; omega
    | succ j =>
      simp only [List.getElem_cons_succ]
      simp only [List.length_cons, Nat.add_lt_add_iff_right] at hj
      have hlt := hs.1 t[j] (List.getElem_mem hj)
      rw [if_neg (by omega), ih (s + 1) hs.2 (fun x hx => by have := hs.1 x hx; push_cast; omega) j hj]
      congr 1; omega

theorem remap_get (arr : List ℤ) (hpos : ∀ x ∈ arr, 0 < x) (j : ℕ) (hj : j < (unique arr).length) (k : ℕ)
    (h : arr[k]? = some (unique arr)[j]) : (remap arr)[k]? = some ((j + 1 : ℕ) : ℤ) := by
  unfold remap
  rw [remapLoop_eq, List.getElem?_map, h, Option.map_some,
    loopFn_get _ 1 (sorted_unique arr) (fun x hx => by
      have := hpos x ((mem_unique arr x).1 hx); push_cast; omega) j hj]
  congr 2; omega

theorem length_remap (arr : List ℤ) : (remap arr).length = arr.length := by
  unfold remap; rw [remapLoop_eq]; simp

theorem filter_pos_getElem (labels : List ℤ) :
    (extractLabelIndices labels).2.map (fun q => labels[q]?) = (extractLabelIndices labels).1.map some := by
  unfold extractLabelIndices
  simp only []
  induction labels using List.reverseRecOn with
  | nil => simp
  | append_singleton t a ih =>
    rw [List.length_append, List.length_singleton, List.range_succ, List.filter_append, List.filter_append,
      List.map_append, List.map_append]
    congr 1
    · rw [← ih]
      have e : (List.range t.length).filter (posAt (t ++ [a])) = (List.range t.length).filter (posAt t) := by
        apply List.filter_congr
        intro k hk
        unfold posAt
        rw [List.getElem?_append_left (by simpa using hk)]
      rw [e]
      apply List.map_congr_left
      intro k hk
      rw [List.mem_filter, List.mem_range] at hk
      rw [List.getElem?_append_left hk.1]
    · by_cases ha : 0 < a <;> simp [ha, posAt]

end Verif.Corr
