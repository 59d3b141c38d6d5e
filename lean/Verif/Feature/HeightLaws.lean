/- C279: laws of filter_peak_height (skbeam/core/feature.py 257-293). -/
import Verif.Feature.Props

namespace Verif.Feature
open Verif

variable {α : Type} [Field α] [LinearOrder α] [IsStrictOrderedRing α]

theorem sub_range (y : List α) (cands a : List ℕ) (hc : ∀ c ∈ cands, c < y.length) (p : ℕ → Bool) (ha : a = cands.filter p) : ∀ c ∈ a, c < y.length := by
  subst ha
  exact fun c h => hc c (List.mem_of_mem_filter h)

theorem tall_max (y : List α) (w : ℕ) (t t' : α) (c : ℕ) (h : Spec.Tall y w t c) (h' : Spec.Tall y w t' c) : Spec.Tall y w (max t t') c := by
  rcases le_total t t' with e | e
  · rwa [max_eq_right e]
  · rwa [max_eq_left e]

theorem tall_mono (y : List α) (w w' : ℕ) (hw : w ≤ w') (t t' : α) (ht : t' ≤ t) (c : ℕ) (h : Spec.Tall y w t c) : Spec.Tall y w' t' c := by
  obtain ⟨i, j, vi, vj, h1, h2, h3, h4, h5, h6, h7⟩ := h
  exact ⟨i, j, vi, vj, by omega, by omega, h3, by omega, by omega, h6, ht.trans_lt h7⟩

/-! ## C279 -/

/-- C279: filtering with two thresholds, one after the other, is filtering with the larger one; in particular filtering again changes nothing. -/
theorem C279_twice (y : List α) (t t' : α) (w : ℕ) (cands a : List ℕ) (hc : ∀ c ∈ cands, c < y.length) (h : filterPeakHeight y t w cands = .ok a) :
    filterPeakHeight y t' w a = filterPeakHeight y (max t t') w cands := by
  classical
  rw [C57_peak_height y t w cands hc, Except.ok.injEq] at h
  rw [C57_peak_height y t' w a (sub_range y cands a hc _ h.symm), C57_peak_height y _ w cands hc, ← h, List.filter_filter]
  congr 1
  apply List.filter_congr
  intro c _
  rw [← Bool.decide_and]
  apply decide_eq_decide.2
  constructor
  · rintro ⟨h1, h2⟩; exact tall_max y w t t' c h2 h1
  · intro hm; exact ⟨tall_mono y w w le_rfl _ _ (le_max_right _ _) c hm, tall_mono y w w le_rfl _ _ (le_max_left _ _) c hm⟩

/-- C279: filters with different windows and thresholds can be applied in either order. -/
theorem C279_either_order (y : List α) (t t' : α) (w w' : ℕ) (cands a b : List ℕ) (hc : ∀ c ∈ cands, c < y.length) (ha : filterPeakHeight y t w cands = .ok a)
    (hb : filterPeakHeight y t' w' cands = .ok b) : filterPeakHeight y t' w' a = filterPeakHeight y t w b := by
  classical
  rw [C57_peak_height y t w cands hc, Except.ok.injEq] at ha
  rw [C57_peak_height y t' w' cands hc, Except.ok.injEq] at hb
  rw [C57_peak_height y t' w' a (sub_range y cands a hc _ ha.symm), C57_peak_height y t w b (sub_range y cands b hc _ hb.symm), ← ha, ← hb, List.filter_comm]

/-- C279: a wider window or a lower threshold keeps every peak that is kept, in the same order. -/
theorem C279_wider (y : List α) (t t' : α) (ht : t' ≤ t) (w w' : ℕ) (hw : w ≤ w') (cands a b : List ℕ) (hc : ∀ c ∈ cands, c < y.length)
    (ha : filterPeakHeight y t w cands = .ok a) (hb : filterPeakHeight y t' w' cands = .ok b) : a.Sublist b := by
  classical
  rw [C57_peak_height y t w cands hc, Except.ok.injEq] at ha
  rw [C57_peak_height y t' w' cands hc, Except.ok.injEq] at hb
  rw [← ha, ← hb]
  apply List.monotone_filter_right
  intro c hcd
  rw [decide_eq_true_eq] at hcd ⊢
  exact tall_mono y w w' hw t t' ht c hcd

/-- C279: unit and offset of the data do not matter if the threshold is converted, and neither does the sign: dips are treated as peaks. -/
theorem C279_unit (y : List α) (t s d : α) (hs : s ≠ 0) (w : ℕ) (cands : List ℕ) (hc : ∀ c ∈ cands, c < y.length) :
    filterPeakHeight (y.map (fun v => s * v + d)) (|s| * t) w cands = filterPeakHeight y t w cands := by
  classical
  rw [C57_peak_height _ _ w cands (by simpa using hc), C57_peak_height y t w cands hc]
  congr 1
  apply List.filter_congr
  intro c _
  apply decide_eq_decide.2
  have hp : 0 < |s| := abs_pos.2 hs
  have hget : ∀ (i : ℕ) (v : α), (y.map (fun v => s * v + d))[i]? = some v ↔ ∃ u, y[i]? = some u ∧ s * u + d = v := by
    intro i v
    rw [List.getElem?_map, Option.map_eq_some_iff]
  constructor
  · rintro ⟨i, j, vi, vj, h1, h2, h3, h4, h5, h6, h7⟩
    obtain ⟨ui, hi, rfl⟩ := (hget i vi).1 h3
    obtain ⟨uj, hj, rfl⟩ := (hget j vj).1 h6
    rcases lt_or_gt_of_ne hs with hn | hpos
    · refine ⟨j, i, uj, ui, h4, h5, hj, h1, h2, hi, ?_⟩
      rw [abs_of_neg hn] at h7 hp
      exact lt_of_mul_lt_mul_left (by linarith : -s * t < -s * (uj - ui)) hp.le
    · refine ⟨i, j, ui, uj, h1, h2, hi, h4, h5, hj, ?_⟩
      rw [abs_of_pos hpos] at h7 hp
      exact lt_of_mul_lt_mul_left (by linarith : s * t < s * (ui - uj)) hp.le
  · rintro ⟨i, j, ui, uj, h1, h2, hi, h4, h5, hj, h7⟩
    have hm := mul_lt_mul_of_pos_left h7 hp
    rcases lt_or_gt_of_ne hs with hn | hpos
    · refine ⟨j, i, _, _, h4, h5, (hget j _).2 ⟨uj, hj, rfl⟩, h1, h2, (hget i _).2 ⟨ui, hi, rfl⟩, ?_⟩
      rw [abs_of_neg hn] at hm ⊢
      linarith
    · refine ⟨i, j, _, _, h1, h2, (hget i _).2 ⟨ui, hi, rfl⟩, h4, h5, (hget j _).2 ⟨uj, hj, rfl⟩, ?_⟩
      rw [abs_of_pos hpos] at hm ⊢
      linarith

/-- C279: candidates can be filtered in parts. -/
theorem C279_parts (y : List α) (t : α) (w : ℕ) (A B a b : List ℕ) (hA : filterPeakHeight y t w A = .ok a) (hB : filterPeakHeight y t w B = .ok b) :
    filterPeakHeight y t w (A ++ B) = .ok (a ++ b) := by
  induction A generalizing a with
  | nil => cases hA; exact hB
  | cons c rest ih =>
    rw [List.cons_append]
    unfold filterPeakHeight at hA ⊢
    cases hp : ptp (windowSlice y c w) with
    | error e => rw [hp] at hA; cases hA
    | ok p =>
      rw [hp] at hA
      cases hr : filterPeakHeight y t w rest with
      | error e => rw [hr] at hA; cases hA
      | ok o =>
        rw [hr] at hA
        cases hA
        rw [ih o hr]
        simp only
        split_ifs <;> rfl

/-- Instance: two thresholds and two windows. -/
example : filterPeakHeight [0, 5, 1, 2, 1, 0, 9] 3 1 [0, 3, 6] = .ok [0, 6] ∧ filterPeakHeight [0, 5, 1, 2, 1, 0, 9] 3 2 [0, 3, 6] = .ok [0, 3, 6] ∧
    filterPeakHeight [0, 5, 1, 2, 1, 0, 9] 6 1 [0, 6] = .ok [6] := by decide +kernel

end Verif.Feature
