/- C269: laws of trim, define_range (skbeam/core/fitting/xrf_model.py 1140-1195). -/
import Verif.Xrf.FitProps

namespace Verif.Xrf
open Verif

theorem zip_map_fst_snd {α β : Type} (l : List (α × β)) : (l.map Prod.fst).zip (l.map Prod.snd) = l := by
  rw [List.zip_map', List.map_congr_left (g := id) (by rintro ⟨a, b⟩ _; rfl), List.map_id]

/-! ## C269 -/

/-- C269: trimming twice is trimming once to the common range. -/
theorem C269_trim_twice {α : Type} (x : List ℚ) (y : List α) (low high low' high' : ℚ) :
    (trim x y low high >>= fun r => trim r.1 r.2 low' high') = trim x y (max low low') (min high high') := by
  unfold trim
  split_ifs with h
  · rfl
  · simp only [bind, Except.bind, List.length_map, ne_eq, not_true_eq_false, if_false, zip_map_fst_snd, List.filter_filter]
    have : (x.zip y).filter (fun p => decide (low' ≤ p.1 ∧ p.1 ≤ high') && decide (low ≤ p.1 ∧ p.1 ≤ high)) =
        (x.zip y).filter (fun p => decide (max low low' ≤ p.1 ∧ p.1 ≤ min high high')) := by
      apply List.filter_congr
      intro p _
      rw [← Bool.decide_and]
      apply decide_eq_decide.2
      rw [max_le_iff, le_min_iff]
      tauto
    rw [this]

/-- C269: trimming again to the same range changes nothing. -/
theorem C269_trim_again {α : Type} (x : List ℚ) (y : List α) (low high : ℚ) :
    (trim x y low high >>= fun r => trim r.1 r.2 low high) = trim x y low high := by
  rw [C269_trim_twice, max_self, min_self]

/-- C269: spectra can be trimmed in pieces. -/
theorem C269_trim_pieces {α : Type} (x x' : List ℚ) (y y' : List α) (low high : ℚ) (xs xs' : List ℚ) (ys ys' : List α)
    (h : trim x y low high = .ok (xs, ys)) (h' : trim x' y' low high = .ok (xs', ys')) :
    trim (x ++ x') (y ++ y') low high = .ok (xs ++ xs', ys ++ ys') := by
  unfold trim at h h' ⊢
  split_ifs at h with h1
  split_ifs at h' with h2
  rw [not_not] at h1 h2
  cases h; cases h'
  rw [if_neg (by simp [h1, h2])]
  simp only [List.zip_append h1, List.filter_append, List.map_append]

/-- C269: what is done to every intensity can be done before or after the trimming. -/
theorem C269_trim_map {α β : Type} (f : α → β) (x : List ℚ) (y : List α) (low high : ℚ) :
    trim x (y.map f) low high = (trim x y low high).map (fun r => (r.1, r.2.map f)) := by
  unfold trim
  rw [List.length_map]
  split_ifs with h
  · rfl
  · simp only [Except.map]
    rw [List.zip_map_right, List.filter_map]
    simp only [List.map_map]
    rfl

theorem roundEven_mono {q q' : ℚ} (h : q ≤ q') : roundEven q ≤ roundEven q' := by
  rcases (Int.floor_mono h).eq_or_lt with he | hl
  · unfold roundEven
    rw [he]
    split_ifs <;> first | omega | (exfalso; linarith)
  · have h1 : roundEven q ≤ ⌊q⌋ + 1 := by unfold roundEven; split_ifs <;> omega
    have h2 : ⌊q'⌋ ≤ roundEven q' := by unfold roundEven; split_ifs <;> omega
    omega

/-- C269: a wider range of energies keeps at least the same channels, with the same data, in the same order. -/
theorem C269_wider {α : Type} (data : List α) (low high low' high' a0 a1 : ℚ) (ha : 0 < a1) (hl : low' ≤ low) (hh : high ≤ high')
    (xs xs' : List ℚ) (ys ys' : List α) (h : defineRange data low high a0 a1 = .ok (xs, ys)) (h' : defineRange data low' high' a0 a1 = .ok (xs', ys')) :
    (xs.zip ys).Sublist (xs'.zip ys') := by
  unfold defineRange at h h'
  rw [if_neg ha.ne'] at h h'
  unfold trim at h h'
  rw [if_neg (by simp)] at h h'
  cases h; cases h'
  rw [zip_map_fst_snd, zip_map_fst_snd]
  apply List.monotone_filter_right
  intro p hp
  have hp := of_decide_eq_true hp
  have e1 : roundEven ((low' - a0) / a1) ≤ roundEven ((low - a0) / a1) := roundEven_mono (div_le_div_of_nonneg_right (by linarith) ha.le)
  have e2 : roundEven ((high - a0) / a1) ≤ roundEven ((high' - a0) / a1) := roundEven_mono (div_le_div_of_nonneg_right (by linarith) ha.le)
  have e1' : ((roundEven ((low' - a0) / a1) : ℤ) : ℚ) ≤ (roundEven ((low - a0) / a1) : ℤ) := by exact_mod_cast e1
  have e2' : ((roundEven ((high - a0) / a1) : ℤ) : ℚ) ≤ (roundEven ((high' - a0) / a1) : ℤ) := by exact_mod_cast e2
  exact decide_eq_true ⟨e1'.trans hp.1, hp.2.trans e2'⟩

/-- C269: ranges that meet cover the whole: a channel kept from low to high is kept from low to mid or from mid to high. -/
theorem C269_cover {α : Type} (data : List α) (low mid high a0 a1 : ℚ) (ha : 0 < a1)
    (xs xl xr : List ℚ) (ys yl yr : List α) (h : defineRange data low high a0 a1 = .ok (xs, ys))
    (hl : defineRange data low mid a0 a1 = .ok (xl, yl)) (hr : defineRange data mid high a0 a1 = .ok (xr, yr)) :
    ∀ p ∈ xs.zip ys, p ∈ xl.zip yl ∨ p ∈ xr.zip yr := by
  unfold defineRange at h hl hr
  rw [if_neg ha.ne'] at h hl hr
  unfold trim at h hl hr
  rw [if_neg (by simp)] at h hl hr
  cases h; cases hl; cases hr
  rw [zip_map_fst_snd, zip_map_fst_snd, zip_map_fst_snd]
  intro p hp
  obtain ⟨h1, h2⟩ := List.mem_filter.1 hp
  have h2 := of_decide_eq_true h2
  rcases le_total p.1 (roundEven ((mid - a0) / a1) : ℤ) with hm | hm
  · exact Or.inl (List.mem_filter.2 ⟨h1, decide_eq_true ⟨h2.1, hm⟩⟩)
  · exact Or.inr (List.mem_filter.2 ⟨h1, decide_eq_true ⟨hm, h2.2⟩⟩)

/-- Instance: 10 channels of 1/10 keV. -/
example : defineRange [5, 6, 7, 8, 9, 10, 11, 12, 13, 14] (1 / 5) (1 / 2) 0 (1 / 10) = .ok ([2, 3, 4, 5], [7, 8, 9, 10]) := by decide +kernel

end Verif.Xrf
