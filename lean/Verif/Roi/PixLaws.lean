/- C275: laws of roi_pixel_values and roi_max_counts (skbeam/core/roi.py 301-362). -/
import Verif.Roi.StatProps
import Verif.Roi.MeanLaws

namespace Verif.Roi
open Verif

theorem parts_perm (l : List (ℤ × ℚ)) (M : ℕ) :
    ((List.range M).flatMap (fun k : ℕ => l.filter (fun p => decide (p.1 = (k : ℤ) + 1)))).Perm (l.filter (fun p => decide (0 < p.1 ∧ p.1 ≤ M))) := by
  induction M with
  | zero =>
    rw [List.filter_eq_nil_iff.2]
    · exact List.Perm.refl _
    · intro p _
      simp only [decide_eq_true_eq, not_and, not_le]
      intro h
      exact_mod_cast h
  | succ M ih =>
    rw [List.range_succ, List.flatMap_append, List.flatMap_singleton]
    have h := List.filter_append_perm (fun p : ℤ × ℚ => decide (p.1 ≤ M)) (l.filter (fun p => decide (0 < p.1 ∧ p.1 ≤ ((M + 1 : ℕ) : ℤ))))
    refine List.Perm.trans ?_ h
    rw [List.filter_filter, List.filter_filter]
    apply List.Perm.append
    · refine ih.trans (List.Perm.of_eq ?_)
      apply List.filter_congr
      intro p _
      rw [← Bool.decide_and]
      apply decide_eq_decide.2
      push_cast
      constructor
      · rintro ⟨a, b⟩; exact ⟨b, a, by omega⟩
      · rintro ⟨a, b, _⟩; exact ⟨b, a⟩
    · apply List.Perm.of_eq
      apply List.filter_congr
      intro p _
      rw [← decide_not, ← Bool.decide_and]
      apply decide_eq_decide.2
      push_cast
      constructor
      · intro h; omega
      · rintro ⟨a, b, c⟩; omega

/-! ## C275 -/

/-- C275: by default roi_pixel_values lists every labelled pixel once: its lists together are a rearrangement of the pixels with positive labels. -/
theorem C275_every_pixel_once (img : List ℚ) (labels : List ℤ) (pix : List (List ℚ)) (idx : List ℤ) (h : roiPixelValues img labels none = .ok (pix, idx)) :
    pix.flatten.Perm (Spec.labelled labels img) := by
  unfold roiPixelValues at h
  split_ifs at h with hl
  simp only at h
  cases hm : labels.max? with
  | none => rw [hm] at h; cases h
  | some m =>
    rw [hm] at h
    cases h
    have hmax := (List.max?_eq_some_iff.1 hm).2
    have hp := (parts_perm (labels.zip img) m.toNat).map Prod.snd
    rw [List.map_flatMap] at hp
    have e1 : ((arange1 m).map (select labels img)).flatten =
        (List.range m.toNat).flatMap (fun k : ℕ => ((labels.zip img).filter (fun p => decide (p.1 = (k : ℤ) + 1))).map Prod.snd) := by
      rw [← List.flatMap_def, arange1, List.flatMap_map]
      rfl
    rw [e1]
    refine hp.trans (List.Perm.of_eq ?_)
    unfold Spec.labelled
    congr 1
    apply List.filter_congr
    intro p hpm
    apply decide_eq_decide.2
    have := hmax p.1 (List.of_mem_zip hpm).1
    constructor
    · exact fun h => h.1
    · intro h; exact ⟨h, by omega⟩

/-- C275: what is done to every intensity can be done before or after the selection. -/
theorem C275_map (f : ℚ → ℚ) (img : List ℚ) (labels : List ℤ) (index : Option (List ℤ)) :
    roiPixelValues (img.map f) labels index = (roiPixelValues img labels index).map (fun r => (r.1.map (List.map f), r.2)) := by
  have hs : select labels (img.map f) = fun n => (select labels img n).map f := funext (fun n => select_map_values labels img f n)
  unfold roiPixelValues
  rw [List.length_map]
  split_ifs
  · rfl
  · cases index with
    | some idx => simp only [Except.map, hs, List.map_map]; rfl
    | none =>
      simp only
      cases labels.max? with
      | none => rfl
      | some m => simp only [Except.map, hs, List.map_map]; rfl

theorem maxStep_max (labels : List ℤ) (imgs : List (List ℚ)) (m : ℚ) : ∀ cur : Py ℚ,
    imgs.foldl (maxStep labels) (cur.map (max m)) = (imgs.foldl (maxStep labels) cur).map (max m) := by
  induction imgs with
  | nil => intro cur; rfl
  | cons img t ih =>
    intro cur
    rw [List.foldl_cons, List.foldl_cons, ← ih]
    congr 1
    cases cur with
    | error e => rfl
    | ok c =>
      simp only [Except.map, maxStep]
      cases ((labels.zip img).filter (fun p => decide (0 < p.1))).map Prod.snd |>.max? with
      | none => rfl
      | some x => simp only [max_assoc]

theorem maxStep_error (labels : List ℤ) (imgs : List (List ℚ)) (e : PyErr) : imgs.foldl (maxStep labels) (.error e) = .error e := by
  induction imgs with
  | nil => rfl
  | cons img t ih => rw [List.foldl_cons]; exact ih

theorem roiMax_flat (sets : List (List (List ℚ))) (labels : List ℤ) : roiMaxCounts sets labels = sets.flatten.foldl (maxStep labels) (.ok 0) := by
  unfold roiMaxCounts
  rw [List.foldl_flatten]

theorem roiMax_ge (labels : List ℤ) (imgs : List (List ℚ)) : ∀ c m : ℚ, imgs.foldl (maxStep labels) (.ok c) = .ok m → c ≤ m := by
  induction imgs with
  | nil => intro c m h; cases h; exact le_refl _
  | cons img t ih =>
    intro c m h
    rw [List.foldl_cons] at h
    unfold maxStep at h
    simp only at h
    cases hx : (((labels.zip img).filter (fun p => decide (0 < p.1))).map Prod.snd).max? with
    | none =>
      rw [hx] at h
      have := maxStep_error labels t .valueError
      unfold maxStep at this
      rw [this] at h
      cases h
    | some x =>
      rw [hx] at h
      exact (le_max_left c x).trans (ih (max c x) m h)

/-- C275: the largest count of more sets of images is the larger one of the largest counts. -/
theorem C275_more_sets (A B : List (List (List ℚ))) (labels : List ℤ) (a b : ℚ) (ha : roiMaxCounts A labels = .ok a) (hb : roiMaxCounts B labels = .ok b) :
    roiMaxCounts (A ++ B) labels = .ok (max a b) := by
  rw [roiMax_flat] at ha hb ⊢
  rw [List.flatten_append, List.foldl_append, ha]
  have h := maxStep_max labels B.flatten a (.ok 0)
  rw [hb] at h
  have h0 := roiMax_ge labels A.flatten 0 a ha
  simp only [Except.map, max_eq_left h0] at h
  exact h

/-- C275: how the images are grouped into sets does not matter. -/
theorem C275_grouping (A B : List (List (List ℚ))) (labels : List ℤ) (h : A.flatten = B.flatten) : roiMaxCounts A labels = roiMaxCounts B labels := by
  rw [roiMax_flat, roiMax_flat, h]

/-- Instance: two regions and the background. -/
example : roiPixelValues [5, 6, 7, 8] [2, 0, 1, 2] none = .ok ([[7], [5, 8]], [1, 2]) ∧ Spec.labelled [2, 0, 1, 2] [5, 6, 7, 8] = [5, 7, 8] := by decide +kernel

end Verif.Roi
