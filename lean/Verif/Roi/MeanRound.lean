/- mean_intensity (skbeam/core/roi.py) in floating-point arithmetic (C227). -/
import Verif.Roi.AvgRound

namespace Verif.Roi.Rnd
open Verif Verif.Fl

/-! ### Model -/

section model
variable (fl : ℚ → ℚ)

/-- `ndimage.mean` of one label: `np.bincount` adds the pixels of the label one by one, in the order of the array, and the sum is divided
by their number; NaN (none) when there is none. -/
def labelMean (labels : List ℤ) (img : List ℚ) (n : ℤ) : Option ℚ :=
  let v := select labels img n
  if v = [] then none else some (fl (v.foldl (fun c x => fl (c + x)) 0 / v.length))

/-- `mean_intensity`, roi.py:391-410. -/
def meanIntensity (images : List (List ℚ)) (labels : List ℤ) (index : Option (List ℤ)) : Py (List (List (Option ℚ)) × List ℤ) :=
  match images with
  | [] => .error .indexError
  | img0 :: _ =>
    if labels.length ≠ img0.length then .error .valueError
    else match chooseIndex labels index with
      | .error e => .error e
      | .ok idx => .ok (images.map (fun img => idx.map (labelMean fl labels img)), idx)
end model

/-! ### Specification -/

/-- The mean of a list of numbers. -/
def Spec.mean (l : List ℚ) : ℚ := l.sum / l.length

variable {u : ℚ} {fl : ℚ → ℚ}

/-- C227, the call: the same exception as in exact arithmetic, or the same index and for every image and every label of the index a number
exactly when the label has a pixel. -/
theorem C227_call (fl : ℚ → ℚ) (labels : List ℤ) (images : List (List ℚ)) (hsize : ∀ img ∈ images, img.length = labels.length) (index : Option (List ℤ)) :
    match meanIntensity fl images labels index, Roi.meanIntensity images labels index with
    | .ok (t, idx), .ok (_, idx') => idx = idx' ∧ t.length = images.length ∧ ∀ (i j : ℕ) img n, images[i]? = some img → idx[j]? = some n →
        ∃ row x, t[i]? = some row ∧ row[j]? = some x ∧ x = labelMean fl labels img n ∧ (x = none ↔ n ∉ labels)
    | .error e, .error e' => e = e'
    | _, _ => False := by
  unfold meanIntensity Roi.meanIntensity
  cases images with
  | nil => simp
  | cons img0 rest =>
    simp only []
    by_cases h : labels.length ≠ img0.length
    · rw [if_pos h, if_pos h]
    · rw [if_neg h, if_neg h]
      cases chooseIndex labels index with
      | error e => simp
      | ok idx =>
        simp only []
        refine ⟨trivial, by simp, ?_⟩
        intro i j img n hi hj
        refine ⟨idx.map (labelMean fl labels img), labelMean fl labels img n, by rw [List.getElem?_map, hi]; rfl, by rw [List.getElem?_map, hj]; rfl, rfl, ?_⟩
        have hlen := hsize img (List.mem_of_getElem? hi)
        have : select labels img n = [] ↔ n ∉ labels := by
          unfold select
          rw [List.map_eq_nil_iff, List.filter_eq_nil_iff]
          constructor
          · intro hh hm
            obtain ⟨k, hk, rfl⟩ := List.getElem_of_mem hm
            have : (labels[k], img[k]) ∈ labels.zip img := by
              rw [← List.getElem_zip (h := by simp; omega)]
              exact List.getElem_mem _
            exact hh _ this (by simp)
          · rintro hn ⟨a, b⟩ hp hd
            simp only [decide_eq_true_eq] at hd
            exact hn (hd ▸ (List.of_mem_zip hp).1)
        unfold labelMean
        simp only []
        by_cases hv : select labels img n = []
        · rw [if_pos hv]; simp [this.1 hv]
        · rw [if_neg hv]; simp only [reduceCtorEq, false_iff]; exact fun h => hv (this.2 h)

/-- C227, accuracy and locality.  For every rounding with relative error at most u the mean of a label with m pixels differs from the exact
mean of these pixels by at most (1+u)^(m+1) - 1 times the mean of their absolute values, which for pixels that are not negative is a
relative error; pixels with other labels have no influence. -/
theorem C227_error_partial (hr : Fl.Spec.Rel u fl) (labels : List ℤ) (img : List ℚ) (h : labels.length = img.length) (n : ℤ) (hn : n ∈ labels) :
    ∃ x, labelMean fl labels img n = some x ∧
      |x - Spec.mean (Roi.Spec.roiValues labels img n)| ≤ ((1 + u) ^ ((Roi.Spec.roiValues labels img n).length + 1) - 1) * Spec.mean ((Roi.Spec.roiValues labels img n).map (fun x => |x|)) ∧
      ((∀ y ∈ Roi.Spec.roiValues labels img n, 0 ≤ y) →
        |x - Spec.mean (Roi.Spec.roiValues labels img n)| ≤ ((1 + u) ^ ((Roi.Spec.roiValues labels img n).length + 1) - 1) * Spec.mean (Roi.Spec.roiValues labels img n)) ∧
      ∀ img', labels.length = img'.length → Roi.Spec.roiValues labels img' n = Roi.Spec.roiValues labels img n → labelMean fl labels img' n = some x := by
  have hse := select_eq labels img h n
  have hne : Roi.Spec.roiValues labels img n ≠ [] := by
    intro he
    rw [← hse] at he
    unfold select at he
    rw [List.map_eq_nil_iff, List.filter_eq_nil_iff] at he
    obtain ⟨k, hk, rfl⟩ := List.getElem_of_mem hn
    have : (labels[k], img[k]) ∈ labels.zip img := by
      rw [← List.getElem_zip (h := by simp; omega)]
      exact List.getElem_mem _
    exact he _ this (by simp)
  set v := Roi.Spec.roiValues labels img n with hv
  have hpos : (0 : ℚ) < v.length := by exact_mod_cast List.length_pos_iff.2 hne
  have herr : |fl (run fl 0 v / v.length) - Spec.mean v| ≤ ((1 + u) ^ (v.length + 1) - 1) * Spec.mean (v.map (fun x => |x|)) := by
    have h1 := run_near hr v
    have h2 : Near u v.length (run fl 0 v / v.length) (v.sum / v.length) (Spec.size v / v.length) := by
      refine ⟨?_, ?_⟩
      · rw [← sub_div, abs_div, abs_of_pos hpos, ← mul_div_assoc]
        exact div_le_div_of_nonneg_right h1.1 hpos.le
      · rw [abs_div, abs_of_pos hpos]
        exact div_le_div_of_nonneg_right h1.2 hpos.le
    have h3 := (h2.round hr).1
    unfold Spec.mean
    rw [List.length_map]
    exact h3
  refine ⟨fl (run fl 0 v / v.length), ?_, herr, ?_, ?_⟩
  · unfold labelMean
    simp only []
    rw [hse, if_neg hne]
  · intro hnn
    have : v.map (fun x => |x|) = v := by
      conv_rhs => rw [← List.map_id v]
      exact List.map_congr_left (fun x hx => abs_of_nonneg (hnn x hx))
    rwa [this] at herr
  · intro img' h' he
    unfold labelMean
    simp only []
    rw [select_eq labels img' h' n, he, if_neg hne]

/-- C227, counts of photons: whole numbers whose absolute values sum to at most N, where whole numbers up to N are exact: the mean is the exact
one rounded once, and lies between any two floating-point numbers that bound the pixels of the label. -/
theorem C227_whole {N : ℕ} (hw : Spec.WholeExact N fl) (hc : Fl.Spec.Correct fl) (labels : List ℤ) (img : List ℚ) (h : labels.length = img.length) (n : ℤ)
    (hn : n ∈ labels) (hi : ∀ x ∈ Roi.Spec.roiValues labels img n, ∃ z : ℤ, x = z) (hN : Spec.size (Roi.Spec.roiValues labels img n) ≤ N) :
    labelMean fl labels img n = some (fl (Spec.mean (Roi.Spec.roiValues labels img n))) ∧
    ∀ lo hi, fl lo = lo → fl hi = hi → (∀ x ∈ Roi.Spec.roiValues labels img n, lo ≤ x ∧ x ≤ hi) →
      lo ≤ fl (Spec.mean (Roi.Spec.roiValues labels img n)) ∧ fl (Spec.mean (Roi.Spec.roiValues labels img n)) ≤ hi := by
  have hse := select_eq labels img h n
  have hne : Roi.Spec.roiValues labels img n ≠ [] := by
    intro he
    rw [← hse] at he
    unfold select at he
    rw [List.map_eq_nil_iff, List.filter_eq_nil_iff] at he
    obtain ⟨k, hk, rfl⟩ := List.getElem_of_mem hn
    have : (labels[k], img[k]) ∈ labels.zip img := by
      rw [← List.getElem_zip (h := by simp; omega)]
      exact List.getElem_mem _
    exact he _ this (by simp)
  set v := Roi.Spec.roiValues labels img n with hv
  have hpos : (0 : ℚ) < v.length := by exact_mod_cast List.length_pos_iff.2 hne
  refine ⟨?_, ?_⟩
  · unfold labelMean
    simp only []
    rw [hse, if_neg hne]
    have := run_whole hw v 0 ⟨0, by simp⟩ hi (by simpa using hN)
    unfold run at this
    rw [this, zero_add]
    rfl
  · intro lo hi' hlo hhi hb
    have hbd : ∀ l : List ℚ, (∀ x ∈ l, lo ≤ x ∧ x ≤ hi') → lo * l.length ≤ l.sum ∧ l.sum ≤ hi' * l.length := by
      intro l
      induction l with
      | nil => simp
      | cons x t ih =>
        intro h
        have h1 := ih (fun y hy => h y (by simp [hy]))
        have h2 := h x (by simp)
        rw [List.sum_cons, List.length_cons]
        push_cast
        constructor <;> linarith [h1.1, h1.2, h2.1, h2.2]
    have hb' := hbd _ hb
    constructor
    · have := hc.mono lo _ ((le_div_iff₀ hpos).2 hb'.1)
      rwa [hlo] at this
    · have := hc.mono _ hi' ((div_le_iff₀ hpos).2 hb'.2)
      rwa [hhi] at this

/-- C227 is false: the mean of a region can exceed all its pixels.  Three pixels with the double nearest to 1/10 have a larger mean. -/
theorem C227_range_refuted : ∃ a, labelMean round53 [1, 1, 1] [round53 (1 / 10), round53 (1 / 10), round53 (1 / 10)] 1 = some a ∧ round53 (1 / 10) < a := by
  refine ⟨round53 (1 / 10) + 1 / 2 ^ 56, ?_⟩
  decide +kernel

/-- Unlike circular_average (C226_local_refuted), a bright pixel elsewhere does no harm. -/
example : meanIntensity round53 [[2 ^ 53, 1, 0]] [1, 2, 0] none = .ok ([[some (2 ^ 53), some 1]], [1, 2]) := by decide +kernel

example := C227_error_partial round53_rel [1, 2, 1, 0] [3, 5 / 2, 4, 9] rfl 1 (by simp)
example := C227_whole round53_int round53_correct [1, 2, 1, 0] [3, 5, 4, 9] rfl 1 (by simp) (by
    rw [← select_eq _ _ rfl]
    intro x hx
    have : x ∈ [(3 : ℚ), 4] := by simpa [select] using hx
    simp only [List.mem_cons, List.not_mem_nil, or_false] at this
    rcases this with rfl | rfl
    exacts [⟨3, by norm_num⟩, ⟨4, by norm_num⟩])
  (by rw [← select_eq _ _ rfl]; norm_num [select, Spec.size])

end Verif.Roi.Rnd
