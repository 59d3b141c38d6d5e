/- Properties C32-C35: statistics over regions of interest. -/
import Verif.Roi.Model
import Verif.Roi.StatSpec
import Verif.Utils.Props

namespace Verif.Roi
open Verif

/-! ## C32 extract_label_indices -/

theorem grid_eq_range (n m : ℕ) : (List.range n).flatMap (fun r => (List.range m).map (fun c => r * m + c)) = List.range (n * m) := by
  induction n with
  | zero => simp
  | succ n ih =>
    rw [List.range_succ, List.flatMap_append, ih, Nat.succ_mul, List.range_add]
    simp

theorem filter_zip_range (l : List ℤ) (P : ℤ → Bool) :
    ((((List.range l.length).zip l).filter (fun p => P p.2)).map Prod.snd = l.filter P) ∧
    ((((List.range l.length).zip l).filter (fun p => P p.2)).map Prod.fst).Pairwise (· < ·) ∧
    (∀ q ∈ ((List.range l.length).zip l), l[q.1]? = some q.2) := by
  refine ⟨?_, ?_, ?_⟩
  · conv_rhs => rw [← List.map_snd_zip (l₁ := List.range l.length) (l₂ := l) (by simp), List.filter_map]
    rfl
  · have hs : ((((List.range l.length).zip l).filter (fun p => P p.2)).map Prod.fst).Sublist (List.range l.length) := by
      have := (List.filter_sublist (l := (List.range l.length).zip l) (p := fun p => P p.2)).map Prod.fst
      rwa [List.map_fst_zip (by simp)] at this
    exact List.Pairwise.sublist hs List.pairwise_lt_range
  · intro q hq
    obtain ⟨k, hk⟩ := List.mem_iff_getElem?.1 hq
    rw [List.getElem?_zip_eq_some] at hk
    obtain ⟨h1, h2⟩ := hk
    have hkl : k < l.length := (List.getElem?_eq_some_iff.1 h2).1
    rw [List.getElem?_range hkl] at h1
    simp at h1
    rw [← h1]; exact h2

/-- For every rectangular label image: the indices are strictly increasing (row-major order, no repetition), they are
exactly the flat positions of the pixels with positive label, and the label list holds, in the same order, the labels at
these positions. -/
theorem C32_indices (labels : List (List ℤ)) (ncols : ℕ) (hrect : ∀ row ∈ labels, row.length = ncols) :
    let res := extractLabelIndices labels ncols
    res.2.Pairwise (· < ·) ∧
    (∀ r c, c < ncols → (r * ncols + c ∈ res.2 ↔ ∃ l, labels[r]?.bind (fun row => row[c]?) = some l ∧ 0 < l)) ∧
    (∀ p ∈ res.2, p < labels.length * ncols) ∧
    res.2.map (fun p => labels.flatten[p]?) = res.1.map some := by
  intro res
  have hlen : labels.flatten.length = labels.length * ncols := by
    have := length_flatMap_const labels id ncols (by simpa using hrect)
    simpa using this
  have hget : ∀ (r c : ℕ), c < ncols → labels.flatten[r * ncols + c]? = labels[r]?.bind (fun row => row[c]?) := by
    intro r c hc
    have := getElem?_flatMap_const labels id ncols (by simpa using hrect) r c hc
    simpa using this
  have hres : res = (labels.flatten.filter (fun l => decide (0 < l)),
      (((List.range labels.flatten.length).zip labels.flatten).filter (fun p => decide (0 < p.2))).map Prod.fst) := by
    show extractLabelIndices labels ncols = _
    unfold extractLabelIndices
    rw [grid_eq_range, hlen]
  obtain ⟨h1, h2, h3⟩ := filter_zip_range labels.flatten (fun l => decide (0 < l))
  have hmem : ∀ p, p ∈ res.2 ↔ ∃ l, labels.flatten[p]? = some l ∧ 0 < l := by
    intro p
    rw [hres]
    simp only [List.mem_map, List.mem_filter, decide_eq_true_eq]
    constructor
    · rintro ⟨q, ⟨hq, hpos⟩, rfl⟩; exact ⟨q.2, h3 q hq, hpos⟩
    · rintro ⟨l, hl, hpos⟩
      have hp : p < labels.flatten.length := (List.getElem?_eq_some_iff.1 hl).1
      refine ⟨(p, l), ⟨?_, hpos⟩, rfl⟩
      rw [List.mem_iff_getElem?]
      exact ⟨p, by rw [List.getElem?_zip_eq_some]; exact ⟨List.getElem?_range hp, hl⟩⟩
  refine ⟨by rw [hres]; exact h2, ?_, ?_, ?_⟩
  · intro r c hc
    rw [hmem, hget r c hc]
  · intro p hp
    obtain ⟨l, hl, _⟩ := (hmem p).1 hp
    rw [← hlen]; exact (List.getElem?_eq_some_iff.1 hl).1
  · rw [hres]
    simp only
    rw [← h1, List.map_map, List.map_map]
    apply List.map_congr_left
    intro q hq
    simp only [Function.comp]
    exact h3 q (List.mem_of_mem_filter hq)

example : extractLabelIndices [[0, 2, 0], [1, 0, 2]] 3 = ([2, 1, 2], [1, 3, 5]) := by decide +kernel

/-! ## C33 statistics -/

theorem select_eq (labels : List ℤ) (img : List ℚ) (h : labels.length = img.length) (n : ℤ) :
    select labels img n = Spec.roiValues labels img n := by
  unfold select Spec.roiValues
  induction labels generalizing img with
  | nil => simp
  | cons l t ih =>
    cases img with
    | nil => simp at h
    | cons v vs =>
      have := ih vs (by simpa using h)
      rw [List.length_cons, List.range_succ_eq_map, List.filterMap_cons, List.filterMap_map]
      simp only [List.zip_cons_cons, List.filter_cons, List.getElem?_cons_zero, Option.some.injEq]
      have e : (List.range t.length).filterMap ((fun p => if (l :: t)[p]? = some n then (v :: vs)[p]? else none) ∘ Nat.succ) =
          (List.range t.length).filterMap (fun p => if t[p]? = some n then vs[p]? else none) := by
        apply List.filterMap_congr
        intro p _
        simp
      rw [e, ← this]
      by_cases hl : l = n <;> simp [hl]

/-- roi_pixel_values lists, for every requested label - 1 .. largest label by default -, exactly the values of the
pixels with that label; images of another size raise ValueError. -/
theorem C33_pixel_values (img : List ℚ) (labels : List ℤ) :
    (labels.length ≠ img.length → ∀ index, roiPixelValues img labels index = .error .valueError) ∧
    (labels.length = img.length →
      (∀ idx, roiPixelValues img labels (some idx) = .ok (idx.map (Spec.roiValues labels img), idx)) ∧
      (labels ≠ [] → ∃ idx, roiPixelValues img labels none = .ok (idx.map (Spec.roiValues labels img), idx) ∧
        idx.Pairwise (· < ·) ∧ ∀ n, n ∈ idx ↔ 1 ≤ n ∧ ∃ l ∈ labels, n ≤ l)) := by
  constructor
  · intro h index; unfold roiPixelValues; rw [if_pos h]
  · intro h
    have hs : select labels img = Spec.roiValues labels img := funext (fun n => select_eq labels img h n)
    constructor
    · intro idx; unfold roiPixelValues; rw [if_neg (by simpa using h), hs]
    · intro hne
      obtain ⟨m, hm⟩ : ∃ m, labels.max? = some m := by
        cases e : labels.max? with
        | none => exact absurd (List.max?_eq_none_iff.1 e) hne
        | some m => exact ⟨m, rfl⟩
      have hmm := List.max?_eq_some_iff.1 hm
      refine ⟨arange1 m, ?_, ?_, ?_⟩
      · unfold roiPixelValues; rw [if_neg (by simpa using h), hm, hs]
      · unfold arange1
        rw [List.pairwise_map]
        exact List.pairwise_lt_range.imp (by intro a b hab; omega)
      · intro n
        unfold arange1
        simp only [List.mem_map, List.mem_range]
        constructor
        · rintro ⟨k, hk, rfl⟩; exact ⟨by omega, m, hmm.1, by omega⟩
        · rintro ⟨h1, l, hl, hle⟩
          have := hmm.2 l hl
          exact ⟨(n - 1).toNat, by omega, by omega⟩

theorem mem_unique (l : List ℤ) (x : ℤ) : x ∈ unique l ↔ x ∈ l := by
  unfold unique; rw [List.mem_dedup]; exact (List.perm_insertionSort _ l).mem_iff

theorem unique_sorted (l : List ℤ) : (unique l).Pairwise (· < ·) := by
  unfold unique
  have h1 : (l.insertionSort (· ≤ ·)).dedup.Pairwise (· ≤ ·) :=
    List.Pairwise.sublist (List.dedup_sublist _) (List.pairwise_insertionSort _ l)
  have h2 := List.nodup_dedup (l.insertionSort (· ≤ ·))
  exact (h1.and h2).imp (fun {a b} h => lt_of_le_of_ne h.1 h.2)

/-- mean_intensity, when some pixel is background: one row per image and one column per label; each entry is the mean of
the values of exactly the pixels with that label (NaN if there is none).  By default the labels are the distinct
non-zero labels of the image, ascending. -/
theorem C33_mean_partial (images : List (List ℚ)) (hne : images ≠ []) (labels : List ℤ) (hsize : ∀ img ∈ images, img.length = labels.length)
    (index : Option (List ℤ)) (hbg : 0 ∈ labels) :
    ∃ idx, meanIntensity images labels index =
        .ok (images.map (fun img => idx.map (fun n => let v := Spec.roiValues labels img n
          if v = [] then none else some (v.sum / v.length))), idx) ∧
      (∀ i, index = some i → idx = i) ∧
      (index = none → idx.Pairwise (· < ·) ∧ ∀ n, n ∈ idx ↔ n ∈ labels ∧ n ≠ 0) := by
  cases images with
  | nil => exact absurd rfl hne
  | cons img0 rest =>
    have h0 := hsize img0 (by simp)
    have hmean : ∀ idx : List ℤ, (img0 :: rest).map (fun img => idx.map (labelMean labels img)) =
        (img0 :: rest).map (fun img => idx.map (fun n => let v := Spec.roiValues labels img n
          if v = [] then none else some (v.sum / v.length))) := by
      intro idx
      apply List.map_congr_left
      intro img himg
      apply List.map_congr_left
      intro n _
      unfold labelMean
      rw [select_eq labels img (hsize img himg).symm n]
    cases index with
    | some i =>
      refine ⟨i, ?_, by simp, by simp⟩
      simp only [meanIntensity]
      rw [if_neg (by simpa using h0.symm)]
      simp only [chooseIndex, hmean]
    | none =>
      refine ⟨(unique labels).erase 0, ?_, by simp, fun _ => ⟨?_, ?_⟩⟩
      · simp only [meanIntensity]
        rw [if_neg (by simpa using h0.symm)]
        simp only [chooseIndex, defaultIndex, if_pos ((mem_unique labels 0).2 hbg), hmean]
      · exact List.Pairwise.sublist List.erase_sublist (unique_sorted labels)
      · intro n
        have hnd : (unique labels).Nodup := (unique_sorted labels).imp (fun h => ne_of_lt h)
        rw [hnd.mem_erase_iff, mem_unique]; tauto

example : meanIntensity [[1, 2, 3, 5], [0, 4, 1, 1]] [0, 3, 7, 7] none =
  .ok ([[some 2, some 4], [some 4, some 1]], [3, 7]) := by decide +kernel

/-- C33 is false for mean_intensity without an index when no pixel is background: it raises ValueError. -/
theorem C33_no_background_refuted (img : List ℚ) (rest : List (List ℚ)) (labels : List ℤ) (hbg : 0 ∉ labels) :
    meanIntensity (img :: rest) labels none = .error .valueError := by
  simp only [meanIntensity]
  by_cases h : labels.length ≠ img.length
  · rw [if_pos h]
  · rw [if_neg h]
    have : 0 ∉ unique labels := by rw [mem_unique]; exact hbg
    simp [chooseIndex, defaultIndex, this]

example : meanIntensity [[1, 2]] [1, 1] none = .error .valueError := by decide +kernel

/-- The labelled values of one image. -/
def Spec.labelled (labels : List ℤ) (img : List ℚ) : List ℚ :=
  ((labels.zip img).filter (fun p => decide (0 < p.1))).map Prod.snd

theorem roiMax_fold (labels : List ℤ) (imgs : List (List ℚ)) : ∀ m : ℚ,
    (∀ img ∈ imgs, Spec.labelled labels img ≠ []) →
    ∃ m', imgs.foldl (maxStep labels) (.ok m) = .ok m' ∧ m ≤ m' ∧ (∀ img ∈ imgs, ∀ v ∈ Spec.labelled labels img, v ≤ m') ∧
      (m' = m ∨ ∃ img ∈ imgs, m' ∈ Spec.labelled labels img) := by
  induction imgs with
  | nil => intro m _; exact ⟨m, rfl, le_refl m, by simp, Or.inl rfl⟩
  | cons img t ih =>
    intro m h
    obtain ⟨x, hx⟩ : ∃ x, (Spec.labelled labels img).max? = some x := by
      cases e : (Spec.labelled labels img).max? with
      | none => exact absurd (List.max?_eq_none_iff.1 e) (h img (by simp))
      | some x => exact ⟨x, rfl⟩
    have hxx := List.max?_eq_some_iff.1 hx
    obtain ⟨m', e1, e2, e3, e4⟩ := ih (max m x) (fun i hi => h i (by simp [hi]))
    refine ⟨m', ?_, le_trans (le_max_left _ _) e2, ?_, ?_⟩
    · rw [List.foldl_cons]
      have : maxStep labels (.ok m) img = .ok (max m x) := by
        unfold maxStep
        simp only
        unfold Spec.labelled at hx
        rw [hx]
      rw [this, e1]
    · intro i hi v hv
      rcases List.mem_cons.1 hi with rfl | hi
      · exact le_trans (hxx.2 v hv) (le_trans (le_max_right _ _) e2)
      · exact e3 i hi v hv
    · rcases e4 with e4 | ⟨i, hi, e4⟩
      · rcases le_total m x with hmx | hmx
        · right; exact ⟨img, by simp, by rw [e4, max_eq_right hmx]; exact hxx.1⟩
        · left; rw [e4, max_eq_left hmx]
      · right; exact ⟨i, by simp [hi], e4⟩

/-- roi_max_counts for non-negative images: the largest value at a labelled pixel of any image of any set. -/
theorem C33_max_counts_partial (sets : List (List (List ℚ))) (labels : List ℤ)
    (hl : ∀ set ∈ sets, ∀ img ∈ set, Spec.labelled labels img ≠ [])
    (hnn : ∀ set ∈ sets, ∀ img ∈ set, ∀ v ∈ Spec.labelled labels img, 0 ≤ v) :
    ∃ m, roiMaxCounts sets labels = .ok m ∧ (∀ set ∈ sets, ∀ img ∈ set, ∀ v ∈ Spec.labelled labels img, v ≤ m) ∧
      ((∃ set ∈ sets, set ≠ []) → ∃ set ∈ sets, ∃ img ∈ set, m ∈ Spec.labelled labels img) := by
  have e : roiMaxCounts sets labels = sets.flatten.foldl (maxStep labels) (.ok 0) := by
    unfold roiMaxCounts
    rw [List.foldl_flatten]
  obtain ⟨m, h1, h2, h3, h4⟩ := roiMax_fold labels sets.flatten 0 (by
    intro img himg
    obtain ⟨s, hs, hi⟩ := List.mem_flatten.1 himg
    exact hl s hs img hi)
  refine ⟨m, by rw [e, h1], ?_, ?_⟩
  · intro s hs img hi v hv
    exact h3 img (List.mem_flatten.2 ⟨s, hs, hi⟩) v hv
  · rintro ⟨s, hs, hne⟩
    rcases h4 with h4 | ⟨img, hi, h4⟩
    · obtain ⟨img, hi⟩ := List.exists_mem_of_ne_nil s hne
      obtain ⟨v, hv⟩ := List.exists_mem_of_ne_nil _ (hl s hs img hi)
      have a := h3 img (List.mem_flatten.2 ⟨s, hs, hi⟩) v hv
      have b := hnn s hs img hi v hv
      have : m = v := by linarith
      exact ⟨s, hs, img, hi, this ▸ hv⟩
    · obtain ⟨s, hs, hi⟩ := List.mem_flatten.1 hi
      exact ⟨s, hs, img, hi, h4⟩

/-- C33 is false for roi_max_counts on images with only negative values (e.g. after background subtraction). -/
theorem C33_max_negative_refuted : roiMaxCounts [[[-3, -5]]] [1, 1] = .ok 0 := by decide +kernel
example : roiMaxCounts [[[3, 9], [1, 4]], [[7, 100]]] [1, 0] = .ok 7 := by decide +kernel

/-! ## C34 circular_average -/

theorem bin_unique (lo w : ℚ) (hw : 0 ≤ w) (n k k' : ℕ) (hk : k < n) (hk' : k' < n) (x : ℚ) (h : Spec.inBin lo w n k x)
    (h' : Spec.inBin lo w n k' x) : k = k' := by
  by_contra hne
  have aux : ∀ a b : ℕ, a < b → b < n → Spec.inBin lo w n a x → Spec.inBin lo w n b x → False := by
    rintro a b hab hbn ⟨_, h2⟩ ⟨h3, _⟩
    have : ((a + 1 : ℕ) : ℚ) * w ≤ b * w := mul_le_mul_of_nonneg_right (by exact_mod_cast hab) hw
    rcases h2 with h2 | ⟨h2, _⟩
    · linarith
    · omega
  rcases Nat.lt_or_gt_of_ne hne with h1 | h1
  · exact aux k k' h1 hk' h h'
  · exact aux k' k h1 hk h' h

/-- The pixels that the mask does not exclude: (radius, intensity), in order; a mask keeps where it is 1. -/
def Spec.usedPixels (mask : Option (List ℤ)) (radial img : List ℚ) : List (ℚ × ℚ) :=
  ((List.range (min radial.length img.length)).filter (fun k => match mask with
    | none => true
    | some m => decide (m[k]? = some 1))).map (fun k => (radial.getD k 0, img.getD k 0))

theorem masked_used (mask : Option (List ℤ)) (radial img : List ℚ) : masked mask (radial.zip img) = Spec.usedPixels mask radial img := by
  unfold masked Spec.usedPixels
  induction radial generalizing img mask with
  | nil => cases mask <;> simp
  | cons r radial ih =>
    cases img with
    | nil => cases mask <;> simp
    | cons v img =>
      have hmin : min (r :: radial).length (v :: img).length = min radial.length img.length + 1 := by
        simp only [List.length_cons]; omega
      rw [hmin, List.range_succ_eq_map, List.zip_cons_cons]
      cases mask with
      | none =>
        have := ih none img
        simp only at this
        simp [this, List.filter_map, Function.comp_def]
      | some m =>
        cases m with
        | nil => simp
        | cons x m =>
          have := ih (some m) img
          simp only at this
          by_cases hx : x = 1 <;> simp [this, hx, List.filter_cons, List.filter_map, Function.comp_def]

/-- What bin_1D returns for (radius, intensity) pairs: centres, sums and numbers of the pixels of each bin. -/
theorem bin1D_content (px : List (ℚ × ℚ)) (n : ℕ) (hn : 1 ≤ n) (lo hi : ℚ) (hlo : lo ≤ hi) :
    let w := (hi - lo) / n
    ∃ bins val count, Utils.bin1D (px.map Prod.fst) (px.map Prod.snd) (some (n : ℤ)) (some lo) (some hi) = .ok (bins, val, count) ∧
      Utils.binEdgesToCenters bins = (List.range n).map (fun (k : ℕ) => lo + (k + 1 / 2) * w) ∧
      val = (List.range n).map (fun k => (Spec.binValues px lo w n k).sum) ∧
      count = (List.range n).map (fun k => ((Spec.binValues px lo w n k).length : ℚ)) := by
  intro w
  obtain ⟨bins, val, count, e, hbl, hvl, hcl, hbins, _, _, hbin, hlast⟩ :=
    Utils.C06_bin1D (px.map Prod.fst) (px.map Prod.snd) (by simp) lo hi hlo n hn
  have hzip : (px.map Prod.fst).zip (px.map Prod.snd) = px := by
    rw [List.zip_map']; simp
  -- the content of bin k
  have hlen_count : ∀ (P : ℚ → Prop) [DecidablePred P], Utils.numX (px.map Prod.fst) P = (px.filter (fun p => decide (P p.1))).length := by
    intro P _
    unfold Utils.numX
    rw [List.countP_map, List.countP_eq_length_filter]
    rfl
  have hval : ∀ k < n, val[k]? = some ((Spec.binValues px lo w n k).sum) ∧ count[k]? = some ((Spec.binValues px lo w n k).length : ℚ) := by
    intro k hk
    have ha := hbins k (by omega)
    have hb := hbins (k + 1) (by omega)
    by_cases hkl : k + 1 < n
    · obtain ⟨c1, c2⟩ := hbin k hkl _ _ ha hb
      have hcongr : px.filter (fun p => decide (lo + (k : ℚ) * w ≤ p.1 ∧ p.1 < lo + ((k + 1 : ℕ) : ℚ) * w)) =
          px.filter (fun p => decide (Spec.inBin lo w n k p.1)) := by
        apply List.filter_congr
        intro p _
        rw [decide_eq_decide]
        unfold Spec.inBin
        constructor
        · rintro ⟨h1, h2⟩; exact ⟨h1, Or.inl h2⟩
        · rintro ⟨h1, h2 | ⟨h2, _⟩⟩
          · exact ⟨h1, h2⟩
          · omega
      rw [c1, c2]
      unfold Utils.totalY Spec.binValues
      rw [hlen_count, hzip, ← hcongr]
      simp
      exact ⟨rfl, rfl⟩
    · have hkn : k + 1 = n := by omega
      obtain ⟨c1, c2⟩ := hlast k hkn _ _ ha hb
      have hcongr : px.filter (fun p => decide (lo + (k : ℚ) * w ≤ p.1 ∧ p.1 ≤ lo + ((k + 1 : ℕ) : ℚ) * w)) =
          px.filter (fun p => decide (Spec.inBin lo w n k p.1)) := by
        apply List.filter_congr
        intro p _
        rw [decide_eq_decide]
        unfold Spec.inBin
        constructor
        · rintro ⟨h1, h2⟩
          rcases lt_or_eq_of_le h2 with h2 | h2
          · exact ⟨h1, Or.inl h2⟩
          · exact ⟨h1, Or.inr ⟨hkn, h2⟩⟩
        · rintro ⟨h1, h2 | ⟨_, h2⟩⟩
          · exact ⟨h1, h2.le⟩
          · exact ⟨h1, h2.le⟩
      rw [c1, c2]
      unfold Utils.totalY Spec.binValues
      rw [hlen_count, hzip, ← hcongr]
      simp
      exact ⟨rfl, rfl⟩
  have hcent : (Utils.binEdgesToCenters bins) = (List.range n).map (fun (k : ℕ) => lo + (k + 1 / 2) * w) := by
    apply List.ext_getElem?
    intro k
    unfold Utils.binEdgesToCenters
    rw [List.getElem?_zipWith]
    by_cases hk : k < n
    · have e1 : bins.dropLast[k]? = some (lo + k * w) := by
        rw [List.getElem?_dropLast, if_pos (by omega), hbins k (by omega)]
      have e2 : bins.tail[k]? = some (lo + ((k + 1 : ℕ) : ℚ) * w) := by
        rw [List.getElem?_tail, hbins (k + 1) (by omega)]
      rw [e1, e2, List.getElem?_map, List.getElem?_range hk]
      simp only [Option.map_some, Option.some.injEq]
      push_cast; ring
    · rw [List.getElem?_eq_none (by simp; omega), List.getElem?_eq_none (by simp; omega), List.getElem?_eq_none (by simp; omega)]
  have hvals : val = (List.range n).map (fun k => (Spec.binValues px lo w n k).sum) := by
    apply List.ext_getElem?
    intro k
    by_cases hk : k < n
    · rw [(hval k hk).1]; simp [hk]
    · rw [List.getElem?_eq_none (by omega), List.getElem?_eq_none (by simp; omega)]
  have hcnts : count = (List.range n).map (fun k => ((Spec.binValues px lo w n k).length : ℚ)) := by
    apply List.ext_getElem?
    intro k
    by_cases hk : k < n
    · rw [(hval k hk).2]; simp [hk]
    · rw [List.getElem?_eq_none (by omega), List.getElem?_eq_none (by simp; omega)]
  exact ⟨bins, val, count, e, hcent, hvals, hcnts⟩

/-- circular_average with given limits and a threshold that is not negative: the kept bins are exactly those with more
than `threshold` unmasked pixels, in order; each reports its centre and the mean intensity of exactly the unmasked
pixels whose radius is in the bin.  No pixel is in two bins. -/
theorem C34_average (radial img : List ℚ) (mask : Option (List ℤ)) (threshold : ℚ) (ht : 0 ≤ threshold) (n : ℕ) (hn : 1 ≤ n) (lo hi : ℚ) (hlo : lo ≤ hi) :
    let px := Spec.usedPixels mask radial img
    let w := (hi - lo) / n
    let kept := (List.range n).filter (fun k => decide (threshold < ((Spec.binValues px lo w n k).length : ℚ)))
    circularAverage radial img mask threshold n (some lo) (some hi) =
      .ok (kept.map (fun (k : ℕ) => lo + (k + 1 / 2) * w),
        kept.map (fun k => (Spec.binValues px lo w n k).sum / ((Spec.binValues px lo w n k).length : ℚ))) ∧
    (∀ k ∈ kept, Spec.binValues px lo w n k ≠ []) ∧
    ∀ k k', k < n → k' < n → ∀ x, Spec.inBin lo w n k x → Spec.inBin lo w n k' x → k = k' := by
  intro px w kept
  have hn0 : (n : ℚ) ≠ 0 := by exact_mod_cast (by omega : n ≠ 0)
  have hnp : (0 : ℚ) < n := by exact_mod_cast hn
  have hw : 0 ≤ w := div_nonneg (by linarith) hnp.le
  refine ⟨?_, ?_, fun k k' hk hk' x => bin_unique lo w hw n k k' hk hk' x⟩
  swap
  · intro k hk he
    have := (List.mem_filter.1 hk).2
    simp only [he, List.length_nil, Nat.cast_zero, decide_eq_true_eq] at this
    linarith
  obtain ⟨bins, val, count, e, hcent, hvals, hcnts⟩ := bin1D_content px n hn lo hi hlo
  have hz : (Utils.binEdgesToCenters bins).zip (val.zip count) = (List.range n).map (fun (k : ℕ) =>
      (lo + (k + 1 / 2) * w, (Spec.binValues px lo w n k).sum, ((Spec.binValues px lo w n k).length : ℚ))) := by
    rw [hcent, hvals, hcnts, List.zip_map', List.zip_map']
  have hpx : px = masked mask (radial.zip img) := (masked_used mask radial img).symm
  unfold circularAverage
  simp only [← hpx]
  rw [e]
  simp only [hz, List.filter_map, List.map_map]
  rfl

example : circularAverage [0, 1, 1, 2, 3, 5] [9, 1, 5, 7, 100, 8] (some [1, 1, 1, 1, 0, 1]) 0 2 (some 0) (some 4) =
  .ok ([1, 3], [5, 7]) := by decide +kernel

/-- The default limits are the smallest and largest radius of the unmasked pixels. -/
theorem C34_default_limits (radial img : List ℚ) (mask : Option (List ℤ)) (threshold : ℚ) (n : ℤ) (lo hi : ℚ)
    (hlo : ((Spec.usedPixels mask radial img).map Prod.fst).min? = some lo)
    (hhi : ((Spec.usedPixels mask radial img).map Prod.fst).max? = some hi) :
    circularAverage radial img mask threshold n none none = circularAverage radial img mask threshold n (some lo) (some hi) := by
  rw [← masked_used] at hlo hhi
  unfold circularAverage
  simp only
  have : Utils.bin1D ((masked mask (radial.zip img)).map Prod.fst) ((masked mask (radial.zip img)).map Prod.snd) (some n) none none =
      Utils.bin1D ((masked mask (radial.zip img)).map Prod.fst) ((masked mask (radial.zip img)).map Prod.snd) (some n) (some lo) (some hi) := by
    simp [Utils.bin1D, hlo, hhi, bind, Except.bind]
  rw [this]

/-! ## C35 kymograph -/

theorem select_indicator (labels : List ℤ) (img : List ℚ) (num : ℤ) : select (indicator labels num) img 1 = select labels img num := by
  unfold select indicator
  induction labels generalizing img with
  | nil => simp
  | cons l t ih =>
    cases img with
    | nil => simp
    | cons v vs =>
      simp only [List.map_cons, List.zip_cons_cons, List.filter_cons]
      have := ih vs
      by_cases hl : l = num <;> simp [hl, this]

theorem kymoRow (labels : List ℤ) (num : ℤ) (img : List ℚ) (h : img.length = labels.length) (hne : labels ≠ []) :
    ∃ pix idx, roiPixelValues img (indicator labels num) none = .ok (pix, idx) ∧ pix.flatten = Spec.roiValues labels img num := by
  obtain ⟨m, hm⟩ : ∃ m, (indicator labels num).max? = some m := by
    cases e : (indicator labels num).max? with
    | none => exact absurd (by simpa [indicator] using List.max?_eq_none_iff.1 e) hne
    | some m => exact ⟨m, rfl⟩
  refine ⟨_, _, by unfold roiPixelValues; rw [if_neg (by simp [indicator, h]), hm], ?_⟩
  rw [← select_eq labels img h.symm]
  have hmm := List.max?_eq_some_iff.1 hm
  have h01 : m = 0 ∨ m = 1 := by
    have := hmm.1
    simp only [indicator, List.mem_map] at this
    obtain ⟨l, _, rfl⟩ := this
    split <;> simp
  rcases h01 with h0 | h1
  · subst h0
    have : select labels img num = [] := by
      unfold select
      rw [List.map_eq_nil_iff, List.filter_eq_nil_iff]
      intro p hp
      simp only [decide_eq_true_eq]
      intro hpn
      have h1 := hmm.2 1 (by
        simp only [indicator, List.mem_map]
        exact ⟨p.1, (List.of_mem_zip hp).1, by simp [hpn]⟩)
      omega
    rw [this]; rfl
  · subst h1
    rw [← select_indicator]
    simp [arange1]

/-- Row t of the kymograph is the list of the values of frame t at the pixels labelled `num`, in the raveled pixel
order - the same for all rows. -/
theorem C35_kymograph (images : List (List ℚ)) (himg : images ≠ []) (labels : List ℤ) (hne : labels ≠ [])
    (hsize : ∀ img ∈ images, img.length = labels.length) (num : ℤ) :
    kymograph images labels num = .ok (images.map (fun img => Spec.roiValues labels img num)) := by
  have key : ∀ imgs : List (List ℚ), (∀ img ∈ imgs, img.length = labels.length) → ∃ rows, kymoRows labels num imgs = .ok rows ∧
      rows.length = imgs.length ∧ rows.map (fun r => r.flatten) = imgs.map (fun img => Spec.roiValues labels img num) := by
    intro imgs
    induction imgs with
    | nil => intro _; exact ⟨[], rfl, rfl, rfl⟩
    | cons img t ih =>
      intro h
      obtain ⟨rows, h1, h2, h3⟩ := ih (fun i hi => h i (by simp [hi]))
      obtain ⟨pix, idx, e1, e2⟩ := kymoRow labels num img (h img (by simp)) hne
      refine ⟨pix :: rows, ?_, by simp [h2], by simp [e2, h3]⟩
      simp only [kymoRows, e1, h1]
  obtain ⟨rows, h1, h2, h3⟩ := key images hsize
  unfold kymograph
  rw [h1]
  simp only [vstackRows]
  rw [if_neg, h3]
  intro h0
  rw [h0] at h2
  exact himg (List.length_eq_zero_iff.1 h2.symm)

/-- An empty series raises ValueError, and so does a frame of another size. -/
theorem C35_rejects (labels : List ℤ) (num : ℤ) : kymograph [] labels num = .error .valueError ∧
    ∀ img rest, img.length ≠ labels.length → kymograph (img :: rest) labels num = .error .valueError := by
  refine ⟨by simp [kymograph, kymoRows, vstackRows], ?_⟩
  intro img rest h
  have : roiPixelValues img (indicator labels num) none = .error .valueError := by
    unfold roiPixelValues
    rw [if_pos (by simp [indicator]; omega)]
  simp [kymograph, kymoRows, this]

example : kymograph [[1, 2, 3], [4, 5, 6]] [2, 0, 2] 2 = .ok [[1, 3], [4, 6]] := by decide +kernel

end Verif.Roi
