/- Property C224: xsvs as the user calls it, skbeam/core/speckle.py:61-228, from a label image and sets of images, with or
without max_cts, for images in lists and for images from generators. -/
import Verif.Speckle.Props
import Verif.Corr.Invar

namespace Verif.Speckle
open Verif Finset

/-! ## Model -/

/-- One image set as a Python object: a sequence of raveled images (NaN is `none`), or a generator of them such as
`bad_to_nan_gen` returns.  `image_sets` itself is a list or tuple. -/
structure ImageSet where
  images : List (List (Option ℚ))
  generator : Bool
deriving DecidableEq

/-- What a second loop over the set will see. -/
def ImageSet.after (s : ImageSet) : ImageSet := if s.generator then { s with images := [] } else s

/-- `ndimage.maximum(img, label_array)`, roi.py 323: over the pixels with a positive label, NaN if one of them is NaN,
ValueError when there are none. -/
def maximum (labels : List ℤ) (img : List (Option ℚ)) : Py (Option ℚ) :=
  let vals := ((labels.zip img).filter (fun p => decide (0 < p.1))).map Prod.snd
  if vals = [] then .error .valueError
  else if none ∈ vals then .ok none
  else .ok (vals.filterMap id).max?

/-- `roi_max_counts`, roi.py 320-324; `max(max_cts, nan)` is `max_cts`. -/
def maxCounts (labels : List ℤ) (imgs : List (List (Option ℚ))) : Py ℚ :=
  imgs.foldlM (fun m img => do
    match ← maximum labels img with
    | none => pure m
    | some x => pure (max m x)) 0

/-- `(np.ravel(img))[indices]`, speckle.py 177. -/
def frameOf (indices : List ℕ) (img : List (Option ℚ)) : Py (Fr indices.length) :=
  if indices.all (fun q => decide (q < img.length)) then .ok (fun p => (img[indices[p]]?).getD none) else .error .indexError

/-- The labels of the extracted pixels, speckle.py 122. -/
def labelsOf (labels : List ℤ) : Fin (Corr.extractLabelIndices labels).2.length → ℕ :=
  fun p => (((Corr.extractLabelIndices labels).1[(p : ℕ)]?).getD 0).toNat

/-- Some image of some set was histogrammed at level l: then the entries of that row are arrays, otherwise they are still
the integer 0; speckle.py 135, 273-288. -/
def reached {P : ℕ} (labels : Fin P → ℕ) (m tb numTimes l : ℕ) (sets : List (List (Fr P))) : Bool :=
  sets.any (fun fs =>
    let st := fs.foldl (xsvsFrame labels m tb numTimes) (XState.init P tb)
    decide (st.trackBad l < st.imgPer l))

/-- Lines 121-223 of `xsvs`.  An entry is `none` when it is still the integer 0, otherwise the list of the pairs
(prob_k_all, prob_k_pow_all); prob_k_std_dev is computed from them as in `stdDev`.  The outer `none` stands for
a call that does not return. -/
def xsvsBody (sets : List ImageSet) (labels : List ℤ) (numberOfImg timebinNum m : ℕ) : Option (Py (List (List (Option (List (ℚ × ℚ)))))) :=
  match Utils.geometricSeries (numberOfImg + 1) timebinNum numberOfImg 1 with
  | none => none
  | some times => some (do
    let frames ← sets.mapM (fun s => s.images.mapM (frameOf (Corr.extractLabelIndices labels).2))
    let a := xsvsAll (labelsOf labels) m timebinNum times.length frames
    pure ((List.range times.length).map (fun l => (Corr.unique (Corr.extractLabelIndices labels).1).map (fun x =>
      if reached (labelsOf labels) m timebinNum times.length l frames then
        some ((List.range (m * 2 ^ l - 1)).map (fun b => (a.1 l x.toNat b, a.2 l x.toNat b)))
      else none))))

/-- `xsvs`, speckle.py 61-228.  The default max_cts is a whole number for photon counts; for other values it is rounded up here,
which is exact for the first row. -/
def xsvs (sets : List ImageSet) (labels : List ℤ) (numberOfImg timebinNum : ℕ) (maxCts : Option ℕ) : Option (Py (List (List (Option (List (ℚ × ℚ)))))) :=
  match maxCts with
  | some m => xsvsBody sets labels numberOfImg timebinNum m
  | none => match maxCounts labels (sets.flatMap ImageSet.images) with
    | .error e => some (.error e)
    | .ok q => xsvsBody (sets.map ImageSet.after) labels numberOfImg timebinNum ⌈q⌉₊

/-! ## Specification -/

/-- The pixels of an image that belong to region x. -/
def Spec.values (labels : List ℤ) (x : ℤ) (img : List (Option ℚ)) : List (Option ℚ) :=
  ((labels.zip img).filter (fun p => decide (p.1 = x))).map Prod.snd

/-- The fraction of them that have exactly K photons. -/
def Spec.share (labels : List ℤ) (x : ℤ) (img : List (Option ℚ)) (K : ℕ) : ℚ :=
  ((Spec.values labels x img).count (some (K : ℚ)) : ℚ) / ((Spec.values labels x img).length : ℚ)

/-- The image has NaN in a region. -/
def Spec.isBad (labels : List ℤ) (img : List (Option ℚ)) : Bool := (labels.zip img).any (fun p => decide (0 < p.1) && p.2.isNone)

/-- The mean of a quantity over the images without NaN in a region. -/
def Spec.goodMean (labels : List ℤ) (imgs : List (List (Option ℚ))) (q : List (Option ℚ) → ℚ) : ℚ :=
  ((imgs.filter (fun img => !Spec.isBad labels img)).map q).sum / ((imgs.filter (fun img => !Spec.isBad labels img)).length : ℚ)

/-- What row k of the table looks at when image n arrives: each pixel of image n plus k times that of image n-1, plus
C(k, 2) times that of image n-2 and so on. -/
def Spec.window (size : ℕ) (imgs : List (List (Option ℚ))) (k n : ℕ) : List (Option ℚ) :=
  (List.range size).map (fun q => some (∑ j ∈ range (k + 1), if j ≤ n then (k.choose j : ℚ) * ((((imgs[n - j]?).getD [])[q]?).getD none).getD 0 else 0))

/-- Whole numbers of photons, at most max, or NaN, in every region. -/
def Spec.Photons (labels : List ℤ) (max : ℕ) (img : List (Option ℚ)) : Prop :=
  ∀ p ∈ labels.zip img, 0 < p.1 → p.2 = none ∨ ∃ n : ℕ, p.2 = some (n : ℚ) ∧ n ≤ max

/-! ## Pixels -/

theorem zip_range (labels : List ℤ) (img : List (Option ℚ)) (h : labels.length ≤ img.length) :
    labels.zip img = (List.range labels.length).map (fun q => ((labels[q]?).getD 0, (img[q]?).getD none)) := by
  apply List.ext_getElem
  · simp; omega
  · intro i h1 h2
    simp only [List.length_zip] at h1
    have e1 : i < labels.length := by omega
    have e2 : i < img.length := by omega
    simp [e1, e2]

theorem label_at (labels : List ℤ) (p : ℕ) (hp : p < (Corr.extractLabelIndices labels).2.length) :
    (Corr.extractLabelIndices labels).1[p]? = labels[(Corr.extractLabelIndices labels).2[p]]? := by
  have hmap := Corr.filter_pos_getElem labels
  have h1 := congrArg (fun l => l[p]?) hmap
  simp only [List.getElem?_map, List.getElem?_eq_getElem hp, Option.map_some] at h1
  cases hx : (Corr.extractLabelIndices labels).1[p]? with
  | none => rw [hx] at h1; simp at h1
  | some x => rw [hx] at h1; simpa using h1.symm

theorem mem_indices (labels : List ℤ) (q : ℕ) : q ∈ (Corr.extractLabelIndices labels).2 ↔ ∃ h : q < labels.length, 0 < labels[q] := by
  simp only [Corr.extractLabelIndices, List.mem_filter, List.mem_range, Corr.posAt]
  constructor
  · rintro ⟨h1, h2⟩
    rw [List.getElem?_eq_getElem h1] at h2
    exact ⟨h1, by simpa using h2⟩
  · rintro ⟨h1, h2⟩
    refine ⟨h1, ?_⟩
    rw [List.getElem?_eq_getElem h1]
    simpa using h2

theorem finRange_get {α : Type} (l : List ℕ) (F : ℕ → α) : (List.finRange l.length).map (fun p => F l[p]) = l.map F := by
  apply List.ext_getElem
  · simp
  · intro i h1 h2; simp

theorem values_range (labels : List ℤ) (x : ℤ) (img : List (Option ℚ)) (h : labels.length ≤ img.length) :
    Spec.values labels x img = ((List.range labels.length).filter (fun q => decide ((labels[q]?).getD 0 = x))).map (fun q => (img[q]?).getD none) := by
  unfold Spec.values
  rw [zip_range labels img h, List.filter_map, List.map_map]
  rfl

/-- The data that are histogrammed for label x are the pixels of region x. -/
theorem roiData_values (labels : List ℤ) (x : ℤ) (hx : 0 < x) (img : List (Option ℚ)) (h : labels.length ≤ img.length)
    (f : Fr (Corr.extractLabelIndices labels).2.length) (hf : frameOf (Corr.extractLabelIndices labels).2 img = .ok f) :
    roiData (labelsOf labels) x.toNat f = (Spec.values labels x img).filterMap id := by
  unfold frameOf at hf
  split at hf
  · rename_i hall
    have := (Except.ok.injEq _ _).mp hf
    subst this
    unfold roiData
    rw [values_range labels x img h, List.filterMap_map]
    set I := (Corr.extractLabelIndices labels).2 with hI
    have e1 : ((List.finRange I.length).filter (fun p => decide (labelsOf labels p = x.toNat))).filterMap (fun p => (img[I[p]]?).getD none) =
        (((List.finRange I.length).map (fun p => I[p])).filter (fun q => decide ((labels[q]?).getD 0 = x))).filterMap (fun q => (img[q]?).getD none) := by
      rw [List.filter_map, List.filterMap_map]
      congr 1
      apply List.filter_congr
      intro p _
      have hm : I[p] ∈ I := List.getElem_mem _
      obtain ⟨hq', hpos'⟩ := (mem_indices labels I[p]).1 hm
      unfold labelsOf
      rw [label_at labels p p.2]
      rw [Function.comp]
      have e : (Corr.extractLabelIndices labels).2[(p : ℕ)] = I[p] := rfl
      rw [e]
      rw [List.getElem?_eq_getElem hq']
      simp only [Option.getD_some, decide_eq_decide]
      omega
    rw [e1]
    have e2 : (List.finRange I.length).map (fun p => I[p]) = I := by
      simp
    rw [e2]
    have e3 : I.filter (fun q => decide ((labels[q]?).getD 0 = x)) = (List.range labels.length).filter (fun q => decide ((labels[q]?).getD 0 = x)) := by
      rw [hI]
      simp only [Corr.extractLabelIndices]
      rw [List.filter_filter]
      apply List.filter_congr
      intro q hq
      rw [List.mem_range] at hq
      unfold Corr.posAt
      rw [List.getElem?_eq_getElem hq]
      simp only [Option.getD_some]
      by_cases hxx : labels[q] = x
      · simp [hxx, hx]
      · simp [hxx]
    rw [e3]
    rfl
  · cases hf

/-- A frame is bad exactly if the image has NaN in a region. -/
theorem bad_iff (labels : List ℤ) (img : List (Option ℚ)) (h : labels.length ≤ img.length)
    (f : Fr (Corr.extractLabelIndices labels).2.length) (hf : frameOf (Corr.extractLabelIndices labels).2 img = .ok f) :
    f.bad = Spec.isBad labels img := by
  unfold frameOf at hf
  split at hf
  · have := (Except.ok.injEq _ _).mp hf
    subst this
    unfold Fr.bad Spec.isBad
    rw [zip_range labels img h, List.any_map, Bool.eq_iff_iff, List.any_eq_true, List.any_eq_true]
    set I := (Corr.extractLabelIndices labels).2 with hI
    constructor
    · rintro ⟨p, _, hp⟩
      have hm : I[p] ∈ I := List.getElem_mem _
      obtain ⟨hq', hpos'⟩ := (mem_indices labels I[p]).1 hm
      refine ⟨I[p], by rw [List.mem_range]; exact hq', ?_⟩
      simp only [Function.comp, Bool.and_eq_true, decide_eq_true_eq, List.getElem?_eq_getElem hq', Option.getD_some]
      exact ⟨hpos', hp⟩
    · rintro ⟨q, hq, hb⟩
      rw [List.mem_range] at hq
      simp only [Function.comp, Bool.and_eq_true, decide_eq_true_eq, List.getElem?_eq_getElem hq, Option.getD_some] at hb
      have hm : q ∈ I := (mem_indices labels q).2 ⟨hq, hb.1⟩
      obtain ⟨p, hp, rfl⟩ := List.getElem_of_mem hm
      exact ⟨⟨p, hp⟩, List.mem_finRange _, hb.2⟩
  · cases hf

/-- The frame of an image. -/
def frameFn (labels : List ℤ) (img : List (Option ℚ)) : Fr (Corr.extractLabelIndices labels).2.length :=
  fun p => (img[(Corr.extractLabelIndices labels).2[p]]?).getD none

theorem frameOf_ok (labels : List ℤ) (img : List (Option ℚ)) (h : labels.length ≤ img.length) :
    frameOf (Corr.extractLabelIndices labels).2 img = .ok (frameFn labels img) := by
  unfold frameOf
  rw [if_pos]
  · rfl
  · rw [List.all_eq_true]
    intro q hq
    obtain ⟨h1, _⟩ := (mem_indices labels q).1 hq
    simp; omega

theorem mapM_ok {α β : Type} (l : List α) (f : α → Py β) (g : α → β) (h : ∀ x ∈ l, f x = .ok (g x)) : l.mapM f = .ok (l.map g) := by
  induction l with
  | nil => rfl
  | cons a t ih =>
    rw [List.mapM_cons, h a (by simp), ih (fun x hx => h x (by simp [hx]))]
    rfl

/-! ## The table -/

theorem series_some (N tb : ℕ) (h : 2 ≤ tb) : ∃ s, Utils.geometricSeries (N + 1) tb N 1 = some s ∧ 1 ≤ s.length ∧
    (∀ k, 1 ≤ k → k < s.length → tb ^ k < N) ∧ N ≤ tb ^ s.length := by
  have key : ¬ (1 : ℚ) * (tb : ℚ) ^ (N + 1) < (N : ℚ) := by
    push Not
    have h1 : N < 2 ^ (N + 1) := lt_trans (Nat.lt_succ_self N) Nat.lt_two_pow_self
    have h2 : 2 ^ (N + 1) ≤ tb ^ (N + 1) := Nat.pow_le_pow_left h _
    rw [one_mul]
    exact_mod_cast le_of_lt (lt_of_lt_of_le h1 h2)
  obtain ⟨r, hr⟩ := Utils.geomLoop_some_of (tb : ℚ) (N : ℚ) N 1 [1] key (N + 1) (by omega)
  have hs : Utils.geometricSeries (N + 1) tb N 1 = some r.reverse := by simp [Utils.geometricSeries, hr]
  obtain ⟨a1, a2, a3, a4⟩ := Utils.C02_result _ _ _ _ _ hs
  refine ⟨_, hs, a3, ?_, ?_⟩
  · intro k h1 h2
    have := a2 k h1 h2
    rw [one_mul] at this
    exact_mod_cast this
  · rw [one_mul] at a4
    exact_mod_cast a4

/-- The table in terms of the frames of the images. -/
def table (labels : List ℤ) (m tb numTimes : ℕ) (imgs : List (List (List (Option ℚ)))) : List (List (Option (List (ℚ × ℚ)))) :=
  let frames := imgs.map (fun l => l.map (frameFn labels))
  let a := xsvsAll (labelsOf labels) m tb numTimes frames
  (List.range numTimes).map (fun l => (Corr.unique (Corr.extractLabelIndices labels).1).map (fun x =>
    if reached (labelsOf labels) m tb numTimes l frames then
      some ((List.range (m * 2 ^ l - 1)).map (fun b => (a.1 l x.toNat b, a.2 l x.toNat b)))
    else none))

theorem body_eq (sets : List ImageSet) (labels : List ℤ) (hsz : ∀ s ∈ sets, ∀ img ∈ s.images, labels.length ≤ img.length)
    (N tb m : ℕ) (s : List ℚ) (hs : Utils.geometricSeries (N + 1) tb N 1 = some s) :
    xsvsBody sets labels N tb m = some (.ok (table labels m tb s.length (sets.map ImageSet.images))) := by
  unfold xsvsBody
  rw [hs]
  simp only
  rw [mapM_ok sets _ (fun st => st.images.map (frameFn labels)) (fun st hst => mapM_ok _ _ _ (fun img himg => frameOf_ok labels img (hsz st hst img himg)))]
  simp only [bind, Except.bind, pure, Except.pure, table, List.map_map]
  rfl

theorem unique_length (labels : List ℤ) : (Corr.unique (Corr.extractLabelIndices labels).1).length = ((labels.toFinset).filter (0 < ·)).card := by
  have hnd : (Corr.unique (Corr.extractLabelIndices labels).1).Nodup := (Corr.sorted_unique _).imp (fun h => ne_of_lt h)
  rw [← List.toFinset_card_of_nodup hnd]
  congr 1
  ext y
  simp [Corr.mem_unique, Corr.extractLabelIndices]

theorem unique_column (labels : List ℤ) (x : ℤ) (hx : 0 < x) (hm : x ∈ labels) :
    (Corr.unique (Corr.extractLabelIndices labels).1)[Corr.Spec.column labels x]? = some x := by
  have hs := Corr.sorted_unique (Corr.extractLabelIndices labels).1
  have hmem : x ∈ Corr.unique (Corr.extractLabelIndices labels).1 := by
    rw [Corr.mem_unique]; simp [Corr.extractLabelIndices, hm, hx]
  obtain ⟨j, hj⟩ := List.mem_iff_getElem?.1 hmem
  have := Corr.sorted_index _ hs j x hj
  have e : Corr.Spec.column labels x = j := by
    rw [← this]
    unfold Corr.Spec.column
    congr 1
    ext y
    simp only [mem_filter, List.mem_toFinset, Corr.mem_unique, Corr.extractLabelIndices, List.mem_filter, decide_eq_true_eq]
    tauto
  rw [e, hj]

/-- The result is a table with one row per integration time 1, tb, tb^2, ... below number_of_img and one column per
distinct positive label; entries of row k that are arrays have max_cts 2^k - 1 elements. -/
theorem C224_table (sets : List ImageSet) (labels : List ℤ) (hsz : ∀ s ∈ sets, ∀ img ∈ s.images, labels.length ≤ img.length)
    (N tb m : ℕ) (htb : 2 ≤ tb) :
    ∃ tab, xsvs sets labels N tb (some m) = some (.ok tab) ∧ 1 ≤ tab.length ∧ (∀ k, 1 ≤ k → k < tab.length → tb ^ k < N) ∧ N ≤ tb ^ tab.length ∧
      ∀ (k : ℕ) row, tab[k]? = some row → row.length = ((labels.toFinset).filter (0 < ·)).card ∧
        ∀ cell ∈ row, ∀ l, cell = some l → l.length = m * 2 ^ k - 1 := by
  obtain ⟨s, hs, h1, h2, h3⟩ := series_some N tb htb
  refine ⟨table labels m tb s.length (sets.map ImageSet.images), ?_, ?_, ?_, ?_, ?_⟩
  · exact body_eq sets labels hsz N tb m s hs
  · simpa [table] using h1
  · simpa [table] using h2
  · simpa [table] using h3
  · intro k row hrow
    unfold table at hrow
    simp only [List.getElem?_map] at hrow
    rw [Option.map_eq_some_iff] at hrow
    obtain ⟨k', hk', rfl⟩ := hrow
    have hk : k' = k := by
      have := List.getElem?_eq_some_iff.1 hk'
      obtain ⟨h, e⟩ := this
      simpa using e.symm
    subst hk
    refine ⟨by rw [List.length_map, unique_length], ?_⟩
    intro cell hcell l hl
    rw [List.mem_map] at hcell
    obtain ⟨x, _, rfl⟩ := hcell
    split at hl
    · have := Option.some.inj hl
      rw [← this]; simp
    · cases hl

/-- What is in the column of region x in row k, for a single image set. -/
theorem cell_eq (labels : List ℤ) (m tb n : ℕ) (htb : 2 ≤ tb) (imgs : List (List (Option ℚ))) (k : ℕ) (hk : k < n) (x : ℤ) (hx : 0 < x) (hm : x ∈ labels)
    (g : ℕ → Fr (Corr.extractLabelIndices labels).2.length) (hg : ∀ i img, imgs[i]? = some img → g i = frameFn labels img) :
    ∃ row, (table labels m tb n [imgs])[k]? = some row ∧ row[Corr.Spec.column labels x]? = some (
      if ((List.range imgs.length).map (ovl g k)).all Fr.bad then none
      else some ((List.range (m * 2 ^ k - 1)).map (fun b =>
        (meanHist (labelsOf labels) (m * 2 ^ k) ((List.range imgs.length).map (ovl g k)) 1 x.toNat b,
         meanHist (labelsOf labels) (m * 2 ^ k) ((List.range imgs.length).map (ovl g k)) 2 x.toNat b)))) := by
  have hinv := inv_frames (labelsOf labels) m tb n htb (by omega) (imgs.map (frameFn labels)) g 0 _ (inv_init (labelsOf labels) m tb n g) (by
    intro i f hf
    rw [List.getElem?_map, Option.map_eq_some_iff] at hf
    obtain ⟨img, h1, rfl⟩ := hf
    rw [zero_add]; exact hg i img h1)
  rw [zero_add, List.length_map] at hinv
  have hst := hinv.stat k hk
  refine ⟨_, by unfold table; simp only [List.getElem?_map, List.getElem?_range hk, Option.map_some]; rfl, ?_⟩
  rw [List.getElem?_map, unique_column labels x hx hm, Option.map_some, Option.some.injEq]
  set L := (List.range imgs.length).map (ovl g k) with hL
  have hsplit : (L.filter Fr.bad).length + (L.filter (fun f => !Fr.bad f)).length = L.length := by
    have := len_split L
    exact_mod_cast this.symm
  have hreach : reached (labelsOf labels) m tb n k [imgs.map (frameFn labels)] = !(L.all Fr.bad) := by
    unfold reached
    simp only [List.any_cons, List.any_nil, Bool.or_false]
    rw [hst.per, hst.bad]
    by_cases hall : L.all Fr.bad = true
    · rw [hall]
      have : L.filter Fr.bad = L := List.filter_eq_self.2 (List.all_eq_true.1 hall)
      change decide ((L.filter Fr.bad).length < L.length) = _
      rw [this]; simp
    · rw [Bool.not_eq_true] at hall
      rw [hall]
      rw [List.all_eq_false] at hall
      obtain ⟨f, hf, hb⟩ := hall
      have : 0 < (L.filter (fun f => !Fr.bad f)).length := by
        apply List.length_pos_of_mem (a := f)
        rw [List.mem_filter]; exact ⟨hf, by simpa using hb⟩
      change decide ((L.filter Fr.bad).length < L.length) = _
      simp only [Bool.not_false, decide_eq_true_eq]
      omega
  simp only [List.map_cons, List.map_nil, hreach]
  by_cases hall : L.all Fr.bad = true
  · simp [hall]
  · rw [if_neg hall, if_pos (by simpa using hall)]
    congr 1
    apply List.map_congr_left
    intro b _
    have hne : imgs ≠ [] := by
      rintro rfl
      apply hall; simp [hL]
    unfold xsvsAll
    simp only [List.foldl_cons, List.foldl_nil]
    rw [xsvsSet_zero _ _ _ _ _ _ (by simpa using hne)]
    simp only
    rw [hst.prob, hst.probPow]

theorem values_some (labels : List ℤ) (x : ℤ) (hx : 0 < x) (img : List (Option ℚ)) (hgood : Spec.isBad labels img = false) :
    Spec.values labels x img = ((Spec.values labels x img).filterMap id).map some := by
  have hall : ∀ v ∈ Spec.values labels x img, v.isSome := by
    intro v hv
    unfold Spec.values at hv
    rw [List.mem_map] at hv
    obtain ⟨p, hp, rfl⟩ := hv
    rw [List.mem_filter, decide_eq_true_eq] at hp
    unfold Spec.isBad at hgood
    rw [List.any_eq_false] at hgood
    have := hgood p hp.1
    rw [hp.2] at this
    cases h : p.2 with
    | none => simp [h, hx] at this
    | some v => rfl
  revert hall
  generalize Spec.values labels x img = V
  induction V with
  | nil => intro _; rfl
  | cons a t ih =>
    intro hall
    cases a with
    | none => have := hall none (by simp); cases this
    | some v =>
      exact congrArg (some v :: ·) (ih (fun w hw => hall w (by simp [hw])))

/-- The histogram of a region is the list of its shares of pixels. -/
theorem hist_share (labels : List ℤ) (x : ℤ) (hx : 0 < x) (img : List (Option ℚ)) (h : labels.length ≤ img.length) (E M : ℕ) (hM : M + 2 ≤ E)
    (hph : Spec.Photons labels M img) (hgood : Spec.isBad labels img = false) (K : ℕ) :
    speHist E (roiData (labelsOf labels) x.toNat (frameFn labels img)) K = Spec.share labels x img K := by
  rw [roiData_values labels x hx img h _ (frameOf_ok labels img h)]
  unfold speHist Spec.share
  have hmem : ∀ v ∈ (Spec.values labels x img).filterMap id, ∃ n : ℕ, v = n ∧ n + 2 ≤ E := by
    intro v hv
    rw [List.mem_filterMap] at hv
    obtain ⟨o, ho, e⟩ := hv
    simp only [id] at e
    subst e
    unfold Spec.values at ho
    rw [List.mem_map] at ho
    obtain ⟨p, hp, e⟩ := ho
    rw [List.mem_filter, decide_eq_true_eq] at hp
    rcases hph p hp.1 (by rw [hp.2]; exact hx) with h0 | ⟨n, h0, h1⟩
    · rw [h0] at e; cases e
    · rw [h0] at e
      exact ⟨n, (Option.some.inj e).symm, by omega⟩
  conv_rhs => rw [values_some labels x hx img hgood]
  rw [List.length_map]
  congr 2
  · unfold List.count
    rw [List.countP_map]
    apply List.countP_congr
    intro v hv
    obtain ⟨n, rfl, h2⟩ := hmem v hv
    rw [inBin_nat E K n h2]
    simp
  · rw [List.countP_eq_length]
    intro v hv
    obtain ⟨n, rfl, h2⟩ := hmem v hv
    rw [List.any_eq_true]
    exact ⟨n, by simp; omega, by rw [inBin_nat E n n h2]; simp⟩

/-- The first row of the table: entry K of region x is the mean over the images without NaN of the fraction of the region's
pixels that have exactly K photons (and of its square); the entry is still 0 if there is no such image.  max_cts has to
exceed the counts by two.  It does not matter whether the images come from a list or from a generator. -/
theorem C224_counts_partial (imgs : List (List (Option ℚ))) (gen : Bool) (labels : List ℤ) (hsz : ∀ img ∈ imgs, labels.length ≤ img.length)
    (N tb m : ℕ) (htb : 2 ≤ tb) (M : ℕ) (hM : M + 2 ≤ m) (hph : ∀ img ∈ imgs, Spec.Photons labels M img) (x : ℤ) (hx : 0 < x) (hm : x ∈ labels) :
    ∃ tab row, xsvs [⟨imgs, gen⟩] labels N tb (some m) = some (.ok tab) ∧ tab[0]? = some row ∧
      row[Corr.Spec.column labels x]? = some (if imgs.all (Spec.isBad labels) then none
        else some ((List.range (m - 1)).map (fun K =>
          (Spec.goodMean labels imgs (fun img => Spec.share labels x img K), Spec.goodMean labels imgs (fun img => Spec.share labels x img K ^ 2))))) := by
  obtain ⟨s, hs, h1, _, _⟩ := series_some N tb htb
  set g : ℕ → Fr (Corr.extractLabelIndices labels).2.length := fun i => frameFn labels ((imgs[i]?).getD []) with hg
  obtain ⟨row, hr, hc⟩ := cell_eq labels m tb s.length htb imgs 0 (by omega) x hx hm g (by
    intro i img hi; simp [hg, hi])
  refine ⟨_, row, body_eq [⟨imgs, gen⟩] labels (by intro st hst img himg; rw [List.mem_singleton] at hst; subst hst; exact hsz img himg) N tb m s hs, hr, ?_⟩
  rw [hc]
  have hL : (List.range imgs.length).map (ovl g 0) = imgs.map (frameFn labels) := by
    apply List.ext_getElem
    · simp
    · intro i h1 h2
      rw [List.length_map, List.length_range] at h1
      simp [ovl, hg, h1]
  rw [hL]
  have hbad : ∀ img ∈ imgs, (frameFn labels img).bad = Spec.isBad labels img := fun img himg =>
    bad_iff labels img (hsz img himg) _ (frameOf_ok labels img (hsz img himg))
  have e1 : (imgs.map (frameFn labels)).all Fr.bad = imgs.all (Spec.isBad labels) := by
    rw [List.all_map, Bool.eq_iff_iff, List.all_eq_true, List.all_eq_true]
    constructor
    · intro h img himg; rw [← hbad img himg]; exact h img himg
    · intro h img himg; change (frameFn labels img).bad = true; rw [hbad img himg]; exact h img himg
  rw [e1, pow_zero, mul_one]
  congr 1
  split
  · rfl
  · congr 1
    apply List.map_congr_left
    intro K _
    have hmean : ∀ pw, meanHist (labelsOf labels) m (imgs.map (frameFn labels)) pw x.toNat K =
        Spec.goodMean labels imgs (fun img => Spec.share labels x img K ^ pw) := by
      intro pw
      unfold meanHist Spec.goodMean
      rw [List.filter_map, List.map_map, List.length_map]
      have ef : imgs.filter ((fun f => !Fr.bad f) ∘ frameFn labels) = imgs.filter (fun img => !Spec.isBad labels img) := by
        apply List.filter_congr
        intro img himg
        rw [Function.comp, hbad img himg]
      rw [ef]
      congr 2
      apply List.map_congr_left
      intro img himg
      rw [List.mem_filter] at himg
      simp only [Function.comp]
      rw [hist_share labels x hx img (hsz img himg.1) m M hM (hph img himg.1) (by simpa using himg.2)]
    rw [hmean, hmean]
    simp

theorem photon_values (labels : List ℤ) (imgs : List (List (Option ℚ))) (hsz : ∀ img ∈ imgs, labels.length ≤ img.length) (M : ℕ)
    (hph : ∀ img ∈ imgs, Spec.Photons labels M img ∧ Spec.isBad labels img = false) (i : ℕ) (hi : i < imgs.length) (q : ℕ) (hq : q < labels.length)
    (hpos : 0 < labels[q]) : ∃ ν : ℕ, (((imgs[i]?).getD [])[q]?).getD none = some (ν : ℚ) ∧ ν ≤ M := by
  have hm : imgs[i] ∈ imgs := List.getElem_mem _
  have hq2 : q < imgs[i].length := lt_of_lt_of_le hq (hsz _ hm)
  have hz : (labels[q], imgs[i][q]) ∈ labels.zip imgs[i] := by
    have hl : q < (labels.zip imgs[i]).length := by rw [List.length_zip]; omega
    have := List.getElem_mem hl
    rwa [List.getElem_zip] at this
  obtain ⟨h1, h2⟩ := hph _ hm
  rw [List.getElem?_eq_getElem hi, Option.getD_some, List.getElem?_eq_getElem hq2, Option.getD_some]
  rcases h1 _ hz hpos with h0 | h0
  · unfold Spec.isBad at h2
    rw [List.any_eq_false] at h2
    have := h2 _ hz
    simp only at h0
    rw [h0] at this
    simp [hpos] at this
  · exact h0

theorem window_photons (labels : List ℤ) (imgs : List (List (Option ℚ))) (M : ℕ)
    (hval : ∀ i < imgs.length, ∀ (q : ℕ) (hq : q < labels.length), 0 < labels[q] → ∃ ν : ℕ, (((imgs[i]?).getD [])[q]?).getD none = some (ν : ℚ) ∧ ν ≤ M)
    (k n : ℕ) (hn : n < imgs.length) : Spec.Photons labels (M * 2 ^ k) (Spec.window labels.length imgs k n) := by
  intro p hp hpos
  obtain ⟨q, hq, rfl⟩ := List.getElem_of_mem hp
  rw [List.length_zip] at hq
  rw [List.getElem_zip] at hpos ⊢
  have hq1 : q < labels.length := by omega
  right
  have hex : ∀ j, ∃ ν : ℕ, (if j ≤ n then (k.choose j : ℚ) * ((((imgs[n - j]?).getD [])[q]?).getD none).getD 0 else 0) = (ν : ℚ) ∧ ν ≤ k.choose j * M := by
    intro j
    by_cases hj : j ≤ n
    · obtain ⟨ν, h1, h2⟩ := hval (n - j) (by omega) q hq1 hpos
      refine ⟨k.choose j * ν, ?_, Nat.mul_le_mul_left _ h2⟩
      rw [if_pos hj, h1]; simp
    · exact ⟨0, by rw [if_neg hj]; simp, Nat.zero_le _⟩
  choose ν h1 h2 using hex
  refine ⟨∑ j ∈ range (k + 1), ν j, ?_, ?_⟩
  · simp only [Spec.window, List.getElem_map, List.getElem_range]
    rw [Nat.cast_sum]
    congr 1
    exact sum_congr rfl (fun j _ => h1 j)
  · calc ∑ j ∈ range (k + 1), ν j ≤ ∑ j ∈ range (k + 1), k.choose j * M := sum_le_sum (fun j _ => h2 j)
      _ = M * 2 ^ k := by rw [← sum_mul, Nat.sum_range_choose, mul_comm]

/-- Row k of the table for images without NaN: entry K of region x is the mean over all n of the fraction of the region's
pixels whose weighted sum of the k + 1 last images up to n is K (see `Spec.window`; documented are sums of disjoint groups, C55). -/
theorem C224_rows_partial (imgs : List (List (Option ℚ))) (gen : Bool) (labels : List ℤ) (hsz : ∀ img ∈ imgs, labels.length ≤ img.length)
    (N tb m : ℕ) (htb : 2 ≤ tb) (M : ℕ) (hM : M + 2 ≤ m) (hph : ∀ img ∈ imgs, Spec.Photons labels M img ∧ Spec.isBad labels img = false)
    (hne : imgs ≠ []) (x : ℤ) (hx : 0 < x) (hm : x ∈ labels) :
    ∃ tab, xsvs [⟨imgs, gen⟩] labels N tb (some m) = some (.ok tab) ∧ ∀ k < tab.length, ∃ row, tab[k]? = some row ∧
      row[Corr.Spec.column labels x]? = some (some ((List.range (m * 2 ^ k - 1)).map (fun K =>
          (Spec.mean ((List.range imgs.length).map (fun n => Spec.share labels x (Spec.window labels.length imgs k n) K)),
           Spec.mean ((List.range imgs.length).map (fun n => Spec.share labels x (Spec.window labels.length imgs k n) K ^ 2)))))) := by
  obtain ⟨s, hs, h1, _, _⟩ := series_some N tb htb
  refine ⟨_, body_eq [⟨imgs, gen⟩] labels (by intro st hst img himg; rw [List.mem_singleton] at hst; subst hst; exact hsz img himg) N tb m s hs, ?_⟩
  intro k hk
  have hk' : k < s.length := by simpa [table] using hk
  set g : ℕ → Fr (Corr.extractLabelIndices labels).2.length := fun i => frameFn labels ((imgs[i]?).getD []) with hg
  obtain ⟨row, hr, hc⟩ := cell_eq labels m tb s.length htb imgs k hk' x hx hm g (by
    intro i img hi; simp [hg, hi])
  refine ⟨row, hr, ?_⟩
  rw [hc]
  have hval := photon_values labels imgs hsz M hph
  have hL : (List.range imgs.length).map (ovl g k) = (List.range imgs.length).map (fun n => frameFn labels (Spec.window labels.length imgs k n)) := by
    apply List.map_congr_left
    intro n hn
    rw [List.mem_range] at hn
    funext p
    have hmI : (Corr.extractLabelIndices labels).2[p] ∈ (Corr.extractLabelIndices labels).2 := List.getElem_mem _
    obtain ⟨hq, hpos⟩ := (mem_indices labels _).1 hmI
    rw [ovl_closed g (fun i p => ((((imgs[i]?).getD [])[(Corr.extractLabelIndices labels).2[p]]?).getD none).getD 0) k n p (by
      intro i hi
      obtain ⟨ν, hν, _⟩ := hval i (by omega) _ hq hpos
      simp only [hg, frameFn]
      rw [hν]; rfl)]
    unfold frameFn Spec.window
    rw [List.getElem?_map, List.getElem?_range hq]
    rfl
  have hgood : ∀ n, Spec.isBad labels (Spec.window labels.length imgs k n) = false := by
    intro n
    unfold Spec.isBad
    rw [List.any_eq_false]
    intro p hp
    obtain ⟨v, hv⟩ : ∃ v, p.2 = some v := by
      have h2 : p.2 ∈ Spec.window labels.length imgs k n := (List.of_mem_zip hp).2
      unfold Spec.window at h2
      rw [List.mem_map] at h2
      obtain ⟨q, _, e⟩ := h2
      exact ⟨_, e.symm⟩
    simp [hv]
  have hlen : ∀ n, labels.length ≤ (Spec.window labels.length imgs k n).length := by intro n; simp [Spec.window]
  have hb : ∀ n, (frameFn labels (Spec.window labels.length imgs k n)).bad = false := fun n => by
    rw [bad_iff labels _ (hlen n) _ (frameOf_ok labels _ (hlen n)), hgood n]
  have hfil : ((List.range imgs.length).map (ovl g k)).filter (fun f => !Fr.bad f) = (List.range imgs.length).map (fun n => frameFn labels (Spec.window labels.length imgs k n)) := by
    rw [hL, List.filter_eq_self]
    intro f hf
    rw [List.mem_map] at hf
    obtain ⟨n, _, rfl⟩ := hf
    rw [hb n]; rfl
  rw [if_neg]
  · congr 2
    apply List.map_congr_left
    intro K _
    have hmean : ∀ pw, meanHist (labelsOf labels) (m * 2 ^ k) ((List.range imgs.length).map (ovl g k)) pw x.toNat K =
        Spec.mean ((List.range imgs.length).map (fun n => Spec.share labels x (Spec.window labels.length imgs k n) K ^ pw)) := by
      intro pw
      unfold meanHist Spec.mean
      rw [hfil, List.map_map, List.length_map, List.length_map]
      congr 2
      apply List.map_congr_left
      intro n hn
      rw [List.mem_range] at hn
      simp only [Function.comp]
      rw [hist_share labels x hx _ (hlen n) (m * 2 ^ k) (M * 2 ^ k) ?_ (window_photons labels imgs M hval k n hn) (hgood n)]
      have : 1 ≤ 2 ^ k := Nat.one_le_two_pow
      calc M * 2 ^ k + 2 ≤ M * 2 ^ k + 2 * 2 ^ k := by omega
        _ = (M + 2) * 2 ^ k := by ring
        _ ≤ m * 2 ^ k := Nat.mul_le_mul_right _ hM
    rw [hmean, hmean]
    simp
  · rw [hL, Bool.not_eq_true, List.all_eq_false]
    have hpos : 0 < imgs.length := List.length_pos_of_ne_nil hne
    exact ⟨_, List.mem_map_of_mem (List.mem_range.2 hpos), by rw [hb 0]; simp⟩

/-! ## The default of max_cts and generators -/

theorem mem_posvals (labels : List ℤ) (img : List (Option ℚ)) (o : Option ℚ) :
    o ∈ ((labels.zip img).filter (fun p => decide (0 < p.1))).map Prod.snd ↔ ∃ p ∈ labels.zip img, 0 < p.1 ∧ p.2 = o := by
  simp only [List.mem_map, List.mem_filter, decide_eq_true_eq]
  constructor
  · rintro ⟨p, ⟨h1, h2⟩, h3⟩; exact ⟨p, h1, h2, h3⟩
  · rintro ⟨p, h1, h2, h3⟩; exact ⟨p, ⟨h1, h2⟩, h3⟩

theorem maximum_bad (labels : List ℤ) (img : List (Option ℚ)) (h : Spec.isBad labels img = true) : maximum labels img = .ok none := by
  unfold Spec.isBad at h
  rw [List.any_eq_true] at h
  obtain ⟨p, hp, hb⟩ := h
  rw [Bool.and_eq_true, decide_eq_true_eq, Option.isNone_iff_eq_none] at hb
  have hm := (mem_posvals labels img none).2 ⟨p, hp, hb.1, hb.2⟩
  unfold maximum
  simp only
  rw [if_neg (List.ne_nil_of_mem hm), if_pos hm]

theorem maximum_good (labels : List ℤ) (img : List (Option ℚ)) (h : Spec.isBad labels img = false) (hsz : labels.length ≤ img.length)
    (hpos : ∃ x ∈ labels, 0 < x) :
    ∃ v, maximum labels img = .ok (some v) ∧ (∃ p ∈ labels.zip img, 0 < p.1 ∧ p.2 = some v) ∧
      ∀ p ∈ labels.zip img, 0 < p.1 → ∀ w, p.2 = some w → w ≤ v := by
  obtain ⟨x, hx, hx0⟩ := hpos
  obtain ⟨q, hq, rfl⟩ := List.getElem_of_mem hx
  have hq2 : q < img.length := by omega
  have hz : (labels[q], img[q]) ∈ labels.zip img := by
    have hl : q < (labels.zip img).length := by rw [List.length_zip]; omega
    have := List.getElem_mem hl
    rwa [List.getElem_zip] at this
  have hnone : ¬ none ∈ ((labels.zip img).filter (fun p => decide (0 < p.1))).map Prod.snd := by
    rw [mem_posvals]
    rintro ⟨p, h1, h2, h3⟩
    unfold Spec.isBad at h
    rw [List.any_eq_false] at h
    have := h p h1
    simp [h2, h3] at this
  have hmem := (mem_posvals labels img img[q]).2 ⟨_, hz, hx0, rfl⟩
  set vals := ((labels.zip img).filter (fun p => decide (0 < p.1))).map Prod.snd with hv
  have hfm : ∀ w, w ∈ vals.filterMap id ↔ some w ∈ vals := by intro w; simp
  have hne : vals.filterMap id ≠ [] := by
    cases hi : img[q] with
    | none => rw [hi] at hmem; exact absurd hmem hnone
    | some w => rw [hi] at hmem; exact List.ne_nil_of_mem ((hfm w).2 hmem)
  obtain ⟨v, hmax⟩ : ∃ v, (vals.filterMap id).max? = some v := by
    cases hm : (vals.filterMap id).max? with
    | none => rw [List.max?_eq_none_iff] at hm; exact absurd hm hne
    | some v => exact ⟨v, rfl⟩
  refine ⟨v, ?_, ?_, ?_⟩
  · unfold maximum
    simp only
    rw [← hv, if_neg (List.ne_nil_of_mem hmem), if_neg hnone, hmax]
  · rw [List.max?_eq_some_iff] at hmax
    exact (mem_posvals labels img _).1 ((hfm v).1 hmax.1)
  · intro p hp hp0 w hw
    rw [List.max?_eq_some_iff] at hmax
    exact hmax.2 w ((hfm w).2 ((mem_posvals labels img _).2 ⟨p, hp, hp0, hw⟩))

/-- What `roi_max_counts` returns: the largest value in a region of an image without NaN there, or 0. -/
theorem maxCounts_spec (labels : List ℤ) (hpos : ∃ x ∈ labels, 0 < x) (imgs : List (List (Option ℚ))) (hsz : ∀ img ∈ imgs, labels.length ≤ img.length) :
    ∃ r, maxCounts labels imgs = .ok r ∧ 0 ≤ r ∧
      (∀ img ∈ imgs, Spec.isBad labels img = false → ∀ p ∈ labels.zip img, 0 < p.1 → ∀ w, p.2 = some w → w ≤ r) ∧
      (r = 0 ∨ ∃ img ∈ imgs, ∃ p ∈ labels.zip img, 0 < p.1 ∧ p.2 = some r) := by
  unfold maxCounts
  suffices H : ∀ (imgs : List (List (Option ℚ))) (r0 : ℚ), (∀ img ∈ imgs, labels.length ≤ img.length) → ∃ r,
      imgs.foldlM (fun m img => do
        match ← maximum labels img with
        | none => pure m
        | some x => pure (max m x)) r0 = (.ok r : Py ℚ) ∧ r0 ≤ r ∧
      (∀ img ∈ imgs, Spec.isBad labels img = false → ∀ p ∈ labels.zip img, 0 < p.1 → ∀ w, p.2 = some w → w ≤ r) ∧
      (r = r0 ∨ ∃ img ∈ imgs, ∃ p ∈ labels.zip img, 0 < p.1 ∧ p.2 = some r) from H imgs 0 hsz
  clear hsz imgs
  intro imgs
  induction imgs with
  | nil => intro r0 _; exact ⟨r0, rfl, le_refl _, by simp, Or.inl rfl⟩
  | cons a t ih =>
    intro r0 hsz
    rw [List.foldlM_cons]
    cases hb : Spec.isBad labels a with
    | true =>
      rw [maximum_bad labels a hb]
      obtain ⟨r, h1, h2, h3, h4⟩ := ih r0 (fun img hi => hsz img (by simp [hi]))
      refine ⟨r, h1, h2, ?_, ?_⟩
      · intro img hi hg
        rcases List.mem_cons.1 hi with rfl | hi
        · rw [hb] at hg; cases hg
        · exact h3 img hi hg
      · rcases h4 with h4 | ⟨img, hi, h4⟩
        · exact Or.inl h4
        · exact Or.inr ⟨img, by simp [hi], h4⟩
    | false =>
      obtain ⟨v, hm, hv1, hv2⟩ := maximum_good labels a hb (hsz a (by simp)) hpos
      rw [hm]
      obtain ⟨r, h1, h2, h3, h4⟩ := ih (max r0 v) (fun img hi => hsz img (by simp [hi]))
      refine ⟨r, h1, le_trans (le_max_left _ _) h2, ?_, ?_⟩
      · intro img hi hg
        rcases List.mem_cons.1 hi with rfl | hi
        · intro p hp hp0 w hw
          exact le_trans (hv2 p hp hp0 w hw) (le_trans (le_max_right _ _) h2)
        · exact h3 img hi hg
      · rcases h4 with h4 | ⟨img, hi, h4⟩
        · rcases max_choice r0 v with hc | hc
          · left; rw [h4, hc]
          · right
            obtain ⟨p, hp, hp0, hpv⟩ := hv1
            exact ⟨a, by simp, p, hp, hp0, by rw [hpv, h4, hc]⟩
        · exact Or.inr ⟨img, by simp [hi], h4⟩

/-- With max_cts given, image sets that are generators are treated like lists of the same images. -/
theorem C224_generator_partial (sets : List ImageSet) (labels : List ℤ) (N tb m : ℕ) :
    xsvs sets labels N tb (some m) = xsvs (sets.map (fun s => ⟨s.images, false⟩)) labels N tb (some m) := by
  simp only [xsvs, xsvsBody, List.mapM_map]
  rfl

/-- Without max_cts, `roi_max_counts` exhausts the generators and every entry of the result is still 0, whatever the images. -/
theorem C224_generator_refuted (sets : List ImageSet) (hgen : ∀ s ∈ sets, s.generator = true) (labels : List ℤ) (hpos : ∃ x ∈ labels, 0 < x)
    (hsz : ∀ s ∈ sets, ∀ img ∈ s.images, labels.length ≤ img.length) (N tb : ℕ) (htb : 2 ≤ tb) :
    ∃ tab, xsvs sets labels N tb none = some (.ok tab) ∧ ∀ row ∈ tab, row.length = ((labels.toFinset).filter (0 < ·)).card ∧ ∀ cell ∈ row, cell = none := by
  obtain ⟨s, hs, _⟩ := series_some N tb htb
  obtain ⟨r, hr, _⟩ := maxCounts_spec labels hpos (sets.flatMap ImageSet.images) (by
    intro img hi
    rw [List.mem_flatMap] at hi
    obtain ⟨st, h1, h2⟩ := hi
    exact hsz st h1 img h2)
  have hafter : ∀ st ∈ sets, st.after.images = [] := by
    intro st hst
    unfold ImageSet.after
    rw [if_pos (hgen st hst)]
  refine ⟨_, by
    unfold xsvs
    simp only [hr]
    exact body_eq (sets.map ImageSet.after) labels (by
      intro st hst img hi
      rw [List.mem_map] at hst
      obtain ⟨s0, h0, rfl⟩ := hst
      rw [hafter s0 h0] at hi
      cases hi) N tb _ s hs, ?_⟩
  intro row hrow
  unfold table at hrow
  simp only [List.mem_map] at hrow
  obtain ⟨l, _, rfl⟩ := hrow
  refine ⟨by rw [List.length_map, unique_length], ?_⟩
  intro cell hc
  rw [List.mem_map] at hc
  obtain ⟨x, _, rfl⟩ := hc
  rw [if_neg]
  unfold reached
  rw [Bool.not_eq_true, List.any_eq_false]
  intro fs hfs
  simp only [List.map_map, List.mem_map, Function.comp] at hfs
  obtain ⟨s0, h0, rfl⟩ := hfs
  rw [hafter s0 h0]
  simp [XState.init]

/-- For lists of images of photon counts, leaving max_cts out is the same as passing the largest count in a region. -/
theorem C224_default_partial (sets : List ImageSet) (hlist : ∀ s ∈ sets, s.generator = false) (labels : List ℤ)
    (hsz : ∀ s ∈ sets, ∀ img ∈ s.images, labels.length ≤ img.length) (N tb M : ℕ)
    (hph : ∀ s ∈ sets, ∀ img ∈ s.images, Spec.Photons labels M img)
    (hatt : ∃ s ∈ sets, ∃ img ∈ s.images, Spec.isBad labels img = false ∧ ∃ p ∈ labels.zip img, 0 < p.1 ∧ p.2 = some (M : ℚ)) :
    xsvs sets labels N tb none = xsvs sets labels N tb (some M) := by
  obtain ⟨s1, hs1, img1, hi1, hg1, p1, hp1, hp10, hp1v⟩ := hatt
  obtain ⟨r, hr, h0, hup, hat⟩ := maxCounts_spec labels ⟨p1.1, (List.of_mem_zip hp1).1, hp10⟩ (sets.flatMap ImageSet.images) (by
    intro img hi
    rw [List.mem_flatMap] at hi
    obtain ⟨st, h1, h2⟩ := hi
    exact hsz st h1 img h2)
  have hrM : r = M := by
    apply le_antisymm
    · rcases hat with h | ⟨img, hi, p, hp, hp0, hv⟩
      · rw [h]; exact Nat.cast_nonneg _
      · rw [List.mem_flatMap] at hi
        obtain ⟨st, h1, h2⟩ := hi
        rcases hph st h1 img h2 p hp hp0 with h | ⟨n, h, hn⟩
        · rw [h] at hv; cases hv
        · rw [h] at hv
          rw [← Option.some.inj hv]
          exact_mod_cast hn
    · exact hup img1 (List.mem_flatMap.2 ⟨s1, hs1, hi1⟩) hg1 p1 hp1 hp10 _ hp1v
  have hmap : sets.map ImageSet.after = sets := by
    conv_rhs => rw [← List.map_id sets]
    apply List.map_congr_left
    intro st hst
    unfold ImageSet.after
    rw [hlist st hst]
    rfl
  unfold xsvs
  simp only [hr, hmap, hrM, Nat.ceil_natCast]

/-- Then the arrays of the first row have no entry for the largest count, though it occurs, and none for the one below. -/
theorem C224_default_refuted (sets : List ImageSet) (hlist : ∀ s ∈ sets, s.generator = false) (labels : List ℤ)
    (hsz : ∀ s ∈ sets, ∀ img ∈ s.images, labels.length ≤ img.length) (N tb M : ℕ) (htb : 2 ≤ tb)
    (hph : ∀ s ∈ sets, ∀ img ∈ s.images, Spec.Photons labels M img)
    (hatt : ∃ s ∈ sets, ∃ img ∈ s.images, Spec.isBad labels img = false ∧ ∃ p ∈ labels.zip img, 0 < p.1 ∧ p.2 = some (M : ℚ)) :
    ∃ tab row, xsvs sets labels N tb none = some (.ok tab) ∧ tab[0]? = some row ∧ ∀ cell ∈ row, ∀ l, cell = some l → l[M]? = none ∧ l[M - 1]? = none := by
  obtain ⟨tab, h1, h2, _, _, h5⟩ := C224_table sets labels hsz N tb M htb
  obtain ⟨row, hrow⟩ : ∃ row, tab[0]? = some row := ⟨_, List.getElem?_eq_getElem (by omega)⟩
  refine ⟨tab, row, by rw [C224_default_partial sets hlist labels hsz N tb M hph hatt, h1], hrow, ?_⟩
  intro cell hc l hl
  have := (h5 0 row hrow).2 cell hc l hl
  rw [pow_zero, mul_one] at this
  exact ⟨List.getElem?_eq_none (by omega), List.getElem?_eq_none (by omega)⟩

/-! ## The hypotheses are met -/

/-- Two regions in four pixels, three images with up to three photons, the second one bad. -/
def exLabels : List ℤ := [1, 0, 2, 1]
def exImages : List (List (Option ℚ)) := [[some 3, some 9, some 0, some 1], [none, none, none, none], [some 0, some 7, some 2, some 0]]

theorem ex_photons : ∀ img ∈ exImages, Spec.Photons exLabels 3 img := by
  intro img hi p hp h0
  have h : ∀ img ∈ exImages, ∀ p ∈ exLabels.zip img, 0 < p.1 → p.2 = none ∨ ∃ n ∈ List.range 4, p.2 = some (n : ℚ) := by decide +kernel
  rcases h img hi p hp h0 with h | ⟨n, hn, h⟩
  · exact Or.inl h
  · exact Or.inr ⟨n, h, by rw [List.mem_range] at hn; omega⟩

example : ∃ tab row, xsvs [⟨exImages, true⟩] exLabels 4 2 (some 5) = some (.ok tab) ∧ tab[0]? = some row ∧
    row[0]? = some (some [(1/2, 1/2), (1/4, 1/8), (0, 0), (1/4, 1/8)]) := by
  obtain ⟨tab, row, h1, h2, h3⟩ := C224_counts_partial exImages true exLabels (by decide) 4 2 5 (by decide) 3 (by decide) ex_photons 1 (by decide) (by decide)
  refine ⟨tab, row, h1, h2, ?_⟩
  have e : Corr.Spec.column exLabels 1 = 0 := by decide
  rw [e] at h3
  rw [h3]
  decide +kernel

example : ∃ tab, xsvs [⟨exImages, true⟩] exLabels 4 2 none = some (.ok tab) ∧ ∀ row ∈ tab, row.length = 2 ∧ ∀ cell ∈ row, cell = none :=
  C224_generator_refuted [⟨exImages, true⟩] (by decide) exLabels (by decide) (by decide) 4 2 (by decide)

example : xsvs [⟨exImages, false⟩] exLabels 4 2 none = xsvs [⟨exImages, false⟩] exLabels 4 2 (some 3) :=
  C224_default_partial [⟨exImages, false⟩] (by decide) exLabels (by decide) 4 2 3
    (by intro s hs; rw [List.mem_singleton] at hs; subst hs; exact ex_photons)
    ⟨_, List.mem_singleton.2 rfl, [some 3, some 9, some 0, some 1], by decide +kernel, by decide +kernel, (1, some 3), by decide +kernel, by decide, by norm_num⟩

end Verif.Speckle
