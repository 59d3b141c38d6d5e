/- C272: laws of mean_intensity (skbeam/core/roi.py 365-410). -/
import Verif.Roi.StatProps
import Mathlib.Data.List.Sort

namespace Verif.Roi
open Verif

theorem select_map_values (labels : List ℤ) (img : List ℚ) (f : ℚ → ℚ) (n : ℤ) : select labels (img.map f) n = (select labels img n).map f := by
  unfold select
  rw [List.zip_map_right, List.filter_map]
  simp only [List.map_map]
  rfl

theorem sum_affine (c b : ℚ) (l : List ℚ) : (l.map (fun v => c * v + b)).sum = c * l.sum + l.length * b := by
  induction l with
  | nil => simp
  | cons a l ih => rw [List.map_cons, List.sum_cons, ih, List.sum_cons, List.length_cons]; push_cast; ring

theorem labelMean_affine (labels : List ℤ) (img : List ℚ) (c b : ℚ) (n : ℤ) :
    labelMean labels (img.map (fun v => c * v + b)) n = (labelMean labels img n).map (fun v => c * v + b) := by
  unfold labelMean
  simp only [select_map_values]
  by_cases h : select labels img n = []
  · rw [h]; rfl
  · rw [if_neg h, if_neg (by simpa using h), Option.map_some, sum_affine, List.length_map]
    have : ((select labels img n).length : ℚ) ≠ 0 := by
      rw [Nat.cast_ne_zero]
      exact fun h0 => h (List.eq_nil_of_length_eq_zero h0)
    congr 1
    field_simp

/-! ## C272 -/

/-- C272: scale and offset of the images are scale and offset of every mean; labels without pixels stay NaN and errors stay. -/
theorem C272_affine (images : List (List ℚ)) (labels : List ℤ) (index : Option (List ℤ)) (c b : ℚ) :
    meanIntensity (images.map (List.map (fun v => c * v + b))) labels index =
      (meanIntensity images labels index).map (fun r => (r.1.map (List.map (Option.map (fun v => c * v + b))), r.2)) := by
  cases images with
  | nil => rfl
  | cons img0 rest =>
    simp only [meanIntensity, List.map_cons, List.length_map]
    split_ifs
    · rfl
    · cases chooseIndex labels index with
      | error e => rfl
      | ok idx =>
        simp only [Except.map, List.map_cons, List.map_map]
        congr 2
        have key : ∀ img : List ℚ, idx.map (labelMean labels (img.map (fun v => c * v + b))) =
            idx.map (Option.map (fun v => c * v + b) ∘ labelMean labels img) := by
          intro img
          apply List.map_congr_left
          intro n _
          exact labelMean_affine labels img c b n
        rw [key]
        congr 1
        apply List.map_congr_left
        intro img _
        simp only [Function.comp, key, List.map_map]

/-- C272: the rows of a longer series are the rows of its parts. -/
theorem C272_series (A B : List (List ℚ)) (labels : List ℤ) (index : Option (List ℤ)) (ra rb : List (List (Option ℚ))) (ia ib : List ℤ)
    (ha : meanIntensity A labels index = .ok (ra, ia)) (hb : meanIntensity B labels index = .ok (rb, ib)) :
    ib = ia ∧ meanIntensity (A ++ B) labels index = .ok (ra ++ rb, ia) := by
  cases A with
  | nil => cases ha
  | cons a A =>
    cases B with
    | nil => cases hb
    | cons b B =>
      simp only [meanIntensity, List.cons_append] at ha hb ⊢
      split_ifs at ha with h1
      split_ifs at hb with h2
      rw [if_neg h1]
      cases hc : chooseIndex labels index with
      | error e => rw [hc] at ha; cases ha
      | ok idx =>
        rw [hc] at ha hb
        cases ha; cases hb
        refine ⟨rfl, ?_⟩
        simp only [List.map_cons, List.map_append, List.cons_append]

/-- C272: a mean lies between the bounds of the pixels of its region. -/
theorem C272_between (labels : List ℤ) (img : List ℚ) (lo hi : ℚ) (n : ℤ) (hb : ∀ p ∈ labels.zip img, p.1 = n → lo ≤ p.2 ∧ p.2 ≤ hi)
    (rows : List (List (Option ℚ))) (idx : List ℤ) (h : meanIntensity [img] labels (some [n]) = .ok (rows, idx)) :
    ∃ m, rows = [[m]] ∧ ∀ v, m = some v → lo ≤ v ∧ v ≤ hi := by
  simp only [meanIntensity] at h
  split_ifs at h with h1
  simp only [chooseIndex] at h
  cases h
  refine ⟨labelMean labels img n, rfl, ?_⟩
  intro v hv
  unfold labelMean at hv
  simp only at hv
  split_ifs at hv with h0
  cases hv
  have hall : ∀ w ∈ select labels img n, lo ≤ w ∧ w ≤ hi := by
    intro w hw
    obtain ⟨p, hp, rfl⟩ := List.mem_map.1 hw
    obtain ⟨hp1, hp2⟩ := List.mem_filter.1 hp
    exact hb p hp1 (of_decide_eq_true hp2)
  have hpos : (0 : ℚ) < (select labels img n).length := by
    rw [Nat.cast_pos]
    exact List.length_pos_of_ne_nil h0
  have gen : ∀ l : List ℚ, (∀ w ∈ l, lo ≤ w ∧ w ≤ hi) → lo * l.length ≤ l.sum ∧ l.sum ≤ hi * l.length := by
    intro l
    induction l with
    | nil => intro _; simp
    | cons a l ih =>
      intro hl
      have h2 := ih (fun w hw => hl w (List.mem_cons_of_mem _ hw))
      have h3 := hl a (by simp)
      rw [List.sum_cons, List.length_cons]
      push_cast
      constructor <;> linarith [h2.1, h2.2, h3.1, h3.2]
  obtain ⟨g1, g2⟩ := gen _ hall
  exact ⟨(le_div_iff₀ hpos).2 g1, (div_le_iff₀ hpos).2 g2⟩

/-- C272: new names for the labels, different ones for different labels, are new names for the columns. -/
theorem C272_rename (f : ℤ → ℤ) (hf : Function.Injective f) (images : List (List ℚ)) (labels : List ℤ) (idx : List ℤ) :
    meanIntensity images (labels.map f) (some (idx.map f)) = (meanIntensity images labels (some idx)).map (fun r => (r.1, r.2.map f)) := by
  have hsel : ∀ img n, select (labels.map f) img (f n) = select labels img n := by
    intro img n
    unfold select
    rw [List.zip_map_left, List.filter_map]
    simp only [List.map_map, Function.comp_def, Prod.map, hf.eq_iff, id]
  cases images with
  | nil => rfl
  | cons img0 rest =>
    simp only [meanIntensity, List.length_map]
    split_ifs
    · rfl
    · simp only [chooseIndex, Except.map, List.map_map]
      congr 2
      apply List.map_congr_left
      intro img _
      apply List.map_congr_left
      intro n _
      simp only [Function.comp, labelMean, hsel]

theorem unique_perm {l l' : List ℤ} (h : l.Perm l') : unique l = unique l' := by
  unfold unique
  congr 1
  apply List.Perm.eq_of_pairwise (le := (· ≤ ·))
  · intro a b _ _ h1 h2; exact le_antisymm h1 h2
  · exact List.pairwise_insertionSort _ _
  · exact List.pairwise_insertionSort _ _
  · exact (List.perm_insertionSort _ l).trans (h.trans (List.perm_insertionSort _ l').symm)

/-- C272: where the pixels are does not matter: pixels rearranged in the labels and in every image alike give the same means.
`px` holds, for every pixel, its label and its value in every image. -/
theorem C272_pixels (m : ℕ) (px px' : List (ℤ × (ℕ → ℚ))) (h : px.Perm px') (index : Option (List ℤ)) :
    meanIntensity ((List.range m).map (fun i => px.map (fun p => p.2 i))) (px.map Prod.fst) index =
      meanIntensity ((List.range m).map (fun i => px'.map (fun p => p.2 i))) (px'.map Prod.fst) index := by
  have hmean : ∀ i n, labelMean (px.map Prod.fst) (px.map (fun p => p.2 i)) n = labelMean (px'.map Prod.fst) (px'.map (fun p => p.2 i)) n := by
    intro i n
    have hs : (select (px.map Prod.fst) (px.map (fun p => p.2 i)) n).Perm (select (px'.map Prod.fst) (px'.map (fun p => p.2 i)) n) := by
      unfold select
      rw [List.zip_map', List.zip_map']
      exact ((h.map _).filter _).map _
    unfold labelMean
    simp only [hs.sum_eq, hs.length_eq]
    by_cases h0 : select (px.map Prod.fst) (px.map (fun p => p.2 i)) n = []
    · rw [if_pos h0, if_pos]
      rw [h0] at hs
      exact List.nil_perm.1 hs
    · rw [if_neg h0, if_neg]
      intro h1
      rw [h1] at hs
      exact h0 (List.perm_nil.1 hs)
  have hmean' : ∀ i, labelMean (px.map Prod.fst) (px.map (fun p => p.2 i)) = labelMean (px'.map Prod.fst) (px'.map (fun p => p.2 i)) :=
    fun i => funext (hmean i)
  have hidx : chooseIndex (px.map Prod.fst) index = chooseIndex (px'.map Prod.fst) index := by
    cases index with
    | some i => rfl
    | none => simp only [chooseIndex, defaultIndex, unique_perm (h.map Prod.fst)]
  cases m with
  | zero => rfl
  | succ m =>
    rw [List.range_succ_eq_map]
    simp only [List.map_cons, meanIntensity, List.length_map, ne_eq, not_true_eq_false, if_false, hidx, List.map_map, Function.comp_def, hmean']

/-- Instance: three pixels in two regions and one in the background. -/
example : meanIntensity [[1, 2, 3, 5]] [0, 3, 7, 7] none = .ok ([[some 2, some 4]], [3, 7]) ∧
    meanIntensity [[5, 3, 1, 2]] [7, 7, 0, 3] none = .ok ([[some 2, some 4]], [3, 7]) := by decide +kernel

end Verif.Roi
