/- C278: laws of the label images (skbeam/core/roi.py: rectangles, rings, bar, ring_edges). -/
import Verif.Roi.Props

namespace Verif.Roi
open Verif

theorem rings_at (edges : List ℝ) (center : ℝ × ℝ) (shape : ℕ × ℕ) (img : List (List ℕ)) (h : rings edges center shape = .ok img) (r c : ℕ) :
    Geom.Spec.at img r c = if r < shape.1 ∧ c < shape.2 then
      some (makeRoi edges (Real.sqrt (((c : ℝ) - center.2) * ((c : ℝ) - center.2) + ((r : ℝ) - center.1) * ((r : ℝ) - center.1)))) else none := by
  unfold rings at h
  split_ifs at h with hok
  cases h
  have hat : Geom.Spec.at ((Geom.radialGrid center shape none).map (fun row => row.map (makeRoi edges))) r c =
      (Geom.Spec.at (Geom.radialGrid center shape none) r c).map (makeRoi edges) := by
    unfold Geom.Spec.at
    rw [List.getElem?_map]
    cases (Geom.radialGrid center shape none)[r]? with
    | none => rfl
    | some row => simp
  rw [hat, Geom.radialGrid, Geom.mesh_at]
  by_cases hrc : r < shape.1 ∧ c < shape.2
  · rw [if_pos hrc, if_pos hrc]
    simp [Geom.pixelSize]
  · rw [if_neg hrc, if_neg hrc]
    rfl

theorem edgesOk_map {α β : Type} [LinearOrder α] [LinearOrder β] (f : α → β) (hf : StrictMono f) (edges : List α) : edgesOk (edges.map f) = edgesOk edges := by
  unfold edgesOk
  rw [List.length_map]
  congr 1
  apply decide_eq_decide.2
  rw [List.isChain_map]
  simp only [hf.le_iff_le]

theorem makeRoi_map {α β : Type} [LinearOrder α] [LinearOrder β] (f : α → β) (hf : StrictMono f) (edges : List α) (x : α) :
    makeRoi (edges.map f) (f x) = makeRoi edges x := by
  unfold makeRoi digitizeG
  rw [List.countP_map]
  simp only [Function.comp_def, hf.le_iff_le]

theorem anyLabelled_swap (shape : ℕ × ℕ) (L : ℕ → ℕ → ℕ) (sel : ℕ → ℕ → Bool) :
    anyLabelled shape.swap (fun r c => L c r) (fun r c => sel c r) = anyLabelled shape L sel := by
  rw [Bool.eq_iff_iff]
  simp only [anyLabelled, List.any_eq_true, List.mem_range, Prod.swap]
  constructor
  · rintro ⟨a, ha, b, hb, h⟩; exact ⟨b, hb, a, ha, h⟩
  · rintro ⟨a, ha, b, hb, h⟩; exact ⟨b, hb, a, ha, h⟩

/-! ## Specification -/

/-- The rectangle with its two axes exchanged. -/
def Spec.turned (q : ℤ × ℤ × ℤ × ℤ) : ℤ × ℤ × ℤ × ℤ := (q.2.1, q.1, q.2.2.2, q.2.2.1)

theorem rectLoop_swap (shape : ℕ × ℕ) (qs : List (ℤ × ℤ × ℤ × ℤ)) : ∀ (i : ℕ) (L : ℕ → ℕ → ℕ),
    rectLoop shape.swap i (qs.map Spec.turned) (fun r c => L c r) = (rectLoop shape i qs L).map (fun L r c => L c r) := by
  induction qs with
  | nil => intro i L; rfl
  | cons q t ih =>
    intro i L
    have hsel : rectSel shape.swap (Spec.turned q) = fun r c => rectSel shape q c r := by
      funext r c
      simp only [rectSel, Spec.turned, Prod.swap]
      rw [Bool.and_comm]
    rw [List.map_cons]
    unfold rectLoop
    rw [hsel, anyLabelled_swap]
    split_ifs
    · rfl
    · exact ih (i + 1) (fun r c => if rectSel shape q r c then i + 1 else L r c)

/-! ## C278 -/

/-- C278: rings move with their centre, whatever the sizes of the images: a pixel moved by whole rows and columns keeps its label. -/
theorem C278_rings_move (edges : List ℝ) (center : ℝ × ℝ) (shape shape' : ℕ × ℕ) (a b : ℕ) (img img' : List (List ℕ))
    (h : rings edges center shape = .ok img) (h' : rings edges (center.1 + a, center.2 + b) shape' = .ok img') (r c : ℕ) (hr : r < shape.1) (hc : c < shape.2)
    (hr' : r + a < shape'.1) (hc' : c + b < shape'.2) : Geom.Spec.at img' (r + a) (c + b) = Geom.Spec.at img r c := by
  rw [rings_at edges _ shape' img' h', rings_at edges center shape img h, if_pos ⟨hr', hc'⟩, if_pos ⟨hr, hc⟩]
  push_cast
  simp only [add_sub_add_right_eq_sub]

/-- C278: rings are symmetric about their centre: the mirror images of a pixel in the row and in the column of the centre have its label. -/
theorem C278_rings_mirror (edges : List ℝ) (center : ℝ × ℝ) (shape : ℕ × ℕ) (img : List (List ℕ)) (h : rings edges center shape = .ok img) (r c r' c' : ℕ)
    (hr : r < shape.1) (hc : c < shape.2) (hr' : r' < shape.1) (hc' : c' < shape.2)
    (er : (r : ℝ) = r' ∨ (r : ℝ) + r' = 2 * center.1) (ec : (c : ℝ) = c' ∨ (c : ℝ) + c' = 2 * center.2) :
    Geom.Spec.at img r c = Geom.Spec.at img r' c' := by
  rw [rings_at edges center shape img h, rings_at edges center shape img h, if_pos ⟨hr, hc⟩, if_pos ⟨hr', hc'⟩]
  have e1 : ((r : ℝ) - center.1) * ((r : ℝ) - center.1) = ((r' : ℝ) - center.1) * ((r' : ℝ) - center.1) := by
    rcases er with e | e
    · rw [e]
    · rw [show (r : ℝ) = 2 * center.1 - r' by linarith]; ring
  have e2 : ((c : ℝ) - center.2) * ((c : ℝ) - center.2) = ((c' : ℝ) - center.2) * ((c' : ℝ) - center.2) := by
    rcases ec with e | e
    · rw [e]
    · rw [show (c : ℝ) = 2 * center.2 - c' by linarith]; ring
  rw [e1, e2]

/-- C278: exchanging rows and columns of shape and centre transposes the rings. -/
theorem C278_rings_transposed (edges : List ℝ) (center : ℝ × ℝ) (shape : ℕ × ℕ) (img img' : List (List ℕ)) (h : rings edges center shape = .ok img)
    (h' : rings edges center.swap shape.swap = .ok img') (r c : ℕ) : Geom.Spec.at img' c r = Geom.Spec.at img r c := by
  rw [rings_at edges _ _ img' h', rings_at edges center shape img h]
  apply if_congr and_comm _ rfl
  simp only [Prod.swap]
  rw [add_comm]

/-- C278: further rings outside the given ones leave the labels of the given ones alone. -/
theorem C278_more_rings (edges more : List ℝ) (center : ℝ × ℝ) (shape : ℕ × ℕ) (img img' : List (List ℕ)) (h : rings edges center shape = .ok img)
    (h' : rings (edges ++ more) center shape = .ok img') (r c lab : ℕ) (hl : Geom.Spec.at img r c = some lab) (h0 : lab ≠ 0) : Geom.Spec.at img' r c = some lab := by
  have hok : edgesOk edges = true := by
    by_contra hn
    unfold rings at h
    rw [if_neg hn] at h
    cases h
  have hok' : edgesOk (edges ++ more) = true := by
    by_contra hn
    unfold rings at h'
    rw [if_neg hn] at h'
    cases h'
  obtain ⟨heven, _⟩ := (edgesOk_iff edges).1 hok
  obtain ⟨_, hasc⟩ := (edgesOk_iff _).1 hok'
  rw [rings_at edges center shape img h] at hl
  rw [rings_at _ center shape img' h']
  split_ifs at hl with hrc
  rw [if_pos hrc]
  generalize Real.sqrt _ = x at hl ⊢
  rw [Option.some.injEq] at hl ⊢
  subst hl
  suffices hd : digitizeG (edges ++ more) x = digitizeG edges x by simp only [makeRoi, hd]
  have hodd : digitizeG edges x % 2 ≠ 0 := by
    intro he
    apply h0
    simp [makeRoi, he]
  have hlt : digitizeG edges x < edges.length := lt_of_le_of_ne (digitizeG_le edges x) (fun e => hodd (e ▸ heven))
  unfold digitizeG at hlt ⊢
  rw [List.countP_append]
  have hex : ∃ e ∈ edges, ¬ e ≤ x := by
    by_contra hall
    push Not at hall
    rw [List.countP_eq_length.2 (by simpa using hall)] at hlt
    exact lt_irrefl _ hlt
  obtain ⟨e, he, hx⟩ := hex
  refine Nat.add_eq_left.2 (List.countP_eq_zero.2 ?_)
  intro m hm
  simp only [decide_eq_true_eq]
  exact fun hmx => hx (((List.pairwise_append.1 hasc).2.2 e he m hm).trans hmx)

/-- C278: bars in any increasing unit of the values: edges and values converted alike give the same labels and the same errors. -/
theorem C278_bar_unit (f : ℚ → ℚ) (hf : StrictMono f) (edges values : List ℚ) (shape : ℕ × ℕ) :
    bar (edges.map f) shape true (some (values.map f)) = bar edges shape true (some values) := by
  unfold bar
  rw [edgesOk_map f hf]
  cases edgesOk edges
  · rfl
  · simp only [if_true, List.length_map, List.map_map, Function.comp_def, makeRoi_map f hf]

/-- C278: rectangles with their axes exchanged, on the transposed shape, are the transposed label image, or raise the same error. -/
theorem C278_rectangles_transposed (coords : List (ℤ × ℤ × ℤ × ℤ)) (shape : ℕ × ℕ) :
    rectangles (coords.map Spec.turned) shape.swap = (rectangles coords shape).map (fun L r c => L c r) :=
  rectLoop_swap shape coords 0 (fun _ _ => 0)

/-- Instance: two rings and one more. -/
example : ∃ img img', rings [1, 2] (0, 0) (3, 3) = .ok img ∧ rings ([1, 2] ++ [2, 5]) (0, 0) (3, 3) = .ok img' ∧ Geom.Spec.at img 0 1 = some 1 := by
  refine ⟨_, _, if_pos ((edgesOk_iff _).2 ⟨rfl, by norm_num⟩), if_pos ((edgesOk_iff _).2 ⟨rfl, by norm_num⟩), ?_⟩
  rw [rings_at [1, 2] (0, 0) (3, 3) _ (if_pos ((edgesOk_iff _).2 ⟨rfl, by norm_num⟩)), if_pos (by decide)]
  norm_num [makeRoi, digitizeG]

end Verif.Roi
