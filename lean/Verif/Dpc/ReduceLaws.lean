/- C277: laws of image_reduction (skbeam/core/dpc.py 51-91). -/
import Verif.Dpc.Props

namespace Verif.Dpc
open Finset Verif

/-! ## Specification -/

/-- Every pixel changed alike. -/
def Spec.mapImg {α β : Type} (f : α → β) (im : Img α) : Img β := ⟨im.rows, im.cols, fun i j => f (im.px i j)⟩
/-- Rows and columns exchanged. -/
def Spec.transposed {α : Type} (im : Img α) : Img α := ⟨im.cols, im.rows, fun i j => im.px j i⟩
/-- The same region of the transposed image. -/
def Spec.transposedRoi : RoiArg → RoiArg
  | .none => .none
  | .seq r c row col => .seq c r col row
  | .ndarray r c row col => .ndarray c r col row
/-- The returned pair (xline, yline). -/
def Spec.linesOf {α : Type} [AddCommMonoid α] (im : Img α) (roi : RoiArg) (bad : List (ℤ × ℤ)) : Py (List α × List α) :=
  (imageReduction im roi bad).map (fun r => r.2)

/-! ## Lemmas -/

theorem zero_map {α β : Type} [Zero α] [Zero β] (f : α → β) (hf : f 0 = 0) (bad : List (ℤ × ℤ)) : ∀ im : Img α,
    zeroPixels (Spec.mapImg f im) bad = (zeroPixels im bad).map (Spec.mapImg f) := by
  induction bad with
  | nil => intro im; rfl
  | cons p rest ih =>
    intro im
    obtain ⟨i, j⟩ := p
    unfold zeroPixels
    simp only [Spec.mapImg]
    cases pyIndex im.rows i with
    | none => rfl
    | some a =>
      cases pyIndex im.cols j with
      | none => rfl
      | some b =>
        simp only
        rw [← ih]
        congr 1
        simp only [Spec.mapImg, Img.mk.injEq, true_and]
        funext i' j'
        split_ifs
        · exact hf.symm
        · rfl

theorem zero_transposed {α : Type} [Zero α] (bad : List (ℤ × ℤ)) : ∀ im : Img α,
    zeroPixels (Spec.transposed im) (bad.map Prod.swap) = (zeroPixels im bad).map Spec.transposed := by
  induction bad with
  | nil => intro im; rfl
  | cons p rest ih =>
    intro im
    obtain ⟨i, j⟩ := p
    rw [List.map_cons]
    unfold zeroPixels
    simp only [Spec.transposed, Prod.swap]
    cases pyIndex im.rows i with
    | none => cases pyIndex im.cols j <;> rfl
    | some a =>
      cases pyIndex im.cols j with
      | none => rfl
      | some b =>
        simp only
        rw [← ih]
        congr 1
        simp only [Spec.transposed, Img.mk.injEq, true_and]
        funext i' j'
        exact if_congr and_comm rfl rfl

theorem reduce_map {α β : Type} [Zero α] [Zero β] (f : α → β) (hf : f 0 = 0) (im : Img α) (roi : RoiArg) (bad : List (ℤ × ℤ)) :
    reduceImage (Spec.mapImg f im) roi bad = (reduceImage im roi bad).map (fun r => (Spec.mapImg f r.1, Spec.mapImg f r.2)) := by
  unfold reduceImage
  rw [zero_map f hf]
  cases zeroPixels im bad with
  | error e => rfl
  | ok cp => cases roi <;> rfl

/-! ## C277 -/

/-- C277: an additive change of the pixels (a scale, a unit) can be made before or after the reduction. -/
theorem C277_linear {α β : Type} [AddCommMonoid α] [AddCommMonoid β] (f : α →+ β) (im : Img α) (roi : RoiArg) (bad : List (ℤ × ℤ)) :
    Spec.linesOf (Spec.mapImg f im) roi bad = (Spec.linesOf im roi bad).map (fun l => (l.1.map f, l.2.map f)) := by
  unfold Spec.linesOf imageReduction
  rw [reduce_map f (map_zero f)]
  cases reduceImage im roi bad with
  | error e => rfl
  | ok r =>
    simp only [Except.map, colSums, rowSums, Spec.mapImg, List.map_map, Function.comp_def, map_sum]

/-- C277: the lines of a sum of two images of one shape are the sums of their lines. -/
theorem C277_sum {α : Type} [AddCommMonoid α] (rows cols : ℕ) (p q : ℕ → ℕ → α) (roi : RoiArg) (bad : List (ℤ × ℤ)) (x y x' y' : List α)
    (h : Spec.linesOf ⟨rows, cols, p⟩ roi bad = .ok (x, y)) (h' : Spec.linesOf ⟨rows, cols, q⟩ roi bad = .ok (x', y')) :
    Spec.linesOf ⟨rows, cols, fun i j => p i j + q i j⟩ roi bad = .ok (List.zipWith (· + ·) x x', List.zipWith (· + ·) y y') := by
  have h1 := C277_linear (AddMonoidHom.fst α α) ⟨rows, cols, fun i j => (p i j, q i j)⟩ roi bad
  have h2 := C277_linear (AddMonoidHom.snd α α) ⟨rows, cols, fun i j => (p i j, q i j)⟩ roi bad
  have h3 := C277_linear (AddMonoidHom.fst α α + AddMonoidHom.snd α α) ⟨rows, cols, fun i j => (p i j, q i j)⟩ roi bad
  have e1 : Spec.linesOf (Spec.mapImg (AddMonoidHom.fst α α) ⟨rows, cols, fun i j => (p i j, q i j)⟩) roi bad = .ok (x, y) := h
  have e2 : Spec.linesOf (Spec.mapImg (AddMonoidHom.snd α α) ⟨rows, cols, fun i j => (p i j, q i j)⟩) roi bad = .ok (x', y') := h'
  rw [e1] at h1
  rw [e2] at h2
  cases hp : Spec.linesOf (⟨rows, cols, fun i j => (p i j, q i j)⟩ : Img (α × α)) roi bad with
  | error e => rw [hp] at h1; cases h1
  | ok l =>
    rw [hp] at h1 h2 h3
    simp only [Except.map, Except.ok.injEq, Prod.mk.injEq] at h1 h2
    obtain ⟨rfl, rfl⟩ := h1
    obtain ⟨rfl, rfl⟩ := h2
    refine Eq.trans h3 ?_
    simp only [Except.map, List.zipWith_map, List.zipWith_self]
    rfl

/-- C277: the transposed image, with region and bad pixels transposed too, has the two lines exchanged. -/
theorem C277_transposed {α : Type} [AddCommMonoid α] (im : Img α) (roi : RoiArg) (bad : List (ℤ × ℤ)) :
    Spec.linesOf (Spec.transposed im) (Spec.transposedRoi roi) (bad.map Prod.swap) = (Spec.linesOf im roi bad).map Prod.swap := by
  unfold Spec.linesOf imageReduction reduceImage
  rw [zero_transposed]
  cases zeroPixels im bad with
  | error e => rfl
  | ok cp => cases roi <;> rfl

theorem lines_congr {α : Type} [AddCommMonoid α] (a b : Img α) (hr : a.rows = b.rows) (hc : a.cols = b.cols)
    (h : ∀ i < a.rows, ∀ j < a.cols, a.px i j = b.px i j) : colSums a = colSums b ∧ rowSums a = rowSums b := by
  constructor
  · unfold colSums
    rw [← hr, ← hc]
    apply List.map_congr_left
    intro j hj
    exact Finset.sum_congr rfl (fun i hi => h i (mem_range.1 hi) j (List.mem_range.1 hj))
  · unfold rowSums
    rw [← hr, ← hc]
    apply List.map_congr_left
    intro i hi
    exact Finset.sum_congr rfl (fun j hj => h i (List.mem_range.1 hi) j (mem_range.1 hj))

/-- C277: bad pixels may be named in any order, repeatedly, and by negative or positive indices: only which pixels they are matters. -/
theorem C277_bad_pixels {α : Type} [AddCommMonoid α] (im : Img α) (roi : RoiArg) (bad bad' : List (ℤ × ℤ)) (h : Spec.BadInRange im.rows im.cols bad)
    (h' : Spec.BadInRange im.rows im.cols bad') (heq : ∀ i < im.rows, ∀ j < im.cols, Spec.IsBad im.rows im.cols bad i j ↔ Spec.IsBad im.rows im.cols bad' i j) :
    Spec.linesOf im roi bad = Spec.linesOf im roi bad' := by
  classical
  obtain ⟨c, h1, h2, h3, h4⟩ := zeroPixels_spec bad im h
  obtain ⟨c', h1', h2', h3', h4'⟩ := zeroPixels_spec bad' im h'
  have hpx : ∀ i < im.rows, ∀ j < im.cols, c.px i j = c'.px i j := fun i hi j hj => by
    rw [h4 i hi j hj, h4' i hi j hj]
    exact if_congr (heq i hi j hj) rfl rfl
  unfold Spec.linesOf imageReduction reduceImage
  rw [h1, h1']
  cases roi with
  | none =>
    obtain ⟨e1, e2⟩ := lines_congr c c' (h2.trans h2'.symm) (h3.trans h3'.symm) (fun i hi j hj => hpx i (h2 ▸ hi) j (h3 ▸ hj))
    simp only [Except.map, e1, e2]
  | seq r k row col =>
    obtain ⟨e1, e2⟩ := lines_congr (crop c r k row col) (crop c' r k row col) (by simp only [crop, h2, h2']) (by simp only [crop, h3, h3'])
      (fun i hi j hj => by
        simp only [crop, h2, h3] at hi hj ⊢
        exact hpx _ (by omega) _ (by omega))
    simp only [Except.map, e1, e2]
  | ndarray r k row col => rfl

/-- C277: a region inside a region: cropping first to one region and then to another one within it is cropping to the second at its place in the image. -/
theorem C277_region_of_region {α : Type} [AddCommMonoid α] (im : Img α) (r c row col r' c' row' col' : ℕ) (hr : r + row ≤ im.rows) (hc : c + col ≤ im.cols)
    (hr' : r' + row' ≤ row) (hc' : c' + col' ≤ col) :
    Spec.linesOf ⟨row, col, fun i j => im.px (r + i) (c + j)⟩ (.seq r' c' row' col') [] = Spec.linesOf im (.seq (r + r') (c + c') row' col') [] := by
  unfold Spec.linesOf imageReduction reduceImage
  simp only [zeroPixels, crop, Except.map, add_assoc]
  have e1 : min (r' + row') row - r' = min (r + (r' + row')) im.rows - (r + r') := by omega
  have e2 : min (c' + col') col - c' = min (c + (c' + col')) im.cols - (c + c') := by omega
  rw [e1, e2]

/-- Instance: a bad pixel named twice, once by negative indices, and its image transposed. -/
example : Spec.BadInRange 2 3 [(-1, 2), (1, -1)] ∧
    (Spec.linesOf (⟨2, 3, fun i j => ((i * 3 + j + 1 : ℕ) : ℤ)⟩ : Img ℤ) (.seq 0 1 2 5) [(-1, 2), (1, -1)]).toOption = some ([7, 3], [5, 5]) := by
  constructor
  · intro p hp
    simp only [List.mem_cons, List.not_mem_nil, or_false] at hp
    rcases hp with rfl | rfl <;> norm_num
  · decide +kernel

end Verif.Dpc
