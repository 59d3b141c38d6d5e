/- C276: laws of threshold, bad_to_nan_gen (skbeam/core/mask.py) and subtract_reference_images (skbeam/core/utils.py). -/
import Verif.Mask.Props
import Verif.Utils.Model
import Mathlib.Algebra.Group.Hom.Defs

namespace Verif.Mask
open Verif

theorem yields_last (t : ℚ) (images : List (List (Option ℚ))) : ∀ mask : List ℚ,
    (thresholdYields t mask images).getLast?.getD mask = images.foldl (thresholdStep t) mask := by
  induction images with
  | nil => intro mask; rfl
  | cons im rest ih =>
    intro mask
    rw [List.foldl_cons, ← ih, thresholdYields, List.getLast?_cons]
    rfl

theorem yields_append (t : ℚ) (A B : List (List (Option ℚ))) : ∀ mask : List ℚ,
    thresholdYields t mask (A ++ B) = thresholdYields t mask A ++ thresholdYields t (A.foldl (thresholdStep t) mask) B := by
  induction A with
  | nil => intro mask; rfl
  | cons im rest ih =>
    intro mask
    rw [List.cons_append, List.foldl_cons]
    unfold thresholdYields
    rw [ih]
    cases B <;> simp [thresholdYields]

theorem step_comm (t : ℚ) (mask : List ℚ) (a b : List (Option ℚ)) :
    thresholdStep t (thresholdStep t mask a) b = thresholdStep t (thresholdStep t mask b) a := by
  unfold thresholdStep
  apply List.ext_getElem?
  intro i
  simp only [List.getElem?_zipWith]
  rcases mask[i]? with _ | m <;> rcases a[i]? with _ | (_ | x) <;> rcases b[i]? with _ | (_ | y) <;> try rfl
  · simp only
    split_ifs <;> rfl

theorem yields_length (t : ℚ) (images : List (List (Option ℚ))) : ∀ mask : List ℚ, (thresholdYields t mask images).length = images.length := by
  induction images with
  | nil => intro mask; rfl
  | cons im rest ih => intro mask; unfold thresholdYields; rw [List.length_cons, ih, List.length_cons]

/-! ## C276 -/

/-- C276: thresholding a longer series is thresholding its parts one after the other, each with the last mask of the part before. -/
theorem C276_threshold_parts (t : ℚ) (A B : List (List (Option ℚ))) (mask : List ℚ) (ya : List (List ℚ)) (last : List ℚ)
    (ha : threshold t A (some mask) = .ok ya) (hl : ya.getLast? = some last) :
    threshold t (A ++ B) (some mask) = (threshold t B (some last)).map (fun yb => ya ++ yb) := by
  simp only [threshold, Except.ok.injEq, Except.map] at ha ⊢
  subst ha
  have h := yields_last t A mask
  rw [hl] at h
  rw [yields_append, ← h]
  rfl

/-- C276: the mask of a whole series does not depend on the order of the images. -/
theorem C276_threshold_order (t : ℚ) (A B : List (List (Option ℚ))) (h : A.Perm B) (mask : List ℚ) :
    (threshold t A (some mask)).map List.getLast? = (threshold t B (some mask)).map List.getLast? := by
  simp only [threshold, Except.map]
  have hA := yields_last t A mask
  have hB := yields_last t B mask
  have hf : A.foldl (thresholdStep t) mask = B.foldl (thresholdStep t) mask := by
    have : RightCommutative (thresholdStep t) := ⟨fun m a b => step_comm t m a b⟩
    exact h.foldl_eq mask
  rw [hf, ← hB] at hA
  have hlen : (thresholdYields t mask A).length = (thresholdYields t mask B).length := by rw [yields_length, yields_length, h.length_eq]
  congr 1
  cases hA' : (thresholdYields t mask A).getLast? with
  | none =>
    rw [List.getLast?_eq_none_iff] at hA'
    rw [hA', List.length_nil] at hlen
    rw [List.length_eq_zero_iff.1 hlen.symm]
    rfl
  | some a =>
    cases hB' : (thresholdYields t mask B).getLast? with
    | none =>
      rw [List.getLast?_eq_none_iff] at hB'
      rw [hB', List.length_nil] at hlen
      rw [List.length_eq_zero_iff.1 hlen] at hA'
      cases hA'
    | some b =>
      rw [hA', hB'] at hA
      exact congrArg some hA

/-- C276: intensity unit and offset do not matter if the threshold is converted too. -/
theorem C276_threshold_unit (t c d : ℚ) (hc : 0 < c) (images : List (List (Option ℚ))) (mask : Option (List ℚ)) :
    threshold (c * t + d) (images.map (List.map (Option.map (fun x => c * x + d)))) mask = threshold t images mask := by
  have hs : ∀ (mask : List ℚ) (im : List (Option ℚ)), thresholdStep (c * t + d) mask (im.map (Option.map (fun x => c * x + d))) = thresholdStep t mask im := by
    intro mask im
    unfold thresholdStep
    rw [List.zipWith_map_right]
    congr 1
    funext m v
    cases v with
    | none => rfl
    | some x =>
      simp only [Option.map_some, add_le_add_iff_right, mul_le_mul_iff_right₀ hc]
  have hy : ∀ (images : List (List (Option ℚ))) (mask : List ℚ),
      thresholdYields (c * t + d) mask (images.map (List.map (Option.map (fun x => c * x + d)))) = thresholdYields t mask images := by
    intro images
    induction images with
    | nil => intro mask; rfl
    | cons im rest ih => intro mask; rw [List.map_cons]; unfold thresholdYields; rw [hs, ih]
  cases mask with
  | some m => simp only [threshold, hy]
  | none =>
    cases images with
    | nil => rfl
    | cons im rest =>
      have := hy (im :: rest) (im.map (fun _ => 1))
      rw [List.map_cons] at this ⊢
      simp only [threshold, List.map_map]
      exact congrArg Except.ok this

/-- C276: marking frames in two steps is marking them in one. -/
theorem C276_bad_twice (images : List Frame) (shape : List ℕ) (h : ∀ im ∈ images, im.shape = shape) (bad bad' : List ℤ) :
    badToNan (badToNan images bad) bad' = badToNan images (bad ++ bad') := by
  unfold badToNan
  have e1 := badLoop_spec bad shape images 0 none h (by simp)
  rw [e1, badLoop_spec bad' shape _ 0 none ?_ (by simp), badLoop_spec (bad ++ bad') shape images 0 none h (by simp)]
  · rw [List.mapIdx_mapIdx]
    congr 1
    funext i im
    simp only [Function.comp, List.mem_append]
    by_cases h1 : ((0 + i : ℕ) : ℤ) ∈ bad <;> by_cases h2 : ((0 + i : ℕ) : ℤ) ∈ bad' <;> simp only [h1, h2, if_true, if_false, or_true, or_false, or_self, true_or, false_or]
  · intro im him
    rw [List.mem_mapIdx] at him
    obtain ⟨i, hi, rfl⟩ := him
    split_ifs
    · rfl
    · exact h _ (List.getElem_mem hi)

open Verif.Utils

theorem subRef_hom {α β : Type} [AddGroup α] [AddGroup β] (f : α →+ β) (l : List (α × Bool)) : ∀ ref : α,
    subRefLoop (f ref) (l.map (fun p => (f p.1, p.2))) = (subRefLoop ref l).map f := by
  induction l with
  | nil => intro ref; rfl
  | cons p t ih =>
    intro ref
    obtain ⟨img, _ | _⟩ := p
    · simp only [List.map_cons, subRefLoop, ih, map_sub]
    · simp only [List.map_cons, subRefLoop, ih]

theorem subRef_shift {α : Type} [AddGroup α] (d : α) (l : List (α × Bool)) : ∀ ref : α,
    subRefLoop (ref + d) (l.map (fun p => (p.1 + d, p.2))) = subRefLoop ref l := by
  induction l with
  | nil => intro ref; rfl
  | cons p t ih =>
    intro ref
    obtain ⟨img, _ | _⟩ := p
    · simp only [List.map_cons, subRefLoop, ih, add_sub_add_right_eq_sub]
    · simp only [List.map_cons, subRefLoop, ih]

/-- C276: an additive change of the images (a scale, a crop, a sum over pixels) can be made before or after the subtraction. -/
theorem C276_subtract_linear {α β : Type} [AddGroup α] [AddGroup β] (f : α →+ β) (imgs : List α) (refs : List Bool) :
    subtractReferenceImages (imgs.map f) refs = (subtractReferenceImages imgs refs).map (List.map f) := by
  rcases refs with _ | ⟨_ | _, refs⟩
  · rfl
  · rfl
  · cases imgs with
    | nil => rfl
    | cons a l =>
      simp only [List.map_cons, subtractReferenceImages, Except.map]
      rw [← subRef_hom f, List.zip_map_left]
      rfl

/-- C276: a constant background in all images, references included, has no effect. -/
theorem C276_subtract_background {α : Type} [AddGroup α] (d : α) (imgs : List α) (refs : List Bool) :
    subtractReferenceImages (imgs.map (· + d)) refs = subtractReferenceImages imgs refs := by
  rcases refs with _ | ⟨_ | _, refs⟩
  · rfl
  · rfl
  · cases imgs with
    | nil => rfl
    | cons a l =>
      simp only [List.map_cons, subtractReferenceImages]
      rw [← subRef_shift d (l.zip refs) a, List.zip_map_left]
      rfl

theorem subRef_append {α : Type} [Sub α] (l : List (α × Bool)) (img : α) (t : List (α × Bool)) : ∀ ref : α,
    subRefLoop ref (l ++ (img, true) :: t) = subRefLoop ref l ++ subRefLoop img t := by
  induction l with
  | nil => intro ref; rfl
  | cons p t' ih =>
    intro ref
    obtain ⟨x, _ | _⟩ := p
    · simp only [List.cons_append, subRefLoop, ih]
    · simp only [List.cons_append, subRefLoop, ih]

/-- C276: a series can be cut before any reference image, and its parts treated on their own. -/
theorem C276_subtract_parts {α : Type} [Sub α] (A B : List α) (ra rb : List Bool) (h : A.length = ra.length) (a b : List α)
    (ha : subtractReferenceImages A ra = .ok a) (hb : subtractReferenceImages B rb = .ok b) :
    subtractReferenceImages (A ++ B) (ra ++ rb) = .ok (a ++ b) := by
  rcases ra with _ | ⟨_ | _, ra⟩
  · cases ha
  · cases ha
  rcases rb with _ | ⟨_ | _, rb⟩
  · cases hb
  · cases hb
  cases A with
  | nil => cases ha
  | cons x A =>
    cases B with
    | nil => cases hb
    | cons y B =>
      simp only [subtractReferenceImages, Except.ok.injEq] at ha hb
      subst ha hb
      simp only [List.cons_append, subtractReferenceImages]
      rw [List.zip_append (by simpa using h), List.zip_cons_cons, subRef_append]

/-- Instances: two frames and their masks, two scans of a reference and one image. -/
example : threshold 5 [[some 1, some 9], [some 7, some 1]] (some [1, 1]) = .ok [[1, 0], [0, 0]] ∧ threshold 5 [[some 7, some 1], [some 1, some 9]] (some [1, 1]) = .ok [[0, 1], [0, 0]] := by
  decide +kernel
example : subtractReferenceImages [(10 : ℤ), 13, 100, 107] [true, false, true, false] = .ok [3, 7] ∧ subtractReferenceImages [(10 : ℤ), 13] [true, false] = .ok [3] ∧
    subtractReferenceImages [(100 : ℤ), 107] [true, false] = .ok [7] := by decide +kernel

end Verif.Mask
