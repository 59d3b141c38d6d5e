/- Property C183: the normalised cross-correlations (skbeam/core/correlation.py:1203-1229), their symmetry and their
independence of the intensity unit. -/
import Verif.Cross.Props
import Mathlib.Algebra.BigOperators.Ring.Finset

namespace Verif.Cross
open Verif Finset

/-! ## Specification -/

/-- The number of pixel pairs of the region at the displacement. -/
def Spec.count (S : Finset (ℕ × ℕ)) (s t : ℤ) : ℚ := (Spec.pairs S s t).card

/-- The sum of the first image over the first members of those pairs. -/
def Spec.sumFirst (S : Finset (ℕ × ℕ)) (a : ℕ → ℕ → ℚ) (s t : ℤ) : ℚ := ∑ pp ∈ Spec.pairs S s t, a pp.1.1 pp.1.2

/-- The sum of the second image over the second members of those pairs. -/
def Spec.sumSecond (S : Finset (ℕ × ℕ)) (b : ℕ → ℕ → ℚ) (s t : ℤ) : ℚ := ∑ pp ∈ Spec.pairs S s t, b pp.2.1 pp.2.2

/-- The mean of an image over the region. -/
def Spec.mean (S : Finset (ℕ × ℕ)) (a : ℕ → ℕ → ℚ) : ℚ := (∑ p ∈ S, a p.1 p.2) / S.card

/-! ## Proofs -/

theorem crossCorr_axis (S : List (ℕ × ℕ)) (a b : Img) (m1 m2 : ℕ) :
    crossCorr (boxOf S).h (boxOf S).w (sub S a) (sub S b) m1 m2 =
      Spec.pairSum S.toFinset a b (axisPos (boxOf S).h m1) (axisPos (boxOf S).w m2) := by
  rw [crossCorr_sub]
  show _ = Spec.pairSum _ _ _ (axisPos (1 + ((boxOf S).r1 - (boxOf S).r0)) m1)
      (axisPos (1 + ((boxOf S).c1 - (boxOf S).c0)) m2)
  rw [axisPos_eq, axisPos_eq]

theorem average_eq (S : List (ℕ × ℕ)) (hnd : S.Nodup) (a : Img) : average S a = Spec.mean S.toFinset a := by
  unfold average Spec.mean
  rw [List.sum_toFinset _ hnd, List.toFinset_card_of_nodup hnd]

/-- C183, the formulas.  With "regular" the value at a displacement is the mean product over the pixel pairs divided by
the product of the two means over the region; with "symavg" it is the mean product divided by the product of the means
over the two members of the pairs; NaN where there is no pair or a divisor vanishes. -/
theorem C183_formulas (S : List (ℕ × ℕ)) (hnd : S.Nodup) (a b : Img) (m1 m2 : ℕ) :
    let s := axisPos (boxOf S).h m1
    let t := axisPos (boxOf S).w m2
    let F := S.toFinset
    let n := Spec.count F s t
    correlateRegion ⟨false, true⟩ S a b m1 m2 =
      (if n = 0 ∨ Spec.mean F a * Spec.mean F b = 0 then none
       else some (Spec.pairSum F a b s t / n / (Spec.mean F a * Spec.mean F b))) ∧
    correlateRegion ⟨true, false⟩ S a b m1 m2 =
      (if n = 0 ∨ Spec.sumFirst F a s t * Spec.sumSecond F b s t = 0 then none
       else some (Spec.pairSum F a b s t / n / (Spec.sumFirst F a s t / n * (Spec.sumSecond F b s t / n)))) := by
  intro s t F n
  have hm := C54_mask_counts_pairs S m1 m2
  have e1 : Spec.pairSum F a (fun _ _ => 1) s t = Spec.sumFirst F a s t := by simp [Spec.pairSum, Spec.sumFirst]
  have e2 : Spec.pairSum F (fun _ _ => 1) b s t = Spec.sumSecond F b s t := by simp [Spec.pairSum, Spec.sumSecond]
  have hn : ((Spec.pairs F s t).card = 0) ↔ n = 0 := by simp only [n, Spec.count, Nat.cast_eq_zero]
  have hm' : maskcorr S m1 m2 = if n = 0 then none else some n := by
    rw [hm]
    by_cases h : n = 0
    · rw [if_pos h]; exact if_pos (hn.2 h)
    · rw [if_neg h]; exact if_neg (fun h' => h (hn.1 h'))
  unfold correlateRegion
  simp only [sub_mul_one, hm', crossCorr_axis, average_eq S hnd]
  change (_ = _) ∧ (_ = _)
  rw [show Spec.pairSum S.toFinset a (fun _ _ => 1) (axisPos (boxOf S).h m1) (axisPos (boxOf S).w m2) =
    Spec.sumFirst F a s t from e1, show Spec.pairSum S.toFinset (fun _ _ => 1) b (axisPos (boxOf S).h m1)
    (axisPos (boxOf S).w m2) = Spec.sumSecond F b s t from e2]
  by_cases h0 : n = 0
  · simp [h0, odiv]
  · constructor
    · simp only [h0, if_false, false_or, if_true, Bool.false_eq_true, Option.map_some, odiv]
      by_cases h1 : Spec.mean F a * Spec.mean F b = 0
      · rw [if_pos h1, if_pos]
        show n * Spec.mean F a * Spec.mean F b = 0
        rw [mul_assoc, h1, mul_zero]
      · rw [if_neg h1, if_neg]
        · congr 1
          show _ / (n * Spec.mean F a * Spec.mean F b) = _
          rw [mul_assoc, div_div]
        · show ¬ n * Spec.mean F a * Spec.mean F b = 0
          rw [mul_assoc]
          exact mul_ne_zero h0 h1
    · simp only [h0, if_false, false_or, if_true, Bool.false_eq_true, odiv]
      by_cases h1 : Spec.sumFirst F a s t = 0
      · rw [if_pos h1, if_pos (by rw [h1, zero_mul])]; rfl
      · rw [if_neg h1]
        by_cases h2 : Spec.sumSecond F b s t = 0
        · rw [if_pos (by rw [h2, mul_zero])]; simp only [h2, if_true]; rfl
        · rw [if_neg (mul_ne_zero h1 h2)]; simp only [h2, if_false]
          simp only [Option.map₂_some_some, Option.some.injEq]
          show Spec.pairSum F a b s t * _ = _
          field_simp

theorem region_nodup (H W : ℕ) (mask : ℕ → ℕ → ℤ) (id : ℤ) : (region H W mask id).Nodup :=
  (nodup_positions H W).filter _

/-- C183 applies to every region of a call: its image is the correlation of a duplicate-free list of pixels, those
carrying its id. -/
theorem C183_call (nrm : Norm) (H W : ℕ) (mask : ℕ → ℕ → ℤ) (a b : Img) (i : ℕ) (id : ℤ)
    (hi : (ids H W mask)[i]? = some id) :
    ∃ S, (correlate nrm H W mask a b)[i]? = some (correlateRegion nrm S a b) ∧ S.Nodup ∧
      ∀ p, p ∈ S ↔ p.1 < H ∧ p.2 < W ∧ mask p.1 p.2 = id := by
  refine ⟨region H W mask id, by simp [correlate, hi], region_nodup H W mask id, ?_⟩
  intro p
  simp [region, mem_positions, and_assoc]

theorem axis_mirror (h m : ℕ) (hm : m ≤ 2 * h - 2) (hh : 1 ≤ h) : axisPos h (2 * h - 2 - m) = - axisPos h m := by
  unfold axisPos; omega

theorem pairs_mirror_card (S : Finset (ℕ × ℕ)) (s t : ℤ) : (Spec.pairs S (-s) (-t)).card = (Spec.pairs S s t).card := by
  have := pairSum_swap S (fun _ _ => 1) (fun _ _ => 1) s t
  simp only [Spec.pairSum, mul_one, sum_const, nsmul_eq_mul, Nat.cast_inj] at this
  exact this.symm

/-- C183, symmetry: under every normalisation, exchanging the images is the same as inverting the displacement; in
particular a self-correlation is symmetric about its centre. -/
theorem C183_symmetry (nrm : Norm) (S : List (ℕ × ℕ)) (a b : Img) (m1 m2 : ℕ)
    (h1 : m1 ≤ 2 * (boxOf S).h - 2) (h2 : m2 ≤ 2 * (boxOf S).w - 2) :
    correlateRegion nrm S b a (2 * (boxOf S).h - 2 - m1) (2 * (boxOf S).w - 2 - m2) = correlateRegion nrm S a b m1 m2 := by
  have hh : 1 ≤ (boxOf S).h := by unfold Box.h; omega
  have hw : 1 ≤ (boxOf S).w := by unfold Box.w; omega
  unfold correlateRegion
  simp only [sub_mul_one, crossCorr_axis, C54_mask_counts_pairs, axis_mirror _ _ h1 hh, axis_mirror _ _ h2 hw,
    pairs_mirror_card]
  rw [← pairSum_swap S.toFinset a b, ← pairSum_swap S.toFinset a (fun _ _ => 1),
    ← pairSum_swap S.toFinset (fun _ _ => 1) b]
  have hc : ∀ (m : Option ℚ) (x y : ℚ), odiv (odiv m (some x)) (some y) = odiv (odiv m (some y)) (some x) := by
    intro m x y
    cases m with
    | none => rfl
    | some m =>
      unfold odiv
      by_cases hx : x = 0 <;> by_cases hy : y = 0 <;> simp [hx, hy, div_right_comm]
  rw [hc]
  congr 1
  · congr 2
    funext m
    ring

/-- C183, unit: with exactly one normalisation, multiplying each image by a non-zero number changes nothing. -/
theorem C183_scale_partial (nrm : Norm) (hn : nrm = ⟨true, false⟩ ∨ nrm = ⟨false, true⟩) (S : List (ℕ × ℕ)) (hnd : S.Nodup)
    (a b : Img) (k k' : ℚ) (hk : k ≠ 0) (hk' : k' ≠ 0) (m1 m2 : ℕ) :
    correlateRegion nrm S (fun i j => k * a i j) (fun i j => k' * b i j) m1 m2 = correlateRegion nrm S a b m1 m2 := by
  have p1 : ∀ s t, Spec.pairSum S.toFinset (fun i j => k * a i j) (fun i j => k' * b i j) s t =
      k * k' * Spec.pairSum S.toFinset a b s t := by
    intro s t
    unfold Spec.pairSum
    rw [mul_sum]
    exact sum_congr rfl (fun _ _ => by ring)
  have p2 : ∀ s t, Spec.sumFirst S.toFinset (fun i j => k * a i j) s t = k * Spec.sumFirst S.toFinset a s t :=
    fun s t => by unfold Spec.sumFirst; rw [mul_sum]
  have p3 : ∀ s t, Spec.sumSecond S.toFinset (fun i j => k' * b i j) s t = k' * Spec.sumSecond S.toFinset b s t :=
    fun s t => by unfold Spec.sumSecond; rw [mul_sum]
  have p4 : ∀ (k : ℚ) (a : Img), Spec.mean S.toFinset (fun i j => k * a i j) = k * Spec.mean S.toFinset a :=
    fun k a => by unfold Spec.mean; rw [← mul_sum, mul_div_assoc]
  obtain ⟨f1, f2⟩ := C183_formulas S hnd a b m1 m2
  obtain ⟨g1, g2⟩ := C183_formulas S hnd (fun i j => k * a i j) (fun i j => k' * b i j) m1 m2
  have hz : ∀ x y : ℚ, k * x * (k' * y) = 0 ↔ x * y = 0 := by
    intro x y
    simp [hk, hk']
  rcases hn with rfl | rfl
  · rw [f2, g2]
    simp only [p1, p2, p3, hz]
    split
    · rfl
    · next h =>
      push Not at h
      have := left_ne_zero_of_mul h.2
      have := right_ne_zero_of_mul h.2
      have := h.1
      congr 1
      field_simp
  · rw [f1, g1]
    simp only [p1, p4, hz]
    split
    · rfl
    · next h =>
      push Not at h
      have := left_ne_zero_of_mul h.2
      have := right_ne_zero_of_mul h.2
      have := h.1
      congr 1
      field_simp

/-- C183 is false when both documented normalisations are asked for: the second divides the already normalised value
once more, and the result depends on the intensity unit (a constant image of value 2 gives 1/4 of that of value 1). -/
theorem C183_both_refuted :
    (correlate ⟨true, true⟩ 1 2 (fun _ _ => 1) (fun _ _ => 1) (fun _ _ => 1)).map (fun c => c 0 1) = [some (1 / 2)] ∧
    (correlate ⟨true, true⟩ 1 2 (fun _ _ => 1) (fun _ _ => 2) (fun _ _ => 2)).map (fun c => c 0 1) = [some (1 / 8)] := by
  decide +kernel

example : (correlate ⟨true, false⟩ 1 3 (fun _ _ => 1) (fun _ j => j + 1) (fun _ j => j + 1)).map
    (fun c => (List.range 5).map (fun j => c 0 j)) =
    [[some 1, some (16 / 15), some (7 / 6), some (16 / 15), some 1]] := by decide +kernel

end Verif.Cross
