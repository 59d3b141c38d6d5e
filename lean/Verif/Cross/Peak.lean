/- Property C192: the size of correlation values of CrossCorrelator (skbeam/core/correlation.py:948-1267).  All
definitions are those of Cross/Model.lean. -/
import Verif.Cross.NormProps
import Mathlib.Algebra.Order.BigOperators.Ring.Finset
import Mathlib.Algebra.Order.Chebyshev
import Mathlib.Tactic.Linarith

namespace Verif.Cross
open Verif Finset

/-! ## Pair sums -/

theorem pairSum_zero (S : Finset (ℕ × ℕ)) (a b : Img) : Spec.pairSum S a b 0 0 = ∑ p ∈ S, a p.1 p.2 * b p.1 p.2 := by
  have : Spec.pairs S 0 0 = S.image (fun p => (p, p)) := by
    ext ⟨p, q⟩
    simp only [Spec.pairs, mem_filter, mem_product, mem_image, Prod.mk.injEq]
    constructor
    · rintro ⟨⟨h1, h2⟩, h3, h4⟩
      refine ⟨p, h1, rfl, Prod.ext (by omega) (by omega)⟩
    · rintro ⟨r, hr, rfl, rfl⟩
      exact ⟨⟨hr, hr⟩, by omega, by omega⟩
  unfold Spec.pairSum
  rw [this, sum_image (by intro a _ b _ h; exact (Prod.mk.inj h).1)]

theorem pairs_fst_le (S : Finset (ℕ × ℕ)) (a : Img) (s t : ℤ) :
    ∑ pp ∈ Spec.pairs S s t, a pp.1.1 pp.1.2 ^ 2 ≤ ∑ p ∈ S, a p.1 p.2 ^ 2 := by
  have hinj : Set.InjOn Prod.fst (Spec.pairs S s t : Set ((ℕ × ℕ) × (ℕ × ℕ))) := by
    rintro ⟨p, q⟩ h ⟨p', q'⟩ h' e
    simp only [Spec.pairs, coe_filter, mem_product, Set.mem_ofPred_eq] at h h' e
    subst e
    have : q = q' := Prod.ext (by omega) (by omega)
    rw [this]
  rw [← sum_image (f := fun p : ℕ × ℕ => a p.1 p.2 ^ 2) hinj]
  apply sum_le_sum_of_subset_of_nonneg
  · intro p hp
    obtain ⟨⟨p', q'⟩, h, rfl⟩ := mem_image.1 hp
    simp only [Spec.pairs, mem_filter, mem_product] at h
    exact h.1.1
  · intro p _ _; exact sq_nonneg _

theorem pairs_snd_le (S : Finset (ℕ × ℕ)) (a : Img) (s t : ℤ) :
    ∑ pp ∈ Spec.pairs S s t, a pp.2.1 pp.2.2 ^ 2 ≤ ∑ p ∈ S, a p.1 p.2 ^ 2 := by
  have hinj : Set.InjOn Prod.snd (Spec.pairs S s t : Set ((ℕ × ℕ) × (ℕ × ℕ))) := by
    rintro ⟨p, q⟩ h ⟨p', q'⟩ h' e
    simp only [Spec.pairs, coe_filter, mem_product, Set.mem_ofPred_eq] at h h' e
    subst e
    have : p = p' := Prod.ext (by omega) (by omega)
    rw [this]
  rw [← sum_image (f := fun p : ℕ × ℕ => a p.1 p.2 ^ 2) hinj]
  apply sum_le_sum_of_subset_of_nonneg
  · intro p hp
    obtain ⟨⟨p', q'⟩, h, rfl⟩ := mem_image.1 hp
    simp only [Spec.pairs, mem_filter, mem_product] at h
    exact h.1.2
  · intro p _ _; exact sq_nonneg _

theorem pairSum_cauchy (S : Finset (ℕ × ℕ)) (a b : Img) (s t : ℤ) :
    Spec.pairSum S a b s t ^ 2 ≤ (∑ p ∈ S, a p.1 p.2 ^ 2) * ∑ p ∈ S, b p.1 p.2 ^ 2 :=
  (sum_mul_sq_le_sq_mul_sq _ _ _).trans (mul_le_mul (pairs_fst_le S a s t) (pairs_snd_le S b s t)
    (sum_nonneg (fun _ _ => sq_nonneg _)) (sum_nonneg (fun _ _ => sq_nonneg _)))

/-- The raw correlation of one region. -/
theorem raw_eq (S : List (ℕ × ℕ)) (a b : Img) (m1 m2 : ℕ) :
    correlateRegion ⟨false, false⟩ S a b m1 m2 =
      some (Spec.pairSum S.toFinset a b (axisPos (boxOf S).h m1) (axisPos (boxOf S).w m2)) := by
  simp only [correlateRegion, Bool.false_eq_true, if_false, crossCorr_axis]

/-- C192: without normalisation, no entry of the correlation of a and b exceeds in size the geometric mean of the central
entries (displacement zero) of the two self-correlations. -/
theorem C192_cauchy (S : List (ℕ × ℕ)) (a b : Img) (m1 m2 c1 c2 : ℕ) (hc1 : axisPos (boxOf S).h c1 = 0)
    (hc2 : axisPos (boxOf S).w c2 = 0) :
    ∃ z za zb, correlateRegion ⟨false, false⟩ S a b m1 m2 = some z ∧ correlateRegion ⟨false, false⟩ S a a c1 c2 = some za ∧
      correlateRegion ⟨false, false⟩ S b b c1 c2 = some zb ∧ z ^ 2 ≤ za * zb := by
  refine ⟨_, _, _, raw_eq _ _ _ _ _, raw_eq _ _ _ _ _, raw_eq _ _ _ _ _, ?_⟩
  rw [hc1, hc2, pairSum_zero, pairSum_zero]
  simpa only [sq] using pairSum_cauchy S.toFinset a b (axisPos (boxOf S).h m1) (axisPos (boxOf S).w m2)

/-- C192: hence a self-correlation is largest in the centre. -/
theorem C192_peak (S : List (ℕ × ℕ)) (a : Img) (m1 m2 c1 c2 : ℕ) (hc1 : axisPos (boxOf S).h c1 = 0)
    (hc2 : axisPos (boxOf S).w c2 = 0) :
    ∃ z za, correlateRegion ⟨false, false⟩ S a a m1 m2 = some z ∧ correlateRegion ⟨false, false⟩ S a a c1 c2 = some za ∧
      |z| ≤ za := by
  obtain ⟨z, za, zb, h1, h2, h3, h4⟩ := C192_cauchy S a a m1 m2 c1 c2 hc1 hc2
  refine ⟨z, za, h1, h2, ?_⟩
  rw [h2, Option.some.injEq] at h3
  subst h3
  have hz : 0 ≤ za := by
    rw [raw_eq, hc1, hc2, pairSum_zero, Option.some.injEq] at h2
    rw [← h2]
    exact sum_nonneg (fun _ _ => mul_self_nonneg _)
  exact abs_le_of_sq_le_sq (by rw [sq za]; exact h4) hz

/-- C192: the entries of the unnormalised correlation add up to the product of the two total intensities of the region. -/
theorem C192_total (S : List (ℕ × ℕ)) (a b : Img) :
    ∑ m ∈ range (2 * (boxOf S).h - 1) ×ˢ range (2 * (boxOf S).w - 1),
        (correlateRegion ⟨false, false⟩ S a b m.1 m.2).getD 0 =
      (∑ p ∈ S.toFinset, a p.1 p.2) * ∑ p ∈ S.toFinset, b p.1 p.2 := by
  simp only [raw_eq, Option.getD_some, Spec.pairSum, Spec.pairs, sum_filter]
  rw [sum_comm, sum_mul_sum, ← sum_product' S.toFinset S.toFinset (fun p q => a p.1 p.2 * b q.1 q.2)]
  apply sum_congr rfl
  rintro ⟨p, q⟩ hpq
  rw [mem_product, List.mem_toFinset, List.mem_toFinset] at hpq
  obtain ⟨⟨m1, m2, h1, h2, e1, e2⟩, _⟩ := C54_all_displacements_present S p q hpq.1 hpq.2
  rw [sum_eq_single (m1, m2)]
  · rw [if_pos ⟨e1.symm, e2.symm⟩]
  · rintro ⟨k1, k2⟩ _ hne
    rw [if_neg]
    rintro ⟨f1, f2⟩
    apply hne
    simp only [axisPos] at e1 e2 f1 f2
    exact Prod.ext (by simp only; omega) (by simp only; omega)
  · intro h
    exact absurd (mem_product.2 ⟨mem_range.2 h1, mem_range.2 h2⟩) h

/-- C192: with either normalisation the central entry of a self-correlation of an image whose mean over the region is
not zero is the mean square over the squared mean. -/
theorem C192_centre (nrm : Norm) (hn : nrm = ⟨true, false⟩ ∨ nrm = ⟨false, true⟩) (S : List (ℕ × ℕ)) (hnd : S.Nodup)
    (a : Img) (c1 c2 : ℕ) (hc1 : axisPos (boxOf S).h c1 = 0) (hc2 : axisPos (boxOf S).w c2 = 0)
    (ha : Spec.mean S.toFinset a ≠ 0) :
    correlateRegion nrm S a a c1 c2 =
      some (Spec.mean S.toFinset (fun i j => a i j ^ 2) / Spec.mean S.toFinset a ^ 2) ∧
    1 ≤ Spec.mean S.toFinset (fun i j => a i j ^ 2) / Spec.mean S.toFinset a ^ 2 := by
  have hF : (S.toFinset.card : ℚ) ≠ 0 := by
    intro h; apply ha; unfold Spec.mean; rw [h, div_zero]
  have hcount : Spec.count S.toFinset 0 0 = S.toFinset.card := by
    have := pairSum_zero S.toFinset (fun _ _ => 1) (fun _ _ => 1)
    simpa [Spec.pairSum, Spec.count] using this
  have hfirst : Spec.sumFirst S.toFinset a 0 0 = ∑ p ∈ S.toFinset, a p.1 p.2 := by
    have := pairSum_zero S.toFinset a (fun _ _ => 1)
    simpa [Spec.pairSum, Spec.sumFirst] using this
  have hsecond : Spec.sumSecond S.toFinset a 0 0 = ∑ p ∈ S.toFinset, a p.1 p.2 := by
    have := pairSum_zero S.toFinset (fun _ _ => 1) a
    simpa [Spec.pairSum, Spec.sumSecond] using this
  have hsq : Spec.pairSum S.toFinset a a 0 0 / S.toFinset.card = Spec.mean S.toFinset (fun i j => a i j ^ 2) := by
    rw [pairSum_zero]; unfold Spec.mean; simp only [sq]
  have hsum : ∑ p ∈ S.toFinset, a p.1 p.2 ≠ 0 := by
    intro h; apply ha; unfold Spec.mean; rw [h, zero_div]
  constructor
  · obtain ⟨h1, h2⟩ := C183_formulas S hnd a a c1 c2
    simp only [hc1, hc2, hcount, hfirst, hsecond, hsq] at h1 h2
    rcases hn with rfl | rfl
    · rw [h2, if_neg (not_or.2 ⟨hF, mul_ne_zero hsum hsum⟩), sq]; rfl
    · rw [h1, if_neg (not_or.2 ⟨hF, mul_ne_zero ha ha⟩), sq]
  · rw [one_le_div (by positivity)]
    have := sq_sum_le_card_mul_sum_sq (s := S.toFinset) (f := fun p => a p.1 p.2)
    unfold Spec.mean
    rw [div_pow, sq (S.toFinset.card : ℚ), div_le_div_iff₀ (by positivity) (by positivity)]
    have hp : (0 : ℚ) < S.toFinset.card := by positivity
    nlinarith [mul_le_mul_of_nonneg_right this hp.le]

/-- The centre is where C192 says: the middle of both axes. -/
theorem C192_centre_index (h : ℕ) : axisPos h ((2 * h - 1) / 2) = 0 := by unfold axisPos; omega

/-! Non-vacuity -/

example : (correlate ⟨false, false⟩ 1 3 (fun _ _ => 1) (fun _ j => j + 1) (fun _ j => j + 1)).map
    (fun c => (List.range 5).map (fun j => c 0 j)) = [[some 3, some 8, some 14, some 8, some 3]] := by decide +kernel

end Verif.Cross
