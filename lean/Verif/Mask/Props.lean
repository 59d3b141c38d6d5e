/- Properties C36-C40, C89: masks and logical image arithmetic. -/
import Verif.Mask.Model
import Mathlib.Tactic.NormNum

namespace Verif.Mask
open Verif

/-! ## C36 threshold -/

theorem step_get (t : ℚ) (mask : List ℚ) (im : List (Option ℚ)) (h : im.length = mask.length) (p : ℕ) (v : Option ℚ) (m : ℚ)
    (hm : mask[p]? = some m) (hv : im[p]? = some v) :
    (thresholdStep t mask im)[p]? = some (if ∃ x, v = some x ∧ t ≤ x then 0 else m) := by
  unfold thresholdStep
  rw [List.getElem?_zipWith, hm, hv]
  cases v with
  | none => simp
  | some x => by_cases hx : t ≤ x <;> simp [hx]

theorem length_step (t : ℚ) (mask : List ℚ) (im : List (Option ℚ)) (h : im.length = mask.length) :
    (thresholdStep t mask im).length = mask.length := by simp [thresholdStep, h]

open Classical in
theorem yields_spec (t : ℚ) (images : List (List (Option ℚ))) : ∀ mask : List ℚ, (∀ im ∈ images, im.length = mask.length) →
    (thresholdYields t mask images).length = images.length ∧
    ∀ n < images.length, ∃ y, (thresholdYields t mask images)[n]? = some y ∧ y.length = mask.length ∧
      ∀ (p : ℕ) (m : ℚ), mask[p]? = some m →
        y[p]? = some (if ∃ i ≤ n, ∃ im x, images[i]? = some im ∧ im[p]? = some (some x) ∧ t ≤ x then 0 else m) := by
  induction images with
  | nil => intro mask _; simp [thresholdYields]
  | cons im rest ih =>
    intro mask h
    have him := h im (by simp)
    have hl := length_step t mask im him
    obtain ⟨i1, i2⟩ := ih (thresholdStep t mask im) (fun i hi => by rw [hl]; exact h i (by simp [hi]))
    refine ⟨by simp [thresholdYields, i1], ?_⟩
    intro n hn
    have hval : ∀ (p : ℕ) (m : ℚ), mask[p]? = some m → ∃ v, im[p]? = some v := by
      intro p m hm
      have := (List.getElem?_eq_some_iff.1 hm).1
      exact ⟨_, List.getElem?_eq_getElem (by omega)⟩
    cases n with
    | zero =>
      refine ⟨thresholdStep t mask im, rfl, hl, ?_⟩
      intro p m hm
      obtain ⟨v, hv⟩ := hval p m hm
      rw [step_get t mask im him p v m hm hv]
      congr 1
      apply if_congr _ rfl rfl
      constructor
      · rintro ⟨x, rfl, hx⟩; exact ⟨0, le_rfl, im, x, rfl, hv, hx⟩
      · rintro ⟨i, hi, im', x, h1, h2, h3⟩
        obtain rfl : i = 0 := by omega
        simp at h1; subst h1
        rw [hv] at h2
        exact ⟨x, by simpa using h2, h3⟩
    | succ n =>
      obtain ⟨y, e1, e2, e3⟩ := i2 n (by simpa using hn)
      refine ⟨y, by simpa [thresholdYields] using e1, by rw [e2, hl], ?_⟩
      intro p m hm
      obtain ⟨v, hv⟩ := hval p m hm
      rw [e3 p _ (step_get t mask im him p v m hm hv)]
      congr 1
      by_cases hA : ∃ x, v = some x ∧ t ≤ x
      · rw [if_pos hA]
        obtain ⟨x, rfl, hx⟩ := hA
        rw [ite_self, if_pos]
        exact ⟨0, by omega, im, x, rfl, hv, hx⟩
      · rw [if_neg hA]
        apply if_congr _ rfl rfl
        constructor
        · rintro ⟨i, hi, im', x, h1, h2, h3⟩; exact ⟨i + 1, by omega, im', x, by simpa using h1, h2, h3⟩
        · rintro ⟨i, hi, im', x, h1, h2, h3⟩
          cases i with
          | zero =>
            simp at h1; subst h1
            rw [hv] at h2
            exact absurd ⟨x, by simpa using h2, h3⟩ hA
          | succ i => exact ⟨i, by omega, im', x, by simpa using h1, h2, h3⟩

open Classical in
/-- The mask yielded for frame n: a pixel is 0 if its value was at or above the threshold in some frame up to n, and
otherwise is what it was in the given mask. -/
theorem C36_threshold (t : ℚ) (images : List (List (Option ℚ))) (mask : List ℚ) (h : ∀ im ∈ images, im.length = mask.length) :
    ∃ ys, threshold t images (some mask) = .ok ys ∧ ys.length = images.length ∧
      ∀ n < images.length, ∃ y, ys[n]? = some y ∧ y.length = mask.length ∧
        ∀ (p : ℕ) (m : ℚ), mask[p]? = some m →
          y[p]? = some (if ∃ i ≤ n, ∃ im x, images[i]? = some im ∧ im[p]? = some (some x) ∧ t ≤ x then 0 else m) := by
  obtain ⟨h1, h2⟩ := yields_spec t images mask h
  exact ⟨_, rfl, h1, h2⟩

/-- Without a mask every pixel starts as good (1). -/
theorem C36_default_mask (t : ℚ) (im : List (Option ℚ)) (rest : List (List (Option ℚ))) :
    threshold t (im :: rest) none = threshold t (im :: rest) (some (List.replicate im.length 1)) := by
  simp [threshold]

example : threshold 5 [[some 1, some 9, none], [some 7, some 1, some 4]] none = .ok [[1, 0, 1], [0, 0, 1]] := by decide +kernel

/-! ## C89 masks already yielded -/

theorem step_zero (t : ℚ) (mask : List ℚ) (im : List (Option ℚ)) (p : ℕ) (hm : mask[p]? = some 0) (hv : p < im.length) :
    (thresholdStep t mask im)[p]? = some 0 := by
  unfold thresholdStep
  rw [List.getElem?_zipWith, hm, List.getElem?_eq_getElem hv]
  cases im[p] with
  | none => simp
  | some x => by_cases hx : t ≤ x <;> simp [hx]

/-- C89 is false for `threshold`: the masks the caller has kept all show the state after the last frame. -/
theorem C89_masks_alias_refuted : thresholdKept 5 [1, 1] [[some 1, some 9], [some 7, some 1]] = [[0, 0], [0, 0]] ∧
    threshold 5 [[some 1, some 9], [some 7, some 1]] (some [1, 1]) = .ok [[1, 0], [0, 0]] := by decide +kernel

/-- What holds: a kept mask agrees with the one that was yielded as far as bad pixels go - none becomes good again. -/
theorem C89_bad_stays_bad_partial (t : ℚ) (images : List (List (Option ℚ))) (mask : List ℚ) (h : ∀ im ∈ images, im.length = mask.length)
    (n : ℕ) (y z : List ℚ) (p : ℕ) (hy : (thresholdYields t mask images)[n]? = some y) (hz : (thresholdKept t mask images)[n]? = some z)
    (h0 : y[p]? = some 0) : z[p]? = some 0 := by
  have key : ∀ (images : List (List (Option ℚ))) (mask : List ℚ), (∀ im ∈ images, im.length = mask.length) → mask[p]? = some 0 →
      (images.foldl (thresholdStep t) mask)[p]? = some 0 := by
    intro images
    induction images with
    | nil => intro mask _ h; exact h
    | cons im rest ih =>
      intro mask h hm
      have hl := length_step t mask im (h im (by simp))
      have hp := (List.getElem?_eq_some_iff.1 hm).1
      exact ih _ (fun i hi => by rw [hl]; exact h i (by simp [hi])) (step_zero t mask im p hm (by rw [h im (by simp)]; exact hp))
  have hz' : z = images.foldl (thresholdStep t) mask := by
    unfold thresholdKept at hz
    rw [List.getElem?_replicate] at hz
    split at hz
    · simpa using hz.symm
    · simp at hz
  rw [hz']
  clear hz hz'
  induction images generalizing mask n with
  | nil => simp [thresholdYields] at hy
  | cons im rest ih =>
    have hl := length_step t mask im (h im (by simp))
    have hr : ∀ i ∈ rest, i.length = (thresholdStep t mask im).length := fun i hi => by rw [hl]; exact h i (by simp [hi])
    rw [List.foldl_cons]
    cases n with
    | zero =>
      simp [thresholdYields] at hy
      rw [hy] at hr ⊢
      exact key rest y hr h0
    | succ n =>
      simp only [thresholdYields, List.getElem?_cons_succ] at hy
      exact ih _ hr n hy

/-! ## C37 margin -/

/-- For every margin of at least one pixel: exactly the pixels closer than `k` to an image edge are masked (False). -/
theorem C37_margin_partial (shape : ℕ × ℕ) (k : ℕ) (hk : 1 ≤ k) (r c : ℕ) (hr : r < shape.1) (hc : c < shape.2) :
    margin shape k r c = false ↔ (r < k ∨ shape.1 - 1 - r < k ∨ c < k ∨ shape.2 - 1 - c < k) := by
  unfold margin inMarginSlice
  have hk0 : k ≠ 0 := by omega
  simp only [if_neg hk0, Bool.not_not, Bool.and_eq_false_iff, decide_eq_false_iff_not]
  omega

example : (List.range 4).map (fun r => (List.range 5).map (margin (4, 5) 1 r)) =
  [[false, false, false, false, false], [false, true, true, true, false], [false, true, true, true, false],
   [false, false, false, false, false]] := by decide +kernel

/-- C37 is false for a margin of 0: every pixel is masked although no pixel is closer than 0 to an edge. -/
theorem C37_zero_margin_refuted (shape : ℕ × ℕ) (r c : ℕ) : margin shape 0 r c = false := by
  simp [margin, inMarginSlice]

/-! ## C38 bad_to_nan_gen -/

theorem badLoop_spec (bad : List ℤ) (shape : List ℕ) (images : List Frame) : ∀ (n : ℕ) (cached : Option Frame),
    (∀ im ∈ images, im.shape = shape) → (∀ c, cached = some c → c = nanFrame shape) →
    badLoop bad n cached images = images.mapIdx (fun i im => if ((n + i : ℕ) : ℤ) ∈ bad then nanFrame shape else im) := by
  induction images with
  | nil => intro n cached _ _; rfl
  | cons im t ih =>
    intro n cached h hc
    have him := h im (by simp)
    have hret : cached.getD (nanFrame im.shape) = nanFrame shape := by
      cases cached with
      | none => simp [him]
      | some c => simp [hc c rfl]
    rw [List.mapIdx_cons]
    unfold badLoop
    simp only [Nat.add_zero]
    have hshift : (fun i im => if ((n + (i + 1) : ℕ) : ℤ) ∈ bad then nanFrame shape else im) =
        (fun (i : ℕ) (im : Frame) => if (((n + 1) + i : ℕ) : ℤ) ∈ bad then nanFrame shape else im) := by
      funext i im
      rw [show n + (i + 1) = (n + 1) + i by omega]
    rw [hshift]
    by_cases hb : (n : ℤ) ∈ bad
    · rw [if_pos hb, if_pos hb, hret, ih (n + 1) (some (nanFrame shape)) (fun i hi => h i (by simp [hi])) (by simp)]
    · rw [if_neg hb, if_neg hb, ih (n + 1) cached (fun i hi => h i (by simp [hi])) hc]

/-- For frames of one shape: frame number n is yielded as an all-NaN frame of that shape if n is in the list of bad
frames and unchanged otherwise. -/
theorem C38_bad_frames_partial (images : List Frame) (shape : List ℕ) (h : ∀ im ∈ images, im.shape = shape) (bad : List ℤ) (n : ℕ)
    (im : Frame) (hn : images[n]? = some im) :
    (badToNan images bad)[n]? = some (if (n : ℤ) ∈ bad then ⟨im.shape, List.replicate im.shape.prod none⟩ else im) ∧
    (badToNan images bad).length = images.length := by
  unfold badToNan
  rw [badLoop_spec bad shape images 0 none h (by simp)]
  constructor
  · rw [List.getElem?_mapIdx, hn]
    simp [nanFrame, h im (List.mem_of_getElem? hn)]
  · simp

example : badToNan [⟨[2], [some 1, some 2]⟩, ⟨[2], [some 3, none]⟩, ⟨[2], [some 5, some 6]⟩] [2, 0] =
  [⟨[2], [none, none]⟩, ⟨[2], [some 3, none]⟩, ⟨[2], [none, none]⟩] := by decide +kernel

/-- C38 is false for frames of different shapes: later bad frames are replaced by a frame of the first bad frame's shape. -/
theorem C38_shapes_refuted : badToNan [⟨[1], [some 1]⟩, ⟨[2], [some 3, some 4]⟩] [0, 1] = [⟨[1], [none]⟩, ⟨[1], [none]⟩] := by
  decide +kernel

/-! ## C39 binned_outlier -/

theorem countP_lt_iff (a : List ℝ) (h : a.Pairwise (· ≤ ·)) (x : ℝ) (k : ℕ) (v : ℝ) (hk : a[k]? = some v) :
    v < x ↔ k < a.countP (fun e => open Classical in decide (e < x)) := by
  classical
  induction a generalizing k with
  | nil => simp at hk
  | cons b t ih =>
    rw [List.pairwise_cons] at h
    rw [List.countP_cons]
    have h0 : ¬ b < x → t.countP (fun e => decide (e < x)) = 0 := by
      intro hb
      rw [List.countP_eq_zero]
      intro e he
      simp only [decide_eq_true_eq]
      exact fun h2 => hb (lt_of_le_of_lt (h.1 e he) h2)
    cases k with
    | zero =>
      simp at hk; subst hk
      by_cases hb : b < x
      · simp [hb]
      · have := h0 hb
        simp only [hb, decide_false, Bool.false_eq_true, if_false, false_iff, not_lt]
        simpa using (by simpa using this)
    | succ k =>
      simp only [List.getElem?_cons_succ] at hk
      by_cases hb : b < x
      · rw [ih h.2 k hk]
        simp [hb]
      · have hv : ¬ v < x := fun hvx => hb (lt_of_le_of_lt (h.1 v (List.mem_of_getElem? hk)) hvx)
        have := h0 hb
        simp only [hv, hb, decide_false, Bool.false_eq_true, if_false, false_iff, not_lt]
        have h3 : t.countP (fun e => decide (e < x)) + 0 ≤ k + 1 := by omega
        exact h3

/-- The unmasked values in bin k, [edge k, edge (k+1)), the last bin closed. -/
noncomputable def Spec.binValues (bins : List ℝ) (px : List Px) (k : ℕ) : List ℝ :=
  open Classical in
  (px.filter (fun p => p.good && decide (bins.getD k 0 ≤ p.r ∧
    (p.r < bins.getD (k + 1) 0 ∨ (k + 2 = bins.length ∧ p.r = bins.getD (k + 1) 0))))).map (fun p => p.v)

/-- Mean and population standard deviation. -/
noncomputable def Spec.mean (vs : List ℝ) : ℝ := vs.sum / vs.length
/-- see `Spec.mean` -/
noncomputable def Spec.std (vs : List ℝ) : ℝ := Real.sqrt ((vs.map (fun v => (v - Spec.mean vs) ^ 2)).sum / vs.length)

/-- How many deviations are allowed in bin k of n: the number itself; for a pair, values going in equal steps from the
first (innermost bin) to the second (outermost bin); for an array, its entry. -/
noncomputable def Spec.allowed (alpha : Alpha) (n k : ℕ) : ℝ :=
  match alpha with
  | .num a => a
  | .tuple a b => if k = 0 then a else a + (b - a) * (k / ((n : ℝ) - 1))
  | .arr l => l.getD k 0

theorem alpha_at (alpha : Alpha) (n k : ℕ) (hk : k < n) : alpha.at n k = Spec.allowed alpha n k := by
  cases alpha with
  | num a => rfl
  | arr l => rfl
  | tuple a b =>
    unfold Alpha.at Spec.allowed
    simp only
    split
    · next h => subst h; simp
    · next h =>
      rw [Nat.cast_sub (by omega)]
      push_cast
      ring

/-- The pair form starts at the first and ends at the second number. -/
example (a b : ℝ) : Spec.allowed (.tuple a b) 5 0 = a ∧ Spec.allowed (.tuple a b) 5 4 = b := by
  constructor
  · rfl
  · unfold Spec.allowed; norm_num

/-- A pixel whose position is strictly inside bin k (or on the very last edge) is kept iff it was good and lies strictly
within alpha standard deviations of the mean of the good pixels of its bin. -/
theorem C39_outlier_partial (bins : List ℝ) (hasc : bins.Pairwise (· ≤ ·)) (alpha : Alpha) (px : List Px) (p : Px) (hp : p ∈ px)
    (k : ℕ) (hk : k + 1 < bins.length) (h1 : bins.getD k 0 < p.r)
    (h2 : p.r < bins.getD (k + 1) 0 ∨ (k + 2 = bins.length ∧ p.r = bins.getD (k + 1) 0)) :
    outlierKeep bins alpha px p = true ↔ p.good = true ∧
      |p.v - Spec.mean (Spec.binValues bins px k)| < Spec.allowed alpha (bins.length - 1) k * Spec.std (Spec.binValues bins px k) := by
  classical
  have hlen : bins.dropLast.length = bins.length - 1 := by simp
  have hasc' : bins.dropLast.Pairwise (· ≤ ·) := hasc.sublist (List.dropLast_sublist bins)
  have hgd : ∀ j, j < bins.length - 1 → bins.dropLast[j]? = some (bins.getD j 0) := by
    intro j hj
    rw [List.getElem?_dropLast, if_pos hj, List.getElem?_eq_getElem (by omega)]
    simp [List.getD, show j < bins.length by omega]
  have hcount : bins.dropLast.countP (fun e => decide (e < p.r)) = k + 1 := by
    have a := (countP_lt_iff bins.dropLast hasc' p.r k _ (hgd k (by omega))).1 h1
    have b : bins.dropLast.countP (fun e => decide (e < p.r)) ≤ bins.length - 1 := by rw [← hlen]; exact List.countP_le_length
    by_cases hl : k + 1 < bins.length - 1
    · have c : ¬ k + 1 < bins.dropLast.countP (fun e => decide (e < p.r)) := by
        intro hc
        have := (countP_lt_iff bins.dropLast hasc' p.r (k + 1) _ (hgd (k + 1) hl)).2 hc
        rcases h2 with h2 | ⟨h2, _⟩
        · linarith
        · omega
      have a' : k < bins.dropLast.countP (fun e => decide (e < p.r)) := a
      omega
    · have a' : k < bins.dropLast.countP (fun e => decide (e < p.r)) := a
      omega
  have hidx : wrapIndex (bins.length - 1) (intR bins p.r) = k := by
    unfold intR wrapIndex
    rw [hcount, if_neg (by omega)]
    omega
  have hvals : binVals bins px k = Spec.binValues bins px k := rfl
  rw [← alpha_at alpha (bins.length - 1) k (by omega)]
  unfold outlierKeep
  simp only [hidx, hvals]
  by_cases hg : p.good = true
  · have hmem : p.v ∈ Spec.binValues bins px k := by
      unfold Spec.binValues
      rw [List.mem_map]
      exact ⟨p, List.mem_filter.2 ⟨hp, by simp only [hg, Bool.true_and, decide_eq_true_eq]; exact ⟨h1.le, h2⟩⟩, rfl⟩
    have hne : (Spec.binValues bins px k).length ≠ 0 := by
      have := List.length_pos_of_mem hmem
      omega
    unfold binMean binStd
    rw [if_neg hne, if_neg hne]
    simp only [hg, Bool.true_and, Bool.and_eq_true, decide_eq_true_eq, true_and]
    rw [abs_lt]
    unfold Spec.std Spec.mean
    constructor
    · rintro ⟨a, b⟩; constructor <;> linarith
    · rintro ⟨a, b⟩; constructor <;> linarith
  · rw [Bool.not_eq_true] at hg
    simp only [hg, Bool.false_and, Bool.false_eq_true, false_and, iff_false]
    split <;> simp

/-- C39 is false for a pixel on the first bin edge: it is compared with the limits of the last bin.  Here its own bin
has mean 2 and deviation 1, so with alpha = 2 it should be kept, but it is dropped. -/
theorem C39_first_edge_refuted :
    let bins : List ℝ := [0, 1, 2]
    let px : List Px := [⟨1, 0, true⟩, ⟨3, 1/2, true⟩, ⟨100, 3/2, true⟩, ⟨102, 7/4, true⟩]
    Spec.binValues bins px 0 = [1, 3] ∧ Spec.mean [1, 3] = 2 ∧ Spec.std [1, 3] = 1 ∧
    outlierKeep bins (.num 2) px ⟨1, 0, true⟩ = false := by
  intro bins px
  classical
  have hstat : ∀ (k : ℕ) (p : Px), (p.good && decide (bins.getD k 0 ≤ p.r ∧
    (p.r < bins.getD (k + 1) 0 ∨ (k + 2 = bins.length ∧ p.r = bins.getD (k + 1) 0)))) = (p.good && inStatBin bins k p.r) := by
    intro k p; rfl
  have e0 : Spec.binValues bins px 0 = [1, 3] := by
    unfold Spec.binValues
    simp only [px, bins, List.filter_cons, List.filter_nil]
    norm_num
  have e1 : binVals bins px 1 = [100, 102] := by
    show Spec.binValues bins px 1 = _
    unfold Spec.binValues
    simp only [px, bins, List.filter_cons, List.filter_nil]
    norm_num
  have m0 : Spec.mean [1, 3] = 2 := by unfold Spec.mean; norm_num
  refine ⟨e0, m0, ?_, ?_⟩
  · unfold Spec.std; rw [m0]; norm_num
  · have hidx : wrapIndex (bins.length - 1) (intR bins 0) = 1 := by
      have : intR bins 0 = -1 := by
        unfold intR
        have : (bins.dropLast.countP (fun e => decide (e < (0 : ℝ)))) = 0 := by
          rw [List.countP_eq_zero]
          intro e he
          simp only [bins, List.dropLast] at he
          simp at he
          rcases he with rfl | rfl <;> norm_num
        rw [this]; rfl
      rw [this]; rfl
    unfold outlierKeep
    simp only [hidx, e1]
    unfold binMean binStd
    norm_num [Alpha.at]

/-- C39 is false for a bin in which all good pixels have the same value: none deviates from the mean, but all are
dropped. -/
theorem C39_uniform_bin_refuted (bins : List ℝ) (hasc : bins.Pairwise (· ≤ ·)) (alpha : Alpha) (px : List Px) (p : Px) (hp : p ∈ px)
    (hg : p.good = true) (k : ℕ) (hk : k + 1 < bins.length) (h1 : bins.getD k 0 < p.r) (h2 : p.r < bins.getD (k + 1) 0)
    (hu : ∀ v ∈ Spec.binValues bins px k, v = p.v) :
    p.v = Spec.mean (Spec.binValues bins px k) ∧ outlierKeep bins alpha px p = false := by
  classical
  have hmem : p.v ∈ Spec.binValues bins px k := by
    unfold Spec.binValues
    rw [List.mem_map]
    exact ⟨p, List.mem_filter.2 ⟨hp, by simp only [hg, Bool.true_and, decide_eq_true_eq]; exact ⟨h1.le, Or.inl h2⟩⟩, rfl⟩
  have hrep := List.eq_replicate_of_mem hu
  have hpos : ((Spec.binValues bins px k).length : ℝ) ≠ 0 := by
    have := List.length_pos_of_mem hmem
    exact_mod_cast (by omega)
  have hmean : Spec.mean (Spec.binValues bins px k) = p.v := by
    unfold Spec.mean
    rw [hrep, List.sum_replicate, List.length_replicate, nsmul_eq_mul]
    field_simp
  refine ⟨hmean.symm, ?_⟩
  rw [Bool.eq_false_iff]
  intro hkeep
  have := ((C39_outlier_partial bins hasc alpha px p hp k hk h1 (Or.inl h2)).1 hkeep).2
  have hstd : Spec.std (Spec.binValues bins px k) = 0 := by
    unfold Spec.std
    rw [hmean]
    have : ((Spec.binValues bins px k).map (fun v => (v - p.v) ^ 2)).sum = 0 := by
      rw [hrep]; simp
    rw [this]; simp
  rw [hmean, hstd] at this
  simp at this

/-- Instance: bins 0..1, values 1, 1, 1, 1, 11 (mean 3, deviation 4): with alpha 1 exactly the value 11 goes. -/
example : ∀ p ∈ ([⟨1, 1/2, true⟩, ⟨1, 1/2, true⟩, ⟨1, 1/2, true⟩, ⟨1, 1/2, true⟩, ⟨11, 1/2, true⟩] : List Px),
    (outlierKeep [0, 1] (.num 1) [⟨1, 1/2, true⟩, ⟨1, 1/2, true⟩, ⟨1, 1/2, true⟩, ⟨1, 1/2, true⟩, ⟨11, 1/2, true⟩] p = true ↔ p.v = 1) := by
  intro p hp
  have hv : Spec.binValues [0, 1] [⟨1, 1/2, true⟩, ⟨1, 1/2, true⟩, ⟨1, 1/2, true⟩, ⟨1, 1/2, true⟩, ⟨11, 1/2, true⟩] 0 = [1, 1, 1, 1, 11] := by
    classical
    unfold Spec.binValues
    simp only [List.filter_cons, List.filter_nil]
    norm_num
  have hm : Spec.mean [1, 1, 1, 1, 11] = 3 := by unfold Spec.mean; norm_num
  have hs : Spec.std [1, 1, 1, 1, 11] = 4 := by
    unfold Spec.std
    rw [hm]
    norm_num
    rw [show (16 : ℝ) = 4 ^ 2 by norm_num]
    exact Real.sqrt_sq (by norm_num)
  have hr : p.r = 1 / 2 ∧ p.good = true := by
    simp at hp
    rcases hp with rfl | rfl <;> simp
  rw [C39_outlier_partial [0, 1] (by simp) (.num 1) _ p hp 0 (by simp) (by rw [hr.1]; norm_num) (Or.inl (by rw [hr.1]; norm_num)), hv, hm, hs]
  simp at hp
  rcases hp with rfl | rfl <;> norm_num [Spec.allowed, abs_lt]

/-! ## C40 logical operations -/

theorem nand_pure (a b : List Bool) (i : ℕ) (x y : Bool) (hx : a[i]? = some x) (hy : b[i]? = some y) :
    (nandNew a b)[i]? = some (!(x && y)) ∧ (norNew a b)[i]? = some (!(x || y)) ∧ (subNew a b)[i]? = some (x && !y) := by
  refine ⟨?_, ?_, ?_⟩
  · simp [nandNew, List.getElem?_zipWith, hx, hy]
  · simp [norNew, List.getElem?_zipWith, hx, hy]
  · simp only [subNew, List.getElem?_zipWith, hx, hy]
    cases x <;> simp [List.getElem?_zipWith, hx, hy]

/-- Without an output array the three functions compute their truth tables. -/
theorem C40_new_array (a b : List Bool) (i : ℕ) (x y : Bool) (hx : a[i]? = some x) (hy : b[i]? = some y) :
    (nandNew a b)[i]? = some (!(x && y)) ∧ (norNew a b)[i]? = some (!(x || y)) ∧ (subNew a b)[i]? = some (x && !y) :=
  nand_pure a b i x y hx hy

theorem write_spec (n : ℕ) (o : View) (hinj : ∀ i j, i < n → j < n → o i = o j → i = j) (f : ℕ → Bool) (m : Mem) :
    (∀ i < n, write n o f m (o i) = f i) ∧ (∀ a, (∀ i < n, a ≠ o i) → write n o f m a = m a) := by
  unfold write
  induction n with
  | zero => simp
  | succ n ih =>
    obtain ⟨h1, h2⟩ := ih (fun i j hi hj => hinj i j (by omega) (by omega))
    simp only [List.range_succ, List.foldl_append, List.foldl_cons, List.foldl_nil]
    constructor
    · intro i hi
      by_cases hin : i = n
      · simp [hin]
      · have : o i ≠ o n := fun h => hin (hinj i n (by omega) (by omega) h)
        rw [if_neg this]
        exact h1 i (by omega)
    · intro a ha
      rw [if_neg (ha n (by omega))]
      exact h2 a (fun i hi => ha i (by omega))

/-- With an output array - whatever memory it shares with the inputs -, nand and nor compute their truth tables on the
values the inputs had, and no memory outside the output array changes. -/
theorem C40_nand_nor (n : ℕ) (x1 x2 out : View) (hinj : ∀ i j, i < n → j < n → out i = out j → i = j) (m : Mem) :
    (∀ i < n, logicalNand n x1 x2 out m (out i) = !(m (x1 i) && m (x2 i))) ∧
    (∀ i < n, logicalNor n x1 x2 out m (out i) = !(m (x1 i) || m (x2 i))) ∧
    (∀ a, (∀ i < n, a ≠ out i) → logicalNand n x1 x2 out m a = m a ∧ logicalNor n x1 x2 out m a = m a) := by
  unfold logicalNand logicalNor npNot npAnd npOr
  refine ⟨?_, ?_, ?_⟩
  · intro i hi
    rw [(write_spec n out hinj _ _).1 i hi, (write_spec n out hinj _ _).1 i hi]
  · intro i hi
    rw [(write_spec n out hinj _ _).1 i hi, (write_spec n out hinj _ _).1 i hi]
  · intro a ha
    constructor
    · rw [(write_spec n out hinj _ _).2 a ha, (write_spec n out hinj _ _).2 a ha]
    · rw [(write_spec n out hinj _ _).2 a ha, (write_spec n out hinj _ _).2 a ha]

/-- logical_sub does so when the output array shares no memory with the first input (it may be the second one). -/
theorem C40_sub_partial (n : ℕ) (x1 x2 out : View) (hinj : ∀ i j, i < n → j < n → out i = out j → i = j)
    (hsep : ∀ i j, i < n → j < n → x1 i ≠ out j) (m : Mem) (i : ℕ) (hi : i < n) :
    logicalSub n x1 x2 out m (out i) = (m (x1 i) && !m (x2 i)) := by
  unfold logicalSub npNot npAnd
  rw [(write_spec n out hinj _ _).1 i hi, (write_spec n out hinj _ _).1 i hi, (write_spec n out hinj _ _).1 i hi,
    (write_spec n out hinj _ _).2 (x1 i) (fun j hj => hsep i j hi hj), (write_spec n out hinj _ _).2 (x1 i) (fun j hj => hsep i j hi hj)]
  cases m (x1 i) <;> simp

/-- C40 is false for logical_sub writing into its first input: the result is NOT(x1 AND x2), true wherever x1 is false. -/
theorem C40_sub_inplace_refuted (n : ℕ) (x1 x2 : View) (hinj : ∀ i j, i < n → j < n → x1 i = x1 j → i = j) (m : Mem) (i : ℕ) (hi : i < n) :
    logicalSub n x1 x2 x1 m (x1 i) = !(m (x1 i) && m (x2 i)) := by
  unfold logicalSub npNot npAnd
  rw [(write_spec n x1 hinj _ _).1 i hi, (write_spec n x1 hinj _ _).1 i hi, (write_spec n x1 hinj _ _).1 i hi]
  simp

/-- Instance: x1 at addresses 0..3, x2 at 4..7, out = x2. -/
example : (List.range 4).map (fun i => logicalSub 4 id (· + 4) (· + 4) (fun a => a % 2 = 1 || a = 4 || a = 2) (i + 4)) =
  [false, false, true, false] := by decide +kernel

end Verif.Mask
