/- Properties C55, C93-C95: X-ray speckle visibility. -/
import Verif.Speckle.Lemmas
import Verif.Speckle.Spec

namespace Verif.Speckle
open Function

variable {P : ℕ}

theorem roiData_some (labels : Fin P → ℕ) (label : ℕ) (f : Fin P → ℚ) :
    roiData labels label (fun p => some (f p)) = Spec.pixels labels label f := by
  unfold roiData Spec.pixels
  rw [← List.filterMap_eq_map]
  rfl

theorem not_bad_some (f : Fin P → ℚ) : Fr.bad (fun p => some (f p)) = false := by
  unfold Fr.bad
  simp

/-- The pair kept while going through one set. -/
theorem set_foldl (labels : Fin P → ℕ) (maxCts tb numTimes i : ℕ) (frames : List (Fr P)) : ∀ (st : XState P) (a : Acc),
    (frames.foldl (fun (s : XState P × Acc) f =>
      (xsvsFrame labels maxCts tb numTimes s.1 f, accStep i s.2 (xsvsFrame labels maxCts tb numTimes s.1 f))) (st, a)).1 =
    frames.foldl (xsvsFrame labels maxCts tb numTimes) st := by
  induction frames with
  | nil => intro st a; rfl
  | cons f t ih => intro st a; simp only [List.foldl_cons]; exact ih _ _

theorem acc_zero (a : Acc) (st : XState P) : accStep 0 a st = (st.prob, st.probPow) := by
  unfold accStep
  ext <;> simp

theorem xsvsSet_zero (labels : Fin P → ℕ) (maxCts tb numTimes : ℕ) (a : Acc) (frames : List (Fr P)) (h : frames ≠ []) :
    xsvsSet labels maxCts tb numTimes 0 a frames =
      ((frames.foldl (xsvsFrame labels maxCts tb numTimes) (XState.init P tb)).prob,
       (frames.foldl (xsvsFrame labels maxCts tb numTimes) (XState.init P tb)).probPow) := by
  unfold xsvsSet
  obtain ⟨fs, f, rfl⟩ : ∃ fs f, frames = fs ++ [f] := ⟨frames.dropLast, frames.getLast h, (List.dropLast_append_getLast h).symm⟩
  rw [List.foldl_append, List.foldl_append, List.foldl_cons, List.foldl_nil, List.foldl_cons, List.foldl_nil, acc_zero, set_foldl]

/-- What xsvs computes for one set of good images: at level k, the distribution is the mean over ALL frame numbers n of
the histogram of the overlapping, binomially weighted sum f(n) + k f(n-1) + C(k,2) f(n-2) + ... . -/
theorem C55_actual (labels : Fin P → ℕ) (maxCts tb numTimes : ℕ) (htb : 2 ≤ tb) (frames : List (Fin P → ℚ)) (hne : frames ≠ [])
    (k : ℕ) (hk : k < numTimes) (label b : ℕ) :
    (xsvsAll labels maxCts tb numTimes [frames.map (fun f => fun p => some (f p))]).1 k label b =
      Spec.mean ((List.range frames.length).map (fun n => speHist (maxCts * 2 ^ k) (Spec.pixels labels label
        (fun p => ∑ j ∈ Finset.range (k + 1), if j ≤ n then (k.choose j : ℚ) * (frames.getD (n - j) 0) p else 0)) b)) := by
  set g : ℕ → Fr P := fun n p => some ((frames.getD n 0) p) with hg
  unfold xsvsAll
  simp only [List.foldl_cons, List.foldl_nil]
  rw [xsvsSet_zero labels maxCts tb numTimes _ _ (by simpa using hne)]
  have h := inv_frames labels maxCts tb numTimes htb (by omega) (frames.map (fun f => fun p => some (f p))) g 0 _
    (inv_init labels maxCts tb numTimes g) (by
      intro i f hf
      rw [List.getElem?_map, Option.map_eq_some_iff] at hf
      obtain ⟨f', h1, rfl⟩ := hf
      funext p
      simp [hg, List.getD, h1])
  rw [zero_add, List.length_map] at h
  have hs := (h.stat k hk).prob label b
  simp only
  rw [hs]
  have himg : (List.range frames.length).map (ovl g k) = (List.range frames.length).map (fun n => fun p => some
      (∑ j ∈ Finset.range (k + 1), if j ≤ n then (k.choose j : ℚ) * (frames.getD (n - j) 0) p else 0)) := by
    apply List.map_congr_left
    intro n _
    funext p
    exact ovl_closed g (fun m p => (frames.getD m 0) p) k n p (fun m _ => rfl)
  rw [himg]
  unfold meanHist Spec.mean
  have hf : ((List.range frames.length).map (fun n => (fun p => some
      (∑ j ∈ Finset.range (k + 1), if j ≤ n then (k.choose j : ℚ) * (frames.getD (n - j) 0) p else 0) : Fr P))).filter (fun f => !Fr.bad f) =
      (List.range frames.length).map (fun n => fun p => some
      (∑ j ∈ Finset.range (k + 1), if j ≤ n then (k.choose j : ℚ) * (frames.getD (n - j) 0) p else 0)) := by
    rw [List.filter_eq_self]
    intro f hf
    rw [List.mem_map] at hf
    obtain ⟨n, _, rfl⟩ := hf
    rw [not_bad_some]; rfl
  rw [hf, List.map_map]
  simp only [List.length_map, List.length_range]
  congr 2
  apply List.map_congr_left
  intro n _
  simp only [comp, pow_one, roiData_some]

/-- Part of C55 that holds: level 0 (single frames, 2^0 = 1). -/
theorem C55_level0_partial (labels : Fin P → ℕ) (maxCts tb numTimes : ℕ) (htb : 2 ≤ tb) (hn : 1 ≤ numTimes)
    (frames : List (Fin P → ℚ)) (hne : frames ≠ []) (label b : ℕ) :
    (xsvsAll labels maxCts tb numTimes [frames.map (fun f => fun p => some (f p))]).1 0 label b =
      Spec.mean (frames.map (fun f => speHist maxCts (Spec.pixels labels label f) b)) := by
  rw [C55_actual labels maxCts tb numTimes htb frames hne 0 (by omega)]
  congr 1
  apply List.ext_getElem?
  intro i
  rw [List.getElem?_map, List.getElem?_map]
  by_cases hi : i < frames.length
  · rw [List.getElem?_range hi, List.getElem?_eq_getElem hi]
    simp [hi]
  · rw [List.getElem?_eq_none (by simpa using hi), List.getElem?_eq_none (by omega)]
    rfl

/-- C55 is false: four frames 1, 2, 4, 8 in one pixel.  Level 1 should be built from 1+2 and 4+8; it is built from
1, 1+2, 2+4 and 4+8, so P(3) is 1/4 instead of 1/2, and 6 counts occur. -/
theorem C55_overlap_refuted :
    let frames : List (Fin 1 → ℚ) := [fun _ => 1, fun _ => 2, fun _ => 4, fun _ => 8]
    let res := (xsvsAll (P := 1) (fun _ => 1) 20 2 3 [frames.map (fun f => fun p => some (f p))]).1
    Spec.mean ([0, 2].map (fun s => speHist 40 (Spec.pixels (P := 1) (fun _ => 1) 1
      (Spec.groupSum (fun n => frames.getD n 0) s 2)) 3)) = 1 / 2 ∧ res 1 1 3 = 1 / 4 ∧ res 1 1 6 = 1 / 4 := by
  decide +kernel

/-! ## C93 several image sets -/

theorem xsvsAll_foldl (labels : Fin P → ℕ) (maxCts tb numTimes : ℕ) (sets : List (List (Fr P))) : ∀ (i : ℕ) (a : Acc),
    (∀ s ∈ sets, s.length = 1) → (sets.foldl (fun (s : ℕ × Acc) fs => (s.1 + 1, xsvsSet labels maxCts tb numTimes s.1 s.2 fs)) (i, a)).2.1 =
      fun l r b => (i * a.1 l r b + (sets.map (fun s => (s.foldl (xsvsFrame labels maxCts tb numTimes) (XState.init P tb)).prob l r b)).sum) /
        (if i + sets.length = 0 then 1 else (i + sets.length : ℚ)) + (if i + sets.length = 0 then a.1 l r b else 0) := by
  induction sets with
  | nil =>
    intro i a _
    funext l r b
    by_cases hi : i = 0
    · subst hi; simp
    · have : (i : ℚ) ≠ 0 := by exact_mod_cast hi
      simp only [List.foldl_nil, List.map_nil, List.sum_nil, add_zero, List.length_nil, hi, if_false, Nat.cast_zero]
      field_simp
  | cons s t ih =>
    intro i a h
    obtain ⟨f, rfl⟩ := List.length_eq_one_iff.1 (h s (by simp))
    rw [List.foldl_cons, ih _ _ (fun s hs => h s (by simp [hs]))]
    funext l r b
    have hp : (0 : ℚ) < (i : ℚ) + 1 := by positivity
    simp only [xsvsSet, List.foldl_cons, List.foldl_nil, accStep, List.map_cons, List.sum_cons, List.length_cons]
    rw [if_neg (by omega), if_neg (by omega), if_neg (by omega), if_neg (by omega)]
    push_cast
    rw [add_zero, add_zero]
    congr 1
    · field_simp
      ring
    · ring

/-- Part of C93 that holds: if every set consists of one image, the result is the mean over the sets. -/
theorem C93_single_image_sets_partial (labels : Fin P → ℕ) (maxCts tb numTimes : ℕ) (sets : List (List (Fr P))) (hne : sets ≠ [])
    (h : ∀ s ∈ sets, s.length = 1) (l r b : ℕ) :
    (xsvsAll labels maxCts tb numTimes sets).1 l r b =
      Spec.mean (sets.map (fun s => (xsvsAll labels maxCts tb numTimes [s]).1 l r b)) := by
  have hs : ∀ s ∈ sets, (xsvsAll labels maxCts tb numTimes [s]).1 l r b =
      (s.foldl (xsvsFrame labels maxCts tb numTimes) (XState.init P tb)).prob l r b := by
    intro s hs
    unfold xsvsAll
    simp only [List.foldl_cons, List.foldl_nil]
    rw [xsvsSet_zero labels maxCts tb numTimes _ s (by intro h0; have := h s hs; rw [h0] at this; simp at this)]
  rw [List.map_congr_left hs]
  unfold xsvsAll
  rw [xsvsAll_foldl labels maxCts tb numTimes sets 0 _ h]
  have : sets.length ≠ 0 := by simpa using hne
  simp only [zero_add, this, if_false, Nat.cast_zero, zero_mul, add_zero]
  unfold Spec.mean
  rw [List.length_map]

/-- Part of C93 that holds: with one set the result is that of the set (see `C55_actual`).  C93 is false in general:
with two sets of two identical images each, the second set gets weight 3/4. -/
theorem C93_sets_refuted :
    let one : Fr 1 := fun _ => some 1
    let two : Fr 1 := fun _ => some 2
    let res := fun s => (xsvsAll (P := 1) (fun _ => 1) 5 2 1 s).1 0 1
    res [[one, one]] 1 = 1 ∧ res [[two, two]] 1 = 0 ∧ res [[one, one], [two, two]] 1 = 1 / 4 ∧ res [[one, one], [two, two]] 2 = 3 / 4 := by
  decide +kernel

/-! ## C94 entries of the distribution -/

theorem inBin_nat (E b n : ℕ) (h : n + 2 ≤ E) : inBin E b (n : ℚ) = decide (n = b) := by
  unfold inBin
  rw [Bool.eq_iff_iff]
  simp only [Bool.and_eq_true, Bool.or_eq_true, decide_eq_true_eq]
  constructor
  · rintro ⟨⟨h1, h2⟩, h3⟩
    have h2' : b ≤ n := by exact_mod_cast h2
    rcases h3 with h3 | ⟨h3, h4⟩
    · have : n < b + 1 := by exact_mod_cast h3
      omega
    · have : n = b + 1 := by exact_mod_cast h4
      omega
  · rintro rfl
    refine ⟨⟨by omega, le_rfl⟩, Or.inl (by linarith)⟩

/-- If every pixel has an integer count of at most max_cts - 2, entry K of the level-0 distribution is the mean over the
images of the fraction of ROI pixels with count K. -/
theorem C94_entries_partial (labels : Fin P → ℕ) (maxCts tb numTimes : ℕ) (htb : 2 ≤ tb) (hn : 1 ≤ numTimes)
    (frames : List (Fin P → ℚ)) (hne : frames ≠ []) (hint : ∀ f ∈ frames, ∀ p, ∃ n : ℕ, f p = n ∧ n + 2 ≤ maxCts) (label K : ℕ) :
    (xsvsAll labels maxCts tb numTimes [frames.map (fun f => fun p => some (f p))]).1 0 label K =
      Spec.mean (frames.map (fun f => Spec.fraction (Spec.pixels labels label f) K)) := by
  rw [C55_level0_partial labels maxCts tb numTimes htb hn frames hne]
  congr 1
  apply List.map_congr_left
  intro f hf
  unfold speHist Spec.fraction
  have hmem : ∀ x ∈ Spec.pixels labels label f, ∃ n : ℕ, x = n ∧ n + 2 ≤ maxCts := by
    intro x hx
    unfold Spec.pixels at hx
    rw [List.mem_map] at hx
    obtain ⟨p, _, rfl⟩ := hx
    exact hint f hf p
  congr 2
  · apply List.countP_congr
    intro x hx
    obtain ⟨n, rfl, h2⟩ := hmem x hx
    rw [inBin_nat maxCts K n h2]
    simp
  · rw [List.countP_eq_length]
    intro x hx
    obtain ⟨n, rfl, h2⟩ := hmem x hx
    rw [List.any_eq_true]
    exact ⟨n, by simp; omega, by rw [inBin_nat maxCts n n h2]; simp⟩

/-- C94 is false with the default max_cts (the largest count, 3 here): the brightest pixels fall outside the bins.  One
image with counts 1, 1, 1, 3: P(1) is 1, not 3/4. -/
theorem C94_brightest_refuted :
    (xsvsAll (P := 4) (fun _ => 1) 3 2 1 [[fun p => some (if p = 3 then 3 else 1)]]).1 0 1 1 = 1 ∧
    Spec.fraction (Spec.pixels (P := 4) (fun _ => 1) 1 (fun p => if p = 3 then 3 else 1)) 1 = 3 / 4 := by decide +kernel

/-! ## C95 the standard deviation -/

theorem conv_sq (A A2 p p2 w : ℚ) (hw0 : 0 ≤ w) (hw1 : w ≤ 1) (h1 : A ^ 2 ≤ A2) (h2 : p ^ 2 ≤ p2) :
    (A + (p - A) * w) ^ 2 ≤ A2 + (p2 - A2) * w := by
  have : (A + (p - A) * w) ^ 2 ≤ A ^ 2 * (1 - w) + p ^ 2 * w := by
    nlinarith [mul_nonneg (mul_nonneg hw0 (sub_nonneg.2 hw1)) (sq_nonneg (p - A))]
  nlinarith [mul_le_mul_of_nonneg_left h1 (sub_nonneg.2 hw1), mul_le_mul_of_nonneg_left h2 hw0]

/-- The second moments kept in a state dominate the squares of the first, and the counters are consistent. -/
def Good (st : XState P) : Prop :=
  (∀ l, st.trackBad l ≤ st.imgPer l) ∧ ∀ l r b, st.prob l r b ^ 2 ≤ st.probPow l r b

theorem process_good (labels : Fin P → ℕ) (maxCts level bufNo : ℕ) (st : XState P) (h : Good st) :
    Good (process labels maxCts level bufNo st) := by
  unfold process
  simp only
  split
  · refine ⟨?_, h.2⟩
    intro l
    by_cases hl : l = level
    · subst hl; simp only [update_self]; have := h.1 l; omega
    · simp only [update_of_ne hl]; exact h.1 l
  · refine ⟨?_, ?_⟩
    · intro l
      by_cases hl : l = level
      · subst hl; simp only [update_self]; have := h.1 l; omega
      · simp only [update_of_ne hl]; exact h.1 l
    · intro l r b
      by_cases hl : l = level
      · subst hl
        simp only [update_self]
        have hc : (1 : ℚ) ≤ ((st.imgPer l + 1 : ℕ) : ℚ) - st.trackBad l := by
          have : (st.trackBad l : ℚ) ≤ st.imgPer l := by exact_mod_cast h.1 l
          push_cast; linarith
        rw [div_eq_mul_inv, div_eq_mul_inv]
        exact conv_sq _ _ _ _ _ (by positivity) (inv_le_one_of_one_le₀ hc) (h.2 l r b) le_rfl
      · simp only [update_of_ne hl]; exact h.2 l r b

theorem loop_good (labels : Fin P → ℕ) (maxCts tb numTimes : ℕ) (fuel : ℕ) : ∀ (level : ℕ) (st : XState P), Good st →
    Good (levelLoop labels maxCts tb numTimes fuel level st) := by
  induction fuel with
  | zero => intro level st h; exact h
  | succ f ih =>
    intro level st h
    rw [levelLoop]
    split
    · split
      · exact ih _ _ h
      · exact ih _ _ (process_good labels maxCts level _ _ h)
    · exact h

theorem frame_good (labels : Fin P → ℕ) (maxCts tb numTimes : ℕ) (st : XState P) (f : Fr P) (h : Good st) :
    Good (xsvsFrame labels maxCts tb numTimes st f) :=
  loop_good labels maxCts tb numTimes _ _ _ (process_good labels maxCts 0 _ _ h)

theorem set_good (labels : Fin P → ℕ) (maxCts tb numTimes i : ℕ) (frames : List (Fr P)) : ∀ (st : XState P) (a : Acc), Good st →
    (∀ l r b, a.1 l r b ^ 2 ≤ a.2 l r b) →
    ∀ l r b, (frames.foldl (fun (s : XState P × Acc) f =>
      (xsvsFrame labels maxCts tb numTimes s.1 f, accStep i s.2 (xsvsFrame labels maxCts tb numTimes s.1 f))) (st, a)).2.1 l r b ^ 2 ≤
     (frames.foldl (fun (s : XState P × Acc) f =>
      (xsvsFrame labels maxCts tb numTimes s.1 f, accStep i s.2 (xsvsFrame labels maxCts tb numTimes s.1 f))) (st, a)).2.2 l r b := by
  induction frames with
  | nil => intro st a _ h; exact h
  | cons f t ih =>
    intro st a hg h
    simp only [List.foldl_cons]
    apply ih _ _ (frame_good labels maxCts tb numTimes st f hg)
    intro l r b
    unfold accStep
    simp only
    rw [div_eq_mul_inv, div_eq_mul_inv]
    have h1 : (1 : ℚ) ≤ (i : ℚ) + 1 := by linarith [show (0 : ℚ) ≤ i from by positivity]
    exact conv_sq _ _ _ _ _ (by positivity) (inv_le_one_of_one_le₀ h1) (h l r b) ((frame_good labels maxCts tb numTimes st f hg).2 l r b)

/-- In exact arithmetic the returned standard deviation is never NaN, for any images (with or without bad ones). -/
theorem C95_std_not_nan (labels : Fin P → ℕ) (maxCts tb numTimes : ℕ) (sets : List (List (Fr P))) (l r b : ℕ) :
    stdDev (xsvsAll labels maxCts tb numTimes sets) l r b =
      some (Real.sqrt (((xsvsAll labels maxCts tb numTimes sets).2 l r b - (xsvsAll labels maxCts tb numTimes sets).1 l r b ^ 2 : ℚ) : ℝ)) ∧
    0 ≤ (xsvsAll labels maxCts tb numTimes sets).2 l r b - (xsvsAll labels maxCts tb numTimes sets).1 l r b ^ 2 := by
  have key : ∀ (sets : List (List (Fr P))) (i : ℕ) (a : Acc), (∀ l r b, a.1 l r b ^ 2 ≤ a.2 l r b) →
      ∀ l r b, (sets.foldl (fun (s : ℕ × Acc) fs => (s.1 + 1, xsvsSet labels maxCts tb numTimes s.1 s.2 fs)) (i, a)).2.1 l r b ^ 2 ≤
        (sets.foldl (fun (s : ℕ × Acc) fs => (s.1 + 1, xsvsSet labels maxCts tb numTimes s.1 s.2 fs)) (i, a)).2.2 l r b := by
    intro sets
    induction sets with
    | nil => intro i a h; exact h
    | cons s t ih =>
      intro i a h
      simp only [List.foldl_cons]
      apply ih
      exact set_good labels maxCts tb numTimes i s _ _ ⟨fun _ => le_rfl, fun _ _ _ => by simp [XState.init]⟩ h
  have h := key sets 0 (fun _ _ _ => 0, fun _ _ _ => 0) (fun _ _ _ => by simp) l r b
  have h' : 0 ≤ (xsvsAll labels maxCts tb numTimes sets).2 l r b - (xsvsAll labels maxCts tb numTimes sets).1 l r b ^ 2 := by
    unfold xsvsAll; linarith
  refine ⟨?_, h'⟩
  unfold stdDev
  rw [if_neg (not_lt.2 h')]

/-- Instance with a bad image: the bad one is left out of the average. -/
example : (xsvsAll (P := 2) (fun _ => 1) 5 2 2 [[fun _ => some 1, fun _ => none, fun p => some (if p = 0 then 1 else 2)]]).1 0 1 1 = 3 / 4 := by
  decide +kernel

end Verif.Speckle
