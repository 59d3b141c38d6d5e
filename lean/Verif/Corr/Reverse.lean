/- Property C191: correlation functions of a film played backwards (skbeam/core/correlation.py).  All definitions are those
of Corr/Model.lean and Corr/TwoModel.lean. -/
import Verif.Corr.Invar
import Mathlib.Algebra.BigOperators.Intervals

namespace Verif.Corr
open Verif Finset

/-! ## The averages of a reversed history -/

section
variable (v v' : ℕ → ℕ → Option ℚ) (P : ℕ) (lab : ℕ → ℕ) (l N : ℕ)

/-- The history v' is v backwards, as far as the first N groups of 2^l frames are concerned. -/
def Rev : Prop := ∀ t < N * 2 ^ l, ∀ p, v' t p = v (N * 2 ^ l - 1 - t) p

theorem rev_index {l N k j : ℕ} (hk : k < N) (hj : j < 2 ^ l) :
    k * 2 ^ l + j < N * 2 ^ l ∧ N * 2 ^ l - 1 - (k * 2 ^ l + j) = (N - 1 - k) * 2 ^ l + (2 ^ l - 1 - j) := by
  obtain ⟨d, rfl⟩ : ∃ d, N = k + 1 + d := ⟨N - (k + 1), by omega⟩
  have e : (k + 1 + d) * 2 ^ l = k * 2 ^ l + 2 ^ l + d * 2 ^ l := by ring
  have e2 : k + 1 + d - 1 - k = d := by omega
  rw [e, e2]
  omega

variable {v v' l N}

theorem rev_bad (h : Rev v v' l N) {k : ℕ} (hk : k < N) : Spec.BlockBad v' P l k ↔ Spec.BlockBad v P l (N - 1 - k) := by
  constructor
  · rintro ⟨j, hj, p, hp, e⟩
    rw [mem_range] at hj
    obtain ⟨h1, h2⟩ := rev_index hk hj
    rw [h _ h1, h2] at e
    exact ⟨2 ^ l - 1 - j, by rw [mem_range]; omega, p, hp, e⟩
  · rintro ⟨j, hj, p, hp, e⟩
    rw [mem_range] at hj
    have hj' : 2 ^ l - 1 - j < 2 ^ l := by omega
    obtain ⟨h1, h2⟩ := rev_index hk hj'
    refine ⟨2 ^ l - 1 - j, by rw [mem_range]; omega, p, hp, ?_⟩
    rw [h _ h1, h2]
    have : 2 ^ l - 1 - (2 ^ l - 1 - j) = j := by omega
    rw [this]; exact e

theorem rev_avg (h : Rev v v' l N) {k : ℕ} (hk : k < N) (p : ℕ) :
    Spec.blockAvg v' l k p = Spec.blockAvg v l (N - 1 - k) p := by
  unfold Spec.blockAvg
  congr 1
  rw [← sum_range_reflect]
  apply sum_congr rfl
  intro j hj
  rw [mem_range] at hj
  have hj' : 2 ^ l - 1 - j < 2 ^ l := by omega
  obtain ⟨h1, h2⟩ := rev_index hk hj'
  rw [h _ h1, h2]
  have : 2 ^ l - 1 - (2 ^ l - 1 - j) = j := by omega
  rw [this]

theorem rev_roiBad (h : Rev v v' l N) (r : ℕ) {k : ℕ} (hk : k < N) :
    Spec.RoiBad v' P lab r l k ↔ Spec.RoiBad v P lab r l (N - 1 - k) := by
  constructor
  · rintro ⟨p, hp, hl, j, hj, e⟩
    rw [mem_range] at hj
    obtain ⟨h1, h2⟩ := rev_index hk hj
    rw [h _ h1, h2] at e
    exact ⟨p, hp, hl, 2 ^ l - 1 - j, by rw [mem_range]; omega, e⟩
  · rintro ⟨p, hp, hl, j, hj, e⟩
    rw [mem_range] at hj
    have hj' : 2 ^ l - 1 - j < 2 ^ l := by omega
    obtain ⟨h1, h2⟩ := rev_index hk hj'
    refine ⟨p, hp, hl, 2 ^ l - 1 - j, by rw [mem_range]; omega, ?_⟩
    rw [h _ h1, h2]
    have : 2 ^ l - 1 - (2 ^ l - 1 - j) = j := by omega
    rw [this]; exact e

theorem rev_pairMean (h : Rev v v' l N) (i : ℕ) (q q' : ℕ → ℚ) (hq : ∀ k, k + i < N → q' k = q (N - i - 1 - k)) :
    Spec.pairMean v' P l i N q' = Spec.pairMean v P l i N q := by
  have himg : Spec.pairs v P l i N = (Spec.pairs v' P l i N).image (fun k => N - i - 1 - k) := by
    ext k
    simp only [Spec.pairs, mem_image, mem_filter, mem_range]
    constructor
    · rintro ⟨hk, h1, h2⟩
      refine ⟨N - i - 1 - k, ⟨by omega, ?_, ?_⟩, by omega⟩
      · rw [rev_bad P h (by omega)]
        have : N - 1 - (N - i - 1 - k) = k + i := by omega
        rwa [this]
      · rw [rev_bad P h (by omega)]
        have : N - 1 - (N - i - 1 - k + i) = k := by omega
        rwa [this]
    · rintro ⟨a, ⟨ha, h1, h2⟩, rfl⟩
      rw [rev_bad P h (by omega)] at h1 h2
      refine ⟨by omega, ?_, ?_⟩
      · have : N - 1 - (a + i) = N - i - 1 - a := by omega
        rwa [this] at h2
      · have : N - 1 - a = N - i - 1 - a + i := by omega
        rwa [this] at h1
  have hinj : Set.InjOn (fun k => N - i - 1 - k) (Spec.pairs v' P l i N : Set ℕ) := by
    intro a ha b hb e
    simp only [Spec.pairs, coe_filter, mem_range, Set.mem_ofPred_eq] at ha hb e
    omega
  unfold Spec.pairMean
  rw [himg, card_image_of_injOn hinj, sum_image hinj]
  split
  · rfl
  · congr 1
    apply sum_congr rfl
    intro k hk
    simp only [Spec.pairs, mem_filter, mem_range] at hk
    exact hq k (by omega)

theorem rev_G (h : Rev v v' l N) (i r : ℕ) : Spec.G v' P lab l i N r = Spec.G v P lab l i N r := by
  apply rev_pairMean P h
  intro k hk
  unfold Spec.roiMean
  congr 1
  apply sum_congr rfl
  intro p _
  show Spec.blockAvg v' l k p * Spec.blockAvg v' l (k + i) p =
    Spec.blockAvg v l (N - i - 1 - k) p * Spec.blockAvg v l (N - i - 1 - k + i) p
  rw [rev_avg h (by omega), rev_avg h (by omega), mul_comm]
  have e1 : N - 1 - (k + i) = N - i - 1 - k := by omega
  have e2 : N - 1 - k = N - i - 1 - k + i := by omega
  rw [e1, e2]

theorem rev_past (h : Rev v v' l N) (i r : ℕ) : Spec.past v' P lab l i N r = Spec.future v P lab l i N r := by
  apply rev_pairMean P h
  intro k hk
  unfold Spec.roiMean
  congr 1
  apply sum_congr rfl
  intro p _
  have e2 : N - 1 - k = N - i - 1 - k + i := by omega
  rw [rev_avg h (by omega), e2]

theorem rev_future (h : Rev v v' l N) (i r : ℕ) : Spec.future v' P lab l i N r = Spec.past v P lab l i N r := by
  apply rev_pairMean P h
  intro k hk
  unfold Spec.roiMean
  congr 1
  apply sum_congr rfl
  intro p _
  have e1 : N - 1 - (k + i) = N - i - 1 - k := by omega
  rw [rev_avg h (by omega), e1]

theorem twoTime_swap (v : ℕ → ℕ → Option ℚ) (P : ℕ) (lab : ℕ → ℕ) (l a b r : ℕ) :
    Spec.twoTime v P lab l a b r = Spec.twoTime v P lab l b a r := by
  have e : (fun p => Spec.blockAvg v l a p * Spec.blockAvg v l b p) =
      fun p => Spec.blockAvg v l b p * Spec.blockAvg v l a p := by funext p; ring
  unfold Spec.twoTime
  rw [e, mul_comm (Spec.roiMean P lab r (Spec.blockAvg v l a))]
  simp only [or_comm]

theorem rev_twoTime (h : Rev v v' l N) (r : ℕ) {a b : ℕ} (ha : a < N) (hb : b < N) :
    Spec.twoTime v' P lab l a b r = Spec.twoTime v P lab l (N - 1 - a) (N - 1 - b) r := by
  have e : ∀ k, k < N → Spec.blockAvg v' l k = Spec.blockAvg v l (N - 1 - k) := fun k hk => funext (rev_avg h hk)
  unfold Spec.twoTime
  rw [e a ha, e b hb]
  simp only [rev_roiBad P lab h r ha, rev_roiBad P lab h r hb]

end

/-! ## Whole calls -/

theorem rev_history (m : ℕ) (ims : List (List (Option ℚ))) (pixels : List ℕ) (l : ℕ) (hd : 2 ^ l ∣ ims.length) :
    Rev (pixelHistory (imgAt m ims) pixels) (pixelHistory (imgAt m ims.reverse) pixels) l (ims.length / 2 ^ l) := by
  intro t ht p
  rw [Nat.div_mul_cancel hd] at ht ⊢
  have : imgAt m ims.reverse t = imgAt m ims (ims.length - 1 - t) := by
    unfold imgAt
    rw [List.getElem?_reverse ht]
  unfold pixelHistory
  rw [this]

/-- C191, one-time: with a number of images divisible by 2^(num_levels - 1), playing the images backwards gives the same
curve: every row that both results contain is the same. -/
theorem C191_one_time (n L : ℕ) (hn2 : 2 ≤ n) (hL : 1 ≤ L) (labels : List ℤ)
    (ims : List (List (Option ℚ))) (hsz : ∀ im ∈ ims, labels.length ≤ im.length) (hdiv : 2 ^ (L - 1) ∣ ims.length)
    (res res' : Res) (hr : multiTauAutoCorr L n labels ims = .ok res)
    (hr' : multiTauAutoCorr L n labels ims.reverse = .ok res') (t : ℕ) (row row' : List (Option ℚ))
    (ht : res.g2[t]? = some row) (ht' : res'.g2[t]? = some row') : row = row' := by
  rcases hv : validate n L labels with e | ⟨c, pixels, lags⟩
  · unfold multiTauAutoCorr at hr; rw [hv] at hr; cases hr
  have he := (validate_ok hv).1
  rcases Nat.eq_zero_or_pos ims.length with h0 | hT
  · have : ims = [] := List.length_eq_zero_iff.1 h0
    subst this
    unfold multiTauAutoCorr at hr; rw [hv] at hr; cases hr
  set m := labels.length with hmdef
  have hsz' : ∀ im ∈ ims.reverse, m ≤ im.length := fun im h => hsz im (List.mem_reverse.1 h)
  have e1 : ims = (List.range ims.length).map (imgAt m ims) := imgAt_list _ _
  have e2 : ims.reverse = (List.range ims.length).map (imgAt m ims.reverse) := by
    have := imgAt_list m ims.reverse; rwa [List.length_reverse] at this
  obtain ⟨r1, q1, g1⟩ := C46_one_call_uses_every_frame n L hn2 hL labels c pixels lags hv (imgAt m ims)
    (imgAt_size _ _ hsz) ims.length hT
  obtain ⟨r2, q2, g2⟩ := C46_one_call_uses_every_frame n L hn2 hL labels c pixels lags hv (imgAt m ims.reverse)
    (imgAt_size _ _ hsz') ims.length hT
  rw [← e1, hr, Except.ok.injEq] at q1
  rw [← e2, hr', Except.ok.injEq] at q2
  subst q1 q2
  obtain ⟨l1, rfl⟩ := List.getElem?_eq_some_iff.1 ht
  obtain ⟨l2, rfl⟩ := List.getElem?_eq_some_iff.1 ht'
  obtain ⟨l, i, hl, hi, hor, hte, hlen, hrow⟩ := g1 t l1
  obtain ⟨l', i', hl', hi', hor', hte', hlen', hrow'⟩ := g2 t l2
  obtain ⟨rfl, rfl⟩ : l' = l ∧ i' = i := row_inj he ⟨hi', hor'⟩ ⟨hi, hor⟩ (by omega)
  have hd : 2 ^ l' ∣ ims.length := (pow_dvd_pow 2 (by omega)).trans hdiv
  have hrev := rev_history m ims pixels l' hd
  apply List.ext_getElem?
  intro r
  by_cases hr : r < rois c
  · rw [hrow r hr, hrow' r hr, rev_G _ _ hrev, rev_past _ _ hrev, rev_future _ _ hrev, mul_comm (Spec.future _ _ _ _ _ _ _)]
  · rw [List.getElem?_eq_none (by omega), List.getElem?_eq_none (by omega)]

/-- C191, two-time: the matrix of the images played backwards is the matrix read backwards. -/
theorem C191_two_time (n L nf : ℕ) (hn2 : 2 ≤ n) (hL : 1 ≤ L) (labels : List ℤ) (x : ℤ) (hx : 0 < x) (hm : x ∈ labels)
    (ims : List (List (Option ℚ))) (hsz : ∀ im ∈ ims, labels.length ≤ im.length) (hdiv : 2 ^ (L - 1) ∣ ims.length)
    (M : ℕ → ℕ → ℕ → Option ℚ) (hM : twoTimeCorr L n labels ims nf = .ok M) :
    ∃ M', twoTimeCorr L n labels ims.reverse nf = .ok M' ∧ ∀ a < ims.length, ∀ b < ims.length,
      M' (Spec.column labels x) a b = M (Spec.column labels x) (ims.length - 1 - a) (ims.length - 1 - b) := by
  rcases hv : validate n L labels with e | ⟨c, pixels, lags⟩
  · unfold twoTimeCorr at hM; rw [hv] at hM; cases hM
  rcases Nat.eq_zero_or_pos ims.length with h0 | hT
  · have : ims = [] := List.length_eq_zero_iff.1 h0
    subst this
    unfold twoTimeCorr at hM; rw [hv] at hM; cases hM
  set m := labels.length with hmdef
  have hsz' : ∀ im ∈ ims.reverse, m ≤ im.length := fun im h => hsz im (List.mem_reverse.1 h)
  have e1 : ims = (List.range ims.length).map (imgAt m ims) := imgAt_list _ _
  have e2 : ims.reverse = (List.range ims.length).map (imgAt m ims.reverse) := by
    have := imgAt_list m ims.reverse; rwa [List.length_reverse] at this
  have hnf : ims.length ≤ nf := by
    by_contra h
    rw [e1, C52_too_many_frames n L nf hn2 hL labels c pixels lags hv _ (imgAt_size _ _ hsz) ims.length (by omega)] at hM
    cases hM
  obtain ⟨M1, h1, c1⟩ := C52_two_time_matrix n L nf hn2 hL labels c pixels lags hv (imgAt m ims)
    (imgAt_size _ _ hsz) ims.length hT hnf
  obtain ⟨M2, h2, c2⟩ := C52_two_time_matrix n L nf hn2 hL labels c pixels lags hv (imgAt m ims.reverse)
    (imgAt_size _ _ hsz') ims.length hT hnf
  rw [← e1, hM, Except.ok.injEq] at h1
  rw [← e2] at h2
  subst h1
  have hcol := (columns n L labels c pixels lags hv).2.1 x hm hx
  refine ⟨M2, h2, ?_⟩
  obtain ⟨s1, k1, o1⟩ := c1 _ hcol
  obtain ⟨s2, k2, o2⟩ := c2 _ hcol
  set T := ims.length with hTdef
  -- positions of a covered cell, mirrored
  have mirror : ∀ l i k j, l < L → i ≤ k → k < T / 2 ^ l → j < 2 ^ l →
      i ≤ T / 2 ^ l - 1 - k + i ∧ T / 2 ^ l - 1 - k + i < T / 2 ^ l ∧ 2 ^ l - 1 - j < 2 ^ l ∧
      T - 1 - (k * 2 ^ l + j) = (T / 2 ^ l - 1 - k + i - i) * 2 ^ l + (2 ^ l - 1 - j) ∧
      T - 1 - ((k - i) * 2 ^ l + j) = (T / 2 ^ l - 1 - k + i) * 2 ^ l + (2 ^ l - 1 - j) := by
    intro l i k j hl hik hk hj
    have hd : 2 ^ l ∣ T := (pow_dvd_pow 2 (by omega)).trans hdiv
    have a1 := (rev_index hk hj).2
    have a2 := (rev_index (show k - i < T / 2 ^ l by omega) hj).2
    rw [Nat.div_mul_cancel hd] at a1 a2
    refine ⟨by omega, by omega, by omega, ?_, ?_⟩
    · rw [a1, Nat.add_sub_cancel]
    · rw [a2]
      have : T / 2 ^ l - 1 - (k - i) = T / 2 ^ l - 1 - k + i := by omega
      rw [this]
  have low : ∀ a < T, ∀ b ≤ a, M2 (Spec.column labels x) a b = M (Spec.column labels x) (T - 1 - a) (T - 1 - b) := by
    intro a ha b hab
    rw [s1]
    by_cases hex : ∃ l i k j, l < L ∧ i < n ∧ (l = 0 ∨ n / 2 ≤ i) ∧ i ≤ k ∧ k < T / 2 ^ l ∧ j < 2 ^ l ∧
        a = k * 2 ^ l + j ∧ b = (k - i) * 2 ^ l + j
    · obtain ⟨l, i, k, j, hl, hi, hor, hik, hk, hj, rfl, rfl⟩ := hex
      obtain ⟨m1, m2, m3, m4, m5⟩ := mirror l i k j hl hik hk hj
      have hd : 2 ^ l ∣ T := (pow_dvd_pow 2 (by omega)).trans hdiv
      have hrev : Rev (pixelHistory (imgAt m ims) pixels) (pixelHistory (imgAt m ims.reverse) pixels) l (T / 2 ^ l) :=
        rev_history m ims pixels l hd
      rw [k2 l i k j hl hi hor hik hk hj, m4, m5, k1 l i _ _ hl hi hor m1 m2 m3,
        rev_twoTime _ _ hrev _ (by omega) (by omega), twoTime_swap]
      congr 1 <;> omega
    · rw [o2 a b hab hex, o1 (T - 1 - b) (T - 1 - a) (by omega)]
      rintro ⟨l, i, k, j, hl, hi, hor, hik, hk, hj, ea, eb⟩
      obtain ⟨m1, m2, m3, m4, m5⟩ := mirror l i k j hl hik hk hj
      refine hex ⟨l, i, _, _, hl, hi, hor, m1, m2, m3, ?_, ?_⟩
      · rw [← m5, ← eb]; omega
      · rw [← m4, ← ea]; omega
  intro a ha b hb
  rcases le_total b a with h | h
  · exact low a ha b h
  · rw [s2, s1, low b hb a h]

/-- The condition on the number of images is needed: two levels and five images. -/
theorem C191_needs_whole_groups :
    (multiTauAutoCorr 2 2 [1, 1] [[some 1, some 2], [some 2, some 2], [some 1, some 3], [some 1, some 2],
      [some 4, some 9]]).map (fun r => r.g2[2]?) = .ok (some [some (52 / 49)]) ∧
    (multiTauAutoCorr 2 2 [1, 1] [[some 1, some 2], [some 2, some 2], [some 1, some 3], [some 1, some 2],
      [some 4, some 9]].reverse).map (fun r => r.g2[2]?) = .ok (some [some (35 / 32)]) := by decide +kernel

/-! Non-vacuity: two levels, four images, one with NaN, whose curve is not constant. -/

example : (multiTauAutoCorr 2 2 [1, 1] [[some 1, some 2], [some 2, some 5], [some 3, some 1], [some 4, none]]).map
      (fun r => r.g2) =
    (multiTauAutoCorr 2 2 [1, 1] [[some 1, some 2], [some 2, some 5], [some 3, some 1], [some 4, none]].reverse).map
      (fun r => r.g2) := by decide +kernel

end Verif.Corr
