/- Property C233: the number of levels and of buffers of the correlators. -/
import Verif.Corr.Invar
import Verif.Corr.TwoProps

namespace Verif.Corr
open Verif Finset

theorem findIdx_range_min (p : ℕ → Bool) (a b : ℕ) (h : a ≤ b) : (List.range a).findIdx p = min ((List.range b).findIdx p) a := by
  obtain ⟨k, rfl⟩ := Nat.exists_eq_add_of_le h
  rw [List.range_add, List.findIdx_append]
  have := List.findIdx_le_length (p := p) (xs := List.range a)
  rw [List.length_range] at this ⊢
  split <;> omega

theorem findIdx_congr_mem {α : Type*} (p q : α → Bool) (l : List α) (h : ∀ x ∈ l, p x = q x) : l.findIdx p = l.findIdx q := by
  induction l with
  | nil => rfl
  | cons a t ih => rw [List.findIdx_cons, List.findIdx_cons, ih (fun x hx => h x (by simp [hx])), h a (by simp)]

/-- C233, more levels: the table for `L` levels is the beginning of the table for more levels (with the same number of buffers),
values and lag steps, as far as it can reach: its first (L + 1) * num_bufs / 2 rows. -/
theorem C233_more_levels (n L L' : ℕ) (he : n % 2 = 0) (hn2 : 2 ≤ n) (hL : 1 ≤ L) (hLL : L ≤ L') (labels : List ℤ)
    (ims : List (List (Option ℚ))) (hne : ims ≠ []) (hsz : ∀ im ∈ ims, labels.length ≤ im.length) :
    ∃ res res', multiTauAutoCorr L n labels ims = .ok res ∧ multiTauAutoCorr L' n labels ims = .ok res' ∧
      res.g2 = res'.g2.take ((L + 1) * n / 2) ∧ res.lags = res'.lags.take ((L + 1) * n / 2) := by
  have hL' : 1 ≤ L' := le_trans hL hLL
  obtain ⟨c, pixels, lags, hv⟩ := validate_exists n L he labels
  obtain ⟨c', pixels', lags', hv'⟩ := validate_exists n L' he labels
  have hT : 1 ≤ ims.length := List.length_pos_iff.2 hne
  obtain ⟨-, hc, hp, t1, d1, hl1⟩ := validate_ok hv
  obtain ⟨-, hc', hp', t2, d2, hl2⟩ := validate_ok hv'
  have hpp : pixels' = pixels := by rw [hp, hp']
  subst hpp
  have hlab : c'.labels = c.labels := by rw [hc, hc']
  have e1 : ims = (List.range ims.length).map (imgAt labels.length ims) := imgAt_list _ _
  have s1 : ∀ t, labels.length ≤ (imgAt labels.length ims t).length := imgAt_size _ _ hsz
  have m1 := multiTau_eq n L hn2 hL labels c pixels' lags hv _ s1 ims.length hT
  have m2 := multiTau_eq n L' hn2 hL' labels c' pixels' lags' hv' _ s1 ims.length hT
  rw [← e1] at m1 m2
  have r1 := (C46_rows_are_pair_means n L hn2 hL labels c pixels' lags hv _ s1 ims.length).2
  have r2 := (C46_rows_are_pair_means n L' hn2 hL' labels c' pixels' lags' hv' _ s1 ims.length).2
  rw [← e1] at r1 r2
  rw [hlab] at r2
  have hrn : rows c = (L + 1) * n / 2 := by rw [hc]; rfl
  have hrn' : rows c' = (L' + 1) * n / 2 := by rw [hc']; rfl
  have hrr : rows c ≤ rows c' := by
    rw [hrn, hrn']
    exact Nat.div_le_div_right (Nat.mul_le_mul_right _ (by omega))
  have hrois : rois c' = rois c := by unfold rois; rw [hlab]
  generalize lazyOneTime c pixels' lags (init c) ims = o1 at *
  generalize lazyOneTime c' pixels' lags' (init c') ims = o2 at *
  have hrow : ∀ t < rows c, ∀ r, o1.2.1.2.G t r = o2.2.1.2.G t r ∧ o1.2.1.2.past t r = o2.2.1.2.past t r ∧ o1.2.1.2.fut t r = o2.2.1.2.fut t r := by
    intro t ht r
    obtain ⟨l, i, hl, ⟨hi, hor⟩, rfl⟩ := row_decomp he hn2 hL (hrn ▸ ht)
    obtain ⟨a1, a2, a3⟩ := r1 l i r hl hi hor
    obtain ⟨b1, b2, b3⟩ := r2 l i r (lt_of_lt_of_le hl hLL) hi hor
    exact ⟨by rw [a1, b1], by rw [a2, b2], by rw [a3, b3]⟩
  have hg : gMax c o1.2.1.2 = min (gMax c' o2.2.1.2) (rows c) := by
    have h1 : gMax c o1.2.1.2 = (List.range (rows c)).findIdx (fun t => (List.range (rois c)).any (fun r => decide (o2.2.1.2.past t r = 0))) := by
      unfold gMax
      apply findIdx_congr_mem
      intro t ht
      congr 1
      funext r
      rw [(hrow t (List.mem_range.1 ht) r).2.1]
    rw [h1, findIdx_range_min _ _ _ hrr]
    unfold gMax
    rw [hrois]
  have hlags : lags = lags'.take (rows c) := by
    apply List.ext_getElem?
    intro t
    obtain ⟨t1', lg1, d1', h1', k1, -⟩ := Utils.C01_lag_table L n hL he
    obtain ⟨t2', lg2, d2', h2', k2, -⟩ := Utils.C01_lag_table L' n hL' he
    have q1 : lags.length = rows c := by
      have : t1' = (L + 1) * n / 2 := by
        unfold Utils.multiTauLags at h1'
        rw [if_neg (by omega)] at h1'
        injection h1' with h1'
        exact (congrArg Prod.fst h1').symm
      rw [hl1] at h1'
      injection h1' with h1'
      injection h1' with _ h1'
      injection h1' with h1' _
      rw [h1', k1, this, hrn]
    by_cases ht : t < rows c
    · rw [List.getElem?_take_of_lt ht]
      obtain ⟨l, i, hl, hval, rfl⟩ := row_decomp he hn2 hL (hrn ▸ ht)
      rw [lag_at he hL hl1 hl hval, lag_at he hL' hl2 (lt_of_lt_of_le hl hLL) hval]
    · rw [List.getElem?_eq_none (by omega), List.getElem?_eq_none (by rw [List.length_take]; omega)]
  refine ⟨_, _, m1, m2, ?_, ?_⟩
  · unfold result
    simp only
    rw [← List.map_take, List.take_range, hg, hrn, min_comm, hrois]
    apply List.map_congr_left
    intro t ht
    have ht' : t < rows c := by have := List.mem_range.1 ht; rw [hrn]; omega
    apply List.map_congr_left
    intro r _
    unfold g2At
    rw [(hrow t ht' r).1, (hrow t ht' r).2.1, (hrow t ht' r).2.2]
  · unfold result
    simp only
    conv_lhs => rw [hlags]
    rw [List.take_take, List.take_take, hg, hrn]
    congr 1
    omega

/-- C233, any numbers of levels and buffers: what is reported for level `l` and delay `i` (lag i * 2^l) does not depend on them, as long
as both tables have a row for it. -/
theorem C233_same_row_partial (n n' L L' : ℕ) (he : n % 2 = 0) (he' : n' % 2 = 0) (hn2 : 2 ≤ n) (hn2' : 2 ≤ n') (hL : 1 ≤ L) (hL' : 1 ≤ L') (labels : List ℤ)
    (ims : List (List (Option ℚ))) (hne : ims ≠ []) (hsz : ∀ im ∈ ims, labels.length ≤ im.length) :
    ∃ res res', multiTauAutoCorr L n labels ims = .ok res ∧ multiTauAutoCorr L' n' labels ims = .ok res' ∧
      ∀ l i, l < L → l < L' → i < n → i < n' → (l = 0 ∨ n / 2 ≤ i ∧ n' / 2 ≤ i) → l * n / 2 + i < res.g2.length → l * n' / 2 + i < res'.g2.length →
        res.lags[l * n / 2 + i]? = some (i * 2 ^ l) ∧ res'.lags[l * n' / 2 + i]? = some (i * 2 ^ l) ∧ res.g2[l * n / 2 + i]? = res'.g2[l * n' / 2 + i]? := by
  obtain ⟨c, pixels, lags, hv⟩ := validate_exists n L he labels
  obtain ⟨c', pixels', lags', hv'⟩ := validate_exists n' L' he' labels
  have hT : 1 ≤ ims.length := List.length_pos_iff.2 hne
  obtain ⟨-, hc, hp, t1, d1, hl1⟩ := validate_ok hv
  obtain ⟨-, hc', hp', t2, d2, hl2⟩ := validate_ok hv'
  have hpp : pixels' = pixels := by rw [hp, hp']
  subst hpp
  have hlab : c'.labels = c.labels := by rw [hc, hc']
  have hrois : rois c' = rois c := by unfold rois; rw [hlab]
  have e1 : ims = (List.range ims.length).map (imgAt labels.length ims) := imgAt_list _ _
  have s1 : ∀ t, labels.length ≤ (imgAt labels.length ims t).length := imgAt_size _ _ hsz
  have m1 := multiTau_eq n L hn2 hL labels c pixels' lags hv _ s1 ims.length hT
  have m2 := multiTau_eq n' L' hn2' hL' labels c' pixels' lags' hv' _ s1 ims.length hT
  rw [← e1] at m1 m2
  have r1 := (C46_rows_are_pair_means n L hn2 hL labels c pixels' lags hv _ s1 ims.length).2
  have r2 := (C46_rows_are_pair_means n' L' hn2' hL' labels c' pixels' lags' hv' _ s1 ims.length).2
  rw [← e1] at r1 r2
  rw [hlab] at r2
  generalize lazyOneTime c pixels' lags (init c) ims = o1 at *
  generalize lazyOneTime c' pixels' lags' (init c') ims = o2 at *
  refine ⟨_, _, m1, m2, ?_⟩
  intro l i hl hl' hi hi' hor ht ht'
  have v1 : l = 0 ∨ n / 2 ≤ i := hor.imp id And.left
  have v2 : l = 0 ∨ n' / 2 ≤ i := hor.imp id And.right
  refine ⟨(C49_rows_match_lags n L hn2 hL labels c pixels' lags hv o1.2.1).2.2.2 l i hl hi v1 ht, (C49_rows_match_lags n' L' hn2' hL' labels c' pixels' lags' hv' o2.2.1).2.2.2 l i hl' hi' v2 ht', ?_⟩
  have k1 : l * n / 2 + i < gMax c o1.2.1.2 := by simpa [result] using ht
  have k2 : l * n' / 2 + i < gMax c' o2.2.1.2 := by simpa [result] using ht'
  unfold result
  simp only [List.getElem?_map, List.getElem?_range k1, List.getElem?_range k2, Option.map_some, Option.some.injEq]
  rw [hrois]
  apply List.map_congr_left
  intro r _
  obtain ⟨a1, a2, a3⟩ := r1 l i r hl hi v1
  obtain ⟨b1, b2, b3⟩ := r2 l i r hl' hi' v2
  unfold g2At
  rw [a1, a2, a3, b1, b2, b3]

/-- C233 is false for lags that belong to different levels: the value reported for lag 2 of five frames depends on the number of
buffers, because from lag num_bufs on averages over pairs of frames are correlated instead of frames. -/
theorem C233_buffers_refuted :
    (multiTauAutoCorr 2 2 [1] [[some 1], [some 3], [some 1], [some 3], [some 1]]).map (fun r => (r.lags[2]?, r.g2[2]?)) = .ok (some 2, some [some 1]) ∧
    (multiTauAutoCorr 1 4 [1] [[some 1], [some 3], [some 1], [some 3], [some 1]]).map (fun r => (r.lags[2]?, r.g2[2]?)) = .ok (some 2, some [some (33 / 25)]) := by
  decide +kernel

/-- C233 for the two-time matrix: with more levels every entry stays as it is, except that entries of frames num_bufs or more apart that were left 0 may get a
value. -/
theorem C233_two_time (n L L' nf : ℕ) (he : n % 2 = 0) (hn2 : 2 ≤ n) (hL : 1 ≤ L) (hLL : L ≤ L') (labels : List ℤ)
    (ims : List (List (Option ℚ))) (hne : ims ≠ []) (hsz : ∀ im ∈ ims, labels.length ≤ im.length) (hnf : ims.length ≤ nf) :
    ∃ M M', twoTimeCorr L n labels ims nf = .ok M ∧ twoTimeCorr L' n labels ims nf = .ok M' ∧
      ∀ r < (labels.toFinset.filter (0 < ·)).card, ∀ a b, M r a b = M' r a b ∨ (M r a b = some 0 ∧ (b + n ≤ a ∨ a + n ≤ b ∨ ims.length ≤ a ∨ ims.length ≤ b)) := by
  obtain ⟨c, pixels, lags, hv⟩ := validate_exists n L he labels
  obtain ⟨c', pixels', lags', hv'⟩ := validate_exists n L' he labels
  have hT : 1 ≤ ims.length := List.length_pos_iff.2 hne
  obtain ⟨-, hc, hp, t1, d1, hl1⟩ := validate_ok hv
  obtain ⟨-, hc', hp', t2, d2, hl2⟩ := validate_ok hv'
  have hpp : pixels' = pixels := by rw [hp, hp']
  subst hpp
  have hlab : c'.labels = c.labels := by rw [hc, hc']
  have hrois : rois c' = rois c := by unfold rois; rw [hlab]
  have e1 : ims = (List.range ims.length).map (imgAt labels.length ims) := imgAt_list _ _
  have s1 : ∀ t, labels.length ≤ (imgAt labels.length ims t).length := imgAt_size _ _ hsz
  obtain ⟨M, hM, h1⟩ := C52_two_time_matrix n L nf hn2 hL labels c pixels' lags hv _ s1 ims.length hT hnf
  obtain ⟨M', hM', h2⟩ := C52_two_time_matrix n L' nf hn2 (le_trans hL hLL) labels c' pixels' lags' hv' _ s1 ims.length hT hnf
  rw [← e1] at hM hM'
  refine ⟨M, M', hM, hM', ?_⟩
  intro r hr a b
  have hr1 : r < rois c := by rw [(columns n L labels c pixels' lags hv).1]; exact hr
  obtain ⟨y1, v1, z1⟩ := h1 r hr1
  obtain ⟨y2, v2, -⟩ := h2 r (hrois ▸ hr1)
  rw [hlab] at v2
  have key : ∀ a b, b ≤ a → M r a b = M' r a b ∨ (M r a b = some 0 ∧ (b + n ≤ a ∨ ims.length ≤ a)) := by
    intro a b hab
    by_cases h : ∃ l i k j, l < L ∧ i < n ∧ (l = 0 ∨ n / 2 ≤ i) ∧ i ≤ k ∧ k < ims.length / 2 ^ l ∧ j < 2 ^ l ∧ a = k * 2 ^ l + j ∧ b = (k - i) * 2 ^ l + j
    · obtain ⟨l, i, k, j, q1, q2, q3, q4, q5, q6, rfl, rfl⟩ := h
      exact Or.inl ((v1 l i k j q1 q2 q3 q4 q5 q6).trans (v2 l i k j (lt_of_lt_of_le q1 hLL) q2 q3 q4 q5 q6).symm)
    · refine Or.inr ⟨z1 a b hab h, ?_⟩
      by_contra hcon
      push Not at hcon
      exact h ⟨0, a - b, a, 0, hL, by omega, Or.inl rfl, by omega, by simpa using hcon.2, by simp, by simp, by simp; omega⟩
  rcases le_total b a with h | h
  · rcases key a b h with h | ⟨h, h' | h'⟩
    · exact Or.inl h
    · exact Or.inr ⟨h, Or.inl h'⟩
    · exact Or.inr ⟨h, Or.inr (Or.inr (Or.inl h'))⟩
  · rw [y1 a b, y2 a b]
    rcases key b a h with h | ⟨h, h' | h'⟩
    · exact Or.inl h
    · exact Or.inr ⟨h, Or.inr (Or.inl h')⟩
    · exact Or.inr ⟨h, Or.inr (Or.inr (Or.inr h'))⟩

/-- The hypotheses are met; here more levels do add rows, and entries. -/
example : (multiTauAutoCorr 1 4 [1, 2] (List.replicate 9 [some 1, some 3])).map (fun r => r.lags) = .ok [0, 1, 2, 3] ∧
    (multiTauAutoCorr 2 4 [1, 2] (List.replicate 9 [some 1, some 3])).map (fun r => r.lags) = .ok [0, 1, 2, 3, 4, 6] ∧
    (twoTimeCorr 1 2 [1] (List.replicate 4 [some 1]) 4).map (fun M => M 0 2 0) = .ok (some 0) ∧
    (twoTimeCorr 2 2 [1] (List.replicate 4 [some 1]) 4).map (fun M => M 0 2 0) = .ok (some 1) := by
  decide +kernel

end Verif.Corr
