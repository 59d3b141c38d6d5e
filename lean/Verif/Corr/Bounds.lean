/- Property C190: the values of correlation functions obey the inequalities of the averages they stand for
(skbeam/core/correlation.py).  All definitions are those of Corr/Model.lean and Corr/TwoModel.lean. -/
import Verif.Corr.Invar
import Mathlib.Algebra.Order.BigOperators.Group.Finset
import Mathlib.Algebra.Order.BigOperators.Ring.Finset
import Mathlib.Tactic.Linarith
import Mathlib.Tactic.FieldSimp

namespace Verif.Corr
open Verif Finset

/-! ## Specification -/

/-- The number at flat position q of image t (0 for NaN or outside). -/
def Spec.value (ims : List (List (Option ℚ))) (t q : ℕ) : ℚ := ((ims[t]?).bind (fun im => (im[q]?).getD none)).getD 0

/-- Image t has a NaN at a labelled pixel. -/
def Spec.Dropped (labels : List ℤ) (ims : List (List (Option ℚ))) (t : ℕ) : Prop :=
  ∃ (q : ℕ) (x : ℤ), labels[q]? = some x ∧ 0 < x ∧ (ims[t]?).bind (fun im => (im[q]?).getD none) = none

open Classical in
/-- The (frame, pixel) pairs of region x in the frames that are not dropped. -/
noncomputable def Spec.samples (labels : List ℤ) (x : ℤ) (ims : List (List (Option ℚ))) : Finset (ℕ × ℕ) :=
  (range ims.length).filter (fun t => ¬ Spec.Dropped labels ims t) ×ˢ
    (range labels.length).filter (fun q => labels[q]? = some x)

/-- Mean and variance of w over a finite set. -/
def Spec.mean {ι : Type} (S : Finset ι) (w : ι → ℚ) : ℚ := (∑ s ∈ S, w s) / S.card
def Spec.variance {ι : Type} (S : Finset ι) (w : ι → ℚ) : ℚ := (∑ s ∈ S, (w s - Spec.mean S w) ^ 2) / S.card

/-! ## Means -/

theorem variance_eq {ι : Type} (S : Finset ι) (w : ι → ℚ) (h : S.Nonempty) :
    Spec.mean S (fun s => w s * w s) = Spec.mean S w * Spec.mean S w + Spec.variance S w := by
  have hc : (S.card : ℚ) ≠ 0 := by exact_mod_cast h.card_pos.ne'
  have e : ∑ s ∈ S, (w s - Spec.mean S w) ^ 2 =
      ∑ s ∈ S, w s * w s - 2 * Spec.mean S w * ∑ s ∈ S, w s + S.card * (Spec.mean S w) ^ 2 := by
    rw [mul_sum, ← sum_sub_distrib, ← nsmul_eq_mul, ← sum_const, ← sum_add_distrib]
    apply sum_congr rfl; intro s _; ring
  have e2 : ∑ s ∈ S, w s = S.card * Spec.mean S w := by unfold Spec.mean; field_simp
  unfold Spec.variance
  rw [e, e2]
  show (∑ s ∈ S, w s * w s) / _ = _
  field_simp
  ring

theorem variance_nonneg {ι : Type} (S : Finset ι) (w : ι → ℚ) : 0 ≤ Spec.variance S w :=
  div_nonneg (sum_nonneg (fun _ _ => sq_nonneg _)) (Nat.cast_nonneg _)

theorem variance_zero {ι : Type} (S : Finset ι) (w : ι → ℚ) (h : S.Nonempty) :
    Spec.variance S w = 0 ↔ ∀ s ∈ S, ∀ s' ∈ S, w s = w s' := by
  have hc : (S.card : ℚ) ≠ 0 := by exact_mod_cast h.card_pos.ne'
  unfold Spec.variance
  rw [div_eq_zero_iff, or_iff_left hc, sum_eq_zero_iff_of_nonneg (fun _ _ => sq_nonneg _)]
  constructor
  · intro hz s hs s' hs'
    have h1 := pow_eq_zero_iff (two_ne_zero) |>.1 (hz s hs)
    have h2 := pow_eq_zero_iff (two_ne_zero) |>.1 (hz s' hs')
    linarith
  · intro hq s hs
    have : Spec.mean S w = w s := by
      unfold Spec.mean
      rw [sum_congr rfl (fun s' hs' => hq s' hs' s hs), sum_const, nsmul_eq_mul, mul_comm, mul_div_assoc, div_self hc,
        mul_one]
    rw [this]; ring

theorem mean_prod {ι κ : Type} (A : Finset ι) (B : Finset κ) (w : ι → κ → ℚ) :
    (∑ a ∈ A, (∑ b ∈ B, w a b) / (B.card : ℚ)) / (A.card : ℚ) = Spec.mean (A ×ˢ B) (fun s => w s.1 s.2) := by
  unfold Spec.mean
  rw [← sum_div, div_div, sum_product, card_product, mul_comm (B.card : ℚ)]
  push_cast
  rfl

/-! ## One-time -/

theorem flat_value (m : ℕ) (ims : List (List (Option ℚ))) (t q : ℕ) :
    flatAt (imgAt m ims) t q = (ims[t]?).bind (fun im => (im[q]?).getD none) := by
  unfold flatAt imgAt
  cases ims[t]? with
  | none =>
    simp only [Option.getD_none, Option.bind_none, List.getElem?_replicate]
    split <;> rfl
  | some im => rfl

theorem avg0 (m : ℕ) (ims : List (List (Option ℚ))) (t q : ℕ) :
    Spec.blockAvg (flatAt (imgAt m ims)) 0 t q = Spec.value ims t q := by
  simp [Spec.blockAvg, Spec.value, flat_value]

theorem blockBad_iff (n L : ℕ) (labels : List ℤ) (c : Cfg) (pixels lags : List ℕ)
    (hv : validate n L labels = .ok (c, pixels, lags)) (m : ℕ) (ims : List (List (Option ℚ))) (t : ℕ) :
    Spec.BlockBad (pixelHistory (imgAt m ims) pixels) pixels.length 0 t ↔ Spec.Dropped labels ims t := by
  have hmem := (columns n L labels c pixels lags hv).2.2.2.2
  unfold Spec.Dropped
  constructor
  · rintro ⟨j, hj, p, hp, e⟩
    have : j = 0 := by simpa using hj
    subst this
    rw [mem_range] at hp
    obtain ⟨x, hx, h0⟩ := (hmem pixels[p]).1 (List.getElem_mem hp)
    refine ⟨pixels[p], x, hx, h0, ?_⟩
    rw [← flat_value m]
    simpa [pixelHistory, List.getElem?_eq_getElem hp, flatAt] using e
  · rintro ⟨q, x, hx, h0, e⟩
    obtain ⟨p, hp, rfl⟩ := List.getElem_of_mem ((hmem q).2 ⟨x, hx, h0⟩)
    refine ⟨0, by simp, p, mem_range.2 hp, ?_⟩
    rw [← flat_value m] at e
    simpa [pixelHistory, List.getElem?_eq_getElem hp, flatAt] using e

theorem gMax_past (c : Cfg) (a : Acc) (t : ℕ) (h : t < gMax c a) (r : ℕ) (hr : r < rois c) : a.past t r ≠ 0 := by
  intro e
  unfold gMax at h
  have hlt := lt_of_lt_of_le h (gMax_le c a)
  have := List.not_of_lt_findIdx h
  simp only [List.getElem_range] at this
  rw [List.any_eq_false] at this
  exact this r (by simpa using hr) (by simpa using e)

/-- C190: the zero-lag value of every region that is reported is 1 plus the squared contrast: the variance of all its
pixel values in the frames without NaN, divided by the square of their mean.  (There is at least one such value and
the mean is not zero.) -/
theorem C190_zero_lag (n L : ℕ) (hn2 : 2 ≤ n) (hL : 1 ≤ L) (labels : List ℤ) (x : ℤ) (hx : 0 < x) (hm : x ∈ labels)
    (ims : List (List (Option ℚ))) (hsz : ∀ im ∈ ims, labels.length ≤ im.length)
    (res : Res) (hr : multiTauAutoCorr L n labels ims = .ok res) (row : List (Option ℚ)) (hrow : res.g2[0]? = some row) :
    let S := Spec.samples labels x ims
    let w := fun s : ℕ × ℕ => Spec.value ims s.1 s.2
    S.Nonempty ∧ Spec.mean S w ≠ 0 ∧
      row[Spec.column labels x]? = some (some (1 + Spec.variance S w / Spec.mean S w ^ 2)) := by
  intro S w
  rcases hv : validate n L labels with e | ⟨c, pixels, lags⟩
  · unfold multiTauAutoCorr at hr; rw [hv] at hr; cases hr
  have he := (validate_ok hv).1
  rcases Nat.eq_zero_or_pos ims.length with h0 | hT
  · have : ims = [] := List.length_eq_zero_iff.1 h0
    subst this
    unfold multiTauAutoCorr at hr; rw [hv] at hr; cases hr
  set f := imgAt labels.length ims with hf
  have e1 : ims = (List.range ims.length).map f := imgAt_list _ _
  have hs : ∀ t, labels.length ≤ (f t).length := imgAt_size _ _ hsz
  have hcol := (columns n L labels c pixels lags hv).2.1 x hm hx
  have q1 := multiTau_eq n L hn2 hL labels c pixels lags hv f hs ims.length hT
  rw [← e1, hr, Except.ok.injEq] at q1
  obtain ⟨l1, hrow'⟩ := List.getElem?_eq_some_iff.1 hrow
  have hg : 0 < gMax c (lazyOneTime c pixels lags (init c) ims).2.1.2 := by
    rw [q1] at l1; simpa [result] using l1
  have hrows := (C46_rows_are_pair_means n L hn2 hL labels c pixels lags hv f hs ims.length).2 0 0
    (Spec.column labels x) hL (by omega) (Or.inl rfl)
  rw [← e1] at hrows
  simp only [Nat.zero_mul, Nat.zero_div, Nat.add_zero, pow_zero, Nat.div_one] at hrows
  have hpast := gMax_past c _ 0 hg _ hcol
  set A := Spec.pairs (pixelHistory f pixels) pixels.length 0 0 ims.length with hA
  have hAS : S = A ×ˢ region labels x := by
    show Spec.samples labels x ims = _
    unfold Spec.samples region
    congr 1
    rw [hA]
    unfold Spec.pairs
    ext t
    simp only [mem_filter, Nat.sub_zero, Nat.add_zero, hf, blockBad_iff n L labels c pixels lags hv, and_self]
  have hP : Spec.past (pixelHistory f pixels) pixels.length (fun p => (c.labels[p]?).getD 0) 0 0 ims.length
      (Spec.column labels x) = if A.card = 0 then 0 else Spec.mean S w := by
    unfold Spec.past Spec.pairMean
    rw [← hA, hAS, ← mean_prod]
    simp only [mean_region n L labels c pixels lags hv x hx hm, hf, avg0]
  have hF : Spec.future (pixelHistory f pixels) pixels.length (fun p => (c.labels[p]?).getD 0) 0 0 ims.length
      (Spec.column labels x) = if A.card = 0 then 0 else Spec.mean S w := by
    rw [← hP]; rfl
  have hG : Spec.G (pixelHistory f pixels) pixels.length (fun p => (c.labels[p]?).getD 0) 0 0 ims.length
      (Spec.column labels x) = if A.card = 0 then 0 else Spec.mean S (fun s => w s * w s) := by
    unfold Spec.G Spec.pairMean
    rw [← hA, hAS, ← mean_prod A (region labels x) (fun a b => Spec.value ims a b * Spec.value ims a b)]
    simp only [Nat.add_zero, prod_region n L labels c pixels lags hv x hx hm, hf, avg0]
  rw [hrows.2.1, hP] at hpast
  have hAc : A.card ≠ 0 := by intro h; rw [if_pos h] at hpast; exact hpast rfl
  rw [if_neg hAc] at hpast hP hF hG
  have hne : S.Nonempty := by
    rw [nonempty_iff_ne_empty]
    intro h
    apply hpast
    unfold Spec.mean
    rw [h]; simp
  refine ⟨hne, hpast, ?_⟩
  have : row[Spec.column labels x]? = some (g2At (lazyOneTime c pixels lags (init c) ims).2.1.2 0 (Spec.column labels x)) := by
    rw [← hrow']
    simp [q1, result, hcol]
  rw [this]
  unfold g2At
  rw [hrows.1, hrows.2.1, hrows.2.2, hP, hF, hG, if_neg (mul_ne_zero hpast hpast), variance_eq S w hne]
  congr 2
  field_simp

/-- C190: hence it is at least 1, and equal to 1 exactly if all pixel values of the region in the frames without NaN
are the same. -/
theorem C190_zero_lag_at_least_one (n L : ℕ) (hn2 : 2 ≤ n) (hL : 1 ≤ L) (labels : List ℤ) (x : ℤ) (hx : 0 < x)
    (hm : x ∈ labels) (ims : List (List (Option ℚ))) (hsz : ∀ im ∈ ims, labels.length ≤ im.length)
    (res : Res) (hr : multiTauAutoCorr L n labels ims = .ok res) (row : List (Option ℚ)) (hrow : res.g2[0]? = some row) :
    ∃ z, row[Spec.column labels x]? = some (some z) ∧ 1 ≤ z ∧
      (z = 1 ↔ ∀ s ∈ Spec.samples labels x ims, ∀ s' ∈ Spec.samples labels x ims,
        Spec.value ims s.1 s.2 = Spec.value ims s'.1 s'.2) := by
  obtain ⟨hne, h0, hz⟩ := C190_zero_lag n L hn2 hL labels x hx hm ims hsz res hr row hrow
  refine ⟨_, hz, ?_, ?_⟩
  · have := div_nonneg (variance_nonneg (Spec.samples labels x ims) (fun s => Spec.value ims s.1 s.2))
      (sq_nonneg (Spec.mean (Spec.samples labels x ims) (fun s => Spec.value ims s.1 s.2)))
    linarith
  · rw [← variance_zero _ (fun s : ℕ × ℕ => Spec.value ims s.1 s.2) hne, add_eq_left, div_eq_zero_iff,
      or_iff_left (pow_ne_zero 2 h0)]

/-- C190: with no negative pixel value in the regions, no entry of the curve is negative, at any lag. -/
theorem C190_nonneg (n L : ℕ) (hn2 : 2 ≤ n) (hL : 1 ≤ L) (labels : List ℤ)
    (ims : List (List (Option ℚ))) (hsz : ∀ im ∈ ims, labels.length ≤ im.length)
    (hpos : ∀ im ∈ ims, ∀ z, some z ∈ im → 0 ≤ z)
    (res : Res) (hr : multiTauAutoCorr L n labels ims = .ok res) (row : List (Option ℚ)) (hrow : row ∈ res.g2)
    (z : ℚ) (hz : some z ∈ row) : 0 ≤ z := by
  rcases hv : validate n L labels with e | ⟨c, pixels, lags⟩
  · unfold multiTauAutoCorr at hr; rw [hv] at hr; cases hr
  rcases Nat.eq_zero_or_pos ims.length with h0 | hT
  · have : ims = [] := List.length_eq_zero_iff.1 h0
    subst this
    unfold multiTauAutoCorr at hr; rw [hv] at hr; cases hr
  set f := imgAt labels.length ims with hf
  have e1 : ims = (List.range ims.length).map f := imgAt_list _ _
  have hs : ∀ t, labels.length ≤ (f t).length := imgAt_size _ _ hsz
  obtain ⟨r1, q1, g1⟩ := C46_one_call_uses_every_frame n L hn2 hL labels c pixels lags hv f hs ims.length hT
  rw [← e1, hr, Except.ok.injEq] at q1
  subst q1
  obtain ⟨t, ht, rfl⟩ := List.getElem_of_mem hrow
  obtain ⟨l, i, hl, hi, hor, hte, hlen, hent⟩ := g1 t ht
  obtain ⟨r, hr', hzr⟩ := List.getElem_of_mem hz
  have := hent r (by omega)
  rw [List.getElem?_eq_getElem hr', hzr] at this
  have hvpos : ∀ t p, 0 ≤ (pixelHistory f pixels t p).getD 0 := by
    intro t p
    unfold pixelHistory
    cases pixels[p]? with
    | none => exact le_refl (0 : ℚ)
    | some q =>
      show 0 ≤ (((f t)[q]?).getD none).getD 0
      have e := flat_value labels.length ims t q
      unfold flatAt at e
      rw [hf, e]
      cases ht : ims[t]? with
      | none => exact le_refl (0 : ℚ)
      | some im =>
        simp only [Option.bind_some]
        cases hq : im[q]? with
        | none => exact le_refl (0 : ℚ)
        | some y =>
          cases y with
          | none => exact le_refl (0 : ℚ)
          | some y => simpa using hpos im (List.mem_of_getElem? ht) y (List.mem_of_getElem? hq)
  have hb : ∀ k p, 0 ≤ Spec.blockAvg (pixelHistory f pixels) l k p :=
    fun k p => div_nonneg (sum_nonneg (fun j _ => hvpos _ _)) (by positivity)
  have hroi : ∀ (P : ℕ) (lab : ℕ → ℕ) (r : ℕ) (w : ℕ → ℚ), (∀ p, 0 ≤ w p) → 0 ≤ Spec.roiMean P lab r w :=
    fun P lab r w h => div_nonneg (sum_nonneg (fun p _ => h p)) (Nat.cast_nonneg _)
  have hpm : ∀ (q : ℕ → ℚ), (∀ k, 0 ≤ q k) → 0 ≤ Spec.pairMean (pixelHistory f pixels) pixels.length l i
      (ims.length / 2 ^ l) q := by
    intro q h
    unfold Spec.pairMean
    split
    · exact le_refl _
    · exact div_nonneg (sum_nonneg (fun k _ => h k)) (Nat.cast_nonneg _)
  split at this
  · cases this
  · simp only [Option.some.injEq] at this
    rw [this]
    refine div_nonneg (hpm _ (fun k => hroi _ _ _ _ (fun p => mul_nonneg (hb _ _) (hb _ _)))) (mul_nonneg ?_ ?_)
    · exact hpm _ (fun k => hroi _ _ _ _ (fun p => hb _ _))
    · exact hpm _ (fun k => hroi _ _ _ _ (fun p => hb _ _))

/-! ## Two-time -/

/-- C190: the two-time values minus 1 form a covariance matrix.  For any frames less than `num_bufs` apart whose values
are numbers and any weights, the weighted sum of (entry - 1) is not negative. -/
theorem C190_two_time_covariance (n L nf : ℕ) (hn2 : 2 ≤ n) (hL : 1 ≤ L) (labels : List ℤ) (x : ℤ) (hx : 0 < x)
    (hm : x ∈ labels) (ims : List (List (Option ℚ))) (hsz : ∀ im ∈ ims, labels.length ≤ im.length)
    (M : ℕ → ℕ → ℕ → Option ℚ) (hM : twoTimeCorr L n labels ims nf = .ok M)
    (A : Finset ℕ) (hA : ∀ a ∈ A, a < ims.length) (hclose : ∀ a ∈ A, ∀ b ∈ A, a < b + n)
    (g : ℕ → ℕ → ℚ) (hg : ∀ a ∈ A, ∀ b ∈ A, M (Spec.column labels x) a b = some (g a b)) (w : ℕ → ℚ) :
    0 ≤ ∑ a ∈ A, ∑ b ∈ A, w a * w b * (g a b - 1) := by
  rcases hv : validate n L labels with e | ⟨c, pixels, lags⟩
  · unfold twoTimeCorr at hM; rw [hv] at hM; cases hM
  rcases Nat.eq_zero_or_pos ims.length with h0 | hT
  · have : ims = [] := List.length_eq_zero_iff.1 h0
    subst this
    unfold twoTimeCorr at hM; rw [hv] at hM; cases hM
  set f := imgAt labels.length ims with hf
  have e1 : ims = (List.range ims.length).map f := imgAt_list _ _
  have hs : ∀ t, labels.length ≤ (f t).length := imgAt_size _ _ hsz
  have hcol := (columns n L labels c pixels lags hv).2.1 x hm hx
  have hnf : ims.length ≤ nf := by
    by_contra h
    rw [e1, C52_too_many_frames n L nf hn2 hL labels c pixels lags hv f hs ims.length (by omega)] at hM
    cases hM
  obtain ⟨M', hM', hent⟩ := C51_entries n L nf hn2 hL labels c pixels lags hv f hs ims.length hT hnf
  rw [← e1, hM, Except.ok.injEq] at hM'
  subst hM'
  set R := region labels x with hR
  set μ : ℕ → ℚ := fun t => (∑ q ∈ R, Spec.blockAvg (flatAt f) 0 t q) / (R.card : ℚ) with hμ
  have key : ∀ a b z, Spec.twoTime (pixelHistory f pixels) pixels.length (fun p => (c.labels[p]?).getD 0) 0 a b
      (Spec.column labels x) = some z → μ a ≠ 0 ∧ μ b ≠ 0 ∧
      z = (∑ q ∈ R, Spec.blockAvg (flatAt f) 0 a q * Spec.blockAvg (flatAt f) 0 b q) / R.card / (μ a * μ b) := by
    intro a b z h
    unfold Spec.twoTime at h
    simp only [mean_region n L labels c pixels lags hv x hx hm, prod_region n L labels c pixels lags hv x hx hm] at h
    split at h
    · cases h
    · split at h
      · cases h
      · rename_i h1 h2
        simp only [Option.some.injEq] at h
        exact ⟨left_ne_zero_of_mul h2, right_ne_zero_of_mul h2, h.symm⟩
  have hgz : ∀ a ∈ A, ∀ b ∈ A, μ a ≠ 0 ∧ μ b ≠ 0 ∧
      g a b = (∑ q ∈ R, Spec.blockAvg (flatAt f) 0 a q * Spec.blockAvg (flatAt f) 0 b q) / R.card / (μ a * μ b) := by
    intro a ha b hb
    have h1 := hg a ha b hb
    rcases le_total b a with h | h
    · rw [(hent _ hcol a b (hA a ha) h (by have := hclose a ha b hb; omega)).1] at h1
      obtain ⟨p1, p2, p3⟩ := key _ _ _ h1
      refine ⟨p2, p1, p3.trans ?_⟩
      rw [mul_comm (μ b)]
      congr 2
      apply sum_congr rfl; intro q _; ring
    · obtain ⟨p, p'⟩ := hent _ hcol b a (hA b hb) h (by have := hclose b hb a ha; omega)
      rw [p', p] at h1
      exact key _ _ _ h1
  have hRc : A.Nonempty → (R.card : ℚ) ≠ 0 := by
    rintro ⟨a, ha⟩ h
    apply (hgz a ha a ha).1
    simp [hμ, h]
  rcases A.eq_empty_or_nonempty with rfl | hne
  · simp
  have hc := hRc hne
  have hexp : ∑ a ∈ A, ∑ b ∈ A, w a * w b * (g a b - 1) =
      (∑ q ∈ R, (∑ a ∈ A, w a * (Spec.blockAvg (flatAt f) 0 a q / μ a - 1)) ^ 2) / R.card := by
    have h1 : ∀ a ∈ A, ∀ b ∈ A, w a * w b * (g a b - 1) =
        (∑ q ∈ R, (w a * (Spec.blockAvg (flatAt f) 0 a q / μ a - 1)) *
          (w b * (Spec.blockAvg (flatAt f) 0 b q / μ b - 1))) / R.card := by
      intro a ha b hb
      obtain ⟨p1, p2, p3⟩ := hgz a ha b hb
      have s1 : ∀ t, ∑ q ∈ R, Spec.blockAvg (flatAt f) 0 t q = R.card * μ t := by
        intro t; simp only [hμ]; field_simp
      have : ∑ q ∈ R, (w a * (Spec.blockAvg (flatAt f) 0 a q / μ a - 1)) *
          (w b * (Spec.blockAvg (flatAt f) 0 b q / μ b - 1)) = w a * w b *
          ((∑ q ∈ R, Spec.blockAvg (flatAt f) 0 a q * Spec.blockAvg (flatAt f) 0 b q) / (μ a * μ b)
            - (∑ q ∈ R, Spec.blockAvg (flatAt f) 0 a q) / μ a - (∑ q ∈ R, Spec.blockAvg (flatAt f) 0 b q) / μ b
            + ∑ q ∈ R, (1 : ℚ)) := by
        rw [sum_div, sum_div, sum_div, ← sum_sub_distrib, ← sum_sub_distrib, ← sum_add_distrib, mul_sum]
        apply sum_congr rfl
        intro q _
        field_simp
        ring
      rw [this, s1, s1, p3]
      simp only [sum_const, nsmul_eq_mul, mul_one]
      field_simp
      ring
    rw [sum_congr rfl (fun a ha => sum_congr rfl (fun b hb => h1 a ha b hb))]
    simp only [← sum_div]
    congr 1
    have : ∀ a ∈ A, ∑ b ∈ A, ∑ q ∈ R, (w a * (Spec.blockAvg (flatAt f) 0 a q / μ a - 1)) *
          (w b * (Spec.blockAvg (flatAt f) 0 b q / μ b - 1)) = ∑ q ∈ R, (w a * (Spec.blockAvg (flatAt f) 0 a q / μ a - 1)) *
          ∑ b ∈ A, (w b * (Spec.blockAvg (flatAt f) 0 b q / μ b - 1)) := by
      intro a _
      rw [sum_comm]
      apply sum_congr rfl; intro q _; rw [mul_sum]
    rw [sum_congr rfl this, sum_comm]
    apply sum_congr rfl
    intro q _
    rw [← sum_mul, sq]
  rw [hexp]
  exact div_nonneg (sum_nonneg (fun _ _ => sq_nonneg _)) (Nat.cast_nonneg _)

/-- C190: hence every diagonal entry is at least 1, and two frames are never more correlated than each with itself. -/
theorem C190_two_time_bounds (n L nf : ℕ) (hn2 : 2 ≤ n) (hL : 1 ≤ L) (labels : List ℤ) (x : ℤ) (hx : 0 < x)
    (hm : x ∈ labels) (ims : List (List (Option ℚ))) (hsz : ∀ im ∈ ims, labels.length ≤ im.length)
    (M : ℕ → ℕ → ℕ → Option ℚ) (hM : twoTimeCorr L n labels ims nf = .ok M)
    (a b : ℕ) (ha : a < ims.length) (hb : b < ims.length) (h1 : a < b + n) (h2 : b < a + n)
    (gaa gbb gab : ℚ) (haa : M (Spec.column labels x) a a = some gaa) (hbb : M (Spec.column labels x) b b = some gbb)
    (hab : M (Spec.column labels x) a b = some gab) :
    1 ≤ gaa ∧ (gab - 1) ^ 2 ≤ (gaa - 1) * (gbb - 1) := by
  have hdiag : ∀ c g, c < ims.length → M (Spec.column labels x) c c = some g → 1 ≤ g := by
    intro c g hc hg
    have := C190_two_time_covariance n L nf hn2 hL labels x hx hm ims hsz M hM {c} (by simpa using hc) (by simp; omega)
      (fun _ _ => g) (by simpa using hg) (fun _ => 1)
    simp at this
    linarith
  refine ⟨hdiag a gaa ha haa, ?_⟩
  rcases eq_or_ne a b with rfl | hne
  · rw [haa] at hbb hab
    simp only [Option.some.injEq] at hbb hab
    subst hbb hab
    nlinarith
  have hba : M (Spec.column labels x) b a = some gab := by
    rcases hv : validate n L labels with e | ⟨c, pixels, lags⟩
    · unfold twoTimeCorr at hM; rw [hv] at hM; cases hM
    have e1 : ims = (List.range ims.length).map (imgAt labels.length ims) := imgAt_list _ _
    have hs : ∀ t, labels.length ≤ (imgAt labels.length ims t).length := imgAt_size _ _ hsz
    have hnf : ims.length ≤ nf := by
      by_contra h
      rw [e1, C52_too_many_frames n L nf hn2 hL labels c pixels lags hv _ hs ims.length (by omega)] at hM
      cases hM
    obtain ⟨M', hM', hent⟩ := C52_two_time_matrix n L nf hn2 hL labels c pixels lags hv _ hs ims.length (by omega) hnf
    rw [← e1, hM, Except.ok.injEq] at hM'
    subst hM'
    rw [(hent _ ((columns n L labels c pixels lags hv).2.1 x hm hx)).1, hab]
  have quad : ∀ s t : ℚ, 0 ≤ s * s * (gaa - 1) + 2 * s * t * (gab - 1) + t * t * (gbb - 1) := by
    intro s t
    have := C190_two_time_covariance n L nf hn2 hL labels x hx hm ims hsz M hM {a, b}
      (by simp only [mem_insert, mem_singleton]; rintro c (rfl | rfl) <;> assumption)
      (by simp only [mem_insert, mem_singleton]; rintro c (rfl | rfl) d (rfl | rfl) <;> omega)
      (fun c d => if c = a then (if d = a then gaa else gab) else (if d = a then gab else gbb))
      (by
        simp only [mem_insert, mem_singleton]
        rintro c (rfl | rfl) d (rfl | rfl)
        · simpa using haa
        · simpa [hne.symm] using hab
        · simpa [hne.symm] using hba
        · simpa [hne.symm] using hbb)
      (fun c => if c = a then s else t)
    rw [sum_pair hne, sum_pair hne, sum_pair hne] at this
    simp only [if_true, hne.symm, if_false] at this
    linarith
  have ga := hdiag a gaa ha haa
  have gb := hdiag b gbb hb hbb
  by_cases h0 : gbb - 1 = 0
  · rw [h0, mul_zero]
    by_contra hcon
    have hnz : gab - 1 ≠ 0 := by intro h; rw [h] at hcon; norm_num at hcon
    have q := quad 1 (-gaa / (gab - 1))
    rw [h0] at q
    have e : 2 * 1 * (-gaa / (gab - 1)) * (gab - 1) = -2 * gaa := by field_simp
    rw [e] at q
    linarith
  · have q := quad (gbb - 1) (-(gab - 1))
    have hpos : 0 < gbb - 1 := lt_of_le_of_ne (by linarith) (Ne.symm h0)
    have : 0 ≤ (gbb - 1) * ((gaa - 1) * (gbb - 1) - (gab - 1) ^ 2) := by nlinarith
    have := nonneg_of_mul_nonneg_right this hpos
    linarith

/-! Non-vacuity -/

example : (multiTauAutoCorr 1 2 [1, 1] [[some 1, some 3], [some 4, none], [some 4, some 2]]).map (fun r => r.g2) =
    .ok [[some (6 / 5)]] := by decide +kernel

example : (twoTimeCorr 1 2 [1, 1] [[some 1, some 3], [some 4, some 2]] 2).map (fun M => (M 0 0 0, M 0 0 1, M 0 1 1)) =
    .ok (some (5 / 4), some (5 / 6), some (10 / 9)) := by decide +kernel

end Verif.Corr
