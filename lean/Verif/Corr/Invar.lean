/- Properties C180-C182: what correlation curves do and do not depend on, and the agreement of the two ways to compute
them (skbeam/core/correlation.py).  All definitions are those of Corr/Model.lean and Corr/TwoModel.lean. -/
import Verif.Corr.TwoProps
import Mathlib.Algebra.BigOperators.Field

namespace Verif.Corr
open Verif Finset

/-! ## Specification -/

/-- The image multiplied by a number (NaN stays NaN). -/
def Spec.scaleImage (k : ℚ) (im : List (Option ℚ)) : List (Option ℚ) := im.map (Option.map (k * ·))

/-- The two images agree at every labelled pixel. -/
def Spec.SameLabelled (labels : List ℤ) (im im' : List (Option ℚ)) : Prop :=
  ∀ (q : ℕ) (x : ℤ), labels[q]? = some x → 0 < x → im[q]? = im'[q]?

/-- Region x of the first label image and region y of the second consist of the same pixels. -/
def Spec.SameRegion (labels labels' : List ℤ) (x y : ℤ) : Prop :=
  0 < x ∧ 0 < y ∧ x ∈ labels ∧ ∀ q : ℕ, labels[q]? = some x ↔ labels'[q]? = some y

/-- The column of region x: its position among the distinct positive labels in increasing order. -/
def Spec.column (labels : List ℤ) (x : ℤ) : ℕ := ((labels.toFinset).filter (fun y => 0 < y ∧ y < x)).card

/-! ## Whole calls -/

/-- A list of images as a sequence. -/
def imgAt (m : ℕ) (ims : List (List (Option ℚ))) (t : ℕ) : List (Option ℚ) := (ims[t]?).getD (List.replicate m none)

theorem imgAt_list (m : ℕ) (ims : List (List (Option ℚ))) : ims = (List.range ims.length).map (imgAt m ims) := by
  apply List.ext_getElem?
  intro i
  rw [List.getElem?_map]
  by_cases h : i < ims.length
  · rw [List.getElem?_range h, List.getElem?_eq_getElem h]; simp [imgAt, h]
  · rw [List.getElem?_eq_none (by omega), List.getElem?_eq_none (by simpa using h)]; rfl

theorem imgAt_size (m : ℕ) (ims : List (List (Option ℚ))) (h : ∀ im ∈ ims, m ≤ im.length) (t : ℕ) :
    m ≤ (imgAt m ims t).length := by
  unfold imgAt
  cases hh : ims[t]? with
  | none => simp
  | some im => simpa using h im (List.mem_of_getElem? hh)

theorem multiTau_eq (n L : ℕ) (hn2 : 2 ≤ n) (hL : 1 ≤ L) (labels : List ℤ) (c : Cfg)
    (pixels lags : List ℕ) (hv : validate n L labels = .ok (c, pixels, lags))
    (images : ℕ → List (Option ℚ)) (hsz : ∀ t, labels.length ≤ (images t).length) (T : ℕ) (hT : 1 ≤ T) :
    multiTauAutoCorr L n labels ((List.range T).map images) =
      .ok (result c lags (lazyOneTime c pixels lags (init c) ((List.range T).map images)).2.1) := by
  have hno := (C46_rows_are_pair_means n L hn2 hL labels c pixels lags hv images hsz T).1
  have hl := lazy_getLast c pixels lags ((List.range T).map images) (init c) hno (by simp; omega)
  unfold multiTauAutoCorr
  rw [hv]
  simp only [bind, Except.bind]
  rw [hno, hl]

theorem validate_exists (n L : ℕ) (he : n % 2 = 0) (labels : List ℤ) :
    ∃ c pixels lags, validate n L labels = .ok (c, pixels, lags) := by
  obtain ⟨c, px, lg, u, h, _⟩ := C50_renumbering labels n L he
  exact ⟨c, px, lg, h⟩

theorem result_congr (c : Cfg) (lags : List ℕ) (s s' : St)
    (h0 : ∀ t < rows c, ∀ r < rois c, s.2.past t r = 0 ↔ s'.2.past t r = 0)
    (h1 : ∀ t < rows c, ∀ r < rois c, g2At s.2 t r = g2At s'.2 t r) : result c lags s = result c lags s' := by
  have hg : gMax c s.2 = gMax c s'.2 := by
    unfold gMax
    have key : ∀ l : List ℕ, (∀ t ∈ l, t < rows c) →
        l.findIdx (fun t => (List.range (rois c)).any (fun r => s.2.past t r = 0)) =
        l.findIdx (fun t => (List.range (rois c)).any (fun r => s'.2.past t r = 0)) := by
      intro l
      induction l with
      | nil => intro _; rfl
      | cons a t ih =>
        intro h
        rw [List.findIdx_cons, List.findIdx_cons, ih (fun t ht => h t (by simp [ht]))]
        have : (List.range (rois c)).any (fun r => decide (s.2.past a r = 0)) =
            (List.range (rois c)).any (fun r => decide (s'.2.past a r = 0)) := by
          rw [Bool.eq_iff_iff, List.any_eq_true, List.any_eq_true]
          constructor <;> rintro ⟨r, hr, he⟩ <;> refine ⟨r, hr, ?_⟩
          · simpa [(h0 a (h a (by simp)) r (by simpa using hr))] using he
          · simpa [(h0 a (h a (by simp)) r (by simpa using hr))] using he
        rw [this]
    exact key _ (fun t ht => by simpa using ht)
  unfold result
  rw [hg]
  congr 1
  apply List.map_congr_left
  intro t ht
  apply List.map_congr_left
  intro r hr
  simp only [List.mem_range] at ht hr
  exact h1 t (lt_of_lt_of_le ht (gMax_le c s'.2)) r hr

/-! ## C180 scale -/

theorem blockBad_scale (k : ℚ) (v : ℕ → ℕ → Option ℚ) (P l j : ℕ) :
    Spec.BlockBad (fun t p => (v t p).map (k * ·)) P l j ↔ Spec.BlockBad v P l j := by
  simp [Spec.BlockBad]

theorem blockAvg_scale (k : ℚ) (v : ℕ → ℕ → Option ℚ) (l j p : ℕ) :
    Spec.blockAvg (fun t p => (v t p).map (k * ·)) l j p = k * Spec.blockAvg v l j p := by
  unfold Spec.blockAvg
  rw [← mul_div_assoc, mul_sum]
  congr 1
  apply sum_congr rfl
  intro i _
  show ((v (j * 2 ^ l + i) p).map (k * ·)).getD 0 = _
  cases v (j * 2 ^ l + i) p <;> simp

theorem pairs_scale (k : ℚ) (v : ℕ → ℕ → Option ℚ) (P l i N : ℕ) :
    Spec.pairs (fun t p => (v t p).map (k * ·)) P l i N = Spec.pairs v P l i N := by
  unfold Spec.pairs
  apply filter_congr
  intro j _
  rw [blockBad_scale, blockBad_scale]

theorem pairMean_scale (k : ℚ) (v : ℕ → ℕ → Option ℚ) (P l i N : ℕ) (q q' : ℕ → ℚ) (a : ℚ) (h : ∀ j, q' j = a * q j) :
    Spec.pairMean (fun t p => (v t p).map (k * ·)) P l i N q' = a * Spec.pairMean v P l i N q := by
  unfold Spec.pairMean
  rw [pairs_scale]
  split
  · simp
  · rw [sum_congr rfl (fun j _ => h j), ← mul_sum, mul_div_assoc]

theorem roiMean_scale (P : ℕ) (lab : ℕ → ℕ) (r : ℕ) (w w' : ℕ → ℚ) (a : ℚ) (h : ∀ p, w' p = a * w p) :
    Spec.roiMean P lab r w' = a * Spec.roiMean P lab r w := by
  unfold Spec.roiMean
  rw [sum_congr rfl (fun p _ => h p), ← mul_sum, mul_div_assoc]

theorem past_scale (k : ℚ) (v P lab l i N r) :
    Spec.past (fun t p => (v t p).map (k * ·)) P lab l i N r = k * Spec.past v P lab l i N r :=
  pairMean_scale k v P l i N _ _ k (fun j => roiMean_scale P lab r _ _ k (fun p => blockAvg_scale k v l j p))

theorem future_scale (k : ℚ) (v P lab l i N r) :
    Spec.future (fun t p => (v t p).map (k * ·)) P lab l i N r = k * Spec.future v P lab l i N r :=
  pairMean_scale k v P l i N _ _ k (fun j => roiMean_scale P lab r _ _ k (fun p => blockAvg_scale k v l (j + i) p))

theorem G_scale (k : ℚ) (v P lab l i N r) :
    Spec.G (fun t p => (v t p).map (k * ·)) P lab l i N r = k ^ 2 * Spec.G v P lab l i N r :=
  pairMean_scale k v P l i N _ _ (k ^ 2) (fun j => roiMean_scale P lab r _ _ (k ^ 2) (fun p => by
    rw [blockAvg_scale, blockAvg_scale]; ring))

theorem twoTime_scale (k : ℚ) (hk : k ≠ 0) (v P lab l a b r) :
    Spec.twoTime (fun t p => (v t p).map (k * ·)) P lab l a b r = Spec.twoTime v P lab l a b r := by
  have hb : ∀ j, Spec.RoiBad (fun t p => (v t p).map (k * ·)) P lab r l j ↔ Spec.RoiBad v P lab r l j := by
    intro j; simp [Spec.RoiBad]
  have h1 : ∀ j, Spec.roiMean P lab r (Spec.blockAvg (fun t p => (v t p).map (k * ·)) l j) =
      k * Spec.roiMean P lab r (Spec.blockAvg v l j) :=
    fun j => roiMean_scale P lab r _ _ k (fun p => blockAvg_scale k v l j p)
  have h2 : Spec.roiMean P lab r (fun p => Spec.blockAvg (fun t p => (v t p).map (k * ·)) l a p *
      Spec.blockAvg (fun t p => (v t p).map (k * ·)) l b p) =
      k ^ 2 * Spec.roiMean P lab r (fun p => Spec.blockAvg v l a p * Spec.blockAvg v l b p) :=
    roiMean_scale P lab r _ _ (k ^ 2) (fun p => by rw [blockAvg_scale, blockAvg_scale]; ring)
  unfold Spec.twoTime
  simp only [hb, h1, h2]
  have hz : k * Spec.roiMean P lab r (Spec.blockAvg v l a) * (k * Spec.roiMean P lab r (Spec.blockAvg v l b)) =
      k ^ 2 * (Spec.roiMean P lab r (Spec.blockAvg v l a) * Spec.roiMean P lab r (Spec.blockAvg v l b)) := by ring
  rw [hz]
  have hk2 : k ^ 2 ≠ 0 := pow_ne_zero 2 hk
  split
  · rfl
  · by_cases h0 : Spec.roiMean P lab r (Spec.blockAvg v l a) * Spec.roiMean P lab r (Spec.blockAvg v l b) = 0
    · rw [if_pos (by rw [h0, mul_zero]), if_pos h0]
    · rw [if_neg (mul_ne_zero hk2 h0), if_neg h0, mul_div_mul_left _ _ hk2]

theorem history_scale (k : ℚ) (m : ℕ) (ims : List (List (Option ℚ))) (pixels : List ℕ) :
    pixelHistory (imgAt m (ims.map (Spec.scaleImage k))) pixels =
      fun t p => (pixelHistory (imgAt m ims) pixels t p).map (k * ·) := by
  funext t p
  unfold pixelHistory
  cases pixels[p]? with
  | none => rfl
  | some q =>
    simp only
    unfold imgAt
    rw [List.getElem?_map]
    cases ims[t]? with
    | none =>
      simp only [Option.map_none, Option.getD_none, List.getElem?_replicate]
      split <;> rfl
    | some im =>
      simp only [Option.map_some, Option.getD_some, Spec.scaleImage, List.getElem?_map]
      cases im[q]? <;> rfl

theorem scale_sizes (k : ℚ) (m : ℕ) (ims : List (List (Option ℚ))) (h : ∀ im ∈ ims, m ≤ im.length) :
    ∀ im ∈ ims.map (Spec.scaleImage k), m ≤ im.length := by
  intro im hm
  obtain ⟨im', h', rfl⟩ := List.mem_map.1 hm
  simpa [Spec.scaleImage] using h im' h'

/-- C180, one-time: multiplying all images by a non-zero number does not change the result of multi_tau_auto_corr. -/
theorem C180_one_time_scale (n L : ℕ) (he : n % 2 = 0) (hn2 : 2 ≤ n) (hL : 1 ≤ L) (labels : List ℤ)
    (ims : List (List (Option ℚ))) (hsz : ∀ im ∈ ims, labels.length ≤ im.length) (k : ℚ) (hk : k ≠ 0) :
    multiTauAutoCorr L n labels (ims.map (Spec.scaleImage k)) = multiTauAutoCorr L n labels ims := by
  obtain ⟨c, pixels, lags, hv⟩ := validate_exists n L he labels
  rcases Nat.eq_zero_or_pos ims.length with h0 | hT
  · have : ims = [] := List.length_eq_zero_iff.1 h0
    subst this; rfl
  set f := imgAt labels.length ims with hf
  set f' := imgAt labels.length (ims.map (Spec.scaleImage k)) with hf'
  have e1 : ims = (List.range ims.length).map f := imgAt_list _ _
  have e2 : ims.map (Spec.scaleImage k) = (List.range ims.length).map f' := by
    have := imgAt_list labels.length (ims.map (Spec.scaleImage k))
    rwa [List.length_map] at this
  have s1 : ∀ t, labels.length ≤ (f t).length := imgAt_size _ _ hsz
  have s2 : ∀ t, labels.length ≤ (f' t).length := imgAt_size _ _ (scale_sizes k _ _ hsz)
  rw [e2]
  conv_rhs => rw [e1]
  rw [multiTau_eq n L hn2 hL labels c pixels lags hv f' s2 _ hT,
    multiTau_eq n L hn2 hL labels c pixels lags hv f s1 _ hT]
  congr 1
  have r1 := (C46_rows_are_pair_means n L hn2 hL labels c pixels lags hv f s1 ims.length).2
  have r2 := (C46_rows_are_pair_means n L hn2 hL labels c pixels lags hv f' s2 ims.length).2
  simp only [hf', history_scale k labels.length ims pixels, past_scale, future_scale, G_scale] at r2
  rw [← hf, ← hf'] at r2
  have hrn : rows c = (L + 1) * n / 2 := by rw [(validate_ok hv).2.1]; rfl
  apply result_congr
  · intro t ht r _
    obtain ⟨l, i, hl, ⟨hi, hor⟩, rfl⟩ := row_decomp he hn2 hL (hrn ▸ ht)
    rw [(r1 l i r hl hi hor).2.1, (r2 l i r hl hi hor).2.1, mul_eq_zero]
    simp [hk]
  · intro t ht r _
    obtain ⟨l, i, hl, ⟨hi, hor⟩, rfl⟩ := row_decomp he hn2 hL (hrn ▸ ht)
    unfold g2At
    rw [(r1 l i r hl hi hor).1, (r1 l i r hl hi hor).2.1, (r1 l i r hl hi hor).2.2,
      (r2 l i r hl hi hor).1, (r2 l i r hl hi hor).2.1, (r2 l i r hl hi hor).2.2]
    set p := Spec.past (pixelHistory f pixels) pixels.length (fun p => (c.labels[p]?).getD 0) l i (ims.length / 2 ^ l) r
    set q := Spec.future (pixelHistory f pixels) pixels.length (fun p => (c.labels[p]?).getD 0) l i (ims.length / 2 ^ l) r
    have e : k * p * (k * q) = k ^ 2 * (p * q) := by ring
    have hk2 : k ^ 2 ≠ 0 := pow_ne_zero 2 hk
    rw [e]
    by_cases h0 : p * q = 0
    · rw [if_pos (by rw [h0, mul_zero]), if_pos h0]
    · rw [if_neg (mul_ne_zero hk2 h0), if_neg h0, mul_div_mul_left _ _ hk2]

theorem twoTime_ext (n L nf : ℕ) (hn2 : 2 ≤ n) (hL : 1 ≤ L) (labels labels' : List ℤ) (c c' : Cfg)
    (pixels lags pixels' lags' : List ℕ) (hv : validate n L labels = .ok (c, pixels, lags))
    (hv' : validate n L labels' = .ok (c', pixels', lags'))
    (f f' : ℕ → List (Option ℚ)) (hsz : ∀ t, labels.length ≤ (f t).length) (hsz' : ∀ t, labels'.length ≤ (f' t).length)
    (T : ℕ) (hT : 1 ≤ T) (M : ℕ → ℕ → ℕ → Option ℚ) (hM : twoTimeCorr L n labels ((List.range T).map f) nf = .ok M) :
    ∃ M', twoTimeCorr L n labels' ((List.range T).map f') nf = .ok M' ∧
      ∀ r < rois c, ∀ r' < rois c', (∀ l a b,
        Spec.twoTime (pixelHistory f pixels) pixels.length (fun p => (c.labels[p]?).getD 0) l a b r =
        Spec.twoTime (pixelHistory f' pixels') pixels'.length (fun p => (c'.labels[p]?).getD 0) l a b r') →
      ∀ a b, M' r' a b = M r a b := by
  have hnf : T ≤ nf := by
    by_contra h
    rw [C52_too_many_frames n L nf hn2 hL labels c pixels lags hv f hsz T (by omega)] at hM
    cases hM
  obtain ⟨M1, h1, e1⟩ := C52_two_time_matrix n L nf hn2 hL labels c pixels lags hv f hsz T hT hnf
  obtain ⟨M2, h2, e2⟩ := C52_two_time_matrix n L nf hn2 hL labels' c' pixels' lags' hv' f' hsz' T hT hnf
  rw [hM, Except.ok.injEq] at h1
  subst h1
  refine ⟨M2, h2, ?_⟩
  intro r hr r' hr' heq
  obtain ⟨s1, k1, o1⟩ := e1 r hr
  obtain ⟨s2, k2, o2⟩ := e2 r' hr'
  have low : ∀ a b, b ≤ a → M2 r' a b = M r a b := by
    intro a b hab
    by_cases hex : ∃ l i k j, l < L ∧ i < n ∧ (l = 0 ∨ n / 2 ≤ i) ∧ i ≤ k ∧ k < T / 2 ^ l ∧ j < 2 ^ l ∧
        a = k * 2 ^ l + j ∧ b = (k - i) * 2 ^ l + j
    · obtain ⟨l, i, k, j, q1, q2, q3, q4, q5, q6, rfl, rfl⟩ := hex
      rw [k1 l i k j q1 q2 q3 q4 q5 q6, k2 l i k j q1 q2 q3 q4 q5 q6, heq]
    · rw [o1 a b hab hex, o2 a b hab hex]
  intro a b
  rcases le_total b a with h | h
  · exact low a b h
  · rw [s1 a b, s2 a b]; exact low b a h

/-! ## Columns and regions -/

/-- The flat positions of region x. -/
def region (labels : List ℤ) (x : ℤ) : Finset ℕ := (range labels.length).filter (fun q => labels[q]? = some x)

theorem mem_region (labels : List ℤ) (x : ℤ) (q : ℕ) : q ∈ region labels x ↔ labels[q]? = some x := by
  unfold region
  simp only [mem_filter, mem_range, and_iff_right_iff_imp]
  intro h
  exact (List.getElem?_eq_some_iff.1 h).1

theorem sorted_index (u : List ℤ) (hs : u.Pairwise (· < ·)) (j : ℕ) (x : ℤ) (hj : u[j]? = some x) :
    ((u.toFinset).filter (· < x)).card = j := by
  obtain ⟨hl, rfl⟩ := List.getElem?_eq_some_iff.1 hj
  have hnd : u.Nodup := hs.imp (fun h => ne_of_lt h)
  have : (u.toFinset).filter (· < u[j]) = (u.take j).toFinset := by
    ext y
    simp only [mem_filter, List.mem_toFinset]
    constructor
    · rintro ⟨hy, hlt⟩
      obtain ⟨i, hi, rfl⟩ := List.getElem_of_mem hy
      have : i < j := by
        by_contra hc
        rcases Nat.eq_or_lt_of_le (not_lt.1 hc) with h | h
        · subst h; exact lt_irrefl _ hlt
        · exact absurd (List.pairwise_iff_getElem.1 hs j i hl hi h) (not_lt.2 hlt.le)
      rw [List.mem_take_iff_getElem]
      exact ⟨i, by omega, rfl⟩
    · intro hy
      obtain ⟨i, hi, rfl⟩ := List.mem_take_iff_getElem.1 hy
      exact ⟨List.getElem_mem _, List.pairwise_iff_getElem.1 hs i j _ hl (by omega)⟩
  rw [this, List.toFinset_card_of_nodup (hnd.sublist (List.take_sublist _ _)), List.length_take]
  omega

/-- The number of columns is the number of distinct positive labels, and the pixels of region x are those renumbered to
its column plus one. -/
theorem columns (n L : ℕ) (labels : List ℤ) (c : Cfg) (pixels lags : List ℕ)
    (hv : validate n L labels = .ok (c, pixels, lags)) :
    rois c = ((labels.toFinset).filter (0 < ·)).card ∧ (∀ x ∈ labels, 0 < x → Spec.column labels x < rois c) ∧
    (∀ x : ℤ, 0 < x → x ∈ labels → ∀ p q : ℕ, pixels[p]? = some q →
      ((c.labels[p]?).getD 0 = Spec.column labels x + 1 ↔ labels[q]? = some x)) ∧
    pixels.Nodup ∧ (∀ q : ℕ, q ∈ pixels ↔ ∃ x, labels[q]? = some x ∧ 0 < x) := by
  have hev := C50_every_column_has_pixels labels n L c pixels lags hv
  obtain ⟨c2, px2, l2, u, h2, hmem, hps, hs, hu, hlen, hall⟩ := C50_renumbering labels n L (validate_ok hv).1
  rw [hv] at h2
  simp only [Except.ok.injEq, Prod.mk.injEq] at h2
  obtain ⟨rfl, rfl, rfl⟩ := h2
  have hnd : u.Nodup := hs.imp (fun h => ne_of_lt h)
  have hset : (labels.toFinset).filter (0 < ·) = u.toFinset := by
    ext y; simp [hu y]
  have hcol : ∀ (j : ℕ) (x : ℤ), u[j]? = some x → Spec.column labels x = j := by
    intro j x hj
    rw [← sorted_index u hs j x hj, ← hset]
    unfold Spec.column
    rw [filter_filter]
  have hpix : ∀ x : ℤ, 0 < x → x ∈ labels → ∃ p j : ℕ, u[j]? = some x ∧ j < u.length ∧ c.labels[p]? = some (j + 1) := by
    intro x hx hm
    obtain ⟨q, hq, rfl⟩ := List.getElem_of_mem hm
    have hqp : q ∈ pixels := (hmem q).2 ⟨labels[q], List.getElem?_eq_getElem hq, hx⟩
    obtain ⟨p, hp, rfl⟩ := List.getElem_of_mem hqp
    obtain ⟨j, e1, e2, e3⟩ := hall p _ (List.getElem?_eq_getElem hp)
    exact ⟨p, j, by rw [e1, List.getElem?_eq_getElem hq], e2, e3⟩
  have hle : ∀ (p k : ℕ), c.labels[p]? = some k → k ≤ rois c := by
    intro p k h
    exact (le_foldl_max c.labels 0).2.1 k (List.mem_of_getElem? h)
  refine ⟨?_, ?_, ?_, hps.imp (fun h => ne_of_lt h), hmem⟩
  · rw [hset, List.toFinset_card_of_nodup hnd]
    apply le_antisymm
    · by_contra hc
      obtain ⟨p, q, hp, hcp⟩ := hev u.length (by omega)
      obtain ⟨j, _, hj, e⟩ := hall p q hp
      rw [hcp, Option.some.injEq] at e
      omega
    · rcases Nat.eq_zero_or_pos u.length with h0 | h0
      · omega
      · have hx := (hu (u[u.length - 1]'(by omega))).1 (List.getElem_mem _)
        obtain ⟨p, j, e1, e2, e3⟩ := hpix _ hx.2 hx.1
        have : j = u.length - 1 := by
          rw [List.getElem?_eq_getElem e2, Option.some.injEq] at e1
          exact (hnd.getElem_inj_iff).1 e1
        have := hle p _ e3
        omega
  · intro x hm hx
    obtain ⟨p, j, e1, e2, e3⟩ := hpix x hx hm
    rw [hcol j x e1]
    exact hle p _ e3
  · intro x hx hm p q hp
    obtain ⟨_, j, e1, e2, _⟩ := hpix x hx hm
    obtain ⟨j', f1, f2, f3⟩ := hall p q hp
    rw [f3, hcol j x e1, ← f1, ← e1]
    simp only [Option.getD_some, Nat.add_right_cancel_iff]
    constructor
    · intro h; rw [h]
    · intro h
      rw [List.getElem?_eq_getElem e2, List.getElem?_eq_getElem f2, Option.some.injEq] at h
      exact (hnd.getElem_inj_iff).1 h

/-- C180, two-time: multiplying all images by a non-zero number does not change the two-time matrix of any region. -/
theorem C180_two_time_scale (n L nf : ℕ) (hn2 : 2 ≤ n) (hL : 1 ≤ L) (labels : List ℤ)
    (ims : List (List (Option ℚ))) (hsz : ∀ im ∈ ims, labels.length ≤ im.length) (k : ℚ) (hk : k ≠ 0)
    (M : ℕ → ℕ → ℕ → Option ℚ) (hM : twoTimeCorr L n labels ims nf = .ok M) :
    ∃ M', twoTimeCorr L n labels (ims.map (Spec.scaleImage k)) nf = .ok M' ∧
      ∀ r < ((labels.toFinset).filter (0 < ·)).card, ∀ a b, M' r a b = M r a b := by
  rcases hv : validate n L labels with e | ⟨c, pixels, lags⟩
  · unfold twoTimeCorr at hM; rw [hv] at hM; cases hM
  rcases Nat.eq_zero_or_pos ims.length with h0 | hT
  · have : ims = [] := List.length_eq_zero_iff.1 h0
    subst this
    exact ⟨M, hM, fun _ _ _ _ => rfl⟩
  have e1 : ims = (List.range ims.length).map (imgAt labels.length ims) := imgAt_list _ _
  have e2 : ims.map (Spec.scaleImage k) =
      (List.range ims.length).map (imgAt labels.length (ims.map (Spec.scaleImage k))) := by
    have := imgAt_list labels.length (ims.map (Spec.scaleImage k))
    rwa [List.length_map] at this
  rw [e1] at hM
  obtain ⟨M', h', hall⟩ := twoTime_ext n L nf hn2 hL labels labels c c pixels lags pixels lags hv hv
    (imgAt labels.length ims) (imgAt labels.length (ims.map (Spec.scaleImage k))) (imgAt_size _ _ hsz)
    (imgAt_size _ _ (scale_sizes k _ _ hsz)) _ hT M hM
  refine ⟨M', by rw [e2]; exact h', ?_⟩
  intro r hr
  rw [← (columns n L labels c pixels lags hv).1] at hr
  apply hall r hr r hr
  intro l a b
  rw [history_scale, twoTime_scale k hk]

/-! ## C180 unlabelled pixels -/

theorem select_same (labels : List ℤ) (pixels : List ℕ) (hmem : ∀ q ∈ pixels, ∃ x, labels[q]? = some x ∧ 0 < x)
    (im im' : List (Option ℚ)) (h : Spec.SameLabelled labels im im') : select pixels im = select pixels im' := by
  unfold select
  induction pixels with
  | nil => rfl
  | cons q t ih =>
    obtain ⟨x, h1, h2⟩ := hmem q (by simp)
    rw [List.mapM_cons, List.mapM_cons, ih (fun q hq => hmem q (by simp [hq])), h q x h1 h2]

/-- C180: pixel values outside all regions play no role; images that agree at the labelled pixels give the same results
(and the same exceptions), one-time and two-time. -/
theorem C180_unlabelled (n L nf : ℕ) (labels : List ℤ) (ims ims' : List (List (Option ℚ)))
    (h : List.Forall₂ (Spec.SameLabelled labels) ims ims') :
    multiTauAutoCorr L n labels ims = multiTauAutoCorr L n labels ims' ∧
    twoTimeCorr L n labels ims nf = twoTimeCorr L n labels ims' nf := by
  rcases hv : validate n L labels with e | ⟨c, pixels, lags⟩
  · unfold multiTauAutoCorr twoTimeCorr
    rw [hv]
    exact ⟨rfl, rfl⟩
  have hmem := (columns n L labels c pixels lags hv).2.2.2.2
  have k1 : ∀ s, lazyOneTime c pixels lags s ims = lazyOneTime c pixels lags s ims' := by
    clear hv
    induction h with
    | nil => intro s; rfl
    | cons h1 _ ih =>
      intro s
      rw [lazyOneTime, lazyOneTime, select_same labels pixels (fun q hq => (hmem q).1 hq) _ _ h1]
      cases select pixels _ with
      | error e => rfl
      | ok x => simp only [ih]
  have k2 : ∀ s, lazyTwoTime c pixels lags nf s ims = lazyTwoTime c pixels lags nf s ims' := by
    clear hv k1
    induction h with
    | nil => intro s; rfl
    | cons h1 _ ih =>
      intro s
      rw [lazyTwoTime, lazyTwoTime, select_same labels pixels (fun q hq => (hmem q).1 hq) _ _ h1]
      cases select pixels _ with
      | error e => rfl
      | ok x => simp only [ih]
  have hnil : ims = [] ↔ ims' = [] := by
    cases h with
    | nil => simp
    | cons _ _ => simp
  constructor
  · unfold multiTauAutoCorr
    rw [hv]
    simp only [bind, Except.bind, k1]
  · unfold twoTimeCorr
    rw [hv]
    simp only [k2, hnil]

/-! ## C181 -/

theorem region_eq {labels labels' : List ℤ} {x y : ℤ} (h : Spec.SameRegion labels labels' x y) :
    region labels x = region labels' y := by
  ext q; rw [mem_region, mem_region]; exact h.2.2.2 q

/-- Sums over the pixels of a column are sums over the flat positions of its region. -/
theorem sum_region (n L : ℕ) (labels : List ℤ) (c : Cfg) (pixels lags : List ℕ)
    (hv : validate n L labels = .ok (c, pixels, lags)) (x : ℤ) (hx : 0 < x) (hm : x ∈ labels) (w W : ℕ → ℚ)
    (hw : ∀ p q : ℕ, pixels[p]? = some q → w p = W q) :
    Spec.roiMean pixels.length (fun p => (c.labels[p]?).getD 0) (Spec.column labels x) w =
      (∑ q ∈ region labels x, W q) / (region labels x).card := by
  obtain ⟨_, _, hcol, hnd, hmem⟩ := columns n L labels c pixels lags hv
  have himg : region labels x = ((range pixels.length).filter
      (fun p => (c.labels[p]?).getD 0 = Spec.column labels x + 1)).image (fun p => (pixels[p]?).getD 0) := by
    ext q
    rw [mem_region, mem_image]
    constructor
    · intro h
      obtain ⟨p, hp, rfl⟩ := List.getElem_of_mem ((hmem q).2 ⟨x, h, hx⟩)
      refine ⟨p, ?_, by simp [hp]⟩
      rw [mem_filter, mem_range]
      exact ⟨hp, (hcol x hx hm p _ (List.getElem?_eq_getElem hp)).2 h⟩
    · rintro ⟨p, hp, rfl⟩
      rw [mem_filter, mem_range] at hp
      have := (hcol x hx hm p _ (List.getElem?_eq_getElem hp.1)).1 hp.2
      simpa [hp.1] using this
  have hinj : Set.InjOn (fun p => (pixels[p]?).getD 0) (((range pixels.length).filter
      (fun p => (c.labels[p]?).getD 0 = Spec.column labels x + 1) : Finset ℕ) : Set ℕ) := by
    intro p hp p' hp' he
    simp only [coe_filter, mem_range, Set.mem_setOf_eq] at hp hp'
    simp only [List.getElem?_eq_getElem hp.1, List.getElem?_eq_getElem hp'.1, Option.getD_some] at he
    exact (hnd.getElem_inj_iff).1 he
  unfold Spec.roiMean
  rw [himg, sum_image hinj, card_image_of_injOn hinj]
  congr 1
  apply sum_congr rfl
  intro p hp
  rw [mem_filter, mem_range] at hp
  simp only [List.getElem?_eq_getElem hp.1, Option.getD_some]
  exact hw p _ (List.getElem?_eq_getElem hp.1)

/-- The value at flat position q of frame t. -/
def flatAt (images : ℕ → List (Option ℚ)) (t q : ℕ) : Option ℚ := ((images t)[q]?).getD none

theorem blockAvg_flat (images : ℕ → List (Option ℚ)) (pixels : List ℕ) (l k p q : ℕ) (h : pixels[p]? = some q) :
    Spec.blockAvg (pixelHistory images pixels) l k p = Spec.blockAvg (flatAt images) l k q := by
  unfold Spec.blockAvg
  congr 1
  apply sum_congr rfl
  intro j _
  simp [pixelHistory, h, flatAt]

theorem mean_region (n L : ℕ) (labels : List ℤ) (c : Cfg) (pixels lags : List ℕ)
    (hv : validate n L labels = .ok (c, pixels, lags)) (x : ℤ) (hx : 0 < x) (hm : x ∈ labels)
    (images : ℕ → List (Option ℚ)) (l k : ℕ) :
    Spec.roiMean pixels.length (fun p => (c.labels[p]?).getD 0) (Spec.column labels x)
      (Spec.blockAvg (pixelHistory images pixels) l k) =
      (∑ q ∈ region labels x, Spec.blockAvg (flatAt images) l k q) / (region labels x).card :=
  sum_region n L labels c pixels lags hv x hx hm _ _ (fun p q h => blockAvg_flat images pixels l k p q h)

theorem prod_region (n L : ℕ) (labels : List ℤ) (c : Cfg) (pixels lags : List ℕ)
    (hv : validate n L labels = .ok (c, pixels, lags)) (x : ℤ) (hx : 0 < x) (hm : x ∈ labels)
    (images : ℕ → List (Option ℚ)) (l k k' : ℕ) :
    Spec.roiMean pixels.length (fun p => (c.labels[p]?).getD 0) (Spec.column labels x)
      (fun p => Spec.blockAvg (pixelHistory images pixels) l k p * Spec.blockAvg (pixelHistory images pixels) l k' p) =
      (∑ q ∈ region labels x, Spec.blockAvg (flatAt images) l k q * Spec.blockAvg (flatAt images) l k' q) /
        (region labels x).card := by
  apply sum_region n L labels c pixels lags hv x hx hm
  intro p q h
  rw [blockAvg_flat images pixels l k p q h, blockAvg_flat images pixels l k' p q h]

theorem roiBad_region (n L : ℕ) (labels : List ℤ) (c : Cfg) (pixels lags : List ℕ)
    (hv : validate n L labels = .ok (c, pixels, lags)) (x : ℤ) (hx : 0 < x) (hm : x ∈ labels)
    (images : ℕ → List (Option ℚ)) (l k : ℕ) :
    Spec.RoiBad (pixelHistory images pixels) pixels.length (fun p => (c.labels[p]?).getD 0) (Spec.column labels x) l k ↔
      ∃ q ∈ region labels x, ∃ j ∈ range (2 ^ l), flatAt images (k * 2 ^ l + j) q = none := by
  obtain ⟨_, _, hcol, hnd, hmem⟩ := columns n L labels c pixels lags hv
  constructor
  · rintro ⟨p, hp, hl, j, hj, e⟩
    rw [mem_range] at hp
    have hq := List.getElem?_eq_getElem hp
    refine ⟨pixels[p], (mem_region _ _ _).2 ((hcol x hx hm p _ hq).1 hl), j, hj, ?_⟩
    simpa [pixelHistory, hq, flatAt] using e
  · rintro ⟨q, hq, j, hj, e⟩
    rw [mem_region] at hq
    obtain ⟨p, hp, rfl⟩ := List.getElem_of_mem ((hmem q).2 ⟨x, hq, hx⟩)
    have hq' := List.getElem?_eq_getElem hp
    refine ⟨p, mem_range.2 hp, (hcol x hx hm p _ hq').2 hq, j, hj, ?_⟩
    simpa [pixelHistory, hq', flatAt] using e

/-- C181, two-time: the matrix of a region depends on the pixels of that region only, whatever the other regions are
and contain. -/
theorem C181_two_time (n L nf : ℕ) (hn2 : 2 ≤ n) (hL : 1 ≤ L) (labels labels' : List ℤ) (x y : ℤ)
    (hxy : Spec.SameRegion labels labels' x y)
    (ims : List (List (Option ℚ))) (hsz : ∀ im ∈ ims, labels.length ≤ im.length ∧ labels'.length ≤ im.length)
    (M : ℕ → ℕ → ℕ → Option ℚ) (hM : twoTimeCorr L n labels ims nf = .ok M) :
    ∃ M', twoTimeCorr L n labels' ims nf = .ok M' ∧
      ∀ a b, M' (Spec.column labels' y) a b = M (Spec.column labels x) a b := by
  obtain ⟨hx, hy, hm, hpix⟩ := id hxy
  have hm' : y ∈ labels' := by
    obtain ⟨q, hq, rfl⟩ := List.getElem_of_mem hm
    exact List.mem_of_getElem? ((hpix q).1 (List.getElem?_eq_getElem hq))
  rcases hv : validate n L labels with e | ⟨c, pixels, lags⟩
  · unfold twoTimeCorr at hM; rw [hv] at hM; cases hM
  obtain ⟨c', pixels', lags', hv'⟩ := validate_exists n L (validate_ok hv).1 labels'
  rcases Nat.eq_zero_or_pos ims.length with h0 | hT
  · have : ims = [] := List.length_eq_zero_iff.1 h0
    subst this
    unfold twoTimeCorr at hM; rw [hv] at hM; cases hM
  set m := max labels.length labels'.length with hmdef
  have e1 : ims = (List.range ims.length).map (imgAt m ims) := imgAt_list _ _
  have hs : ∀ t, m ≤ (imgAt m ims t).length := imgAt_size _ _ (fun im h => max_le (hsz im h).1 (hsz im h).2)
  rw [e1] at hM
  obtain ⟨M', h', hall⟩ := twoTime_ext n L nf hn2 hL labels labels' c c' pixels lags pixels' lags' hv hv'
    (imgAt m ims) (imgAt m ims) (fun t => (le_max_left _ _).trans (hs t)) (fun t => (le_max_right _ _).trans (hs t))
    _ hT M hM
  refine ⟨M', by rw [e1]; exact h', ?_⟩
  apply hall _ ((columns n L labels c pixels lags hv).2.1 x hm hx) _
    ((columns n L labels' c' pixels' lags' hv').2.1 y hm' hy)
  intro l a b
  unfold Spec.twoTime
  simp only [roiBad_region n L labels c pixels lags hv x hx hm, roiBad_region n L labels' c' pixels' lags' hv' y hy hm',
    mean_region n L labels c pixels lags hv x hx hm, mean_region n L labels' c' pixels' lags' hv' y hy hm',
    prod_region n L labels c pixels lags hv x hx hm, prod_region n L labels' c' pixels' lags' hv' y hy hm',
    region_eq hxy]

/-- No image contains NaN. -/
def Spec.NoNaN (ims : List (List (Option ℚ))) : Prop := ∀ im ∈ ims, ∀ z ∈ im, z ≠ none

theorem noNaN_flat (m : ℕ) (ims : List (List (Option ℚ))) (h : Spec.NoNaN ims)
    (hsz : ∀ im ∈ ims, m ≤ im.length) (t q : ℕ) (ht : t < ims.length) (hq : q < m) :
    flatAt (imgAt m ims) t q ≠ none := by
  have hmem := List.getElem_mem ht
  have hql : q < ims[t].length := lt_of_lt_of_le hq (hsz _ hmem)
  have : flatAt (imgAt m ims) t q = ims[t][q] := by simp [flatAt, imgAt, ht, hql]
  rw [this]
  exact h _ hmem _ (List.getElem_mem hql)

theorem noNaN_pairs (n L : ℕ) (labels : List ℤ) (c : Cfg) (pixels lags : List ℕ)
    (hv : validate n L labels = .ok (c, pixels, lags)) (m : ℕ) (hm : labels.length ≤ m) (ims : List (List (Option ℚ)))
    (h : Spec.NoNaN ims) (hsz : ∀ im ∈ ims, m ≤ im.length) (l i : ℕ) :
    Spec.pairs (pixelHistory (imgAt m ims) pixels) pixels.length l i (ims.length / 2 ^ l) =
      range (ims.length / 2 ^ l - i) := by
  have hmem := (columns n L labels c pixels lags hv).2.2.2.2
  have hgood : ∀ k, k < ims.length / 2 ^ l → ¬ Spec.BlockBad (pixelHistory (imgAt m ims) pixels) pixels.length l k := by
    rintro k hk ⟨j, hj, p, hp, e⟩
    rw [mem_range] at hj hp
    obtain ⟨x, hx, _⟩ := (hmem pixels[p]).1 (List.getElem_mem hp)
    have hq := (List.getElem?_eq_some_iff.1 hx).1
    have ht : k * 2 ^ l + j < ims.length := by
      have h1 : (k + 1) * 2 ^ l ≤ ims.length := (Nat.le_div_iff_mul_le (by positivity)).1 hk
      rw [Nat.add_mul] at h1
      omega
    apply noNaN_flat m ims h hsz (k * 2 ^ l + j) pixels[p] ht (by omega)
    simpa [pixelHistory, List.getElem?_eq_getElem hp, flatAt] using e
  unfold Spec.pairs
  apply filter_true_of_mem
  intro k hk
  rw [mem_range] at hk
  exact ⟨hgood k (by omega), hgood (k + i) (by omega)⟩

/-- C181, one-time, for data without NaN: wherever both curves have a row, the entries of the common region are equal,
whatever the other regions are. -/
theorem C181_one_time_partial (n L : ℕ) (hn2 : 2 ≤ n) (hL : 1 ≤ L) (labels labels' : List ℤ) (x y : ℤ)
    (hxy : Spec.SameRegion labels labels' x y)
    (ims : List (List (Option ℚ))) (hsz : ∀ im ∈ ims, labels.length ≤ im.length ∧ labels'.length ≤ im.length)
    (hnan : Spec.NoNaN ims) (res res' : Res) (hr : multiTauAutoCorr L n labels ims = .ok res)
    (hr' : multiTauAutoCorr L n labels' ims = .ok res') (t : ℕ) (row row' : List (Option ℚ))
    (ht : res.g2[t]? = some row) (ht' : res'.g2[t]? = some row') :
    row[Spec.column labels x]? = row'[Spec.column labels' y]? ∧ ∃ z, row[Spec.column labels x]? = some z := by
  obtain ⟨hx, hy, hm, hpix⟩ := id hxy
  have hm' : y ∈ labels' := by
    obtain ⟨q, hq, rfl⟩ := List.getElem_of_mem hm
    exact List.mem_of_getElem? ((hpix q).1 (List.getElem?_eq_getElem hq))
  rcases hv : validate n L labels with e | ⟨c, pixels, lags⟩
  · unfold multiTauAutoCorr at hr; rw [hv] at hr; cases hr
  have he := (validate_ok hv).1
  obtain ⟨c', pixels', lags', hv'⟩ := validate_exists n L he labels'
  rcases Nat.eq_zero_or_pos ims.length with h0 | hT
  · have : ims = [] := List.length_eq_zero_iff.1 h0
    subst this
    unfold multiTauAutoCorr at hr; rw [hv] at hr; cases hr
  set m := max labels.length labels'.length with hmdef
  have e1 : ims = (List.range ims.length).map (imgAt m ims) := imgAt_list _ _
  have hsz' : ∀ im ∈ ims, m ≤ im.length := fun im h => max_le (hsz im h).1 (hsz im h).2
  have hs : ∀ t, m ≤ (imgAt m ims t).length := imgAt_size _ _ hsz'
  obtain ⟨r1, q1, g1⟩ := C46_one_call_uses_every_frame n L hn2 hL labels c pixels lags hv (imgAt m ims)
    (fun t => (le_max_left _ _).trans (hs t)) ims.length hT
  obtain ⟨r2, q2, g2⟩ := C46_one_call_uses_every_frame n L hn2 hL labels' c' pixels' lags' hv' (imgAt m ims)
    (fun t => (le_max_right _ _).trans (hs t)) ims.length hT
  rw [← e1] at q1 q2
  rw [hr, Except.ok.injEq] at q1
  rw [hr', Except.ok.injEq] at q2
  subst q1 q2
  obtain ⟨l1, rfl⟩ := List.getElem?_eq_some_iff.1 ht
  obtain ⟨l2, rfl⟩ := List.getElem?_eq_some_iff.1 ht'
  obtain ⟨l, i, hl, hi, hor, hte, _, hrow⟩ := g1 t l1
  obtain ⟨l', i', hl', hi', hor', hte', _, hrow'⟩ := g2 t l2
  have hsame : l' = l ∧ i' = i := row_inj he ⟨hi', hor'⟩ ⟨hi, hor⟩ (by omega)
  obtain ⟨rfl, rfl⟩ := hsame
  rw [hrow _ ((columns n L labels c pixels lags hv).2.1 x hm hx),
    hrow' _ ((columns n L labels' c' pixels' lags' hv').2.1 y hm' hy)]
  refine ⟨?_, ⟨_, rfl⟩⟩
  simp only [Spec.past, Spec.future, Spec.G, Spec.pairMean,
    noNaN_pairs n L labels c pixels lags hv m (le_max_left _ _) ims hnan hsz',
    noNaN_pairs n L labels' c' pixels' lags' hv' m (le_max_right _ _) ims hnan hsz',
    mean_region n L labels c pixels lags hv x hx hm, mean_region n L labels' c' pixels' lags' hv' y hy hm',
    prod_region n L labels c pixels lags hv x hx hm, prod_region n L labels' c' pixels' lags' hv' y hy hm',
    region_eq hxy]

/-- C181 is false of the one-time curve: a NaN in another region drops the frame for every region. -/
theorem C181_nan_elsewhere_refuted :
    (multiTauAutoCorr 1 2 [1, 0] [[some 1, some 1], [some 2, none], [some 4, some 1]]).map
      (fun r => r.g2.map (fun row => row[0]?)) = .ok [some (some (9 / 7)), some (some (10 / 9))] ∧
    (multiTauAutoCorr 1 2 [1, 2] [[some 1, some 1], [some 2, none], [some 4, some 1]]).map
      (fun r => r.g2.map (fun row => row[0]?)) = .ok [some (some (34 / 25))] := by decide +kernel

/-- C181 is false of the number of rows of the one-time curve: a dark region truncates the curves of all others. -/
theorem C181_dark_elsewhere_refuted :
    (multiTauAutoCorr 1 2 [1, 0] [[some 1, some 0], [some 2, some 0]]).map
      (fun r => r.g2.map (fun row => row[0]?)) = .ok [some (some (10 / 9)), some (some 1)] ∧
    (multiTauAutoCorr 1 2 [1, 2] [[some 1, some 0], [some 2, some 0]]).map
      (fun r => r.g2.map (fun row => row[0]?)) = .ok [] := by decide +kernel

/-! Non-vacuity: two label images sharing a region, with different other regions and different numbering. -/

example : Spec.SameRegion [5, 7, 5, 0] [3, 0, 3, 1] 5 3 := by
  refine ⟨by norm_num, by norm_num, by simp, ?_⟩
  intro q
  match q with
  | 0 => simp
  | 1 => simp
  | 2 => simp
  | 3 => simp
  | q + 4 => simp

example : Spec.column [5, 7, 5, 0] 5 = 0 ∧ Spec.column [3, 0, 3, 1] 3 = 1 := by decide +kernel

example : (multiTauAutoCorr 1 2 [5, 7, 5, 0] [[some 1, some 2, some 3, some 4], [some 2, some 2, some 5, some 1]]).map
      (fun r => r.g2.map (fun row => row[0]?)) = .ok [some (some (156 / 121)), some (some (17 / 14))] ∧
    (multiTauAutoCorr 1 2 [3, 0, 3, 1] [[some 1, some 2, some 3, some 4], [some 2, some 2, some 5, some 1]]).map
      (fun r => r.g2.map (fun row => row[1]?)) = .ok [some (some (156 / 121)), some (some (17 / 14))] := by
  decide +kernel

example : List.Forall₂ (Spec.SameLabelled [1, 0]) [[some 1, none]] [[some 1, some 9]] := by
  refine List.Forall₂.cons ?_ List.Forall₂.nil
  intro q x h1 h2
  match q with
  | 0 => rfl
  | 1 => simp at h1; omega
  | q + 2 => rfl

example : (multiTauAutoCorr 1 2 [1, 1] ([[some 1, some 3], [some 2, none], [some 4, some 1]].map (Spec.scaleImage 3))) =
    multiTauAutoCorr 1 2 [1, 1] [[some 1, some 3], [some 2, none], [some 4, some 1]] :=
  C180_one_time_scale 2 1 rfl (le_refl _) (le_refl _) _ _ (by simp) 3 (by norm_num)

/-! ## C85, C182 -/

/-- C85 for the lags of the first level: with any number of levels and frames, entry j < `num_bufs` of the one-time
curve is the mean over all frame pairs j apart of the normalised products that are defined. -/
theorem C85_first_level_partial (n L : ℕ) (hn2 : 2 ≤ n) (hL : 1 ≤ L) (labels : List ℤ) (c : Cfg)
    (pixels lags : List ℕ) (hv : validate n L labels = .ok (c, pixels, lags))
    (images : ℕ → List (Option ℚ)) (hsz : ∀ t, labels.length ≤ (images t).length) (T : ℕ) (hT : 1 ≤ T) :
    ∃ M, twoTimeCorr L n labels ((List.range T).map images) T = .ok M ∧ ∀ r < rois c,
      let w := fun a b => Spec.twoTime (pixelHistory images pixels) pixels.length (fun p => (c.labels[p]?).getD 0) 0 a b r
      ∀ j < T, j < n → (oneTimeFromTwoTime T (M r))[j]? = some (if Spec.diagGood T w j = ∅ then none
        else some ((∑ t ∈ Spec.diagGood T w j, (w t (t + j)).getD 0) / (Spec.diagGood T w j).card)) := by
  obtain ⟨M, hM, h⟩ := C51_entries n L T hn2 hL labels c pixels lags hv images hsz T hT (le_refl _)
  refine ⟨M, hM, ?_⟩
  intro r hr w j hj hjn
  rw [(C53_diagonal_means T (M r)).2 j hj]
  have hw : ∀ t, t + j < T → M r t (t + j) = w t (t + j) := by
    intro t ht
    obtain ⟨e1, e2⟩ := h r hr (t + j) t ht (by omega) (by omega)
    rw [e2, e1]
  have hd : Spec.diagGood T (M r) j = Spec.diagGood T w j := by
    unfold Spec.diagGood
    apply filter_congr
    intro t ht
    rw [hw t (by simp at ht; omega)]
  rw [hd]
  congr 2
  congr 2
  apply sum_congr rfl
  intro t ht
  rw [hw t (by simp [Spec.diagGood] at ht; omega)]

/-- The mean intensity of region x in an image (of numbers). -/
def Spec.regionMean (labels : List ℤ) (x : ℤ) (im : List (Option ℚ)) : ℚ :=
  (∑ q ∈ (range labels.length).filter (fun q => labels[q]? = some x), ((im[q]?).getD none).getD 0) /
    ((range labels.length).filter (fun q => labels[q]? = some x)).card

/-- C182: for images without NaN in which the mean intensity of the region is the same non-zero number in every frame,
the two routes to a one-time curve - `multi_tau_auto_corr`, and `one_time_from_two_time` applied to `two_time_corr` -
give the same number at every lag below `num_bufs` that the first reports. -/
theorem C182_routes_agree (n L : ℕ) (hn2 : 2 ≤ n) (hL : 1 ≤ L) (labels : List ℤ) (x : ℤ) (hx : 0 < x) (hm : x ∈ labels)
    (ims : List (List (Option ℚ))) (hsz : ∀ im ∈ ims, labels.length ≤ im.length)
    (hnan : Spec.NoNaN ims) (μ : ℚ) (hμ : μ ≠ 0) (hconst : ∀ im ∈ ims, Spec.regionMean labels x im = μ)
    (res : Res) (hr : multiTauAutoCorr L n labels ims = .ok res) :
    ∃ M, twoTimeCorr L n labels ims ims.length = .ok M ∧
      ∀ j < n, j < ims.length → ∀ row, res.g2[j]? = some row →
        ∃ z, row[Spec.column labels x]? = some (some z) ∧
          (oneTimeFromTwoTime ims.length (M (Spec.column labels x)))[j]? = some (some z) := by
  rcases hv : validate n L labels with e | ⟨c, pixels, lags⟩
  · unfold multiTauAutoCorr at hr; rw [hv] at hr; cases hr
  have he := (validate_ok hv).1
  rcases Nat.eq_zero_or_pos ims.length with h0 | hT
  · have : ims = [] := List.length_eq_zero_iff.1 h0
    subst this
    unfold multiTauAutoCorr at hr; rw [hv] at hr; cases hr
  set m := labels.length with hmdef
  set f := imgAt m ims with hf
  have e1 : ims = (List.range ims.length).map f := imgAt_list _ _
  have hs : ∀ t, m ≤ (f t).length := imgAt_size _ _ hsz
  obtain ⟨r1, q1, g1⟩ := C46_one_call_uses_every_frame n L hn2 hL labels c pixels lags hv f hs ims.length hT
  rw [← e1, hr, Except.ok.injEq] at q1
  subst q1
  obtain ⟨M, hM, hdiag⟩ := C85_first_level_partial n L hn2 hL labels c pixels lags hv f hs ims.length hT
  rw [← e1] at hM
  refine ⟨M, hM, ?_⟩
  intro j hjn hjT row hrow
  obtain ⟨l1, rfl⟩ := List.getElem?_eq_some_iff.1 hrow
  have hcol := (columns n L labels c pixels lags hv).2.1 x hm hx
  obtain ⟨l, i, hl, hi, hor, hte, _, hent⟩ := g1 j l1
  obtain ⟨rfl, rfl⟩ : l = 0 ∧ i = j := row_inj he ⟨hi, hor⟩ (show Valid n 0 j from ⟨hjn, Or.inl rfl⟩) (by omega)
  have hb : ∀ k, k < ims.length → (∑ q ∈ region labels x, Spec.blockAvg (flatAt f) 0 k q) / ((region labels x).card : ℚ) = μ := by
    intro k hk
    rw [← hconst ims[k] (List.getElem_mem hk)]
    unfold Spec.regionMean region
    congr 1
    apply sum_congr rfl
    intro q _
    simp [Spec.blockAvg, flatAt, hf, imgAt, hk]
  set S : ℕ → ℚ := fun k => (∑ q ∈ region labels x, Spec.blockAvg (flatAt f) 0 k q * Spec.blockAvg (flatAt f) 0 (k + i) q) /
    ((region labels x).card : ℚ) with hS
  have hcard : ((ims.length - i : ℕ) : ℚ) ≠ 0 := by
    have : 0 < ims.length - i := by omega
    exact_mod_cast this.ne'
  have hpairs := noNaN_pairs n L labels c pixels lags hv m (le_refl _) ims hnan hsz 0 i
  simp only [pow_zero, Nat.div_one] at hpairs hent
  rw [← hf] at hpairs
  refine ⟨(∑ k ∈ range (ims.length - i), S k) / ((ims.length - i : ℕ) : ℚ) / (μ * μ), ?_, ?_⟩
  · rw [hent _ hcol]
    have hp : Spec.past (pixelHistory f pixels) pixels.length (fun p => (c.labels[p]?).getD 0) 0 i ims.length
        (Spec.column labels x) = μ := by
      simp only [Spec.past, Spec.pairMean, hpairs, card_range, mean_region n L labels c pixels lags hv x hx hm]
      rw [if_neg (by omega), sum_congr rfl (fun k hk => hb k (by simp at hk; omega))]
      rw [sum_const, card_range, nsmul_eq_mul, mul_comm, mul_div_assoc, div_self hcard, mul_one]
    have hq : Spec.future (pixelHistory f pixels) pixels.length (fun p => (c.labels[p]?).getD 0) 0 i ims.length
        (Spec.column labels x) = μ := by
      simp only [Spec.future, Spec.pairMean, hpairs, card_range, mean_region n L labels c pixels lags hv x hx hm]
      rw [if_neg (by omega), sum_congr rfl (fun k hk => hb (k + i) (by simp at hk; omega))]
      rw [sum_const, card_range, nsmul_eq_mul, mul_comm, mul_div_assoc, div_self hcard, mul_one]
    have hg : Spec.G (pixelHistory f pixels) pixels.length (fun p => (c.labels[p]?).getD 0) 0 i ims.length
        (Spec.column labels x) = (∑ k ∈ range (ims.length - i), S k) / ((ims.length - i : ℕ) : ℚ) := by
      simp only [Spec.G, Spec.pairMean, hpairs, card_range, prod_region n L labels c pixels lags hv x hx hm]
      rw [if_neg (by omega)]
    rw [hp, hq, hg, if_neg (mul_ne_zero hμ hμ)]
  · rw [hdiag _ hcol i hjT hjn]
    have hw : ∀ t, t + i < ims.length → Spec.twoTime (pixelHistory f pixels) pixels.length
        (fun p => (c.labels[p]?).getD 0) 0 t (t + i) (Spec.column labels x) = some (S t / (μ * μ)) := by
      intro t ht
      unfold Spec.twoTime
      have hbad : ∀ k < ims.length, ¬ ∃ q ∈ region labels x, ∃ j ∈ range (2 ^ 0), flatAt f (k * 2 ^ 0 + j) q = none := by
        rintro k hk ⟨q, hq, j, hj, e⟩
        have : j = 0 := by simpa using hj
        subst this
        exact noNaN_flat m ims hnan hsz k q hk (List.getElem?_eq_some_iff.1 ((mem_region _ _ _).1 hq)).1 (by simpa using e)
      simp only [roiBad_region n L labels c pixels lags hv x hx hm, mean_region n L labels c pixels lags hv x hx hm,
        prod_region n L labels c pixels lags hv x hx hm]
      rw [if_neg (by rintro (h | h); exacts [hbad t (by omega) h, hbad (t + i) ht h]), hb t (by omega), hb (t + i) ht,
        if_neg (mul_ne_zero hμ hμ)]
    have hd : Spec.diagGood ims.length (fun a b => Spec.twoTime (pixelHistory f pixels) pixels.length
        (fun p => (c.labels[p]?).getD 0) 0 a b (Spec.column labels x)) i = range (ims.length - i) := by
      unfold Spec.diagGood
      apply filter_true_of_mem
      intro t ht
      simp only [hw t (by simp at ht; omega), Option.isSome_some]
    rw [hd, if_neg (by rw [range_eq_empty_iff]; omega), card_range]
    rw [sum_congr rfl (fun t ht => congrArg (Option.getD · (0 : ℚ)) (hw t (by simp at ht; omega)))]
    simp only [Option.getD_some]
    rw [← sum_div]
    congr 2
    ring

/-- The condition of C182 is needed: with a varying mean intensity the two routes differ. -/
theorem C182_needs_constant_intensity :
    (multiTauAutoCorr 1 2 [1, 1] [[some 1, some 3], [some 4, some 2]]).map (fun r => r.g2.map (fun row => row[0]?)) =
      .ok [some (some (6 / 5)), some (some (5 / 6))] ∧
    (twoTimeCorr 1 2 [1, 1] [[some 1, some 3], [some 4, some 2]] 2).map (fun M => oneTimeFromTwoTime 2 (M 0)) =
      .ok [some (85 / 72), some (5 / 6)] := by decide +kernel

example : (multiTauAutoCorr 1 2 [1, 1] [[some 1, some 3], [some 3, some 1]]).map (fun r => r.g2.map (fun row => row[0]?)) =
      .ok [some (some (5 / 4)), some (some (3 / 4))] ∧
    (twoTimeCorr 1 2 [1, 1] [[some 1, some 3], [some 3, some 1]] 2).map (fun M => oneTimeFromTwoTime 2 (M 0)) =
      .ok [some (5 / 4), some (3 / 4)] := by decide +kernel

end Verif.Corr
