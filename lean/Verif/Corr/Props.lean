/- Properties C46-C50: multi-tau one-time correlation. -/
import Verif.Corr.Lemmas
import Verif.Corr.LabelLemmas
import Verif.Utils.Props

namespace Verif.Corr
open Verif Finset

theorem validate_ok {n L : ℕ} {labels : List ℤ} {c : Cfg} {pixels lags : List ℕ}
    (h : validate n L labels = .ok (c, pixels, lags)) :
    n % 2 = 0 ∧ c = { L := L, n := n, labels := (remap (extractLabelIndices labels).1).map Int.toNat } ∧
    pixels = (extractLabelIndices labels).2 ∧ ∃ t d, Utils.multiTauLags L n = .ok (t, lags, d) := by
  unfold validate at h
  split at h
  · simp at h
  · next he =>
    split at h
    · simp at h
    · next t lg d hl =>
      simp only [Except.ok.injEq, Prod.mk.injEq] at h
      obtain ⟨h1, h2, h3⟩ := h
      subst h3
      exact ⟨by simpa using he, h1.symm, h2.symm, t, d, hl⟩

/-! ## C50 labels -/

/-- C50: the foreground pixels are exactly those with a positive label; the label of the p-th of them becomes its rank
among the distinct labels (k-th smallest ↦ k): `u` lists the distinct labels in increasing order. -/
theorem C50_renumbering (labels : List ℤ) (numBufs numLevels : ℕ) (he : numBufs % 2 = 0) :
    ∃ (c : Cfg) (pixels lags : List ℕ) (u : List ℤ), validate numBufs numLevels labels = .ok (c, pixels, lags) ∧
      (∀ q : ℕ, q ∈ pixels ↔ ∃ x, labels[q]? = some x ∧ 0 < x) ∧ pixels.Pairwise (· < ·) ∧
      u.Pairwise (· < ·) ∧ (∀ x : ℤ, x ∈ u ↔ x ∈ labels ∧ 0 < x) ∧
      c.labels.length = pixels.length ∧
      ∀ (p q : ℕ), pixels[p]? = some q → ∃ j, u[j]? = labels[q]? ∧ j < u.length ∧ c.labels[p]? = some (j + 1) := by
  have hlag : ∃ t lags d, Utils.multiTauLags numLevels numBufs = .ok (t, lags, d) := by
    unfold Utils.multiTauLags; rw [if_neg (by simp [he])]; exact ⟨_, _, _, rfl⟩
  obtain ⟨t, lags, d, hl⟩ := hlag
  refine ⟨{ L := numLevels, n := numBufs, labels := (remap (extractLabelIndices labels).1).map Int.toNat },
    (extractLabelIndices labels).2, lags, unique (extractLabelIndices labels).1, ?_, ?_, ?_, sorted_unique _, ?_, ?_, ?_⟩
  · unfold validate
    simp only [he, ne_eq, not_true_eq_false, if_false, hl]
  · intro q
    simp only [extractLabelIndices, List.mem_filter, List.mem_range, posAt]
    constructor
    · rintro ⟨h1, h2⟩
      rw [List.getElem?_eq_getElem h1] at h2 ⊢
      exact ⟨_, rfl, by simpa using h2⟩
    · rintro ⟨x, hx, hp⟩
      obtain ⟨h1, _⟩ := List.getElem?_eq_some_iff.1 hx
      exact ⟨h1, by rw [hx]; simpa using hp⟩
  · exact (List.pairwise_lt_range).filter _
  · intro x
    rw [mem_unique]
    simp [extractLabelIndices]
  · have := congrArg List.length (filter_pos_getElem labels)
    simp only [List.length_map] at this
    simp [length_remap, this]
  · intro p q hp
    have hmap := filter_pos_getElem labels
    have h1 := congrArg (fun l => l[p]?) hmap
    simp only [List.getElem?_map, hp, Option.map_some] at h1
    cases hx : (extractLabelIndices labels).1[p]? with
    | none => rw [hx] at h1; simp at h1
    | some x =>
      rw [hx, Option.map_some, Option.some.injEq] at h1
      have hm : x ∈ unique (extractLabelIndices labels).1 := (mem_unique _ _).2 (List.mem_of_getElem? hx)
      obtain ⟨j, hj, hje⟩ := List.getElem_of_mem hm
      refine ⟨j, ?_, hj, ?_⟩
      · rw [List.getElem?_eq_getElem hj, hje, h1]
      · rw [List.getElem?_map, remap_get _ (by
          intro y hy; simp [extractLabelIndices] at hy; exact hy.2) j hj p (by rw [hx, hje])]
        simp

/-- C50: renumbering neither merges nor splits regions. -/
theorem C50_injective (labels : List ℤ) (numBufs numLevels : ℕ) (c : Cfg) (pixels lags : List ℕ)
    (h : validate numBufs numLevels labels = .ok (c, pixels, lags)) (p p' q q' : ℕ)
    (hp : pixels[p]? = some q) (hp' : pixels[p']? = some q') :
    c.labels[p]? = c.labels[p']? ↔ labels[q]? = labels[q']? := by
  have he : numBufs % 2 = 0 := (validate_ok h).1
  obtain ⟨c2, px2, l2, u, h2, _, _, hs, _, _, hall⟩ := C50_renumbering labels numBufs numLevels he
  rw [h] at h2
  simp only [Except.ok.injEq, Prod.mk.injEq] at h2
  obtain ⟨rfl, rfl, rfl⟩ := h2
  obtain ⟨j, e1, hj, e2⟩ := hall p q hp
  obtain ⟨j', e1', hj', e2'⟩ := hall p' q' hp'
  rw [e2, e2', ← e1, ← e1']
  constructor
  · intro e
    simp only [Option.some.injEq, Nat.add_right_cancel_iff] at e; rw [e]
  · intro e
    rw [List.getElem?_eq_getElem hj, List.getElem?_eq_getElem hj', Option.some.injEq] at e
    have hnd : u.Nodup := hs.imp (fun h => ne_of_lt h)
    have := (hnd.getElem_inj_iff).1 e
    rw [this]

example : (validate 4 1 [0, 7, 3, 3, 0, 9]).map (fun x => x.1.labels) = .ok [2, 1, 1, 3] := by decide +kernel

/-! ## C46 -/

theorem select_ok (pixels : List ℕ) (im : List (Option ℚ)) (h : ∀ q ∈ pixels, q < im.length) :
    select pixels im = .ok (pixels.map (fun q => (im[q]?).getD none)) := by
  unfold select
  induction pixels with
  | nil => rfl
  | cons a t ih =>
    have ha : a < im.length := h a (by simp)
    rw [List.mapM_cons, ih (fun q hq => h q (by simp [hq])), List.getElem?_eq_getElem ha]
    simp [List.getElem?_eq_getElem ha]
    rfl

theorem lazy_fold (c : Cfg) (pixels lags : List ℕ) (s : St) (ims : List (List (Option ℚ)))
    (h : ∀ im ∈ ims, ∀ q ∈ pixels, q < im.length) :
    (lazyOneTime c pixels lags s ims).2 =
      ((ims.map (fun im => pixels.map (fun q => (im[q]?).getD none))).foldl (step c) s, none) := by
  induction ims generalizing s with
  | nil => rfl
  | cons im rest ih =>
    unfold lazyOneTime
    rw [select_ok pixels im (h im (by simp))]
    simp only []
    rw [ih _ (fun im' h' => h im' (by simp [h']))]
    rfl

/-- The value of the p-th selected pixel in image number t (NaN = `none`). -/
def pixelHistory (images : ℕ → List (Option ℚ)) (pixels : List ℕ) (t p : ℕ) : Option ℚ :=
  match pixels[p]? with
  | some q => ((images t)[q]?).getD none
  | none => none

theorem frames_eq (images : ℕ → List (Option ℚ)) (pixels : List ℕ) (t : ℕ) :
    pixels.map (fun q => ((images t)[q]?).getD none) = frameOf (pixelHistory images pixels) pixels.length t := by
  unfold frameOf pixelHistory
  apply List.ext_getElem?
  intro k
  rw [List.getElem?_map, List.getElem?_map]
  by_cases hk : k < pixels.length
  · rw [List.getElem?_range hk, List.getElem?_eq_getElem hk]; simp [List.getElem?_eq_getElem hk]
  · rw [List.getElem?_eq_none (by omega), List.getElem?_eq_none (by simpa using hk)]; rfl

/-- C46: for every label image, every stream of images and every number T of frames, the generator finishes without
error, and for every level `l` and delay `i` of that level the accumulated row `l*n/2+i` of ROI `r` is the mean over
all NaN-free pairs of level-`l` frames `i` apart of the ROI mean of the product (resp. of the earlier and of the later
frame), as written out in `Spec`. -/
theorem C46_rows_are_pair_means (n L : ℕ) (hn2 : 2 ≤ n) (hL : 1 ≤ L) (labels : List ℤ) (c : Cfg)
    (pixels lags : List ℕ) (hv : validate n L labels = .ok (c, pixels, lags))
    (images : ℕ → List (Option ℚ)) (hsz : ∀ t, labels.length ≤ (images t).length) (T : ℕ) :
    let out := lazyOneTime c pixels lags (init c) ((List.range T).map images)
    let v := pixelHistory images pixels
    let lab := fun p => (c.labels[p]?).getD 0
    out.2.2 = none ∧
    ∀ l i r, l < L → i < n → (l = 0 ∨ n / 2 ≤ i) →
      out.2.1.2.G (l * n / 2 + i) r = Spec.G v pixels.length lab l i (T / 2 ^ l) r ∧
      out.2.1.2.past (l * n / 2 + i) r = Spec.past v pixels.length lab l i (T / 2 ^ l) r ∧
      out.2.1.2.fut (l * n / 2 + i) r = Spec.future v pixels.length lab l i (T / 2 ^ l) r := by
  intro out v lab
  have he : n % 2 = 0 := (validate_ok hv).1
  obtain ⟨c2, px2, l2, u, h2, hmem, _, _, _, hlen, _⟩ := C50_renumbering labels n L he
  have hc : c.L = L ∧ c.n = n := by rw [(validate_ok hv).2.1]; exact ⟨rfl, rfl⟩
  rw [hv] at h2
  simp only [Except.ok.injEq, Prod.mk.injEq] at h2
  obtain ⟨rfl, rfl, rfl⟩ := h2
  have hfold := lazy_fold c pixels lags (init c) ((List.range T).map images) (by
    intro im him q hq
    obtain ⟨t, _, rfl⟩ := List.mem_map.1 him
    obtain ⟨x, hx, _⟩ := (hmem q).1 hq
    exact lt_of_lt_of_le (List.getElem?_eq_some_iff.1 hx).1 (hsz t))
  have hout : out.2 = _ := hfold
  rw [hout]
  refine ⟨rfl, ?_⟩
  intro l i r hl hi hor
  have hclab : c.labels = (List.range pixels.length).map lab := by
    apply List.ext_getElem?
    intro k
    rw [List.getElem?_map]
    by_cases hk : k < pixels.length
    · rw [List.getElem?_range hk]
      have : k < c.labels.length := by omega
      simp [lab, List.getElem?_eq_getElem this]
    · rw [List.getElem?_eq_none (by omega), List.getElem?_eq_none (by simpa using hk)]; rfl
  have hcfg : c = { L := L, n := n, labels := (List.range pixels.length).map lab } := by
    rw [← hclab, ← hc.1, ← hc.2]
  have hframes : ((List.range T).map images).map (fun im => pixels.map (fun q => (im[q]?).getD none)) =
      (List.range T).map (frameOf v pixels.length) := by
    rw [List.map_map]
    apply List.map_congr_left
    intro t _
    exact frames_eq images pixels t
  rw [hframes]
  have hrun := (run_ok v pixels.length lab L n he hn2 hL T).2
  rw [← hcfg] at hrun
  have hcell := hrun l i hl ⟨hi, hor⟩
  unfold cell specCell at hcell
  simp only [Cell.mk.injEq] at hcell
  exact ⟨congrFun hcell.1 r, congrFun hcell.2.1 r, congrFun hcell.2.2.1 r⟩

/-- Non-vacuity of C46 and a sanity check of the model: 2 levels, 4 buffers, five frames, two ROIs, one NaN frame. -/
def demoLabels : List ℤ := [0, 5, 5, 2]
def demoImages : List (List (Option ℚ)) :=
  [[some 9, some 1, some 2, some 3], [some 9, some 2, some 0, some 1], [some 9, none, some 1, some 1],
   [some 9, some 4, some 1, some 2], [some 9, some 1, some 1, some 5]]

example : (match validate 4 2 demoLabels with
    | .ok (c, px, lg) =>
      let s := (lazyOneTime c px lg (init c) demoImages).2.1.2
      decide (px = [1, 2, 3] ∧ lg = [0, 1, 2, 3, 4, 6] ∧ c.labels = [2, 2, 1] ∧
        s.G 1 1 = 7 / 4 ∧ s.G 1 0 = 13 / 2 ∧ s.past 1 1 = 2 ∧ s.norm 0 1 = 2)
    | .error _ => false) = true := by decide +kernel

/-! ## C47 instalments -/

/-- C47: feeding `A ++ B` yields what feeding `A` yields followed by what feeding `B` from the state reached yields, and
ends in the same state, for every state, every split and all contents (if an exception stops `A`, `B` is never
reached). -/
theorem C47_instalments (c : Cfg) (pixels lags : List ℕ) (s : St) (A B : List (List (Option ℚ)))
    (hA : (lazyOneTime c pixels lags s A).2.2 = none) :
    lazyOneTime c pixels lags s (A ++ B) =
      ((lazyOneTime c pixels lags s A).1 ++ (lazyOneTime c pixels lags (lazyOneTime c pixels lags s A).2.1 B).1,
        (lazyOneTime c pixels lags (lazyOneTime c pixels lags s A).2.1 B).2) := by
  induction A generalizing s with
  | nil => simp [lazyOneTime]
  | cons im rest ih =>
    rw [List.cons_append, lazyOneTime, lazyOneTime]
    rw [lazyOneTime] at hA
    cases hs : select pixels im with
    | error e => rw [hs] at hA; simp at hA
    | ok x =>
      rw [hs] at hA
      simp only [] at hA ⊢
      rw [ih _ hA]; rfl

/-- C47, any number of instalments: chaining the state through a list of batches yields exactly the results of the
concatenated stream. -/
def chained (c : Cfg) (pixels lags : List ℕ) : St → List (List (List (Option ℚ))) → List Res × St
  | s, [] => ([], s)
  | s, b :: bs =>
    let o := lazyOneTime c pixels lags s b
    let r := chained c pixels lags o.2.1 bs
    (o.1 ++ r.1, r.2)

/-- Feeding the images in any number of batches, each batch continuing from the state the previous one ended with, yields the
same results and ends in the same state as feeding them all at once (no image smaller than the labelled region). -/
theorem C47_batches (c : Cfg) (pixels lags : List ℕ) (s : St) (bs : List (List (List (Option ℚ))))
    (hsz : ∀ b ∈ bs, ∀ im ∈ b, ∀ q ∈ pixels, q < im.length) :
    chained c pixels lags s bs =
      ((lazyOneTime c pixels lags s bs.flatten).1, (lazyOneTime c pixels lags s bs.flatten).2.1) := by
  induction bs generalizing s with
  | nil => rfl
  | cons b bs ih =>
    have hb : (lazyOneTime c pixels lags s b).2.2 = none := by
      rw [lazy_fold c pixels lags s b (hsz b (by simp))]
    rw [List.flatten_cons, C47_instalments c pixels lags s b bs.flatten hb]
    simp only [chained]
    rw [ih _ (fun b' h' => hsz b' (by simp [h']))]

/-- C47, one result per frame: the k-th result is available after k+1 frames and does not depend on later ones. -/
theorem C47_one_result_per_frame (c : Cfg) (pixels lags : List ℕ) (s : St) (A B : List (List (Option ℚ)))
    (hA : (lazyOneTime c pixels lags s A).2.2 = none) :
    (lazyOneTime c pixels lags s A).1.length = A.length ∧
    (lazyOneTime c pixels lags s (A ++ B)).1.take A.length = (lazyOneTime c pixels lags s A).1 := by
  have hlen : ∀ (A : List (List (Option ℚ))) (s : St), (lazyOneTime c pixels lags s A).2.2 = none →
      (lazyOneTime c pixels lags s A).1.length = A.length := by
    intro A
    induction A with
    | nil => intro s _; rfl
    | cons im rest ih =>
      intro s h
      rw [lazyOneTime] at h ⊢
      cases hs : select pixels im with
      | error e => rw [hs] at h; simp at h
      | ok x =>
        rw [hs] at h
        simp only [List.length_cons] at h ⊢
        rw [ih _ h]
  refine ⟨hlen A s hA, ?_⟩
  rw [C47_instalments c pixels lags s A B hA, ← hlen A s hA]
  simp

example : (lazyOneTime ⟨1, 2, [1]⟩ [0] [0, 1] (init ⟨1, 2, [1]⟩) [[some 1], [some 2]]).2.2 = none := by decide +kernel

/-! ## C48 -/

/-- C48 is false: with one pixel that goes 1 → 0 the later-frame normalisation of delay 1 is zero; the row is still
reported, and its entry is 0/0. -/
theorem C48_zero_division_reported :
    (multiTauAutoCorr 1 2 [1] [[some 1], [some 0]]).map Res.g2 = .ok [[some 2], [none]] := by decide +kernel

theorem gMax_le (c : Cfg) (a : Acc) : gMax c a ≤ rows c := by
  unfold gMax
  exact (List.findIdx_le_length).trans (by simp)

theorem gMax_spec (c : Cfg) (a : Acc) (t r : ℕ) (ht : t < gMax c a) (hr : r < rois c) : a.past t r ≠ 0 := by
  unfold gMax at ht
  have h1 : t < (List.range (rows c)).length := lt_of_lt_of_le ht List.findIdx_le_length
  have := List.not_of_lt_findIdx ht
  simp only [List.getElem_range, List.any_eq_false, List.mem_range, decide_eq_true_eq] at this
  exact this r hr

/-- C48, what the truncation does guarantee for every state: every reported row has non-zero *earlier-frame*
normalisation for every ROI, so an entry is undefined only if the later-frame normalisation is zero. -/
theorem C48_past_nonzero_partial (c : Cfg) (lags : List ℕ) (s : St) (t r : ℕ)
    (ht : t < (result c lags s).g2.length) (hr : r < rois c) :
    s.2.past t r ≠ 0 ∧ (g2At s.2 t r = none ↔ s.2.fut t r = 0) := by
  have h1 : t < gMax c s.2 := by simpa [result] using ht
  have h2 := gMax_spec c s.2 t r h1 hr
  refine ⟨h2, ?_⟩
  unfold g2At
  constructor
  · intro h
    split at h
    · next e => exact (mul_eq_zero.1 e).resolve_left h2
    · simp at h
  · intro h; rw [if_pos (by rw [h, mul_zero])]

theorem row_decomp {n L t : ℕ} (he : n % 2 = 0) (hn2 : 2 ≤ n) (hL : 1 ≤ L) (ht : t < (L + 1) * n / 2) :
    ∃ l i, l < L ∧ Valid n l i ∧ t = l * n / 2 + i := by
  obtain ⟨m, rfl⟩ : ∃ m, n = 2 * m := ⟨n / 2, by omega⟩
  have hm : 0 < m := by omega
  have e : ∀ a : ℕ, a * (2 * m) / 2 = a * m := fun a => by
    rw [mul_left_comm]; exact Nat.mul_div_cancel_left _ (by norm_num)
  rw [e] at ht
  by_cases h : t < 2 * m
  · exact ⟨0, t, hL, ⟨h, Or.inl rfl⟩, by simp⟩
  · have hdm := Nat.div_add_mod t m
    have hmod := Nat.mod_lt t hm
    have h2 : 2 ≤ t / m := (Nat.le_div_iff_mul_le hm).2 (by omega)
    have hq : t / m < L + 1 := (Nat.div_lt_iff_lt_mul hm).2 ht
    obtain ⟨k, hk⟩ : ∃ k, t / m = k + 2 := ⟨t / m - 2, by omega⟩
    refine ⟨k + 1, m + t % m, by omega, ⟨by omega, Or.inr (by omega)⟩, ?_⟩
    rw [e]
    rw [hk] at hdm
    have : m * (k + 2) = (k + 1) * m + m := by ring
    omega

theorem le_foldl_max (l : List ℕ) (a : ℕ) : a ≤ l.foldl max a ∧ (∀ x ∈ l, x ≤ l.foldl max a) ∧
    (l.foldl max a = a ∨ l.foldl max a ∈ l) := by
  induction l generalizing a with
  | nil => simp
  | cons b t ih =>
    obtain ⟨h1, h2, h3⟩ := ih (max a b)
    rw [List.foldl_cons]
    refine ⟨le_trans (le_max_left _ _) h1, ?_, ?_⟩
    · intro x hx
      rcases List.mem_cons.1 hx with rfl | hx
      · exact le_trans (le_max_right _ _) h1
      · exact h2 x hx
    · rcases h3 with h3 | h3
      · rcases le_total a b with h | h
        · right; rw [h3, max_eq_right h]; simp
        · left; rw [h3, max_eq_left h]
      · right; exact List.mem_cons_of_mem _ h3

/-- Every column of the result belongs to a non-empty region: ROI numbers run from 1 to `num_rois` without a gap. -/
theorem C50_every_column_has_pixels (labels : List ℤ) (n L : ℕ) (c : Cfg) (pixels lags : List ℕ)
    (h : validate n L labels = .ok (c, pixels, lags)) (r : ℕ) (hr : r < rois c) :
    ∃ p q : ℕ, pixels[p]? = some q ∧ c.labels[p]? = some (r + 1) := by
  obtain ⟨c2, px2, l2, u, h2, hmem, _, hs, hu, hlen, hall⟩ := C50_renumbering labels n L (validate_ok h).1
  rw [h] at h2
  simp only [Except.ok.injEq, Prod.mk.injEq] at h2
  obtain ⟨rfl, rfl, rfl⟩ := h2
  have hru : r < u.length := by
    rcases (le_foldl_max c.labels 0).2.2 with h3 | h3
    · unfold rois at hr; omega
    · obtain ⟨p, hp, he⟩ := List.getElem_of_mem h3
      have hpp : p < pixels.length := by omega
      obtain ⟨j, _, hj, e⟩ := hall p pixels[p] (List.getElem?_eq_getElem hpp)
      rw [List.getElem?_eq_getElem hp, he, Option.some.injEq] at e
      unfold rois at hr
      omega
  obtain ⟨hx1, hx2⟩ := (hu u[r]).1 (List.getElem_mem hru)
  obtain ⟨q, hq, hqe⟩ := List.getElem_of_mem hx1
  have hqp : q ∈ pixels := (hmem q).2 ⟨u[r], by rw [List.getElem?_eq_getElem hq, hqe], hx2⟩
  obtain ⟨p, hp, hpe⟩ := List.getElem_of_mem hqp
  obtain ⟨j, e1, hj, e2⟩ := hall p q (by rw [List.getElem?_eq_getElem hp, hpe])
  refine ⟨p, q, by rw [List.getElem?_eq_getElem hp, hpe], ?_⟩
  rw [List.getElem?_eq_getElem hj, List.getElem?_eq_getElem hq, hqe, Option.some.injEq] at e1
  have hnd : u.Nodup := hs.imp (fun h => ne_of_lt h)
  rw [e2, (hnd.getElem_inj_iff).1 e1]

theorem pairMean_pos (v : ℕ → ℕ → Option ℚ) (P l i N : ℕ) (q : ℕ → ℚ) (hne : (Spec.pairs v P l i N).card ≠ 0)
    (hq : ∀ k ∈ Spec.pairs v P l i N, 0 < q k) : 0 < Spec.pairMean v P l i N q := by
  unfold Spec.pairMean
  rw [if_neg hne]
  apply div_pos
  · exact sum_pos hq (card_ne_zero.1 hne)
  · exact_mod_cast Nat.pos_of_ne_zero hne

theorem roiMean_pos (P : ℕ) (lab : ℕ → ℕ) (r : ℕ) (w : ℕ → ℚ) (p : ℕ) (hp : p < P) (hl : lab p = r + 1)
    (hw : ∀ p < P, 0 < w p) : 0 < Spec.roiMean P lab r w := by
  unfold Spec.roiMean
  have hmem : p ∈ (range P).filter (fun p => lab p = r + 1) := by simp [hp, hl]
  apply div_pos
  · exact sum_pos (fun x hx => hw x (by simp at hx; exact hx.1)) ⟨p, hmem⟩
  · exact_mod_cast card_pos.2 ⟨p, hmem⟩

/-- C48 for streams whose non-NaN pixel values are all positive: every entry of every reported row, for every ROI and
after any number of frames, is a number. -/
theorem C48_positive_data_partial (n L : ℕ) (hn2 : 2 ≤ n) (hL : 1 ≤ L) (labels : List ℤ) (c : Cfg)
    (pixels lags : List ℕ) (hv : validate n L labels = .ok (c, pixels, lags))
    (images : ℕ → List (Option ℚ)) (hsz : ∀ t, labels.length ≤ (images t).length)
    (hpos : ∀ (t q : ℕ) (x : ℚ), (images t)[q]? = some (some x) → 0 < x) (T : ℕ) (t r : ℕ)
    (ht : t < (result c lags (lazyOneTime c pixels lags (init c) ((List.range T).map images)).2.1).g2.length)
    (hr : r < rois c) :
    ∃ x, g2At (lazyOneTime c pixels lags (init c) ((List.range T).map images)).2.1.2 t r = some x := by
  obtain ⟨hp, hiff⟩ := C48_past_nonzero_partial c lags _ t r ht hr
  rw [← Option.isSome_iff_exists, Option.isSome_iff_ne_none, Ne, hiff]
  have hrows : t < rows c := by
    refine lt_of_lt_of_le ?_ (gMax_le c (lazyOneTime c pixels lags (init c) ((List.range T).map images)).2.1.2)
    simpa [result] using ht
  have he := (validate_ok hv).1
  have hrn : rows c = (L + 1) * n / 2 := by rw [(validate_ok hv).2.1]; rfl
  obtain ⟨l, i, hl, ⟨hi, hor⟩, rfl⟩ := row_decomp he hn2 hL (hrn ▸ hrows)
  obtain ⟨_, hspec⟩ := C46_rows_are_pair_means n L hn2 hL labels c pixels lags hv images hsz T
  obtain ⟨_, e2, e3⟩ := hspec l i r hl hi hor
  rw [e2] at hp
  rw [e3]
  have hne : (Spec.pairs (pixelHistory images pixels) pixels.length l i (T / 2 ^ l)).card ≠ 0 := by
    intro h0; apply hp; unfold Spec.past Spec.pairMean; rw [if_pos h0]
  obtain ⟨p, q, hpq, hlab⟩ := C50_every_column_has_pixels labels n L c pixels lags hv r hr
  apply ne_of_gt
  unfold Spec.future
  refine pairMean_pos _ _ _ _ _ _ hne ?_
  intro k hk
  have hk2 : ¬ Spec.BlockBad (pixelHistory images pixels) pixels.length l (k + i) := by
    simp only [Spec.pairs, mem_filter] at hk; exact hk.2.2
  refine roiMean_pos _ _ _ _ p (List.getElem?_eq_some_iff.1 hpq).1 (by rw [hlab]; rfl) ?_
  intro p' hp'
  unfold Spec.blockAvg
  apply div_pos _ (by positivity)
  refine sum_pos ?_ ⟨0, by simp⟩
  intro j hj
  cases hx : pixelHistory images pixels ((k + i) * 2 ^ l + j) p' with
  | none => exact absurd ⟨j, hj, p', by simpa using hp', hx⟩ hk2
  | some x =>
    simp only [Option.getD_some]
    unfold pixelHistory at hx
    rw [List.getElem?_eq_getElem hp'] at hx
    simp only [] at hx
    cases hy : (images ((k + i) * 2 ^ l + j))[pixels[p']]? with
    | none => rw [hy] at hx; simp at hx
    | some y =>
      rw [hy, Option.getD_some] at hx
      exact hpos _ _ x (by rw [hy, hx])

/-- Non-vacuity: a stream of positive images with a NaN frame reports rows. -/
example : (multiTauAutoCorr 1 4 [1] [[some 1], [some 3], [none], [some 2]]).map (fun r => r.g2.length) = .ok 4 := by
  decide +kernel

/-- C46 for what is reported: after any number of frames, every row of the reported g2 table is, for some level `l` and
delay `i` of that level and for every ROI, the mean over the NaN-free pairs of the ROI mean of the product, divided by
the mean of the earlier frames times the mean of the later frames (`none`, i.e. NaN or inf, only where that denominator
is zero). -/
theorem C46_g2_is_normalised_pair_mean (n L : ℕ) (hn2 : 2 ≤ n) (hL : 1 ≤ L) (labels : List ℤ) (c : Cfg)
    (pixels lags : List ℕ) (hv : validate n L labels = .ok (c, pixels, lags))
    (images : ℕ → List (Option ℚ)) (hsz : ∀ t, labels.length ≤ (images t).length) (T : ℕ) :
    let res := result c lags (lazyOneTime c pixels lags (init c) ((List.range T).map images)).2.1
    let v := pixelHistory images pixels
    let lab := fun p => (c.labels[p]?).getD 0
    ∀ t (ht : t < res.g2.length), ∃ l i, l < L ∧ i < n ∧ (l = 0 ∨ n / 2 ≤ i) ∧ t = l * n / 2 + i ∧
      (res.g2[t]).length = rois c ∧
      ∀ r, r < rois c → res.g2[t][r]? = some (
        if Spec.past v pixels.length lab l i (T / 2 ^ l) r * Spec.future v pixels.length lab l i (T / 2 ^ l) r = 0
        then none
        else some (Spec.G v pixels.length lab l i (T / 2 ^ l) r /
          (Spec.past v pixels.length lab l i (T / 2 ^ l) r * Spec.future v pixels.length lab l i (T / 2 ^ l) r))) := by
  intro res v lab t ht
  have hrows : t < rows c := by
    refine lt_of_lt_of_le ?_ (gMax_le c (lazyOneTime c pixels lags (init c) ((List.range T).map images)).2.1.2)
    simpa [res, result] using ht
  have he := (validate_ok hv).1
  have hrn : rows c = (L + 1) * n / 2 := by rw [(validate_ok hv).2.1]; rfl
  obtain ⟨l, i, hl, ⟨hi, hor⟩, rfl⟩ := row_decomp he hn2 hL (hrn ▸ hrows)
  obtain ⟨_, hspec⟩ := C46_rows_are_pair_means n L hn2 hL labels c pixels lags hv images hsz T
  refine ⟨l, i, hl, hi, hor, rfl, by simp [res, result], ?_⟩
  intro r hr
  obtain ⟨e1, e2, e3⟩ := hspec l i r hl hi hor
  simp only [res, result, List.getElem_map, List.getElem_range, List.getElem?_map, List.getElem?_range hr,
    Option.map_some, g2At]
  rw [e1, e2, e3]

/-- Non-vacuity: a stream whose earlier and later means differ, so that the two factors of the normalisation matter. -/
example : (multiTauAutoCorr 1 4 [1] [[some 1], [some 3], [some 2]]).map (fun r => r.g2) =
    .ok [[some (7 / 6)], [some (9 / 10)], [some 1]] := by decide +kernel

theorem lazy_getLast (c : Cfg) (pixels lags : List ℕ) (ims : List (List (Option ℚ))) :
    ∀ s, (lazyOneTime c pixels lags s ims).2.2 = none → ims ≠ [] →
      (lazyOneTime c pixels lags s ims).1.getLast? = some (result c lags (lazyOneTime c pixels lags s ims).2.1) := by
  induction ims with
  | nil => intro s _ h; exact absurd rfl h
  | cons im rest ih =>
    intro s h _
    unfold lazyOneTime at h ⊢
    cases hs : select pixels im with
    | error e => rw [hs] at h; simp at h
    | ok x =>
      rw [hs] at h
      simp only [] at h ⊢
      by_cases hr : rest = []
      · subst hr; simp [lazyOneTime]
      · rw [List.getLast?_cons, ih _ h hr]; rfl

/-- C46 for the one-call API: `multi_tau_auto_corr` on any positive number T of frames succeeds and returns the result
that accounts for all T frames: its table obeys `C46_g2_is_normalised_pair_mean` with that T. -/
theorem C46_one_call_uses_every_frame (n L : ℕ) (hn2 : 2 ≤ n) (hL : 1 ≤ L) (labels : List ℤ) (c : Cfg)
    (pixels lags : List ℕ) (hv : validate n L labels = .ok (c, pixels, lags))
    (images : ℕ → List (Option ℚ)) (hsz : ∀ t, labels.length ≤ (images t).length) (T : ℕ) (hT : 1 ≤ T) :
    let v := pixelHistory images pixels
    let lab := fun p => (c.labels[p]?).getD 0
    ∃ res, multiTauAutoCorr L n labels ((List.range T).map images) = .ok res ∧
      ∀ t (ht : t < res.g2.length), ∃ l i, l < L ∧ i < n ∧ (l = 0 ∨ n / 2 ≤ i) ∧ t = l * n / 2 + i ∧
      (res.g2[t]).length = rois c ∧
      ∀ r, r < rois c → res.g2[t][r]? = some (
        if Spec.past v pixels.length lab l i (T / 2 ^ l) r * Spec.future v pixels.length lab l i (T / 2 ^ l) r = 0
        then none
        else some (Spec.G v pixels.length lab l i (T / 2 ^ l) r /
          (Spec.past v pixels.length lab l i (T / 2 ^ l) r * Spec.future v pixels.length lab l i (T / 2 ^ l) r))) := by
  intro v lab
  refine ⟨_, ?_, C46_g2_is_normalised_pair_mean n L hn2 hL labels c pixels lags hv images hsz T⟩
  have hno := (C46_rows_are_pair_means n L hn2 hL labels c pixels lags hv images hsz T).1
  have hl := lazy_getLast c pixels lags ((List.range T).map images) (init c) hno (by simp; omega)
  unfold multiTauAutoCorr
  rw [hv]
  simp only [bind, Except.bind]
  rw [hno, hl]

/-! ## C49 lag steps -/

theorem lag_at {n L : ℕ} (he : n % 2 = 0) (hL : 1 ≤ L) {t lags d} (h : Utils.multiTauLags L n = .ok (t, lags, d))
    {l i : ℕ} (hl : l < L) (hv : Valid n l i) : lags[l * n / 2 + i]? = some (i * 2 ^ l) := by
  obtain ⟨t', lags', d', h', _, _, h0, h1, _⟩ := Utils.C01_lag_table L n hL he
  rw [h] at h'
  simp only [Except.ok.injEq, Prod.mk.injEq] at h'
  obtain ⟨rfl, rfl, rfl⟩ := h'
  obtain ⟨m, rfl⟩ : ∃ m, n = 2 * m := ⟨n / 2, by omega⟩
  have e : ∀ a : ℕ, a * (2 * m) / 2 = a * m := fun a => by
    rw [mul_left_comm]; exact Nat.mul_div_cancel_left _ (by norm_num)
  obtain ⟨hv1, hv2⟩ := hv
  rcases Nat.eq_zero_or_pos l with rfl | hpos
  · simpa using h0 i hv1
  · have hm : 2 * m / 2 = m := by omega
    have hi : m ≤ i := by rcases hv2 with h | h <;> omega
    obtain ⟨k, rfl⟩ : ∃ k, l = k + 1 := ⟨l - 1, by omega⟩
    have := h1 (k + 2) (by omega) (by omega) (i - m) (by omega)
    rw [hm] at this
    have e1 : 2 * m + (k + 2 - 2) * m + (i - m) = (k + 1) * m + i := by
      have : (k + 1) * m = k * m + m := by ring
      rw [Nat.add_sub_cancel, this]; omega
    have e2 : m + (i - m) = i := by omega
    rw [e1, e2] at this
    rw [e]; exact this

/-- C49: in every reported result, the g2 table has exactly one row per lag step, and row `l*n/2+i` (the row that by
C46 correlates level-l frames i apart) is labelled with the lag `i * 2^l` in units of frames. -/
theorem C49_rows_match_lags (n L : ℕ) (hn2 : 2 ≤ n) (hL : 1 ≤ L) (labels : List ℤ) (c : Cfg) (pixels lags : List ℕ)
    (hv : validate n L labels = .ok (c, pixels, lags)) (s : St) :
    (result c lags s).g2.length = (result c lags s).lags.length ∧
    (∀ row ∈ (result c lags s).g2, row.length = rois c) ∧
    (∀ t, t < (result c lags s).g2.length → ∃ l i, l < L ∧ i < n ∧ (l = 0 ∨ n / 2 ≤ i) ∧ t = l * n / 2 + i) ∧
    ∀ l i, l < L → i < n → (l = 0 ∨ n / 2 ≤ i) → l * n / 2 + i < (result c lags s).g2.length →
      (result c lags s).lags[l * n / 2 + i]? = some (i * 2 ^ l) := by
  obtain ⟨he, hc, _, tot, d, hlag⟩ := validate_ok hv
  have hrn : rows c = (L + 1) * n / 2 := by rw [hc]; rfl
  have hle := gMax_le c s.2
  have hlen : (result c lags s).g2.length = gMax c s.2 := by simp [result]
  have hlaglen : gMax c s.2 ≤ lags.length := by
    rcases Nat.eq_zero_or_pos (gMax c s.2) with h0 | h0
    · omega
    · obtain ⟨l, i, hl, hvv, e⟩ := row_decomp (t := gMax c s.2 - 1) he hn2 hL (by omega)
      have := lag_at he hL hlag hl hvv
      rw [← e] at this
      have := (List.getElem?_eq_some_iff.1 this).1
      omega
  refine ⟨?_, ?_, ?_, ?_⟩
  · rw [hlen]; simp [result, hlaglen]
  · intro row hrow
    simp only [result, List.mem_map] at hrow
    obtain ⟨t, _, rfl⟩ := hrow
    simp
  · intro t ht
    obtain ⟨l, i, hl, hvv, e⟩ := row_decomp (t := t) he hn2 hL (by omega)
    exact ⟨l, i, hl, hvv.1, hvv.2, e⟩
  · intro l i hl hi hor ht
    have := lag_at he hL hlag hl ⟨hi, hor⟩
    simp only [result]
    rw [List.getElem?_take, if_pos (by omega)]
    exact this

example : (multiTauAutoCorr 2 4 [1, 2] (List.replicate 9 [some 1, some 3])).map (fun r => r.lags) =
    .ok [0, 1, 2, 3, 4, 6] := by decide +kernel

/-! ## Index bounds -/

/-- Every array index used while processing any stream stays inside its array: the buffer slot read or written, the
delayed slot, the averaged slot, the row of G and the position in `norm` (which is also never negative). -/
theorem C46_indices_in_bounds (v : ℕ → ℕ → Option ℚ) (P : ℕ) (lab : ℕ → ℕ) (L n : ℕ) (he : n % 2 = 0) (hn2 : 2 ≤ n)
    (hL : 1 ≤ L) (T : ℕ) :
    let c : Cfg := { L := L, n := n, labels := (List.range P).map lab }
    let s := ((List.range T).map (frameOf v P)).foldl (step c) (init c)
    (∀ l < L, s.1.cur l ≤ n ∧ slot n (s.1.cur l) < n ∧ prevSlot n (s.1.cur l) < n) ∧
    ∀ l < L, ∀ i ∈ delays n l (s.1.img l), i < s.1.img l ∧
      (((slot n (s.1.cur l) : ℤ) - i) % n).toNat < n ∧ l * n / 2 + i < rows c ∧ levBefore n l ≤ l * n / 2 + i ∧
      l * n / 2 + i - levBefore n l < (if l = 0 then n else n / 2) := by
  intro c s
  have hrun := (run_ok v P lab L n he hn2 hL T).1
  have hn0 : (0 : ℤ) < n := by omega
  have hmod : ∀ z : ℤ, (z % n).toNat < n := fun z => by
    have h1 := Int.emod_nonneg z (ne_of_gt hn0)
    have h2 := Int.emod_lt_of_pos z hn0
    omega
  refine ⟨?_, ?_⟩
  · intro l hl
    obtain ⟨_, h2, _, _⟩ := hrun.1 l hl
    have h2 : s.1.cur l ≤ n := h2
    refine ⟨h2, ?_, hmod _⟩
    unfold slot; split <;> omega
  · intro l hl i hi
    obtain ⟨hi1, hvv⟩ := (mem_delays n l _ i).1 hi
    refine ⟨hi1, hmod _, ?_, ?_, ?_⟩
    · show _ < (L + 1) * n / 2
      obtain ⟨m, rfl⟩ : ∃ m, n = 2 * m := ⟨n / 2, by omega⟩
      have e : ∀ a : ℕ, a * (2 * m) / 2 = a * m := fun a => by
        rw [mul_left_comm]; exact Nat.mul_div_cancel_left _ (by norm_num)
      rw [e, e]
      have h1 := hvv.1
      have h2 : (l + 1) * m ≤ L * m := Nat.mul_le_mul_right m hl
      have h3 : (l + 1) * m = l * m + m := by ring
      have h4 : (L + 1) * m = L * m + m := by ring
      omega
    · obtain ⟨m, rfl⟩ : ∃ m, n = 2 * m := ⟨n / 2, by omega⟩
      have e : ∀ a : ℕ, a * (2 * m) / 2 = a * m := fun a => by
        rw [mul_left_comm]; exact Nat.mul_div_cancel_left _ (by norm_num)
      rw [e]
      unfold levBefore
      split
      · omega
      · next h0 =>
        obtain ⟨k, rfl⟩ : ∃ k, l = k + 1 := ⟨l - 1, by omega⟩
        have hm : 2 * m / 2 = m := by omega
        have := hvv.2
        have h3 : (k + 1) * m = k * m + m := by ring
        rw [hm, Nat.add_sub_cancel]
        omega
    · have := indOf_eq he hvv
      unfold indOf at this
      rw [this]
      have := hvv.1
      split <;> omega

end Verif.Corr
