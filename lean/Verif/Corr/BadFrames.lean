/- Property C205: frames marked as bad (bad_to_nan_gen) and the correlation functions. -/
import Verif.Corr.TwoProps
import Verif.Mask.Props

namespace Verif.Corr
open Verif Finset

/-! ### specification -/

/-- The k-th group of 2^l frames contains no frame listed in `bad`. -/
abbrev Spec.Free (bad : List ℤ) (l k : ℕ) : Prop := ∀ j ∈ range (2 ^ l), ((k * 2 ^ l + j : ℕ) : ℤ) ∉ bad

/-- The pairs of groups (k, k+i) among the first N that contain no listed frame. -/
def Spec.freePairs (bad : List ℤ) (l i N : ℕ) : Finset ℕ := (range (N - i)).filter (fun k => Spec.Free bad l k ∧ Spec.Free bad l (k + i))

/-- The mean of q over those pairs (0 when there is none). -/
def Spec.freeMean (bad : List ℤ) (l i N : ℕ) (q : ℕ → ℚ) : ℚ := (∑ k ∈ Spec.freePairs bad l i N, q k) / (Spec.freePairs bad l i N).card

/-- The mean of pixel p over the k-th group of 2^l frames; `w t p` is the value of pixel p in frame t. -/
def Spec.groupAvg (w : ℕ → ℕ → ℚ) (l k p : ℕ) : ℚ := (∑ j ∈ range (2 ^ l), w (k * 2 ^ l + j) p) / 2 ^ l

/-! ### the marked stream -/

/-- Frame t after marking. -/
def marked (bad : List ℤ) (raw : ℕ → List ℚ) (size t : ℕ) : List (Option ℚ) :=
  if (t : ℤ) ∈ bad then List.replicate size none else (raw t).map some

theorem badToNan_stream (shape : List ℕ) (raw : ℕ → List ℚ) (bad : List ℤ) (T : ℕ) :
    (Mask.badToNan ((List.range T).map (fun t => (⟨shape, (raw t).map some⟩ : Mask.Frame))) bad).map Mask.Frame.data =
      (List.range T).map (marked bad raw shape.prod) := by
  unfold Mask.badToNan
  rw [Mask.badLoop_spec bad shape _ 0 none (by simp) (by simp)]
  apply List.ext_getElem?
  intro k
  rw [List.getElem?_map, List.getElem?_mapIdx, List.getElem?_map, List.getElem?_map]
  by_cases hk : k < T
  · rw [List.getElem?_range hk]
    simp only [Option.map_some, marked]
    split <;> simp_all [Mask.nanFrame]
  · rw [List.getElem?_eq_none (by simpa using hk)]; rfl

/-- Value of the p-th selected pixel in frame t. -/
def rawPixel (raw : ℕ → List ℚ) (pixels : List ℕ) (t p : ℕ) : ℚ := ((pixels[p]?).bind (fun q => (raw t)[q]?)).getD 0

theorem history_marked (bad : List ℤ) (raw : ℕ → List ℚ) (size : ℕ) (hlen : ∀ t, (raw t).length = size) (pixels : List ℕ) (hpx : ∀ q ∈ pixels, q < size)
    (t p : ℕ) (hp : p < pixels.length) :
    pixelHistory (marked bad raw size) pixels t p = if (t : ℤ) ∈ bad then none else some (rawPixel raw pixels t p) := by
  unfold pixelHistory rawPixel
  rw [List.getElem?_eq_getElem hp]
  have hq := hpx _ (List.getElem_mem hp)
  simp only [marked, Option.bind_some]
  split
  · rw [List.getElem?_replicate, if_pos hq]; rfl
  · have hq' : pixels[p] < (raw t).length := by rw [hlen]; exact hq
    rw [List.getElem?_map, List.getElem?_eq_getElem hq']; rfl

section
variable (bad : List ℤ) (raw : ℕ → List ℚ) (size : ℕ) (hlen : ∀ t, (raw t).length = size) (pixels : List ℕ) (hpx : ∀ q ∈ pixels, q < size)
include hlen hpx

theorem blockBad_marked (hP : 0 < pixels.length) (l k : ℕ) :
    Spec.BlockBad (pixelHistory (marked bad raw size) pixels) pixels.length l k ↔ ¬ Spec.Free bad l k := by
  unfold Spec.BlockBad Spec.Free
  push Not
  constructor
  · rintro ⟨j, hj, p, hp, h⟩
    rw [history_marked bad raw size hlen pixels hpx _ p (mem_range.1 hp)] at h
    exact ⟨j, hj, by by_contra hb; rw [if_neg hb] at h; simp at h⟩
  · rintro ⟨j, hj, hb⟩
    exact ⟨j, hj, 0, by simpa using hP, by rw [history_marked bad raw size hlen pixels hpx _ 0 hP, if_pos hb]⟩

theorem pairs_marked (hP : 0 < pixels.length) (l i N : ℕ) :
    Spec.pairs (pixelHistory (marked bad raw size) pixels) pixels.length l i N = Spec.freePairs bad l i N := by
  unfold Spec.pairs Spec.freePairs
  apply filter_congr
  intro k _
  rw [blockBad_marked bad raw size hlen pixels hpx hP, blockBad_marked bad raw size hlen pixels hpx hP, not_not, not_not]

theorem blockAvg_marked (l k p : ℕ) (hp : p < pixels.length) (hf : Spec.Free bad l k) :
    Spec.blockAvg (pixelHistory (marked bad raw size) pixels) l k p = Spec.groupAvg (rawPixel raw pixels) l k p := by
  unfold Spec.blockAvg Spec.groupAvg
  congr 1
  apply sum_congr rfl
  intro j hj
  rw [history_marked bad raw size hlen pixels hpx _ p hp, if_neg (hf j hj)]; rfl

theorem mean_marked (hP : 0 < pixels.length) (l i N : ℕ) (q q' : ℕ → ℚ) (h : ∀ k, Spec.Free bad l k → Spec.Free bad l (k + i) → q k = q' k) :
    Spec.pairMean (pixelHistory (marked bad raw size) pixels) pixels.length l i N q = Spec.freeMean bad l i N q' := by
  unfold Spec.pairMean Spec.freeMean
  rw [pairs_marked bad raw size hlen pixels hpx hP]
  have : ∑ k ∈ Spec.freePairs bad l i N, q k = ∑ k ∈ Spec.freePairs bad l i N, q' k := by
    apply sum_congr rfl
    intro k hk
    have := (mem_filter.1 hk).2
    exact h k this.1 this.2
  rw [this]
  split
  · rename_i h0; rw [h0]; simp
  · rfl

end

theorem roiMean_congr (P : ℕ) (lab : ℕ → ℕ) (r : ℕ) (w w' : ℕ → ℚ) (h : ∀ p < P, w p = w' p) : Spec.roiMean P lab r w = Spec.roiMean P lab r w' := by
  unfold Spec.roiMean
  congr 1
  apply sum_congr rfl
  intro p hp
  exact h p (mem_range.1 (mem_filter.1 hp).1)

/-! ## C205 -/

/-- C205: correlating the frames that come out of `bad_to_nan_gen`: every entry of the table that is reported is the mean
over the pairs of groups without a listed frame of the product, divided by the means of the earlier and the later frames of
the same pairs.  The contents of listed frames do not enter. -/
theorem C205_one_time_partial (n L : ℕ) (hn2 : 2 ≤ n) (hL : 1 ≤ L) (labels : List ℤ) (c : Cfg) (pixels lags : List ℕ)
    (hv : validate n L labels = .ok (c, pixels, lags)) (shape : List ℕ) (hsz : labels.length = shape.prod) (raw : ℕ → List ℚ)
    (hlen : ∀ t, (raw t).length = shape.prod) (bad : List ℤ) (T : ℕ) (hT : 1 ≤ T) :
    let images := (List.range T).map (fun t => (⟨shape, (raw t).map some⟩ : Mask.Frame))
    let w := rawPixel raw pixels
    let roi := Spec.roiMean pixels.length (fun p => (c.labels[p]?).getD 0)
    ∃ res, multiTauAutoCorr L n labels ((Mask.badToNan images bad).map Mask.Frame.data) = .ok res ∧
      ∀ t (ht : t < res.g2.length), ∃ l i, l < L ∧ i < n ∧ (l = 0 ∨ n / 2 ≤ i) ∧ t = l * n / 2 + i ∧ (res.g2[t]).length = rois c ∧
        ∀ r, r < rois c →
          let mean := Spec.freeMean bad l i (T / 2 ^ l)
          let past := mean (fun k => roi r (Spec.groupAvg w l k))
          let future := mean (fun k => roi r (Spec.groupAvg w l (k + i)))
          res.g2[t][r]? = some (if past * future = 0 then none
            else some (mean (fun k => roi r (fun p => Spec.groupAvg w l k p * Spec.groupAvg w l (k + i) p)) / (past * future))) := by
  intro images w roi
  rw [badToNan_stream]
  obtain ⟨res, h1, h2⟩ := C46_one_call_uses_every_frame n L hn2 hL labels c pixels lags hv (marked bad raw shape.prod)
    (by intro t; unfold marked; split
        · simp [hsz]
        · simp [hsz, hlen]) T hT
  refine ⟨res, h1, ?_⟩
  intro t ht
  obtain ⟨l, i, a1, a2, a3, a4, a5, a6⟩ := h2 t ht
  refine ⟨l, i, a1, a2, a3, a4, a5, ?_⟩
  intro r hr
  have he := (validate_ok hv).1
  obtain ⟨c2, px2, l2, u, hv2, hmem, _, _, _, hcl, _⟩ := C50_renumbering labels n L he
  rw [hv] at hv2
  simp only [Except.ok.injEq, Prod.mk.injEq] at hv2
  obtain ⟨rfl, rfl, rfl⟩ := hv2
  have hpx : ∀ q ∈ pixels, q < shape.prod := by
    intro q hq
    obtain ⟨x, hx, _⟩ := (hmem q).1 hq
    rw [← hsz]; exact (List.getElem?_eq_some_iff.1 hx).1
  have hP : 0 < pixels.length := by
    rcases Nat.eq_zero_or_pos pixels.length with h0 | h0
    · exfalso
      rw [h0] at hcl
      have : c.labels = [] := List.length_eq_zero_iff.1 hcl
      unfold rois at hr; rw [this] at hr; simp at hr
    · exact h0
  have := a6 r hr
  unfold Spec.past Spec.future Spec.G at this
  rw [mean_marked bad raw shape.prod hlen pixels hpx hP l i _ _ (fun k => roi r (Spec.groupAvg w l k)) (fun k h1 _ =>
      roiMean_congr _ _ _ _ _ (fun p hp => blockAvg_marked bad raw shape.prod hlen pixels hpx l k p hp h1)),
    mean_marked bad raw shape.prod hlen pixels hpx hP l i _ _ (fun k => roi r (Spec.groupAvg w l (k + i))) (fun k _ h2 =>
      roiMean_congr _ _ _ _ _ (fun p hp => blockAvg_marked bad raw shape.prod hlen pixels hpx l (k + i) p hp h2)),
    mean_marked bad raw shape.prod hlen pixels hpx hP l i _ _ (fun k => roi r (fun p => Spec.groupAvg w l k p * Spec.groupAvg w l (k + i) p)) (fun k h1 h2 =>
      roiMean_congr _ _ _ _ _ (fun p hp => by
        rw [blockAvg_marked bad raw shape.prod hlen pixels hpx l k p hp h1, blockAvg_marked bad raw shape.prod hlen pixels hpx l (k + i) p hp h2]))] at this
  exact this

/-- C205 for two-time correlations, frames less than num_bufs apart: the entry is NaN if one of the two frames is listed,
and the normalised product of the two frames otherwise. -/
theorem C205_two_time (n L nf : ℕ) (hn2 : 2 ≤ n) (hL : 1 ≤ L) (labels : List ℤ) (c : Cfg) (pixels lags : List ℕ)
    (hv : validate n L labels = .ok (c, pixels, lags)) (shape : List ℕ) (hsz : labels.length = shape.prod) (raw : ℕ → List ℚ)
    (hlen : ∀ t, (raw t).length = shape.prod) (bad : List ℤ) (T : ℕ) (hT : 1 ≤ T) (hnf : T ≤ nf) :
    let images := (List.range T).map (fun t => (⟨shape, (raw t).map some⟩ : Mask.Frame))
    let w := rawPixel raw pixels
    let roi := Spec.roiMean pixels.length (fun p => (c.labels[p]?).getD 0)
    ∃ M, twoTimeCorr L n labels ((Mask.badToNan images bad).map Mask.Frame.data) nf = .ok M ∧
      ∀ r < rois c, ∀ t1 t2, t1 < T → t2 ≤ t1 → t1 - t2 < n →
        M r t1 t2 = (if (t1 : ℤ) ∈ bad ∨ (t2 : ℤ) ∈ bad then none
          else if roi r (w t2) * roi r (w t1) = 0 then none
          else some (roi r (fun p => w t2 p * w t1 p) / (roi r (w t2) * roi r (w t1)))) ∧ M r t2 t1 = M r t1 t2 := by
  intro images w roi
  rw [badToNan_stream]
  obtain ⟨M, h1, h2⟩ := C51_entries n L nf hn2 hL labels c pixels lags hv (marked bad raw shape.prod)
    (by intro t; unfold marked; split
        · simp [hsz]
        · simp [hsz, hlen]) T hT hnf
  refine ⟨M, h1, ?_⟩
  intro r hr t1 t2 ht1 ht2 ht
  obtain ⟨b1, b2⟩ := h2 r hr t1 t2 ht1 ht2 ht
  refine ⟨?_, b2⟩
  rw [b1]
  have he := (validate_ok hv).1
  obtain ⟨c2, px2, l2, u, hv2, hmem, _, _, _, hcl, _⟩ := C50_renumbering labels n L he
  rw [hv] at hv2
  simp only [Except.ok.injEq, Prod.mk.injEq] at hv2
  obtain ⟨rfl, rfl, rfl⟩ := hv2
  have hpx : ∀ q ∈ pixels, q < shape.prod := by
    intro q hq
    obtain ⟨x, hx, _⟩ := (hmem q).1 hq
    rw [← hsz]; exact (List.getElem?_eq_some_iff.1 hx).1
  -- a pixel of the region
  obtain ⟨p0, q0, hq0, hl0'⟩ := C50_every_column_has_pixels labels n L c pixels lags hv r hr
  have hp0 := (List.getElem?_eq_some_iff.1 hq0).1
  have hl0 : (c.labels[p0]?).getD 0 = r + 1 := by rw [hl0']; rfl
  have hbad : ∀ t, Spec.RoiBad (pixelHistory (marked bad raw shape.prod) pixels) pixels.length (fun p => (c.labels[p]?).getD 0) r 0 t ↔ (t : ℤ) ∈ bad := by
    intro t
    unfold Spec.RoiBad
    simp only [pow_zero, mul_one, range_one, mem_singleton, exists_eq_left, add_zero]
    constructor
    · rintro ⟨p, hp, _, h⟩
      rw [history_marked bad raw shape.prod hlen pixels hpx _ p (mem_range.1 hp)] at h
      by_contra hb; rw [if_neg hb] at h; simp at h
    · intro hb
      exact ⟨p0, mem_range.2 hp0, hl0, by rw [history_marked bad raw shape.prod hlen pixels hpx _ p0 hp0, if_pos hb]⟩
  unfold Spec.twoTime
  simp only [hbad, or_comm (a := (t2 : ℤ) ∈ bad)]
  split
  · rfl
  · rename_i hb
    push Not at hb
    have hf : ∀ t : ℕ, (t : ℤ) ∉ bad → ∀ p < pixels.length, Spec.blockAvg (pixelHistory (marked bad raw shape.prod) pixels) 0 t p = w t p := by
      intro t ht' p hp
      rw [blockAvg_marked bad raw shape.prod hlen pixels hpx 0 t p hp (by intro j hj; simp at hj; subst hj; simpa using ht')]
      simp [Spec.groupAvg, w]
    rw [roiMean_congr _ _ r _ _ (hf t2 hb.2), roiMean_congr _ _ r _ _ (hf t1 hb.1),
      roiMean_congr _ _ r (fun p => Spec.blockAvg (pixelHistory (marked bad raw shape.prod) pixels) 0 t2 p *
        Spec.blockAvg (pixelHistory (marked bad raw shape.prod) pixels) 0 t1 p) (fun p => w t2 p * w t1 p)
        (fun p hp => by rw [hf t2 hb.2 p hp, hf t1 hb.1 p hp])]

/-- C205 is false for which lags are reported: with every second frame listed there are pairs at lag 2, but the table ends
before lag 1, which has none. -/
theorem C205_lags_refuted :
    let images := (List.range 5).map (fun _ => (⟨[1], [some 1]⟩ : Mask.Frame))
    Spec.freePairs [1, 3] 0 2 5 = {0, 2} ∧
    (multiTauAutoCorr 1 4 [1] ((Mask.badToNan images [1, 3]).map Mask.Frame.data)).map (fun r => (r.g2, r.lags)) = .ok ([[some 1]], [0]) := by
  decide +kernel

/-- A case of the theorems: frame 1 of four is listed. -/
example : (multiTauAutoCorr 1 4 [1] ((Mask.badToNan ([2, 100, 4, 2].map (fun x => (⟨[1], [some x]⟩ : Mask.Frame))) [1]).map Mask.Frame.data)).map (fun r => r.g2) =
    .ok [[some (9 / 8)], [some 1], [some 1], [some 1]] := by decide +kernel
example : Spec.freePairs [1] 0 1 4 = {2} := by decide +kernel

end Verif.Corr
