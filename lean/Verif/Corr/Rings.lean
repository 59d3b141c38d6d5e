/- Property C223: the columns of a one-time correlation computed on ring regions: rings
(skbeam/core/roi.py:99-137) followed by multi_tau_auto_corr (skbeam/core/correlation.py:413-429).
All definitions are those of Roi/Model.lean and Corr/Model.lean. -/
import Verif.Corr.Invar
import Verif.Roi.Together

namespace Verif.Corr
open Verif Finset

/-! ## Specification -/

/-- The mean of a quantity over the pixels of ring k. -/
noncomputable def Spec.ringMean (edges : List ℝ) (center : ℝ × ℝ) (shape : ℕ × ℕ) (k : ℕ) (w : ℕ × ℕ → ℚ) : ℚ :=
  (∑ p ∈ Roi.Spec.ringPixels edges center shape k, w p) / (Roi.Spec.ringPixels edges center shape k).card

/-- The mean of a pixel over the m-th group of 2^l frames. -/
def Spec.pixelAvg (f : ℕ → ℕ → ℕ → ℚ) (l m : ℕ) (p : ℕ × ℕ) : ℚ := (∑ j ∈ range (2 ^ l), f (m * 2 ^ l + j) p.1 p.2) / 2 ^ l

/-- The mean over the N first values. -/
def Spec.meanOver (N : ℕ) (q : ℕ → ℚ) : ℚ := (∑ m ∈ range N, q m) / N

/-- The one-time correlation of ring k, of T frames grouped by 2^l, i groups apart: `none` for NaN. -/
noncomputable def Spec.ringG2 (edges : List ℝ) (center : ℝ × ℝ) (shape : ℕ × ℕ) (f : ℕ → ℕ → ℕ → ℚ) (T l i k : ℕ) : Option ℚ :=
  let a := Spec.pixelAvg f l
  let N := T / 2 ^ l - i
  let past := Spec.meanOver N (fun m => Spec.ringMean edges center shape k (a m))
  let future := Spec.meanOver N (fun m => Spec.ringMean edges center shape k (a (m + i)))
  if past * future = 0 then none
  else some (Spec.meanOver N (fun m => Spec.ringMean edges center shape k (fun p => a m p * a (m + i) p)) / (past * future))

open Classical in
/-- The number of rings before ring k that contain a pixel. -/
noncomputable def Spec.ringsBefore (edges : List ℝ) (center : ℝ × ℝ) (shape : ℕ × ℕ) (k : ℕ) : ℕ :=
  ((range k).filter (fun j => Roi.Spec.ringPixels edges center shape j ≠ ∅)).card

/-! ## Positions and pixels -/

theorem sum_positions (S : List (ℕ × ℕ)) (hnd : S.Nodup) (g : ℕ × ℕ → ℤ) (x : ℤ) (W : ℕ → ℚ) (w : ℕ × ℕ → ℚ)
    (h : ∀ (q : ℕ) p, S[q]? = some p → W q = w p) :
    ∑ q ∈ region (S.map g) x, W q = ∑ p ∈ S.toFinset.filter (fun p => g p = x), w p := by
  apply sum_nbij (fun q => (S[q]?).getD (0, 0))
  · intro q hq
    rw [mem_region, List.getElem?_map] at hq
    cases hs : S[q]? with
    | none => rw [hs] at hq; cases hq
    | some p =>
      rw [hs] at hq
      rw [mem_filter, List.mem_toFinset]
      exact ⟨List.mem_of_getElem? hs, by simpa using hq⟩
  · intro q hq q' hq' he
    simp only [mem_coe] at hq hq'
    rw [mem_region, List.getElem?_map] at hq hq'
    have l1 : q < S.length := by
      by_contra hc; rw [List.getElem?_eq_none (by omega)] at hq; cases hq
    have l2 : q' < S.length := by
      by_contra hc; rw [List.getElem?_eq_none (by omega)] at hq'; cases hq'
    simp only [List.getElem?_eq_getElem l1, List.getElem?_eq_getElem l2, Option.getD_some] at he
    exact (hnd.getElem_inj_iff).1 he
  · intro p hp
    simp only [coe_filter, List.mem_toFinset, Set.mem_ofPred_eq] at hp
    obtain ⟨q, hq, rfl⟩ := List.getElem_of_mem hp.1
    refine ⟨q, ?_, by simp [hq]⟩
    rw [mem_coe, mem_region, List.getElem?_map, List.getElem?_eq_getElem hq, Option.map_some, hp.2]
  · intro q hq
    rw [mem_region, List.getElem?_map] at hq
    cases hs : S[q]? with
    | none => rw [hs] at hq; cases hq
    | some p => exact h q p hs

theorem card_positions (S : List (ℕ × ℕ)) (hnd : S.Nodup) (g : ℕ × ℕ → ℤ) (x : ℤ) :
    ((region (S.map g) x).card : ℚ) = (S.toFinset.filter (fun p => g p = x)).card := by
  have := sum_positions S hnd g x (fun _ => 1) (fun _ => 1) (fun _ _ _ => rfl)
  simpa using this

section
variable (edges : List ℝ) (heven : edges.length % 2 = 0) (hasc : edges.Pairwise (· ≤ ·)) (center : ℝ × ℝ) (shape : ℕ × ℕ)

/-- The label of a pixel as an integer. -/
noncomputable def ringLabel (p : ℕ × ℕ) : ℤ := (Roi.makeRoi edges (Roi.Spec.radius center p.1 p.2) : ℤ)

include heven hasc in
theorem ringLabel_iff (k : ℕ) (p : ℕ × ℕ) :
    ringLabel edges center p = (k : ℤ) + 1 ↔ Roi.Spec.inPair edges k (Roi.Spec.radius center p.1 p.2) := by
  have : _ ↔ Roi.Spec.inPair edges k _ := (Roi.makeRoi_labels edges ((Roi.edgesOk_iff edges).2 ⟨heven, hasc⟩) (Roi.Spec.radius center p.1 p.2)).1 k
  rw [← this]
  unfold ringLabel
  constructor
  · intro h; exact_mod_cast h
  · intro h; exact_mod_cast h

include heven hasc in
theorem ringPixels_filter (k : ℕ) :
    (Roi.pixels shape).toFinset.filter (fun p => ringLabel edges center p = (k : ℤ) + 1) = Roi.Spec.ringPixels edges center shape k := by
  classical
  ext p
  unfold Roi.Spec.ringPixels
  rw [mem_filter, mem_filter, List.mem_toFinset, Roi.mem_pixels, mem_product, mem_range, mem_range, ringLabel_iff edges heven hasc center]

include heven hasc in
theorem mem_labels (k : ℕ) :
    ((k : ℤ) + 1) ∈ (Roi.pixels shape).map (ringLabel edges center) ↔ Roi.Spec.ringPixels edges center shape k ≠ ∅ := by
  rw [← ringPixels_filter edges heven hasc center shape k, ← nonempty_iff_ne_empty]
  simp only [List.mem_map]
  constructor
  · rintro ⟨p, hp, h⟩; exact ⟨p, by rw [mem_filter, List.mem_toFinset]; exact ⟨hp, h⟩⟩
  · rintro ⟨p, hp⟩; rw [mem_filter, List.mem_toFinset] at hp; exact ⟨p, hp⟩

include heven hasc in
theorem column_ring (k : ℕ) :
    Spec.column ((Roi.pixels shape).map (ringLabel edges center)) ((k : ℤ) + 1) = Spec.ringsBefore edges center shape k := by
  classical
  unfold Spec.column Spec.ringsBefore
  symm
  apply card_bij (fun (j : ℕ) _ => (j : ℤ) + 1)
  · intro j hj
    rw [mem_filter, mem_range] at hj
    rw [mem_filter, List.mem_toFinset]
    exact ⟨(mem_labels edges heven hasc center shape j).2 hj.2, by omega, by omega⟩
  · intro a _ b _ h; omega
  · intro y hy
    rw [mem_filter, List.mem_toFinset] at hy
    refine ⟨(y - 1).toNat, ?_, by omega⟩
    rw [mem_filter, mem_range]
    refine ⟨by omega, (mem_labels edges heven hasc center shape _).1 ?_⟩
    have : (((y - 1).toNat : ℕ) : ℤ) + 1 = y := by omega
    rw [this]; exact hy.1

theorem inPair_lt (k : ℕ) (x : ℝ) (heven : edges.length % 2 = 0) (h : Roi.Spec.inPair edges k x) : k < edges.length / 2 := by
  obtain ⟨a, b, _, hb, _⟩ := h
  have := (List.getElem?_eq_some_iff.1 hb).1
  omega

include heven hasc in
theorem count_rings :
    (((Roi.pixels shape).map (ringLabel edges center)).toFinset.filter (0 < ·)).card = Spec.ringsBefore edges center shape (edges.length / 2) := by
  classical
  rw [← column_ring edges heven hasc center shape]
  unfold Spec.column
  congr 1
  ext y
  rw [mem_filter, mem_filter, List.mem_toFinset]
  refine ⟨fun h => ⟨h.1, h.2, ?_⟩, fun h => ⟨h.1, h.2.1⟩⟩
  obtain ⟨p, _, hp⟩ := List.mem_map.1 h.1
  have e : (((y - 1).toNat : ℕ) : ℤ) + 1 = y := by have := h.2; omega
  rw [← e] at hp
  have := inPair_lt edges _ _ heven ((ringLabel_iff edges heven hasc center _ p).1 hp)
  omega

/-- C223: rings followed by multi_tau_auto_corr, without NaN.  The table has one column for every ring that contains a pixel;
the column of ring k is the number of rings before it that contain a pixel; and its entry in the row of lag i·2^l is the normalised
correlation over exactly the pixels with inner_k ≤ radius < outer_k. -/
theorem C223_columns (n L : ℕ) (he : n % 2 = 0) (hn2 : 2 ≤ n) (hL : 1 ≤ L) (f : ℕ → ℕ → ℕ → ℚ) (T : ℕ) (hT : 1 ≤ T)
    (heven : edges.length % 2 = 0) (hasc : edges.Pairwise (· ≤ ·)) :
    ∃ lab res, Roi.rings edges center shape = .ok lab ∧
      multiTauAutoCorr L n (lab.flatten.map (fun (x : ℕ) => (x : ℤ)))
        ((List.range T).map (fun t => (Roi.pixels shape).map (fun p => some (f t p.1 p.2)))) = .ok res ∧
      ∀ t (ht : t < res.g2.length), ∃ l i, l < L ∧ i < n ∧ (l = 0 ∨ n / 2 ≤ i) ∧ t = l * n / 2 + i ∧ res.lags[t]? = some (i * 2 ^ l) ∧
        res.g2[t].length = Spec.ringsBefore edges center shape (edges.length / 2) ∧
        ∀ k < edges.length / 2, Roi.Spec.ringPixels edges center shape k ≠ ∅ →
          res.g2[t][Spec.ringsBefore edges center shape k]? = some (Spec.ringG2 edges center shape f T l i k) := by
  classical
  obtain ⟨lab, h1, h2⟩ := Roi.flatten_rings edges ⟨heven, hasc⟩ center shape
  have hlab : lab.flatten.map (fun (x : ℕ) => (x : ℤ)) = (Roi.pixels shape).map (ringLabel edges center) := by
    rw [h2, List.map_map]; rfl
  set S := Roi.pixels shape with hS
  set labels := S.map (ringLabel edges center) with hlabels
  set images : ℕ → List (Option ℚ) := fun t => S.map (fun p => some (f t p.1 p.2)) with himages
  obtain ⟨c, pixels, lags, hv⟩ := validate_exists n L he labels
  have hsz : ∀ t, labels.length ≤ (images t).length := by intro t; simp [himages, hlabels]
  obtain ⟨res, q1, g1⟩ := C46_one_call_uses_every_frame n L hn2 hL labels c pixels lags hv images hsz T hT
  refine ⟨lab, res, h1, by rw [hlab]; exact q1, ?_⟩
  intro t ht
  obtain ⟨l, i, hl, hi, hor, hte, hlen, hrow⟩ := g1 t ht
  have hcols := columns n L labels c pixels lags hv
  refine ⟨l, i, hl, hi, hor, hte, ?_, ?_, ?_⟩
  · have e := multiTau_eq n L hn2 hL labels c pixels lags hv images hsz T hT
    rw [e, Except.ok.injEq] at q1
    subst q1
    rw [hte]
    exact (C49_rows_match_lags n L hn2 hL labels c pixels lags hv _).2.2.2 l i hl hi hor (hte ▸ ht)
  · rw [hlen, hcols.1, hlabels, hS, count_rings edges heven hasc center shape]
  · intro k hk hne
    have hm : ((k : ℤ) + 1) ∈ labels := (mem_labels edges heven hasc center shape k).2 hne
    have hx : (0 : ℤ) < (k : ℤ) + 1 := by omega
    have hcol := column_ring edges heven hasc center shape k
    rw [← hS, ← hlabels] at hcol
    rw [← hcol, hrow _ (hcols.2.1 _ hm hx)]
    have hpairs : Spec.pairs (pixelHistory images pixels) pixels.length l i (T / 2 ^ l) = range (T / 2 ^ l - i) := by
      unfold Spec.pairs
      apply filter_true_of_mem
      have hgood : ∀ m, ¬ Spec.BlockBad (pixelHistory images pixels) pixels.length l m := by
        rintro m ⟨j, _, p, hp, e⟩
        rw [mem_range] at hp
        obtain ⟨x, hx, _⟩ := (hcols.2.2.2.2 pixels[p]).1 (List.getElem_mem hp)
        have hq := (List.getElem?_eq_some_iff.1 hx).1
        rw [hlabels, List.length_map] at hq
        simp [pixelHistory, List.getElem?_eq_getElem hp, himages, List.getElem?_eq_getElem hq] at e
      intro m _
      exact ⟨hgood _, hgood _⟩
    have hpm : ∀ q q' : ℕ → ℚ, (∀ m, q m = q' m) → Spec.pairMean (pixelHistory images pixels) pixels.length l i (T / 2 ^ l) q = Spec.meanOver (T / 2 ^ l - i) q' := by
      intro q q' hq
      unfold Spec.pairMean Spec.meanOver
      rw [hpairs, card_range, sum_congr rfl (fun m _ => hq m)]
      split
      · rename_i h; rw [h]; simp
      · rfl
    have hflat : ∀ l m q p, S[q]? = some p → Spec.blockAvg (flatAt images) l m q = Spec.pixelAvg f l m p := by
      intro l m q p hq
      unfold Spec.blockAvg Spec.pixelAvg flatAt
      simp [himages, hq]
    have hmean : ∀ m, Spec.roiMean pixels.length (fun p => (c.labels[p]?).getD 0) (Spec.column labels ((k : ℤ) + 1))
        (Spec.blockAvg (pixelHistory images pixels) l m) = Spec.ringMean edges center shape k (Spec.pixelAvg f l m) := by
      intro m
      rw [mean_region n L labels c pixels lags hv _ hx hm, card_positions S (Roi.pixels_nodup shape),
        sum_positions S (Roi.pixels_nodup shape) _ _ _ (Spec.pixelAvg f l m) (fun q p => hflat l m q p), hS,
        ringPixels_filter edges heven hasc center shape k]
      rfl
    have hprod : ∀ m, Spec.roiMean pixels.length (fun p => (c.labels[p]?).getD 0) (Spec.column labels ((k : ℤ) + 1))
        (fun p => Spec.blockAvg (pixelHistory images pixels) l m p * Spec.blockAvg (pixelHistory images pixels) l (m + i) p) =
        Spec.ringMean edges center shape k (fun p => Spec.pixelAvg f l m p * Spec.pixelAvg f l (m + i) p) := by
      intro m
      rw [prod_region n L labels c pixels lags hv _ hx hm, card_positions S (Roi.pixels_nodup shape),
        sum_positions S (Roi.pixels_nodup shape) _ _ _ (fun p => Spec.pixelAvg f l m p * Spec.pixelAvg f l (m + i) p)
          (fun q p h => by rw [hflat l m q p h, hflat l (m + i) q p h]), hS,
        ringPixels_filter edges heven hasc center shape k]
      rfl
    unfold Spec.past Spec.future Spec.G Spec.ringG2
    rw [hpm _ _ hmean, hpm _ _ (fun m => hmean (m + i)), hpm _ _ hprod]

theorem ringsBefore_le (k : ℕ) : Spec.ringsBefore edges center shape k ≤ k := by
  classical
  unfold Spec.ringsBefore
  calc _ ≤ (range k).card := card_filter_le _ _
    _ = k := card_range k

/-- The column of ring k is k exactly if no earlier ring is empty. -/
theorem ringsBefore_eq (k : ℕ) : Spec.ringsBefore edges center shape k = k ↔ ∀ j < k, Roi.Spec.ringPixels edges center shape j ≠ ∅ := by
  classical
  unfold Spec.ringsBefore
  constructor
  · intro h j hj
    have : (range k).filter (fun j => Roi.Spec.ringPixels edges center shape j ≠ ∅) = range k := by
      apply eq_of_subset_of_card_le (filter_subset _ _)
      rw [h, card_range]
    have hj' : j ∈ range k := mem_range.2 hj
    rw [← this, mem_filter] at hj'
    exact hj'.2
  · intro h
    rw [filter_true_of_mem (fun j hj => h j (mem_range.1 hj)), card_range]

/-- C223 when every ring contains a pixel: column k of the table belongs to ring k. -/
theorem C223_every_ring_partial (n L : ℕ) (he : n % 2 = 0) (hn2 : 2 ≤ n) (hL : 1 ≤ L) (f : ℕ → ℕ → ℕ → ℚ) (T : ℕ) (hT : 1 ≤ T)
    (heven : edges.length % 2 = 0) (hasc : edges.Pairwise (· ≤ ·))
    (hfull : ∀ k < edges.length / 2, Roi.Spec.ringPixels edges center shape k ≠ ∅) :
    ∃ lab res, Roi.rings edges center shape = .ok lab ∧
      multiTauAutoCorr L n (lab.flatten.map (fun (x : ℕ) => (x : ℤ)))
        ((List.range T).map (fun t => (Roi.pixels shape).map (fun p => some (f t p.1 p.2)))) = .ok res ∧
      ∀ t (ht : t < res.g2.length), ∃ l i, l < L ∧ i < n ∧ (l = 0 ∨ n / 2 ≤ i) ∧ t = l * n / 2 + i ∧ res.lags[t]? = some (i * 2 ^ l) ∧
        res.g2[t] = (List.range (edges.length / 2)).map (fun k => Spec.ringG2 edges center shape f T l i k) := by
  obtain ⟨lab, res, h1, h2, h3⟩ := C223_columns edges center shape n L he hn2 hL f T hT heven hasc
  refine ⟨lab, res, h1, h2, ?_⟩
  intro t ht
  obtain ⟨l, i, a1, a2, a3, a4, a5, a6, a7⟩ := h3 t ht
  refine ⟨l, i, a1, a2, a3, a4, a5, ?_⟩
  rw [(ringsBefore_eq edges center shape _).2 hfull] at a6
  apply List.ext_getElem?
  intro k
  by_cases hk : k < edges.length / 2
  · have := a7 k hk (hfull k hk)
    rw [(ringsBefore_eq edges center shape k).2 (fun j hj => hfull j (by omega))] at this
    rw [this, List.getElem?_map, List.getElem?_range hk]
    rfl
  · rw [List.getElem?_eq_none (by omega), List.getElem?_eq_none (by simp; omega)]

/-- C223 is false as soon as a ring contains no pixel: the table has fewer columns than there are rings, and every later ring
that contains a pixel is found in a column to the left of its own. -/
theorem C223_empty_ring_refuted (n L : ℕ) (he : n % 2 = 0) (hn2 : 2 ≤ n) (hL : 1 ≤ L) (f : ℕ → ℕ → ℕ → ℚ) (T : ℕ) (hT : 1 ≤ T)
    (heven : edges.length % 2 = 0) (hasc : edges.Pairwise (· ≤ ·))
    (j : ℕ) (hj : j < edges.length / 2) (hempty : Roi.Spec.ringPixels edges center shape j = ∅) :
    ∃ lab res, Roi.rings edges center shape = .ok lab ∧
      multiTauAutoCorr L n (lab.flatten.map (fun (x : ℕ) => (x : ℤ)))
        ((List.range T).map (fun t => (Roi.pixels shape).map (fun p => some (f t p.1 p.2)))) = .ok res ∧
      ∀ t (ht : t < res.g2.length), res.g2[t].length < edges.length / 2 ∧
        ∀ k < edges.length / 2, j < k → Roi.Spec.ringPixels edges center shape k ≠ ∅ →
          ∃ l i col, res.lags[t]? = some (i * 2 ^ l) ∧ col < k ∧ res.g2[t][col]? = some (Spec.ringG2 edges center shape f T l i k) := by
  obtain ⟨lab, res, h1, h2, h3⟩ := C223_columns edges center shape n L he hn2 hL f T hT heven hasc
  have hlt : ∀ k, j < k → Spec.ringsBefore edges center shape k < k := by
    intro k hk
    refine lt_of_le_of_ne (ringsBefore_le edges center shape k) (fun e => ?_)
    exact (ringsBefore_eq edges center shape k).1 e j hk hempty
  refine ⟨lab, res, h1, h2, ?_⟩
  intro t ht
  obtain ⟨l, i, a1, a2, a3, a4, a5, a6, a7⟩ := h3 t ht
  refine ⟨by rw [a6]; exact hlt _ hj, ?_⟩
  intro k hk hjk hne
  exact ⟨l, i, _, a5, hlt k hjk, a7 k hk hne⟩

end

/-! Instances: on a row of three pixels with radii 0, 1, 2, the ring 1/4 ≤ r < 1/2 is empty, the ring 1 ≤ r < 2 is not; and the
corresponding table of a call on the labels 0, 2, 0 has one column, which is that of the second ring. -/

example : Roi.Spec.ringPixels [1 / 4, 1 / 2, 1, 2] (0, 0) (1, 3) 0 = ∅ ∧ Roi.Spec.ringPixels [1 / 4, 1 / 2, 1, 2] (0, 0) (1, 3) 1 ≠ ∅ := by
  classical
  constructor
  · unfold Roi.Spec.ringPixels
    rw [filter_eq_empty_iff]
    rintro ⟨r, c⟩ hp ⟨a, b, ha, hb, h1, h2⟩
    simp only [mem_product, mem_range] at hp
    have hr : r = 0 := by omega
    subst hr
    simp only [List.getElem?_cons_zero, List.getElem?_cons_succ, Option.some.injEq, Nat.mul_zero, Nat.zero_add] at ha hb
    subst ha hb
    simp only [Roi.Spec.radius, sub_zero, Nat.cast_zero, ne_eq, OfNat.ofNat_ne_zero, not_false_eq_true, zero_pow, add_zero] at h1 h2
    rw [Real.sqrt_sq (Nat.cast_nonneg c)] at h1 h2
    have h3 : c = 0 := by
      by_contra h0
      have : (1 : ℝ) ≤ c := by exact_mod_cast Nat.one_le_iff_ne_zero.2 h0
      linarith
    subst h3
    norm_num at h1
  · rw [← nonempty_iff_ne_empty]
    refine ⟨(0, 1), ?_⟩
    unfold Roi.Spec.ringPixels
    rw [mem_filter, mem_product, mem_range, mem_range]
    refine ⟨⟨by norm_num, by norm_num⟩, 1, 2, rfl, rfl, ?_, ?_⟩ <;> simp [Roi.Spec.radius]

example : (multiTauAutoCorr 1 2 [0, 2, 0] [[some 5, some 1, some 3], [some 7, some 2, some 1]]).map (fun r => r.g2) =
    .ok [[some (10 / 9)], [some 1]] := by decide +kernel

end Verif.Corr
