/- Properties C54, C86, C87: cross-correlation. -/
import Verif.Cross.Lemmas

namespace Verif.Cross
open Verif Finset

/-- The pixels with a given id. -/
def Spec.pixels (H W : ℕ) (mask : ℕ → ℕ → ℤ) (id : ℤ) : Finset (ℕ × ℕ) :=
  (range H ×ˢ range W).filter (fun p => mask p.1 p.2 = id)

theorem region_toFinset (H W : ℕ) (mask : ℕ → ℕ → ℤ) (id : ℤ) :
    (region H W mask id).toFinset = Spec.pixels H W mask id := by
  ext p
  simp [region, Spec.pixels, mem_positions]

theorem mem_ids (H W : ℕ) (mask : ℕ → ℕ → ℤ) (id : ℤ) :
    id ∈ ids H W mask ↔ id ≠ 0 ∧ ∃ p q, p < H ∧ q < W ∧ mask p q = id := by
  unfold ids
  rw [Corr.mem_unique]
  simp only [List.mem_filter, List.mem_map, mem_positions, decide_eq_true_eq]
  constructor
  · rintro ⟨⟨⟨p, q⟩, ⟨h1, h2⟩, h3⟩, h4⟩; exact ⟨h4, p, q, h1, h2, h3⟩
  · rintro ⟨h4, p, q, h1, h2, h3⟩; exact ⟨⟨⟨p, q⟩, ⟨h1, h2⟩, h3⟩, h4⟩

theorem axisPos_eq (d m : ℕ) : axisPos (1 + d) m = (m : ℤ) - d := by
  unfold axisPos
  have : (2 * (1 + d) - 1) / 2 = d := by omega
  rw [this]

/-- C54: one correlation image per non-zero id, in increasing id order; without normalisation, the entry whose axis
positions are (s, t) is the sum of img1(p)·img2(p') over all pairs of pixels of that region with p - p' = (s, t) - the
cropping to the bounding box and the zero filling change nothing. -/
theorem C54_displacement_sums (H W : ℕ) (mask : ℕ → ℕ → ℤ) (a b : Img) :
    (ids H W mask).Pairwise (· < ·) ∧
    (∀ id, id ∈ ids H W mask ↔ id ≠ 0 ∧ ∃ p q, p < H ∧ q < W ∧ mask p q = id) ∧
    (correlate ⟨false, false⟩ H W mask a b).length = (ids H W mask).length ∧
    ∀ (i : ℕ) (id : ℤ), (ids H W mask)[i]? = some id → ∃ c, (correlate ⟨false, false⟩ H W mask a b)[i]? = some c ∧
      let B := boxOf (region H W mask id)
      ∀ m1 m2, c m1 m2 = some (Spec.pairSum (Spec.pixels H W mask id) a b (axisPos B.h m1) (axisPos B.w m2)) := by
  refine ⟨Corr.sorted_unique _, mem_ids H W mask, by simp [correlate], ?_⟩
  intro i id hi
  refine ⟨correlateRegion ⟨false, false⟩ (region H W mask id) a b, by simp [correlate, hi], ?_⟩
  intro B m1 m2
  simp only [correlateRegion, Bool.false_eq_true, if_false]
  rw [crossCorr_sub, region_toFinset]
  show _ = some (Spec.pairSum _ _ _ (axisPos (1 + (B.r1 - B.r0)) m1) (axisPos (1 + (B.c1 - B.c0)) m2))
  rw [axisPos_eq, axisPos_eq]

/-- C54: the result array reaches every displacement that occurs between two pixels of the region, and its centre
(position `shape // 2`) is displacement zero. -/
theorem C54_all_displacements_present (S : List (ℕ × ℕ)) (p p' : ℕ × ℕ) (hp : p ∈ S) (hp' : p' ∈ S) :
    (∃ m1 m2, m1 < 2 * (boxOf S).h - 1 ∧ m2 < 2 * (boxOf S).w - 1 ∧
      axisPos (boxOf S).h m1 = (p.1 : ℤ) - p'.1 ∧ axisPos (boxOf S).w m2 = (p.2 : ℤ) - p'.2) ∧
    axisPos (boxOf S).h ((2 * (boxOf S).h - 1) / 2) = 0 := by
  have b1 := box_bounds S p hp
  have b2 := box_bounds S p' hp'
  set B := boxOf S
  have hh : B.h = 1 + (B.r1 - B.r0) := rfl
  have hw : B.w = 1 + (B.c1 - B.c0) := rfl
  refine ⟨⟨p.1 + (B.r1 - B.r0) - p'.1, p.2 + (B.c1 - B.c0) - p'.2, by omega, by omega, ?_, ?_⟩, ?_⟩
  · rw [hh, axisPos_eq]; omega
  · rw [hw, axisPos_eq]; omega
  · unfold axisPos; omega

/-- Exchanging the two images inverts the displacement. -/
theorem pairSum_swap (S : Finset (ℕ × ℕ)) (a b : Img) (s t : ℤ) :
    Spec.pairSum S a b s t = Spec.pairSum S b a (-s) (-t) := by
  unfold Spec.pairSum Spec.pairs
  refine sum_nbij' Prod.swap Prod.swap ?_ ?_ ?_ ?_ ?_
  · rintro ⟨p, q⟩ h
    simp only [mem_filter, mem_product, Prod.swap] at h ⊢
    exact ⟨⟨h.1.2, h.1.1⟩, by omega, by omega⟩
  · rintro ⟨p, q⟩ h
    simp only [mem_filter, mem_product, Prod.swap] at h ⊢
    exact ⟨⟨h.1.2, h.1.1⟩, by omega, by omega⟩
  · rintro ⟨p, q⟩ _; rfl
  · rintro ⟨p, q⟩ _; rfl
  · rintro ⟨p, q⟩ _; simp [mul_comm]

/-- C54: the mask's own correlation is the number of pixel pairs at the displacement, NaN where there is none. -/
theorem C54_mask_counts_pairs (S : List (ℕ × ℕ)) (m1 m2 : ℕ) :
    maskcorr S m1 m2 =
      let n := (Spec.pairs S.toFinset (axisPos (boxOf S).h m1) (axisPos (boxOf S).w m2)).card
      if n = 0 then none else some (n : ℚ) := by
  have e : crossCorr (boxOf S).h (boxOf S).w (sub S (fun _ _ => 1)) (sub S (fun _ _ => 1)) m1 m2 =
      ((Spec.pairs S.toFinset (axisPos (boxOf S).h m1) (axisPos (boxOf S).w m2)).card : ℚ) := by
    rw [crossCorr_sub]
    show _ = ((Spec.pairs _ (axisPos (1 + ((boxOf S).r1 - (boxOf S).r0)) m1)
      (axisPos (1 + ((boxOf S).c1 - (boxOf S).c0)) m2)).card : ℚ)
    rw [axisPos_eq, axisPos_eq]
    unfold Spec.pairSum
    simp
  unfold maskcorr
  simp only [e]
  set n := (Spec.pairs S.toFinset (axisPos (boxOf S).h m1) (axisPos (boxOf S).w m2)).card
  by_cases h0 : n = 0
  · simp [h0]
  · have : (1 : ℚ) ≤ n := by exact_mod_cast Nat.pos_of_ne_zero h0
    rw [if_pos (by linarith : (n : ℚ) > 1 / 2), if_neg (by positivity), if_neg h0]

theorem crossCorr_eq (S : List (ℕ × ℕ)) (x y : Img) (m1 m2 : ℕ) :
    crossCorr (boxOf S).h (boxOf S).w (sub S x) (sub S y) m1 m2 =
      Spec.pairSum S.toFinset x y (axisPos (boxOf S).h m1) (axisPos (boxOf S).w m2) := by
  rw [crossCorr_sub]
  show _ = Spec.pairSum _ _ _ (axisPos (1 + ((boxOf S).r1 - (boxOf S).r0)) m1)
      (axisPos (1 + ((boxOf S).c1 - (boxOf S).c0)) m2)
  rw [axisPos_eq, axisPos_eq]

theorem sub_mul_one (S : List (ℕ × ℕ)) (a : Img) : (fun i j => sub S a i j * sub S (fun _ _ => 1) i j) = sub S a := by
  funext i j; unfold sub; split <;> simp

theorem odiv_comm (x y z : Option ℚ) : odiv (odiv x y) z = odiv (odiv x z) y := by
  rcases x with _ | x <;> rcases y with _ | y <;> rcases z with _ | z <;> simp only [odiv]
  · split_ifs <;> rfl
  · split_ifs <;> rfl
  · by_cases hy : y = 0 <;> by_cases hz : z = 0 <;> simp [hy, hz, div_right_comm]

/-- C54, inversion: exchanging the images inverts the displacement, for every normalisation, every mask and every
region; in particular (`b = a`) an autocorrelation is symmetric under inversion. -/
theorem C54_inversion (nrm : Norm) (H W : ℕ) (mask : ℕ → ℕ → ℤ) (a b : Img) (i : ℕ) (id : ℤ)
    (hi : (ids H W mask)[i]? = some id) :
    ∃ c c', (correlate nrm H W mask a b)[i]? = some c ∧ (correlate nrm H W mask b a)[i]? = some c' ∧
      ∀ m1 m2 m1' m2' : ℕ,
        axisPos (boxOf (region H W mask id)).h m1' = -axisPos (boxOf (region H W mask id)).h m1 →
        axisPos (boxOf (region H W mask id)).w m2' = -axisPos (boxOf (region H W mask id)).w m2 →
        c m1 m2 = c' m1' m2' := by
  refine ⟨correlateRegion nrm (region H W mask id) a b, correlateRegion nrm (region H W mask id) b a,
    by simp [correlate, hi], by simp [correlate, hi], ?_⟩
  intro m1 m2 m1' m2' h1 h2
  set S := region H W mask id
  have hc : ∀ x y : Img, crossCorr (boxOf S).h (boxOf S).w (sub S x) (sub S y) m1 m2 =
      crossCorr (boxOf S).h (boxOf S).w (sub S y) (sub S x) m1' m2' := by
    intro x y
    rw [crossCorr_eq, crossCorr_eq, pairSum_swap, h1, h2]
  have hm : maskcorr S m1 m2 = maskcorr S m1' m2' := by
    unfold maskcorr
    rw [hc]
  have hav : (fun m => m * average S a * average S b) = (fun m => m * average S b * average S a) := by
    funext m; ring
  unfold correlateRegion
  simp only [sub_mul_one, hm, hc a b, hc a (fun _ _ => 1), hc (fun _ _ => 1) b, hav]
  rw [odiv_comm]

/-- Non-vacuity / sanity: a 2×2 image with one background pixel. -/
example : ((correlate ⟨false, false⟩ 2 2 (fun i j => if i = 1 ∧ j = 1 then 0 else 3) (fun i j => i + 2 * j + 1)
    (fun _ _ => 1)).map (fun c => (List.range 3).map (fun i => (List.range 3).map (fun j => c i j)))) =
    [[[some 0, some 1, some 3], [some 1, some 6, some 3], [some 2, some 2, some 0]]] := by decide +kernel

/-! ## C86 -/

theorem single_pixels (S : Finset (ℕ × ℕ)) (x y : ℕ × ℕ) (hx : x ∈ S) (hy : y ∈ S) (s t : ℤ) :
    Spec.pairSum S (fun i j => if (i, j) = x then 1 else 0) (fun i j => if (i, j) = y then 1 else 0) s t =
      if s = (x.1 : ℤ) - y.1 ∧ t = (x.2 : ℤ) - y.2 then 1 else 0 := by
  unfold Spec.pairSum
  split
  · next h =>
    rw [sum_eq_single (x, y)]
    · simp
    · rintro ⟨p, q⟩ _ hne
      by_cases h1 : p = x
      · by_cases h2 : q = y
        · exact absurd (by rw [h1, h2]) hne
        · simp [h2]
      · simp [h1]
    · intro hn
      exact absurd (by simp only [Spec.pairs, mem_filter, mem_product]; exact ⟨⟨hx, hy⟩, h.1.symm, h.2.symm⟩) hn
  · next h =>
    apply sum_eq_zero
    rintro ⟨p, q⟩ hpq
    simp only [Spec.pairs, mem_filter, mem_product] at hpq
    by_cases h1 : p = x
    · by_cases h2 : q = y
      · exact absurd (by subst h1 h2; exact ⟨hpq.2.1.symm, hpq.2.2.symm⟩) h
      · simp [h2]
    · simp [h1]

/-- What the code does, for every mask: the correlation of two single-pixel images whose pixels lie in the same region
is 1 at the one entry whose displacement is (position in img1) minus (position in img2), and 0 elsewhere. -/
theorem C86_peak_position_partial (H W : ℕ) (mask : ℕ → ℕ → ℤ) (i : ℕ) (id : ℤ) (hi : (ids H W mask)[i]? = some id)
    (x y : ℕ × ℕ) (hx : x ∈ Spec.pixels H W mask id) (hy : y ∈ Spec.pixels H W mask id) :
    ∃ c, (correlate ⟨false, false⟩ H W mask (fun i j => if (i, j) = x then 1 else 0)
        (fun i j => if (i, j) = y then 1 else 0))[i]? = some c ∧
      ∀ m1 m2, c m1 m2 = some (if axisPos (boxOf (region H W mask id)).h m1 = (x.1 : ℤ) - y.1 ∧
        axisPos (boxOf (region H W mask id)).w m2 = (x.2 : ℤ) - y.2 then 1 else 0) := by
  obtain ⟨c, hc, h⟩ := (C54_displacement_sums H W mask (fun i j => if (i, j) = x then 1 else 0)
    (fun i j => if (i, j) = y then 1 else 0)).2.2.2 i id hi
  refine ⟨c, hc, fun m1 m2 => ?_⟩
  rw [h m1 m2, single_pixels _ x y hx hy]

/-- C86 is false for every mask and every pair of single-pixel features of one region: whenever the feature of img2
lies to the right of the feature of img1, the result has a non-zero entry, and every non-zero entry lies to the *left*
of the centre column `shape // 2`. -/
theorem C86_shift_direction_refuted (H W : ℕ) (mask : ℕ → ℕ → ℤ) (i : ℕ) (id : ℤ) (hi : (ids H W mask)[i]? = some id)
    (x y : ℕ × ℕ) (hx : x ∈ Spec.pixels H W mask id) (hy : y ∈ Spec.pixels H W mask id) (hright : x.2 < y.2) :
    ∃ c, (correlate ⟨false, false⟩ H W mask (fun i j => if (i, j) = x then 1 else 0)
        (fun i j => if (i, j) = y then 1 else 0))[i]? = some c ∧
      (∃ m1 m2, m1 < 2 * (boxOf (region H W mask id)).h - 1 ∧ m2 < 2 * (boxOf (region H W mask id)).w - 1 ∧
        c m1 m2 = some 1) ∧
      ∀ m1 m2, c m1 m2 ≠ some 0 → m2 < (2 * (boxOf (region H W mask id)).w - 1) / 2 := by
  obtain ⟨c, hc, h⟩ := C86_peak_position_partial H W mask i id hi x y hx hy
  refine ⟨c, hc, ?_, ?_⟩
  · have hx' : x ∈ region H W mask id := by rw [← List.mem_toFinset, region_toFinset]; exact hx
    have hy' : y ∈ region H W mask id := by rw [← List.mem_toFinset, region_toFinset]; exact hy
    obtain ⟨⟨m1, m2, b1, b2, e1, e2⟩, _⟩ := C54_all_displacements_present (region H W mask id) x y hx' hy'
    exact ⟨m1, m2, b1, b2, by rw [h m1 m2, if_pos ⟨e1, e2⟩]⟩
  · intro m1 m2 hne
    rw [h m1 m2] at hne
    split at hne
    · next h' =>
      have := h'.2
      unfold axisPos at this
      omega
    · exact absurd rfl hne

/-- The same on the array level: a curve with a peak at 1 against the curve shifted right by one; entry 2 of 7 (left of
the centre, entry 3) holds the peak. -/
theorem C86_shift_direction_witness :
    (correlate ⟨false, false⟩ 1 4 (fun _ _ => 1) (fun _ j => if j = 1 then 1 else 0) (fun _ j => if j = 2 then 1 else 0)).map
      (fun c => (List.range 7).map (fun j => c 0 j)) =
    [[some 0, some 0, some 1, some 0, some 0, some 0, some 0]] := by decide +kernel

/-! ## C87 -/

theorem average_const (S : List (ℕ × ℕ)) (hS : S ≠ []) (a : Img) (k : ℚ) (ha : ∀ p ∈ S, a p.1 p.2 = k) : average S a = k := by
  unfold average
  rw [List.map_congr_left ha, List.map_const', List.sum_replicate, nsmul_eq_mul]
  have : (S.length : ℚ) ≠ 0 := by simpa using hS
  field_simp

/-- C87: for images that are constant on the region (non-zero), the normalised correlation - 'regular', 'symavg' - is
exactly 1 at every displacement at which the region overlaps itself, and NaN elsewhere, whatever the mask's shape. -/
theorem C87_constant_images (S : List (ℕ × ℕ)) (hS : S ≠ []) (a b : Img) (k k' : ℚ) (hk : k ≠ 0) (hk' : k' ≠ 0)
    (ha : ∀ p ∈ S, a p.1 p.2 = k) (hb : ∀ p ∈ S, b p.1 p.2 = k') (nrm : Norm) (hn : nrm = ⟨true, false⟩ ∨ nrm = ⟨false, true⟩)
    (m1 m2 : ℕ) :
    correlateRegion nrm S a b m1 m2 =
      if Spec.pairs S.toFinset (axisPos (boxOf S).h m1) (axisPos (boxOf S).w m2) = ∅ then none else some 1 := by
  have hm := C54_mask_counts_pairs S m1 m2
  have hcc : ∀ (x y : Img) (u v : ℚ), (∀ p ∈ S, x p.1 p.2 = u) → (∀ p ∈ S, y p.1 p.2 = v) →
      crossCorr (boxOf S).h (boxOf S).w (sub S x) (sub S y) m1 m2 =
      (Spec.pairs S.toFinset (axisPos (boxOf S).h m1) (axisPos (boxOf S).w m2)).card * (u * v) := by
    intro x y u v hx hy
    rw [crossCorr_sub]
    show _ = ((Spec.pairs _ (axisPos (1 + ((boxOf S).r1 - (boxOf S).r0)) m1)
      (axisPos (1 + ((boxOf S).c1 - (boxOf S).c0)) m2)).card : ℚ) * _
    rw [axisPos_eq, axisPos_eq]
    unfold Spec.pairSum
    rw [sum_congr rfl (g := fun _ => u * v), sum_const, nsmul_eq_mul]
    rintro ⟨p, q⟩ hpq
    simp only [Spec.pairs, mem_filter, mem_product, List.mem_toFinset] at hpq
    rw [hx p hpq.1.1, hy q hpq.1.2]
  unfold correlateRegion
  simp only [sub_mul_one, hm]
  rw [hcc a b k k' ha hb, hcc a (fun _ _ => 1) k 1 ha (fun _ _ => rfl)]
  have hone : (fun i j => sub S b i j * sub S (fun _ _ => 1) i j) = sub S b := sub_mul_one S b
  rw [hcc (fun _ _ => 1) b 1 k' (fun _ _ => rfl) hb, average_const S hS a k ha, average_const S hS b k' hb]
  set n := Spec.pairs S.toFinset (axisPos (boxOf S).h m1) (axisPos (boxOf S).w m2)
  by_cases h0 : n = ∅
  · rcases hn with rfl | rfl <;> simp [h0, odiv]
  · have h1 : n.card ≠ 0 := fun h => h0 (card_eq_zero.1 h)
    have h2 : (n.card : ℚ) ≠ 0 := by exact_mod_cast h1
    rcases hn with rfl | rfl
    · simp only [h1, if_false, h0, odiv, if_true, Bool.false_eq_true]
      rw [if_neg (by simp [h0, hk])]
      simp only []
      rw [if_neg (by simp [h0, hk'])]
      simp only [Option.map₂_some_some, Option.some.injEq]
      field_simp
    · simp only [h1, if_false, h0, odiv, if_true, Bool.false_eq_true, Option.map_some]
      rw [if_neg (by simp [h0, hk, hk'])]
      simp only [Option.some.injEq]
      field_simp

example : (correlate ⟨false, true⟩ 2 2 (fun i j => if i = 1 ∧ j = 1 then 0 else 1) (fun _ _ => 7) (fun _ _ => 7)).map
    (fun c => (List.range 3).map (fun i => (List.range 3).map (fun j => c i j))) =
    [[[none, some 1, some 1], [some 1, some 1, some 1], [some 1, some 1, none]]] := by decide +kernel

end Verif.Cross
