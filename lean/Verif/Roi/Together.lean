/- Property C212: the region-of-interest tools fit together. -/
import Verif.Roi.Props
import Verif.Roi.StatProps
import Mathlib.Data.Finset.Prod
import Mathlib.Algebra.BigOperators.Intervals

namespace Verif.Roi
open Verif Finset

/-! ## ring_edges, then rings -/

/-- The list of rows as `rings` wants its edges: inner, outer, inner, outer, ... -/
noncomputable def Spec.flat (E : List (ℚ × ℚ)) : List ℝ := E.flatMap (fun e => [(e.1 : ℝ), (e.2 : ℝ)])

theorem flat_get (E : List (ℚ × ℚ)) : ∀ k : ℕ, (Spec.flat E)[2 * k]? = E[k]?.map (fun e => (e.1 : ℝ)) ∧
    (Spec.flat E)[2 * k + 1]? = E[k]?.map (fun e => (e.2 : ℝ)) := by
  induction E with
  | nil => intro k; simp [Spec.flat]
  | cons e t ih =>
    intro k
    cases k with
    | zero => simp [Spec.flat]
    | succ k =>
      have := ih k
      unfold Spec.flat at this ⊢
      rw [List.flatMap_cons]
      constructor
      · rw [show 2 * (k + 1) = 2 * k + 2 by ring]
        simpa using this.1
      · rw [show 2 * (k + 1) + 1 = (2 * k + 1) + 2 by ring]
        simpa using this.2

theorem flat_length (E : List (ℚ × ℚ)) : (Spec.flat E).length = 2 * E.length := by
  induction E with
  | nil => rfl
  | cons e t ih => unfold Spec.flat at ih ⊢; rw [List.flatMap_cons, List.length_append, ih]; simp; ring

/-- Rings in ascending order. -/
theorem flat_ok (E : List (ℚ × ℚ)) (h1 : ∀ (k : ℕ) (e : ℚ × ℚ), E[k]? = some e → e.1 ≤ e.2)
    (h2 : ∀ (k : ℕ) (e e' : ℚ × ℚ), E[k]? = some e → E[k + 1]? = some e' → e.2 ≤ e'.1) : (Spec.flat E).IsChain (· ≤ ·) := by
  rw [List.isChain_iff_getElem]
  intro i hi
  have hl := flat_length E
  obtain ⟨k, rfl | rfl⟩ : ∃ k, i = 2 * k ∨ i = 2 * k + 1 := ⟨i / 2, by omega⟩
  · have hk : k < E.length := by omega
    have a := (flat_get E k).1
    have b := (flat_get E k).2
    rw [List.getElem?_eq_getElem (by omega), List.getElem?_eq_getElem hk] at a b
    simp only [Option.map_some, Option.some.injEq] at a b
    rw [a, b]
    exact_mod_cast h1 k _ (List.getElem?_eq_getElem hk)
  · have hk : k < E.length := by omega
    have hk' : k + 1 < E.length := by omega
    have a := (flat_get E k).2
    have b := (flat_get E (k + 1)).1
    rw [List.getElem?_eq_getElem (by omega), List.getElem?_eq_getElem hk] at a
    rw [List.getElem?_eq_getElem (by omega), List.getElem?_eq_getElem hk'] at b
    simp only [Option.map_some, Option.some.injEq] at a b
    have e : (Spec.flat E)[2 * k + 1 + 1]'hi = (Spec.flat E)[2 * (k + 1)]'(by omega) := by congr 1
    rw [a, e, b]
    exact_mod_cast h2 k _ _ (List.getElem?_eq_getElem hk) (List.getElem?_eq_getElem hk')

/-- Whatever ring_edges returns for widths and spacings that are not negative is accepted by rings, and pixel (r, c) gets
label k+1 iff its radius is in the k-th row of the table. -/
theorem C212_ring_edges (inner : ℚ) (width spacing : Arg) (num : Option ℤ) (E : List (ℚ × ℚ))
    (h : ringEdges inner width spacing num = .ok E) (hw : ∀ k w, Spec.nth width k = some w → 0 ≤ w)
    (hs : ∀ k s, Spec.nth spacing k = some s → 0 ≤ s) (center : ℝ × ℝ) (shape : ℕ × ℕ) :
    ∃ img, rings (Spec.flat E) center shape = .ok img ∧ ∀ r c, r < shape.1 → c < shape.2 → ∃ lab, Geom.Spec.at img r c = some lab ∧
      (∀ k, lab = k + 1 ↔ ∃ e, E[k]? = some e ∧ e.1 ≤ Spec.radius center r c ∧ Spec.radius center r c < e.2) := by
  obtain ⟨-, -, -, -, w1, s1, -⟩ := C29_result_partial inner width spacing num E h
  have hc : (Spec.flat E).IsChain (· ≤ ·) := by
    apply flat_ok
    · intro k e he
      obtain ⟨hk, -⟩ := List.getElem?_eq_some_iff.1 he
      obtain ⟨e', w, he', hw', hd⟩ := w1 k hk
      rw [he] at he'; cases he'
      have := hw k w hw'
      linarith
    · intro k e e' he he'
      obtain ⟨hk, -⟩ := List.getElem?_eq_some_iff.1 he'
      obtain ⟨f, f', s, hf, hf', hs', hd⟩ := s1 k hk
      rw [he] at hf; cases hf
      rw [he'] at hf'; cases hf'
      have := hs k s hs'
      linarith
  obtain ⟨img, h1, -, h2⟩ := (C28_rings (Spec.flat E) center shape).2 ⟨by rw [flat_length]; omega, hc.pairwise⟩
  refine ⟨img, h1, fun r c hr hcc => ?_⟩
  obtain ⟨lab, hat, hl⟩ := h2 r c hr hcc
  refine ⟨lab, hat, fun k => ?_⟩
  rw [hl.1 k]
  show Spec.inPair _ _ _ ↔ _
  unfold Spec.inPair
  rw [(flat_get E k).1, (flat_get E k).2]
  constructor
  · rintro ⟨a, b, ha, hb, hab⟩
    cases he : E[k]? with
    | none => rw [he] at ha; simp at ha
    | some e =>
      rw [he] at ha hb
      simp only [Option.map_some, Option.some.injEq] at ha hb
      subst ha; subst hb
      exact ⟨e, rfl, hab⟩
  · rintro ⟨e, he, hab⟩
    rw [he]
    exact ⟨_, _, rfl, rfl, hab⟩

/-- Equal rings: n rings of width w, a distance s apart, the first one starting at `inner`.  Ring k is the pixels with
inner + k (w + s) ≤ radius < inner + k (w + s) + w. -/
theorem C212_equal_rings (inner w s : ℚ) (hw : 0 ≤ w) (hs : 0 ≤ s) (n : ℕ) (hn : 1 ≤ n) (center : ℝ × ℝ) (shape : ℕ × ℕ) :
    ∃ E img, ringEdges inner (.scalar w) (.scalar s) (some n) = .ok E ∧ rings (Spec.flat E) center shape = .ok img ∧
      ∀ r c, r < shape.1 → c < shape.2 → ∃ lab, Geom.Spec.at img r c = some lab ∧ lab ≤ n ∧
        (∀ k < n, lab = k + 1 ↔ ((inner + k * (w + s) : ℚ) : ℝ) ≤ Spec.radius center r c ∧ Spec.radius center r c < ((inner + k * (w + s) + w : ℚ) : ℝ)) := by
  obtain ⟨E, hE⟩ := (C29_accepted_partial inner).1 w s n (by exact_mod_cast hn)
  obtain ⟨img, h1, h2⟩ := C212_ring_edges inner (.scalar w) (.scalar s) (some n) E hE (by simp [Spec.nth]; exact hw) (by simp [Spec.nth]; exact hs) center shape
  obtain ⟨len, -, -, -, w1, s1, z1⟩ := C29_result_partial inner _ _ _ E hE
  have hlen : E.length = n := by exact_mod_cast len n rfl
  have hval : ∀ k, k < n → E[k]? = some (inner + k * (w + s), inner + k * (w + s) + w) := by
    intro k
    induction k with
    | zero =>
      intro hk
      obtain ⟨e, he, hi⟩ := z1 (by simp)
      obtain ⟨e', w', he', hw', hd⟩ := w1 0 (by omega)
      rw [he] at he'; cases he'
      simp only [Spec.nth, Option.some.injEq] at hw'
      subst hw'
      rw [he]
      congr 1
      ext <;> simp <;> linarith
    | succ k ih =>
      intro hk
      obtain ⟨f, f', s', hf, hf', hs', hd⟩ := s1 k (by omega)
      rw [ih (by omega)] at hf; cases hf
      obtain ⟨e', w', he', hw', hd'⟩ := w1 (k + 1) (by omega)
      rw [hf'] at he'; cases he'
      simp only [Spec.nth, Option.some.injEq] at hw' hs'
      subst hw'; subst hs'
      rw [hf']
      congr 1
      ext
      · push_cast; linarith
      · push_cast; linarith
  refine ⟨E, img, hE, h1, fun r c hr hc => ?_⟩
  obtain ⟨lab, hat, hl⟩ := h2 r c hr hc
  refine ⟨lab, hat, ?_, fun k hk => ?_⟩
  · by_contra hgt
    obtain ⟨e, he, -⟩ := (hl (lab - 1)).1 (by omega)
    obtain ⟨hk, -⟩ := List.getElem?_eq_some_iff.1 he
    omega
  · rw [hl k, hval k hk]
    simp

/-! ## segmented_rings against rings -/

/-- Cutting the rings into N segments refines them: the segments of ring i carry the labels N i + 1 .. N (i + 1) (i from 0),
so the ring's own label is the segment's label divided by N, rounded up; background stays background. -/
theorem C212_segments_of_rings (edges : List ℝ) (heven : edges.length % 2 = 0) (hasc : edges.Pairwise (· ≤ ·)) (N : ℕ) (hN : 1 ≤ N)
    (center : ℝ × ℝ) (shape : ℕ × ℕ) :
    ∃ ring seg, rings edges center shape = .ok ring ∧ segmentedRings edges (.inl N) center shape 0 = .ok seg ∧
      ∀ r c, r < shape.1 → c < shape.2 → ∃ a b : ℕ, Geom.Spec.at ring r c = some a ∧ Geom.Spec.at seg r c = some b ∧ a = ⌈(b : ℚ) / N⌉₊ := by
  obtain ⟨ring, h1, -, h2⟩ := (C28_rings edges center shape).2 ⟨heven, hasc⟩
  obtain ⟨seg, s1, s2⟩ := C30_equal_segments_partial edges heven hasc N hN center shape
  refine ⟨ring, seg, h1, s1, fun r c hr hc => ?_⟩
  obtain ⟨a, ha, hl⟩ := h2 r c hr hc
  obtain ⟨θ, b, hθ, hb, hz, hij⟩ := s2 r c hr hc
  refine ⟨a, b, ha, hb, ?_⟩
  have hNq : (0 : ℚ) < N := by exact_mod_cast hN
  have hNr : (0 : ℝ) < N := by exact_mod_cast hN
  by_cases h0 : b = 0
  · rw [h0, hl.2.2 (hz.1 h0)]; simp
  · have : ∃ i, Spec.inPair edges i (Spec.radius center r c) := by
      by_contra hne
      exact h0 (hz.2 (not_exists.1 hne))
    obtain ⟨i, hi⟩ := this
    have hp := Real.pi_pos
    have hfl : 0 ≤ θ / (2 * Real.pi / N) := div_nonneg hθ.1 (by positivity)
    have hstep : 0 < 2 * Real.pi / N := by positivity
    have e := (hij i ⌊θ / (2 * Real.pi / N)⌋₊).2 ⟨hi, by
      rw [← le_div_iff₀ hstep]; exact Nat.floor_le hfl, by
      rw [← div_lt_iff₀ hstep]; push_cast; exact Nat.lt_floor_add_one _⟩
    set j := ⌊θ / (2 * Real.pi / N)⌋₊
    rw [(hl.1 i).2 hi, e.1]
    symm
    rw [Nat.ceil_eq_iff (by omega)]
    have hj : (j : ℚ) + 1 ≤ N := by exact_mod_cast e.2
    constructor
    · rw [lt_div_iff₀ hNq]; rw [Nat.add_sub_cancel]; push_cast; nlinarith [Nat.cast_nonneg (α := ℚ) j]
    · rw [div_le_iff₀ hNq]; push_cast; nlinarith

/-! ## box against bars -/

/-- Integer edges, pair by pair, as `bar` wants them. -/
def Spec.flatInt (E : List (ℤ × ℤ)) : List ℚ := E.flatMap (fun e => [(e.1 : ℚ), (e.2 : ℚ)])

theorem flatInt_get (E : List (ℤ × ℤ)) : ∀ k : ℕ, (Spec.flatInt E)[2 * k]? = E[k]?.map (fun e => (e.1 : ℚ)) ∧
    (Spec.flatInt E)[2 * k + 1]? = E[k]?.map (fun e => (e.2 : ℚ)) := by
  induction E with
  | nil => intro k; simp [Spec.flatInt]
  | cons e t ih =>
    intro k
    cases k with
    | zero => simp [Spec.flatInt]
    | succ k =>
      have := ih k
      unfold Spec.flatInt at this ⊢
      rw [List.flatMap_cons]
      constructor
      · rw [show 2 * (k + 1) = 2 * k + 2 by ring]
        simpa using this.1
      · rw [show 2 * (k + 1) + 1 = (2 * k + 1) + 2 by ring]
        simpa using this.2

theorem flatInt_length (E : List (ℤ × ℤ)) : (Spec.flatInt E).length = 2 * E.length := by
  induction E with
  | nil => rfl
  | cons e t ih => unfold Spec.flatInt at ih ⊢; rw [List.flatMap_cons, List.length_append, ih]; simp; ring

theorem flatInt_pair (E : List (ℤ × ℤ)) (k x : ℕ) : Spec.inPair (Spec.flatInt E) k (x : ℚ) ↔ ∃ e, E[k]? = some e ∧ e.1 ≤ x ∧ (x : ℤ) < e.2 := by
  unfold Spec.inPair
  rw [(flatInt_get E k).1, (flatInt_get E k).2]
  constructor
  · rintro ⟨a, b, ha, hb, h1, h2⟩
    cases he : E[k]? with
    | none => rw [he] at ha; simp at ha
    | some e =>
      rw [he] at ha hb
      simp only [Option.map_some, Option.some.injEq] at ha hb
      subst ha; subst hb
      exact ⟨e, rfl, by exact_mod_cast h1, by exact_mod_cast h2⟩
  · rintro ⟨e, he, h1, h2⟩
    rw [he]
    exact ⟨(e.1 : ℚ), (e.2 : ℚ), rfl, rfl, by exact_mod_cast h1, by exact_mod_cast h2⟩

theorem Labels_inj {P : ℕ → Prop} {lab : ℕ} (h : Spec.Labels P lab) (i j : ℕ) (hi : P i) (hj : P j) : i = j := by
  have := (h.1 i).2 hi
  have := (h.1 j).2 hj
  omega

/-- For ascending edges that do not end before the image starts, box labels the intersections of the horizontal and the
vertical bars, row of boxes by row of boxes: with a and b the labels of the two bar images, the box label is
(a - 1) (number of vertical bars) + b, and 0 where a or b is 0. -/
theorem C212_box_of_bars (shape : ℕ × ℕ) (vE hE : List (ℤ × ℤ)) (h0 : ∀ p ∈ hE, 0 ≤ p.2) (v0 : ∀ p ∈ vE, 0 ≤ p.2)
    (ha : (Spec.flatInt hE).Pairwise (· ≤ ·)) (va : (Spec.flatInt vE).Pairwise (· ≤ ·)) :
    ∃ h v L, bar (Spec.flatInt hE) shape true none = .ok h ∧ bar (Spec.flatInt vE) shape false none = .ok v ∧
      box shape vE (some hE) none = .ok L ∧ ∀ r c, r < shape.1 → c < shape.2 → ∃ a b, h[r * shape.2 + c]? = some a ∧ v[r * shape.2 + c]? = some b ∧
        L r c = if a = 0 ∨ b = 0 then 0 else (a - 1) * vE.length + b := by
  obtain ⟨h, h1, -, h2⟩ := C31_bar_partial (Spec.flatInt hE) (by rw [flatInt_length]; omega) ha shape true
  obtain ⟨v, v1, -, v2⟩ := C31_bar_partial (Spec.flatInt vE) (by rw [flatInt_length]; omega) va shape false
  have dis : ∀ E : List (ℤ × ℤ), (Spec.flatInt E).Pairwise (· ≤ ·) → ∀ (i j : ℕ) (p q : ℤ × ℤ), E[i]? = some p → E[j]? = some q →
      ∀ r : ℕ, p.1 ≤ r → (r : ℤ) < p.2 → q.1 ≤ r → (r : ℤ) < q.2 → i = j := by
    intro E hE i j p q hp hq r a1 a2 b1 b2
    exact Labels_inj (makeRoi_labels (Spec.flatInt E) ((edgesOk_iff _).2 ⟨by rw [flatInt_length]; omega, hE⟩) (r : ℚ)) i j
      ((flatInt_pair E i r).2 ⟨p, hp, a1, a2⟩) ((flatInt_pair E j r).2 ⟨q, hq, b1, b2⟩)
  obtain ⟨L, b1, b2⟩ := C31_box_partial shape vE hE h0 v0 (dis hE ha) (dis vE va)
  refine ⟨h, v, L, h1, v1, b1, fun r c hr hc => ?_⟩
  obtain ⟨a, ea, la⟩ := h2 r c hr hc
  obtain ⟨b, eb, lb⟩ := v2 r c hr hc
  refine ⟨a, b, ea, eb, ?_⟩
  simp only [if_true, Bool.false_eq_true, if_false] at la lb
  obtain ⟨c1, c2⟩ := b2 r c hr hc
  by_cases hab : a = 0 ∨ b = 0
  · rw [if_pos hab, c2]
    intro p hp q hq hpq
    obtain ⟨i, hi⟩ := List.mem_iff_getElem?.1 hp
    obtain ⟨j, hj⟩ := List.mem_iff_getElem?.1 hq
    rcases hab with hz | hz
    · exact la.2.1 hz i ((flatInt_pair hE i r).2 ⟨p, hi, hpq.1, hpq.2.1⟩)
    · exact lb.2.1 hz j ((flatInt_pair vE j c).2 ⟨q, hj, hpq.2.2.1, hpq.2.2.2⟩)
  · rw [if_neg hab]
    have hla : a = (a - 1) + 1 := by omega
    have hlb : b = (b - 1) + 1 := by omega
    obtain ⟨p, hp, p1, p2⟩ := (flatInt_pair hE _ r).1 ((la.1 (a - 1)).1 hla)
    obtain ⟨q, hq, q1, q2⟩ := (flatInt_pair vE _ c).1 ((lb.1 (b - 1)).1 hlb)
    rw [(c1 (a - 1) (b - 1) p q hp hq).2 ⟨p1, p2, q1, q2⟩]
    omega

/-- Instance: two rows and three columns of boxes. -/
example : (∀ p ∈ [((0 : ℤ), (2 : ℤ)), (3, 5)], 0 ≤ p.2) ∧ (Spec.flatInt [(0, 2), (3, 5)]).Pairwise (· ≤ ·) ∧ (Spec.flatInt [(0, 2), (2, 4), (5, 6)]).Pairwise (· ≤ ·) := by
  decide +kernel

/-! ## Averages over the rings -/

/-- All pixels of an image, row by row. -/
def pixels (shape : ℕ × ℕ) : List (ℕ × ℕ) := (List.range shape.1).flatMap (fun r => (List.range shape.2).map (fun c => (r, c)))

theorem pixels_nodup (shape : ℕ × ℕ) : (pixels shape).Nodup := by
  unfold pixels
  have : (List.range shape.1).flatMap (fun r => (List.range shape.2).map (fun c => (r, c))) = List.product (List.range shape.1) (List.range shape.2) := rfl
  rw [this]
  exact List.nodup_range.product List.nodup_range

theorem mem_pixels (shape : ℕ × ℕ) (p : ℕ × ℕ) : p ∈ pixels shape ↔ p.1 < shape.1 ∧ p.2 < shape.2 := by
  unfold pixels
  simp only [List.mem_flatMap, List.mem_range, List.mem_map]
  constructor
  · rintro ⟨r, hr, c, hc, rfl⟩; exact ⟨hr, hc⟩
  · rintro ⟨h1, h2⟩; exact ⟨p.1, h1, p.2, h2, rfl⟩

/-- A label image of the given shape read row by row. -/
theorem flatten_rings (edges : List ℝ) (h : edges.length % 2 = 0 ∧ edges.Pairwise (· ≤ ·)) (center : ℝ × ℝ) (shape : ℕ × ℕ) :
    ∃ img, rings edges center shape = .ok img ∧
      img.flatten = (pixels shape).map (fun p => makeRoi edges (Spec.radius center p.1 p.2)) := by
  have hok := (edgesOk_iff edges).2 h
  unfold rings
  rw [if_pos hok]
  refine ⟨_, rfl, ?_⟩
  unfold Geom.radialGrid Geom.mesh Geom.xCoords Geom.yCoords pixels
  rw [List.map_map, List.map_map, List.map_flatMap, List.flatMap_def]
  congr 1
  apply List.map_congr_left
  intro r _
  simp only [Function.comp, List.map_map]
  apply List.map_congr_left
  intro c _
  simp [Spec.radius, Geom.pixelSize, ← sq]

theorem select_map (L : List (ℕ × ℕ)) (g : ℕ × ℕ → ℤ) (f : ℕ × ℕ → ℚ) (n : ℤ) :
    select (L.map g) (L.map f) n = (L.filter (fun p => decide (g p = n))).map f := by
  unfold select
  induction L with
  | nil => rfl
  | cons a t ih =>
    simp only [List.map_cons, List.zip_cons_cons, List.filter_cons]
    by_cases ha : g a = n
    · simp [ha]; simpa using ih
    · simp [ha]; simpa using ih

open Classical in
/-- The pixels of an image whose radius is in the k-th ring. -/
noncomputable def Spec.ringPixels (edges : List ℝ) (center : ℝ × ℝ) (shape : ℕ × ℕ) (k : ℕ) : Finset (ℕ × ℕ) :=
  (range shape.1 ×ˢ range shape.2).filter (fun p => Spec.inPair edges k (Spec.radius center p.1 p.2))

/-- rings followed by mean_intensity: entry k of frame i is the mean of the frame over exactly the pixels with
inner_k ≤ radius < outer_k, and NaN if there are none. -/
theorem C212_ring_means (edges : List ℝ) (heven : edges.length % 2 = 0) (hasc : edges.Pairwise (· ≤ ·)) (center : ℝ × ℝ) (shape : ℕ × ℕ)
    (frames : List (ℕ → ℕ → ℚ)) (hne : frames ≠ []) (n : ℕ) :
    ∃ lab out, rings edges center shape = .ok lab ∧
      meanIntensity (frames.map (fun f => (pixels shape).map (fun p => f p.1 p.2))) (lab.flatten.map (fun (l : ℕ) => (l : ℤ)))
        (some ((List.range n).map (fun (k : ℕ) => (k : ℤ) + 1))) = .ok (out, (List.range n).map (fun (k : ℕ) => (k : ℤ) + 1)) ∧
      ∀ (i : ℕ) (f : ℕ → ℕ → ℚ), frames[i]? = some f → ∀ k < n, ∃ row, out[i]? = some row ∧
        row[k]? = some (if Spec.ringPixels edges center shape k = ∅ then none
          else some ((∑ p ∈ Spec.ringPixels edges center shape k, f p.1 p.2) / (Spec.ringPixels edges center shape k).card)) := by
  classical
  obtain ⟨lab, h1, h2⟩ := flatten_rings edges ⟨heven, hasc⟩ center shape
  have hlab : lab.flatten.map (fun (l : ℕ) => (l : ℤ)) = (pixels shape).map (fun p => (makeRoi edges (Spec.radius center p.1 p.2) : ℤ)) := by
    rw [h2, List.map_map]; rfl
  refine ⟨lab, frames.map (fun f => (List.range n).map (fun (k : ℕ) => labelMean (lab.flatten.map (fun (l : ℕ) => (l : ℤ))) ((pixels shape).map (fun p => f p.1 p.2)) ((k : ℤ) + 1))), h1, ?_, ?_⟩
  · cases frames with
    | nil => exact absurd rfl hne
    | cons f0 t =>
      simp only [meanIntensity, List.map_cons]
      rw [if_neg (by rw [hlab]; simp)]
      simp only [chooseIndex, List.map_map]
      rfl
  · intro i f hf k hk
    refine ⟨_, by rw [List.getElem?_map, hf]; rfl, ?_⟩
    rw [List.getElem?_map, List.getElem?_range hk]
    simp only [Option.map_some, Option.some.injEq]
    unfold labelMean
    rw [hlab, select_map]
    set F := (pixels shape).filter (fun p => decide ((makeRoi edges (Spec.radius center p.1 p.2) : ℤ) = (k : ℤ) + 1)) with hF
    have hset : Spec.ringPixels edges center shape k = F.toFinset := by
      ext p
      unfold Spec.ringPixels
      rw [Finset.mem_filter, Finset.mem_product, Finset.mem_range, Finset.mem_range, List.mem_toFinset, hF, List.mem_filter, mem_pixels, decide_eq_true_eq]
      have : _ ↔ Spec.inPair edges k _ := (makeRoi_labels edges ((edgesOk_iff edges).2 ⟨heven, hasc⟩) (Spec.radius center p.1 p.2)).1 k
      rw [← this]
      constructor
      · rintro ⟨a, b⟩; exact ⟨a, by exact_mod_cast b⟩
      · rintro ⟨a, b⟩; exact ⟨a, by exact_mod_cast b⟩
    have hnd : F.Nodup := (pixels_nodup shape).filter _
    rw [hset]
    simp only [List.map_eq_nil_iff, List.toFinset_eq_empty_iff]
    split
    · rfl
    · rw [List.sum_toFinset _ hnd, List.toFinset_card_of_nodup hnd, List.length_map]

/-! ## The statistics agree with each other -/

/-- The mean over a row of the kymograph is the entry of mean_intensity for that region and frame. -/
theorem C212_kymograph_mean (images : List (List ℚ)) (hne : images ≠ []) (labels : List ℤ) (hl : labels ≠ [])
    (hsize : ∀ img ∈ images, img.length = labels.length) (num : ℤ) :
    ∃ K out, kymograph images labels num = .ok K ∧ meanIntensity images labels (some [num]) = .ok (out, [num]) ∧
      out = K.map (fun (row : List ℚ) => [if row = [] then none else some (row.sum / row.length)]) := by
  refine ⟨_, images.map (fun img => [labelMean labels img num]), C35_kymograph images hne labels hl hsize num, ?_, ?_⟩
  · cases images with
    | nil => exact absurd rfl hne
    | cons img0 t =>
      simp only [meanIntensity]
      rw [if_neg (by simpa using (hsize img0 (by simp)).symm)]
      rfl
  · rw [List.map_map]
    apply List.map_congr_left
    intro img himg
    simp only [Function.comp, labelMean]
    rw [select_eq labels img (hsize img himg).symm num]

/-- Regions of a finer label image that make up a region of a coarser one: the mean over the coarse region is the mean of
the fine means, weighted with their numbers of pixels.  `g` tells to which coarse region a fine region belongs, `parts` lists
the parts of coarse region n. -/
theorem C212_parts (images : List (List ℚ)) (hne : images ≠ []) (fine : List ℤ) (g : ℤ → ℤ) (hsize : ∀ img ∈ images, img.length = fine.length)
    (n : ℤ) (parts : List ℤ) (hnd : parts.Nodup) (hparts : ∀ l ∈ fine, g l = n ↔ l ∈ parts) :
    ∃ M m, meanIntensity images fine (some parts) = .ok (M, parts) ∧ meanIntensity images (fine.map g) (some [n]) = .ok (m, [n]) ∧
      ∀ i < images.length, ∃ row x, M[i]? = some row ∧ m[i]? = some [x] ∧ row.length = parts.length ∧
        ((fine.map g).count n : ℚ) * x.getD 0 = ((parts.zip row).map (fun p => (fine.count p.1 : ℚ) * p.2.getD 0)).sum := by
  have hsel : ∀ (labels : List ℤ) (img : List ℚ), img.length = labels.length → ∀ a, (select labels img a).length = labels.count a := by
    intro labels
    induction labels with
    | nil => intro img _ a; simp [select]
    | cons l t ih =>
      intro img h a
      cases img with
      | nil => simp at h
      | cons v vs =>
        have := ih vs (by simpa using h) a
        unfold select at this ⊢
        simp only [List.zip_cons_cons, List.filter_cons, List.count_cons, beq_iff_eq]
        by_cases hla : l = a <;> simp [hla] <;> simpa using this
  have hmul : ∀ (labels : List ℤ) (img : List ℚ), img.length = labels.length → ∀ a,
      (labels.count a : ℚ) * (labelMean labels img a).getD 0 = (select labels img a).sum := by
    intro labels img h a
    unfold labelMean
    have hc := hsel labels img h a
    by_cases he : select labels img a = []
    · simp [he]
    · have : ((select labels img a).length : ℚ) ≠ 0 := by
        have := List.length_pos_iff.2 he
        positivity
      simp only [if_neg he, Option.getD_some]
      rw [← hc, mul_div_cancel₀ _ this]
  have hsum : ∀ (fine : List ℤ) (img : List ℚ), img.length = fine.length → (∀ l ∈ fine, g l = n ↔ l ∈ parts) →
      (select (fine.map g) img n).sum = (parts.map (fun a => (select fine img a).sum)).sum := by
    intro fine
    induction fine with
    | nil => intro img _ _; simp [select]
    | cons l t ih =>
      intro img h hp
      cases img with
      | nil => simp at h
      | cons v vs =>
        have key := ih vs (by simpa using h) (fun l' hl' => hp l' (by simp [hl']))
        have e : ∀ a, (select (l :: t) (v :: vs) a).sum = (if l = a then v else 0) + (select t vs a).sum := by
          intro a
          unfold select
          simp only [List.zip_cons_cons, List.filter_cons]
          by_cases hla : l = a <;> simp [hla]
        have e' : (select ((l :: t).map g) (v :: vs) n).sum = (if g l = n then v else 0) + (select (t.map g) vs n).sum := by
          unfold select
          simp only [List.map_cons, List.zip_cons_cons, List.filter_cons]
          by_cases hla : g l = n <;> simp [hla]
        rw [e', key]
        simp only [e]
        rw [List.sum_map_add]
        congr 1
        by_cases hl : l ∈ parts
        · rw [if_pos ((hp l (by simp)).2 hl)]
          have : (parts.map (fun a => if l = a then v else 0)).sum = (parts.count l) • v := by
            clear * -
            induction parts with
            | nil => simp
            | cons a t ih =>
              simp only [List.map_cons, List.sum_cons, List.count_cons, beq_iff_eq, ih]
              by_cases h : l = a
              · subst h; simp [add_smul]; ring
              · have : ¬ a = l := fun h' => h h'.symm
                simp [h, this]
          rw [this, List.count_eq_one_of_mem hnd hl, one_smul]
        · rw [if_neg (fun h => hl ((hp l (by simp)).1 h))]
          symm
          apply List.sum_eq_zero
          intro x hx
          obtain ⟨a, ha, rfl⟩ := List.mem_map.1 hx
          rw [if_neg]
          rintro rfl
          exact hl ha
  refine ⟨images.map (fun img => parts.map (labelMean fine img)), images.map (fun img => [labelMean (fine.map g) img n]), ?_, ?_, ?_⟩
  · cases images with
    | nil => exact absurd rfl hne
    | cons img0 t =>
      simp only [meanIntensity]
      rw [if_neg (by simpa using (hsize img0 (by simp)).symm)]
      rfl
  · cases images with
    | nil => exact absurd rfl hne
    | cons img0 t =>
      simp only [meanIntensity]
      rw [if_neg (by simpa using (hsize img0 (by simp)).symm)]
      rfl
  · intro i hi
    have himg := hsize images[i] (List.getElem_mem hi)
    refine ⟨parts.map (labelMean fine images[i]), labelMean (fine.map g) images[i] n, by simp [hi], by simp [hi], by simp, ?_⟩
    rw [hmul _ _ (by simpa using himg), hsum fine _ himg hparts]
    congr 1
    rw [List.zip_map_right]
    have : parts.zip parts = parts.map (fun a => (a, a)) := by
      clear * -
      induction parts with
      | nil => rfl
      | cons a t ih => simp [ih]
    rw [this, List.map_map, List.map_map]
    apply List.map_congr_left
    intro a _
    simp only [Function.comp, Prod.map, id]
    rw [hmul fine _ himg a]

/-- Instance: two segments (labels 3 and 4) of ring 2, in a frame of six pixels. -/
example : meanIntensity [[1, 2, 3, 5, 7, 9]] [0, 3, 4, 4, 1, 2] (some [3, 4]) = .ok ([[some 2, some 4]], [3, 4]) ∧
    meanIntensity [[1, 2, 3, 5, 7, 9]] ([0, 3, 4, 4, 1, 2].map (fun b => (b + 1) / 2)) (some [2]) = .ok ([[some (10 / 3)]], [2]) ∧
    (3 : ℚ) * (10 / 3) = 1 * 2 + 2 * 4 := by decide +kernel

end Verif.Roi
