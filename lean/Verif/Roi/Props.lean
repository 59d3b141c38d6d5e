/- Properties C27-C31: region-of-interest label images. -/
import Verif.Roi.Lemmas
import Verif.Geom.Props
import Mathlib.Analysis.SpecialFunctions.Trigonometric.Bounds

namespace Verif.Roi
open Verif

/-! ## C27 rectangles -/

/-- For all rectangles that do not end before the image starts (in particular all that touch the image): the call
succeeds exactly if no pixel of the image lies in two of them, and then pixel (r, c) has label k+1 iff it lies in
rectangle k and 0 iff it lies in none; otherwise ValueError is raised. -/
theorem C27_rectangles_partial (coords : List (ℤ × ℤ × ℤ × ℤ)) (shape : ℕ × ℕ)
    (hpos : ∀ q ∈ coords, 0 ≤ q.1 + q.2.2.1 ∧ 0 ≤ q.2.1 + q.2.2.2) :
    let overlap := ∃ (r c i j : ℕ) (q q' : ℤ × ℤ × ℤ × ℤ), r < shape.1 ∧ c < shape.2 ∧ i < j ∧
      coords[i]? = some q ∧ coords[j]? = some q' ∧ Spec.inRect q r c ∧ Spec.inRect q' r c
    (overlap → rectangles coords shape = .error .valueError) ∧
    (¬ overlap → ∃ L, rectangles coords shape = .ok L ∧ ∀ r c, r < shape.1 → c < shape.2 →
      Spec.Labels (fun k => ∃ q, coords[k]? = some q ∧ Spec.inRect q r c) (L r c)) := by
  intro overlap
  have h0 : RectInv shape [] (fun _ _ => 0) := by
    intro r c _ _
    constructor
    · intro k; simp
    · simp
  have := rectLoop_spec shape coords [] _ hpos h0
  simp only [List.length_nil, List.nil_append] at this
  constructor
  · intro hov
    rcases this with ⟨L, _, hL⟩ | ⟨he, _⟩
    · obtain ⟨r, c, i, j, q, q', hr, hc, hij, hi, hj, hq, hq'⟩ := hov
      have hl := hL r c hr hc
      have e1 := (hl.1 i).2 ⟨q, hi, hq⟩
      have e2 := (hl.1 j).2 ⟨q', hj, hq'⟩
      omega
    · exact he
  · intro hno
    rcases this with ⟨L, he, hL⟩ | ⟨_, hov⟩
    · exact ⟨L, he, hL⟩
    · exact absurd hov hno

/-- Two rectangles, one partly outside a 4x5 image. -/
example : (match rectangles [(-1, 1, 3, 2), (2, 2, 5, 9)] (4, 5) with
    | .ok L => (List.range 4).map (fun r => (List.range 5).map (L r))
    | .error _ => []) = [[0, 1, 1, 0, 0], [0, 1, 1, 0, 0], [0, 0, 2, 2, 2], [0, 0, 2, 2, 2]] := by decide +kernel
example : (match rectangles [(0, 0, 2, 2), (1, 1, 3, 3)] (4, 5) with
    | .ok _ => false
    | .error e => e = .valueError) = true := by decide +kernel

/-- C27 is false for a rectangle that ends before the image starts: none of its pixels is in the image, but the negative
slice end wraps around and pixel (0, 0) gets its label. -/
theorem C27_off_image_refuted (rows cols : ℕ) (x y w h : ℤ) (hx : x ≤ 0) (h1 : x + w < 0) (h2 : -(rows : ℤ) < x + w) (h3 : y ≤ 0) (h4 : 0 < y + h)
    (hc : 0 < cols) :
    (∀ r c, ¬ Spec.inRect (x, y, w, h) r c) ∧ ∃ L, rectangles [(x, y, w, h)] (rows, cols) = .ok L ∧ L 0 0 = 1 := by
  constructor
  · intro r c hin
    unfold Spec.inRect at hin
    simp only at hin
    omega
  · unfold rectangles rectLoop rectLoop
    have : anyLabelled (rows, cols) (fun _ _ => 0) (rectSel (rows, cols) (x, y, w, h)) = false := by
      rw [Bool.eq_false_iff]
      intro hh
      obtain ⟨_, _, _, _, _, h0⟩ := (anyLabelled_iff _ _ _).1 hh
      exact h0 rfl
    rw [this]
    refine ⟨_, rfl, ?_⟩
    have hs : rectSel (rows, cols) (x, y, w, h) 0 0 = true := by
      unfold rectSel inSlice sliceStart sliceStop
      simp only [Bool.and_eq_true, decide_eq_true_eq]
      rw [if_neg (by omega), if_pos (by omega), if_neg (by omega), if_neg (by omega)]
      omega
    simp [hs]

example : ∃ L, rectangles [(-3, 0, 2, 1)] (4, 4) = .ok L ∧ L 0 0 = 1 :=
  (C27_off_image_refuted 4 4 (-3) 0 2 1 (by decide) (by decide) (by decide) (by decide) (by decide) (by decide)).2

/-! ## C28 rings -/

/-- `rings` raises ValueError exactly for an odd number of edges or descending edges; otherwise the label image has the
image's shape and pixel (r, c) has label k+1 iff inner_k ≤ radius < outer_k, and 0 iff it is in no ring. -/
theorem C28_rings (edges : List ℝ) (center : ℝ × ℝ) (shape : ℕ × ℕ) :
    (¬ (edges.length % 2 = 0 ∧ edges.Pairwise (· ≤ ·)) → rings edges center shape = .error .valueError) ∧
    (edges.length % 2 = 0 ∧ edges.Pairwise (· ≤ ·) → ∃ img, rings edges center shape = .ok img ∧
      (∀ r c, (Geom.Spec.at img r c).isSome = decide (r < shape.1 ∧ c < shape.2)) ∧
      ∀ r c, r < shape.1 → c < shape.2 → ∃ lab, Geom.Spec.at img r c = some lab ∧
        Spec.Labels (fun k => Spec.inPair edges k (Spec.radius center r c)) lab) := by
  constructor
  · intro h
    unfold rings
    rw [if_neg]
    rw [edgesOk_iff]; exact h
  · intro h
    have hok := (edgesOk_iff edges).2 h
    unfold rings
    rw [if_pos hok]
    have hat : ∀ r c, Geom.Spec.at ((Geom.radialGrid center shape none).map (fun row => row.map (makeRoi edges))) r c =
        (Geom.Spec.at (Geom.radialGrid center shape none) r c).map (makeRoi edges) := by
      intro r c
      unfold Geom.Spec.at
      rw [List.getElem?_map]
      cases (Geom.radialGrid center shape none)[r]? with
      | none => rfl
      | some row => simp
    refine ⟨_, rfl, ?_, ?_⟩
    · intro r c
      rw [hat, Geom.C09_radius]
      by_cases hrc : r < shape.1 ∧ c < shape.2 <;> simp [hrc]
    · intro r c hr hc
      rw [hat, Geom.C09_radius, if_pos ⟨hr, hc⟩]
      refine ⟨_, rfl, ?_⟩
      have := makeRoi_labels edges hok (Spec.radius center r c)
      simpa [Spec.radius] using this

/-- Instance: the pixel (0, 1) at distance 1 of the origin is on the inner edge of the first ring, (0, 2) on its outer
edge (which is also the second ring's inner edge). -/
example : makeRoi [1, 2, 2, 5] (1 : ℚ) = 1 ∧ makeRoi [1, 2, 2, 5] (2 : ℚ) = 2 ∧ makeRoi [1, 2, 2, 5] (5 : ℚ) = 0 ∧
    makeRoi [1, 2, 2, 5] (1/2 : ℚ) = 0 := by decide +kernel

/-! ## C29 ring_edges -/

/-- The k-th requested width / spacing. -/
def Spec.nth : Arg → ℕ → Option ℚ
  | .scalar q, _ => some q
  | .list _ l, k => l[k]?

/-- Whatever ring_edges returns is as requested: consecutive rings with the k-th width, separated by the k-th spacing, as
many as asked for or as there are widths or spacings + 1; the first one starts at the inner radius unless the spacings
are a list of integers. -/
theorem C29_result_partial (inner : ℚ) (width spacing : Arg) (num : Option ℤ) (E : List (ℚ × ℚ))
    (h : ringEdges inner width spacing num = .ok E) :
    (∀ n, num = some n → (E.length : ℤ) = n) ∧
    (∀ b l, width = .list b l → E.length = l.length) ∧
    (∀ b l, spacing = .list b l → E.length = l.length + 1) ∧
    1 ≤ E.length ∧
    (∀ k < E.length, ∃ e w, E[k]? = some e ∧ Spec.nth width k = some w ∧ e.2 - e.1 = w) ∧
    (∀ k, k + 1 < E.length → ∃ e e' s, E[k]? = some e ∧ E[k + 1]? = some e' ∧ Spec.nth spacing k = some s ∧ e'.1 - e.2 = s) ∧
    ((∀ l, spacing ≠ .list true l) → ∃ e, E[0]? = some e ∧ e.1 = inner) := by
  unfold ringEdges at h
  by_cases hb : bothListsBad width spacing = true
  · rw [if_pos hb] at h; exact absurd h (by simp)
  rw [if_neg hb] at h
  cases hn : numRings width spacing num with
  | error e => rw [hn] at h; simp at h
  | ok n =>
  rw [hn] at h
  simp only at h
  cases hw : regular width n with
  | error e => rw [hw] at h; simp at h
  | ok w =>
  cases hs : regular spacing (n - 1) with
  | error e => rw [hw, hs] at h; simp at h
  | ok s =>
  rw [hw, hs] at h
  simp only at h
  by_cases hlen : (inserted spacing inner :: s).length ≠ w.length
  · rw [if_pos hlen] at h; exact absurd h (by simp)
  rw [if_neg hlen] at h
  simp only [Except.ok.injEq] at h
  push Not at hlen
  obtain ⟨p1, p2, p3, p4⟩ := pairs_spec ((inserted spacing inner :: s).zip w) 0
  rw [h] at p1 p2 p3 p4
  have hEl : E.length = w.length := by rw [p1]; simp at hlen ⊢; omega
  have hsl : s.length + 1 = w.length := by simpa using hlen
  have hwn : ∀ k < w.length, Spec.nth width k = w[k]? := by
    intro k hk
    cases width with
    | list b l => simp [regular] at hw; subst hw; rfl
    | scalar q =>
      simp only [regular] at hw
      split at hw
      · simp at hw
      · simp at hw; subst hw
        rw [List.length_replicate] at hk
        rw [List.getElem?_replicate, if_pos hk]; rfl
  have hsn : ∀ k < s.length, Spec.nth spacing k = s[k]? := by
    intro k hk
    cases spacing with
    | list b l => simp [regular] at hs; subst hs; rfl
    | scalar q =>
      simp only [regular] at hs
      split at hs
      · simp at hs
      · simp at hs; subst hs
        rw [List.length_replicate] at hk
        rw [List.getElem?_replicate, if_pos hk]; rfl
  refine ⟨?_, ?_, ?_, by omega, ?_, ?_, ?_⟩
  · intro n' hn'
    subst hn'
    have hnn : n = n' ∧ (w.length : ℤ) = n := by
      cases width with
      | list b l =>
        have hw' : w = l := by simpa [regular] using hw.symm
        subst hw'
        cases spacing with
        | list b' l' => simp only [numRings] at hn; split at hn <;> [simp at hn; (split at hn <;> [simp at hn; (simp at hn; omega)])]
        | scalar q => simp only [numRings] at hn; split at hn <;> [simp at hn; (simp at hn; omega)]
      | scalar q =>
        have hwl : (w.length : ℤ) = n := by
          simp only [regular] at hw
          split at hw
          · simp at hw
          · simp at hw; subst hw; simp; omega
        refine ⟨?_, hwl⟩
        cases spacing with
        | list b' l' => simp only [numRings] at hn; split at hn <;> [simp at hn; (simp at hn; omega)]
        | scalar q => simp [numRings] at hn; omega
    omega
  · intro b l hl
    subst hl
    simp [regular] at hw; subst hw; exact hEl
  · intro b l hl
    subst hl
    simp [regular] at hs; subst hs; omega
  · intro k hk
    have hkw : k < w.length := by omega
    have hz : ((inserted spacing inner :: s).zip w)[k]? = some ((inserted spacing inner :: s)[k]'(by simp; omega), w[k]) := by
      rw [List.getElem?_eq_getElem (by simp; omega), List.getElem_zip]
    obtain ⟨e, he, hv⟩ := p2 k _ hz
    exact ⟨e, w[k], he, by rw [hwn k hkw]; exact List.getElem?_eq_getElem hkw, hv⟩
  · intro k hk
    have hkw : k + 1 < w.length := by omega
    have hz : ((inserted spacing inner :: s).zip w)[k + 1]? = some ((inserted spacing inner :: s)[k + 1]'(by simp; omega), w[k + 1]) := by
      rw [List.getElem?_eq_getElem (by simp; omega), List.getElem_zip]
    obtain ⟨e, e', he, he', hv⟩ := p4 k _ hz
    refine ⟨e, e', s[k]'(by omega), he, he', by rw [hsn k (by omega)]; exact List.getElem?_eq_getElem (by omega), ?_⟩
    simpa using hv
  · intro hne
    have hins : inserted spacing inner = inner := by
      unfold inserted
      split
      · next l => exact absurd rfl (hne l)
      · rfl
    have hz : ((inserted spacing inner :: s).zip w)[0]? = some (inner, w[0]'(by omega)) := by
      rw [List.getElem?_eq_getElem (by simp; omega), List.getElem_zip]
      simp [hins]
    obtain ⟨e, he, hv⟩ := p3 _ hz
    exact ⟨e, he, by simpa using hv⟩

/-- The documented combinations other than two lists are accepted. -/
theorem C29_accepted_partial (inner : ℚ) :
    (∀ w s n, 1 ≤ n → ∃ E, ringEdges inner (.scalar w) (.scalar s) (some n) = .ok E) ∧
    (∀ b l s, l ≠ [] → ∃ E, ringEdges inner (.list b l) (.scalar s) none = .ok E) ∧
    (∀ b l s, l ≠ [] → ∃ E, ringEdges inner (.list b l) (.scalar s) (some l.length) = .ok E) ∧
    (∀ w b l, ∃ E, ringEdges inner (.scalar w) (.list b l) none = .ok E) ∧
    (∀ w b l, ∃ E, ringEdges inner (.scalar w) (.list b l) (some (l.length + 1)) = .ok E) ∧
    (∀ w s, ringEdges inner (.scalar w) (.scalar s) none = .error .valueError) := by
  refine ⟨?_, ?_, ?_, ?_, ?_, fun _ _ => rfl⟩
  · intro w s n hn
    unfold ringEdges
    simp only [bothListsBad, numRings, regular, Bool.false_eq_true, if_false]
    rw [if_neg (by omega), if_neg (by omega)]
    simp only
    rw [if_neg (by simp; omega)]
    exact ⟨_, rfl⟩
  · intro b l s hl
    have : 0 < l.length := List.length_pos_iff.2 hl
    unfold ringEdges
    simp only [bothListsBad, numRings, regular, Bool.false_eq_true, if_false]
    rw [if_neg (by omega)]
    simp only
    rw [if_neg (by simp; omega)]
    exact ⟨_, rfl⟩
  · intro b l s hl
    have : 0 < l.length := List.length_pos_iff.2 hl
    unfold ringEdges
    simp only [bothListsBad, numRings, regular, Bool.false_eq_true, if_false, ne_eq, not_true]
    rw [if_neg (by omega)]
    simp only
    rw [if_neg (by simp; omega)]
    exact ⟨_, rfl⟩
  · intro w b l
    unfold ringEdges
    simp only [bothListsBad, numRings, regular, Bool.false_eq_true, if_false]
    rw [if_neg (by omega)]
    simp only
    rw [if_neg (by simp)]
    exact ⟨_, rfl⟩
  · intro w b l
    unfold ringEdges
    simp only [bothListsBad, numRings, regular, Bool.false_eq_true, if_false]
    rw [if_neg (by omega)]
    simp only
    rw [if_neg (by omega)]
    simp only
    rw [if_neg (by simp)]
    exact ⟨_, rfl⟩

/-- C29 is false for two lists: every call with lists of widths and spacings raises ValueError, also the documented
example. -/
theorem C29_two_lists_refuted (inner : ℚ) (b b' : Bool) (w s : List ℚ) (num : Option ℤ) :
    ringEdges inner (.list b w) (.list b' s) num = .error .valueError := by
  unfold ringEdges
  by_cases h : bothListsBad (.list b w) (.list b' s) = true
  · rw [if_pos h]
  · rw [if_neg h]
    simp only [bothListsBad, decide_eq_true_eq, not_not] at h
    cases num with
    | none =>
      simp only [numRings, regular]
      rw [if_pos (by simp; omega)]
    | some n =>
      simp only [numRings, regular]
      by_cases h1 : n ≠ w.length
      · rw [if_pos h1]
      · rw [if_neg h1]
        by_cases h2 : n - 1 ≠ s.length
        · rw [if_pos h2]
        · rw [if_neg h2]
          simp only
          rw [if_pos (by simp; omega)]

/-- C29 is also false for a fractional inner radius with integer spacings: the first ring starts at the truncated radius. -/
theorem C29_inner_truncated_refuted : ringEdges (3/2) (.scalar 5) (.list true [1, 2]) none = .ok [(1, 6), (7, 12), (14, 19)] := by
  decide +kernel

example : ringEdges 1 (.scalar 5) (.scalar 0) (some 2) = .ok [(1, 6), (6, 11)] := by decide +kernel

/-! ## C30 segmented_rings -/

/-- θ is the polar angle in [0, 2 pi) of pixel (r, c) seen from the centre. -/
def Spec.Polar (center : ℝ × ℝ) (r c : ℕ) (θ : ℝ) : Prop :=
  0 ≤ θ ∧ θ < 2 * Real.pi ∧ Spec.radius center r c * Real.cos θ = (c : ℝ) - center.2 ∧
    Spec.radius center r c * Real.sin θ = (r : ℝ) - center.1

/-- θ lies in the j-th angular segment. -/
def Spec.inSeg (seg : List ℝ) (j : ℕ) (θ : ℝ) : Prop := ∃ a b, seg[j]? = some a ∧ seg[j + 1]? = some b ∧ a ≤ θ ∧ θ < b

theorem pixel_label (edges : List ℝ) (hok : edgesOk edges = true) (segments : ℕ ⊕ List ℝ) (center : ℝ × ℝ) (shape : ℕ × ℕ) (offset : ℝ) :
    ∃ img, segmentedRings edges segments center shape offset = .ok img ∧
      ∀ r c, r < shape.1 → c < shape.2 → ∃ θ, Spec.Polar center r c θ ∧
        Geom.Spec.at img r c = some (segLabel edges (segmentEdges segments offset) (Spec.radius center r c) θ) := by
  unfold segmentedRings
  rw [if_pos hok]
  refine ⟨_, rfl, fun r c hr hc => ?_⟩
  obtain ⟨ρ, θ, e1, e2, _, _, e3, e4⟩ := Geom.C09_angle center shape none r c hr hc
  have hρ : ρ = Spec.radius center r c := by
    rw [Geom.C09_radius, if_pos ⟨hr, hc⟩] at e1
    simp at e1
    simpa [Spec.radius] using e1.symm
  refine ⟨wrapAngle θ, ?_, ?_⟩
  · have hwr : 0 ≤ wrapAngle θ ∧ wrapAngle θ < 2 * Real.pi := by
      unfold Geom.angleGrid at e2
      rw [Geom.mesh_at, if_pos ⟨hr, hc⟩] at e2
      simp at e2
      rw [← e2]; exact wrapAngle_range _ _
    refine ⟨hwr.1, hwr.2, ?_, ?_⟩
    · have : Real.cos (wrapAngle θ) = Real.cos θ := by
        unfold wrapAngle; split
        · rw [add_comm, Real.cos_add_two_pi]
        · rfl
      rw [this, ← hρ, e3]; simp
    · have : Real.sin (wrapAngle θ) = Real.sin θ := by
        unfold wrapAngle; split
        · rw [add_comm, Real.sin_add_two_pi]
        · rfl
      rw [this, ← hρ, e4]; simp
  · unfold Geom.Spec.at at e1 e2 ⊢
    rw [List.getElem?_zipWith]
    cases h1 : (Geom.radialGrid center shape none)[r]? with
    | none => simp [h1] at e1
    | some rr =>
      cases h2 : (Geom.angleGrid center shape none)[r]? with
      | none => simp [h2] at e2
      | some aa =>
        simp [h1] at e1
        simp [h2] at e2
        simp [List.getElem?_zipWith, e1, e2, hρ]

/-- C30 for pixels whose angle is in one of the segments: the label is determined by ring and segment and different
(ring, segment) pairs have different labels, all non-zero; pixels outside all rings get 0. -/
theorem C30_labels_partial (edges : List ℝ) (heven : edges.length % 2 = 0) (hasc : edges.Pairwise (· ≤ ·)) (segments : ℕ ⊕ List ℝ)
    (center : ℝ × ℝ) (shape : ℕ × ℕ) (offset : ℝ) (hseg : (segmentEdges segments offset).Pairwise (· ≤ ·)) :
    ∃ img, segmentedRings edges segments center shape offset = .ok img ∧
      (∀ r c, r < shape.1 → c < shape.2 → ∃ θ lab, Spec.Polar center r c θ ∧ Geom.Spec.at img r c = some lab ∧
        ((∀ i, ¬ Spec.inPair edges i (Spec.radius center r c)) → lab = 0) ∧
        (∀ i j, Spec.inPair edges i (Spec.radius center r c) → Spec.inSeg (segmentEdges segments offset) j θ →
          lab = j + 1 + ((segmentEdges segments offset).length - 1) * i ∧ j < (segmentEdges segments offset).length - 1)) ∧
      ∀ M i j i' j' : ℕ, j < M → j' < M → j + 1 + M * i = j' + 1 + M * i' → i = i' ∧ j = j' := by
  obtain ⟨img, h1, h2⟩ := pixel_label edges ((edgesOk_iff edges).2 ⟨heven, hasc⟩) segments center shape offset
  refine ⟨img, h1, ?_, ?_⟩
  · intro r c hr hc
    obtain ⟨θ, hp, hat⟩ := h2 r c hr hc
    obtain ⟨s1, s2⟩ := segLabel_spec edges (segmentEdges segments offset) ((edgesOk_iff edges).2 ⟨heven, hasc⟩) (Spec.radius center r c) θ
    refine ⟨θ, _, hp, hat, s1, ?_⟩
    intro i j hi hj
    obtain ⟨hd, hl⟩ := (seg_iff _ hseg j θ).1 hj
    rw [s2 i hi, hd]
    exact ⟨rfl, by omega⟩
  · intro M i j i' j' hj hj' h
    have h' : j + M * i = j' + M * i' := by omega
    have e1 : (j + M * i) % M = j := by rw [Nat.add_mul_mod_self_left, Nat.mod_eq_of_lt hj]
    have e2 : (j' + M * i') % M = j' := by rw [Nat.add_mul_mod_self_left, Nat.mod_eq_of_lt hj']
    have hjj : j = j' := by rw [← e1, ← e2, h']
    subst hjj
    have : M * i = M * i' := by omega
    exact ⟨Nat.eq_of_mul_eq_mul_left (by omega) this, rfl⟩

/-- C30 for the default use - N equal segments, no offset: every pixel of a ring is in exactly one segment, so pixels of
the rings share a label iff they are in the same ring and in the same segment of 2 pi / N, and exactly the pixels
outside all rings get 0. -/
theorem C30_equal_segments_partial (edges : List ℝ) (heven : edges.length % 2 = 0) (hasc : edges.Pairwise (· ≤ ·)) (N : ℕ) (hN : 1 ≤ N)
    (center : ℝ × ℝ) (shape : ℕ × ℕ) :
    ∃ img, segmentedRings edges (.inl N) center shape 0 = .ok img ∧
      ∀ r c, r < shape.1 → c < shape.2 → ∃ θ lab, Spec.Polar center r c θ ∧ Geom.Spec.at img r c = some lab ∧
        (lab = 0 ↔ ∀ i, ¬ Spec.inPair edges i (Spec.radius center r c)) ∧
        ∀ i j, (lab = j + 1 + N * i ∧ j < N) ↔
          (Spec.inPair edges i (Spec.radius center r c) ∧ (j * (2 * Real.pi / N) ≤ θ ∧ θ < (j + 1 : ℕ) * (2 * Real.pi / N))) := by
  have hp := Real.pi_pos
  have hNpos : (0 : ℝ) < N := by exact_mod_cast hN
  have hsegget : ∀ k, k ≤ N → (segmentEdges (.inl N) 0)[k]? = some (k * (2 * Real.pi / N)) := by
    intro k hk
    have : k < N + 1 := by omega
    simp [segmentEdges, this]
  have hlen : (segmentEdges (.inl N) 0).length = N + 1 := by simp [segmentEdges]
  have hseg : (segmentEdges (.inl N) 0).Pairwise (· ≤ ·) := by
    simp only [segmentEdges, List.pairwise_map]
    refine List.Pairwise.imp ?_ List.pairwise_lt_range
    intro a b hab
    have : (a : ℝ) ≤ b := by exact_mod_cast hab.le
    have h2 : 0 ≤ 2 * Real.pi / N := by positivity
    linarith [mul_le_mul_of_nonneg_right this h2]
  obtain ⟨img, h1, h2, h3⟩ := C30_labels_partial edges heven hasc (.inl N) center shape 0 hseg
  refine ⟨img, h1, fun r c hr hc => ?_⟩
  obtain ⟨θ, lab, hpol, hat, hz, hl⟩ := h2 r c hr hc
  rw [hlen, Nat.add_sub_cancel] at hl
  have hin : ∀ j, j < N → (Spec.inSeg (segmentEdges (.inl N) 0) j θ ↔ ((j : ℝ) * (2 * Real.pi / N) ≤ θ ∧ θ < (j + 1 : ℕ) * (2 * Real.pi / N))) := by
    intro j hj
    unfold Spec.inSeg
    rw [hsegget j (by omega), hsegget (j + 1) (by omega)]
    simp
  -- every angle is in some segment
  have hex : ∃ j < N, Spec.inSeg (segmentEdges (.inl N) 0) j θ := by
    have d0 : 0 < digitizeG (segmentEdges (.inl N) 0) θ :=
      (digitizeG_iff _ hseg θ 0 _ (hsegget 0 (by omega))).1 (by simpa using hpol.1)
    have d1 : ¬ N < digitizeG (segmentEdges (.inl N) 0) θ := by
      intro hc'
      have := (digitizeG_iff _ hseg θ N _ (hsegget N le_rfl)).2 hc'
      have e : (N : ℝ) * (2 * Real.pi / N) = 2 * Real.pi := by field_simp
      rw [e] at this
      linarith [hpol.2.1]
    obtain ⟨j, hj⟩ := Nat.exists_eq_succ_of_ne_zero d0.ne'
    exact ⟨j, by omega, (seg_iff _ hseg j θ).2 ⟨hj, by rw [hlen]; omega⟩⟩
  refine ⟨θ, lab, hpol, hat, ⟨?_, hz⟩, ?_⟩
  · intro h0 i hi
    obtain ⟨j, hj, hs⟩ := hex
    have := (hl i j hi hs).1
    omega
  · intro i j
    constructor
    · rintro ⟨hlab, hj⟩
      have hring : ∃ i', Spec.inPair edges i' (Spec.radius center r c) := by
        by_contra hno
        push Not at hno
        have := hz hno
        omega
      obtain ⟨i', hi'⟩ := hring
      obtain ⟨j', hj', hs'⟩ := hex
      have := (hl i' j' hi' hs').1
      obtain ⟨rfl, rfl⟩ := h3 N i j i' j' hj hj' (by omega)
      exact ⟨hi', (hin _ hj).1 hs'⟩
    · rintro ⟨hi, hθ⟩
      have hj : j < N := by
        have h5 : (j : ℝ) * (2 * Real.pi / N) < N * (2 * Real.pi / N) := by
          have e : (N : ℝ) * (2 * Real.pi / N) = 2 * Real.pi := by field_simp
          rw [e]; linarith [hθ.1, hpol.2.1]
        have := lt_of_mul_lt_mul_right h5 (by positivity)
        exact_mod_cast this
      exact ⟨(hl i j hi ((hin j hj).2 hθ)).1, hj⟩

/-- C30 is false with an offset: with one segment starting at angle 0.1, the pixel (0, 2) of the outer ring and the pixel
(1, 0) of the inner ring get the same label 1, and the pixel (0, 1) of the inner ring gets 0. -/
theorem C30_offset_refuted : ∃ img, segmentedRings [1, 2, 2, 3] (.inl 1) (0, 0) (2, 3) (1/10) = .ok img ∧
    Spec.inPair [1, 2, 2, 3] 1 (Spec.radius (0, 0) 0 2) ∧ Geom.Spec.at img 0 2 = some 1 ∧
    Spec.inPair [1, 2, 2, 3] 0 (Spec.radius (0, 0) 1 0) ∧ Geom.Spec.at img 1 0 = some 1 ∧
    Spec.inPair [1, 2, 2, 3] 0 (Spec.radius (0, 0) 0 1) ∧ Geom.Spec.at img 0 1 = some 0 := by
  have hp := Real.pi_pos
  have hok : edgesOk ([1, 2, 2, 3] : List ℝ) = true := (edgesOk_iff _).2 ⟨by simp, by simp; norm_num⟩
  obtain ⟨img, h1, h2⟩ := pixel_label [1, 2, 2, 3] hok (.inl 1) (0, 0) (2, 3) (1/10)
  have r1 : Spec.radius (0, 0) 0 2 = 2 := by
    unfold Spec.radius
    norm_num
    rw [show (4 : ℝ) = 2 ^ 2 by norm_num]
    exact Real.sqrt_sq (by norm_num)
  have r2 : Spec.radius (0, 0) 1 0 = 1 := by unfold Spec.radius; norm_num
  have r3 : Spec.radius (0, 0) 0 1 = 1 := by unfold Spec.radius; norm_num
  have q1 : Spec.inPair ([1, 2, 2, 3] : List ℝ) 1 2 := ⟨2, 3, rfl, rfl, by norm_num, by norm_num⟩
  have q2 : Spec.inPair ([1, 2, 2, 3] : List ℝ) 0 1 := ⟨1, 2, rfl, rfl, by norm_num, by norm_num⟩
  have hseg : segmentEdges (.inl 1) (1/10) = [1/10, 2 * Real.pi + 1/10] := by
    simp [segmentEdges, List.range_succ]
  have dsmall : ∀ θ : ℝ, θ < 1/10 → digitizeG [1/10, 2 * Real.pi + 1/10] θ = 0 := by
    intro θ h
    unfold digitizeG
    have a : ¬ (1/10 : ℝ) ≤ θ := by linarith
    have b : ¬ (2 * Real.pi + 1/10 : ℝ) ≤ θ := by linarith
    simp only [one_div] at a b
    simp [List.countP_cons, a, b]
  have dmid : ∀ θ : ℝ, 1/10 ≤ θ → θ < 2 * Real.pi → digitizeG [1/10, 2 * Real.pi + 1/10] θ = 1 := by
    intro θ h h'
    unfold digitizeG
    have b : ¬ (2 * Real.pi + 1/10 : ℝ) ≤ θ := by linarith
    simp only [one_div] at h b
    simp [List.countP_cons, h, b]
  -- a pixel on the positive column axis has angle 0
  have hzero : ∀ (c : ℕ) (θ : ℝ), 0 < c → Spec.Polar (0, 0) 0 c θ → θ = 0 := by
    intro c θ hc ⟨t0, t1, tc, ts⟩
    have hr : Spec.radius (0, 0) 0 c = c := by
      unfold Spec.radius; simp
    rw [hr] at tc ts
    have hcpos : (c : ℝ) ≠ 0 := by exact_mod_cast hc.ne'
    have hcos : Real.cos θ = 1 := by
      have tc' : (c : ℝ) * Real.cos θ = c * 1 := by simpa using tc
      exact mul_left_cancel₀ hcpos tc'
    obtain ⟨n, hn⟩ := (Real.cos_eq_one_iff θ).1 hcos
    have hnn : n = 0 := by
      have a : (n : ℝ) < 1 := by nlinarith
      have b : (-1 : ℝ) < n := by nlinarith
      have a' : n < 1 := by exact_mod_cast a
      have b' : -1 < n := by exact_mod_cast b
      omega
    rw [hnn] at hn; simpa using hn.symm
  refine ⟨img, h1, by rw [r1]; exact q1, ?_, by rw [r2]; exact q2, ?_, by rw [r3]; exact q2, ?_⟩
  · obtain ⟨θ, hpol, hat⟩ := h2 0 2 (by decide) (by decide)
    have := hzero 2 θ (by norm_num) hpol
    subst this
    rw [hat, r1, (segLabel_spec _ _ hok 2 0).2 1 q1, hseg, dsmall 0 (by norm_num)]
    simp
  · obtain ⟨θ, hpol, hat⟩ := h2 1 0 (by decide) (by decide)
    obtain ⟨t0, t1, tc, ts⟩ := hpol
    rw [r2] at tc ts
    simp at tc ts
    have : 1/10 ≤ θ := by
      by_contra hlt
      push Not at hlt
      have := Real.sin_le (x := θ) t0
      linarith
    rw [hat, r2, (segLabel_spec _ _ hok 1 θ).2 0 q2, hseg, dmid θ this t1]
    simp
  · obtain ⟨θ, hpol, hat⟩ := h2 0 1 (by decide) (by decide)
    have := hzero 1 θ (by norm_num) hpol
    subst this
    rw [hat, r3, (segLabel_spec _ _ hok 1 0).2 0 q2, hseg, dsmall 0 (by norm_num)]
    simp

/-! ## C31 bar and box -/

/-- bar without coordinate values: row (horizontal) or column (vertical) position; the k-th pair of edges has label k+1. -/
theorem C31_bar_partial (edges : List ℚ) (heven : edges.length % 2 = 0) (hasc : edges.Pairwise (· ≤ ·)) (shape : ℕ × ℕ) (horizontal : Bool) :
    ∃ img, bar edges shape horizontal none = .ok img ∧ img.length = shape.1 * shape.2 ∧
      ∀ r c, r < shape.1 → c < shape.2 → ∃ lab, img[r * shape.2 + c]? = some lab ∧
        Spec.Labels (fun k => Spec.inPair edges k (if horizontal then (r : ℚ) else (c : ℚ))) lab := by
  have hok := (edgesOk_iff edges).2 ⟨heven, hasc⟩
  unfold bar
  rw [if_pos hok]
  simp only
  cases horizontal
  · have hl : ((List.range shape.1).flatMap (fun _ => (List.range shape.2).map (fun (c : ℕ) => (c : ℚ)))).length = shape.1 * shape.2 := by
      rw [length_flatMap_const _ _ shape.2 (by simp)]; simp
    simp only [Bool.false_eq_true, if_false]
    rw [if_pos hl]
    refine ⟨_, rfl, by rw [List.length_map, hl], fun r c hr hc => ?_⟩
    rw [List.getElem?_map, getElem?_flatMap_const _ _ shape.2 (by simp) r c hc]
    simp only [List.getElem?_range hr, Option.bind_some, List.getElem?_map, List.getElem?_range hc, Option.map_some]
    exact ⟨_, rfl, makeRoi_labels edges hok _⟩
  · have hl : ((List.range shape.1).flatMap (fun (r : ℕ) => List.replicate shape.2 (r : ℚ))).length = shape.1 * shape.2 := by
      rw [length_flatMap_const _ _ shape.2 (by simp)]; simp
    simp only [if_true]
    rw [if_pos hl]
    refine ⟨_, rfl, by rw [List.length_map, hl], fun r c hr hc => ?_⟩
    rw [List.getElem?_map, getElem?_flatMap_const _ _ shape.2 (by simp) r c hc]
    simp only [List.getElem?_range hr, Option.bind_some, List.getElem?_replicate, if_pos hc, Option.map_some]
    exact ⟨_, rfl, makeRoi_labels edges hok _⟩

/-- bar with coordinate values, horizontal. -/
theorem C31_bar_values_partial (edges : List ℚ) (heven : edges.length % 2 = 0) (hasc : edges.Pairwise (· ≤ ·)) (shape : ℕ × ℕ)
    (v : List ℚ) (hv : v.length = shape.1 * shape.2) :
    ∃ img, bar edges shape true (some v) = .ok img ∧ ∀ (p : ℕ) (x : ℚ), v[p]? = some x → ∃ lab, img[p]? = some lab ∧
      Spec.Labels (fun k => Spec.inPair edges k x) lab := by
  have hok := (edgesOk_iff edges).2 ⟨heven, hasc⟩
  unfold bar
  rw [if_pos hok]
  simp only [if_true]
  rw [if_pos hv]
  refine ⟨_, rfl, fun p x hx => ?_⟩
  rw [List.getElem?_map, hx]
  exact ⟨_, rfl, makeRoi_labels edges hok _⟩

/-- bar rejects bad edges. -/
theorem C31_bar_rejects (edges : List ℚ) (h : ¬ (edges.length % 2 = 0 ∧ edges.Pairwise (· ≤ ·))) (shape : ℕ × ℕ) (horizontal : Bool)
    (v : Option (List ℚ)) : bar edges shape horizontal v = .error .valueError := by
  unfold bar
  rw [if_neg]
  rw [edgesOk_iff]; exact h

/-- C31 is false for vertical bars with given coordinate values: they are ignored. -/
theorem C31_vertical_values_ignored_refuted (edges : List ℚ) (shape : ℕ × ℕ) (v : List ℚ) :
    bar edges shape false (some v) = bar edges shape false none := rfl

/-- ... e.g. coordinates 10, 11, 12 in the bin [10, 20) are labelled 0. -/
example : bar [10, 20] (1, 3) false (some [10, 11, 12]) = .ok [0, 0, 0] := by decide +kernel

/-- C31 is false for box with coordinate values: only their shape matters. -/
theorem C31_box_values_ignored_refuted (shape shp : ℕ × ℕ) (vE : List (ℤ × ℤ)) (hE : Option (List (ℤ × ℤ))) (hv vv : List ℚ) :
    box shape vE hE (some (shp, hv, vv)) = box shp vE hE none := rfl

/-- box without coordinate values: with non-negative edges, pixels of the image in at most one horizontal and at most one
vertical pair, pixel (r, c) has label i * (number of vertical pairs) + j + 1 iff its row is in the i-th horizontal and its
column in the j-th vertical pair, and 0 iff it is in no such intersection. -/
theorem C31_box_partial (shape : ℕ × ℕ) (vE hE : List (ℤ × ℤ)) (h0 : ∀ p ∈ hE, 0 ≤ p.2) (v0 : ∀ p ∈ vE, 0 ≤ p.2)
    (hdis : ∀ (i j : ℕ) (p q : ℤ × ℤ), hE[i]? = some p → hE[j]? = some q → ∀ r : ℕ, p.1 ≤ r → (r : ℤ) < p.2 → q.1 ≤ r → (r : ℤ) < q.2 → i = j)
    (vdis : ∀ (i j : ℕ) (p q : ℤ × ℤ), vE[i]? = some p → vE[j]? = some q → ∀ c : ℕ, p.1 ≤ c → (c : ℤ) < p.2 → q.1 ≤ c → (c : ℤ) < q.2 → i = j) :
    ∃ L, box shape vE (some hE) none = .ok L ∧ ∀ r c, r < shape.1 → c < shape.2 →
      (∀ (i j : ℕ) (p q : ℤ × ℤ), hE[i]? = some p → vE[j]? = some q →
        (L r c = i * vE.length + j + 1 ↔ p.1 ≤ r ∧ (r : ℤ) < p.2 ∧ q.1 ≤ c ∧ (c : ℤ) < q.2)) ∧
      (L r c = 0 ↔ ∀ p ∈ hE, ∀ q ∈ vE, ¬ (p.1 ≤ r ∧ (r : ℤ) < p.2 ∧ q.1 ≤ c ∧ (c : ℤ) < q.2)) := by
  set coords := hE.flatMap (fun h => vE.map (fun v => (h.1, v.1, h.2 - h.1, v.2 - v.1))) with hcoords
  have hget : ∀ (i j : ℕ), j < vE.length → coords[i * vE.length + j]? = hE[i]?.bind (fun h => vE[j]?.map (fun v => (h.1, v.1, h.2 - h.1, v.2 - v.1))) := by
    intro i j hj
    rw [hcoords, getElem?_flatMap_const _ _ vE.length (by simp) i j hj]
    simp
  have hlen : coords.length = hE.length * vE.length := by rw [hcoords, length_flatMap_const _ _ vE.length (by simp)]
  have hdecomp : ∀ (k : ℕ) (x : ℤ × ℤ × ℤ × ℤ), coords[k]? = some x → ∃ (i j : ℕ) (p q : ℤ × ℤ), k = i * vE.length + j ∧ j < vE.length ∧ hE[i]? = some p ∧ vE[j]? = some q ∧
      x = (p.1, q.1, p.2 - p.1, q.2 - q.1) := by
    intro k x hx
    obtain ⟨hk, _⟩ := List.getElem?_eq_some_iff.1 hx
    have hvpos : 0 < vE.length := by
      rcases Nat.eq_zero_or_pos vE.length with h | h
      · rw [hlen, h] at hk; omega
      · exact h
    have hkd : k = (k / vE.length) * vE.length + k % vE.length := by rw [Nat.mul_comm]; exact (Nat.div_add_mod k _).symm
    have hm := Nat.mod_lt k hvpos
    rw [hkd, hget _ _ hm] at hx
    cases hp : hE[k / vE.length]? with
    | none => rw [hp] at hx; simp at hx
    | some p =>
      cases hq : vE[k % vE.length]? with
      | none => rw [hp, hq] at hx; simp at hx
      | some q =>
        rw [hp, hq] at hx
        simp at hx
        exact ⟨_, _, p, q, hkd, hm, hp, hq, hx.symm⟩
  have hrect : ∀ (p q : ℤ × ℤ) (r c : ℕ), Spec.inRect (p.1, q.1, p.2 - p.1, q.2 - q.1) r c ↔ p.1 ≤ r ∧ (r : ℤ) < p.2 ∧ q.1 ≤ c ∧ (c : ℤ) < q.2 := by
    intro p q r c
    unfold Spec.inRect
    simp only
    constructor <;> intro h <;> omega
  have hpos : ∀ x ∈ coords, 0 ≤ x.1 + x.2.2.1 ∧ 0 ≤ x.2.1 + x.2.2.2 := by
    intro x hx
    rw [hcoords, List.mem_flatMap] at hx
    obtain ⟨h, hh, hx⟩ := hx
    obtain ⟨v, hv, rfl⟩ := List.mem_map.1 hx
    have := h0 h hh
    have := v0 v hv
    simp only
    omega
  have main := (C27_rectangles_partial coords shape hpos).2 (by
    rintro ⟨r, c, k, k', x, x', hr, hc, hkk, hx, hx', hin, hin'⟩
    obtain ⟨i, j, p, q, e1, _, e3, e4, rfl⟩ := hdecomp k x hx
    obtain ⟨i', j', p', q', f1, _, f3, f4, rfl⟩ := hdecomp k' x' hx'
    rw [hrect] at hin hin'
    have a := hdis i i' p p' e3 f3 r hin.1 hin.2.1 hin'.1 hin'.2.1
    have b := vdis j j' q q' e4 f4 c hin.2.2.1 hin.2.2.2 hin'.2.2.1 hin'.2.2.2
    subst a b
    omega)
  obtain ⟨L, hL, hlab⟩ := main
  refine ⟨L, hL, fun r c hr hc => ?_⟩
  obtain ⟨l1, l2⟩ := hlab r c hr hc
  have hvlt : ∀ (j : ℕ) (q : ℤ × ℤ), vE[j]? = some q → j < vE.length := fun j q hq => (List.getElem?_eq_some_iff.1 hq).1
  constructor
  · intro i j p q hp hq
    have hjl := hvlt j q hq
    refine Iff.trans (l1 _) ?_
    beta_reduce
    rw [hget i j hjl, hp, hq]
    simp only [Option.bind_some, Option.map_some, Option.some.injEq]
    constructor
    · rintro ⟨x, rfl, hin⟩; exact (hrect p q r c).1 hin
    · intro hin; exact ⟨_, rfl, (hrect p q r c).2 hin⟩
  · refine Iff.trans l2 ?_
    constructor
    · intro hno p hp q hq hin
      obtain ⟨i, hi⟩ := List.mem_iff_getElem?.1 hp
      obtain ⟨j, hj⟩ := List.mem_iff_getElem?.1 hq
      refine hno (i * vE.length + j) ⟨_, ?_, (hrect p q r c).2 hin⟩
      rw [hget i j (hvlt j q hj), hi, hj]; rfl
    · rintro hno k ⟨x, hx, hin⟩
      obtain ⟨i, j, p, q, _, _, e3, e4, rfl⟩ := hdecomp k x hx
      exact hno p (List.mem_of_getElem? e3) q (List.mem_of_getElem? e4) ((hrect p q r c).1 hin)

example : (match box (4, 5) [(1, 2), (3, 5)] (some [(0, 1), (2, 4)]) none with
    | .ok L => (List.range 4).map (fun r => (List.range 5).map (L r))
    | .error _ => []) = [[0, 1, 0, 2, 2], [0, 0, 0, 0, 0], [0, 3, 0, 4, 4], [0, 3, 0, 4, 4]] := by decide +kernel

end Verif.Roi
