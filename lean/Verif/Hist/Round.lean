/- Property C203: Histogram in floating-point arithmetic. -/
import Verif.Hist.Props
import Verif.FlProps
import Mathlib.Tactic.IntervalCases

namespace Verif.Hist
open Verif

/-- The position, in units of bins, is not within 5·u·n of an inner or upper bin boundary. -/
def Spec.Away (u : ℚ) (a : Axis) (x : ℚ) : Prop :=
  ∀ m : ℕ, 1 ≤ m → m ≤ a.nbin → 5 * u * a.nbin < |(x - a.low) / (a.high - a.low) * a.nbin - m|

theorem ratio_bounds (u d l A W y Y : ℚ) (hu : 0 ≤ u) (hu1 : u ≤ 1 / 100) (hd : 0 ≤ d) (hl : 0 < l) (hA1 : (1 - u) * d ≤ A) (hA2 : A ≤ (1 + u) * d)
    (hW1 : (1 - u) ^ 2 * l ≤ W) (hW2 : W ≤ (1 + u) ^ 2 * l) (hy : y = d / l) (hY1 : (1 - u) * (A / W) ≤ Y) (hY2 : Y ≤ (1 + u) * (A / W)) :
    0 ≤ Y ∧ Y ≤ (1 + 5 * u) * y ∧ (1 - 5 * u) * y ≤ Y := by
  have a1 : 0 ≤ 1 - u := by linarith
  have a2 : 0 ≤ 1 + u := by linarith
  have p1 : 0 < (1 - u) ^ 2 := by have : 0 < 1 - u := by linarith
                                  positivity
  have p2 : 0 < (1 + u) ^ 2 := by have : 0 < 1 + u := by linarith
                                  positivity
  have hWp : 0 < W := lt_of_lt_of_le (mul_pos p1 hl) hW1
  have hA0 : 0 ≤ A := le_trans (mul_nonneg a1 hd) hA1
  have hy0 : 0 ≤ y := by rw [hy]; exact div_nonneg hd hl.le
  have hdy : d = y * l := by rw [hy]; field_simp
  have hq0 : 0 ≤ A / W := div_nonneg hA0 hWp.le
  have hq2 : (1 - u) ^ 2 * (A / W) ≤ (1 + u) * y := by
    rw [show (1 - u) ^ 2 * (A / W) = ((1 - u) ^ 2 * A) / W by ring, div_le_iff₀ hWp]
    have e1 := mul_le_mul_of_nonneg_left hA2 p1.le
    have e2 := mul_le_mul_of_nonneg_left hW1 (mul_nonneg a2 hy0)
    rw [hdy] at e1
    linarith
  have hq1 : (1 - u) * y ≤ (1 + u) ^ 2 * (A / W) := by
    rw [show (1 + u) ^ 2 * (A / W) = ((1 + u) ^ 2 * A) / W by ring, le_div_iff₀ hWp]
    have e1 := mul_le_mul_of_nonneg_left hA1 p2.le
    have e2 := mul_le_mul_of_nonneg_left hW2 (mul_nonneg a1 hy0)
    rw [hdy] at e1
    linarith
  have hu2 := mul_nonneg hu hu
  have hu3 := mul_nonneg hu2 hu
  have c1 : (1 + u) ^ 2 ≤ (1 + 5 * u) * (1 - u) ^ 2 := by nlinarith
  have c2 : (1 - 5 * u) * (1 + u) ^ 2 ≤ (1 - u) ^ 2 := by nlinarith
  refine ⟨le_trans (mul_nonneg a1 hq0) hY1, ?_, ?_⟩
  · have e1 := mul_le_mul_of_nonneg_left hq2 a2
    have e2 := mul_le_mul_of_nonneg_right c1 hy0
    have e3 := mul_le_mul_of_nonneg_left hY2 p1.le
    have e4 : (1 - u) ^ 2 * Y ≤ (1 - u) ^ 2 * ((1 + 5 * u) * y) := by linarith
    exact le_of_mul_le_mul_left e4 p1
  · have e1 := mul_le_mul_of_nonneg_left hq1 a1
    have e2 := mul_le_mul_of_nonneg_right c2 hy0
    have e3 := mul_le_mul_of_nonneg_left hY1 p2.le
    have e4 : (1 + u) ^ 2 * ((1 - 5 * u) * y) ≤ (1 + u) ^ 2 * Y := by linarith
    exact le_of_mul_le_mul_left e4 p2

/-- In range, the computed bin position is that of a real number close to the exact position. -/
theorem position_bounds (u : ℚ) (hu1 : u ≤ 1 / 100) (fl : ℚ → ℚ) (hr : Fl.Spec.Rel u fl) (a : Axis) (hn : 0 < a.nbin) (x : ℚ)
    (hin : a.low ≤ x ∧ x < a.high) : ∃ Y y : ℚ, findIndices fl x a.low a.high (a.binsize fl) = pyInt Y ∧
      findIndices id x a.low a.high (a.binsize id) = pyInt y ∧ (x - a.low) / (a.high - a.low) * a.nbin = y ∧ 0 ≤ y ∧ y < a.nbin ∧
      0 ≤ Y ∧ Y ≤ (1 + 5 * u) * y ∧ (1 - 5 * u) * y ≤ Y := by
  obtain ⟨hu, hr⟩ := hr
  unfold findIndices
  rw [if_neg (not_not.2 hin), if_neg (not_not.2 hin)]
  have hn' : (0 : ℚ) < a.nbin := by exact_mod_cast hn
  have hl : 0 < a.high - a.low := by linarith [hin.1, hin.2]
  have hd : 0 ≤ x - a.low := by linarith [hin.1]
  have a1 : 0 ≤ 1 - u := by linarith
  have pos : ∀ z, 0 ≤ z → (1 - u) * z ≤ fl z ∧ fl z ≤ (1 + u) * z := by
    intro z hz
    have := abs_le.1 (hr z)
    rw [abs_of_nonneg hz] at this
    constructor <;> linarith [this.1, this.2]
  obtain ⟨hA1, hA2⟩ := pos _ hd
  obtain ⟨hL1, hL2⟩ := pos _ hl.le
  have hL0 : 0 ≤ fl (a.high - a.low) := le_trans (mul_nonneg a1 hl.le) hL1
  obtain ⟨hW1, hW2⟩ := pos _ (div_nonneg hL0 hn'.le)
  set W := fl (fl (a.high - a.low) / a.nbin) with hW
  have hWl : (1 - u) ^ 2 * ((a.high - a.low) / a.nbin) ≤ W := by
    refine le_trans ?_ hW1
    have := div_le_div_of_nonneg_right hL1 hn'.le
    have := mul_le_mul_of_nonneg_left this a1
    calc (1 - u) ^ 2 * ((a.high - a.low) / a.nbin) = (1 - u) * ((1 - u) * (a.high - a.low) / a.nbin) := by ring
      _ ≤ _ := this
  have hWu : W ≤ (1 + u) ^ 2 * ((a.high - a.low) / a.nbin) := by
    refine le_trans hW2 ?_
    have := div_le_div_of_nonneg_right hL2 hn'.le
    have := mul_le_mul_of_nonneg_left this (show 0 ≤ 1 + u by linarith)
    calc (1 + u) * (fl (a.high - a.low) / a.nbin) ≤ (1 + u) * ((1 + u) * (a.high - a.low) / a.nbin) := this
      _ = _ := by ring
  have hlp : 0 < (a.high - a.low) / a.nbin := div_pos hl hn'
  have hW0 : 0 < W := lt_of_lt_of_le (mul_pos (pow_pos (show 0 < 1 - u by linarith) 2) hlp) hWl
  have hA0 : 0 ≤ fl (x - a.low) := le_trans (mul_nonneg a1 hd) hA1
  obtain ⟨hY1, hY2⟩ := pos _ (div_nonneg hA0 hW0.le)
  obtain ⟨hY0, hYu, hYl⟩ := ratio_bounds u (x - a.low) ((a.high - a.low) / a.nbin) (fl (x - a.low)) W _ _ hu hu1 hd hlp hA1 hA2 hWl hWu rfl hY1 hY2
  refine ⟨fl (fl (x - a.low) / W), (x - a.low) / ((a.high - a.low) / a.nbin), rfl, rfl, ?_, div_nonneg hd hlp.le, ?_, hY0, hYu, hYl⟩
  · field_simp
  · rw [div_lt_iff₀ hlp, mul_div_assoc', mul_comm, mul_div_assoc, div_self hn'.ne', mul_one]
    linarith [hin.2]

theorem pyInt_eq (Y : ℚ) (i : ℕ) (h0 : 0 ≤ Y) (h1 : (i : ℚ) ≤ Y) (h2 : Y < i + 1) : pyInt Y = i := by
  unfold pyInt; rw [if_pos h0, Int.floor_eq_iff]; push_cast; exact ⟨h1, h2⟩

theorem findIndices_round (u : ℚ) (hu1 : u ≤ 1 / 100) (fl : ℚ → ℚ) (hr : Fl.Spec.Rel u fl) (a : Axis) (hn : 0 < a.nbin) (x : ℚ)
    (hx : Spec.Away u a x) : findIndices fl x a.low a.high (a.binsize fl) = findIndices id x a.low a.high (a.binsize id) := by
  by_cases hin : a.low ≤ x ∧ x < a.high
  · obtain ⟨Y, y, hf, he, hyp, hy0, hyn, hY0, hYu, hYl⟩ := position_bounds u hu1 fl hr a hn x hin
    rw [hf, he]
    have hu := hr.1
    have huy : u * y ≤ u * a.nbin := mul_le_mul_of_nonneg_left hyn.le hu
    obtain ⟨i, hi⟩ : ∃ i : ℕ, (i : ℤ) = ⌊y⌋ := ⟨⌊y⌋.toNat, Int.toNat_of_nonneg (Int.floor_nonneg.2 hy0)⟩
    have hf := Int.floor_eq_iff.1 hi.symm
    push_cast at hf
    have hin' : i < a.nbin := by
      have : (i : ℚ) < a.nbin := lt_of_le_of_lt hf.1 hyn
      exact_mod_cast this
    have hup : y < i + 1 - 5 * u * a.nbin := by
      have := hx (i + 1) (by omega) (by omega)
      rw [hyp] at this
      push_cast at this
      rw [abs_of_neg (by linarith [hf.2])] at this
      linarith
    have hlow : (i : ℚ) ≤ Y := by
      rcases Nat.eq_zero_or_pos i with h0 | h0
      · rw [h0]; simpa using hY0
      · have := hx i h0 hin'.le
        rw [hyp, abs_of_nonneg (by linarith [hf.1])] at this
        linarith
    rw [pyInt_eq Y i hY0 hlow (by linarith), pyInt_eq y i hy0 hf.1 hf.2]
  · unfold findIndices
    rw [if_pos hin, if_pos hin]

theorem fill1d_round (u : ℚ) (hu1 : u ≤ 1 / 100) (fl fa : ℚ → ℚ) (hr : Fl.Spec.Rel u fl) (a : Axis) (hn : 0 < a.nbin) (l : List (ℚ × ℚ))
    (hl : ∀ p ∈ l, Spec.Away u a p.1) (v : List ℚ) : fill1dLoop fl fa a v l = fill1dLoop id fa a v l := by
  induction l generalizing v with
  | nil => rfl
  | cons p t ih =>
    obtain ⟨x, w⟩ := p
    have ih := ih (fun p hp => hl p (by simp [hp]))
    simp only [fill1dLoop, findIndices_round u hu1 fl hr a hn x (hl (x, w) (by simp)), ih]

theorem fill2d_round (u : ℚ) (hu1 : u ≤ 1 / 100) (fl fa : ℚ → ℚ) (hr : Fl.Spec.Rel u fl) (a b : Axis) (ha : 0 < a.nbin) (hb : 0 < b.nbin)
    (l : List ((ℚ × ℚ) × ℚ)) (hl : ∀ p ∈ l, Spec.Away u a p.1.1 ∧ Spec.Away u b p.1.2) (v : List ℚ) : fill2dLoop fl fa a b v l = fill2dLoop id fa a b v l := by
  induction l generalizing v with
  | nil => rfl
  | cons p t ih =>
    obtain ⟨⟨x, y⟩, w⟩ := p
    have ih := ih (fun p hp => hl p (by simp [hp]))
    obtain ⟨h1, h2⟩ := hl ((x, y), w) (by simp)
    simp only [fill2dLoop, findIndices_round u hu1 fl hr a ha x h1, findIndices_round u hu1 fl hr b hb y h2, ih]

/-- Dimension data of one axis and its stride. -/
def info (fl : ℚ → ℚ) (q : Axis × ℕ) : DimInfo := ⟨q.2, q.1.low, q.1.high, q.1.binsize fl⟩

theorem dimInfos_map (fl : ℚ → ℚ) (axes : List Axis) : dimInfos fl axes = (axes.zip (strides (axes.map Axis.nbin))).map (info fl) := by
  unfold dimInfos info
  rw [List.zip, List.map_zipWith]

theorem ndIndex_round (u : ℚ) (hu1 : u ≤ 1 / 100) (fl : ℚ → ℚ) (hr : Fl.Spec.Rel u fl) (l : List (ℚ × (Axis × ℕ)))
    (hl : ∀ p ∈ l, 0 < p.2.1.nbin ∧ Spec.Away u p.2.1 p.1) (d : ℤ) :
    ndIndex fl (l.map (fun p => (p.1, info fl p.2))) d = ndIndex id (l.map (fun p => (p.1, info id p.2))) d := by
  induction l generalizing d with
  | nil => rfl
  | cons p t ih =>
    have ih := ih (fun p hp => hl p (by simp [hp]))
    obtain ⟨h1, h2⟩ := hl p (by simp)
    simp only [List.map_cons, ndIndex, info]
    rw [findIndices_round u hu1 fl hr p.2.1 h1 p.1 h2]
    simp only [info] at ih
    rw [ih]

theorem nd_pairs (fl : ℚ → ℚ) (axes : List Axis) (coords : List Coord) (hl : coords.length = axes.length)
    (ht : ∀ c ∈ coords, c.dtype = .int64 ∨ c.dtype = .float64) (i : ℕ) :
    let dims := (sortDims (coords.zip (dimInfos fl axes))).map Prod.snd
    let B := coords.zip (axes.zip (strides (axes.map Axis.nbin)))
    let I := B.filter (fun p => p.1.dtype = .int64)
    let F := B.filter (fun p => p.1.dtype = .float64)
    ((coords.filter (fun c => c.dtype = .int64)).map (·.raw i)).zip dims = (I.map (fun b => (b.1.raw i, b.2))).map (fun p => (p.1, info fl p.2)) ∧
    ((coords.filter (fun c => c.dtype = .float64)).map (·.raw i)).zip (dims.drop (coords.filter (fun c => c.dtype = .int64)).length) =
      (F.map (fun b => (b.1.raw i, b.2))).map (fun p => (p.1, info fl p.2)) := by
  intro dims B I F
  have hBl : coords.length = (axes.zip (strides (axes.map Axis.nbin))).length := by simp [length_strides, hl]
  have hcs : coords.zip (dimInfos fl axes) = B.map (fun b => (b.1, info fl b.2)) := by
    rw [dimInfos_map, List.zip_map_right]; rfl
  have hcst : ∀ p ∈ coords.zip (dimInfos fl axes), p.1.dtype = .int64 ∨ p.1.dtype = .float64 := fun p hp' => ht _ (List.of_mem_zip hp').1
  have hd : dims = I.map (fun b => info fl b.2) ++ F.map (fun b => info fl b.2) := by
    simp only [dims]
    rw [sortDims_eq _ hcst, hcs, List.filter_map, List.filter_map, List.map_append, List.map_map, List.map_map]
    rfl
  have hI : coords.filter (fun c => c.dtype = .int64) = I.map Prod.fst :=
    (zip_filter_fst (fun c : Coord => decide (c.dtype = .int64)) coords _ hBl).symm
  have hF : coords.filter (fun c => c.dtype = .float64) = F.map Prod.fst :=
    (zip_filter_fst (fun c : Coord => decide (c.dtype = .float64)) coords _ hBl).symm
  rw [hI, hF, hd]
  constructor
  · have := List.zip_append (l₁ := (I.map Prod.fst).map (fun c : Coord => c.raw i)) (r₁ := [])
      (l₂ := I.map (fun b => info fl b.2)) (r₂ := F.map (fun b => info fl b.2)) (by simp)
    rw [List.append_nil, List.zip_nil_left, List.append_nil] at this
    rw [this, List.map_map, List.zip_map', List.map_map]
    rfl
  · rw [show (I.map Prod.fst).length = (I.map (fun b => info fl b.2)).length by simp, List.drop_left, List.map_map, List.zip_map', List.map_map]
    rfl

theorem fillnd_round (u : ℚ) (hu1 : u ≤ 1 / 100) (fl fa : ℚ → ℚ) (hr : Fl.Spec.Rel u fl) (axes : List Axis) (hp : ∀ a ∈ axes, 0 < a.nbin)
    (coords : List Coord) (hl : coords.length = axes.length) (ht : ∀ c ∈ coords, c.dtype = .int64 ∨ c.dtype = .float64) (n : ℕ)
    (hx : ∀ p ∈ coords.zip axes, ∀ i < n, Spec.Away u p.2 (p.1.raw i)) (l : List (ℕ × ℚ)) (hln : ∀ p ∈ l, p.1 < n) (v : List ℚ) :
    fillndLoop fl fa (coords.filter (fun c => c.dtype = .int64)) (coords.filter (fun c => c.dtype = .float64))
      ((sortDims (coords.zip (dimInfos fl axes))).map Prod.snd) v l =
    fillndLoop id fa (coords.filter (fun c => c.dtype = .int64)) (coords.filter (fun c => c.dtype = .float64))
      ((sortDims (coords.zip (dimInfos id axes))).map Prod.snd) v l := by
  have hB : ∀ b ∈ coords.zip (axes.zip (strides (axes.map Axis.nbin))), ∀ i < n, 0 < b.2.1.nbin ∧ Spec.Away u b.2.1 (b.1.raw i) := by
    intro b hb i hi
    have h2 : (b.1, b.2.1) ∈ coords.zip axes := by
      obtain ⟨k, hk, rfl⟩ := List.getElem_of_mem hb
      rw [List.getElem_zip, List.getElem_zip]
      have hk' : k < (coords.zip axes).length := by
        simp [length_strides] at hk ⊢; omega
      have := List.getElem_mem hk'
      rwa [List.getElem_zip] at this
    exact ⟨hp _ (List.of_mem_zip h2).2, hx _ h2 i hi⟩
  induction l generalizing v with
  | nil => rfl
  | cons p t ih =>
    obtain ⟨i, w⟩ := p
    have hi : i < n := hln (i, w) (by simp)
    have ih := ih (fun p hp => hln p (by simp [hp]))
    obtain ⟨p1, p2⟩ := nd_pairs fl axes coords hl ht i
    obtain ⟨q1, q2⟩ := nd_pairs id axes coords hl ht i
    simp only [fillndLoop]
    rw [p1, p2, q1, q2]
    have r1 := ndIndex_round u hu1 fl hr (((coords.zip (axes.zip (strides (axes.map Axis.nbin)))).filter (fun p => p.1.dtype = .int64)).map (fun b => (b.1.raw i, b.2)))
      (by intro p hp'
          obtain ⟨b, hb, rfl⟩ := List.mem_map.1 hp'
          exact hB b (List.mem_filter.1 hb).1 i hi)
    have r2 := ndIndex_round u hu1 fl hr (((coords.zip (axes.zip (strides (axes.map Axis.nbin)))).filter (fun p => p.1.dtype = .float64)).map (fun b => (b.1.raw i, b.2)))
      (by intro p hp'
          obtain ⟨b, hb, rfl⟩ := List.mem_map.1 hp'
          exact hB b (List.mem_filter.1 hb).1 i hi)
    simp only [r1, r2, ih]

/-! ## C203 -/

/-- Positions of samples that keep a distance of more than 5·u·n bins from the inner and upper bin boundaries are found as in exact arithmetic,
on all three code paths. -/
theorem fillWith_round (u : ℚ) (hu1 : u ≤ 1 / 100) (fl fa : ℚ → ℚ) (hr : Fl.Spec.Rel u fl) (nd : Bool) (h : Hist) (hw : h.Wf) (coords : List Coord)
    (ws : List ℚ) (ha : Accepted nd h coords ws) (hc : ReadsRaw nd coords → ∀ c ∈ coords, c.stride = 1)
    (hx : ∀ p ∈ coords.zip h.axes, ∀ i < p.1.len, Spec.Away u p.2 (p.1.val i)) :
    fillWith fl fa nd h coords ws = fillWith id fa nd h coords ws := by
  obtain ⟨ha1, ha2, ha3, ha4⟩ := ha
  have hnd : ReadsRaw nd coords → (∀ c ∈ coords, c.dtype = .int64 ∨ c.dtype = .float64) → ∀ n, (∀ c ∈ coords, c.len = n) → ∀ w,
      fillnd fl fa h coords w n = fillnd id fa h coords w n := by
    intro hraw ht n hlen w
    have hs := hc hraw
    unfold fillnd
    split
    · rfl
    · refine fillnd_round u hu1 fl fa hr h.axes hw.2.1 coords ha1 ht n ?_ _ ?_ _
      · intro p hp i hi
        have hpc := (List.of_mem_zip hp).1
        have := hx p hp i (by rw [hlen _ hpc]; exact hi)
        unfold Coord.val at this
        rw [hs _ hpc, one_mul] at this
        exact this
      · intro p hp
        exact List.mem_range.1 (List.of_mem_zip hp).1
  unfold fillWith
  split
  · rfl
  · cases coords with
    | nil => rfl
    | cons c0 rest =>
      simp only
      split
      · rfl
      · split
        · rfl
        · have hlen : ∀ c ∈ c0 :: rest, c.len = c0.len := fun c hcm => ha2 c hcm c0 (by simp)
          have key : ∀ r r' : List ℚ × Py Unit, r = r' → ((({ h with values := r.1 } : Hist), r.2) : Hist × Py Unit) = (({ h with values := r'.1 } : Hist), r'.2) := by
            rintro r _ rfl; rfl
          apply key
          cases nd with
          | true =>
            simp only [if_true]
            exact hnd (.inl rfl) (by simpa using ha4) _ hlen _
          | false =>
            simp only [Bool.false_eq_true, if_false]
            match rest, haxes : h.axes with
            | [], [a] =>
              simp only
              split
              · rfl
              · apply fill1d_round u hu1 fl fa hr a (hw.2.1 a (by simp [haxes]))
                intro p hp
                obtain ⟨i, hi, he⟩ := List.mem_map.1 (List.of_mem_zip hp).1
                rw [← he]
                exact hx (c0, a) (by simp [haxes]) i (List.mem_range.1 hi)
            | [c1], [a, b] =>
              simp only
              split
              · rfl
              · apply fill2d_round u hu1 fl fa hr a b (hw.2.1 a (by simp [haxes])) (hw.2.1 b (by simp [haxes]))
                intro p hp
                obtain ⟨i, hi, he⟩ := List.mem_map.1 (List.of_mem_zip hp).1
                have hi' := List.mem_range.1 hi
                rw [← he]
                exact ⟨hx (c0, a) (by simp [haxes]) i hi', hx (c1, b) (by simp [haxes]) i (by rw [hlen c1 (by simp)]; exact hi')⟩
            | [], [] => simp [haxes] at ha1
            | [], a :: b :: l => simp [haxes] at ha1
            | [c1], [] => simp [haxes] at ha1
            | [c1], [a] => simp [haxes] at ha1
            | [c1], a :: b :: c :: l => simp [haxes] at ha1
            | c1 :: c2 :: l, ax =>
              simp only
              exact hnd (.inr (by simp)) (by simpa using ha4) _ hlen _

/-- The weights of the samples lying in a cell, in the order of the samples. -/
noncomputable def Spec.weightsIn (axes : List Axis) (samples : List (List ℚ × ℚ)) (ks : List ℕ) : List ℚ :=
  open Classical in (samples.filter (fun s => InCell axes s.1 ks)).map Prod.snd

theorem specStepF_get (fa : ℚ → ℚ) (axes : List Axis) (hp : ∀ a ∈ axes, 0 < a.nbin) (l : List (List ℚ × ℚ)) (v : List ℚ) (ks : List ℕ)
    (hk : ValidCell axes ks) :
    (l.foldl (specStepF fa axes) v)[flat axes ks]? =
      v[flat axes ks]?.map (fun old => (Spec.weightsIn axes l ks).foldl (fun x w => fa (x + w)) old) := by
  induction l generalizing v with
  | nil => simp [Spec.weightsIn]
  | cons s t ih =>
    rw [List.foldl_cons, ih]
    unfold specStepF
    rcases cellIdx_cases axes hp s.1 with ⟨h1, _, h3⟩ | ⟨ks', h1, h2, _, h4, h5⟩
    · rw [h1]
      simp [Spec.weightsIn, h3 ks hk]
    · rw [h1]
      simp only [List.getElem?_modify]
      by_cases e : ks' = ks
      · subst e
        simp only [if_true, Option.map_eq_map, Option.map_map]
        congr 1
        funext x
        simp [Spec.weightsIn, h4]
      · have hn : ¬ InCell axes s.1 ks := fun h => e (h5 ks h).symm
        have hf : flat axes ks' ≠ flat axes ks := fun h => e (flat_inj axes _ _ h2 hk h)
        simp [Spec.weightsIn, hn, hf]

theorem length_foldl_specStepF (fa : ℚ → ℚ) (axes v l) : (List.foldl (specStepF fa axes) v l).length = v.length := by
  induction l generalizing v with
  | nil => rfl
  | cons s t ih =>
    rw [List.foldl_cons, ih]
    unfold specStepF
    split <;> simp

theorem fill_round (u : ℚ) (hu1 : u ≤ 1 / 100) (fl : ℚ → ℚ) (hr : Fl.Spec.Rel u fl) (nd : Bool) (h : Hist) (hw : h.Wf) (coords : List Coord)
    (ws : List ℚ) (ha : Accepted nd h coords ws) (hc : ReadsRaw nd coords → ∀ c ∈ coords, c.stride = 1)
    (hx : ∀ p ∈ coords.zip h.axes, ∀ i < p.1.len, Spec.Away u p.2 (p.1.val i)) :
    fill fl nd h coords ws = (⟨h.axes, (samples coords ws).foldl (specStepF fl h.axes) h.values⟩, .ok ()) := by
  unfold fill
  rw [fillWith_round u hu1 fl fl hr nd h hw coords ws ha hc hx, fillWith_accepted fl nd h hw coords ws ha, samplesBy_contig _ _ _ hc]

/-- C203: with floating-point arithmetic of unit roundoff u ≤ 1/100, an accepted call whose samples keep a distance of more
than 5·u·n bins from the inner and upper bin boundaries succeeds, on all three code paths, and adds to every cell, one after
the other and rounding each sum, the weights of exactly the samples lying in it. -/
theorem C203_cells_partial (u : ℚ) (hu1 : u ≤ 1 / 100) (fl : ℚ → ℚ) (hr : Fl.Spec.Rel u fl) (nd : Bool) (h : Hist) (hw : h.Wf) (coords : List Coord)
    (ws : List ℚ) (ha : Accepted nd h coords ws) (hc : ReadsRaw nd coords → ∀ c ∈ coords, c.stride = 1)
    (hx : ∀ p ∈ coords.zip h.axes, ∀ i < p.1.len, Spec.Away u p.2 (p.1.val i)) :
    ∃ h', fill fl nd h coords ws = (h', .ok ()) ∧ h'.axes = h.axes ∧ h'.values.length = h.values.length ∧
      ∀ ks, ValidCell h.axes ks →
        ∃ old, h.values[flat h.axes ks]? = some old ∧
          h'.values[flat h.axes ks]? = some ((Spec.weightsIn h.axes (samples coords ws) ks).foldl (fun x w => fl (x + w)) old) := by
  refine ⟨_, fill_round u hu1 fl hr nd h hw coords ws ha hc hx, rfl, length_foldl_specStepF _ _ _ _, ?_⟩
  intro ks hk
  have hlt : flat h.axes ks < h.values.length := by rw [hw.1]; exact flat_lt h.axes ks hk
  refine ⟨_, List.getElem?_eq_getElem hlt, ?_⟩
  simp only [specStepF_get fl h.axes hw.2.1 _ _ ks hk, List.getElem?_eq_getElem hlt, Option.map_some]

/-- Without any condition on the sample: if 5·u·n ≤ 1 a sample in range of a 1-D histogram is counted in its own bin or in a
neighbouring one, except that a sample of the last bin may instead be rejected with IndexError, nothing being counted. -/
theorem C203_neighbour (u : ℚ) (hu1 : u ≤ 1 / 100) (fl : ℚ → ℚ) (hr : Fl.Spec.Rel u fl) (a : Axis) (v : List ℚ) (hn : 0 < a.nbin) (hv : v.length = a.nbin)
    (hsmall : 5 * u * a.nbin ≤ 1) (x w : ℚ) (hin : a.low ≤ x ∧ x < a.high) (k : ℕ) (hk : InBin a x k) :
    (∃ j, j < a.nbin ∧ j ≤ k + 1 ∧ k ≤ j + 1 ∧ fill fl false ⟨[a], v⟩ [fArr [x]] [w] = (⟨[a], v.modify j (fun y => fl (y + w))⟩, .ok ())) ∨
    (k + 1 = a.nbin ∧ fill fl false ⟨[a], v⟩ [fArr [x]] [w] = (⟨[a], v⟩, .error .indexError)) := by
  obtain ⟨Y, y, hf, -, hyp, hy0, hyn, hY0, hYu, hYl⟩ := position_bounds u hu1 fl hr a hn x hin
  have hu := hr.1
  have hn' : (0 : ℚ) < a.nbin := by exact_mod_cast hn
  have hl : 0 < a.high - a.low := by linarith [hin.1, hin.2]
  have huy : u * y ≤ u * a.nbin := mul_le_mul_of_nonneg_left hyn.le hu
  have hk1 : (k : ℚ) ≤ y ∧ y < k + 1 := by
    have hlp : 0 < (a.high - a.low) / a.nbin := div_pos hl hn'
    have e : y = (x - a.low) / ((a.high - a.low) / a.nbin) := by rw [← hyp]; field_simp
    rw [e, le_div_iff₀ hlp, div_lt_iff₀ hlp]
    exact ⟨by linarith [hk.1], by linarith [hk.2]⟩
  obtain ⟨j, hj⟩ : ∃ j : ℕ, (j : ℤ) = ⌊Y⌋ := ⟨⌊Y⌋.toNat, Int.toNat_of_nonneg (Int.floor_nonneg.2 hY0)⟩
  have hjf := Int.floor_eq_iff.1 hj.symm
  push_cast at hjf
  rw [pyInt_eq Y j hY0 hjf.1 hjf.2] at hf
  have hjk : j ≤ k + 1 := by
    have : (j : ℚ) < (k + 2 : ℕ) := by push_cast; linarith
    have : j < k + 2 := by exact_mod_cast this
    omega
  have hkj : k ≤ j + 1 := by
    have : (k : ℚ) < (j + 2 : ℕ) := by push_cast; linarith
    have : k < j + 2 := by exact_mod_cast this
    omega
  have hkn : k < a.nbin := by
    have : (k : ℚ) < a.nbin := lt_of_le_of_lt hk1.1 hyn
    exact_mod_cast this
  have hx0 : (fArr [x]).val 0 = x := rfl
  have hfill : fill fl false ⟨[a], v⟩ [fArr [x]] [w] =
      ((⟨[a], (fill1dLoop fl fl a v [(x, w)]).1⟩ : Hist), (fill1dLoop fl fl a v [(x, w)]).2) := by
    simp [fill, fillWith, fArr, expandWeights, Coord.val, List.range_succ]
  rw [hfill]
  simp only [fill1dLoop, hf]
  rw [if_neg (by omega)]
  by_cases hjn : j < a.nbin
  · left
    refine ⟨j, hjn, hjk, hkj, ?_⟩
    have : addAt fl v j w = some (v.modify j (fun y => fl (y + w))) := by
      unfold addAt; rw [if_pos ⟨by omega, by rw [hv]; exact_mod_cast hjn⟩]; simp
    rw [this]
  · right
    have : addAt fl v j w = none := by
      unfold addAt; rw [if_neg]; rintro ⟨-, h⟩; rw [hv] at h; exact hjn (by exact_mod_cast h)
    rw [this]
    exact ⟨by omega, rfl⟩

/-- Both alternatives occur in binary64: see `C19_rounding_out_of_bounds` for the second. -/
example : fill Fl.round53 false ⟨[⟨3, 0, 1⟩], [0, 0, 0]⟩ [fArr [1 / 2]] [7] = (⟨[⟨3, 0, 1⟩], [0, 7, 0]⟩, .ok ()) := by decide +kernel

/-- The margin is met by samples in the middle of their bins, and by the lower limit. -/
example : Spec.Away (1 / 2 ^ 53) ⟨3, 0, 1⟩ (1 / 2) ∧ Spec.Away (1 / 2 ^ 53) ⟨3, 0, 1⟩ 0 ∧ Accepted false ⟨[⟨3, 0, 1⟩], [0, 0, 0]⟩ [fArr [1 / 2, 0]] [1] := by
  refine ⟨?_, ?_, ⟨rfl, by simp, by simp, by simp [fArr]⟩⟩ <;> intro m h1 h2 <;> simp only at h2 <;> interval_cases m <;> norm_num

/-- It is not met by the sample of `C19_rounding_out_of_bounds`. -/
example : ¬ Spec.Away (1 / 2 ^ 53) ⟨3, 0, 1⟩ (1 - 1 / 2 ^ 53) := by
  intro h
  have := h 3 (by norm_num) (by norm_num)
  norm_num at this

end Verif.Hist
