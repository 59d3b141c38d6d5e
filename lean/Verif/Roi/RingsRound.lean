/- radial_grid and rings in double precision (skbeam/core/utils.py:566-596, skbeam/core/roi.py:99-137, 536-562). -/
import Verif.FlReal
import Verif.Roi.Props

namespace Verif.Roi.Rnd

open Fl

/-! ## Model -/

/-- The radius of one pixel, utils.py:593-596: `X = pixel_size[1] * (c - center[1])`, `Y = pixel_size[0] * (r - center[0])`,
`np.sqrt(X * X + Y * Y)`, where each operation rounds by `fl`. -/
noncomputable def radiusF (fl : ℝ → ℝ) (center ps : ℝ × ℝ) (r c : ℕ) : ℝ :=
  let X := fl (ps.2 * fl ((c : ℝ) - center.2))
  let Y := fl (ps.1 * fl ((r : ℝ) - center.1))
  fl (Real.sqrt (fl (fl (X * X) + fl (Y * Y))))

/-- `radial_grid`, utils.py:566-596, in rounded arithmetic. -/
noncomputable def radialGridF (fl : ℝ → ℝ) (center : ℝ × ℝ) (shape : ℕ × ℕ) (ps : Option (ℝ × ℝ)) : List (List ℝ) :=
  (List.range shape.1).map (fun r => (List.range shape.2).map (fun c => radiusF fl center (ps.getD (1, 1)) r c))

/-- roi.py:126-135: an even number of edges, and `np.all(np.diff(edges) >= 0)` of the rounded differences. -/
noncomputable def edgesOkF (fl : ℝ → ℝ) (edges : List ℝ) : Bool :=
  decide (edges.length % 2 = 0) && decide (edges.IsChain (fun a b => 0 ≤ fl (b - a)))

/-- `rings`, roi.py:99-137, in rounded arithmetic; the comparisons of np.digitize (roi.py:559) are exact. -/
noncomputable def ringsF (fl : ℝ → ℝ) (edges : List ℝ) (center : ℝ × ℝ) (shape : ℕ × ℕ) : Py (List (List ℕ)) :=
  if edgesOkF fl edges then .ok ((radialGridF fl center shape none).map (fun row => row.map (makeRoi edges))) else .error .valueError

/-! ## Specification -/

/-- The distance of pixel (r, c) from the centre when rows are ps.1 and columns ps.2 apart. -/
noncomputable def Spec.dist (center ps : ℝ × ℝ) (r c : ℕ) : ℝ :=
  Real.sqrt ((ps.2 * ((c : ℝ) - center.2)) ^ 2 + (ps.1 * ((r : ℝ) - center.1)) ^ 2)

/-! ## Proofs -/

section
variable {u : ℝ} {fl : ℝ → ℝ} (hrel : Spec.RelR u fl) (hu : u ≤ 1)
include hrel

theorem fl_zero : fl 0 = 0 := by
  have := hrel.2 0
  simpa using this

theorem fl_abs (x : ℝ) : |x| * (1 - u) ≤ |fl x| ∧ |fl x| ≤ |x| * (1 + u) := by
  have h := hrel.2 x
  have h1 := abs_sub_abs_le_abs_sub (fl x) x
  have h2 := abs_sub_abs_le_abs_sub x (fl x)
  rw [abs_sub_comm x] at h2
  constructor <;> linarith

include hu

theorem fl_nonneg {x : ℝ} (hx : 0 ≤ x) : 0 ≤ fl x := by
  have h := abs_le.1 (hrel.2 x)
  rw [abs_of_nonneg hx] at h
  nlinarith [h.1]

omit hu in
theorem fl_pos {x : ℝ} (hx : 0 ≤ x) : x * (1 - u) ≤ fl x ∧ fl x ≤ x * (1 + u) := by
  have h := abs_le.1 (hrel.2 x)
  rw [abs_of_nonneg hx] at h
  constructor <;> linarith [h.1, h.2]

theorem fl_bracket {x y : ℝ} {n : ℕ} (hx : 0 ≤ x) (h : x * (1 - u) ^ n ≤ y) (h' : y ≤ x * (1 + u) ^ n) :
    x * (1 - u) ^ (n + 1) ≤ fl y ∧ fl y ≤ x * (1 + u) ^ (n + 1) := by
  have hu0 := hrel.1
  have hl : 0 ≤ x * (1 - u) ^ n := mul_nonneg hx (pow_nonneg (by linarith) _)
  obtain ⟨h1, h2⟩ := fl_pos hrel (hl.trans h)
  constructor
  · calc x * (1 - u) ^ (n + 1) = x * (1 - u) ^ n * (1 - u) := by ring
      _ ≤ y * (1 - u) := mul_le_mul_of_nonneg_right h (by linarith)
      _ ≤ fl y := h1
  · calc fl y ≤ y * (1 + u) := h2
      _ ≤ x * (1 + u) ^ n * (1 + u) := mul_le_mul_of_nonneg_right h' (by linarith)
      _ = x * (1 + u) ^ (n + 1) := by ring

theorem fl_coord (p d : ℝ) :
    (p * d) ^ 2 * (1 - u) ^ 5 ≤ fl (fl (p * fl d) * fl (p * fl d)) ∧ fl (fl (p * fl d) * fl (p * fl d)) ≤ (p * d) ^ 2 * (1 + u) ^ 5 := by
  have hu0 := hrel.1
  obtain ⟨a1, a2⟩ := fl_abs hrel d
  obtain ⟨b1, b2⟩ := fl_abs hrel (p * fl d)
  rw [abs_mul] at b1 b2
  have hp := abs_nonneg p
  have c1 : |p * d| * (1 - u) ^ 2 ≤ |fl (p * fl d)| := by
    calc |p * d| * (1 - u) ^ 2 = |p| * (|d| * (1 - u)) * (1 - u) := by rw [abs_mul]; ring
      _ ≤ |p| * |fl d| * (1 - u) := mul_le_mul_of_nonneg_right (mul_le_mul_of_nonneg_left a1 hp) (by linarith)
      _ ≤ _ := b1
  have c2 : |fl (p * fl d)| ≤ |p * d| * (1 + u) ^ 2 := by
    calc _ ≤ |p| * |fl d| * (1 + u) := b2
      _ ≤ |p| * (|d| * (1 + u)) * (1 + u) := mul_le_mul_of_nonneg_right (mul_le_mul_of_nonneg_left a2 hp) (by linarith)
      _ = _ := by rw [abs_mul]; ring
  have h0 : 0 ≤ |p * d| * (1 - u) ^ 2 := mul_nonneg (abs_nonneg _) (sq_nonneg _)
  apply fl_bracket hrel hu (sq_nonneg _)
  · calc (p * d) ^ 2 * (1 - u) ^ 4 = (|p * d| * (1 - u) ^ 2) ^ 2 := by rw [← sq_abs (p * d)]; ring
      _ ≤ |fl (p * fl d)| ^ 2 := pow_le_pow_left₀ h0 c1 2
      _ = _ := by rw [sq_abs]; ring
  · calc fl (p * fl d) * fl (p * fl d) = |fl (p * fl d)| ^ 2 := by rw [sq_abs]; ring
      _ ≤ (|p * d| * (1 + u) ^ 2) ^ 2 := pow_le_pow_left₀ (abs_nonneg _) c2 2
      _ = _ := by rw [mul_pow, sq_abs]; ring

theorem radius_near (center ps : ℝ × ℝ) (r c : ℕ) :
    Spec.dist center ps r c * (1 - u) ^ 4 ≤ radiusF fl center ps r c ∧ radiusF fl center ps r c ≤ Spec.dist center ps r c * (1 + u) ^ 4 := by
  have hu0 := hrel.1
  unfold radiusF Spec.dist
  simp only
  obtain ⟨a1, a2⟩ := fl_coord hrel hu ps.2 ((c : ℝ) - center.2)
  obtain ⟨b1, b2⟩ := fl_coord hrel hu ps.1 ((r : ℝ) - center.1)
  set A := fl (fl (ps.2 * fl ((c : ℝ) - center.2)) * fl (ps.2 * fl ((c : ℝ) - center.2))) with hA
  set B := fl (fl (ps.1 * fl ((r : ℝ) - center.1)) * fl (ps.1 * fl ((r : ℝ) - center.1))) with hB
  set x2 := (ps.2 * ((c : ℝ) - center.2)) ^ 2 with hx
  set y2 := (ps.1 * ((r : ℝ) - center.1)) ^ 2 with hy
  have hs : 0 ≤ x2 + y2 := add_nonneg (sq_nonneg _) (sq_nonneg _)
  obtain ⟨c1, c2⟩ := fl_bracket hrel hu (n := 5) (y := A + B) hs (by linarith) (by linarith)
  apply fl_bracket hrel hu (Real.sqrt_nonneg _)
  · apply Real.le_sqrt_of_sq_le
    calc _ = Real.sqrt (x2 + y2) ^ 2 * (1 - u) ^ 6 := by ring
      _ = (x2 + y2) * (1 - u) ^ 6 := by rw [Real.sq_sqrt hs]
      _ ≤ _ := c1
  · rw [Real.sqrt_le_left (mul_nonneg (Real.sqrt_nonneg _) (pow_nonneg (by linarith) _))]
    calc _ ≤ (x2 + y2) * (1 + u) ^ 6 := c2
      _ = Real.sqrt (x2 + y2) ^ 2 * (1 + u) ^ 6 := by rw [Real.sq_sqrt hs]
      _ = _ := by ring

omit hu in
theorem edgesOkF_eq (hu : u < 1) (edges : List ℝ) : edgesOkF fl edges = edgesOk edges := by
  have h : (fun a b : ℝ => 0 ≤ fl (b - a)) = (fun a b => a ≤ b) := by
    funext a b
    apply propext
    constructor
    · intro h
      by_contra hc
      have hneg : b - a < 0 := by linarith [not_le.1 hc]
      have h1 := abs_le.1 (hrel.2 (b - a))
      rw [abs_of_neg hneg] at h1
      nlinarith [h1.2]
    · intro h
      exact fl_nonneg hrel hu.le (by linarith)
  unfold edgesOkF edgesOk
  simp only [h]

end

theorem radialGridF_at (fl : ℝ → ℝ) (center : ℝ × ℝ) (shape : ℕ × ℕ) (ps : Option (ℝ × ℝ)) (r c : ℕ) :
    Geom.Spec.at (radialGridF fl center shape ps) r c =
      if r < shape.1 ∧ c < shape.2 then some (radiusF fl center (ps.getD (1, 1)) r c) else none := by
  unfold Geom.Spec.at radialGridF
  by_cases hr : r < shape.1
  · by_cases hc : c < shape.2 <;> simp [hr, hc]
  · simp [hr]

theorem makeRoi_congr (edges : List ℝ) (x y : ℝ) (h : ∀ e ∈ edges, (e ≤ x ↔ e ≤ y)) : makeRoi edges x = makeRoi edges y := by
  have : digitizeG edges x = digitizeG edges y := by
    unfold digitizeG
    apply List.countP_congr
    intro e he
    simpa using h e he
  unfold makeRoi
  rw [this]

theorem ringsF_at (fl : ℝ → ℝ) (edges : List ℝ) (center : ℝ × ℝ) (shape : ℕ × ℕ) (r c : ℕ) :
    Geom.Spec.at ((radialGridF fl center shape none).map (fun row => row.map (makeRoi edges))) r c =
      if r < shape.1 ∧ c < shape.2 then some (makeRoi edges (radiusF fl center (1, 1) r c)) else none := by
  have := radialGridF_at fl center shape none r c
  unfold Geom.Spec.at at this ⊢
  rw [List.getElem?_map]
  cases h : (radialGridF fl center shape none)[r]? with
  | none =>
    rw [h] at this
    by_cases hb : r < shape.1 ∧ c < shape.2
    · simp [hb] at this
    · simp [hb]
  | some row =>
    rw [h] at this
    simp only [Option.bind_some] at this
    simp only [Option.map_some, Option.bind_some, List.getElem?_map, this]
    by_cases hb : r < shape.1 ∧ c < shape.2 <;> simp [hb]

theorem dist_one (center : ℝ × ℝ) (r c : ℕ) : Spec.dist center (1, 1) r c = Roi.Spec.radius center r c := by
  unfold Spec.dist Roi.Spec.radius
  simp

/-! ## C230 -/

/-- `radial_grid` in rounded arithmetic with relative error u: every pixel of the image has a value, and it is the distance of
the pixel from the centre up to the factors (1 - u)^4 and (1 + u)^4, whatever the centre and the pixel sizes. -/
theorem C230_radius {u : ℝ} {fl : ℝ → ℝ} (hrel : Spec.RelR u fl) (hu : u ≤ 1) (center : ℝ × ℝ) (shape : ℕ × ℕ)
    (ps : Option (ℝ × ℝ)) (r c : ℕ) (hr : r < shape.1) (hc : c < shape.2) :
    ∃ ρ, Geom.Spec.at (radialGridF fl center shape ps) r c = some ρ ∧
      Spec.dist center (ps.getD (1, 1)) r c * (1 - u) ^ 4 ≤ ρ ∧ ρ ≤ Spec.dist center (ps.getD (1, 1)) r c * (1 + u) ^ 4 := by
  rw [radialGridF_at, if_pos ⟨hr, hc⟩]
  exact ⟨_, rfl, radius_near hrel hu _ _ _ _⟩

/-- `rings` in rounded arithmetic accepts the same edges as in exact arithmetic, and a pixel whose distance is not within four
roundings of an edge is labelled by the ring it is in. -/
theorem C230_rings_partial {u : ℝ} {fl : ℝ → ℝ} (hrel : Spec.RelR u fl) (hu : u < 1) (edges : List ℝ) (center : ℝ × ℝ) (shape : ℕ × ℕ) :
    (¬ (edges.length % 2 = 0 ∧ edges.Pairwise (· ≤ ·)) → ringsF fl edges center shape = .error .valueError) ∧
    (edges.length % 2 = 0 ∧ edges.Pairwise (· ≤ ·) → ∃ img, ringsF fl edges center shape = .ok img ∧
      (∀ r c, (Geom.Spec.at img r c).isSome = decide (r < shape.1 ∧ c < shape.2)) ∧
      ∀ r c, r < shape.1 → c < shape.2 →
        (∀ e ∈ edges, e ≤ Roi.Spec.radius center r c * (1 - u) ^ 4 ∨ Roi.Spec.radius center r c * (1 + u) ^ 4 < e) →
        ∃ lab, Geom.Spec.at img r c = some lab ∧ Roi.Spec.Labels (fun k => Roi.Spec.inPair edges k (Roi.Spec.radius center r c)) lab) := by
  have hu0 := hrel.1
  constructor
  · intro h
    unfold ringsF
    rw [if_neg]
    rw [edgesOkF_eq hrel hu, edgesOk_iff]; exact h
  · intro h
    have hok := (edgesOk_iff edges).2 h
    unfold ringsF
    rw [if_pos (by rw [edgesOkF_eq hrel hu]; exact hok)]
    refine ⟨_, rfl, ?_, ?_⟩
    · intro r c
      rw [ringsF_at]
      by_cases hrc : r < shape.1 ∧ c < shape.2 <;> simp [hrc]
    · intro r c hr hc hfar
      rw [ringsF_at, if_pos ⟨hr, hc⟩]
      refine ⟨_, rfl, ?_⟩
      have h1 := radius_near hrel hu.le center (1, 1) r c
      rw [dist_one] at h1
      have hR : 0 ≤ Roi.Spec.radius center r c := Real.sqrt_nonneg _
      have hl : Roi.Spec.radius center r c * (1 - u) ^ 4 ≤ Roi.Spec.radius center r c := by
        have : (1 - u) ^ 4 ≤ 1 := pow_le_one₀ (by linarith) (by linarith)
        nlinarith
      have hg : Roi.Spec.radius center r c ≤ Roi.Spec.radius center r c * (1 + u) ^ 4 := by
        have : 1 ≤ (1 + u) ^ 4 := one_le_pow₀ (by linarith)
        nlinarith
      rw [makeRoi_congr edges _ (Roi.Spec.radius center r c)]
      · exact makeRoi_labels edges hok _
      · intro e he
        rcases hfar e he with h2 | h2
        · exact ⟨fun _ => h2.trans hl, fun _ => h2.trans h1.1⟩
        · exact ⟨fun h3 => absurd (h3.trans h1.2) (not_le.2 h2), fun h3 => absurd (h3.trans hg) (not_le.2 h2)⟩

/-- With a whole-number centre and whole-number edges up to 2^26, and pixels up to 2^26 rows and columns from the centre, `rings` in
double precision returns exactly the label image of exact arithmetic: no pixel is lost to rounding, not even those exactly on an edge. -/
theorem C230_whole {u : ℝ} {fl : ℝ → ℝ} (hrel : Spec.RelR u fl) (hu : u ≤ 1 / 2 ^ 53) (hmono : ∀ x y, x ≤ y → fl x ≤ fl y)
    (hwhole : Spec.WholeR (2 ^ 53) fl) (edges : List ℤ) (cy cx : ℤ) (shape : ℕ × ℕ) (hedges : ∀ e ∈ edges, e ≤ 2 ^ 26)
    (hrows : ∀ r : ℕ, r < shape.1 → |(r : ℤ) - cy| ≤ 2 ^ 26) (hcols : ∀ c : ℕ, c < shape.2 → |(c : ℤ) - cx| ≤ 2 ^ 26) :
    ringsF fl (edges.map (fun e : ℤ => (e : ℝ))) ((cy : ℝ), (cx : ℝ)) shape =
      rings (edges.map (fun e : ℤ => (e : ℝ))) ((cy : ℝ), (cx : ℝ)) shape := by
  have hu0 := hrel.1
  have hu1 : u < 1 := lt_of_le_of_lt hu (by norm_num)
  unfold ringsF rings
  rw [edgesOkF_eq hrel hu1]
  congr 2
  have hgrid : Geom.radialGrid ((cy : ℝ), (cx : ℝ)) shape none =
      (List.range shape.1).map (fun r => (List.range shape.2).map (fun c => Roi.Spec.radius ((cy : ℝ), (cx : ℝ)) r c)) := by
    unfold Geom.radialGrid Geom.mesh Geom.xCoords Geom.yCoords Geom.pixelSize Roi.Spec.radius
    simp only [List.map_map, Option.getD_none, one_mul]
    apply List.map_congr_left
    intro r _
    simp only [Function.comp]
    apply List.map_congr_left
    intro c _
    simp only [Function.comp, sq]
  rw [hgrid]
  unfold radialGridF
  simp only [List.map_map, Option.getD_none]
  apply List.map_congr_left
  intro r hr
  simp only [Function.comp, List.map_map]
  apply List.map_congr_left
  intro c hc
  simp only [Function.comp]
  have hR := hrows r (List.mem_range.1 hr)
  have hC := hcols c (List.mem_range.1 hc)
  -- the squared distance is a whole number below 2^53 and is computed exactly
  set a : ℤ := (r : ℤ) - cy with ha
  set b : ℤ := (c : ℤ) - cx with hb
  have ha2 : a ^ 2 ≤ 2 ^ 52 := by
    have := sq_le_sq' (by linarith [neg_abs_le a] : -(2 ^ 26 : ℤ) ≤ a) (le_of_abs_le hR)
    norm_num at this ⊢; exact this
  have hb2 : b ^ 2 ≤ 2 ^ 52 := by
    have := sq_le_sq' (by linarith [neg_abs_le b] : -(2 ^ 26 : ℤ) ≤ b) (le_of_abs_le hC)
    norm_num at this ⊢; exact this
  have haR : ((r : ℝ) - (cy : ℝ)) = (a : ℝ) := by rw [ha]; push_cast; ring
  have hbR : ((c : ℝ) - (cx : ℝ)) = (b : ℝ) := by rw [hb]; push_cast; ring
  have fa : fl (a : ℝ) = a := hwhole a (hR.trans (by norm_num))
  have fb : fl (b : ℝ) = b := hwhole b (hC.trans (by norm_num))
  have fsq : ∀ z : ℤ, 0 ≤ z → z ≤ 2 ^ 53 → fl (z : ℝ) = z := by
    intro z h0 h1
    apply hwhole
    rw [abs_of_nonneg h0]
    exact h1.trans (by norm_num)
  have hn0 : 0 ≤ b ^ 2 + a ^ 2 := add_nonneg (sq_nonneg _) (sq_nonneg _)
  have hrad : radiusF fl ((cy : ℝ), (cx : ℝ)) (1, 1) r c = fl (Real.sqrt ((b ^ 2 + a ^ 2 : ℤ) : ℝ)) := by
    unfold radiusF
    simp only [one_mul, haR, hbR, fa, fb]
    have e1 : (b : ℝ) * b = ((b ^ 2 : ℤ) : ℝ) := by push_cast; ring
    have e2 : (a : ℝ) * a = ((a ^ 2 : ℤ) : ℝ) := by push_cast; ring
    rw [e1, e2, fsq _ (sq_nonneg _) (by linarith), fsq _ (sq_nonneg _) (by linarith), ← Int.cast_add,
      fsq _ hn0 (by linarith)]
  have hrad' : Roi.Spec.radius ((cy : ℝ), (cx : ℝ)) r c = Real.sqrt ((b ^ 2 + a ^ 2 : ℤ) : ℝ) := by
    unfold Roi.Spec.radius
    simp only [haR, hbR]
    push_cast
    rfl
  rw [hrad, hrad']
  apply makeRoi_congr
  intro e' he'
  obtain ⟨e, he, rfl⟩ := List.mem_map.1 he'
  have hE := hedges e he
  set n : ℤ := b ^ 2 + a ^ 2 with hn
  have hnR : (0 : ℝ) ≤ (n : ℝ) := by exact_mod_cast hn0
  have hs0 := Real.sqrt_nonneg (n : ℝ)
  by_cases he0 : e ≤ 0
  · have : (e : ℝ) ≤ 0 := by exact_mod_cast he0
    exact ⟨fun _ => this.trans hs0, fun _ => this.trans (fl_nonneg hrel hu1.le hs0)⟩
  have hepos : 0 < e := not_le.1 he0
  have heR : (0 : ℝ) < e := by exact_mod_cast hepos
  constructor
  · intro h
    by_contra hc
    have hlt : Real.sqrt (n : ℝ) < e := not_le.1 hc
    have hlt2 : (n : ℝ) < (e : ℝ) ^ 2 := by rwa [Real.sqrt_lt' heR] at hlt
    have hle : n ≤ e ^ 2 - 1 := by
      have : n < e ^ 2 := by exact_mod_cast hlt2
      omega
    have hleR : (n : ℝ) ≤ (e : ℝ) ^ 2 - 1 := by exact_mod_cast hle
    have h1 := (fl_pos hrel hs0).2
    have h2 : (e : ℝ) ^ 2 ≤ (n : ℝ) * (1 + u) ^ 2 := by
      calc (e : ℝ) ^ 2 ≤ (Real.sqrt n * (1 + u)) ^ 2 := pow_le_pow_left₀ heR.le (h.trans h1) 2
        _ = Real.sqrt n ^ 2 * (1 + u) ^ 2 := by ring
        _ = _ := by rw [Real.sq_sqrt hnR]
    have hE2 : (e : ℝ) ^ 2 ≤ 2 ^ 52 := by
      have : (e : ℝ) ≤ 2 ^ 26 := by exact_mod_cast hE
      calc (e : ℝ) ^ 2 ≤ (2 ^ 26) ^ 2 := pow_le_pow_left₀ heR.le this 2
        _ = 2 ^ 52 := by norm_num
    set E := (e : ℝ) ^ 2 with hEdef
    have h3 : E ≤ (E - 1) * (1 + u) ^ 2 := h2.trans (mul_le_mul_of_nonneg_right hleR (sq_nonneg _))
    have h4 : E * u ≤ 1 / 2 := by
      calc E * u ≤ 2 ^ 52 * (1 / 2 ^ 53) := mul_le_mul hE2 hu hu0 (by norm_num)
        _ = 1 / 2 := by norm_num
    have h5 : (E - 1) * (1 + u) ^ 2 = E + (E * u) * (2 + u) - (1 + u) ^ 2 := by ring
    have h6 : (E * u) * (2 + u) ≤ 1 / 2 * (2 + u) := mul_le_mul_of_nonneg_right h4 (by linarith)
    rcases hu0.eq_or_lt with h0 | h0
    · rw [← h0] at h5 h3; norm_num at h3
    · nlinarith
  · intro h
    have h1 := hmono _ _ h
    rwa [hwhole e (by
      have : |e| ≤ 2 ^ 26 := by rw [abs_of_pos hepos]; exact hE
      exact this.trans (by norm_num))] at h1

/-- In general the labels do depend on rounding: with the centre 2^-60 columns off the origin, the pixel (0, 1) is less than 1 from
the centre, outside the ring from 1 to 2, but `rings` in double precision puts it in that ring. -/
theorem C230_labels_refuted :
    (∃ img, ringsF roundR [1, 2] (0, 1 / 2 ^ 60) (1, 2) = .ok img ∧ Geom.Spec.at img 0 1 = some 1) ∧
    ¬ Roi.Spec.inPair [(1 : ℝ), 2] 0 (Roi.Spec.radius (0, 1 / 2 ^ 60) 0 1) := by
  have hw : ∀ z : ℤ, |z| ≤ 2 ^ 53 → roundR z = z := fun z hz => roundR_whole z (by exact_mod_cast hz)
  have h1 : roundR 1 = 1 := by simpa using hw 1 (by norm_num)
  have h0 : roundR 0 = 0 := by simpa using hw 0 (by norm_num)
  have hc : roundR (1 - 1 / 2 ^ 60) = 1 := by
    have h := roundR_rat (1 - 1 / 2 ^ 60)
    rw [show round53 (1 - 1 / 2 ^ 60) = 1 by decide +kernel] at h
    push_cast at h
    exact h
  have hr : radiusF roundR (0, 1 / 2 ^ 60) (1, 1) 0 1 = 1 := by
    unfold radiusF
    simp only [Nat.cast_one, Nat.cast_zero, sub_zero, hc, h1, h0, mul_one, mul_zero, add_zero, Real.sqrt_one]
  constructor
  · unfold ringsF
    rw [edgesOkF_eq roundR_rel (by norm_num), if_pos (by rw [edgesOk_iff]; simp)]
    refine ⟨_, rfl, ?_⟩
    rw [ringsF_at, if_pos (by decide), hr]
    unfold makeRoi digitizeG
    norm_num [List.countP_cons]
  · rintro ⟨a, b, ha, hb, h2, h3⟩
    simp at ha
    rw [← ha] at h2
    unfold Roi.Spec.radius at h2
    rw [Real.one_le_sqrt] at h2
    norm_num at h2

/-- Instance: the hypotheses of `C230_whole` are met by double precision, for an image of 101 rows and columns with centre (50, 50) and
rings 5 to 10 and 10 to 50. -/
example : ringsF roundR ([5, 10, 10, 50].map (fun e : ℤ => (e : ℝ))) ((50 : ℤ), (50 : ℤ)) (101, 101) =
    rings ([5, 10, 10, 50].map (fun e : ℤ => (e : ℝ))) ((50 : ℤ), (50 : ℤ)) (101, 101) :=
  C230_whole roundR_rel le_rfl roundR_mono roundR_whole [5, 10, 10, 50] 50 50 (101, 101) (by decide)
    (fun r hr => by simp only at hr; rw [abs_le]; omega) (fun c hc => by simp only at hc; rw [abs_le]; omega)

/-- Instance: the pixel (0, 3) of a 1 by 5 image with centre column 1/2 is 5/2 from the centre, far from the edges of the ring 1 to 3, and has
label 1 in double precision. -/
example : ∃ img, ringsF roundR [1, 3] (0, 1 / 2) (1, 5) = .ok img ∧ Geom.Spec.at img 0 3 = some 1 := by
  obtain ⟨img, h1, _, h3⟩ := (C230_rings_partial roundR_rel (by norm_num) [1, 3] (0, 1 / 2) (1, 5)).2 ⟨by decide, by simp⟩
  have hr : Roi.Spec.radius (0, 1 / 2) 0 3 = 5 / 2 := by
    unfold Roi.Spec.radius
    rw [show (((3 : ℕ) : ℝ) - (0, 1 / 2).2) ^ 2 + (((0 : ℕ) : ℝ) - ((0 : ℝ), (1 / 2 : ℝ)).1) ^ 2 = (5 / 2) ^ 2 by norm_num]
    exact Real.sqrt_sq (by norm_num)
  obtain ⟨lab, h4, h5, _⟩ := h3 0 3 (by decide) (by decide) (by
    rw [hr]
    simp only [List.mem_cons, List.not_mem_nil, or_false]
    rintro e (rfl | rfl)
    · left; norm_num
    · right; norm_num)
  rw [hr] at h5
  have : lab = 0 + 1 := (h5 0).2 ⟨1, 3, rfl, rfl, by norm_num, by norm_num⟩
  exact ⟨img, h1, by rw [h4, this]⟩

end Verif.Roi.Rnd
