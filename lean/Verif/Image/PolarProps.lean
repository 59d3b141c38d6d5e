/- C139-C141: Cartesian images from polar images (skbeam/core/image.py:177-292). -/
import Verif.Image.Props

namespace Verif.Image

/-! ### The padded angle grid -/

theorem getLastD_gp (a : List ℝ) (h : a ≠ []) : a.getLastD 0 = gp a (a.length - 1) := by
  have hlen : 0 < a.length := List.length_pos_iff.2 h
  rw [gp_eq (by omega), List.getLastD_eq_getLast?, List.getLast?_eq_getElem?, List.getElem?_eq_getElem (by omega)]; rfl

theorem headD_gp (a : List ℝ) : a.headD 0 = gp a 0 := by cases a <;> simp [gp]

theorem padGrid_length (a : List ℝ) : (padGrid a).length = a.length + 2 := by simp [padGrid]

theorem padGrid_at (a : List ℝ) (j : ℕ) (hj : j < a.length) : gp (padGrid a) (j + 1) = gp a j := by
  unfold padGrid gp
  rw [List.cons_append, List.getElem?_cons_succ, List.getElem?_append_left hj]

theorem padGrid_first (a : List ℝ) (h : a ≠ []) : gp (padGrid a) 0 = gp a (a.length - 1) - 2 * Real.pi := by
  rw [← getLastD_gp a h]; simp [padGrid, gp]

theorem padGrid_last (a : List ℝ) : gp (padGrid a) (a.length + 1) = gp a 0 + 2 * Real.pi := by
  rw [← headD_gp]
  unfold padGrid gp
  rw [List.cons_append, List.getElem?_cons_succ, List.getElem?_append_right (le_refl _)]; simp

theorem padGrid_asc (a : List ℝ) (ha : Ascending a) (h : a ≠ []) (hspan : gp a (a.length - 1) < gp a 0 + 2 * Real.pi) :
    Ascending (padGrid a) := by
  have hlen : 0 < a.length := List.length_pos_iff.2 h
  unfold Ascending padGrid
  rw [List.cons_append, List.pairwise_cons]
  constructor
  · intro b hb
    rw [getLastD_gp a h]
    rcases List.mem_append.1 hb with hb | hb
    · obtain ⟨i, hi, rfl⟩ := List.getElem_of_mem hb
      have := gp_le ha (Nat.zero_le i) hi
      rw [gp_eq hi] at this
      linarith
    · simp only [List.mem_singleton] at hb
      rw [hb, headD_gp]; linarith [two_pi_pos]
  · rw [List.pairwise_append]
    refine ⟨ha, by simp, ?_⟩
    intro b hb c hc
    simp only [List.mem_singleton] at hc
    rw [hc, headD_gp]
    obtain ⟨i, hi, rfl⟩ := List.getElem_of_mem hb
    have := gp_le ha (show i ≤ a.length - 1 by omega) (by omega)
    rw [gp_eq hi] at this
    linarith

/-! ### The padded image -/

/-- A full image (no NaN) of m rows and n columns. -/
def IsFull (m n : ℕ) (val : ℕ → ℕ → ℝ) (image : List (List (Option ℝ))) : Prop :=
  image = (List.range m).map (fun i => (List.range n).map (fun j => some (val i j)))

theorem full_shape {m n : ℕ} {val image} (h : IsFull m n val image) (hm : 0 < m) : shapeOf image = (m, n) := by
  rw [h]
  unfold shapeOf
  obtain ⟨m, rfl⟩ := Nat.exists_eq_succ_of_ne_zero hm.ne'
  simp [List.range_succ_eq_map]

/-- An image of m rows and n columns, possibly with NaN. -/
def IsMap (m n : ℕ) (val : ℕ → ℕ → Option ℝ) (image : List (List (Option ℝ))) : Prop :=
  image = (List.range m).map (fun i => (List.range n).map (fun j => val i j))

theorem map_shape {m n : ℕ} {val image} (h : IsMap m n val image) (hm : 0 < m) : shapeOf image = (m, n) := by
  rw [h]
  unfold shapeOf
  obtain ⟨m, rfl⟩ := Nat.exists_eq_succ_of_ne_zero hm.ne'
  simp [List.range_succ_eq_map]

theorem padded_at_map {m n : ℕ} {val image} (h : IsMap m n val image) (i j : ℕ) (hi : i < m) (hn : 0 < n)
    (hj : j < n + 2) :
    at2 (image.map padRow) i j = val i (if j = 0 then n - 1 else if j ≤ n then j - 1 else 0) := by
  rw [h]
  unfold at2
  rw [List.map_map, List.getElem?_map, List.getElem?_range hi]
  simp only [Option.map_some, Function.comp, padRow]
  rw [List.cons_append]
  have hlast : ((List.range n).map (fun j => val i j)).getLastD none = val i (n - 1) := by
    rw [List.getLastD_eq_getLast?, List.getLast?_eq_getElem?, List.length_map, List.length_range, List.getElem?_map,
      List.getElem?_range (by omega)]; rfl
  have hhead : ((List.range n).map (fun j => val i j)).headD none = val i 0 := by
    obtain ⟨n, rfl⟩ := Nat.exists_eq_succ_of_ne_zero hn.ne'
    simp [List.range_succ_eq_map]
  cases j with
  | zero => rw [hlast]; simp
  | succ j =>
    rw [List.getElem?_cons_succ]
    by_cases hjn : j < n
    · rw [List.getElem?_append_left (by simpa using hjn), List.getElem?_map, List.getElem?_range hjn]
      simp [show j + 1 ≤ n by omega]
    · obtain rfl : j = n := by omega
      rw [List.getElem?_append_right (by simp), hhead]
      simp

theorem padded_at {m n : ℕ} {val image} (h : IsFull m n val image) (i j : ℕ) (hi : i < m) (hn : 0 < n)
    (hj : j < n + 2) :
    at2 (image.map padRow) i j = some (val i (if j = 0 then n - 1 else if j ≤ n then j - 1 else 0)) :=
  padded_at_map (val := fun i j => some (val i j)) h i j hi hn hj

/-! ### One pixel -/

theorem weight_cell (g : List ℝ) (x : ℝ) :
    weightOf g x = (x - gp g (cellOf g x)) / (gp g (cellOf g x + 1) - gp g (cellOf g x)) := rfl

theorem bilinear_full {m n : ℕ} {val image} (h : IsFull m n val image) (hn : 0 < n) (g hh : List ℝ)
    (hg : Ascending g) (hgl : g.length = m) (hm : 2 ≤ m) (hh2 : Ascending hh) (hhl : hh.length = n + 2)
    (x y : ℝ) (hx0 : gp g 0 ≤ x) (hx1 : x ≤ gp g (m - 1)) (hy0 : gp hh 0 ≤ y) (hy1 : y ≤ gp hh (n + 1))
    (i j : ℕ) (hi : i + 1 < m) (hi0 : gp g i ≤ x) (hi1 : x ≤ gp g (i + 1))
    (hj : j + 1 < n + 2) (hj0 : gp hh j ≤ y) (hj1 : y ≤ gp hh (j + 1)) :
    ∃ v, bilinear g hh (image.map padRow) x y = some v ∧
      Spec.IsBilinear (val i (if j = 0 then n - 1 else if j ≤ n then j - 1 else 0))
        (val i (if j + 1 = 0 then n - 1 else if j + 1 ≤ n then j + 1 - 1 else 0))
        (val (i + 1) (if j = 0 then n - 1 else if j ≤ n then j - 1 else 0))
        (val (i + 1) (if j + 1 = 0 then n - 1 else if j + 1 ≤ n then j + 1 - 1 else 0))
        ((x - gp g i) / (gp g (i + 1) - gp g i)) ((y - gp hh j) / (gp hh (j + 1) - gp hh j)) v := by
  have hgne : g ≠ [] := by intro e; rw [e] at hgl; simp at hgl; omega
  have hhne : hh ≠ [] := by intro e; rw [e] at hhl; simp at hhl
  obtain ⟨c1, c2, c3⟩ := cell_contains g hg (by omega) x hx0 (by rw [hgl]; exact hx1)
  obtain ⟨d1, d2, d3⟩ := cell_contains hh hh2 (by omega) y hy0 (by
    rw [show hh.length - 1 = n + 1 by omega]; exact hy1)
  unfold bilinear
  rw [if_neg (by
    rw [headD_gp, headD_gp, getLastD_gp g hgne, getLastD_gp hh hhne, hgl, show hh.length - 1 = n + 1 by omega]
    push Not; exact ⟨hx0, hx1, hy0, hy1⟩)]
  simp only []
  rw [padded_at h _ _ (by omega) hn (by omega), padded_at h _ _ (by omega) hn (by omega),
    padded_at h _ _ (by omega) hn (by omega), padded_at h _ _ (by omega) hn (by omega)]
  refine ⟨_, rfl, ?_⟩
  unfold Spec.IsBilinear
  set q : ℕ → ℕ := fun j => if j = 0 then n - 1 else if j ≤ n then j - 1 else 0 with hq
  have row : ∀ k, (1 - weightOf hh y) * val k (q (cellOf hh y)) + weightOf hh y * val k (q (cellOf hh y + 1)) =
      (1 - (y - gp hh j) / (gp hh (j + 1) - gp hh j)) * val k (q j) +
        (y - gp hh j) / (gp hh (j + 1) - gp hh j) * val k (q (j + 1)) := by
    intro k
    rw [weight_cell]
    exact linear_any_cell hh hh2 (fun j => val k (q j)) y (cellOf hh y) j d1 d2 d3 (by omega) hj0 hj1
  have col := linear_any_cell g hg (fun k => (1 - (y - gp hh j) / (gp hh (j + 1) - gp hh j)) * val k (q j) +
        (y - gp hh j) / (gp hh (j + 1) - gp hh j) * val k (q (j + 1))) x (cellOf g x) i c1 c2 c3 (by omega) hi0 hi1
  rw [← weight_cell] at col
  beta_reduce at col
  have goal_eq : (1 - weightOf g x) * (1 - weightOf hh y) * val (cellOf g x) (q (cellOf hh y)) +
      (1 - weightOf g x) * weightOf hh y * val (cellOf g x) (q (cellOf hh y + 1)) +
      weightOf g x * (1 - weightOf hh y) * val (cellOf g x + 1) (q (cellOf hh y)) +
      weightOf g x * weightOf hh y * val (cellOf g x + 1) (q (cellOf hh y + 1)) =
      (1 - weightOf g x) * ((1 - weightOf hh y) * val (cellOf g x) (q (cellOf hh y)) +
        weightOf hh y * val (cellOf g x) (q (cellOf hh y + 1))) +
      weightOf g x * ((1 - weightOf hh y) * val (cellOf g x + 1) (q (cellOf hh y)) +
        weightOf hh y * val (cellOf g x + 1) (q (cellOf hh y + 1))) := by ring
  change (1 - weightOf g x) * (1 - weightOf hh y) * val (cellOf g x) (q (cellOf hh y)) +
      (1 - weightOf g x) * weightOf hh y * val (cellOf g x) (q (cellOf hh y + 1)) +
      weightOf g x * (1 - weightOf hh y) * val (cellOf g x + 1) (q (cellOf hh y)) +
      weightOf g x * weightOf hh y * val (cellOf g x + 1) (q (cellOf hh y + 1)) =
      (1 - (x - gp g i) / (gp g (i + 1) - gp g i)) * ((1 - (y - gp hh j) / (gp hh (j + 1) - gp hh j)) * val i (q j) +
        (y - gp hh j) / (gp hh (j + 1) - gp hh j) * val i (q (j + 1))) +
      (x - gp g i) / (gp g (i + 1) - gp g i) * ((1 - (y - gp hh j) / (gp hh (j + 1) - gp hh j)) * val (i + 1) (q j) +
        (y - gp hh j) / (gp hh (j + 1) - gp hh j) * val (i + 1) (q (j + 1)))
  rw [goal_eq, row, row, ← col]

/-! ### The call -/

theorem gp_map_sub (a : List ℝ) (c : ℝ) (i : ℕ) (hi : i < a.length) : gp (a.map (· - c)) i = gp a i - c := by
  rw [gp_eq (by simpa using hi), gp_eq hi]; simp

theorem shifted_mod (angles : List ℝ) (ha : Ascending angles) (hne : angles ≠ [])
    (hspan : gp angles (angles.length - 1) < gp angles 0 + 2 * Real.pi) :
    (angles.map (· - gp angles 0)).map mod2pi = angles.map (· - gp angles 0) := by
  rw [List.map_map]
  apply List.map_congr_left
  intro x hx
  obtain ⟨i, hi, rfl⟩ := List.getElem_of_mem hx
  simp only [Function.comp]
  have h1 := gp_le ha (Nat.zero_le i) hi
  have h2 := gp_le ha (show i ≤ angles.length - 1 by omega) (by omega)
  rw [gp_eq hi] at h1 h2
  exact mod2pi_self _ (by linarith) (by linarith)

theorem shifted_asc (angles : List ℝ) (ha : Ascending angles) (c : ℝ) : Ascending (angles.map (· - c)) := by
  unfold Ascending
  rw [List.pairwise_map]
  exact ha.imp (fun h => by linarith)

theorem asc_le (g : List ℝ) (h : Ascending g) : g.Pairwise (· ≤ ·) := h.imp (fun h => h.le)

/-- The value the code computes at one pixel, once the call is accepted. -/
theorem rphi_ok_masked (radii angles : List ℝ) (m n : ℕ) (hr : Ascending radii) (hrl : radii.length = m) (hm : 2 ≤ m)
    (ha : Ascending angles) (hal : angles.length = n) (hn : 1 ≤ n)
    (hspan : gp angles (n - 1) < gp angles 0 + 2 * Real.pi) (image image' : List (List (Option ℝ)))
    (mask : Option (List (List Bool))) (hmask : ∀ k, mask = some k → shapeOf k = shapeOf image)
    (happ : applyMask mask image = image') (him : shapeOf image' = (m, n)) (H W : ℕ) (center : Option (ℝ × ℝ)) (ps : ℝ × ℝ) :
    ∃ out, (rphiImage radii angles image mask center (some ((H : ℤ), (W : ℤ))) ps).result = .ok out ∧
      out.length = H ∧ ∀ r, r < H → ∃ row, out[r]? = some row ∧ row.length = W ∧
        ∀ c, c < W → row[c]? = some (bilinear radii (padGrid (angles.map (· - gp angles 0))) (image'.map padRow)
          (Spec.distance (center.getD (((H : ℝ) - 1) / 2, ((W : ℝ) - 1) / 2)) ps r c)
          (mod2pi (Spec.direction (center.getD (((H : ℝ) - 1) / 2, ((W : ℝ) - 1) / 2)) ps r c - gp angles 0))) := by
  obtain ⟨ctr, hctr, hf⟩ : ∃ ctr, ctr = center.getD (((H : ℝ) - 1) / 2, ((W : ℝ) - 1) / 2) ∧
      frame radii (some ((H : ℤ), (W : ℤ))) center ps = .ok (((H : ℤ), (W : ℤ)), ctr) :=
    ⟨_, rfl, by cases center <;> simp [frame]⟩
  rw [← hctr]
  have hne : angles ≠ [] := by intro e; rw [e] at hal; simp at hal; omega
  have hspan' : gp angles (angles.length - 1) < gp angles 0 + 2 * Real.pi := by rw [hal]; exact hspan
  have hcore : (rphiImage radii angles image mask center (some ((H : ℤ), (W : ℤ))) ps).result =
      rphiCore radii (angles.map (· - gp angles 0)) image' ((H : ℤ), (W : ℤ)) ctr ps (gp angles 0) := by
    unfold rphiImage
    cases mask with
    | none =>
      simp only []
      rw [hf, happ]
      cases hang : angles with
      | nil => exact absurd hang hne
      | cons a0 t => rfl
    | some k =>
      simp only []
      rw [if_neg (not_not.2 (hmask k rfl))]
      simp only []
      rw [hf, happ]
      cases hang : angles with
      | nil => exact absurd hang hne
      | cons a0 t => rfl
  rw [hcore]
  unfold rphiCore
  simp only []
  have hasc := shifted_asc angles ha (gp angles 0)
  have hsne : angles.map (· - gp angles 0) ≠ [] := by simpa using hne
  have hpad : Ascending (padGrid (angles.map (· - gp angles 0))) := by
    apply padGrid_asc _ hasc hsne
    rw [List.length_map, gp_map_sub _ _ _ (by omega), gp_map_sub _ _ _ (by omega)]; linarith
  rw [shifted_mod angles ha hne hspan', if_neg (by push Not; exact asc_le _ hasc), him,
    if_neg (by simp only []; omega)]
  rw [if_neg (by
    rw [padGrid_length, List.length_map]
    rintro (h | h | h | h)
    · exact h hrl
    · exact h (by simp only []; omega)
    · exact h hr
    · exact h hpad)]
  refine ⟨_, rfl, by simp [radial_length, angle_length], ?_⟩
  intro r hrr
  refine ⟨_, by
    rw [List.getElem?_zipWith]
    simp only [Int.toNat_natCast]
    rw [radial_row ctr ps H W r hrr, angle_row ctr ps H W r hrr], by simp, ?_⟩
  intro c hc
  rw [List.getElem?_zipWith, List.getElem?_map, List.getElem?_map, List.getElem?_range hc]
  rfl

theorem rphi_ok (radii angles : List ℝ) (m n : ℕ) (hr : Ascending radii) (hrl : radii.length = m) (hm : 2 ≤ m)
    (ha : Ascending angles) (hal : angles.length = n) (hn : 1 ≤ n)
    (hspan : gp angles (n - 1) < gp angles 0 + 2 * Real.pi) (val : ℕ → ℕ → ℝ) (image : List (List (Option ℝ)))
    (him : IsFull m n val image) (H W : ℕ) (center : Option (ℝ × ℝ)) (ps : ℝ × ℝ) :
    ∃ out, (rphiImage radii angles image none center (some ((H : ℤ), (W : ℤ))) ps).result = .ok out ∧
      out.length = H ∧ ∀ r, r < H → ∃ row, out[r]? = some row ∧ row.length = W ∧
        ∀ c, c < W → row[c]? = some (bilinear radii (padGrid (angles.map (· - gp angles 0))) (image.map padRow)
          (Spec.distance (center.getD (((H : ℝ) - 1) / 2, ((W : ℝ) - 1) / 2)) ps r c)
          (mod2pi (Spec.direction (center.getD (((H : ℝ) - 1) / 2, ((W : ℝ) - 1) / 2)) ps r c - gp angles 0))) :=
  rphi_ok_masked radii angles m n hr hrl hm ha hal hn hspan image image none (fun _ h => by cases h) rfl
    (full_shape him (by omega)) H W center ps

/-- C139: for every ascending grid of at least two radii and of angles spanning less than a full turn, every NaN-free
polar image, output size, centre and pixel size, the call succeeds; a pixel nearer than the first or farther than the
last radius is NaN; and every other pixel lies in some cell of the periodically continued polar grid and holds, for
every such cell, the bilinear interpolation of the four corner values (0 being the direction of larger columns, angles
growing towards larger rows). -/
theorem C139_polar_bilinear (radii angles : List ℝ) (m n : ℕ) (hr : Ascending radii) (hrl : radii.length = m)
    (hm : 2 ≤ m) (ha : Ascending angles) (hal : angles.length = n) (hn : 1 ≤ n)
    (hspan : gp angles (n - 1) < gp angles 0 + 2 * Real.pi) (val : ℕ → ℕ → ℝ) (image : List (List (Option ℝ)))
    (him : IsFull m n val image) (H W : ℕ) (center : Option (ℝ × ℝ)) (ps : ℝ × ℝ) :
    let ctr := center.getD (((H : ℝ) - 1) / 2, ((W : ℝ) - 1) / 2)
    let α := Spec.wrapAngle n (gp angles)
    ∃ out, (rphiImage radii angles image none center (some ((H : ℤ), (W : ℤ))) ps).result = .ok out ∧
      out.length = H ∧ ∀ r, r < H → ∃ row, out[r]? = some row ∧ row.length = W ∧
        ∀ c, c < W → ∃ pixel, row[c]? = some pixel ∧
          let ρ := Spec.distance ctr ps r c
          let φ := Spec.direction ctr ps r c
          ((ρ < gp radii 0 ∨ gp radii (m - 1) < ρ) → pixel = none) ∧
          ((gp radii 0 ≤ ρ ∧ ρ ≤ gp radii (m - 1)) → ∃ i j, ∃ k : ℤ, i + 1 < m ∧ j < n ∧ gp radii i ≤ ρ ∧
            ρ ≤ gp radii (i + 1) ∧ α j ≤ φ + 2 * Real.pi * k ∧ φ + 2 * Real.pi * k ≤ α (j + 1)) ∧
          (∀ i j, ∀ k : ℤ, i + 1 < m → j < n → gp radii i ≤ ρ → ρ ≤ gp radii (i + 1) →
            α j ≤ φ + 2 * Real.pi * k → φ + 2 * Real.pi * k ≤ α (j + 1) →
            ∃ v, pixel = some v ∧ Spec.IsBilinear (val i j) (val i (Spec.wrapCol n (j + 1))) (val (i + 1) j)
              (val (i + 1) (Spec.wrapCol n (j + 1))) ((ρ - gp radii i) / (gp radii (i + 1) - gp radii i))
              ((φ + 2 * Real.pi * k - α j) / (α (j + 1) - α j)) v) := by
  intro ctr α
  obtain ⟨out, h1, h2, h3⟩ := rphi_ok radii angles m n hr hrl hm ha hal hn hspan val image him H W center ps
  refine ⟨out, h1, h2, ?_⟩
  intro r hrr
  obtain ⟨row, h4, h5, h6⟩ := h3 r hrr
  refine ⟨row, h4, h5, ?_⟩
  intro c hc
  refine ⟨_, h6 c hc, ?_⟩
  intro ρ φ
  have hne : angles ≠ [] := by intro e; rw [e] at hal; simp at hal; omega
  set s := angles.map (· - gp angles 0) with hs
  have hsl : s.length = n := by rw [hs, List.length_map, hal]
  have hsne : s ≠ [] := by intro e; rw [e] at hsl; simp at hsl; omega
  have hsasc : Ascending s := shifted_asc angles ha (gp angles 0)
  have hsat : ∀ j, j < n → gp s j = gp angles j - gp angles 0 := fun j hj => gp_map_sub _ _ _ (by omega)
  have hs0 : gp s 0 = 0 := by rw [hsat 0 (by omega)]; ring
  have hpad : Ascending (padGrid s) := by
    apply padGrid_asc s hsasc hsne
    rw [hsl, hsat _ (by omega), hsat _ (by omega)]; linarith
  have hplen : (padGrid s).length = n + 2 := by rw [padGrid_length, hsl]
  obtain ⟨y0, y1⟩ := mod2pi_range (φ - gp angles 0)
  have hlow : gp (padGrid s) 0 ≤ mod2pi (φ - gp angles 0) := by
    rw [padGrid_first s hsne, hsl, hsat _ (by omega)]; linarith
  have hhigh : mod2pi (φ - gp angles 0) ≤ gp (padGrid s) (n + 1) := by
    have := padGrid_last s
    rw [hsl] at this
    rw [this, hs0]; linarith
  -- cell j of the continued grid is cell j+1 of the padded one
  have hα : ∀ j, j ≤ n → gp (padGrid s) (j + 1) = α j - gp angles 0 := by
    intro j hj
    by_cases hjn : j < n
    · rw [padGrid_at s j (by omega), hsat j hjn]
      simp only [α, Spec.wrapAngle, if_pos hjn]
    · obtain rfl : j = n := by omega
      have := padGrid_last s
      rw [hsl] at this
      rw [this, hs0]
      simp only [α, Spec.wrapAngle, if_neg hjn]; ring
  refine ⟨?_, ?_, ?_⟩
  · intro h
    unfold bilinear
    rw [if_pos]
    have hgne : radii ≠ [] := by intro e; rw [e] at hrl; simp at hrl; omega
    rw [headD_gp, getLastD_gp radii hgne, hrl]
    rcases h with h | h
    · exact Or.inl h
    · exact Or.inr (Or.inl h)
  · rintro ⟨hρ0, hρ1⟩
    obtain ⟨i, hi, hi0, hi1⟩ := exists_cell radii hr (by omega) ρ hρ0 (by rw [hrl]; exact hρ1)
    have hb := below_iff s hsasc (mod2pi (φ - gp angles 0))
    have hbl := below_le s (mod2pi (φ - gp angles 0))
    have hpos : 0 < below s (mod2pi (φ - gp angles 0)) := (hb 0 (by omega)).1 (by rw [hs0]; exact y0)
    set b := below s (mod2pi (φ - gp angles 0)) with hbdef
    have hmod : mod2pi (φ - gp angles 0) =
        φ + 2 * Real.pi * ((-⌊(φ - gp angles 0) / (2 * Real.pi)⌋ : ℤ) : ℝ) - gp angles 0 := by
      unfold mod2pi; push_cast; ring
    refine ⟨i, b - 1, -⌊(φ - gp angles 0) / (2 * Real.pi)⌋, by omega, by omega, hi0, hi1, ?_, ?_⟩
    · have e1 := (hb (b - 1) (by omega)).2 (by omega)
      have e2 := hα (b - 1) (by omega)
      rw [padGrid_at s (b - 1) (by omega)] at e2
      rw [e2, hmod] at e1
      linarith
    · rw [Nat.sub_add_cancel hpos]
      have e2 := hα b (by omega)
      by_cases hbn : b < n
      · have e1 := (hb b (by omega)).not.2 (lt_irrefl _)
        rw [padGrid_at s b (by omega)] at e2
        rw [e2, hmod] at e1
        linarith [not_le.1 e1]
      · obtain hbn' : b = n := by omega
        rw [hbn']
        simp only [α, Spec.wrapAngle, if_neg (lt_irrefl n)]
        rw [hmod] at y1
        linarith
  · intro i j k hi hj hi0 hi1 hj0 hj1
    have hρ0 : gp radii 0 ≤ ρ := le_trans (gp_le hr (Nat.zero_le i) (by omega)) hi0
    have hρ1 : ρ ≤ gp radii (m - 1) := le_trans hi1 (gp_le hr (by omega) (by omega))
    have ga := hα j (by omega)
    have gb := hα (j + 1) (by omega)
    have hle : 0 ≤ α j - gp angles 0 := by
      rw [← ga, padGrid_at s j (by omega), ← hs0]; exact gp_le hsasc (Nat.zero_le j) (by omega)
    have hge : α (j + 1) - gp angles 0 ≤ 2 * Real.pi := by
      rw [← gb]
      have := gp_le hpad (show j + 1 + 1 ≤ n + 1 by omega) (by omega)
      have h' := padGrid_last s
      rw [hsl] at h'
      rw [h', hs0] at this
      linarith
    have hrow : ∀ q, (if q + 1 = 0 then n - 1 else if q + 1 ≤ n then q + 1 - 1 else 0) = Spec.wrapCol n q := by
      intro q; unfold Spec.wrapCol; rw [if_neg (by omega)]
      by_cases hq : q < n
      · rw [if_pos (by omega), if_pos hq]; omega
      · rw [if_neg (by omega), if_neg hq]
    have hwj : Spec.wrapCol n j = j := by unfold Spec.wrapCol; rw [if_pos hj]
    by_cases hlt : φ + 2 * Real.pi * k - gp angles 0 < 2 * Real.pi
    · have hy : mod2pi (φ - gp angles 0) = φ + 2 * Real.pi * k - gp angles 0 :=
        mod2pi_eq _ _ (-k) (by push_cast; ring) (by linarith) hlt
      obtain ⟨v, hv, hbil⟩ := bilinear_full him (by omega) radii (padGrid s) hr hrl hm hpad hplen ρ
        (mod2pi (φ - gp angles 0)) hρ0 hρ1 hlow hhigh i (j + 1) hi hi0 hi1 (by omega)
        (by rw [ga, hy]; linarith) (by rw [gb, hy]; linarith)
      refine ⟨v, hv, ?_⟩
      rw [hrow, hrow, hwj, ga, gb, hy] at hbil
      have e1 : φ + 2 * Real.pi * k - gp angles 0 - (α j - gp angles 0) = φ + 2 * Real.pi * k - α j := by ring
      have e2 : α (j + 1) - gp angles 0 - (α j - gp angles 0) = α (j + 1) - α j := by ring
      rw [e1, e2] at hbil
      exact hbil
    · have hjn : j + 1 = n := by
        by_contra hne'
        have h' := gp_lt hpad (show j + 1 + 1 < n + 1 by omega) (by omega)
        have h'' := padGrid_last s
        rw [hsl] at h''
        rw [h'', hs0, gb] at h'
        linarith [not_lt.1 hlt]
      have hy : mod2pi (φ - gp angles 0) = 0 := by
        have : φ + 2 * Real.pi * k - gp angles 0 = 2 * Real.pi := le_antisymm (by linarith) (not_lt.1 hlt)
        exact mod2pi_eq _ _ (1 - k) (by push_cast; linarith) (le_refl _) two_pi_pos
      have hg1 : gp (padGrid s) (0 + 1) = 0 := by rw [padGrid_at s 0 (by omega), hs0]
      have hg2 : (0 : ℝ) ≤ gp (padGrid s) (0 + 1 + 1) := by
        rw [← hg1]; exact gp_le hpad (by omega) (by omega)
      obtain ⟨v, hv, hbil⟩ := bilinear_full him (by omega) radii (padGrid s) hr hrl hm hpad hplen ρ
        (mod2pi (φ - gp angles 0)) hρ0 hρ1 hlow hhigh i (0 + 1) hi hi0 hi1 (by omega)
        (by rw [hg1, hy]) (by rw [hy]; exact hg2)
      refine ⟨v, hv, ?_⟩
      rw [hrow, hrow, hg1, hy] at hbil
      have hw0 : Spec.wrapCol n 0 = 0 := by unfold Spec.wrapCol; simp
      have hwn : Spec.wrapCol n (j + 1) = 0 := by unfold Spec.wrapCol; rw [if_neg (by omega)]
      have hαn : α (j + 1) = gp angles 0 + 2 * Real.pi := by
        simp only [α, Spec.wrapAngle]; rw [if_neg (by omega)]
      have hαj : α j < α (j + 1) := by
        have := gp_lt hpad (show j + 1 < j + 1 + 1 by omega) (by omega)
        rw [ga, gb] at this; linarith
      have ht : (φ + 2 * Real.pi * k - α j) / (α (j + 1) - α j) = 1 := by
        have : φ + 2 * Real.pi * k = α (j + 1) := le_antisymm hj1 (by rw [hαn]; linarith [not_lt.1 hlt])
        rw [this]; exact div_self (by linarith)
      rw [hwn, ht]
      rw [hw0] at hbil
      unfold Spec.IsBilinear at hbil ⊢
      rw [hbil]; simp

/-- Non-vacuity: two radii, angles a quarter turn from each other starting at a positive angle. -/
example : Ascending [0, 2] ∧ Ascending [Real.pi / 2, 3 * Real.pi / 2] ∧
    gp [Real.pi / 2, 3 * Real.pi / 2] (2 - 1) < gp [Real.pi / 2, 3 * Real.pi / 2] 0 + 2 * Real.pi ∧
    IsFull 2 2 (fun _ j => j) [[some 0, some 1], [some 0, some 1]] := by
  have := Real.pi_pos
  refine ⟨by simp [Ascending], ?_, ?_, ?_⟩
  · simp [Ascending]; linarith
  · simp [gp]; linarith
  · simp [IsFull, List.range_succ]

/-- A mask of m rows and n columns. -/
def IsMask (m n : ℕ) (keep : ℕ → ℕ → Bool) (mask : List (List Bool)) : Prop :=
  mask = (List.range m).map (fun i => (List.range n).map (fun j => keep i j))

theorem zipWith_range {α β γ : Type} (f : α → β → γ) (n : ℕ) (a : ℕ → α) (b : ℕ → β) :
    List.zipWith f ((List.range n).map a) ((List.range n).map b) = (List.range n).map (fun i => f (a i) (b i)) := by
  apply List.ext_getElem?
  intro i
  simp only [List.getElem?_zipWith, List.getElem?_map]
  by_cases h : i < n
  · simp [List.getElem?_range h]
  · simp [List.getElem?_eq_none (l := List.range n) (i := i) (by simp; omega)]

theorem masked_isMap {m n : ℕ} {val image keep mask} (him : IsFull m n val image) (hk : IsMask m n keep mask) :
    IsMap m n (fun i j => if keep i j then some (val i j) else none) (applyMask (some mask) image) := by
  unfold IsMap applyMask
  rw [him, hk]
  simp only [zipWith_range]

theorem mask_shape {m n : ℕ} {keep mask} (hk : IsMask m n keep mask) (hm : 0 < m) : shapeOf mask = (m, n) := by
  rw [hk]
  unfold shapeOf
  obtain ⟨m, rfl⟩ := Nat.exists_eq_succ_of_ne_zero hm.ne'
  simp [List.range_succ_eq_map]

/-- C139 with a mask: for a mask of the image's shape the call succeeds, and every pixel within the radial range lies in
a cell of the periodically continued polar grid such that the pixel is NaN if one of the cell's four corners is masked,
and as in the call without a mask (`C139_polar_bilinear`) if none is; pixels outside the range are NaN.  Afterwards the
caller's image is NaN at the masked points and unchanged at the others. -/
theorem C139_masked (radii angles : List ℝ) (m n : ℕ) (hr : Ascending radii) (hrl : radii.length = m)
    (hm : 2 ≤ m) (ha : Ascending angles) (hal : angles.length = n) (hn : 1 ≤ n)
    (hspan : gp angles (n - 1) < gp angles 0 + 2 * Real.pi) (val : ℕ → ℕ → ℝ) (image : List (List (Option ℝ)))
    (him : IsFull m n val image) (keep : ℕ → ℕ → Bool) (mask : List (List Bool)) (hk : IsMask m n keep mask)
    (H W : ℕ) (center : Option (ℝ × ℝ)) (ps : ℝ × ℝ) :
    let ctr := center.getD (((H : ℝ) - 1) / 2, ((W : ℝ) - 1) / 2)
    let α := Spec.wrapAngle n (gp angles)
    (∃ out plain, (rphiImage radii angles image (some mask) center (some ((H : ℤ), (W : ℤ))) ps).result = .ok out ∧
      (rphiImage radii angles image none center (some ((H : ℤ), (W : ℤ))) ps).result = .ok plain ∧ out.length = H ∧
      ∀ r, r < H → ∃ row prow, out[r]? = some row ∧ plain[r]? = some prow ∧ row.length = W ∧
        ∀ c, c < W → ∃ pixel ppixel, row[c]? = some pixel ∧ prow[c]? = some ppixel ∧
          let ρ := Spec.distance ctr ps r c
          let φ := Spec.direction ctr ps r c
          ((ρ < gp radii 0 ∨ gp radii (m - 1) < ρ) → pixel = none) ∧
          ((gp radii 0 ≤ ρ ∧ ρ ≤ gp radii (m - 1)) → ∃ i j, ∃ k : ℤ, i + 1 < m ∧ j < n ∧ gp radii i ≤ ρ ∧
            ρ ≤ gp radii (i + 1) ∧ α j ≤ φ + 2 * Real.pi * k ∧ φ + 2 * Real.pi * k ≤ α (j + 1) ∧
            (keep i j = true ∧ keep i (Spec.wrapCol n (j + 1)) = true ∧ keep (i + 1) j = true ∧
              keep (i + 1) (Spec.wrapCol n (j + 1)) = true → pixel = ppixel) ∧
            (keep i j = false ∨ keep i (Spec.wrapCol n (j + 1)) = false ∨ keep (i + 1) j = false ∨
              keep (i + 1) (Spec.wrapCol n (j + 1)) = false → pixel = none))) ∧
    (rphiImage radii angles image (some mask) center (some ((H : ℤ), (W : ℤ))) ps).image =
      (List.range m).map (fun i => (List.range n).map (fun j => if keep i j then some (val i j) else none)) := by
  intro ctr α
  have hmap := masked_isMap him hk
  refine ⟨?_, ?_⟩
  swap
  · unfold rphiImage
    simp only []
    rw [if_neg (by rw [mask_shape hk (by omega), full_shape him (by omega)]; simp)]
    simp only []
    rw [show applyMask (some mask) image = _ from hmap]
    cases center <;> cases angles <;> rfl
  obtain ⟨out, h1, h2, h3⟩ := rphi_ok_masked radii angles m n hr hrl hm ha hal hn hspan image _ (some mask)
    (fun k hk' => by cases hk'; rw [mask_shape hk (by omega), full_shape him (by omega)]) rfl (map_shape hmap (by omega))
    H W center ps
  obtain ⟨plain, p1, p2, p3⟩ := rphi_ok radii angles m n hr hrl hm ha hal hn hspan val image him H W center ps
  refine ⟨out, plain, h1, p1, h2, ?_⟩
  intro r hrr
  obtain ⟨row, h4, h5, h6⟩ := h3 r hrr
  obtain ⟨prow, p4, p5, p6⟩ := p3 r hrr
  refine ⟨row, prow, h4, p4, h5, ?_⟩
  intro c hc
  refine ⟨_, _, h6 c hc, p6 c hc, ?_⟩
  intro ρ φ
  have hne : angles ≠ [] := by intro e; rw [e] at hal; simp at hal; omega
  have hgne : radii ≠ [] := by intro e; rw [e] at hrl; simp at hrl; omega
  set s := angles.map (· - gp angles 0) with hs
  have hsl : s.length = n := by rw [hs, List.length_map, hal]
  have hsne : s ≠ [] := by intro e; rw [e] at hsl; simp at hsl; omega
  have hsasc : Ascending s := shifted_asc angles ha (gp angles 0)
  have hsat : ∀ j, j < n → gp s j = gp angles j - gp angles 0 := fun j hj => gp_map_sub _ _ _ (by omega)
  have hs0 : gp s 0 = 0 := by rw [hsat 0 (by omega)]; ring
  have hpad : Ascending (padGrid s) := by
    apply padGrid_asc s hsasc hsne
    rw [hsl, hsat _ (by omega), hsat _ (by omega)]; linarith
  have hplen : (padGrid s).length = n + 2 := by rw [padGrid_length, hsl]
  have hpne : padGrid s ≠ [] := by intro e; rw [e] at hplen; simp at hplen
  obtain ⟨y0, y1⟩ := mod2pi_range (φ - gp angles 0)
  have hlow : gp (padGrid s) 0 ≤ mod2pi (φ - gp angles 0) := by
    rw [padGrid_first s hsne, hsl, hsat _ (by omega)]; linarith
  have hhigh : mod2pi (φ - gp angles 0) ≤ gp (padGrid s) (n + 1) := by
    have := padGrid_last s
    rw [hsl] at this
    rw [this, hs0]; linarith
  have hα : ∀ j, j ≤ n → gp (padGrid s) (j + 1) = α j - gp angles 0 := by
    intro j hj
    by_cases hjn : j < n
    · rw [padGrid_at s j (by omega), hsat j hjn]
      simp only [α, Spec.wrapAngle, if_pos hjn]
    · obtain rfl : j = n := by omega
      have := padGrid_last s
      rw [hsl] at this
      rw [this, hs0]
      simp only [α, Spec.wrapAngle, if_neg hjn]; ring
  refine ⟨?_, ?_⟩
  · intro h
    unfold bilinear
    rw [if_pos]
    rw [headD_gp, getLastD_gp radii hgne, hrl]
    rcases h with h | h
    · exact Or.inl h
    · exact Or.inr (Or.inl h)
  · rintro ⟨hρ0, hρ1⟩
    obtain ⟨c1, c2, c3⟩ := cell_contains radii hr (by omega) ρ hρ0 (by rw [hrl]; exact hρ1)
    obtain ⟨d1, d2, d3⟩ := cell_contains (padGrid s) hpad (by omega) (mod2pi (φ - gp angles 0)) hlow (by
      rw [show (padGrid s).length - 1 = n + 1 by omega]; exact hhigh)
    have hmod : mod2pi (φ - gp angles 0) =
        φ + 2 * Real.pi * ((-⌊(φ - gp angles 0) / (2 * Real.pi)⌋ : ℤ) : ℝ) - gp angles 0 := by
      unfold mod2pi; push_cast; ring
    have hbil : ∀ img : List (List (Option ℝ)), bilinear radii (padGrid s) img ρ (mod2pi (φ - gp angles 0)) =
        match at2 img (cellOf radii ρ) (cellOf (padGrid s) (mod2pi (φ - gp angles 0))),
          at2 img (cellOf radii ρ) (cellOf (padGrid s) (mod2pi (φ - gp angles 0)) + 1),
          at2 img (cellOf radii ρ + 1) (cellOf (padGrid s) (mod2pi (φ - gp angles 0))),
          at2 img (cellOf radii ρ + 1) (cellOf (padGrid s) (mod2pi (φ - gp angles 0)) + 1) with
        | some a, some b, some c, some d =>
          some ((1 - weightOf radii ρ) * (1 - weightOf (padGrid s) (mod2pi (φ - gp angles 0))) * a +
            (1 - weightOf radii ρ) * weightOf (padGrid s) (mod2pi (φ - gp angles 0)) * b +
            weightOf radii ρ * (1 - weightOf (padGrid s) (mod2pi (φ - gp angles 0))) * c +
            weightOf radii ρ * weightOf (padGrid s) (mod2pi (φ - gp angles 0)) * d)
        | _, _, _, _ => none := by
      intro img
      unfold bilinear
      rw [if_neg (by
        rw [headD_gp, headD_gp, getLastD_gp radii hgne, getLastD_gp _ hpne, hrl, show (padGrid s).length - 1 = n + 1 by omega]
        push Not; exact ⟨hρ0, hρ1, hlow, hhigh⟩)]
      rfl
    have hpos : 1 ≤ cellOf (padGrid s) (mod2pi (φ - gp angles 0)) := by
      unfold cellOf
      rw [hplen]
      refine le_min ?_ (by omega)
      have hb : 2 ≤ List.countP (fun a => decide (a ≤ mod2pi (φ - gp angles 0))) (padGrid s) := by
        have hpg : padGrid s = gp (padGrid s) 0 :: gp (padGrid s) 1 :: (padGrid s).drop 2 := by
          obtain ⟨a, t, e⟩ := List.exists_cons_of_ne_nil hsne
          rw [e]; simp [padGrid, gp]
        have h1 : gp (padGrid s) 1 ≤ mod2pi (φ - gp angles 0) := by
          rw [padGrid_at s 0 (by omega), hs0]; exact y0
        rw [hpg, List.countP_cons, List.countP_cons, if_pos (by simpa using h1), if_pos (by simpa using hlow)]
        omega
      omega
    obtain ⟨j, hj⟩ : ∃ j, cellOf (padGrid s) (mod2pi (φ - gp angles 0)) = j + 1 :=
      ⟨_, (Nat.sub_add_cancel hpos).symm⟩
    have hjn : j < n := by rw [hj] at d1; omega
    have hrow : ∀ q, (if q + 1 = 0 then n - 1 else if q + 1 ≤ n then q + 1 - 1 else 0) = Spec.wrapCol n q := by
      intro q; unfold Spec.wrapCol; rw [if_neg (by omega)]
      by_cases hq : q < n
      · rw [if_pos (by omega), if_pos hq]; omega
      · rw [if_neg (by omega), if_neg hq]
    have hwj : Spec.wrapCol n j = j := by unfold Spec.wrapCol; rw [if_pos hjn]
    refine ⟨cellOf radii ρ, j, -⌊(φ - gp angles 0) / (2 * Real.pi)⌋, by omega, hjn, c2, c3, ?_, ?_, ?_, ?_⟩
    · rw [hj, hα j (by omega), hmod] at d2; linarith
    · rw [hj, hα (j + 1) (by omega), hmod] at d3; linarith
    · rintro ⟨k1, k2, k3, k4⟩
      rw [hbil, hbil, hj, padded_at_map hmap _ _ (by omega) hn (by omega), padded_at_map hmap _ _ (by omega) hn (by omega),
        padded_at_map hmap _ _ (by omega) hn (by omega), padded_at_map hmap _ _ (by omega) hn (by omega),
        padded_at him _ _ (by omega) hn (by omega), padded_at him _ _ (by omega) hn (by omega),
        padded_at him _ _ (by omega) hn (by omega), padded_at him _ _ (by omega) hn (by omega)]
      rw [hrow, hrow, hwj]
      simp only [k1, k2, k3, k4, if_true]
    · intro hkk
      rw [hbil, hj, padded_at_map hmap _ _ (by omega) hn (by omega), padded_at_map hmap _ _ (by omega) hn (by omega),
        padded_at_map hmap _ _ (by omega) hn (by omega), padded_at_map hmap _ _ (by omega) hn (by omega)]
      rw [hrow, hrow, hwj]
      rcases hkk with k | k | k | k <;> simp only [k, Bool.false_eq_true, if_false] <;> split <;> simp_all

/-- Non-vacuity: the image above with one point masked. -/
example : IsMask 2 2 (fun i j => i == 0 || j == 1) [[true, true], [false, true]] := by unfold IsMask; decide

/-! ## C140 the angle domain -/

/-- C140 as documented fails: angles that run from a first value to exactly one full turn later (the documentation's
own example, where the repeated last point "is ignored") are rejected with a ValueError, for every such list of at
least two ascending angles and every image of matching shape. -/
theorem C140_full_turn_refuted (radii angles : List ℝ) (hn : 2 ≤ angles.length) (ha : Ascending angles)
    (hturn : gp angles (angles.length - 1) = gp angles 0 + 2 * Real.pi) (image : List (List (Option ℝ)))
    (hw : (shapeOf image).2 ≠ 0) (H W : ℕ) (center : Option (ℝ × ℝ)) (ps : ℝ × ℝ) :
    (rphiImage radii angles image none center (some ((H : ℤ), (W : ℤ))) ps).result = .error .valueError := by
  obtain ⟨ctr, hf⟩ : ∃ ctr, frame radii (some ((H : ℤ), (W : ℤ))) center ps = .ok (((H : ℤ), (W : ℤ)), ctr) :=
    ⟨center.getD (((H : ℝ) - 1) / 2, ((W : ℝ) - 1) / 2), by cases center <;> simp [frame]⟩
  have hcore : (rphiImage radii angles image none center (some ((H : ℤ), (W : ℤ))) ps).result =
      rphiCore radii (angles.map (· - gp angles 0)) image ((H : ℤ), (W : ℤ)) ctr ps (gp angles 0) := by
    unfold rphiImage
    simp only [applyMask]
    rw [hf]
    cases hang : angles with
    | nil => rw [hang] at hn; simp at hn
    | cons a0 t => rfl
  rw [hcore]
  unfold rphiCore
  simp only []
  set ms := (angles.map (· - gp angles 0)).map mod2pi with hms
  have hmsl : ms.length = angles.length := by simp [hms]
  have hat : ∀ i, i < angles.length → gp ms i = mod2pi (gp angles i - gp angles 0) := by
    intro i hi
    rw [gp_eq (by omega), gp_eq hi]; simp [hms]
  have hlast : gp ms (angles.length - 1) = 0 := by
    rw [hat _ (by omega), hturn]
    exact mod2pi_eq _ 0 1 (by push_cast; ring) (le_refl _) two_pi_pos
  have hfirst : gp ms 0 = 0 := by
    rw [hat _ (by omega), sub_self]
    exact mod2pi_self 0 (le_refl _) two_pi_pos
  by_cases hp : ms.Pairwise (· ≤ ·)
  · rw [if_neg (by push Not; exact hp), if_neg hw, if_pos]
    right; right; right
    intro hasc
    have hmsne : ms ≠ [] := by intro e; rw [e] at hmsl; simp at hmsl; omega
    have h1 := gp_lt hasc (show 0 + 1 < (angles.length - 1) + 1 by omega) (by rw [padGrid_length]; omega)
    rw [padGrid_at ms 0 (by omega), padGrid_at ms _ (by omega), hlast, hfirst] at h1
    exact lt_irrefl _ h1
  · rw [if_pos hp]

/-- Non-vacuity: zero, half a turn, a full turn. -/
example : Ascending [0, Real.pi, 2 * Real.pi] ∧
    gp [0, Real.pi, 2 * Real.pi] (3 - 1) = gp [0, Real.pi, 2 * Real.pi] 0 + 2 * Real.pi := by
  have := Real.pi_pos
  constructor
  · simp [Ascending]; exact ⟨this, by linarith⟩
  · simp [gp]

/-- C140, the part that holds: ascending angles spanning less than a full turn are accepted, whatever they start at. -/
theorem C140_accepts_partial (radii angles : List ℝ) (m n : ℕ) (hr : Ascending radii) (hrl : radii.length = m)
    (hm : 2 ≤ m) (ha : Ascending angles) (hal : angles.length = n) (hn : 1 ≤ n)
    (hspan : gp angles (n - 1) < gp angles 0 + 2 * Real.pi) (val : ℕ → ℕ → ℝ) (image : List (List (Option ℝ)))
    (him : IsFull m n val image) (H W : ℕ) (center : Option (ℝ × ℝ)) (ps : ℝ × ℝ) :
    ∃ out, (rphiImage radii angles image none center (some ((H : ℤ), (W : ℤ))) ps).result = .ok out := by
  obtain ⟨out, h, _⟩ := rphi_ok radii angles m n hr hrl hm ha hal hn hspan val image him H W center ps
  exact ⟨out, h⟩

/-! ## C141 the caller's arrays -/

/-- C141, the part that holds: without a mask and with angles that start at zero, an accepted or rejected call leaves
the caller's arrays as they were, so repeating the call gives the same result. -/
theorem C141_unchanged_partial (radii angles : List ℝ) (image : List (List (Option ℝ))) (center : Option (ℝ × ℝ))
    (shape : Option (ℤ × ℤ)) (ps : ℝ × ℝ) (h0 : gp angles 0 = 0) :
    let out := rphiImage radii angles image none center shape ps
    out.angles = angles ∧ out.image = image ∧
    (rphiImage radii out.angles out.image none center shape ps).result = out.result := by
  have key : (rphiImage radii angles image none center shape ps).angles = angles ∧
      (rphiImage radii angles image none center shape ps).image = image := by
    unfold rphiImage
    simp only [applyMask]
    cases hf : frame radii shape center ps with
    | error e => exact ⟨rfl, rfl⟩
    | ok dc =>
      cases hang : angles with
      | nil => exact ⟨rfl, rfl⟩
      | cons a0 t =>
        have : a0 = 0 := by rw [hang] at h0; simpa [gp] using h0
        subst this
        refine ⟨?_, rfl⟩
        simp
  intro out
  exact ⟨key.1, key.2, by rw [key.1, key.2]⟩

/-- C141 fails in general: a call shifts the caller's angles, so that the same call repeated gives another image. -/
theorem C141_repeat_refuted : ∃ radii angles : List ℝ, ∃ image : List (List (Option ℝ)),
    ∃ out out2 : List (List (Option ℝ)),
      let first := rphiImage radii angles image none (some (0, 0)) (some (1, 2)) (1, 1)
      first.result = .ok out ∧ first.angles ≠ angles ∧
      (rphiImage radii first.angles first.image none (some (0, 0)) (some (1, 2)) (1, 1)).result = .ok out2 ∧
      out ≠ out2 := by
  have hpi := Real.pi_pos
  have him : IsFull 2 2 (fun _ j => (j : ℝ)) [[some 0, some 1], [some 0, some 1]] := by
    simp [IsFull, List.range_succ]
  have hr : Ascending [0, 2] := by simp [Ascending]
  have h1 := C139_polar_bilinear [0, 2] [Real.pi / 2, 3 * Real.pi / 2] 2 2 hr rfl (le_refl _)
    (by simp [Ascending]; linarith) rfl (by norm_num) (by simp [gp]; linarith) _ _ him 1 2 (some (0, 0)) (1, 1)
  have h2 := C139_polar_bilinear [0, 2] [0, Real.pi] 2 2 hr rfl (le_refl _)
    (by simp [Ascending]; linarith) rfl (by norm_num) (by simp [gp]; linarith) _ _ him 1 2 (some (0, 0)) (1, 1)
  simp only [] at h1 h2
  obtain ⟨o1, a1, _, b1⟩ := h1
  obtain ⟨o2, a2, _, b2⟩ := h2
  have hfa : (rphiImage [0, 2] [Real.pi / 2, 3 * Real.pi / 2] [[some 0, some 1], [some 0, some 1]] none (some (0, 0))
      (some (1, 2)) (1, 1)).angles = [0, Real.pi] := by
    simp [rphiImage, frame]; ring
  refine ⟨[0, 2], [Real.pi / 2, 3 * Real.pi / 2], [[some 0, some 1], [some 0, some 1]], o1, o2, ?_⟩
  simp only []
  refine ⟨a1, ?_, ?_, ?_⟩
  · rw [hfa]
    intro h
    have := (List.cons.inj h).1
    linarith
  · rw [hfa]; exact a2
  · obtain ⟨row1, c1, _, d1⟩ := b1 0 (by norm_num)
    obtain ⟨row2, c2, _, d2⟩ := b2 0 (by norm_num)
    obtain ⟨p1, e1, _, _, f1⟩ := d1 1 (by norm_num)
    obtain ⟨p2, e2, _, _, f2⟩ := d2 1 (by norm_num)
    have hd : Spec.distance ((some ((0 : ℝ), (0 : ℝ))).getD ((((1 : ℕ) : ℝ) - 1) / 2, (((2 : ℕ) : ℝ) - 1) / 2)) (1, 1) 0 1
        = 1 := by simp [Spec.distance]
    have ha : Spec.direction ((some ((0 : ℝ), (0 : ℝ))).getD ((((1 : ℕ) : ℝ) - 1) / 2, (((2 : ℕ) : ℝ) - 1) / 2)) (1, 1)
        0 1 = 0 := by
      simp [Spec.direction]
      exact Complex.arg_ofReal_of_nonneg (x := 1) (by norm_num)
    rw [hd, ha] at f1 f2
    obtain ⟨v1, g1, i1⟩ := f1 0 1 1 (by norm_num) (by norm_num) (by simp [gp]) (by simp [gp])
      (by simp [Spec.wrapAngle, gp]; linarith) (by simp [Spec.wrapAngle, gp]; linarith)
    obtain ⟨v2, g2, i2⟩ := f2 0 0 0 (by norm_num) (by norm_num) (by simp [gp]) (by simp [gp])
      (by simp [Spec.wrapAngle, gp]) (by simp [Spec.wrapAngle, gp]; linarith)
    have hv1 : v1 = 1 / 2 := by
      unfold Spec.IsBilinear at i1
      rw [i1]
      simp [Spec.wrapCol, Spec.wrapAngle, gp]
      field_simp
      ring
    have hv2 : v2 = 0 := by
      unfold Spec.IsBilinear at i2
      rw [i2]
      simp [Spec.wrapCol, Spec.wrapAngle, gp]
    intro h
    rw [h, c2] at c1
    simp only [Option.some.injEq] at c1
    rw [← c1, e2] at e1
    rw [Option.some.injEq] at e1
    rw [g1, g2, hv1, hv2] at e1
    norm_num at e1

/-! ## C142 masks of the wrong shape -/

/-- C142, the part that holds: when `shape` is given, a two-dimensional mask whose shape differs from the image's is
rejected with a ValueError and nothing is modified. -/
theorem C142_mask_shape_partial (radii angles : List ℝ) (image : List (List (Option ℝ))) (mask : List (List Bool))
    (hmask : shapeOf mask ≠ shapeOf image) (center : Option (ℝ × ℝ)) (shape : ℤ × ℤ) (ps : ℝ × ℝ) :
    let out := rphiImage radii angles image (some mask) center (some shape) ps
    out.result = .error .valueError ∧ out.angles = angles ∧ out.image = image := by
  simp [rphiImage, hmask]

/-- C142 fails with the default `shape`: the same mistake surfaces as a TypeError from formatting the message. -/
theorem C142_mask_shape_refuted (radii angles : List ℝ) (image : List (List (Option ℝ))) (mask : List (List Bool))
    (hmask : shapeOf mask ≠ shapeOf image) (center : Option (ℝ × ℝ)) (ps : ℝ × ℝ) :
    (rphiImage radii angles image (some mask) center none ps).result = .error .typeError := by
  simp [rphiImage, hmask]

/-- Non-vacuity. -/
example : shapeOf [[true]] ≠ shapeOf [[some (0 : ℝ), some 1]] := by simp [shapeOf]

end Verif.Image
