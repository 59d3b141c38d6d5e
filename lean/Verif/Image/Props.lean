/- C136-C141: images from radial profiles and polar images (skbeam/core/image.py:104-292). -/
import Verif.Image.Lemmas
import Mathlib.Tactic.IntervalCases

namespace Verif.Image

/-! ## Radial profile -/

theorem circ_of_frame (radii intensities : List ℝ) (hx : Ascending radii) (hne : radii ≠ [])
    (hl : radii.length = intensities.length) (dims : Option (ℤ × ℤ)) (center : Option (ℝ × ℝ)) (ps : ℝ × ℝ)
    (left right : Option ℝ) (H W : ℕ) (c : ℝ × ℝ) (hf : frame radii dims center ps = .ok (((H : ℤ), (W : ℤ)), c)) :
    ∃ img, circAvgImage radii intensities dims center ps left right = .ok img ∧ img.length = H ∧
      ∀ r, r < H → ∃ row, img[r]? = some row ∧ row.length = W ∧
        ∀ col, col < W → ∃ v, row[col]? = some v ∧
          Spec.IsProfile radii.length (gp radii) (gp intensities) (Spec.distance c ps r col) v := by
  unfold circAvgImage
  rw [hf]
  simp only [bind, Except.bind, Int.toNat_natCast]
  rw [if_neg (by rintro (h | h); exact hne h; exact h hl)]
  refine ⟨_, rfl, by simp [radial_length], ?_⟩
  intro r hr
  refine ⟨_, by rw [List.getElem?_map, radial_row c ps H W r hr]; rfl, by simp, ?_⟩
  intro col hcol
  refine ⟨_, by rw [List.getElem?_map, List.getElem?_map, List.getElem?_range hcol]; rfl, ?_⟩
  exact interp_profile radii intensities hx hne hl _

/-- C136: for every ascending profile, every image size, centre (given or default) and pixel size, the call succeeds and
each pixel holds the profile at the pixel's distance from the centre: the listed intensity at a listed radius, the
linear interpolation between two radii, the first intensity below the first radius and zero above the last. -/
theorem C136_pixel_is_profile (radii intensities : List ℝ) (hx : Ascending radii) (hne : radii ≠ [])
    (hl : radii.length = intensities.length) (H W : ℕ) (center : Option (ℝ × ℝ)) (ps : ℝ × ℝ) (left right : Option ℝ) :
    ∃ img, circAvgImage radii intensities (some ((H : ℤ), (W : ℤ))) center ps left right = .ok img ∧ img.length = H ∧
      ∀ r, r < H → ∃ row, img[r]? = some row ∧ row.length = W ∧
        ∀ col, col < W → ∃ v, row[col]? = some v ∧
          Spec.IsProfile radii.length (gp radii) (gp intensities)
            (Spec.distance (center.getD (((H : ℝ) - 1) / 2, ((W : ℝ) - 1) / 2)) ps r col) v := by
  apply circ_of_frame radii intensities hx hne hl
  cases center <;> simp [frame]

/-- Non-vacuity: a profile with two radii and a pixel half way between them. -/
example : Ascending [0, 2] ∧ Spec.IsProfile 2 (gp [0, 2]) (gp [10, 20]) (Spec.distance (0, 0) (1, 1) 0 1) 15 := by
  constructor
  · simp [Ascending]
  · have hd : Spec.distance (0, 0) (1, 1) 0 1 = 1 := by simp [Spec.distance]
    rw [hd]
    refine ⟨?_, ?_, ?_, ?_⟩
    · simp [gp]
    · simp [gp]
    · intro i hi; interval_cases i <;> simp [gp]
    · intro i hi; obtain rfl : i = 0 := by omega
      simp [gp]; norm_num

/-- C136: a centre without image dimensions raises ValueError. -/
theorem C136_center_needs_dims (radii intensities : List ℝ) (center : ℝ × ℝ) (ps : ℝ × ℝ) (left right : Option ℝ) :
    circAvgImage radii intensities none (some center) ps left right = .error .valueError := rfl

/-- C136, consequence: pixels at the same distance from the centre hold the same value. -/
theorem C136_radially_symmetric (radii intensities : List ℝ) (hx : Ascending radii) (hne : radii ≠ [])
    (hl : radii.length = intensities.length) (H W : ℕ) (center : Option (ℝ × ℝ)) (ps : ℝ × ℝ) (left right : Option ℝ)
    (img : List (List ℝ))
    (hi : circAvgImage radii intensities (some ((H : ℤ), (W : ℤ))) center ps left right = .ok img)
    (r c r' c' : ℕ) (hr : r < H) (hc : c < W) (hr' : r' < H) (hc' : c' < W)
    (hd : Spec.distance (center.getD (((H : ℝ) - 1) / 2, ((W : ℝ) - 1) / 2)) ps r c =
      Spec.distance (center.getD (((H : ℝ) - 1) / 2, ((W : ℝ) - 1) / 2)) ps r' c') :
    (img[r]?.bind (·[c]?)) = (img[r']?.bind (·[c']?)) := by
  obtain ⟨ctr, hctr, hf⟩ : ∃ ctr, ctr = center.getD (((H : ℝ) - 1) / 2, ((W : ℝ) - 1) / 2) ∧
      frame radii (some ((H : ℤ), (W : ℤ))) center ps = .ok (((H : ℤ), (W : ℤ)), ctr) :=
    ⟨_, rfl, by cases center <;> simp [frame]⟩
  rw [← hctr] at hd
  unfold circAvgImage at hi
  rw [hf] at hi
  simp only [bind, Except.bind, Int.toNat_natCast] at hi
  rw [if_neg (by rintro (h | h); exact hne h; exact h hl)] at hi
  simp only [Except.ok.injEq] at hi
  subst hi
  have key : ∀ r c, r < H → c < W → ((List.map (fun row => List.map (fun r => interpAt radii intensities
      ((intensities[0]?).getD 0) 0 r) row) (Geom.radialGrid ctr (H, W) (some ps)))[r]?.bind (·[c]?)) =
      some (interpAt radii intensities ((intensities[0]?).getD 0) 0 (Spec.distance ctr ps r c)) := by
    intro r c hr hc
    rw [List.getElem?_map, radial_row ctr ps H W r hr]
    simp only [Option.map_some, Option.bind_some]
    rw [List.getElem?_map, List.getElem?_map, List.getElem?_range hc]; rfl
  rw [key r c hr hc, key r' c' hr' hc', hd]

/-- C137 as documented fails: whatever `left` is passed, a pixel closer than the first radius holds the first intensity
instead, and whatever `right` is passed, a pixel beyond the last radius holds zero instead; the two arguments have no
effect on the result. -/
theorem C137_left_right_refuted (radii intensities : List ℝ) (hx : Ascending radii) (hne : radii ≠ [])
    (hl : radii.length = intensities.length) (H W : ℕ) (center : Option (ℝ × ℝ)) (ps : ℝ × ℝ) (left right : ℝ)
    (hleft : left ≠ gp intensities 0) (hright : right ≠ 0) :
    (∀ l r, circAvgImage radii intensities (some ((H : ℤ), (W : ℤ))) center ps l r =
      circAvgImage radii intensities (some ((H : ℤ), (W : ℤ))) center ps (some left) (some right)) ∧
    ∃ img, circAvgImage radii intensities (some ((H : ℤ), (W : ℤ))) center ps (some left) (some right) = .ok img ∧
      ∀ r c, r < H → c < W → ∀ v, (img[r]?.bind (·[c]?)) = some v →
        (Spec.distance (center.getD (((H : ℝ) - 1) / 2, ((W : ℝ) - 1) / 2)) ps r c < gp radii 0 → v ≠ left) ∧
        (gp radii (radii.length - 1) < Spec.distance (center.getD (((H : ℝ) - 1) / 2, ((W : ℝ) - 1) / 2)) ps r c →
          v ≠ right) := by
  refine ⟨fun _ _ => rfl, ?_⟩
  obtain ⟨img, h1, _, h3⟩ := C136_pixel_is_profile radii intensities hx hne hl H W center ps (some left) (some right)
  refine ⟨img, h1, ?_⟩
  intro r c hr hc v hv
  obtain ⟨row, hrow, _, h4⟩ := h3 r hr
  obtain ⟨v', hv', hp⟩ := h4 c hc
  rw [hrow] at hv
  simp only [Option.bind_some] at hv
  rw [hv'] at hv
  simp only [Option.some.injEq] at hv
  subst hv
  refine ⟨?_, ?_⟩
  · intro h; rw [hp.1 h]; exact hleft.symm
  · intro h; rw [hp.2.1 h]; exact hright.symm

/-- Non-vacuity: with radii starting at 1, the default `left = 0` and a centre on a pixel, the pixel at the centre is
closer than the first radius; with `right = 7`, a pixel three columns away is beyond the last. -/
example : Ascending [1, 2] ∧ (0 : ℝ) ≠ gp [5, 6] 0 ∧ (7 : ℝ) ≠ 0 ∧
    Spec.distance (0, 0) (1, 1) 0 0 < gp [1, 2] 0 ∧ gp [1, 2] 1 < Spec.distance (0, 0) (1, 1) 0 3 := by
  refine ⟨by simp [Ascending], by simp [gp], by norm_num, by simp [Spec.distance, gp], ?_⟩
  have : Spec.distance (0, 0) (1, 1) 0 3 = 3 := by
    simp [Spec.distance]
  rw [this]; simp [gp]; norm_num

/-- C137, the part that holds: with `right = 0` (the default) the pixels beyond the last radius are set to `right`. -/
theorem C137_right_zero_partial (radii intensities : List ℝ) (hx : Ascending radii) (hne : radii ≠ [])
    (hl : radii.length = intensities.length) (H W : ℕ) (center : Option (ℝ × ℝ)) (ps : ℝ × ℝ) (left : Option ℝ) :
    ∃ img, circAvgImage radii intensities (some ((H : ℤ), (W : ℤ))) center ps left (some 0) = .ok img ∧
      ∀ r c, r < H → c < W →
        gp radii (radii.length - 1) < Spec.distance (center.getD (((H : ℝ) - 1) / 2, ((W : ℝ) - 1) / 2)) ps r c →
        (img[r]?.bind (·[c]?)) = some 0 := by
  obtain ⟨img, h1, _, h3⟩ := C136_pixel_is_profile radii intensities hx hne hl H W center ps left (some 0)
  refine ⟨img, h1, ?_⟩
  intro r c hr hc h
  obtain ⟨row, hrow, _, h4⟩ := h3 r hr
  obtain ⟨v, hv, hp⟩ := h4 c hc
  rw [hrow]
  simp only [Option.bind_some]
  rw [hv, hp.2.1 h]

/-! ## Default size -/

theorem foldl_max_ge (l : List ℝ) : ∀ x, x ≤ l.foldl max x ∧ ∀ y ∈ l, y ≤ l.foldl max x := by
  induction l with
  | nil => intro x; simp
  | cons a t ih =>
    intro x
    obtain ⟨h1, h2⟩ := ih (max x a)
    refine ⟨le_trans (le_max_left _ _) h1, ?_⟩
    intro y hy
    rcases List.mem_cons.1 hy with rfl | hy
    · exact le_trans (le_max_right _ _) h1
    · exact h2 y hy

theorem foldl_max_mem (l : List ℝ) : ∀ x, l.foldl max x ∈ x :: l := by
  induction l with
  | nil => intro x; simp
  | cons a t ih =>
    intro x
    have := ih (max x a)
    rw [List.foldl_cons]
    rcases List.mem_cons.1 this with h | h
    · rw [h]
      rcases max_choice x a with h' | h' <;> rw [h'] <;> simp
    · simp [h]

theorem maxList_div (radii : List ℝ) (hx : Ascending radii) (hne : radii ≠ []) (p : ℝ) (hp : 0 < p) :
    maxList (radii.map (· / p)) = some (gp radii (radii.length - 1) / p) := by
  have hlen : 0 < radii.length := List.length_pos_iff.2 hne
  cases hr : radii.map (· / p) with
  | nil => exact absurd (List.map_eq_nil_iff.1 hr) hne
  | cons x t =>
    simp only [maxList, Option.some.injEq]
    obtain ⟨h1, h2⟩ := foldl_max_ge t x
    have h3 := foldl_max_mem t x
    apply le_antisymm
    · rw [← hr] at h3
      obtain ⟨y, hy, he⟩ := List.mem_map.1 h3
      rw [← he]
      obtain ⟨i, hi, rfl⟩ := List.getElem_of_mem hy
      have := gp_le hx (show i ≤ radii.length - 1 by omega) (by omega)
      rw [gp_eq hi] at this
      exact div_le_div_of_nonneg_right this hp.le
    · have hm : gp radii (radii.length - 1) / p ∈ x :: t := by
        rw [← hr, gp_eq (show radii.length - 1 < radii.length by omega)]
        exact List.mem_map.2 ⟨_, List.getElem_mem _, rfl⟩
      rcases List.mem_cons.1 hm with h | h
      · rw [h]; exact h1
      · exact h2 _ h

theorem half_size (M p : ℝ) (hM : 0 ≤ M) (hp : 0 < p) : ∃ a : ℕ, pyIntR (M / p + 1 / 2) = a ∧
    (a : ℝ) ≤ M / p + 1 / 2 ∧ ∀ k : ℤ, (p * k) ^ 2 ≤ M ^ 2 → -(a : ℤ) ≤ k ∧ k ≤ a := by
  have h0 : 0 ≤ M / p + 1 / 2 := by positivity
  have hfl : 0 ≤ ⌊M / p + 1 / 2⌋ := Int.floor_nonneg.2 h0
  obtain ⟨a, ha⟩ := Int.eq_ofNat_of_zero_le hfl
  refine ⟨a, by unfold pyIntR; rw [if_pos h0, ha], ?_, ?_⟩
  · have := Int.floor_le (M / p + 1 / 2)
    rw [ha] at this; exact_mod_cast this
  · intro k hk
    have habs : |p * k| ≤ M := abs_le_of_sq_le_sq hk hM
    rw [abs_mul, abs_of_pos hp] at habs
    have h1 : |(k : ℝ)| ≤ M / p := by rw [le_div_iff₀ hp]; linarith
    have h2 : (|k| : ℤ) ≤ a := by
      have : (|k| : ℤ) ≤ ⌊M / p + 1 / 2⌋ := by
        rw [Int.le_floor]; push_cast; linarith
      rw [ha] at this; exact_mod_cast this
    exact abs_le.1 h2

/-- C138: with neither size nor centre given, for every ascending profile with non-negative last radius and positive
pixel size, the image has odd size (2a+1) x (2b+1), each half size is at most the last radius plus half a pixel, the
middle pixel is the centre, every whole-pixel offset no farther from the centre than the last radius lies inside the
image (nothing of the profile is cropped), and each pixel holds the profile at its distance. -/
theorem C138_default_size_crops_nothing (radii intensities : List ℝ) (hx : Ascending radii) (hne : radii ≠ [])
    (hl : radii.length = intensities.length) (ps : ℝ × ℝ) (hp1 : 0 < ps.1) (hp2 : 0 < ps.2)
    (hM : 0 ≤ gp radii (radii.length - 1)) (left right : Option ℝ) :
    ∃ img, ∃ a b : ℕ, circAvgImage radii intensities none none ps left right = .ok img ∧ img.length = 2 * a + 1 ∧
      (a : ℝ) ≤ gp radii (radii.length - 1) / ps.1 + 1 / 2 ∧ (b : ℝ) ≤ gp radii (radii.length - 1) / ps.2 + 1 / 2 ∧
      (∀ dy dx : ℤ, (ps.1 * dy) ^ 2 + (ps.2 * dx) ^ 2 ≤ gp radii (radii.length - 1) ^ 2 →
        -(a : ℤ) ≤ dy ∧ dy ≤ a ∧ -(b : ℤ) ≤ dx ∧ dx ≤ b) ∧
      ∀ r, r < 2 * a + 1 → ∃ row, img[r]? = some row ∧ row.length = 2 * b + 1 ∧
        ∀ col, col < 2 * b + 1 → ∃ v, row[col]? = some v ∧
          Spec.IsProfile radii.length (gp radii) (gp intensities)
            (Spec.distance ((a : ℝ), (b : ℝ)) ps r col) v := by
  obtain ⟨a, ha, ha1, ha2⟩ := half_size _ ps.1 hM hp1
  obtain ⟨b, hb, hb1, hb2⟩ := half_size _ ps.2 hM hp2
  have hf : frame radii none none ps = .ok (((2 * a + 1 : ℕ), (2 * b + 1 : ℕ)), ((a : ℝ), (b : ℝ))) := by
    unfold frame defaultDims
    rw [maxList_div radii hx hne _ hp1, maxList_div radii hx hne _ hp2]
    simp only [bind, Except.bind, ha, hb, Except.ok.injEq, Prod.mk.injEq]
    refine ⟨⟨by push_cast; ring, by push_cast; ring⟩, by push_cast; ring, by push_cast; ring⟩
  obtain ⟨img, h1, h2, h3⟩ := circ_of_frame radii intensities hx hne hl none none ps left right _ _ _ hf
  refine ⟨img, a, b, h1, h2, ha1, hb1, ?_, h3⟩
  intro dy dx h
  have hy := ha2 dy (by nlinarith [sq_nonneg (ps.2 * (dx : ℝ))])
  have hxx := hb2 dx (by nlinarith [sq_nonneg (ps.1 * (dy : ℝ))])
  exact ⟨hy.1, hy.2, hxx.1, hxx.2⟩

/-- Non-vacuity: radii 0, 1, 2.4 on pixels of 1 x 0.5. -/
example : Ascending [0, 1, 2.4] ∧ (0 : ℝ) ≤ gp [0, 1, 2.4] 2 ∧ (0 : ℝ) < 0.5 := by
  refine ⟨?_, ?_, by norm_num⟩
  · simp [Ascending]; norm_num
  · simp [gp]; norm_num

end Verif.Image
