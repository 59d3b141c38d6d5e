/- C249: laws of `construct_rphi_avg_image` (skbeam/core/image.py 177-292): relations between two or three calls. -/
import Verif.Image.PolarProps
import Verif.Image.Laws

namespace Verif.Image.Polar
open Verif Verif.Image

/-! ### Specification -/

/-- Pixel (row, col) of an image with NaN = `none`; none outside the image. -/
def Spec.pixel (img : List (List (Option ℝ))) (row col : ℕ) : Option (Option ℝ) := img[row]?.bind (·[col]?)

/-- A polar image that can be used: at least two ascending radii, ascending angles over less than a turn, one row per radius and one column per angle, with
values `val`. -/
structure Spec.Usable (radii angles : List ℝ) (m n : ℕ) (val : ℕ → ℕ → ℝ) (image : List (List (Option ℝ))) : Prop where
  radii_asc : Ascending radii
  radii_length : radii.length = m
  two : 2 ≤ m
  angles_asc : Ascending angles
  angles_length : angles.length = n
  one : 1 ≤ n
  span : gp angles (n - 1) < gp angles 0 + 2 * Real.pi
  values : IsFull m n val image

/-- The centre used: the given one or the middle of the image. -/
noncomputable def Spec.middle (center : Option (ℝ × ℝ)) (H W : ℕ) : ℝ × ℝ := center.getD (((H : ℝ) - 1) / 2, ((W : ℝ) - 1) / 2)

/-- a x + b y, NaN if one of them is. -/
noncomputable def Spec.plus (a b : ℝ) (x y : Option ℝ) : Option ℝ := Option.map₂ (fun s t => a * s + b * t) x y

/-! ### What one pixel holds -/

/-- The statement of C139 about one pixel. -/
def Law (radii angles : List ℝ) (m n : ℕ) (val : ℕ → ℕ → ℝ) (ρ φ : ℝ) (pixel : Option ℝ) : Prop :=
  ((ρ < gp radii 0 ∨ gp radii (m - 1) < ρ) → pixel = none) ∧
  ((gp radii 0 ≤ ρ ∧ ρ ≤ gp radii (m - 1)) → ∃ i j, ∃ k : ℤ, i + 1 < m ∧ j < n ∧ gp radii i ≤ ρ ∧
    ρ ≤ gp radii (i + 1) ∧ Spec.wrapAngle n (gp angles) j ≤ φ + 2 * Real.pi * k ∧ φ + 2 * Real.pi * k ≤ Spec.wrapAngle n (gp angles) (j + 1)) ∧
  (∀ i j, ∀ k : ℤ, i + 1 < m → j < n → gp radii i ≤ ρ → ρ ≤ gp radii (i + 1) →
    Spec.wrapAngle n (gp angles) j ≤ φ + 2 * Real.pi * k → φ + 2 * Real.pi * k ≤ Spec.wrapAngle n (gp angles) (j + 1) →
    ∃ v, pixel = some v ∧ Spec.IsBilinear (val i j) (val i (Spec.wrapCol n (j + 1))) (val (i + 1) j)
      (val (i + 1) (Spec.wrapCol n (j + 1))) ((ρ - gp radii i) / (gp radii (i + 1) - gp radii i))
      ((φ + 2 * Real.pi * k - Spec.wrapAngle n (gp angles) j) / (Spec.wrapAngle n (gp angles) (j + 1) - Spec.wrapAngle n (gp angles) j)) v)

theorem law {radii angles : List ℝ} {m n : ℕ} {val : ℕ → ℕ → ℝ} {image : List (List (Option ℝ))} (h : Spec.Usable radii angles m n val image)
    (H W : ℕ) (center : Option (ℝ × ℝ)) (ps : ℝ × ℝ) :
    ∃ out, (rphiImage radii angles image none center (some ((H : ℤ), (W : ℤ))) ps).result = .ok out ∧ out.length = H ∧ ∀ r c, r < H → c < W →
      ∃ p, Spec.pixel out r c = some p ∧ Law radii angles m n val (Spec.distance (Spec.middle center H W) ps r c) (Spec.direction (Spec.middle center H W) ps r c) p := by
  obtain ⟨out, h1, h2, h3⟩ := C139_polar_bilinear radii angles m n h.radii_asc h.radii_length h.two h.angles_asc h.angles_length h.one h.span val image h.values H W center ps
  refine ⟨out, h1, h2, fun r c hr hc => ?_⟩
  obtain ⟨row, e1, _, e2⟩ := h3 r hr
  obtain ⟨p, e3, e4⟩ := e2 c hc
  refine ⟨p, ?_, e4⟩
  unfold Spec.pixel
  rw [e1]
  exact e3

/-- Two pixels at the same distance are equal if the cells of the first correspond to cells of the second with the same interpolation along the ring. -/
theorem law_eq {radii angles angles' : List ℝ} {m n : ℕ} {val val' : ℕ → ℕ → ℝ} {ρ φ φ' : ℝ} {p q : Option ℝ}
    (hp : Law radii angles m n val ρ φ p) (hq : Law radii angles' m n val' ρ φ' q)
    (h : ∀ j, ∀ k : ℤ, j < n → Spec.wrapAngle n (gp angles) j ≤ φ + 2 * Real.pi * k → φ + 2 * Real.pi * k ≤ Spec.wrapAngle n (gp angles) (j + 1) →
      ∃ j', ∃ k' : ℤ, j' < n ∧ Spec.wrapAngle n (gp angles') j' ≤ φ' + 2 * Real.pi * k' ∧ φ' + 2 * Real.pi * k' ≤ Spec.wrapAngle n (gp angles') (j' + 1) ∧
        ∀ i, i < m → ∀ t t', t = (φ + 2 * Real.pi * k - Spec.wrapAngle n (gp angles) j) / (Spec.wrapAngle n (gp angles) (j + 1) - Spec.wrapAngle n (gp angles) j) →
          t' = (φ' + 2 * Real.pi * k' - Spec.wrapAngle n (gp angles') j') / (Spec.wrapAngle n (gp angles') (j' + 1) - Spec.wrapAngle n (gp angles') j') →
          (1 - t) * val i j + t * val i (Spec.wrapCol n (j + 1)) = (1 - t') * val' i j' + t' * val' i (Spec.wrapCol n (j' + 1))) : p = q := by
  obtain ⟨p1, p2, p3⟩ := hp
  obtain ⟨q1, q2, q3⟩ := hq
  by_cases hρ : gp radii 0 ≤ ρ ∧ ρ ≤ gp radii (m - 1)
  · obtain ⟨i, j, k, hi, hj, a1, a2, a3, a4⟩ := p2 hρ
    obtain ⟨v, hv, ev⟩ := p3 i j k hi hj a1 a2 a3 a4
    obtain ⟨j', k', hj', b3, b4, hb⟩ := h j k hj a3 a4
    obtain ⟨w, hw, ew⟩ := q3 i j' k' hi hj' a1 a2 b3 b4
    rw [hv, hw]
    unfold Spec.IsBilinear at ev ew
    rw [ev, ew, hb i (by omega) _ _ rfl rfl, hb (i + 1) hi _ _ rfl rfl]
  · have : ρ < gp radii 0 ∨ gp radii (m - 1) < ρ := by
      by_contra hc
      push Not at hc
      exact hρ hc
    rw [p1 this, q1 this]

/-! ### Bounds, and the image of a profile -/

theorem wrap_lt {angles : List ℝ} {n : ℕ} (ha : Ascending angles) (hl : angles.length = n) (hspan : gp angles (n - 1) < gp angles 0 + 2 * Real.pi) (j : ℕ) (hj : j < n) :
    Spec.wrapAngle n (gp angles) j < Spec.wrapAngle n (gp angles) (j + 1) := by
  unfold Spec.wrapAngle
  rw [if_pos hj]
  split_ifs with h
  · exact gp_lt ha (Nat.lt_succ_self j) (by omega)
  · obtain rfl : j = n - 1 := by omega
    exact hspan

theorem frac_mem (a b x : ℝ) (h : a < b) (h1 : a ≤ x) (h2 : x ≤ b) : 0 ≤ (x - a) / (b - a) ∧ (x - a) / (b - a) ≤ 1 := by
  have hp : 0 < b - a := by linarith
  exact ⟨div_nonneg (by linarith) hp.le, (div_le_one hp).2 (by linarith)⟩

theorem convex_mem (lo hi s a b : ℝ) (hs : 0 ≤ s) (hs' : s ≤ 1) (ha : lo ≤ a ∧ a ≤ hi) (hb : lo ≤ b ∧ b ≤ hi) :
    lo ≤ (1 - s) * a + s * b ∧ (1 - s) * a + s * b ≤ hi := by
  have h1 : 0 ≤ 1 - s := by linarith
  constructor
  · have := mul_le_mul_of_nonneg_left ha.1 h1
    have := mul_le_mul_of_nonneg_left hb.1 hs
    linarith
  · have := mul_le_mul_of_nonneg_left ha.2 h1
    have := mul_le_mul_of_nonneg_left hb.2 hs
    linarith

theorem wrapCol_lt {n j : ℕ} (h : 1 ≤ n) : Spec.wrapCol n j < n := by
  unfold Spec.wrapCol
  split_ifs <;> omega

/-- C249: no pixel leaves the range of the polar image, and the pixels that are not NaN are exactly those from the first to the last radius. -/
theorem C249_bounds (radii angles : List ℝ) (m n : ℕ) (val : ℕ → ℕ → ℝ) (image : List (List (Option ℝ))) (h : Spec.Usable radii angles m n val image)
    (H W : ℕ) (center : Option (ℝ × ℝ)) (ps : ℝ × ℝ) (lo hi : ℝ) (hval : ∀ i j, i < m → j < n → lo ≤ val i j ∧ val i j ≤ hi) :
    ∃ out, (rphiImage radii angles image none center (some ((H : ℤ), (W : ℤ))) ps).result = .ok out ∧ ∀ r c, r < H → c < W →
      ((gp radii 0 ≤ Spec.distance (Spec.middle center H W) ps r c ∧ Spec.distance (Spec.middle center H W) ps r c ≤ gp radii (m - 1)) →
        ∃ v, Spec.pixel out r c = some (some v) ∧ lo ≤ v ∧ v ≤ hi) ∧
      ((Spec.distance (Spec.middle center H W) ps r c < gp radii 0 ∨ gp radii (m - 1) < Spec.distance (Spec.middle center H W) ps r c) →
        Spec.pixel out r c = some none) := by
  obtain ⟨out, h1, _, h3⟩ := law h H W center ps
  refine ⟨out, h1, fun r c hr hc => ?_⟩
  obtain ⟨p, hp, l1, l2, l3⟩ := h3 r c hr hc
  refine ⟨fun hρ => ?_, fun hρ => by rw [hp, l1 hρ]⟩
  obtain ⟨i, j, k, hi', hj, a1, a2, a3, a4⟩ := l2 hρ
  obtain ⟨v, hv, ev⟩ := l3 i j k hi' hj a1 a2 a3 a4
  refine ⟨v, by rw [hp, hv], ?_⟩
  unfold Spec.IsBilinear at ev
  obtain ⟨s0, s1⟩ := frac_mem _ _ _ (gp_lt h.radii_asc (Nat.lt_succ_self i) (by rw [h.radii_length]; exact hi')) a1 a2
  obtain ⟨t0, t1⟩ := frac_mem _ _ _ (wrap_lt h.angles_asc h.angles_length h.span j hj) a3 a4
  rw [ev]
  exact convex_mem lo hi _ _ _ s0 s1 (convex_mem lo hi _ _ _ t0 t1 (hval i j (by omega) hj) (hval i _ (by omega) (wrapCol_lt h.one)))
    (convex_mem lo hi _ _ _ t0 t1 (hval (i + 1) j hi' hj) (hval (i + 1) _ hi' (wrapCol_lt h.one)))

/-- C249: a polar image that does not depend on the angle gives, from the first to the last radius, the very pixels of `construct_circ_avg_image` for its
profile. -/
theorem C249_profile (radii angles I : List ℝ) (m n : ℕ) (image : List (List (Option ℝ))) (h : Spec.Usable radii angles m n (fun i _ => gp I i) image)
    (hI : I.length = m) (H W : ℕ) (center : Option (ℝ × ℝ)) (ps : ℝ × ℝ) (left right : Option ℝ) :
    ∃ out A, (rphiImage radii angles image none center (some ((H : ℤ), (W : ℤ))) ps).result = .ok out ∧
      circAvgImage radii I (some ((H : ℤ), (W : ℤ))) center ps left right = .ok A ∧ ∀ r c, r < H → c < W →
      gp radii 0 ≤ Spec.distance (Spec.middle center H W) ps r c → Spec.distance (Spec.middle center H W) ps r c ≤ gp radii (m - 1) →
      ∃ v, Spec.pixel out r c = some (some v) ∧ Laws.Spec.pix A r c = some v := by
  obtain ⟨out, h1, _, h3⟩ := law h H W center ps
  have hne : radii ≠ [] := by
    intro e
    have := h.radii_length
    have := h.two
    rw [e] at *
    simp at *
    omega
  obtain ⟨A, e1, _, e3⟩ := C136_pixel_is_profile radii I h.radii_asc hne (h.radii_length.trans hI.symm) H W center ps left right
  refine ⟨out, A, h1, e1, fun r c hr hc d1 d2 => ?_⟩
  obtain ⟨p, hp, l1, l2, l3⟩ := h3 r c hr hc
  obtain ⟨i, j, k, hi', hj, a1, a2, a3, a4⟩ := l2 ⟨d1, d2⟩
  obtain ⟨v, hv, ev⟩ := l3 i j k hi' hj a1 a2 a3 a4
  obtain ⟨row, f1, _, f3⟩ := e3 r hr
  obtain ⟨w, g1, _, _, _, g5⟩ := f3 c hc
  refine ⟨v, by rw [hp, hv], ?_⟩
  unfold Laws.Spec.pix
  rw [f1, Option.bind_some, g1]
  have hlt := gp_lt h.radii_asc (Nat.lt_succ_self i) (by rw [h.radii_length]; exact hi')
  have := g5 i (by rw [h.radii_length]; exact hi') a1 a2
  unfold Spec.IsBilinear at ev
  change w * _ = _ at this
  have hp : 0 < gp radii (i + 1) - gp radii i := by linarith
  obtain ⟨ρ, hρ⟩ : ∃ ρ, ρ = Spec.distance (Spec.middle center H W) ps r c := ⟨_, rfl⟩
  have this : w * (gp radii (i + 1) - gp radii i) = gp I i * (gp radii (i + 1) - ρ) + gp I (i + 1) * (ρ - gp radii i) := by
    rw [hρ]
    exact this
  rw [← hρ] at ev
  obtain ⟨s, hs⟩ : ∃ s, s = (ρ - gp radii i) / (gp radii (i + 1) - gp radii i) := ⟨_, rfl⟩
  have hs' : ρ - gp radii i = s * (gp radii (i + 1) - gp radii i) := by rw [hs, div_mul_cancel₀ _ hp.ne']
  rw [← hs] at ev
  congr 1
  apply mul_right_cancel₀ hp.ne'
  rw [this, ev]
  linear_combination (gp I (i + 1) - gp I i) * hs'

/-! ### Where the list of angles starts -/

theorem rot_gp (angles : List ℝ) (n s : ℕ) (hl : angles.length = n) (hs : s < n) (j : ℕ) (hj : j < n) :
    gp (angles.drop s ++ (angles.take s).map (· + 2 * Real.pi)) j = if j + s < n then gp angles (j + s) else gp angles (j + s - n) + 2 * Real.pi := by
  unfold gp
  split_ifs with h
  · rw [List.getElem?_append_left (by rw [List.length_drop]; omega), List.getElem?_drop, Nat.add_comm]
  · rw [List.getElem?_append_right (by rw [List.length_drop]; omega), List.length_drop, List.getElem?_map, List.getElem?_take_of_lt (by omega),
      show j - (angles.length - s) = j + s - n by omega, List.getElem?_eq_getElem (show j + s - n < angles.length by omega)]
    rfl

theorem rot_wrap (angles : List ℝ) (n s : ℕ) (hl : angles.length = n) (hs : s < n) (j : ℕ) (hj : j ≤ n) :
    Spec.wrapAngle n (gp (angles.drop s ++ (angles.take s).map (· + 2 * Real.pi))) j =
      if j + s ≤ n then Spec.wrapAngle n (gp angles) (j + s) else Spec.wrapAngle n (gp angles) (j + s - n) + 2 * Real.pi := by
  unfold Spec.wrapAngle
  by_cases hj' : j < n
  · rw [if_pos hj', rot_gp angles n s hl hs j hj']
    by_cases h1 : j + s < n
    · rw [if_pos h1, if_pos h1.le, if_pos h1]
    · rw [if_neg h1]
      by_cases h2 : j + s ≤ n
      · rw [if_pos h2, if_neg h1, show j + s - n = 0 by omega]
      · rw [if_neg h2, if_pos (by omega)]
  · obtain rfl : j = n := by omega
    rw [if_neg hj', rot_gp angles j s hl hs 0 (by omega), if_pos (by omega), Nat.zero_add]
    by_cases h2 : j + s ≤ j
    · obtain rfl : s = 0 := by omega
      simp
    · rw [if_neg h2, if_pos (by omega)]
      congr 2
      omega

theorem rot_usable {radii angles : List ℝ} {m n s : ℕ} (hs : s < n) {val : ℕ → ℕ → ℝ} {image image' : List (List (Option ℝ))}
    (h : Spec.Usable radii angles m n val image) (him' : IsFull m n (fun i j => val i ((j + s) % n)) image') :
    Spec.Usable radii (angles.drop s ++ (angles.take s).map (· + 2 * Real.pi)) m n (fun i j => val i ((j + s) % n)) image' where
  radii_asc := h.radii_asc
  radii_length := h.radii_length
  two := h.two
  angles_asc := by
    unfold Ascending
    rw [List.pairwise_append, List.pairwise_map]
    refine ⟨h.angles_asc.sublist (List.drop_sublist _ _), (h.angles_asc.sublist (List.take_sublist s angles)).imp (fun h => by linarith), ?_⟩
    intro a ha b hb
    obtain ⟨b', hb', rfl⟩ := List.mem_map.1 hb
    obtain ⟨i, hi, rfl⟩ := List.getElem_of_mem (List.mem_of_mem_drop ha)
    obtain ⟨j, hj, rfl⟩ := List.getElem_of_mem (List.mem_of_mem_take hb')
    have e1 := gp_le h.angles_asc (show i ≤ n - 1 by have := h.angles_length; omega) (by have := h.angles_length; omega)
    have e2 := gp_le h.angles_asc (Nat.zero_le j) hj
    have e3 := h.span
    rw [gp_eq hi] at e1
    rw [gp_eq hj] at e2
    linarith
  angles_length := by
    rw [List.length_append, List.length_map, List.length_drop, List.length_take, h.angles_length]
    omega
  one := h.one
  span := by
    rw [rot_gp angles n s h.angles_length hs (n - 1) (by omega), rot_gp angles n s h.angles_length hs 0 (by omega), if_pos (show 0 + s < n by omega), Nat.zero_add]
    split_ifs with hc
    · obtain rfl : s = 0 := by omega
      exact h.span
    · have := gp_lt h.angles_asc (show n - 1 + s - n < s by omega) (by rw [h.angles_length]; exact hs)
      linarith
  values := him'

/-- C249: it does not matter with which of the angles the list starts: moving the first s angles behind the others, a turn later, and their columns with them,
gives the same image. -/
theorem C249_start (radii angles : List ℝ) (m n s : ℕ) (hs : s < n) (val : ℕ → ℕ → ℝ) (image image' : List (List (Option ℝ)))
    (h : Spec.Usable radii angles m n val image)
    (him' : IsFull m n (fun i j => val i ((j + s) % n)) image')
    (H W : ℕ) (center : Option (ℝ × ℝ)) (ps : ℝ × ℝ) :
    ∃ out out', (rphiImage radii angles image none center (some ((H : ℤ), (W : ℤ))) ps).result = .ok out ∧
      (rphiImage radii (angles.drop s ++ (angles.take s).map (· + 2 * Real.pi)) image' none center (some ((H : ℤ), (W : ℤ))) ps).result = .ok out' ∧
      ∀ r c, r < H → c < W → Spec.pixel out' r c = Spec.pixel out r c := by
  have h' := rot_usable hs h him'
  obtain ⟨out, h1, _, h3⟩ := law h H W center ps
  obtain ⟨out', h1', _, h3'⟩ := law h' H W center ps
  refine ⟨out, out', h1, h1', fun r c hr hc => ?_⟩
  obtain ⟨p, hp, lp⟩ := h3 r c hr hc
  obtain ⟨q, hq, lq⟩ := h3' r c hr hc
  rw [hp, hq]
  congr 1
  symm
  apply law_eq lp lq
  intro j k hj a1 a2
  have hw : ∀ j, j ≤ n → _ := fun j hj => rot_wrap angles n s h.angles_length hs j hj
  have col : ∀ q, q < n → Spec.wrapCol n (q + 1) = (q + 1) % n := by
    intro q hq
    unfold Spec.wrapCol
    split_ifs with h
    · rw [Nat.mod_eq_of_lt h]
    · rw [show q + 1 = n by omega, Nat.mod_self]
  by_cases hjs : s ≤ j
  · have e1 := hw (j - s) (by omega)
    have e2 := hw (j - s + 1) (by omega)
    rw [if_pos (by omega), show j - s + s = j by omega] at e1
    rw [if_pos (by omega), show j - s + 1 + s = j + 1 by omega] at e2
    refine ⟨j - s, k, by omega, by rw [e1]; exact a1, by rw [e2]; exact a2, ?_⟩
    intro i _ t t' ht ht'
    rw [e1, e2] at ht'
    obtain rfl : t' = t := by rw [ht, ht']
    rw [col j hj, col (j - s) (by omega), show j - s + s = j by omega, Nat.mod_eq_of_lt hj, Nat.mod_add_mod, show j - s + 1 + s = j + 1 by omega]
  · have e1 := hw (j + n - s) (by omega)
    have e2 := hw (j + n - s + 1) (by omega)
    have c1 : Spec.wrapAngle n (gp (angles.drop s ++ (angles.take s).map (· + 2 * Real.pi))) (j + n - s) = Spec.wrapAngle n (gp angles) j + 2 * Real.pi := by
      rw [e1]
      split_ifs with hc
      · obtain rfl : j = 0 := by omega
        rw [show 0 + n - s + s = n by omega]
        unfold Spec.wrapAngle
        rw [if_neg (lt_irrefl n), if_pos hj]
      · rw [show j + n - s + s - n = j by omega]
    have c2 : Spec.wrapAngle n (gp (angles.drop s ++ (angles.take s).map (· + 2 * Real.pi))) (j + n - s + 1) = Spec.wrapAngle n (gp angles) (j + 1) + 2 * Real.pi := by
      rw [e2, if_neg (by omega), show j + n - s + 1 + s - n = j + 1 by omega]
    refine ⟨j + n - s, k + 1, by omega, by rw [c1]; push_cast; linarith, by rw [c2]; push_cast; linarith, ?_⟩
    intro i _ t t' ht ht'
    rw [c1, c2] at ht'
    obtain rfl : t' = t := by
      rw [ht, ht']
      push_cast
      congr 1 <;> ring
    rw [col j hj, col (j + n - s) (by omega), show j + n - s + s = j + n by omega, Nat.add_mod_right, Nat.mod_eq_of_lt hj, Nat.mod_add_mod,
      show j + n - s + 1 + s = j + 1 + n by omega, Nat.add_mod_right]

/-! ### Mirror images -/

theorem rev_gp (angles : List ℝ) (n : ℕ) (hl : angles.length = n) (j : ℕ) (hj : j < n) :
    gp (angles.map (- ·)).reverse j = - gp angles (n - 1 - j) := by
  unfold gp
  rw [List.getElem?_reverse (by rw [List.length_map]; omega), List.length_map, List.getElem?_map, hl, List.getElem?_eq_getElem (show n - 1 - j < angles.length by omega)]
  rfl

theorem rev_usable {radii angles : List ℝ} {m n : ℕ} {val : ℕ → ℕ → ℝ} {image image' : List (List (Option ℝ))}
    (h : Spec.Usable radii angles m n val image) (him' : IsFull m n (fun i j => val i (n - 1 - j)) image') :
    Spec.Usable radii (angles.map (- ·)).reverse m n (fun i j => val i (n - 1 - j)) image' where
  radii_asc := h.radii_asc
  radii_length := h.radii_length
  two := h.two
  angles_asc := by
    unfold Ascending
    rw [List.pairwise_reverse, List.pairwise_map]
    exact h.angles_asc.imp (fun h => neg_lt_neg h)
  angles_length := by simpa using h.angles_length
  one := h.one
  span := by
    have h1 := h.one
    rw [rev_gp angles n h.angles_length (n - 1) (by omega), rev_gp angles n h.angles_length 0 (by omega), Nat.sub_self, Nat.sub_zero]
    have := h.span
    linarith
  values := him'

theorem arg_conj_mod (z : ℂ) : ∃ k : ℤ, Complex.arg ((starRingEnd ℂ) z) = - Complex.arg z + 2 * Real.pi * k := by
  rw [Complex.arg_conj]
  split_ifs with h
  · exact ⟨1, by rw [h]; push_cast; ring⟩
  · exact ⟨0, by simp⟩

/-- C249: the polar image with the sense of the angles reversed (all angles negated, listed from last to first, columns with them) gives the image upside down,
with respect to the middle of the image. -/
theorem C249_mirror (radii angles : List ℝ) (m n : ℕ) (val : ℕ → ℕ → ℝ) (image image' : List (List (Option ℝ)))
    (h : Spec.Usable radii angles m n val image) (him' : IsFull m n (fun i j => val i (n - 1 - j)) image') (H W : ℕ) (ps : ℝ × ℝ) :
    ∃ out out', (rphiImage radii angles image none none (some ((H : ℤ), (W : ℤ))) ps).result = .ok out ∧
      (rphiImage radii (angles.map (- ·)).reverse image' none none (some ((H : ℤ), (W : ℤ))) ps).result = .ok out' ∧
      ∀ r c, r < H → c < W → Spec.pixel out' (H - 1 - r) c = Spec.pixel out r c := by
  have h' := rev_usable h him'
  obtain ⟨out, h1, _, h3⟩ := law h H W none ps
  obtain ⟨out', h1', _, h3'⟩ := law h' H W none ps
  refine ⟨out, out', h1, h1', fun r c hr hc => ?_⟩
  obtain ⟨p, hp, lp⟩ := h3 r c hr hc
  obtain ⟨q, hq, lq⟩ := h3' (H - 1 - r) c (by omega) hc
  have e1 : ((H - 1 - r : ℕ) : ℝ) = H - 1 - r := by
    rw [Nat.cast_sub (by omega), Nat.cast_sub (by omega)]; simp
  have hd : Spec.distance (Spec.middle none H W) ps (H - 1 - r) c = Spec.distance (Spec.middle none H W) ps r c := by
    unfold Spec.distance Spec.middle
    simp only [Option.getD_none]
    rw [e1]
    congr 1
    ring
  obtain ⟨z, hz⟩ : ∃ z : ℂ, z = ⟨ps.2 * (c - ((W : ℝ) - 1) / 2), ps.1 * (r - ((H : ℝ) - 1) / 2)⟩ := ⟨_, rfl⟩
  have hφ : Spec.direction (Spec.middle none H W) ps r c = Complex.arg z := by rw [hz]; rfl
  have hφ' : Spec.direction (Spec.middle none H W) ps (H - 1 - r) c = Complex.arg ((starRingEnd ℂ) z) := by
    rw [hz]
    unfold Spec.direction Spec.middle
    simp only [Option.getD_none]
    rw [e1]
    congr 1
    apply Complex.ext
    · simp
    · simp only [Complex.conj_im]
      ring
  rw [hd, hφ'] at lq
  rw [hφ] at lp
  rw [hp, hq]
  congr 1
  symm
  obtain ⟨k0, hk0⟩ := arg_conj_mod z
  apply law_eq lp lq
  intro j k hj a1 a2
  have hn := h.one
  have hl := h.angles_length
  have hw : ∀ j, 1 ≤ j → j ≤ n → Spec.wrapAngle n (gp (angles.map (- ·)).reverse) (n - j) = - Spec.wrapAngle n (gp angles) (j - 1) := by
    intro j h1 h2
    unfold Spec.wrapAngle
    rw [if_pos (by omega), if_pos (by omega), rev_gp angles n hl _ (by omega), show n - 1 - (n - j) = j - 1 by omega]
  have hw0 : Spec.wrapAngle n (gp (angles.map (- ·)).reverse) n = - gp angles (n - 1) + 2 * Real.pi := by
    unfold Spec.wrapAngle
    rw [if_neg (lt_irrefl n), rev_gp angles n hl 0 (by omega), Nat.sub_zero]
  by_cases hjn : j + 1 < n
  · -- between two listed angles
    have c1 := hw (j + 2) (by omega) (by omega)
    have c2 := hw (j + 1) (by omega) (by omega)
    rw [show j + 2 - 1 = j + 1 by omega] at c1
    rw [show j + 1 - 1 = j by omega, show n - (j + 1) = n - (j + 2) + 1 by omega] at c2
    refine ⟨n - (j + 2), - k - k0, by omega, by rw [c1, hk0]; push_cast; linarith, by rw [c2, hk0]; push_cast; linarith, ?_⟩
    intro i _ t t' ht ht'
    have hlt := wrap_lt h.angles_asc hl h.span j hj
    have htt : t' = 1 - t := by
      rw [ht, ht', c1, c2, hk0, eq_sub_iff_add_eq, show (- Spec.wrapAngle n (gp angles) j - - Spec.wrapAngle n (gp angles) (j + 1)) =
        Spec.wrapAngle n (gp angles) (j + 1) - Spec.wrapAngle n (gp angles) j by ring, ← add_div, div_eq_one_iff_eq (by linarith)]
      push_cast
      ring
    unfold Spec.wrapCol
    rw [htt, if_pos hjn, if_pos (by omega), show n - 1 - (n - (j + 2)) = j + 1 by omega, show n - 1 - (n - (j + 2) + 1) = j by omega]
    ring
  · -- between the last and the first
    obtain rfl : j = n - 1 := by omega
    rw [show n - 1 + 1 = n by omega] at a2 ⊢
    have b1 : Spec.wrapAngle n (gp angles) n = gp angles 0 + 2 * Real.pi := by
      unfold Spec.wrapAngle
      rw [if_neg (lt_irrefl n)]
    have b2 : Spec.wrapAngle n (gp angles) (n - 1) = gp angles (n - 1) := by
      unfold Spec.wrapAngle
      rw [if_pos hj]
    have c1 : Spec.wrapAngle n (gp (angles.map (- ·)).reverse) (n - 1) = - gp angles 0 := by
      unfold Spec.wrapAngle
      rw [if_pos hj, rev_gp angles n hl _ hj, Nat.sub_self]
    rw [b1] at a2
    rw [b2] at a1
    refine ⟨n - 1, - k - k0 + 1, hj, by rw [c1, hk0]; push_cast; linarith, by rw [show n - 1 + 1 = n by omega, hw0, hk0]; push_cast; linarith, ?_⟩
    intro i _ t t' ht ht'
    have hlt := h.span
    rw [show n - 1 + 1 = n by omega] at ht' ⊢
    have htt : t' = 1 - t := by
      rw [ht, ht', c1, hw0, b1, b2, hk0, eq_sub_iff_add_eq, show - gp angles (n - 1) + 2 * Real.pi - - gp angles 0 =
        gp angles 0 + 2 * Real.pi - gp angles (n - 1) by ring, ← add_div, div_eq_one_iff_eq (by linarith)]
      push_cast
      ring
    unfold Spec.wrapCol
    rw [htt, if_neg (lt_irrefl n), Nat.sub_self, Nat.sub_zero]
    ring

/-! ### Whole turns and quarter turns -/

theorem mod2pi_add (x : ℝ) (k : ℤ) : mod2pi (x + 2 * Real.pi * k) = mod2pi x := by
  obtain ⟨h0, h1⟩ := mod2pi_range x
  refine mod2pi_eq _ _ (⌊x / (2 * Real.pi)⌋ + k) ?_ h0 h1
  unfold mod2pi
  push_cast
  ring

theorem zipWith_congr_right {α β γ : Type} (f g : α → β → γ) (h : ∀ a b, f a b = g a b) (x : List α) (y : List β) : List.zipWith f x y = List.zipWith g x y := by
  rw [show f = g from funext fun a => funext fun b => h a b]

/-- C249: angles counted from any number of turns earlier or later give the same outcome, image or exception, whatever the other arguments. -/
theorem C249_turns (radii angles : List ℝ) (image : List (List (Option ℝ))) (mask : Option (List (List Bool))) (center : Option (ℝ × ℝ))
    (shape : Option (ℤ × ℤ)) (ps : ℝ × ℝ) (k : ℤ) :
    (rphiImage radii (angles.map (· + 2 * Real.pi * k)) image mask center shape ps).result = (rphiImage radii angles image mask center shape ps).result := by
  unfold rphiImage
  split
  · rfl
  · cases hf : frame radii shape center ps with
    | error e => rfl
    | ok v =>
      obtain ⟨d, c⟩ := v
      cases angles with
      | nil => rfl
      | cons a0 t =>
        simp only [List.map_cons, List.map_map, sub_self]
        have e1 : t.map ((fun x => x - (a0 + 2 * Real.pi * k)) ∘ (fun x => x + 2 * Real.pi * k)) = t.map (fun x => x - a0) := by
          apply List.map_congr_left
          intro x _
          simp only [Function.comp_apply]
          ring
        rw [e1]
        unfold rphiCore
        have e2 : ∀ a : ℝ, mod2pi (a - (a0 + 2 * Real.pi * k)) = mod2pi (a - a0) := by
          intro a
          rw [← mod2pi_add (a - a0) (-k)]
          congr 1
          push_cast
          ring
        simp only [e2]

/-- The conditions under which the interpolation is reached; they involve neither frame nor pixel size. -/
def Accept (radii s : List ℝ) (image : List (List (Option ℝ))) : Prop :=
  (s.map mod2pi).Pairwise (· ≤ ·) ∧ (shapeOf image).2 ≠ 0 ∧ radii.length = (shapeOf image).1 ∧ (padGrid (s.map mod2pi)).length = (shapeOf image).2 + 2 ∧
    Ascending radii ∧ Ascending (padGrid (s.map mod2pi))

theorem core_accept {radii s : List ℝ} {image : List (List (Option ℝ))} (h : Accept radii s image) (d : ℤ × ℤ) (c ps : ℝ × ℝ) (a0 : ℝ) :
    rphiCore radii s image d c ps a0 = .ok (List.zipWith (fun rr ar => List.zipWith (fun r a => bilinear radii (padGrid (s.map mod2pi)) (image.map padRow) r
      (mod2pi (a - a0))) rr ar) (Geom.radialGrid c (d.1.toNat, d.2.toNat) (some ps)) (Geom.angleGrid c (d.1.toNat, d.2.toNat) (some ps))) := by
  obtain ⟨h1, h2, h3, h4, h5, h6⟩ := h
  unfold rphiCore
  simp only []
  rw [if_neg (not_not.2 h1), if_neg h2, if_neg (by
    rintro (x | x | x | x)
    · exact x h3
    · exact x h4
    · exact x h5
    · exact x h6)]

theorem core_accepted {radii s : List ℝ} {image : List (List (Option ℝ))} {d : ℤ × ℤ} {c ps : ℝ × ℝ} {a0 : ℝ} {A : List (List (Option ℝ))}
    (h : rphiCore radii s image d c ps a0 = .ok A) : Accept radii s image := by
  unfold rphiCore at h
  simp only [] at h
  by_cases h1 : (s.map mod2pi).Pairwise (· ≤ ·)
  · rw [if_neg (not_not.2 h1)] at h
    by_cases h2 : (shapeOf image).2 = 0
    · rw [if_pos h2] at h
      exact absurd h (by simp)
    · rw [if_neg h2] at h
      by_contra hc
      rw [if_pos] at h
      · exact absurd h (by simp)
      · unfold Accept at hc
        tauto
  · rw [if_pos h1] at h
    exact absurd h (by simp)

theorem core_pixel (f : ℝ → ℝ → Option ℝ) (c ps : ℝ × ℝ) (H W row col : ℕ) :
    Spec.pixel (List.zipWith (fun rr ar => List.zipWith f rr ar) (Geom.radialGrid c (H, W) (some ps)) (Geom.angleGrid c (H, W) (some ps))) row col =
      if row < H ∧ col < W then some (f (Spec.distance c ps row col) (Spec.direction c ps row col)) else none := by
  unfold Spec.pixel
  rw [List.getElem?_zipWith]
  by_cases hr : row < H
  · rw [radial_row c ps H W row hr, angle_row c ps H W row hr]
    simp only [Option.bind_some, List.getElem?_zipWith, List.getElem?_map]
    by_cases hc : col < W
    · rw [List.getElem?_range hc, if_pos ⟨hr, hc⟩]
      rfl
    · rw [List.getElem?_eq_none (l := List.range W) (by rw [List.length_range]; omega), if_neg (by tauto)]
      rfl
  · rw [List.getElem?_eq_none (by rw [radial_length]; omega), if_neg (by tauto)]
    rfl

theorem rphi_core (radii angles : List ℝ) (image : List (List (Option ℝ))) (center : Option (ℝ × ℝ)) (H W : ℕ) (ps : ℝ × ℝ) :
    (rphiImage radii angles image none center (some ((H : ℤ), (W : ℤ))) ps).result =
      if angles = [] then .error .indexError
      else rphiCore radii (angles.map (· - gp angles 0)) image ((H : ℤ), (W : ℤ)) (Spec.middle center H W) ps (gp angles 0) := by
  have hf : frame radii (some ((H : ℤ), (W : ℤ))) center ps = .ok (((H : ℤ), (W : ℤ)), Spec.middle center H W) := by
    unfold Spec.middle
    cases center <;> simp [frame]
  unfold rphiImage
  simp only [applyMask]
  rw [hf]
  cases angles with
  | nil => rfl
  | cons a0 t =>
    rw [if_neg (by simp)]
    rfl

/-- C249: adding a right angle to all angles turns the image by a right angle: row and column numbers, sizes and pixel sizes exchanged and the direction of the
rows reversed.  (The pixel exactly in the middle, if there is one, has no direction.) -/
theorem C249_quarter_turn (radii angles : List ℝ) (image : List (List (Option ℝ))) (H W : ℕ) (ps : ℝ × ℝ) (out : List (List (Option ℝ)))
    (hout : (rphiImage radii angles image none none (some ((H : ℤ), (W : ℤ))) ps).result = .ok out) :
    ∃ out', (rphiImage radii (angles.map (· + Real.pi / 2)) image none none (some ((W : ℤ), (H : ℤ))) ps.swap).result = .ok out' ∧
      ∀ r c, r < H → c < W → Spec.distance (Spec.middle none H W) ps r c ≠ 0 → Spec.pixel out' c (H - 1 - r) = Spec.pixel out r c := by
  rw [rphi_core] at hout ⊢
  by_cases hne : angles = []
  · rw [if_pos hne] at hout
    exact absurd hout (by simp)
  rw [if_neg hne] at hout
  rw [if_neg (by simpa using hne)]
  have hg : gp (angles.map (· + Real.pi / 2)) 0 = gp angles 0 + Real.pi / 2 := by
    cases angles with
    | nil => exact absurd rfl hne
    | cons a t => rfl
  have hs : (angles.map (· + Real.pi / 2)).map (· - gp (angles.map (· + Real.pi / 2)) 0) = angles.map (· - gp angles 0) := by
    rw [hg, List.map_map]
    apply List.map_congr_left
    intro x _
    simp only [Function.comp_apply]
    ring
  rw [hs, hg]
  · have hc := core_accepted hout
    rw [core_accept hc] at hout ⊢
    refine ⟨_, rfl, fun r c hr hcc hd => ?_⟩
    rw [← Except.ok.inj hout]
    simp only [Int.toNat_natCast]
    rw [core_pixel, core_pixel, if_pos ⟨hcc, by omega⟩, if_pos ⟨hr, hcc⟩]
    have e1 : ((H - 1 - r : ℕ) : ℝ) = H - 1 - r := by
      rw [Nat.cast_sub (by omega), Nat.cast_sub (by omega)]; simp
    have ed : Spec.distance (Spec.middle none W H) ps.swap c (H - 1 - r) = Spec.distance (Spec.middle none H W) ps r c := by
      unfold Spec.distance Spec.middle
      simp only [Option.getD_none, Prod.fst_swap, Prod.snd_swap]
      rw [e1]
      congr 1
      ring
    obtain ⟨z, hz⟩ : ∃ z : ℂ, z = ⟨ps.2 * (c - ((W : ℝ) - 1) / 2), ps.1 * (r - ((H : ℝ) - 1) / 2)⟩ := ⟨_, rfl⟩
    have hz0 : z ≠ 0 := by
      intro h0
      apply hd
      rw [h0] at hz
      have hre := congrArg Complex.re hz
      have him := congrArg Complex.im hz
      simp only [Complex.zero_re, Complex.zero_im] at hre him
      unfold Spec.distance Spec.middle
      simp only [Option.getD_none]
      rw [← hre, ← him]
      simp
    have eφ : Spec.direction (Spec.middle none W H) ps.swap c (H - 1 - r) = Complex.arg (Complex.I * z) := by
      rw [hz]
      unfold Spec.direction Spec.middle
      simp only [Option.getD_none, Prod.fst_swap, Prod.snd_swap]
      rw [e1]
      congr 1
      apply Complex.ext
      · simp
        ring
      · simp
    have eφ' : Spec.direction (Spec.middle none H W) ps r c = Complex.arg z := by rw [hz]; rfl
    have hang := Complex.arg_mul_coe_angle Complex.I_ne_zero hz0
    rw [Complex.arg_I, ← Real.Angle.coe_add, Real.Angle.angle_eq_iff_two_pi_dvd_sub] at hang
    obtain ⟨k, hk⟩ := hang
    rw [ed, eφ, eφ', show Complex.arg (Complex.I * z) - (gp angles 0 + Real.pi / 2) = Complex.arg z - gp angles 0 + 2 * Real.pi * k by linarith, mod2pi_add]

/-! ### Units -/

theorem gp_scale (k : ℝ) (g : List ℝ) (i : ℕ) : ((g.map (k * ·))[i]?).getD 0 = k * (g[i]?).getD 0 := by
  rw [List.getElem?_map]
  cases g[i]? <;> simp

theorem bilinear_scale (k : ℝ) (hk : 0 < k) (g h : List ℝ) (img : List (List (Option ℝ))) (x y : ℝ) :
    bilinear (g.map (k * ·)) h img (k * x) y = bilinear g h img x y := by
  have hcell : cellOf (g.map (k * ·)) (k * x) = cellOf g x := by
    unfold cellOf
    rw [List.countP_map, List.length_map]
    congr 2
    congr 1
    funext a
    simp only [Function.comp_apply, decide_eq_decide]
    exact mul_le_mul_iff_right₀ hk
  have hw : weightOf (g.map (k * ·)) (k * x) = weightOf g x := by
    unfold weightOf
    simp only [hcell, gp_scale]
    rw [← mul_sub, ← mul_sub, mul_div_mul_left _ _ hk.ne']
  have hh : (g.map (k * ·)).headD 0 = k * g.headD 0 := by cases g <;> simp
  have hl : (g.map (k * ·)).getLastD 0 = k * g.getLastD 0 := by
    rw [List.getLastD_eq_getLast?, List.getLastD_eq_getLast?, List.getLast?_eq_getElem?, List.getLast?_eq_getElem?, List.length_map, gp_scale]
  unfold bilinear
  simp only [hcell, hw, hh, hl, mul_lt_mul_iff_right₀ hk]

theorem angle_scale (k : ℝ) (hk : 0 < k) (c ps : ℝ × ℝ) (n m : ℕ) :
    Geom.angleGrid c (n, m) (some (k * ps.1, k * ps.2)) = Geom.angleGrid c (n, m) (some ps) := by
  unfold Geom.angleGrid Geom.mesh Geom.xCoords Geom.yCoords Geom.pixelSize
  simp only [Option.getD_some, List.map_map]
  apply List.map_congr_left
  intro y _
  simp only [Function.comp_apply]
  apply List.map_congr_left
  intro x _
  simp only [Function.comp_apply]
  unfold Geom.arctan2
  refine Eq.trans (congrArg Complex.arg ?_) (Complex.arg_real_mul _ hk)
  apply Complex.ext <;> simp <;> ring

theorem ite_iff {α : Type} {p q : Prop} {i : Decidable p} {j : Decidable q} {x y z : α} (h : p ↔ q) (hyz : y = z) : (@ite _ p i x y) = @ite _ q j x z := by
  by_cases hp : p
  · rw [if_pos hp, if_pos (h.1 hp)]
  · rw [if_neg hp, if_neg (fun hq => hp (h.2 hq)), hyz]

/-- C249: the unit of radii and pixel sizes does not matter: both k times as large give the same outcome, also with the default shape. -/
theorem C249_units (radii angles : List ℝ) (image : List (List (Option ℝ))) (mask : Option (List (List Bool))) (center : Option (ℝ × ℝ))
    (shape : Option (ℤ × ℤ)) (ps : ℝ × ℝ) (k : ℝ) (hk : 0 < k) :
    rphiImage (radii.map (k * ·)) angles image mask center shape (k * ps.1, k * ps.2) = rphiImage radii angles image mask center shape ps := by
  have hd : ∀ p : ℝ, (radii.map (k * ·)).map (· / (k * p)) = radii.map (· / p) := by
    intro p
    rw [List.map_map]
    apply List.map_congr_left
    intro r _
    exact mul_div_mul_left _ _ hk.ne'
  have hframe : frame (radii.map (k * ·)) shape center (k * ps.1, k * ps.2) = frame radii shape center ps := by
    unfold frame defaultDims
    simp only [hd]
  have hasc : Ascending (radii.map (k * ·)) ↔ Ascending radii := by
    unfold Ascending
    rw [List.pairwise_map]
    simp only [mul_lt_mul_iff_right₀ hk]
  have hcore : ∀ s d c a0, rphiCore (radii.map (k * ·)) s (applyMask mask image) d c (k * ps.1, k * ps.2) a0 = rphiCore radii s (applyMask mask image) d c ps a0 := by
    intro s d c a0
    unfold rphiCore
    simp only [angle_scale k hk, Laws.radial_scale k hk, List.zipWith_map_left, bilinear_scale k hk]
    exact ite_iff Iff.rfl (ite_iff Iff.rfl (ite_iff (by rw [List.length_map, hasc]) rfl))
  unfold rphiImage
  simp only [hframe, hcore]

/-! ### Superposition -/

theorem at2_map {m n : ℕ} {val : ℕ → ℕ → Option ℝ} {image : List (List (Option ℝ))} (h : IsMap m n val image) (hn : 0 < n) (i j : ℕ) :
    at2 (image.map padRow) i j = if i < m ∧ j < n + 2 then val i (if j = 0 then n - 1 else if j ≤ n then j - 1 else 0) else none := by
  by_cases hi : i < m
  · by_cases hj : j < n + 2
    · rw [if_pos ⟨hi, hj⟩, padded_at_map h i j hi hn hj]
    · rw [if_neg (by tauto)]
      unfold at2
      rw [h, List.map_map, List.getElem?_map, List.getElem?_range hi]
      simp only [Option.map_some, Function.comp, padRow]
      rw [List.getElem?_eq_none (by simp; omega)]
      rfl
  · rw [if_neg (by tauto)]
    unfold at2
    rw [h, List.map_map, List.getElem?_eq_none (by simp; omega)]

theorem bilinear_plus (a b : ℝ) (g h : List ℝ) (X Y Z : List (List (Option ℝ))) (hZ : ∀ i j, at2 Z i j = Spec.plus a b (at2 X i j) (at2 Y i j)) (x y : ℝ) :
    bilinear g h Z x y = Spec.plus a b (bilinear g h X x y) (bilinear g h Y x y) := by
  unfold bilinear
  simp only [hZ]
  split_ifs
  · rfl
  · generalize at2 X (cellOf g x) (cellOf h y) = x1
    generalize at2 X (cellOf g x) (cellOf h y + 1) = x2
    generalize at2 X (cellOf g x + 1) (cellOf h y) = x3
    generalize at2 X (cellOf g x + 1) (cellOf h y + 1) = x4
    generalize at2 Y (cellOf g x) (cellOf h y) = y1
    generalize at2 Y (cellOf g x) (cellOf h y + 1) = y2
    generalize at2 Y (cellOf g x + 1) (cellOf h y) = y3
    generalize at2 Y (cellOf g x + 1) (cellOf h y + 1) = y4
    cases x1 <;> cases x2 <;> cases x3 <;> cases x4 <;> cases y1 <;> cases y2 <;> cases y3 <;> cases y4 <;> simp [Spec.plus]
    ring

/-- C249: the image of a superposition of polar images over the same grid is the superposition of the images, NaN where one of them is; NaN in the polar images
is allowed, and so are all shapes and centres. -/
theorem C249_linear (radii angles : List ℝ) (m n : ℕ) (X Y : ℕ → ℕ → Option ℝ) (imX imY imZ : List (List (Option ℝ))) (a b : ℝ) (hX : IsMap m n X imX)
    (hY : IsMap m n Y imY) (hZ : IsMap m n (fun i j => Spec.plus a b (X i j) (Y i j)) imZ) (H W : ℕ) (center : Option (ℝ × ℝ)) (ps : ℝ × ℝ)
    (A : List (List (Option ℝ))) (hA : (rphiImage radii angles imX none center (some ((H : ℤ), (W : ℤ))) ps).result = .ok A) :
    ∃ B C, (rphiImage radii angles imY none center (some ((H : ℤ), (W : ℤ))) ps).result = .ok B ∧
      (rphiImage radii angles imZ none center (some ((H : ℤ), (W : ℤ))) ps).result = .ok C ∧
      ∀ r c, r < H → c < W → ∃ p q, Spec.pixel A r c = some p ∧ Spec.pixel B r c = some q ∧ Spec.pixel C r c = some (Spec.plus a b p q) := by
  rw [rphi_core] at hA ⊢
  by_cases hne : angles = []
  · rw [if_pos hne] at hA
    exact absurd hA (by simp)
  rw [rphi_core, if_neg hne, if_neg hne]
  rw [if_neg hne] at hA
  have hc := core_accepted hA
  have hm : 0 < m := by
    by_contra hm
    obtain rfl : m = 0 := by omega
    exact hc.2.1 (by rw [hX]; rfl)
  have sX := map_shape hX hm
  have hn : 0 < n := by
    have := hc.2.1
    rw [sX] at this
    exact Nat.pos_of_ne_zero this
  have acc : ∀ V imV, IsMap m n V imV → Accept radii (angles.map (· - gp angles 0)) imV := by
    intro V imV hV
    unfold Accept at hc ⊢
    rw [map_shape hV hm, ← sX]
    exact hc
  have hcY := acc Y imY hY
  have hcZ := acc _ imZ hZ
  rw [core_accept hc] at hA
  rw [core_accept hcY, core_accept hcZ]
  refine ⟨_, _, rfl, rfl, fun r c hr hcc => ?_⟩
  rw [← Except.ok.inj hA]
  simp only [Int.toNat_natCast]
  rw [core_pixel, core_pixel, core_pixel, if_pos ⟨hr, hcc⟩, if_pos ⟨hr, hcc⟩, if_pos ⟨hr, hcc⟩]
  refine ⟨_, _, rfl, rfl, congrArg some (bilinear_plus a b _ _ _ _ _ (fun i j => ?_) _ _)⟩
  rw [at2_map hX hn, at2_map hY hn, at2_map hZ hn]
  split_ifs <;> rfl

/-! ### The hypotheses are met -/

theorem demo : Spec.Usable [1, 2] [0, Real.pi] 2 2 (fun i j => i + 2 * j) [[some 0, some 2], [some 1, some 3]] where
  radii_asc := by simp [Ascending]
  radii_length := rfl
  two := le_refl 2
  angles_asc := by simpa [Ascending] using Real.pi_pos
  angles_length := rfl
  one := by norm_num
  span := by
    have := Real.pi_pos
    simp [gp]
    linarith
  values := by
    unfold IsFull
    norm_num [List.range_succ]

theorem demo_profile : Spec.Usable [1, 2] [0, Real.pi] 2 2 (fun i _ => gp [5, 7] i) [[some 5, some 5], [some 7, some 7]] :=
  { demo with values := by simp [IsFull, List.range_succ, gp] }

example := C249_bounds _ _ _ _ _ _ demo 5 7 none (1, 1) 0 3 (by
  intro i j hi hj
  interval_cases i <;> interval_cases j <;> norm_num)
example := C249_profile _ _ [5, 7] _ _ _ demo_profile rfl 5 7 (some (1, 2)) (1, 2) none none
example := C249_start _ _ _ _ 1 (by norm_num) _ _ [[some 2, some 0], [some 3, some 1]] demo (by norm_num [IsFull, List.range_succ]) 5 7 none (1, 1)
example := C249_mirror _ _ _ _ _ _ [[some 2, some 0], [some 3, some 1]] demo (by norm_num [IsFull, List.range_succ]) 5 7 (1, 2)
example : ∃ out, (rphiImage [1, 2] [0, Real.pi] [[some 0, some 2], [some 1, some 3]] none none (some ((5 : ℕ), (7 : ℕ))) (1, 2)).result = .ok out := by
  obtain ⟨out, h, _⟩ := law demo 5 7 none (1, 2)
  exact ⟨out, h⟩
example : IsMap 1 2 (fun _ j => if j = 0 then none else some 3) [[none, some 3]] := by simp [IsMap, List.range_succ]

end Verif.Image.Polar
