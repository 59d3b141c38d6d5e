/- C246: laws of `construct_circ_avg_image` (skbeam/core/image.py 104-174): relations between two or three calls. -/
import Verif.Image.Props

namespace Verif.Image.Laws
open Verif Verif.Image

/-! ### Specification -/

/-- Pixel (row, col) of an image; none outside. -/
def Spec.pix (img : List (List ℝ)) (row col : ℕ) : Option ℝ := img[row]?.bind (·[col]?)

/-- a times one list plus b times another, element by element. -/
def Spec.comb (a b : ℝ) (x y : List ℝ) : List ℝ := List.zipWith (fun s t => a * s + b * t) x y

/-! ### Lemmas -/

theorem zipWith_map_self {α β γ δ : Type} (f : β → γ → δ) (g : α → β) (h : α → γ) (l : List α) :
    List.zipWith f (l.map g) (l.map h) = l.map (fun x => f (g x) (h x)) := by
  induction l with
  | nil => rfl
  | cons x t ih => simp [ih]

theorem comb_getD (a b : ℝ) (x y : List ℝ) (h : x.length = y.length) (k : ℕ) :
    ((Spec.comb a b x y)[k]?).getD 0 = a * (x[k]?).getD 0 + b * (y[k]?).getD 0 := by
  unfold Spec.comb
  rw [List.getElem?_zipWith]
  by_cases hk : k < x.length
  · rw [List.getElem?_eq_getElem hk, List.getElem?_eq_getElem (by omega)]
    rfl
  · rw [List.getElem?_eq_none (by omega), List.getElem?_eq_none (by omega)]
    simp

theorem interp_comb (a b : ℝ) (xp x y : List ℝ) (h : x.length = y.length) (l m r : ℝ) :
    interpAt xp (Spec.comb a b x y) (a * l + b * m) 0 r = a * interpAt xp x l 0 r + b * interpAt xp y m 0 r := by
  unfold interpAt
  simp only [comb_getD a b x y h]
  split_ifs <;> ring

/-- What a successful call is. -/
theorem circ_ok (radii I : List ℝ) (dims : Option (ℤ × ℤ)) (center : Option (ℝ × ℝ)) (ps : ℝ × ℝ) (left right : Option ℝ) (A : List (List ℝ)) :
    circAvgImage radii I dims center ps left right = .ok A ↔
      radii ≠ [] ∧ radii.length = I.length ∧ ∃ d c, frame radii dims center ps = .ok (d, c) ∧
        A = (Geom.radialGrid c (d.1.toNat, d.2.toNat) (some ps)).map (fun row => row.map (fun r => interpAt radii I ((I[0]?).getD 0) 0 r)) := by
  unfold circAvgImage
  cases hf : frame radii dims center ps with
  | error e => simp [bind, Except.bind]
  | ok v =>
    obtain ⟨d, c⟩ := v
    simp only [bind, Except.bind]
    by_cases h : radii = [] ∨ radii.length ≠ I.length
    · rw [if_pos h]
      constructor
      · intro h'; exact absurd h' (by simp)
      · rintro ⟨h1, h2, _⟩
        rcases h with h | h
        · exact absurd h h1
        · exact absurd h2 h
    · rw [if_neg h]
      push Not at h
      constructor
      · intro h'
        exact ⟨h.1, h.2, d, c, rfl, (Except.ok.inj h').symm⟩
      · rintro ⟨_, _, d', c', e, rfl⟩
        obtain ⟨rfl, rfl⟩ := Prod.mk.inj (Except.ok.inj e)
        rfl

theorem pix_circ (radii I : List ℝ) (d : ℤ × ℤ) (c ps : ℝ × ℝ) (row col : ℕ) :
    Spec.pix ((Geom.radialGrid c (d.1.toNat, d.2.toNat) (some ps)).map (fun row => row.map (fun r => interpAt radii I ((I[0]?).getD 0) 0 r))) row col =
      if row < d.1.toNat ∧ col < d.2.toNat then some (interpAt radii I ((I[0]?).getD 0) 0 (Image.Spec.distance c ps row col)) else none := by
  unfold Spec.pix
  by_cases hr : row < d.1.toNat
  · rw [List.getElem?_map, radial_row c ps _ _ row hr]
    simp only [Option.map_some, Option.bind_some, List.getElem?_map]
    by_cases hc : col < d.2.toNat
    · rw [List.getElem?_range hc, if_pos ⟨hr, hc⟩]
      rfl
    · rw [List.getElem?_eq_none (l := List.range d.2.toNat) (by rw [List.length_range]; omega), if_neg (by tauto)]
      rfl
  · rw [List.getElem?_eq_none (by simpa [radial_length] using hr), if_neg (by tauto)]
    rfl

/-! ### Superposition -/

/-- C246: the image of a sum of profiles over the same radii, with any factors, is the sum of the images, pixel by pixel; the call succeeds when
those of the parts do. -/
theorem C246_linear (radii I J : List ℝ) (dims : Option (ℤ × ℤ)) (center : Option (ℝ × ℝ)) (ps : ℝ × ℝ) (left right : Option ℝ) (a b : ℝ)
    (A B : List (List ℝ)) (hA : circAvgImage radii I dims center ps left right = .ok A) (hB : circAvgImage radii J dims center ps left right = .ok B) :
    circAvgImage radii (Spec.comb a b I J) dims center ps left right = .ok (List.zipWith (Spec.comb a b) A B) := by
  rw [circ_ok] at hA hB
  obtain ⟨h1, h2, d, c, hf, rfl⟩ := hA
  obtain ⟨_, h3, d', c', hf', rfl⟩ := hB
  rw [hf] at hf'
  obtain ⟨rfl, rfl⟩ := Prod.mk.inj (Except.ok.inj hf')
  rw [circ_ok]
  refine ⟨h1, by simp [Spec.comb, ← h2, ← h3], d, c, hf, ?_⟩
  rw [zipWith_map_self]
  apply List.map_congr_left
  intro row _
  unfold Spec.comb
  rw [zipWith_map_self]
  apply List.map_congr_left
  intro r _
  have := interp_comb a b radii I J (h2.symm.trans h3) ((I[0]?).getD 0) ((J[0]?).getD 0) r
  rw [← this, ← comb_getD a b I J (h2.symm.trans h3) 0]
  rfl

/-! ### Bounds and order -/

theorem interp_between (radii I : List ℝ) (hx : Ascending radii) (hne : radii ≠ []) (hl : radii.length = I.length) (lo hi : ℝ)
    (h : ∀ v ∈ I, lo ≤ v ∧ v ≤ hi) (ρ : ℝ) (hρ : ρ ≤ gp radii (radii.length - 1)) :
    lo ≤ interpAt radii I ((I[0]?).getD 0) 0 ρ ∧ interpAt radii I ((I[0]?).getD 0) 0 ρ ≤ hi := by
  obtain ⟨h1, h2, h3, h4⟩ := interp_profile radii I hx hne hl ρ
  obtain ⟨v, hv⟩ : ∃ v, v = interpAt radii I ((I[0]?).getD 0) 0 ρ := ⟨_, rfl⟩
  rw [← hv] at h1 h2 h3 h4 ⊢
  have hn : 0 < radii.length := List.length_pos_iff.2 hne
  have hI : ∀ i, i < radii.length → lo ≤ gp I i ∧ gp I i ≤ hi := by
    intro i hi'
    rw [gp_eq (by omega)]
    exact h _ (List.getElem_mem _)
  by_cases c1 : ρ < gp radii 0
  · rw [h1 c1]
    exact hI 0 hn
  · push Not at c1
    by_cases hl2 : radii.length = 1
    · rw [hl2] at hρ
      rw [h3 0 hn (le_antisymm hρ c1)]
      exact hI 0 hn
    · obtain ⟨i, hi1, hi2, hi3⟩ := exists_cell radii hx (by omega) ρ c1 hρ
      have e := h4 i hi1 hi2 hi3
      have hp : 0 < gp radii (i + 1) - gp radii i := sub_pos.2 (gp_lt hx (Nat.lt_succ_self i) hi1)
      obtain ⟨a1, a2⟩ := hI i (by omega)
      obtain ⟨b1, b2⟩ := hI (i + 1) hi1
      have p1 : 0 ≤ gp radii (i + 1) - ρ := by linarith
      have p2 : 0 ≤ ρ - gp radii i := by linarith
      constructor
      · refine le_of_mul_le_mul_right ?_ hp
        have := mul_le_mul_of_nonneg_right a1 p1
        have := mul_le_mul_of_nonneg_right b1 p2
        rw [e]
        calc lo * (gp radii (i + 1) - gp radii i) = lo * (gp radii (i + 1) - ρ) + lo * (ρ - gp radii i) := by ring
          _ ≤ _ := by linarith
      · refine le_of_mul_le_mul_right ?_ hp
        have := mul_le_mul_of_nonneg_right a2 p1
        have := mul_le_mul_of_nonneg_right b2 p2
        rw [e]
        calc _ ≤ hi * (gp radii (i + 1) - ρ) + hi * (ρ - gp radii i) := by linarith
          _ = hi * (gp radii (i + 1) - gp radii i) := by ring

theorem interp_beyond (radii I : List ℝ) (hx : Ascending radii) (hne : radii ≠ []) (hl : radii.length = I.length) (ρ : ℝ)
    (hρ : gp radii (radii.length - 1) < ρ) : interpAt radii I ((I[0]?).getD 0) 0 ρ = 0 :=
  (interp_profile radii I hx hne hl ρ).2.1 hρ

/-- C246: every pixel value lies between the smallest and the largest intensity of the profile or is the zero beyond the last radius: the interpolation
neither overshoots nor undershoots. -/
theorem C246_bounds (radii I : List ℝ) (hx : Ascending radii) (dims : Option (ℤ × ℤ)) (center : Option (ℝ × ℝ)) (ps : ℝ × ℝ) (left right : Option ℝ)
    (A : List (List ℝ)) (hA : circAvgImage radii I dims center ps left right = .ok A) (lo hi : ℝ) (h : ∀ v ∈ I, lo ≤ v ∧ v ≤ hi)
    (row col : ℕ) (v : ℝ) (hv : Spec.pix A row col = some v) : v = 0 ∨ (lo ≤ v ∧ v ≤ hi) := by
  obtain ⟨h1, h2, d, c, hf, rfl⟩ := (circ_ok radii I dims center ps left right A).1 hA
  rw [pix_circ] at hv
  split_ifs at hv with hin
  obtain rfl := Option.some.inj hv
  by_cases hb : Image.Spec.distance c ps row col ≤ gp radii (radii.length - 1)
  · exact Or.inr (interp_between radii I hx h1 h2 lo hi h _ hb)
  · push Not at hb
    exact Or.inl (interp_beyond radii I hx h1 h2 _ hb)

/-- C246: a profile that lies nowhere below another one gives an image that lies nowhere below the other. -/
theorem C246_mono (radii I J : List ℝ) (hx : Ascending radii) (dims : Option (ℤ × ℤ)) (center : Option (ℝ × ℝ)) (ps : ℝ × ℝ) (left right : Option ℝ)
    (A B : List (List ℝ)) (hA : circAvgImage radii I dims center ps left right = .ok A) (hB : circAvgImage radii J dims center ps left right = .ok B)
    (hIJ : ∀ i (h : i < I.length) (h' : i < J.length), I[i] ≤ J[i]) (row col : ℕ) (v w : ℝ) (hv : Spec.pix A row col = some v) (hw : Spec.pix B row col = some w) :
    v ≤ w := by
  obtain ⟨h1, h2, d, c, hf, rfl⟩ := (circ_ok radii I dims center ps left right A).1 hA
  obtain ⟨_, h3, d', c', hf', rfl⟩ := (circ_ok radii J dims center ps left right B).1 hB
  rw [hf] at hf'
  obtain ⟨rfl, rfl⟩ := Prod.mk.inj (Except.ok.inj hf')
  rw [pix_circ] at hv hw
  split_ifs at hv hw with hin
  obtain rfl := Option.some.inj hv
  obtain rfl := Option.some.inj hw
  have hlen : I.length = J.length := h2.symm.trans h3
  have e := interp_comb (-1) 1 radii I J hlen ((I[0]?).getD 0) ((J[0]?).getD 0) (Image.Spec.distance c ps row col)
  rw [← comb_getD (-1) 1 I J hlen 0] at e
  by_cases hb : Image.Spec.distance c ps row col ≤ gp radii (radii.length - 1)
  · -- the difference has nonnegative intensities
    obtain ⟨M, hM⟩ : ∃ M : ℝ, ∀ v ∈ Spec.comb (-1) 1 I J, v ≤ M := by
      obtain ⟨M, hM⟩ := (Spec.comb (-1) 1 I J).toFinset.bddAbove
      exact ⟨M, fun v hv => hM (by simpa using hv)⟩
    have := (interp_between radii (Spec.comb (-1) 1 I J) hx h1 (by simp [Spec.comb, ← h2, ← h3]) 0 M (fun v hv => ⟨?_, hM v hv⟩) _ hb).1
    · rw [e] at this
      linarith
    · obtain ⟨i, hi, rfl⟩ := List.mem_iff_getElem.1 hv
      simp only [Spec.comb, List.length_zipWith] at hi
      simp only [Spec.comb, List.getElem_zipWith]
      have := hIJ i (by omega) (by omega)
      linarith
  · push Not at hb
    rw [interp_beyond radii I hx h1 h2 _ hb, interp_beyond radii J hx h1 h3 _ hb]

/-- C246, the recipe of the documentation: the image of a profile of ones is one exactly at the pixels that are filled, those no farther than the last
radius, and zero elsewhere; and wherever it is zero the image of every profile over these radii is zero. -/
theorem C246_ones (radii I : List ℝ) (hx : Ascending radii) (H W : ℕ) (center : Option (ℝ × ℝ)) (ps : ℝ × ℝ) (left right : Option ℝ)
    (A B : List (List ℝ)) (hA : circAvgImage radii I (some ((H : ℤ), (W : ℤ))) center ps left right = .ok A)
    (hB : circAvgImage radii (List.replicate radii.length 1) (some ((H : ℤ), (W : ℤ))) center ps left right = .ok B) (row col : ℕ) (hr : row < H) (hc : col < W) :
    (Image.Spec.distance (center.getD (((H : ℝ) - 1) / 2, ((W : ℝ) - 1) / 2)) ps row col ≤ gp radii (radii.length - 1) → Spec.pix B row col = some 1) ∧
    (gp radii (radii.length - 1) < Image.Spec.distance (center.getD (((H : ℝ) - 1) / 2, ((W : ℝ) - 1) / 2)) ps row col → Spec.pix B row col = some 0) ∧
    (Spec.pix B row col = some 0 → Spec.pix A row col = some 0) := by
  have hf0 : frame radii (some ((H : ℤ), (W : ℤ))) center ps = .ok (((H : ℤ), (W : ℤ)), center.getD (((H : ℝ) - 1) / 2, ((W : ℝ) - 1) / 2)) := by
    cases center <;> simp [frame]
  obtain ⟨h1, h2, d, c, hf, rfl⟩ := (circ_ok radii I _ center ps left right A).1 hA
  obtain ⟨_, h3, d', c', hf', rfl⟩ := (circ_ok radii _ _ center ps left right B).1 hB
  rw [hf0] at hf hf'
  obtain ⟨rfl, rfl⟩ := Prod.mk.inj (Except.ok.inj hf)
  obtain ⟨rfl, rfl⟩ := Prod.mk.inj (Except.ok.inj hf')
  obtain ⟨c, hcd⟩ : ∃ c, c = center.getD (((H : ℝ) - 1) / 2, ((W : ℝ) - 1) / 2) := ⟨_, rfl⟩
  rw [pix_circ, pix_circ, ← hcd, if_pos (by simpa using ⟨hr, hc⟩), if_pos (by simpa using ⟨hr, hc⟩)]
  have one : Image.Spec.distance c ps row col ≤ gp radii (radii.length - 1) →
      interpAt radii (List.replicate radii.length 1) (((List.replicate radii.length (1 : ℝ))[0]?).getD 0) 0 (Image.Spec.distance c ps row col) = 1 := by
    intro hb
    obtain ⟨a, b⟩ := interp_between radii (List.replicate radii.length 1) hx h1 h3 1 1 (by intro v hv; simp [List.eq_of_mem_replicate hv]) _ hb
    exact le_antisymm b a
  refine ⟨fun hb => by rw [one hb], fun hb => by rw [interp_beyond radii _ hx h1 h3 _ hb], fun h0 => ?_⟩
  by_cases hb : Image.Spec.distance c ps row col ≤ gp radii (radii.length - 1)
  · rw [one hb] at h0
    norm_num at h0
  · push Not at hb
    rw [interp_beyond radii I hx h1 h2 _ hb]

/-! ### Units and symmetry -/

theorem interp_scale (k : ℝ) (hk : 0 < k) (xp fp : List ℝ) (l r x : ℝ) :
    interpAt (xp.map (k * ·)) fp l r (k * x) = interpAt xp fp l r x := by
  have hcount : (xp.map (k * ·)).countP (fun a => decide (a ≤ k * x)) = xp.countP (fun a => decide (a ≤ x)) := by
    rw [List.countP_map]
    congr 1
    funext a
    simp only [Function.comp_apply, decide_eq_decide]
    exact mul_le_mul_iff_right₀ hk
  have hget : ∀ j : ℕ, ((xp.map (k * ·))[j]?).getD 0 = k * (xp[j]?).getD 0 := by
    intro j
    rw [List.getElem?_map]
    cases xp[j]? <;> simp
  unfold interpAt
  simp only [hcount, hget, List.length_map, mul_lt_mul_iff_right₀ hk, mul_right_inj' hk.ne']
  split_ifs
  all_goals try rfl
  rw [← mul_sub, ← mul_sub]
  congr 1
  rw [div_mul_eq_mul_div, div_mul_eq_mul_div, mul_left_comm, mul_div_mul_left _ _ hk.ne']

theorem radial_scale (k : ℝ) (hk : 0 < k) (c ps : ℝ × ℝ) (n m : ℕ) :
    Geom.radialGrid c (n, m) (some (k * ps.1, k * ps.2)) = (Geom.radialGrid c (n, m) (some ps)).map (fun row => row.map (k * ·)) := by
  unfold Geom.radialGrid Geom.mesh Geom.xCoords Geom.yCoords Geom.pixelSize
  simp only [Option.getD_some, List.map_map]
  apply List.map_congr_left
  intro y _
  simp only [Function.comp_apply, List.map_map]
  apply List.map_congr_left
  intro x _
  simp only [Function.comp_apply]
  rw [← Real.sqrt_sq hk.le, ← Real.sqrt_mul (sq_nonneg k), Real.sqrt_sq hk.le]
  congr 1
  ring

/-- C246: the unit of radii and pixel sizes does not matter: both k times as large give the very same image, also with the default dimensions. -/
theorem C246_units (radii I : List ℝ) (dims : Option (ℤ × ℤ)) (center : Option (ℝ × ℝ)) (ps : ℝ × ℝ) (left right : Option ℝ) (k : ℝ) (hk : 0 < k) :
    circAvgImage (radii.map (k * ·)) I dims center (k * ps.1, k * ps.2) left right = circAvgImage radii I dims center ps left right := by
  have hd : ∀ p : ℝ, (radii.map (k * ·)).map (· / (k * p)) = radii.map (· / p) := by
    intro p
    rw [List.map_map]
    apply List.map_congr_left
    intro r _
    exact mul_div_mul_left _ _ hk.ne'
  have hframe : frame (radii.map (k * ·)) dims center (k * ps.1, k * ps.2) = frame radii dims center ps := by
    unfold frame defaultDims
    simp only [hd]
  unfold circAvgImage
  rw [hframe]
  congr 1
  funext v
  obtain ⟨d, c⟩ := v
  have hnil : (radii.map (k * ·) = [] ∨ (radii.map (k * ·)).length ≠ I.length) ↔ (radii = [] ∨ radii.length ≠ I.length) := by simp
  simp only [hnil, radial_scale k hk, List.map_map]
  split_ifs
  · rfl
  · congr 1
    apply List.map_congr_left
    intro row _
    simp only [Function.comp_apply, List.map_map]
    apply List.map_congr_left
    intro r _
    exact interp_scale k hk radii I _ 0 r

theorem distance_swap (c ps : ℝ × ℝ) (row col : ℕ) : Image.Spec.distance c.swap ps.swap col row = Image.Spec.distance c ps row col := by
  unfold Image.Spec.distance
  simp only [Prod.fst_swap, Prod.snd_swap]
  rw [add_comm]

/-- C246: exchanging rows and columns in dimensions, centre and pixel size exchanges the rows and columns of the image. -/
theorem C246_transpose (radii I : List ℝ) (dims : Option (ℤ × ℤ)) (center : Option (ℝ × ℝ)) (ps : ℝ × ℝ) (left right : Option ℝ)
    (A : List (List ℝ)) (hA : circAvgImage radii I dims center ps left right = .ok A) :
    ∃ B, circAvgImage radii I (dims.map Prod.swap) (center.map Prod.swap) ps.swap left right = .ok B ∧ ∀ row col, Spec.pix B col row = Spec.pix A row col := by
  obtain ⟨h1, h2, d, c, hf, rfl⟩ := (circ_ok radii I dims center ps left right A).1 hA
  have hf' : frame radii (dims.map Prod.swap) (center.map Prod.swap) ps.swap = .ok (d.swap, c.swap) := by
    unfold frame at hf ⊢
    rcases dims with _ | ⟨d1, d2⟩ <;> rcases center with _ | ⟨c1, c2⟩
    · simp only [Option.map_none] at hf ⊢
      unfold defaultDims at hf ⊢
      simp only [Prod.fst_swap, Prod.snd_swap]
      cases hy : maxList (radii.map (· / ps.1)) <;> cases hxx : maxList (radii.map (· / ps.2)) <;> simp only [hy, hxx, bind, Except.bind] at hf ⊢
      · exact absurd hf (by simp)
      · exact absurd hf (by simp)
      · exact absurd hf (by simp)
      · obtain ⟨rfl, rfl⟩ := Prod.mk.inj (Except.ok.inj hf)
        rfl
    · exact absurd hf (by simp)
    · obtain ⟨rfl, rfl⟩ := Prod.mk.inj (Except.ok.inj hf)
      rfl
    · obtain ⟨rfl, rfl⟩ := Prod.mk.inj (Except.ok.inj hf)
      rfl
  refine ⟨_, (circ_ok _ _ _ _ _ _ _ _).2 ⟨h1, h2, d.swap, c.swap, hf', rfl⟩, fun row col => ?_⟩
  rw [pix_circ, pix_circ, distance_swap]
  simp only [Prod.fst_swap, Prod.snd_swap, and_comm]

/-- C246: without a centre the image is its own mirror image upside down and left to right, with given and with default dimensions. -/
theorem C246_mirror (radii I : List ℝ) (dims : Option (ℤ × ℤ)) (ps : ℝ × ℝ) (left right : Option ℝ) (A : List (List ℝ)) (H W : ℕ)
    (hA : circAvgImage radii I dims none ps left right = .ok A) (hH : A.length = H) (hW : ∀ row ∈ A, row.length = W) (row col : ℕ) (hr : row < H) (hc : col < W) :
    Spec.pix A (H - 1 - row) col = Spec.pix A row col ∧ Spec.pix A row (W - 1 - col) = Spec.pix A row col := by
  obtain ⟨h1, h2, d, c, hf, rfl⟩ := (circ_ok radii I dims none ps left right A).1 hA
  have hcd : c = (((d.1 : ℝ) - 1) / 2, ((d.2 : ℝ) - 1) / 2) := by
    unfold frame at hf
    rcases dims with _ | d'
    · simp only [bind, Except.bind] at hf
      cases hdd : defaultDims radii ps with
      | error e => rw [hdd] at hf; exact absurd hf (by simp)
      | ok v =>
        rw [hdd] at hf
        obtain ⟨rfl, rfl⟩ := Prod.mk.inj (Except.ok.inj hf)
        rfl
    · obtain ⟨rfl, rfl⟩ := Prod.mk.inj (Except.ok.inj hf)
      rfl
  have eH : d.1.toNat = H := by simpa [radial_length] using hH
  have eW : d.2.toNat = W := by
    have := radial_row c ps d.1.toNat d.2.toNat row (by omega)
    have hm := hW _ (List.mem_of_getElem? (by rw [List.getElem?_map, this]; rfl))
    simpa using hm
  have d1 : (d.1 : ℝ) = H := by
    have : d.1 = (H : ℤ) := by omega
    rw [this]; rfl
  have d2 : (d.2 : ℝ) = W := by
    have : d.2 = (W : ℤ) := by omega
    rw [this]; rfl
  rw [pix_circ, pix_circ, pix_circ, hcd, d1, d2, eH, eW, if_pos (show H - 1 - row < H ∧ col < W from ⟨by omega, hc⟩),
    if_pos (show row < H ∧ col < W from ⟨hr, hc⟩), if_pos (show row < H ∧ W - 1 - col < W from ⟨hr, by omega⟩)]
  have e1 : ((H - 1 - row : ℕ) : ℝ) = H - 1 - row := by
    rw [Nat.cast_sub (by omega), Nat.cast_sub (by omega)]; simp
  have e2 : ((W - 1 - col : ℕ) : ℝ) = W - 1 - col := by
    rw [Nat.cast_sub (by omega), Nat.cast_sub (by omega)]; simp
  have key : ∀ x y : ℝ, x = y → some (interpAt radii I ((I[0]?).getD 0) 0 x) = some (interpAt radii I ((I[0]?).getD 0) 0 y) := by
    rintro x y rfl; rfl
  constructor <;> apply key <;> unfold Image.Spec.distance <;> dsimp only
  · rw [e1]
    congr 1
    ring
  · rw [e2]
    congr 1
    ring

/-! ### Redundant samples -/

theorem profile_unique (radii I : List ℝ) (hx : Ascending radii) (hne : radii ≠ []) (ρ v w : ℝ)
    (hv : Image.Spec.IsProfile radii.length (gp radii) (gp I) ρ v) (hw : Image.Spec.IsProfile radii.length (gp radii) (gp I) ρ w) : v = w := by
  have hn : 0 < radii.length := List.length_pos_iff.2 hne
  by_cases c1 : ρ < gp radii 0
  · rw [hv.1 c1, hw.1 c1]
  push Not at c1
  by_cases c2 : gp radii (radii.length - 1) < ρ
  · rw [hv.2.1 c2, hw.2.1 c2]
  push Not at c2
  by_cases hl : radii.length = 1
  · rw [hl] at c2
    rw [hv.2.2.1 0 hn (le_antisymm c2 c1), hw.2.2.1 0 hn (le_antisymm c2 c1)]
  · obtain ⟨i, hi1, hi2, hi3⟩ := exists_cell radii hx (by omega) ρ c1 c2
    have hp : 0 < gp radii (i + 1) - gp radii i := sub_pos.2 (gp_lt hx (Nat.lt_succ_self i) hi1)
    exact mul_right_cancel₀ hp.ne' ((hv.2.2.2 i hi1 hi2 hi3).trans (hw.2.2.2 i hi1 hi2 hi3).symm)

/-- C246: samples that lie on the line between their neighbours may be left out: adding a radius between two listed ones with the intensity the line
between them has there changes no pixel. -/
theorem C246_redundant_sample (P Q S T : List ℝ) (p q s t m y : ℝ) (hx : Ascending (P ++ p :: q :: Q)) (hm : p < m) (hm' : m < q)
    (hS : S.length = P.length) (hT : T.length = Q.length) (hy : y * (q - p) = s * (q - m) + t * (m - p))
    (H W : ℕ) (center : Option (ℝ × ℝ)) (ps : ℝ × ℝ) (left right : Option ℝ) :
    circAvgImage (P ++ p :: m :: q :: Q) (S ++ s :: y :: t :: T) (some ((H : ℤ), (W : ℤ))) center ps left right =
      circAvgImage (P ++ p :: q :: Q) (S ++ s :: t :: T) (some ((H : ℤ), (W : ℤ))) center ps left right := by
  have hx' : Ascending (P ++ p :: m :: q :: Q) := by
    unfold Ascending at hx ⊢
    simp only [List.pairwise_append, List.pairwise_cons, List.mem_cons] at hx ⊢
    obtain ⟨a, ⟨b, c, d⟩, e⟩ := hx
    refine ⟨a, ⟨?_, ?_, c, d⟩, ?_⟩
    · rintro x (rfl | h)
      · exact hm
      · exact b x h
    · rintro x (rfl | h)
      · exact hm'
      · exact hm'.trans (c x h)
    · rintro x hx z (rfl | rfl | h)
      · exact e x hx _ (Or.inl rfl)
      · exact (e x hx p (Or.inl rfl)).trans hm
      · exact e x hx z (Or.inr h)
  have low : ∀ (A B B' : List ℝ) (i : ℕ), i < A.length → gp (A ++ B) i = gp (A ++ B') i := by
    intro A B B' i hi
    unfold gp
    rw [List.getElem?_append_left hi, List.getElem?_append_left hi]
  have at0 : ∀ (A B : List ℝ) (a : ℝ) (n : ℕ), A.length = n → gp (A ++ a :: B) n = a := by
    rintro A B a n rfl
    simp [gp]
  have at1 : ∀ (A B : List ℝ) (a b : ℝ) (n : ℕ), A.length = n → gp (A ++ a :: b :: B) (n + 1) = b := by
    rintro A B a b n rfl
    simp [gp]
  have high : ∀ (A B : List ℝ) (a b : ℝ) (n i : ℕ), A.length = n → n + 1 ≤ i → gp (A ++ a :: b :: B) (i + 1) = gp (A ++ a :: B) i := by
    rintro A B a b n i rfl hi
    unfold gp
    rw [List.getElem?_append_right (by omega), List.getElem?_append_right (by omega)]
    obtain ⟨j, rfl⟩ : ∃ j, i = A.length + 1 + j := ⟨i - (A.length + 1), by omega⟩
    rw [show A.length + 1 + j + 1 - A.length = j + 2 by omega, show A.length + 1 + j - A.length = j + 1 by omega]
    simp
  obtain ⟨n, hn⟩ : ∃ n, P.length = n := ⟨_, rfl⟩
  have key : ∀ ρ, interpAt (P ++ p :: m :: q :: Q) (S ++ s :: y :: t :: T) (((S ++ s :: y :: t :: T)[0]?).getD 0) 0 ρ =
      interpAt (P ++ p :: q :: Q) (S ++ s :: t :: T) (((S ++ s :: t :: T)[0]?).getD 0) 0 ρ := by
    intro ρ
    obtain ⟨a1, a2, a3, a4⟩ := interp_profile (P ++ p :: m :: q :: Q) (S ++ s :: y :: t :: T) hx' (by simp) (by simp [hS, hT]) ρ
    obtain ⟨v, hv⟩ : ∃ v, v = interpAt (P ++ p :: m :: q :: Q) (S ++ s :: y :: t :: T) (((S ++ s :: y :: t :: T)[0]?).getD 0) 0 ρ := ⟨_, rfl⟩
    rw [← hv] at a1 a2 a3 a4 ⊢
    have hlen' : (P ++ p :: m :: q :: Q).length = n + 3 + Q.length := by simp [hn]; omega
    have hlen : (P ++ p :: q :: Q).length = n + 2 + Q.length := by simp [hn]; omega
    rw [hlen'] at a2 a3 a4
    -- radii and intensities of the two lists, index by index
    have xl : ∀ i, i ≤ n → gp (P ++ p :: q :: Q) i = gp (P ++ p :: m :: q :: Q) i := by
      intro i hi
      rcases Nat.lt_or_eq_of_le hi with h | rfl
      · exact low _ _ _ _ (by omega)
      · rw [at0 _ _ _ _ hn, at0 _ _ _ _ hn]
    have yl : ∀ i, i ≤ n → gp (S ++ s :: t :: T) i = gp (S ++ s :: y :: t :: T) i := by
      intro i hi
      rcases Nat.lt_or_eq_of_le hi with h | rfl
      · exact low _ _ _ _ (by omega)
      · rw [at0 _ _ _ _ (hS.trans hn), at0 _ _ _ _ (hS.trans hn)]
    have xh : ∀ i, n + 1 ≤ i → gp (P ++ p :: q :: Q) i = gp (P ++ p :: m :: q :: Q) (i + 1) := fun i hi => (high P (q :: Q) p m n i hn hi).symm
    have yh : ∀ i, n + 1 ≤ i → gp (S ++ s :: t :: T) i = gp (S ++ s :: y :: t :: T) (i + 1) := fun i hi => (high S (t :: T) s y n i (hS.trans hn) hi).symm
    apply profile_unique (P ++ p :: q :: Q) (S ++ s :: t :: T) hx (by simp) ρ v _ _ (interp_profile _ _ hx (by simp) (by simp [hS, hT]) ρ)
    rw [hlen]
    refine ⟨fun h => ?_, fun h => ?_, fun i hi h => ?_, fun i hi h h' => ?_⟩
    · rw [xl 0 (by omega)] at h
      rw [yl 0 (by omega)]
      exact a1 h
    · rw [xh _ (by omega), show n + 2 + Q.length - 1 + 1 = n + 3 + Q.length - 1 by omega] at h
      exact a2 h
    · by_cases c : i ≤ n
      · rw [xl i c] at h
        rw [yl i c]
        exact a3 i (by omega) h
      · rw [xh i (by omega)] at h
        rw [yh i (by omega)]
        exact a3 (i + 1) (by omega) h
    · rcases Nat.lt_trichotomy i n with c | rfl | c
      · rw [xl i (by omega)] at h
        rw [xl (i + 1) (by omega)] at h'
        rw [xl i (by omega), xl (i + 1) (by omega), yl i (by omega), yl (i + 1) (by omega)]
        exact a4 i (by omega) h h'
      · have b4 := a4 i (by omega)
        have b5 := a4 (i + 1) (by omega)
        rw [at0 P _ p i hn, at1 P _ p m i hn, at0 S _ s i (hS.trans hn), at1 S _ s y i (hS.trans hn)] at b4
        rw [at1 P _ p m i hn, at1 S _ s y i (hS.trans hn), high P (q :: Q) p m i (i + 1) hn le_rfl, at1 P _ p q i hn,
          high S (t :: T) s y i (i + 1) (hS.trans hn) le_rfl, at1 S _ s t i (hS.trans hn)] at b5
        rw [at0 P _ p i hn] at h ⊢
        rw [at1 P _ p q i hn] at h' ⊢
        rw [at0 S _ s i (hS.trans hn), at1 S _ s t i (hS.trans hn)]
        rcases le_total ρ m with c | c
        · have e := b4 h c
          apply mul_left_cancel₀ (sub_pos.2 hm).ne'
          linear_combination (q - p) * e + (ρ - p) * hy
        · have e := b5 c h'
          apply mul_left_cancel₀ (sub_pos.2 hm').ne'
          linear_combination (q - p) * e + (q - ρ) * hy
      · rw [xh i (by omega)] at h
        rw [xh (i + 1) (by omega)] at h'
        rw [xh i (by omega), xh (i + 1) (by omega), yh i (by omega), yh (i + 1) (by omega)]
        exact a4 (i + 1) (by omega) h h'
  have hf : ∀ r : List ℝ, frame r (some ((H : ℤ), (W : ℤ))) center ps = .ok (((H : ℤ), (W : ℤ)), center.getD (((H : ℝ) - 1) / 2, ((W : ℝ) - 1) / 2)) := by
    intro r
    cases center <;> simp [frame]
  rw [(circ_ok (P ++ p :: q :: Q) (S ++ s :: t :: T) _ center ps left right _).2 ⟨by simp, by simp [hS, hT], _, _, hf _, rfl⟩]
  rw [circ_ok]
  refine ⟨by simp, by simp [hS, hT], _, _, hf _, ?_⟩
  simp only [key]

/-! ### The hypotheses are met -/

example : ∃ A, circAvgImage [0, 1, 3] [5, 7, 2] (some (4, 6)) none (1, 2) none none = .ok A :=
  ⟨_, (circ_ok _ _ _ _ _ _ _ _).2 ⟨by simp, by simp, _, _, rfl, rfl⟩⟩
example : ∃ A, circAvgImage [0, 1, 3] [5, 7, 2] none none (1, 2) none none = .ok A :=
  ⟨_, (circ_ok _ _ _ _ _ _ _ _).2 ⟨by simp, by simp, _, _, rfl, rfl⟩⟩
example : Ascending [0, 1, 3] := by simp [Ascending]
/-- Radius 2 with intensity 9/2 between (1, 7) and (3, 2). -/
example : ((9 / 2 : ℝ)) * (3 - 1) = 7 * (3 - 2) + 2 * (2 - 1) := by norm_num

end Verif.Image.Laws
