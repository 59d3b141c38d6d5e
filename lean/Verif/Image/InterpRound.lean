/- C259: the interpolation of construct_circ_avg_image in floating point (skbeam/core/image.py 172). -/
import Verif.Image.Model
import Verif.FlReal
import Verif.Order.Bragg

namespace Verif.Image.Round
open Verif Verif.Image

/-! ### Model -/

/-- One element of `np.interp(x, xp, fp, left, right)`, image.py:172, with a rounding after every operation: the slope, its product with the distance from the last
knot not after x, and the sum; no arithmetic at the knots and outside.  The values are finite. -/
noncomputable def interpF (fl : ℝ → ℝ) (xp fp : List ℝ) (left right x : ℝ) : ℝ :=
  let k := xp.countP (fun a => decide (a ≤ x))
  if k = 0 then left
  else if k = xp.length then
    if (xp[k - 1]?).getD 0 < x then right else (fp[k - 1]?).getD 0
  else
    let x0 := (xp[k - 1]?).getD 0
    let y0 := (fp[k - 1]?).getD 0
    if x0 = x then y0 else fl (fl (fl (fl ((fp[k]?).getD 0 - y0) / fl ((xp[k]?).getD 0 - x0)) * fl (x - x0)) + y0)

/-- A pixel of `construct_circ_avg_image` at the (computed) distance r from the centre, image.py:172: right=0, left is the first intensity. -/
noncomputable def pixelF (fl : ℝ → ℝ) (radii intensities : List ℝ) (r : ℝ) : ℝ := interpF fl radii intensities ((intensities[0]?).getD 0) 0 r

/-! ### Specification -/

/-- The exact value: linear interpolation between the two neighbouring radii, the first intensity inside the first radius, 0 beyond the last. -/
noncomputable def Spec.profile (radii intensities : List ℝ) (r : ℝ) : ℝ := interpAt radii intensities ((intensities[0]?).getD 0) 0 r

/-! ### The last knot not after x -/

theorem countP_split (xp : List ℝ) (hs : xp.Pairwise (· < ·)) (x : ℝ) (j : ℕ) (hj : j < xp.length) :
    j < xp.countP (fun a => decide (a ≤ x)) ↔ xp[j] ≤ x := by
  induction xp generalizing j with
  | nil => simp at hj
  | cons a r ih =>
    obtain ⟨h1, h2⟩ := List.pairwise_cons.1 hs
    by_cases ha : a ≤ x
    · rw [List.countP_cons_of_pos (by simpa using ha)]
      cases j with
      | zero => simp [ha]
      | succ j =>
        have := ih h2 j (by simpa using hj)
        simp only [List.getElem_cons_succ]
        rw [← this]; omega
    · have h0 : (a :: r).countP (fun a => decide (a ≤ x)) = 0 := by
        rw [List.countP_eq_zero]
        intro b hb
        rcases List.mem_cons.1 hb with rfl | hb
        · simpa using ha
        · have := h1 b hb
          simp only [decide_eq_true_eq, not_le]
          push Not at ha
          linarith
      rw [h0]
      constructor
      · intro h; omega
      · intro h
        exfalso
        push Not at ha
        cases j with
        | zero => simp at h; linarith
        | succ j =>
          simp only [List.getElem_cons_succ] at h
          have := h1 _ (List.getElem_mem (show j < r.length by simpa using hj))
          linarith

/-! ### One interval -/

theorem slope_err {u : ℝ} (hu : u ≤ 1 / 1000000) {fl : ℝ → ℝ} (h : Fl.Spec.RelR u fl) (x0 x1 y0 y1 x : ℝ) (hx0 : x0 ≤ x) (hx1 : x ≤ x1) (hlt : x0 < x1) (V : ℝ) (h0V : |y0| ≤ V) (h1V : |y1| ≤ V) :
    |fl (fl (fl (fl (y1 - y0) / fl (x1 - x0)) * fl (x - x0)) + y0) - ((y1 - y0) / (x1 - x0) * (x - x0) + y0)| ≤ 12 * u * V := by
  have h0 := h.1
  have r1 := Order.Bragg.R.fl h (y1 - y0)
  have r2 := (Order.Bragg.R.fl h (x1 - x0)).inv (by linarith)
  have r3 := Order.Bragg.R.rnd h (r1.mul r2)
  have r4 := Order.Bragg.R.rnd h (r3.mul (Order.Bragg.R.fl h (x - x0)))
  rw [← div_eq_mul_inv, ← div_eq_mul_inv] at r4
  have hq : u / (1 - u) ≤ 1001 / 1000 * u := by
    rw [div_le_iff₀ (by linarith)]
    nlinarith
  have hq0 : 0 ≤ u / (1 - u) := div_nonneg h0 (by linarith)
  obtain ⟨q, hqe⟩ : ∃ q, q = u / (1 - u) := ⟨_, rfl⟩
  rw [← hqe] at r4 hq hq0
  have hb : u + (u + (u + q + u * q) + u * (u + q + u * q) + u + (u + (u + q + u * q) + u * (u + q + u * q)) * u) +
      u * (u + (u + q + u * q) + u * (u + q + u * q) + u + (u + (u + q + u * q) + u * (u + q + u * q)) * u) ≤ 501 / 100 * u := by
    have e1 : u * q ≤ u * (1001 / 1000 * u) := mul_le_mul_of_nonneg_left hq h0
    have e2 : u * u ≤ 1 / 1000000 * u := mul_le_mul_of_nonneg_right hu h0
    obtain ⟨a, ha⟩ : ∃ a, a = u + q + u * q := ⟨_, rfl⟩
    have ha1 : a ≤ 2002 / 1000 * u := by rw [ha]; nlinarith
    have ha0 : 0 ≤ a := by rw [ha]; positivity
    rw [← ha]
    have e3 : u * a ≤ u * (2002 / 1000 * u) := mul_le_mul_of_nonneg_left ha1 h0
    obtain ⟨b, hb⟩ : ∃ b, b = u + a + u * a := ⟨_, rfl⟩
    have hb1 : b ≤ 3003 / 1000 * u := by rw [hb]; nlinarith
    have hb0 : 0 ≤ b := by rw [hb]; positivity
    rw [← hb]
    have e4 : b * u ≤ 3003 / 1000 * u * u := mul_le_mul_of_nonneg_right hb1 h0
    obtain ⟨c, hc⟩ : ∃ c, c = b + u + b * u := ⟨_, rfl⟩
    have hc1 : c ≤ 4004 / 1000 * u := by rw [hc]; nlinarith
    rw [← hc]
    have e5 : u * c ≤ u * (4004 / 1000 * u) := mul_le_mul_of_nonneg_left hc1 h0
    nlinarith
  have r5 := (r4.mono hb).abs
  obtain ⟨P, hP⟩ : ∃ P, P = fl (fl (fl (y1 - y0) / fl (x1 - x0)) * fl (x - x0)) := ⟨_, rfl⟩
  obtain ⟨E, hE⟩ : ∃ E, E = (y1 - y0) / (x1 - x0) * (x - x0) := ⟨_, rfl⟩
  rw [← hP, ← hE] at r5 ⊢
  -- the exact value is a weighted mean
  obtain ⟨t, ht⟩ : ∃ t, t = (x - x0) / (x1 - x0) := ⟨_, rfl⟩
  have hd : 0 < x1 - x0 := by linarith
  have t0 : 0 ≤ t := by rw [ht]; exact div_nonneg (by linarith) hd.le
  have t1 : t ≤ 1 := by rw [ht, div_le_one hd]; linarith
  have hEt : E = t * (y1 - y0) := by rw [hE, ht]; ring
  obtain ⟨a1, a2⟩ := abs_le.1 h0V
  obtain ⟨b1, b2⟩ := abs_le.1 h1V
  have hV : 0 ≤ V := (abs_nonneg _).trans h0V
  have hEV : |E| ≤ 2 * V := by
    rw [hEt, abs_mul, abs_of_nonneg t0]
    have : |y1 - y0| ≤ 2 * V := abs_le.2 ⟨by linarith, by linarith⟩
    nlinarith [abs_nonneg (y1 - y0)]
  have hSV : |E + y0| ≤ V := by
    rw [hEt, abs_le]
    constructor <;> nlinarith
  have hr := h.2 (P + y0)
  have huV : 0 ≤ u * V := mul_nonneg h0 hV
  have r6 : |P - E| ≤ 1002 / 100 * (u * V) := by
    refine r5.trans ?_
    have := mul_le_mul_of_nonneg_left hEV (show 0 ≤ 501 / 100 * u by linarith)
    linarith
  have hPV : |P + y0| ≤ V + 1002 / 100 * (u * V) := by
    have := abs_add_le (P - E) (E + y0)
    rw [show P - E + (E + y0) = P + y0 by ring] at this
    linarith
  have hfin := abs_add_le (fl (P + y0) - (P + y0)) (P - E)
  rw [show fl (P + y0) - (P + y0) + (P - E) = fl (P + y0) - (E + y0) by ring] at hfin
  have h7 := mul_le_mul_of_nonneg_left hPV h0
  have h8 : u * (u * V) ≤ 1 / 1000000 * (u * V) := mul_le_mul_of_nonneg_right hu huV
  nlinarith

/-! ## C259 -/

/-- C259: every pixel is within 12 units of rounding of the exact value, in units of the largest intensity. -/
theorem C259_accurate (u : ℝ) (hu : u ≤ 1 / 1000000) (fl : ℝ → ℝ) (h : Fl.Spec.RelR u fl) (radii intensities : List ℝ) (hs : radii.Pairwise (· < ·)) (V : ℝ) (hV0 : 0 ≤ V)
    (hV : ∀ v ∈ intensities, |v| ≤ V) (r : ℝ) : |pixelF fl radii intensities r - Spec.profile radii intensities r| ≤ 12 * u * V := by
  have h0 := h.1
  have hz : (0 : ℝ) ≤ 12 * u * V := by positivity
  have hget : ∀ j : ℕ, |(intensities[j]?).getD 0| ≤ V := by
    intro j
    cases hj : intensities[j]? with
    | none => simpa using hV0
    | some v => exact hV v (List.mem_of_getElem? hj)
  unfold pixelF Spec.profile interpF interpAt
  obtain ⟨k, hk⟩ : ∃ k, k = radii.countP (fun a => decide (a ≤ r)) := ⟨_, rfl⟩
  rw [← hk]
  simp only
  split_ifs with k1 k2 k3 k4
  · rw [sub_self, abs_zero]; exact hz
  · rw [sub_self, abs_zero]; exact hz
  · rw [sub_self, abs_zero]; exact hz
  · rw [sub_self, abs_zero]; exact hz
  · have hkl : k < radii.length := lt_of_le_of_ne (by rw [hk]; exact List.countP_le_length) k2
    have g0 : (radii[k - 1]?).getD 0 = radii[k - 1] := by rw [List.getElem?_eq_getElem (by omega)]; rfl
    have g1 : (radii[k]?).getD 0 = radii[k] := by rw [List.getElem?_eq_getElem hkl]; rfl
    have c0 := (countP_split radii hs r (k - 1) (by omega)).1 (by omega)
    have c1 : ¬ radii[k] ≤ r := fun hc => by have := (countP_split radii hs r k hkl).2 hc; omega
    have hlt : radii[k - 1] < radii[k] := by linarith
    rw [g0, g1]
    exact slope_err hu h _ _ _ _ _ c0 (by linarith) hlt V (hget _) (hget _)

/-- C259: a pixel whose distance is one of the radii has exactly the intensity of that radius, one inside the first radius the first intensity, one beyond the last 0. -/
theorem C259_knots (fl : ℝ → ℝ) (radii intensities : List ℝ) (hs : radii.Pairwise (· < ·)) (hl : radii.length = intensities.length) :
    (∀ j (hj : j < radii.length), pixelF fl radii intensities radii[j] = intensities[j]) ∧
    (∀ r, (∀ a ∈ radii, r < a) → pixelF fl radii intensities r = (intensities[0]?).getD 0) ∧
    (∀ r, radii ≠ [] → (∀ a ∈ radii, a < r) → pixelF fl radii intensities r = 0) := by
  refine ⟨fun j hj => ?_, fun r hr => ?_, fun r hne hr => ?_⟩
  · have hk : radii.countP (fun a => decide (a ≤ radii[j])) = j + 1 := by
      have h1 := (countP_split radii hs radii[j] j hj).2 le_rfl
      by_contra hne
      have hk1 : j + 1 < radii.countP (fun a => decide (a ≤ radii[j])) := by omega
      have hlen : j + 1 < radii.length := lt_of_lt_of_le hk1 List.countP_le_length
      have := (countP_split radii hs radii[j] (j + 1) hlen).1 hk1
      have h2 := List.pairwise_iff_getElem.1 hs j (j + 1) hj hlen (by omega)
      linarith
    unfold pixelF interpF
    rw [hk]
    simp only [Nat.add_sub_cancel, List.getElem?_eq_getElem hj, Option.getD_some, lt_self_iff_false, if_false, if_true]
    rw [if_neg (by omega), List.getElem?_eq_getElem (by omega)]
    simp
  · unfold pixelF interpF
    have : radii.countP (fun a => decide (a ≤ r)) = 0 := by
      rw [List.countP_eq_zero]; intro a ha; simpa using hr a ha
    rw [this]; simp
  · unfold pixelF interpF
    have hk : radii.countP (fun a => decide (a ≤ r)) = radii.length := by
      rw [List.countP_eq_length]; intro a ha; simpa using (hr a ha).le
    have hp := List.length_pos_of_ne_nil hne
    rw [hk]
    simp only [if_true]
    rw [if_neg (by omega), List.getElem?_eq_getElem (by omega), Option.getD_some, if_pos (hr _ (List.getElem_mem _))]

/-- C259: between two neighbouring radii the image rises where the profile rises, for every monotone rounding that leaves the intensities alone. -/
theorem C259_monotone (fl : ℝ → ℝ) (hmono : ∀ a b, a ≤ b → fl a ≤ fl b) (hfl0 : fl 0 = 0) (radii intensities : List ℝ) (hs : radii.Pairwise (· < ·)) (hfix : ∀ v ∈ intensities, fl v = v)
    (hl : radii.length = intensities.length) (j : ℕ) (hj : j + 1 < radii.length) (hup : intensities[j] ≤ intensities[j + 1]) (r r' : ℝ) (h1 : radii[j] ≤ r) (h2 : r ≤ r') (h3 : r' < radii[j + 1]) :
    pixelF fl radii intensities r ≤ pixelF fl radii intensities r' := by
  have hk : ∀ r, radii[j] ≤ r → r < radii[j + 1] → radii.countP (fun a => decide (a ≤ r)) = j + 1 := by
    intro r a b
    have h1 := (countP_split radii hs r j (by omega)).2 a
    have h2 := fun hc => (countP_split radii hs r (j + 1) hj).1 hc
    by_contra hne
    have := h2 (by omega)
    linarith
  have nn : ∀ z, 0 ≤ z → 0 ≤ fl z := fun z hz => by rw [← hfl0]; exact hmono _ _ hz
  have hslope : 0 ≤ fl (fl (intensities[j + 1] - intensities[j]) / fl (radii[j + 1] - radii[j])) := by
    apply nn
    apply div_nonneg (nn _ (by linarith))
    apply nn
    linarith
  have hy : fl intensities[j] = intensities[j] := hfix _ (List.getElem_mem _)
  have ev : ∀ r, radii[j] ≤ r → r < radii[j + 1] → pixelF fl radii intensities r = if radii[j] = r then intensities[j] else
      fl (fl (fl (fl (intensities[j + 1] - intensities[j]) / fl (radii[j + 1] - radii[j])) * fl (r - radii[j])) + intensities[j]) := by
    intro r a b
    unfold pixelF interpF
    rw [hk r a b]
    simp only [Nat.add_sub_cancel, List.getElem?_eq_getElem (show j < radii.length by omega), List.getElem?_eq_getElem hj, List.getElem?_eq_getElem (show j < intensities.length by omega),
      List.getElem?_eq_getElem (show j + 1 < intensities.length by omega), Option.getD_some]
    rw [if_neg (by omega), if_neg (by omega)]
  rw [ev r h1 (by linarith), ev r' (by linarith) h3]
  split_ifs with e1 e2 e2
  · exact le_rfl
  · conv_lhs => rw [← hy]
    apply hmono
    have : 0 ≤ fl (fl (fl (intensities[j + 1] - intensities[j]) / fl (radii[j + 1] - radii[j])) * fl (r' - radii[j])) :=
      nn _ (mul_nonneg hslope (nn _ (by linarith)))
    linarith
  · exact absurd (le_antisymm h1 (by linarith)) e1
  · apply hmono
    have := hmono _ _ (mul_le_mul_of_nonneg_left (hmono (r - radii[j]) (r' - radii[j]) (by linarith)) hslope)
    linarith

/-- C259, where the claim fails: the profile 51 at radius 0.12 and 0 at radius 1.69 gives a negative pixel at the double before 1.69. -/
theorem C259_range_refuted : ∃ radii intensities : List ℝ, radii.Pairwise (· < ·) ∧ radii.length = intensities.length ∧ (∀ v ∈ radii ++ intensities, Fl.roundR v = v) ∧ (∀ v ∈ intensities, 0 ≤ v) ∧
    ∃ r, Fl.roundR r = r ∧ pixelF Fl.roundR radii intensities r < 0 := by
  have key : ∀ (q v : ℚ), Fl.round53 q = v → Fl.roundR (q : ℝ) = (v : ℝ) := fun q v h => by rw [Fl.roundR_rat, h]
  have fix : ∀ q : ℚ, Fl.round53 q = q → Fl.roundR (q : ℝ) = (q : ℝ) := fun q h => key q q h
  have a0 := fix (1080863910568919 / 9007199254740992) (by decide +kernel)
  have a1 := fix (3805541685128069 / 2251799813685248) (by decide +kernel)
  have a2 := fix 51 (by decide +kernel)
  have a3 := fix 0 (by decide +kernel)
  have a4 := fix (7611083370256137 / 4503599627370496) (by decide +kernel)
  have s1 := key (0 - 51) (-51) (by decide +kernel)
  have s2 := key ((3805541685128069 / 2251799813685248) - (1080863910568919 / 9007199254740992)) (3535325707485839 / 2251799813685248) (by decide +kernel)
  have s3 := key ((-51) / (3535325707485839 / 2251799813685248)) (-4571727328739955 / 140737488355328) (by decide +kernel)
  have s4 := key ((7611083370256137 / 4503599627370496) - (1080863910568919 / 9007199254740992)) (3535325707485839 / 2251799813685248) (by decide +kernel)
  have s5 := key ((-4571727328739955 / 140737488355328) * (3535325707485839 / 2251799813685248)) (-7177611906121729 / 140737488355328) (by decide +kernel)
  have s6 := key ((-7177611906121729 / 140737488355328) + 51) (-1 / 140737488355328) (by decide +kernel)
  push_cast at a0 a1 a2 a3 a4 s1 s2 s3 s4 s5 s6
  refine ⟨[(1080863910568919 / 9007199254740992), (3805541685128069 / 2251799813685248)], [51, 0], ?_, rfl, ?_, ?_, (7611083370256137 / 4503599627370496), a4, ?_⟩
  · simp; norm_num
  · intro v hv
    simp only [List.cons_append, List.nil_append, List.mem_cons, List.not_mem_nil, or_false] at hv
    rcases hv with rfl | rfl | rfl | rfl
    · exact a0
    · exact a1
    · exact a2
    · exact a3
  · intro v hv
    simp only [List.mem_cons, List.not_mem_nil, or_false] at hv
    rcases hv with rfl | rfl <;> norm_num
  · unfold pixelF interpF
    have hk : ([(1080863910568919 / 9007199254740992), (3805541685128069 / 2251799813685248)] : List ℝ).countP (fun a => decide (a ≤ (7611083370256137 / 4503599627370496))) = 1 := by
      rw [List.countP_cons_of_pos (by norm_num), List.countP_cons_of_neg (by norm_num)]
      simp
    rw [hk]
    simp only [List.length_cons, List.length_nil, Nat.sub_self, List.getElem?_cons_zero, List.getElem?_cons_succ, Option.getD_some]
    rw [if_neg (by norm_num), if_neg (by norm_num), if_neg (by norm_num), s1, s2, s3, s4, s5, s6]
    norm_num

/-- In double arithmetic: radii 1, 2, 4 and intensities 3, 4, -1. -/
example (r : ℝ) : |pixelF Fl.roundR [1, 2, 4] [3, 4, -1] r - Spec.profile [1, 2, 4] [3, 4, -1] r| ≤ 12 * (1 / 2 ^ 53) * 4 :=
  C259_accurate (1 / 2 ^ 53) (by norm_num) Fl.roundR Fl.roundR_rel [1, 2, 4] [3, 4, -1] (by simp; norm_num) 4 (by norm_num) (by simp; norm_num) r

example (r r' : ℝ) (h1 : 1 ≤ r) (h2 : r ≤ r') (h3 : r' < 2) : pixelF Fl.roundR [1, 2] [3, 4] r ≤ pixelF Fl.roundR [1, 2] [3, 4] r' := by
  have f : ∀ q : ℚ, Fl.round53 q = q → Fl.roundR (q : ℝ) = (q : ℝ) := fun q h => by rw [Fl.roundR_rat, h]
  have f0 := f 0 (by decide +kernel)
  have f3 := f 3 (by decide +kernel)
  have f4 := f 4 (by decide +kernel)
  push_cast at f0 f3 f4
  exact C259_monotone Fl.roundR (fun a b => Fl.roundR_mono a b) f0 [1, 2] [3, 4] (by simp) (by simp [f3, f4]) rfl 0 (by simp) (by simp; norm_num) r r' (by simpa using h1) h2 (by simpa using h3)

end Verif.Image.Round
