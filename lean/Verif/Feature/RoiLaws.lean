/- C253: relations between two calls of integrate_ROI (skbeam/core/spectroscopy.py 227-351). -/
import Verif.Feature.Simpson

namespace Verif.Feature
open Verif

/-! ### Specification -/

/-- A rule that is linear in the values, as every quadrature rule is. -/
def Spec.LinearRule (simps : List ℚ → List ℚ → ℚ) : Prop :=
  ∀ (k : ℚ) (y y' x : List ℚ), y.length = x.length → y'.length = x.length → simps (List.zipWith (fun a b => k * a + b) y y') x = k * simps y x + simps y' x

/-- A rule that counts lengths: in another unit and from another zero of x the integral is the one in that unit. -/
def Spec.ScaledRule (simps : List ℚ → List ℚ → ℚ) : Prop :=
  ∀ (a b : ℚ) (y x : List ℚ), 0 < a → y.length = x.length → simps y (x.map (fun u => a * u + b)) = a * simps y x

/-! ### Linearity -/

theorem zipWith_reverse' (f : ℚ → ℚ → ℚ) (y y' : List ℚ) (h : y.length = y'.length) : (List.zipWith f y y').reverse = List.zipWith f y.reverse y'.reverse := by
  rw [List.reverse_zipWith h]

theorem region_linear (k : ℚ) (x y y' : List ℚ) (lo hi : ℚ) :
    region x (List.zipWith (fun a b => k * a + b) y y') lo hi =
      (List.zipWith (fun a b => k * a + b) (region x y lo hi).1 (region x y' lo hi).1, (region x y lo hi).2) := by
  unfold region
  simp only [List.take_zipWith, List.drop_zipWith]

theorem region_len (x y : List ℚ) (h : x.length = y.length) (lo hi : ℚ) : (region x y lo hi).1.length = (region x y lo hi).2.length := by
  unfold region; simp [h]

theorem sum_linear (k : ℚ) (l : List (ℚ × ℚ)) (f g h : ℚ × ℚ → ℚ) (hf : ∀ p, f p = k * g p + h p) : (l.map f).sum = k * (l.map g).sum + (l.map h).sum := by
  induction l with
  | nil => simp
  | cons p l ih => simp only [List.map_cons, List.sum_cons, ih, hf]; ring

/-- C253: the integral is linear in the signal, and whether a call is an error does not depend on the signal's values. -/
theorem C253_linear (simps : List ℚ → List ℚ → ℚ) (hl : Spec.LinearRule simps) (k : ℚ) (x y y' xmin xmax : List ℚ) (h : y.length = y'.length) :
    integrateROI simps x (List.zipWith (fun a b => k * a + b) y y') xmin xmax =
      (do let v ← integrateROI simps x y xmin xmax
          let w ← integrateROI simps x y' xmin xmax
          pure (k * v + w)) := by
  by_cases hxy : x.length = y.length
  · have hlen : (List.zipWith (fun a b => k * a + b) y y').length = x.length := by simp [← h, hxy]
    unfold integrateROI
    rw [if_neg (not_not.2 hlen.symm), if_neg (not_not.2 hxy), if_neg (not_not.2 (hxy.trans h))]
    simp only
    split_ifs
    all_goals first
      | rfl
      | (simp only [bind, Except.bind, pure, Except.pure]
         congr 1
         apply sum_linear
         intro p
         first
           | rw [zipWith_reverse' _ _ _ h, region_linear]
             rw [show (region x.reverse y'.reverse p.1 p.2).2 = (region x.reverse y.reverse p.1 p.2).2 from rfl]
             exact hl k _ _ _ (region_len _ _ (by simp [hxy]) _ _) (region_len x.reverse y'.reverse (by simp [hxy, h]) _ _)
           | rw [region_linear]
             rw [show (region x y' p.1 p.2).2 = (region x y p.1 p.2).2 from rfl]
             exact hl k _ _ _ (region_len _ _ hxy _ _) (region_len x y' (hxy.trans h) _ _))
  · have hlen : x.length ≠ (List.zipWith (fun a b => k * a + b) y y').length := by simp [← h, hxy]
    unfold integrateROI
    rw [if_pos hlen, if_pos hxy]
    rfl

/-! ### Units -/

section
variable {a : ℚ} (b : ℚ) (ha : 0 < a)
include ha

theorem aff_lt (u v : ℚ) : a * u + b < a * v + b ↔ u < v := by
  constructor
  · intro h
    by_contra hc
    have := mul_le_mul_of_nonneg_left (not_lt.1 hc) ha.le
    linarith
  · intro h
    have := mul_lt_mul_of_pos_left h ha
    linarith

theorem aff_le (u v : ℚ) : a * u + b ≤ a * v + b ↔ u ≤ v := by
  rw [← not_lt, aff_lt b ha, not_lt]

theorem sameSign_aff (x : List ℚ) : sameSign (x.map (fun u => a * u + b)) = sameSign x := by
  unfold sameSign
  rw [← List.map_tail, List.zip_map]
  have hinj : ∀ u v : ℚ, a * u + b = a * v + b ↔ u = v := by
    intro u v
    constructor
    · intro h
      exact mul_left_cancel₀ ha.ne' (by linarith)
    · rintro rfl; rfl
  simp only [List.all_map, Function.comp_def, Prod.map_fst, Prod.map_snd, aff_lt b ha, hinj]

theorem region_aff (x y : List ℚ) (lo hi : ℚ) :
    region (x.map (fun u => a * u + b)) y (a * lo + b) (a * hi + b) = ((region x y lo hi).1, (region x y lo hi).2.map (fun u => a * u + b)) := by
  have hs : ∀ v, Np.searchsortedLeft (x.map (fun u => a * u + b)) (a * v + b) = Np.searchsortedLeft x v := by
    intro v
    unfold Np.searchsortedLeft
    rw [List.countP_map]
    simp only [Function.comp_def, aff_lt b ha]
  unfold region
  simp only [hs, List.map_take, List.map_drop]

end

/-- C253: x in another unit and counted from another zero, with the limits in the same unit, gives the integral in that unit, and the same errors. -/
theorem C253_units (simps : List ℚ → List ℚ → ℚ) (hs : Spec.ScaledRule simps) (a b : ℚ) (ha : 0 < a) (x y xmin xmax : List ℚ) :
    integrateROI simps (x.map (fun u => a * u + b)) y (xmin.map (fun u => a * u + b)) (xmax.map (fun u => a * u + b)) = (integrateROI simps x y xmin xmax).map (a * ·) := by
  unfold integrateROI
  by_cases hxy : x.length = y.length
  swap
  · rw [if_pos (by simpa using hxy), if_pos hxy]; rfl
  rw [if_neg (by simpa using hxy), if_neg (not_not.2 hxy)]
  by_cases h2 : x.length < 2
  · rw [if_pos (by simpa using h2), if_pos h2]; rfl
  rw [if_neg (by simpa using h2), if_neg h2, sameSign_aff b ha]
  by_cases hsg : sameSign x = false
  · rw [if_pos hsg, if_pos hsg]; rfl
  rw [if_neg hsg, if_neg hsg]
  have hdec : ((x.map (fun u => a * u + b)).getD 1 0 < (x.map (fun u => a * u + b)).getD 0 0) ↔ x.getD 1 0 < x.getD 0 0 := by
    match x, h2 with
    | p :: q :: t, _ => simpa using aff_lt b ha q p
    | [], h2 => simp at h2
    | [p], h2 => simp at h2
  simp only [hdec]
  obtain ⟨X, hX⟩ : ∃ X, X = if x.getD 1 0 < x.getD 0 0 then x.reverse else x := ⟨_, rfl⟩
  obtain ⟨Y, hY⟩ : ∃ Y, Y = if x.getD 1 0 < x.getD 0 0 then y.reverse else y := ⟨_, rfl⟩
  have hXne : X ≠ [] := by
    intro h0
    have : X.length = x.length := by rw [hX]; split_ifs <;> simp
    rw [h0] at this
    simp at this
    omega
  have hXY : X.length = Y.length := by rw [hX, hY]; split_ifs <;> simp [hxy]
  have hX2 : (if x.getD 1 0 < x.getD 0 0 then (x.map (fun u => a * u + b)).reverse else x.map (fun u => a * u + b)) = X.map (fun u => a * u + b) := by
    rw [hX]; split_ifs
    · rw [List.map_reverse]
    · rfl
  rw [hX2, ← hX, ← hY]
  have c1 : (xmin.map (fun u => a * u + b)).length = xmin.length := by simp
  have c2 : (xmax.map (fun u => a * u + b)).length = xmax.length := by simp
  have c3 : ((List.zip (xmin.map (fun u => a * u + b)) (xmax.map (fun u => a * u + b))).any (fun p => decide (p.2 ≤ p.1))) = (List.zip xmin xmax).any (fun p => decide (p.2 ≤ p.1)) := by
    rw [List.zip_map, List.any_map]
    simp only [Function.comp_def, Prod.map_fst, Prod.map_snd, aff_le b ha]
  have hh : (X.map (fun u => a * u + b)).headD 0 = a * X.headD 0 + b := by
    match X, hXne with
    | p :: t, _ => rfl
  have hg : (X.map (fun u => a * u + b)).getLastD 0 = a * X.getLastD 0 + b := by
    rcases List.eq_nil_or_concat X with h0 | ⟨t, p, h0⟩
    · exact absurd h0 hXne
    · rw [h0]; simp
  have c4 : ((xmin.map (fun u => a * u + b)).any (fun v => decide (v < (X.map (fun u => a * u + b)).headD 0))) = xmin.any (fun v => decide (v < X.headD 0)) := by
    rw [hh, List.any_map]
    simp only [Function.comp_def, aff_lt b ha]
  have c5 : ((xmax.map (fun u => a * u + b)).any (fun v => decide ((X.map (fun u => a * u + b)).getLastD 0 < v))) = xmax.any (fun v => decide (X.getLastD 0 < v)) := by
    rw [hg, List.any_map]
    simp only [Function.comp_def, aff_lt b ha]
  rw [c1, c2, c3, c4, c5]
  split_ifs
  all_goals first
    | rfl
    | (simp only [Except.map]
       congr 1
       rw [List.zip_map, List.map_map, ← List.sum_map_mul_left]
       congr 1
       apply List.map_congr_left
       intro p _
       simp only [Function.comp_def, Prod.map_fst, Prod.map_snd, region_aff b ha]
       exact hs a b _ _ ha (region_len X Y hXY _ _))

/-! ### Order of the regions, samples outside them -/

/-- C253: the order in which the regions are given does not matter. -/
theorem C253_order (simps : List ℚ → List ℚ → ℚ) (x y : List ℚ) (l l' : List (ℚ × ℚ)) (h : l.Perm l') :
    integrateROI simps x y (l.map Prod.fst) (l.map Prod.snd) = integrateROI simps x y (l'.map Prod.fst) (l'.map Prod.snd) := by
  have hz : ∀ l : List (ℚ × ℚ), List.zip (l.map Prod.fst) (l.map Prod.snd) = l := by
    intro l; induction l <;> simp_all
  have any_perm : ∀ {α : Type} (p : α → Bool) {u v : List α}, u.Perm v → u.any p = v.any p := by
    intro α p u v huv
    rw [Bool.eq_iff_iff, List.any_eq_true, List.any_eq_true]
    simp only [huv.mem_iff]
  unfold integrateROI
  simp only [hz, List.length_map]
  rw [any_perm _ h, any_perm _ (h.map Prod.fst), any_perm _ (h.map Prod.snd), (h.map _).sum_eq, h.length_eq]

/-- C253: signals that agree at the samples within the limits of each region have the same integral, if the upper limits are samples. -/
theorem C253_outside (simps : List ℚ → List ℚ → ℚ) (x y y' xmin xmax : List ℚ) (v : ℚ) (hx : x.Pairwise (· < ·)) (hxy : x.length = y.length) (hxy' : x.length = y'.length)
    (hm : ∀ u ∈ xmax, u ∈ x) (hag : ∀ p ∈ List.zip xmin xmax, Spec.within x y p.1 p.2 = Spec.within x y' p.1 p.2)
    (h : integrateROI simps x y xmin xmax = .ok v) : integrateROI simps x y' xmin xmax = .ok v := by
  have h2 : 2 ≤ x.length := by
    by_contra hc
    unfold integrateROI at h
    rw [if_neg (not_not.2 hxy), if_pos (by omega)] at h
    simp at h
  have hnd : ¬ x.getD 1 0 < x.getD 0 0 := by
    match x, h2, hx with
    | a :: b :: t, _, hx => simpa using ((List.pairwise_cons.1 hx).1 b (by simp)).le
  have hv := C99_sum_over_regions simps x y xmin xmax v h2 hx h
  unfold integrateROI at h ⊢
  rw [if_neg (not_not.2 hxy)] at h
  rw [if_neg (not_not.2 hxy')]
  simp only [if_neg hnd] at h ⊢
  split_ifs at h with g1 g2 g3 g4 g5 g6
  rw [if_neg g1, if_neg g2, if_neg g3, if_neg g4, if_neg g5, if_neg g6, hv]
  congr 2
  apply List.map_congr_left
  intro p hp
  have hlt : p.1 < p.2 := by
    by_contra hc
    exact g4 (List.any_eq_true.2 ⟨p, hp, by simpa using hc⟩)
  have hmem : p.2 ∈ x := hm _ (List.of_mem_zip (show (p.1, p.2) ∈ _ from hp)).2
  have r1 := C99_region_samples_partial x y hxy hx p.1 p.2 hlt hmem
  have r2 := C99_region_samples_partial x y' hxy' hx p.1 p.2 hlt hmem
  have e : (region x y p.1 p.2).1 = (region x y' p.1 p.2).1 := by
    have k1 : (List.zip (region x y p.1 p.2).2 (region x y p.1 p.2).1).map Prod.snd = (region x y p.1 p.2).1 := List.map_snd_zip (region_len x y hxy _ _).le
    have k2 : (List.zip (region x y' p.1 p.2).2 (region x y' p.1 p.2).1).map Prod.snd = (region x y' p.1 p.2).1 := List.map_snd_zip (region_len x y' hxy' _ _).le
    rw [← k1, ← k2, r1, r2]
    exact congrArg _ (hag p hp)
  rw [← e]
  rfl

/-! ### The hypotheses are met -/

theorem simpson_linear (k : ℚ) : ∀ (n : ℕ) (x y y' : List ℚ), x.length ≤ n → y.length = x.length → y'.length = x.length →
    Spec.simpson (List.zip x (List.zipWith (fun a b => k * a + b) y y')) = k * Spec.simpson (List.zip x y) + Spec.simpson (List.zip x y') := by
  intro n
  induction n with
  | zero =>
    intro x y y' hx _ _
    have : x = [] := List.length_eq_zero_iff.1 (by omega)
    subst this
    simp [Spec.simpson]
  | succ n ih =>
    intro x y y' hx hy hy'
    match x, y, y', hy, hy' with
    | [], _, _, _, _ => simp [Spec.simpson]
    | [a], [b], [c], _, _ => simp [Spec.simpson]
    | [a, a2], [b, b2], [c, c2], _, _ => simp [Spec.simpson]
    | a :: a2 :: a3 :: t, b :: b2 :: b3 :: s, c :: c2 :: c3 :: r, hy, hy' =>
      have := ih (a3 :: t) (b3 :: s) (c3 :: r) (by simp at hx ⊢; omega) (by simpa using hy) (by simpa using hy')
      simp only [List.zipWith_cons_cons, List.zip_cons_cons, Spec.simpson] at this ⊢
      rw [this]
      unfold Spec.triple
      simp only
      ring

theorem triple_aff (a b : ℚ) (ha : 0 < a) (p q r : ℚ × ℚ) : Spec.triple (a * p.1 + b, p.2) (a * q.1 + b, q.2) (a * r.1 + b, r.2) = a * Spec.triple p q r := by
  have ha' := ha.ne'
  unfold Spec.triple
  simp only
  rw [show a * r.1 + b - (a * p.1 + b) = a * (r.1 - p.1) by ring, show a * r.1 + b - (a * q.1 + b) = a * (r.1 - q.1) by ring,
    show a * q.1 + b - (a * p.1 + b) = a * (q.1 - p.1) by ring, mul_div_mul_left _ _ ha', mul_div_mul_left _ _ ha',
    show (a * (r.1 - p.1)) ^ 2 / (a * (q.1 - p.1) * (a * (r.1 - q.1))) = (r.1 - p.1) ^ 2 / ((q.1 - p.1) * (r.1 - q.1)) by
      rw [show (a * (r.1 - p.1)) ^ 2 = a ^ 2 * (r.1 - p.1) ^ 2 by ring, show a * (q.1 - p.1) * (a * (r.1 - q.1)) = a ^ 2 * ((q.1 - p.1) * (r.1 - q.1)) by ring,
        mul_div_mul_left _ _ (pow_ne_zero 2 ha')]]
  ring

theorem simpson_aff (a b : ℚ) (ha : 0 < a) : ∀ (n : ℕ) (l : List (ℚ × ℚ)), l.length ≤ n →
    Spec.simpson (l.map (fun p => (a * p.1 + b, p.2))) = a * Spec.simpson l := by
  intro n
  induction n with
  | zero =>
    intro l hl
    have : l = [] := List.length_eq_zero_iff.1 (by omega)
    subst this
    simp [Spec.simpson]
  | succ n ih =>
    intro l hl
    match l with
    | [] => simp [Spec.simpson]
    | [p] => simp [Spec.simpson]
    | [p, q] => simp [Spec.simpson]
    | p :: q :: r :: t =>
      have := ih (r :: t) (by simp at hl ⊢; omega)
      simp only [List.map_cons, Spec.simpson] at this ⊢
      rw [this, triple_aff a b ha]
      ring

/-- Simpson's composite rule is such a rule. -/
theorem simpson_rule : Spec.LinearRule (fun y x => Spec.simpson (List.zip x y)) ∧ Spec.ScaledRule (fun y x => Spec.simpson (List.zip x y)) := by
  constructor
  · intro k y y' x hy hy'
    exact simpson_linear k x.length x y y' le_rfl hy hy'
  · intro a b y x ha hy
    have := simpson_aff a b ha _ (List.zip x y) le_rfl
    dsimp only
    rw [← this]
    congr 1
    rw [show (fun p : ℚ × ℚ => (a * p.1 + b, p.2)) = Prod.map (fun u => a * u + b) id from rfl, ← List.zip_map, List.map_id]

/-- Two regions with a change of unit, a superposition and a sample outside the regions. -/
example : integrateROI (fun y x => Spec.simpson (List.zip x y)) [0, 1, 3, 4, 6, 7] [0, 1, 9, 16, 36, 5] [0, 3] [3, 6] = .ok 72 ∧
    integrateROI (fun y x => Spec.simpson (List.zip x y)) [5, 7, 11, 13, 17, 19] [0, 1, 9, 16, 36, 8] [11, 5] [17, 11] = .ok 144 := by decide +kernel

end Verif.Feature
