/- C250: laws of the peak refinement (skbeam/core/feature.py 142-217, fitting/funcs.py 6-44) and of find_largest_peak and align_and_scale
(skbeam/core/spectroscopy.py 51-139): relations between calls. -/
import Verif.Feature.SpecProps
import Verif.Feature.Lstsq

namespace Verif.Feature.Laws
open Verif Verif.Feature

/-! ### Specification -/

/-- The squared deviation of the samples from the parabola with curvature w and vertex (c, h). -/
noncomputable def Spec.misfit (x y : List ℝ) (w c h : ℝ) : ℝ := (List.zipWith (fun u v => (w * (u - c) ^ 2 + h - v) ^ 2) x y).sum

/-- The same numbers in other units and counted from another zero. -/
noncomputable def Spec.affine (a c : ℝ) (x : List ℝ) : List ℝ := x.map (fun u => a * u + c)

/-! ### The least-squares parabola is unique -/

theorem sse_mid (x y : List ℝ) (b b' : ℝ × ℝ × ℝ) :
    sse x y b + sse x y b' = 2 * sse x y ((b.1 + b'.1) / 2, (b.2.1 + b'.2.1) / 2, (b.2.2 + b'.2.2) / 2) +
      (List.zipWith (fun u _ => ((b.1 - b'.1) * u ^ 2 + (b.2.1 - b'.2.1) * u + (b.2.2 - b'.2.2)) ^ 2) x y).sum / 2 := by
  unfold sse
  induction x generalizing y with
  | nil => simp
  | cons u t ih =>
    cases y with
    | nil => simp
    | cons v s =>
      simp only [List.zipWith_cons_cons, List.sum_cons]
      linear_combination ih s

theorem zipWith_zip {α β γ : Type} (f : α → β → γ) (x : List α) (y : List β) : List.zipWith f x y = (List.zip x y).map (fun p => f p.1 p.2) := by
  induction x generalizing y with
  | nil => rfl
  | cons u t ih =>
    cases y with
    | nil => rfl
    | cons v s => simp [ih s]

theorem mem_zip_left {x y : List ℝ} (h : x.length = y.length) {u : ℝ} (hu : u ∈ x) (f : ℝ → ℝ) : f u ∈ List.zipWith (fun u _ => f u) x y := by
  obtain ⟨i, hi, rfl⟩ := List.getElem_of_mem hu
  rw [List.mem_iff_getElem]
  exact ⟨i, by simp; omega, by simp⟩

theorem lstsq_unique {x y : List ℝ} (h3 : Spec.ThreePoints x) (hlen : x.length = y.length) (b b' : ℝ × ℝ × ℝ) (hb : ∀ q, sse x y b ≤ sse x y q)
    (hb' : ∀ q, sse x y b' ≤ sse x y q) : b = b' := by
  have e := sse_mid x y b b'
  have m1 := hb ((b.1 + b'.1) / 2, (b.2.1 + b'.2.1) / 2, (b.2.2 + b'.2.2) / 2)
  have m2 := hb' ((b.1 + b'.1) / 2, (b.2.1 + b'.2.1) / 2, (b.2.2 + b'.2.2) / 2)
  have hz := sum_sq_zero (List.zipWith (fun u _ => ((b.1 - b'.1) * u ^ 2 + (b.2.1 - b'.2.1) * u + (b.2.2 - b'.2.2)) ^ 2) x y) (by
    intro v hv
    obtain ⟨i, hi, rfl⟩ := List.getElem_of_mem hv
    rw [List.getElem_zipWith]
    positivity) (by linarith)
  have hpt : ∀ u ∈ x, (b.1 - b'.1) * u ^ 2 + (b.2.1 - b'.2.1) * u + (b.2.2 - b'.2.2) = 0 := by
    intro u hu
    exact pow_eq_zero_iff two_ne_zero |>.1 (hz _ (mem_zip_left hlen hu (fun u => ((b.1 - b'.1) * u ^ 2 + (b.2.1 - b'.2.1) * u + (b.2.2 - b'.2.2)) ^ 2)))
  obtain ⟨u, hu, v, hv, w, hw, n1, n2, n3⟩ := h3
  obtain ⟨q1, q2, q3⟩ := quad_unique _ _ _ u v w n1 n2 n3 (hpt u hu) (hpt v hv) (hpt w hw)
  exact Prod.ext (by linarith) (Prod.ext (by linarith) (by linarith))

/-- C250: which least-squares solver is used does not matter. -/
theorem C250_solver (lstsq lstsq' : List ℝ → List ℝ → ℝ × ℝ × ℝ) (hl : IsLstsq lstsq) (hl' : IsLstsq lstsq') (x y : List ℝ) (h3 : Spec.ThreePoints x)
    (hlen : x.length = y.length) (rval : Option ℝ) :
    refineQuadratic lstsq rval x y = refineQuadratic lstsq' rval x y ∧ refineLogQuadratic lstsq rval x y = refineLogQuadratic lstsq' rval x y := by
  have key : ∀ z : List ℝ, x.length = z.length → fitQuadToPeak lstsq x z = fitQuadToPeak lstsq' x z := by
    intro z hz
    unfold fitQuadToPeak
    rw [lstsq_unique h3 hz _ _ (hl x z) (hl' x z)]
  unfold refineQuadratic refineLogQuadratic
  rw [key y hlen, key (y.map Real.log) (by simpa using hlen)]
  exact ⟨rfl, rfl⟩

/-! ### The best parabola and its quality -/

theorem vertex (b : ℝ × ℝ × ℝ) (h : b.1 ≠ 0) (u : ℝ) :
    b.1 * (u - -b.2.1 / (2 * b.1)) ^ 2 + (b.2.2 - b.1 * (b.2.1 / (2 * b.1)) ^ 2) = b.1 * u ^ 2 + b.2.1 * u + b.2.2 := by
  field_simp
  ring

/-- C250: the parabola reported (curvature w, vertex (c, h)) deviates from the samples, in the sum of squares, no more than any other parabola. -/
theorem C250_best (lstsq : List ℝ → List ℝ → ℝ × ℝ × ℝ) (hl : IsLstsq lstsq) (x y : List ℝ) (w c h r2 : ℝ)
    (hfit : fitQuadToPeak lstsq x y = .ok ((w, c, h), r2)) (hw : w ≠ 0) (w' c' h' : ℝ) : Spec.misfit x y w c h ≤ Spec.misfit x y w' c' h' := by
  unfold fitQuadToPeak at hfit
  by_cases h3 : x.length < 3
  · rw [if_pos h3] at hfit
    exact absurd hfit (by simp)
  rw [if_neg h3] at hfit
  simp only [Except.ok.injEq, Prod.mk.injEq] at hfit
  obtain ⟨⟨rfl, rfl, rfl⟩, -⟩ := hfit
  have e1 : Spec.misfit x y (lstsq x y).1 (-(lstsq x y).2.1 / (2 * (lstsq x y).1)) ((lstsq x y).2.2 - (lstsq x y).1 * ((lstsq x y).2.1 / (2 * (lstsq x y).1)) ^ 2) =
      sse x y (lstsq x y) := by
    unfold Spec.misfit sse
    simp only [vertex _ hw]
  have e2 : Spec.misfit x y w' c' h' = sse x y (w', -2 * w' * c', w' * c' ^ 2 + h') := by
    unfold Spec.misfit sse
    congr 2
    funext u v
    ring
  rw [e1, e2]
  exact hl x y _

theorem sse_nonneg (x y : List ℝ) (b : ℝ × ℝ × ℝ) : 0 ≤ sse x y b := by
  unfold sse
  apply List.sum_nonneg
  intro v hv
  obtain ⟨i, hi, rfl⟩ := List.getElem_of_mem hv
  rw [List.getElem_zipWith]
  positivity

theorem sse_const (x y : List ℝ) (h : x.length = y.length) (m : ℝ) : sse x y (0, 0, m) = (y.map (fun v => (v - m) ^ 2)).sum := by
  unfold sse
  induction x generalizing y with
  | nil =>
    cases y with
    | nil => rfl
    | cons v s => simp at h
  | cons u t ih =>
    cases y with
    | nil => simp at h
    | cons v s =>
      simp only [List.zipWith_cons_cons, List.sum_cons, List.map_cons]
      rw [ih s (by simpa using h)]
      ring

/-- C250: the R^2 compared with the threshold lies between 0 and 1 for samples that are not all equal, and is 1 exactly if all samples lie on the parabola. -/
theorem C250_quality (lstsq : List ℝ → List ℝ → ℝ × ℝ × ℝ) (hl : IsLstsq lstsq) (x y : List ℝ) (hlen : x.length = y.length) (hne : ∃ u ∈ y, ∃ v ∈ y, u ≠ v)
    (w c h r2 : ℝ) (hfit : fitQuadToPeak lstsq x y = .ok ((w, c, h), r2)) (hw : w ≠ 0) :
    0 ≤ r2 ∧ r2 ≤ 1 ∧ (r2 = 1 ↔ ∀ p ∈ List.zip x y, p.2 = w * (p.1 - c) ^ 2 + h) := by
  unfold fitQuadToPeak at hfit
  by_cases h3 : x.length < 3
  · rw [if_pos h3] at hfit
    exact absurd hfit (by simp)
  rw [if_neg h3] at hfit
  simp only [Except.ok.injEq, Prod.mk.injEq] at hfit
  obtain ⟨⟨rfl, rfl, rfl⟩, rfl⟩ := hfit
  obtain ⟨m, hm⟩ : ∃ m, m = y.sum / y.length := ⟨_, rfl⟩
  rw [← hm]
  have hS : 0 < (y.map (fun v => (v - m) ^ 2)).sum := by
    by_contra hc
    have hz := sum_sq_zero (y.map (fun v => (v - m) ^ 2)) (by
      intro v hv
      obtain ⟨u, _, rfl⟩ := List.mem_map.1 hv
      positivity) (not_lt.1 hc)
    obtain ⟨u, hu, v, hv, huv⟩ := hne
    have e1 := pow_eq_zero_iff two_ne_zero |>.1 (hz _ (List.mem_map.2 ⟨u, hu, rfl⟩))
    have e2 := pow_eq_zero_iff two_ne_zero |>.1 (hz _ (List.mem_map.2 ⟨v, hv, rfl⟩))
    exact huv (by linarith)
  have hle := hl x y (0, 0, m)
  rw [sse_const x y hlen] at hle
  have h0 := sse_nonneg x y (lstsq x y)
  have hq0 : 0 ≤ sse x y (lstsq x y) / (y.map (fun v => (v - m) ^ 2)).sum := div_nonneg h0 hS.le
  refine ⟨sub_nonneg.2 ((div_le_one hS).2 hle), by linarith, ?_⟩
  rw [sub_eq_self, div_eq_zero_iff, or_iff_left hS.ne']
  simp only [vertex _ hw]
  unfold sse
  rw [zipWith_zip]
  constructor
  · intro hz p hp
    have := sum_sq_zero _ (by
      intro v hv
      obtain ⟨q, _, rfl⟩ := List.mem_map.1 hv
      positivity) hz.le _ (List.mem_map.2 ⟨p, hp, rfl⟩)
    have := pow_eq_zero_iff two_ne_zero |>.1 this
    linarith
  · intro hz
    apply List.sum_eq_zero
    intro v hv
    obtain ⟨p, hp, rfl⟩ := List.mem_map.1 hv
    rw [hz p hp]
    ring

/-! ### Order of the samples -/

theorem fit_perm (lstsq : List ℝ → List ℝ → ℝ × ℝ × ℝ) (hl : IsLstsq lstsq) (x y x' y' : List ℝ) (h3 : Spec.ThreePoints x) (hlen : x.length = y.length)
    (hlen' : x'.length = y'.length) (hp : (List.zip x y).Perm (List.zip x' y')) : fitQuadToPeak lstsq x' y' = fitQuadToPeak lstsq x y := by
  have hs : ∀ b, sse x' y' b = sse x y b := by
    intro b
    unfold sse
    rw [zipWith_zip, zipWith_zip]
    exact ((hp.map _).sum_eq).symm
  have hx : x.Perm x' := by
    have := hp.map Prod.fst
    rwa [List.map_fst_zip hlen.le, List.map_fst_zip hlen'.le] at this
  have hy : y.Perm y' := by
    have := hp.map Prod.snd
    rwa [List.map_snd_zip hlen.ge, List.map_snd_zip hlen'.ge] at this
  have hb : lstsq x' y' = lstsq x y := by
    apply lstsq_unique h3 hlen
    · intro q
      have := hl x' y' q
      rwa [hs, hs] at this
    · exact hl x y
  unfold fitQuadToPeak
  simp only [hb, hs, ← hx.length_eq, ← hy.length_eq, ← hy.sum_eq, ← (hy.map (fun v => (v - y.sum / y.length) ^ 2)).sum_eq]

/-- C250: the order in which the samples are listed does not matter. -/
theorem C250_order (lstsq : List ℝ → List ℝ → ℝ × ℝ × ℝ) (hl : IsLstsq lstsq) (x y x' y' : List ℝ) (h3 : Spec.ThreePoints x) (hlen : x.length = y.length)
    (hlen' : x'.length = y'.length) (hp : (List.zip x y).Perm (List.zip x' y')) (rval : Option ℝ) :
    refineQuadratic lstsq rval x' y' = refineQuadratic lstsq rval x y ∧ refineLogQuadratic lstsq rval x' y' = refineLogQuadratic lstsq rval x y := by
  have hlog : (List.zip x (y.map Real.log)).Perm (List.zip x' (y'.map Real.log)) := by
    rw [List.zip_map_right, List.zip_map_right]
    exact hp.map _
  unfold refineQuadratic refineLogQuadratic
  rw [fit_perm lstsq hl x y x' y' h3 hlen hlen' hp, fit_perm lstsq hl x _ x' _ h3 (by simpa using hlen) (by simpa using hlen') hlog]
  exact ⟨rfl, rfl⟩

/-! ### Units and zeros -/

theorem three_affine {x : List ℝ} (h : Spec.ThreePoints x) (a c : ℝ) (ha : a ≠ 0) : Spec.ThreePoints (Spec.affine a c x) := by
  obtain ⟨u, hu, v, hv, w, hw, n1, n2, n3⟩ := h
  have hinj : ∀ p q : ℝ, p ≠ q → a * p + c ≠ a * q + c := fun p q hpq he => hpq (mul_left_cancel₀ ha (by linarith))
  exact ⟨_, List.mem_map.2 ⟨u, hu, rfl⟩, _, List.mem_map.2 ⟨v, hv, rfl⟩, _, List.mem_map.2 ⟨w, hw, rfl⟩, hinj _ _ n1, hinj _ _ n2, hinj _ _ n3⟩

/-- The parabola in the other units. -/
noncomputable def turn (a c k h : ℝ) (b : ℝ × ℝ × ℝ) : ℝ × ℝ × ℝ :=
  (k * b.1 / a ^ 2, k * (b.2.1 / a - 2 * b.1 * c / a ^ 2), k * (b.2.2 - b.2.1 * c / a + b.1 * c ^ 2 / a ^ 2) + h)

theorem sse_turn (a c k h : ℝ) (ha : a ≠ 0) (x y : List ℝ) (b : ℝ × ℝ × ℝ) :
    sse (Spec.affine a c x) (Spec.affine k h y) (turn a c k h b) = k ^ 2 * sse x y b := by
  unfold sse Spec.affine turn
  rw [List.zipWith_map, zipWith_zip, zipWith_zip, ← List.sum_map_mul_left]
  congr 1
  apply List.map_congr_left
  intro p _
  field_simp
  ring

theorem turn_surj (a c k h : ℝ) (ha : a ≠ 0) (hk : k ≠ 0) (q : ℝ × ℝ × ℝ) : ∃ b, turn a c k h b = q := by
  obtain ⟨q1, q2, q3⟩ := q
  refine ⟨(q1 * a ^ 2 / k, (q2 + 2 * q1 * c) * a / k, (q3 - h + q2 * c + q1 * c ^ 2) / k), ?_⟩
  unfold turn
  refine Prod.ext ?_ (Prod.ext ?_ ?_) <;> dsimp only <;> field_simp <;> ring

theorem lstsq_turn (lstsq : List ℝ → List ℝ → ℝ × ℝ × ℝ) (hl : IsLstsq lstsq) (x y : List ℝ) (h3 : Spec.ThreePoints x) (hlen : x.length = y.length)
    (a c k h : ℝ) (ha : a ≠ 0) (hk : k ≠ 0) : lstsq (Spec.affine a c x) (Spec.affine k h y) = turn a c k h (lstsq x y) := by
  apply lstsq_unique (three_affine h3 a c ha) (by simpa [Spec.affine] using hlen) _ _ (hl _ _)
  intro q
  obtain ⟨b, rfl⟩ := turn_surj a c k h ha hk q
  rw [sse_turn a c k h ha, sse_turn a c k h ha]
  exact mul_le_mul_of_nonneg_left (hl x y b) (sq_nonneg k)

theorem mean_affine (k h : ℝ) (y : List ℝ) (hy : y ≠ []) : (Spec.affine k h y).sum / (Spec.affine k h y).length = k * (y.sum / y.length) + h := by
  have hpos : (y.length : ℝ) ≠ 0 := by
    have := List.length_pos_iff.2 hy
    positivity
  unfold Spec.affine
  rw [List.sum_map_add, List.sum_map_mul_left, List.length_map]
  simp only [List.map_const', List.sum_replicate, nsmul_eq_mul]
  field_simp
  simp

theorem fit_affine (lstsq : List ℝ → List ℝ → ℝ × ℝ × ℝ) (hl : IsLstsq lstsq) (x y : List ℝ) (h3 : Spec.ThreePoints x) (hlen : x.length = y.length)
    (a c k h : ℝ) (ha : a ≠ 0) (hk : k ≠ 0) (w p t r2 : ℝ) (hw : w ≠ 0) (hfit : fitQuadToPeak lstsq x y = .ok ((w, p, t), r2)) :
    fitQuadToPeak lstsq (Spec.affine a c x) (Spec.affine k h y) = .ok ((k * w / a ^ 2, a * p + c, k * t + h), r2) := by
  have hx3 := three_length x h3
  have hy : y ≠ [] := by
    intro e
    rw [e] at hlen
    simp at hlen
    rw [hlen] at hx3
    simp at hx3
  unfold fitQuadToPeak at hfit ⊢
  rw [if_neg (by omega)] at hfit
  rw [if_neg (by simp [Spec.affine]; omega)]
  simp only [Except.ok.injEq, Prod.mk.injEq] at hfit
  obtain ⟨⟨rfl, rfl, rfl⟩, rfl⟩ := hfit
  simp only [mean_affine k h y hy]
  rw [lstsq_turn lstsq hl x y h3 hlen a c k h ha hk, sse_turn a c k h ha]
  have hS : ((Spec.affine k h y).map (fun v => (v - (k * (y.sum / y.length) + h)) ^ 2)).sum = k ^ 2 * (y.map (fun v => (v - y.sum / y.length) ^ 2)).sum := by
    unfold Spec.affine
    rw [List.map_map, ← List.sum_map_mul_left]
    congr 1
    apply List.map_congr_left
    intro v _
    simp only [Function.comp_apply]
    ring
  rw [hS, mul_div_mul_left _ _ (pow_ne_zero 2 hk)]
  obtain ⟨b, hb⟩ : ∃ b, b = lstsq x y := ⟨_, rfl⟩
  rw [← hb] at hw ⊢
  unfold turn
  dsimp only
  congr 3
  · congr 1
    · field_simp
      ring
    · field_simp
      ring

/-- C250: abscissae and ordinates in other units and from other zeros give the refined peak in these units (and the same decision about rejection). -/
theorem C250_affine (lstsq : List ℝ → List ℝ → ℝ × ℝ × ℝ) (hl : IsLstsq lstsq) (x y : List ℝ) (h3 : Spec.ThreePoints x) (hlen : x.length = y.length)
    (a c k h : ℝ) (ha : a ≠ 0) (hk : k ≠ 0) (w p t r2 : ℝ) (hw : w ≠ 0) (hfit : fitQuadToPeak lstsq x y = .ok ((w, p, t), r2)) (rval : Option ℝ)
    (r : Option (ℝ × ℝ)) (hr : refineQuadratic lstsq rval x y = .ok r) :
    refineQuadratic lstsq rval (Spec.affine a c x) (Spec.affine k h y) = .ok (r.map (fun q => (a * q.1 + c, k * q.2 + h))) := by
  unfold refineQuadratic at hr ⊢
  rw [hfit] at hr
  rw [fit_affine lstsq hl x y h3 hlen a c k h ha hk w p t r2 hw hfit, ← Except.ok.inj hr]
  cases rval with
  | none => rfl
  | some q =>
    simp only []
    split_ifs <;> rfl

theorem log_scale (y : List ℝ) (hy : ∀ v ∈ y, 0 < v) (k : ℝ) (hk : 0 < k) : (y.map (k * ·)).map Real.log = Spec.affine 1 (Real.log k) (y.map Real.log) := by
  unfold Spec.affine
  rw [List.map_map, List.map_map]
  apply List.map_congr_left
  intro v hv
  simp only [Function.comp_apply]
  rw [Real.log_mul hk.ne' (hy v hv).ne']
  ring

/-- C250, logarithmic refinement: abscissae in other units and from another zero, and intensities k times as large, give the peak in these units. -/
theorem C250_log_affine (lstsq : List ℝ → List ℝ → ℝ × ℝ × ℝ) (hl : IsLstsq lstsq) (x y : List ℝ) (h3 : Spec.ThreePoints x) (hlen : x.length = y.length)
    (hy : ∀ v ∈ y, 0 < v) (a c k : ℝ) (ha : a ≠ 0) (hk : 0 < k) (w p t r2 : ℝ) (hw : w ≠ 0) (hfit : fitQuadToPeak lstsq x (y.map Real.log) = .ok ((w, p, t), r2))
    (rval : Option ℝ) (r : Option (ℝ × ℝ)) (hr : refineLogQuadratic lstsq rval x y = .ok r) :
    refineLogQuadratic lstsq rval (Spec.affine a c x) (y.map (k * ·)) = .ok (r.map (fun q => (a * q.1 + c, k * q.2))) := by
  unfold refineLogQuadratic at hr ⊢
  rw [hfit] at hr
  rw [log_scale y hy k hk, fit_affine lstsq hl x _ h3 (by simpa using hlen) a c 1 (Real.log k) ha one_ne_zero w p t r2 hw hfit, ← Except.ok.inj hr]
  have e : Real.exp (1 * t + Real.log k) = k * Real.exp t := by
    rw [one_mul, Real.exp_add, Real.exp_log hk, mul_comm]
  cases rval with
  | none =>
    simp only [e]
    rfl
  | some q =>
    simp only [e]
    split_ifs <;> rfl

theorem argmax_scale (k : ℝ) (hk : 0 < k) (y : List ℝ) : argmax (y.map (k * ·)) = argmax y := by
  unfold argmax
  rw [List.findIdx_map]
  congr 1
  funext v
  simp only [Function.comp_apply, List.forall_mem_map, mul_le_mul_iff_right₀ hk]

theorem nodup_three (x : List ℝ) (hx : x.Nodup) (h : ¬ x.length < 3) : Spec.ThreePoints x := by
  have h3 : 3 ≤ x.length := by omega
  refine ⟨x[0], List.getElem_mem _, x[1], List.getElem_mem _, x[2], List.getElem_mem _, ?_, ?_, ?_⟩ <;>
  · intro e
    have := (List.Nodup.getElem_inj_iff hx).1 e
    omega

theorem pySlice_sublist {α : Type} (l : List α) (a b : ℤ) : List.Sublist (pySlice l a b) l := by
  unfold pySlice
  exact (List.drop_sublist _ _).trans (List.take_sublist _ _)

theorem pySlice_length {α β : Type} (l : List α) (m : List β) (h : l.length = m.length) (a b : ℤ) : (pySlice l a b).length = (pySlice m a b).length := by
  unfold pySlice
  simp [h]

/-- find_largest_peak with its window given (skbeam/core/spectroscopy.py:91-139). -/
noncomputable def windowed (lstsq : List ℝ → List ℝ → ℝ × ℝ × ℝ) (x y : List ℝ) (lo hi : ℤ) : Py (ℝ × ℝ × ℝ) :=
  match fitQuadToPeak lstsq (pySlice x lo hi) ((pySlice y lo hi).map Real.log) with
  | .error e => .error e
  | .ok (beta, _) => .ok (beta.2.1, Real.exp beta.2.2, 1 / √(-2 * beta.1))

theorem windowed_affine (lstsq : List ℝ → List ℝ → ℝ × ℝ × ℝ) (hl : IsLstsq lstsq) (x y : List ℝ) (hx : x.Nodup) (hlen : x.length = y.length) (hy : ∀ v ∈ y, 0 < v)
    (lo hi : ℤ) (c H s : ℝ) (hr : windowed lstsq x y lo hi = .ok (c, H, s)) (hs : s ≠ 0) (a b k : ℝ) (ha : a ≠ 0) (hk : 0 < k) :
    windowed lstsq (Spec.affine a b x) (y.map (k * ·)) lo hi = .ok (a * c + b, k * H, |a| * s) := by
  unfold windowed at hr ⊢
  have h3 : Spec.ThreePoints (pySlice x lo hi) := by
    apply nodup_three _ (hx.sublist (pySlice_sublist x lo hi))
    intro hc
    unfold fitQuadToPeak at hr
    rw [if_pos hc] at hr
    exact absurd hr (by simp)
  have hyp : ∀ v ∈ pySlice y lo hi, 0 < v := fun v hv => hy v ((pySlice_sublist y lo hi).subset hv)
  have hl2 : (pySlice x lo hi).length = ((pySlice y lo hi).map Real.log).length := by
    rw [List.length_map]
    exact pySlice_length x y hlen lo hi
  obtain ⟨⟨⟨w, p, t⟩, r2⟩, hfit⟩ : ∃ r, fitQuadToPeak lstsq (pySlice x lo hi) ((pySlice y lo hi).map Real.log) = .ok r := by
    unfold fitQuadToPeak
    rw [if_neg (by have := three_length _ h3; omega)]
    exact ⟨_, rfl⟩
  rw [hfit] at hr
  simp only [Except.ok.injEq, Prod.mk.injEq] at hr
  obtain ⟨rfl, rfl, rfl⟩ := hr
  have hw : w ≠ 0 := by
    rintro rfl
    apply hs
    simp
  have haff : pySlice (Spec.affine a b x) lo hi = Spec.affine a b (pySlice x lo hi) := pySlice_map _ x lo hi
  rw [haff, pySlice_map (k * ·) y lo hi, log_scale _ hyp k hk, fit_affine lstsq hl _ _ h3 hl2 a b 1 (Real.log k) ha one_ne_zero w p t r2 hw hfit]
  have e1 : Real.exp (1 * t + Real.log k) = k * Real.exp t := by
    rw [one_mul, Real.exp_add, Real.exp_log hk, mul_comm]
  have e2 : 1 / √(-2 * (1 * w / a ^ 2)) = |a| * (1 / √(-2 * w)) := by
    rw [show -2 * (1 * w / a ^ 2) = -2 * w / a ^ 2 by ring, Real.sqrt_div' _ (sq_nonneg a), Real.sqrt_sq_eq_abs]
    rw [one_div_div, mul_one_div]
  simp only [e1, e2]

/-- C250: find_largest_peak in other units: energies a e + b and counts k times as large give the centre a c + b, the height k H and the width |a| s. -/
theorem C250_largest (lstsq : List ℝ → List ℝ → ℝ × ℝ × ℝ) (hl : IsLstsq lstsq) (x y : List ℝ) (hx : x.Nodup) (hlen : x.length = y.length) (hy : ∀ v ∈ y, 0 < v)
    (window : Option ℕ) (c H s : ℝ) (hr : findLargestPeak lstsq x y window = .ok (c, H, s)) (hs : s ≠ 0) (a b k : ℝ) (ha : a ≠ 0) (hk : 0 < k) :
    findLargestPeak lstsq (Spec.affine a b x) (y.map (k * ·)) window = .ok (a * c + b, k * H, |a| * s) := by
  cases window with
  | none => exact windowed_affine lstsq hl x y hx hlen hy 0 (-1) c H s hr hs a b k ha hk
  | some w =>
    have := windowed_affine lstsq hl x y hx hlen hy ((argmax y : ℤ) - w) ((argmax y : ℤ) + w + 1) c H s hr hs a b k ha hk
    unfold findLargestPeak
    simp only [argmax_scale k hk]
    exact this

/-! ### Alignment removes a miscalibration -/

/-- A spectrum as another detector reports it: energies a e + b, counts k times as large. -/
noncomputable def Spec.other (q : ℝ × ℝ × ℝ) (p : List ℝ × List ℝ) : List ℝ × List ℝ := (Spec.affine q.1 q.2.1 p.1, p.2.map (q.2.2 * ·))

/-- C250: align_and_scale removes every miscalibration: if each spectrum is recorded with its own gain a, zero b and efficiency k, the aligned energies are those
of the spectra without, in the unit of the first detector. -/
theorem C250_align (lstsq : List ℝ → List ℝ → ℝ × ℝ × ℝ) (hl : IsLstsq lstsq) (window : Option ℕ) (spectra : List (List ℝ × List ℝ)) (cal : List (ℝ × ℝ × ℝ))
    (hn : cal.length = spectra.length) (hcal : ∀ q ∈ cal, 0 < q.1 ∧ 0 < q.2.2)
    (h : ∀ p ∈ spectra, p.1.Nodup ∧ p.1.length = p.2.length ∧ (∀ v ∈ p.2, 0 < v) ∧ ∃ c H s, findLargestPeak lstsq p.1 p.2 window = .ok (c, H, s) ∧ s ≠ 0) :
    ∃ out, alignAndScale (fun x y => findLargestPeak lstsq x y window) spectra = .ok out ∧
      alignAndScale (fun x y => findLargestPeak lstsq x y window) (List.zipWith Spec.other cal spectra) =
        .ok (List.zipWith (fun q p => (p.1.map ((cal.headD (1, 0, 1)).1 * ·), p.2.map (q.2.2 * ·))) cal out) := by
  classical
  obtain ⟨val, hval⟩ : ∃ val : List ℝ × List ℝ → ℝ × ℝ × ℝ, val = fun p => match findLargestPeak lstsq p.1 p.2 window with | .ok r => r | .error _ => (0, 0, 0) := ⟨_, rfl⟩
  have hv : ∀ p ∈ spectra, findLargestPeak lstsq p.1 p.2 window = .ok (val p) ∧ (val p).2.2 ≠ 0 := by
    intro p hp
    obtain ⟨_, _, _, c, H, s, e, hs⟩ := h p hp
    rw [hval]
    simp only [e]
    exact ⟨trivial, hs⟩
  have hv' : ∀ q ∈ cal, ∀ p ∈ spectra, findLargestPeak lstsq (Spec.other q p).1 (Spec.other q p).2 window = .ok (q.1 * (val p).1 + q.2.1, q.2.2 * (val p).2.1, q.1 * (val p).2.2) ∧
      val (Spec.other q p) = (q.1 * (val p).1 + q.2.1, q.2.2 * (val p).2.1, q.1 * (val p).2.2) := by
    intro q hq p hp
    obtain ⟨h1, h2, h4, _⟩ := h p hp
    obtain ⟨e, hs⟩ := hv p hp
    obtain ⟨ha, hk⟩ := hcal q hq
    have := C250_largest lstsq hl p.1 p.2 h1 h2 h4 window _ _ _ e hs q.1 q.2.1 q.2.2 ha.ne' hk
    rw [abs_of_pos ha] at this
    refine ⟨this, ?_⟩
    have e3 : ∀ p' r, findLargestPeak lstsq p'.1 p'.2 window = .ok r → val p' = r := by
      intro p' r hr
      rw [hval]
      simp only [hr]
    exact e3 _ _ this
  refine ⟨_, alignLoop_spec _ val spectra none (fun p hp => (hv p hp).1), ?_⟩
  have hmem : ∀ p' ∈ List.zipWith Spec.other cal spectra, findLargestPeak lstsq p'.1 p'.2 window = .ok (val p') := by
    intro p' hp'
    rw [zipWith_zip, List.mem_map] at hp'
    obtain ⟨⟨q, p⟩, hqp, rfl⟩ := hp'
    obtain ⟨hq, hp⟩ := List.of_mem_zip hqp
    obtain ⟨e1, e2⟩ := hv' q hq p hp
    rw [e1, e2]
  unfold alignAndScale
  rw [alignLoop_spec _ val _ none hmem]
  congr 1
  rw [List.zipWith_map_right, zipWith_zip, zipWith_zip, List.map_map]
  apply List.map_congr_left
  rintro ⟨q, p⟩ hqp
  obtain ⟨hq, hp⟩ := List.of_mem_zip hqp
  obtain ⟨_, e2⟩ := hv' q hq p hp
  obtain ⟨ha, hk⟩ := hcal q hq
  obtain ⟨_, hs⟩ := hv p hp
  simp only [Function.comp_apply, e2, Option.getD_none]
  have hhead : (val ((List.zipWith Spec.other cal spectra).headD ([], []))).2.2 = (cal.headD (1, 0, 1)).1 * (val (spectra.headD ([], []))).2.2 := by
    cases cal with
    | nil => simp at hq
    | cons q0 ct =>
      cases spectra with
      | nil => simp at hp
      | cons p0 st =>
        simp only [List.zipWith_cons_cons, List.headD_cons]
        rw [(hv' q0 (by simp) p0 (by simp)).2]
  rw [← zipWith_zip, hhead]
  unfold Spec.other Spec.affine
  refine Prod.ext ?_ rfl
  simp only [List.map_map]
  apply List.map_congr_left
  intro v _
  simp only [Function.comp_apply]
  field_simp
  ring

/-! ### The hypotheses are met -/

example : Spec.ThreePoints [0, 1, 2] := ⟨0, by simp, 1, by simp, 2, by simp, by norm_num, by norm_num, by norm_num⟩

/-- The spectra of C60 meet the hypotheses of `C250_largest` and `C250_align`. -/
example (lstsq : List ℝ → List ℝ → ℝ × ℝ × ℝ) (hl : IsLstsq lstsq) :=
  C250_align lstsq hl none [([0, 1, 2, 3], [0, 1, 2, 3].map (fun u => 5 * Real.exp (-(u - 1) ^ 2 / (2 * 2 ^ 2))))] [(2, 1, 3)] rfl
    (by intro q hq; simp at hq; subst hq; norm_num)
    (by
      intro p hp
      simp only [List.mem_singleton] at hp
      subst hp
      refine ⟨by norm_num, by simp, ?_, 1, 5, 2, ?_, by norm_num⟩
      · intro v hv
        obtain ⟨u, _, rfl⟩ := List.mem_map.1 hv
        positivity
      · exact C98_gaussian_no_window lstsq hl [0, 1, 2, 3] ⟨0, by simp, 1, by simp, 2, by simp, by norm_num, by norm_num, by norm_num⟩ 1 5 2 (by norm_num) (by norm_num))

example (lstsq : List ℝ → List ℝ → ℝ × ℝ × ℝ) (hl : IsLstsq lstsq) :=
  fit_exact lstsq hl [0, 1, 2] ⟨0, by simp, 1, by simp, 2, by simp, by norm_num, by norm_num, by norm_num⟩ (-1) 1 4 (by norm_num)

end Verif.Feature.Laws
