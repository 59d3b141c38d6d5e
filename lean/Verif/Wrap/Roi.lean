/- C255: integrate_ROI with integer abscissae (channel numbers), whose differences wrap around (skbeam/core/spectroscopy.py 259-351). -/
import Verif.Wrap.Model
import Verif.Feature.SpecProps

namespace Verif.Wrap
open Verif Feature

/-- The differences `np.diff(x)` all have the same sign, spectroscopy.py 275-280, in the integer type `t`. -/
def sameSignI (t : IntType) (x : List ℤ) : Bool :=
  (List.zip x x.tail).all (fun p => 0 < t.wrap (p.2 - p.1)) || (List.zip x x.tail).all (fun p => t.wrap (p.2 - p.1) < 0) ||
    (List.zip x x.tail).all (fun p => t.wrap (p.2 - p.1) = 0)

/-- `integrate_ROI`, spectroscopy.py 227-351, for an array `x` of integer type `t`.  Comparisons with the limits and the rule use the values. -/
def integrateROII (t : IntType) (simps : List ℚ → List ℚ → ℚ) (x : List ℤ) (y xmin xmax : List ℚ) : Py ℚ :=
  if x.length ≠ y.length then .error .valueError
  else if x.length < 2 then .error .indexError
  else if sameSignI t x = false then .error .valueError
  else
    let dec := t.wrap (x.getD 1 0 - x.getD 0 0) < 0
    let x' := (if dec then x.reverse else x).map (fun z : ℤ => (z : ℚ))
    let y' := if dec then y.reverse else y
    if xmin.length ≠ xmax.length then .error .valueError
    else if (List.zip xmin xmax).any (fun p => p.2 ≤ p.1) then .error .valueError
    else if xmin.any (fun v => v < x'.headD 0) then .error .valueError
    else if xmax.any (fun v => x'.getLastD 0 < v) then .error .valueError
    else .ok (((List.zip xmin xmax).map (fun p => simps (region x' y' p.1 p.2).1 (region x' y' p.1 p.2).2)).sum)

/-! ### Specification -/

/-- What the caller expects: the call with the same numbers as reals. -/
def Spec.asNumbers (x : List ℤ) : List ℚ := x.map (fun z : ℤ => (z : ℚ))

/-! ## C255 -/

/-- C255: whenever the differences of neighbours fit the type, the result is that of the same numbers. -/
theorem C255_exact_partial (t : IntType) (simps : List ℚ → List ℚ → ℚ) (x : List ℤ) (y xmin xmax : List ℚ) (h : ∀ p ∈ List.zip x x.tail, t.Holds (p.2 - p.1)) :
    integrateROII t simps x y xmin xmax = integrateROI simps (Spec.asNumbers x) y xmin xmax := by
  have hw : ∀ p ∈ List.zip x x.tail, t.wrap (p.2 - p.1) = p.2 - p.1 := fun p hp => wrap_of_holds t _ (h p hp)
  have all_congr : ∀ (l : List (ℤ × ℤ)) (f g : ℤ × ℤ → Bool), (∀ p ∈ l, f p = g p) → l.all f = l.all g := by
    intro l f g hfg
    rw [Bool.eq_iff_iff, List.all_eq_true, List.all_eq_true]
    exact ⟨fun k p hp => by rw [← hfg p hp]; exact k p hp, fun k p hp => by rw [hfg p hp]; exact k p hp⟩
  have hs : sameSignI t x = sameSign (Spec.asNumbers x) := by
    unfold sameSignI sameSign Spec.asNumbers
    rw [← List.map_tail, List.zip_map, List.all_map, List.all_map, List.all_map]
    rw [all_congr _ (fun p => decide (0 < t.wrap (p.2 - p.1))) ((fun p : ℚ × ℚ => decide (p.1 < p.2)) ∘ Prod.map (fun z : ℤ => (z : ℚ)) (fun z : ℤ => (z : ℚ))),
      all_congr _ (fun p => decide (t.wrap (p.2 - p.1) < 0)) ((fun p : ℚ × ℚ => decide (p.2 < p.1)) ∘ Prod.map (fun z : ℤ => (z : ℚ)) (fun z : ℤ => (z : ℚ))),
      all_congr _ (fun p => decide (t.wrap (p.2 - p.1) = 0)) ((fun p : ℚ × ℚ => decide (p.1 = p.2)) ∘ Prod.map (fun z : ℤ => (z : ℚ)) (fun z : ℤ => (z : ℚ)))]
    all_goals
      intro p hp
      simp only [hw p hp, Function.comp_apply, Prod.map_fst, Prod.map_snd, decide_eq_decide, Int.cast_lt, Int.cast_inj]
      omega
  unfold integrateROII integrateROI
  rw [hs]
  simp only [show (Spec.asNumbers x).length = x.length from by simp [Spec.asNumbers]]
  by_cases h1 : x.length ≠ y.length
  · rw [if_pos h1, if_pos h1]
  rw [if_neg h1, if_neg h1]
  by_cases h2 : x.length < 2
  · rw [if_pos h2, if_pos h2]
  rw [if_neg h2, if_neg h2]
  have hdec : (t.wrap (x.getD 1 0 - x.getD 0 0) < 0) ↔ (Spec.asNumbers x).getD 1 0 < (Spec.asNumbers x).getD 0 0 := by
    match x, h2, hw with
    | a :: b :: r, _, hw =>
      have := hw (a, b) (by simp)
      simp only at this
      simp only [List.getD_cons_zero, List.getD_cons_succ, this, Spec.asNumbers, List.map_cons, Int.cast_lt]
      omega
    | [], h2, _ => simp at h2
    | [a], h2, _ => simp at h2
  have hx' : ((if t.wrap (x.getD 1 0 - x.getD 0 0) < 0 then x.reverse else x).map (fun z : ℤ => (z : ℚ))) =
      if (Spec.asNumbers x).getD 1 0 < (Spec.asNumbers x).getD 0 0 then (Spec.asNumbers x).reverse else Spec.asNumbers x := by
    by_cases hd : t.wrap (x.getD 1 0 - x.getD 0 0) < 0
    · rw [if_pos hd, if_pos (hdec.1 hd)]
      simp [Spec.asNumbers]
    · rw [if_neg hd, if_neg (fun k => hd (hdec.2 k))]
      rfl
  by_cases hd : t.wrap (x.getD 1 0 - x.getD 0 0) < 0
  · rw [if_pos hd, if_pos (hdec.1 hd)] at hx'
    simp only [if_pos hd, if_pos (hdec.1 hd), hx']
  · have hd' := fun k => hd (hdec.2 k)
    rw [if_neg hd, if_neg hd'] at hx'
    simp only [if_neg hd, if_neg hd', hx']

/-- C255: in particular for ascending unsigned numbers. -/
theorem C255_ascending_partial (b : ℕ) (hb : 0 < b) (simps : List ℚ → List ℚ → ℚ) (x : List ℤ) (y xmin xmax : List ℚ) (hx : ∀ v ∈ x, 0 ≤ v ∧ v < 2 ^ b) (hs : x.Pairwise (· ≤ ·)) :
    integrateROII (uint b hb) simps x y xmin xmax = integrateROI simps (Spec.asNumbers x) y xmin xmax := by
  apply C255_exact_partial
  intro p hp
  have hm := List.of_mem_zip (show (p.1, p.2) ∈ _ from hp)
  have h1 := hx _ hm.1
  have h2 := hx _ (List.mem_of_mem_tail hm.2)
  have hle : p.1 ≤ p.2 := by
    have : (List.zip x x.tail).all (fun p => p.1 ≤ p.2) = true := by
      clear hp hm h1 h2 hx
      induction x with
      | nil => rfl
      | cons a r ih =>
        cases r with
        | nil => rfl
        | cons c r =>
          have hs' := List.pairwise_cons.1 hs
          simp only [List.tail_cons, List.zip_cons_cons, List.all_cons, Bool.and_eq_true, decide_eq_true_eq]
          exact ⟨hs'.1 c (by simp), ih hs'.2⟩
    simpa using List.all_eq_true.1 this p hp
  simp only [IntType.Holds, IntType.lo, IntType.hi, uint]
  constructor
  · simpa using hle
  · simp; omega

theorem uint_wrap_nonneg (b : ℕ) (hb : 0 < b) (z : ℤ) : 0 ≤ (uint b hb).wrap z := by
  simp only [IntType.wrap, IntType.lo, uint]
  simp
  exact Int.emod_nonneg _ (by positivity)

theorem uint_wrap_eq_zero (b : ℕ) (hb : 0 < b) (z : ℤ) (h1 : -2 ^ b < z) (h2 : z < 2 ^ b) (h : (uint b hb).wrap z = 0) : z = 0 := by
  rw [wrap_uint] at h
  obtain ⟨k, hk⟩ := Int.dvd_of_emod_eq_zero h
  have hp : (0 : ℤ) < 2 ^ b := by positivity
  rcases lt_trichotomy k 0 with h3 | h3 | h3
  · nlinarith
  · rw [hk, h3, mul_zero]
  · nlinarith

theorem zip_tail_all (f : ℤ → ℤ → Bool) (x : List ℤ) (hs : x.Pairwise (fun a c => f a c = true)) : ∀ p ∈ List.zip x x.tail, f p.1 p.2 = true := by
  induction x with
  | nil => simp
  | cons a r ih =>
    cases r with
    | nil => simp
    | cons c r =>
      have hs' := List.pairwise_cons.1 hs
      intro p hp
      simp only [List.tail_cons, List.zip_cons_cons, List.mem_cons] at hp
      rcases hp with rfl | hp
      · exact hs'.1 c (by simp)
      · exact ih hs'.2 p (by simpa using hp)

theorem uint_not_dec (b : ℕ) (hb : 0 < b) (x : List ℤ) : ¬ (uint b hb).wrap (x.getD 1 0 - x.getD 0 0) < 0 := not_lt.2 (uint_wrap_nonneg b hb _)

theorem sameSignI_unsigned (b : ℕ) (hb : 0 < b) (x : List ℤ) (hx : ∀ v ∈ x, 0 ≤ v ∧ v < 2 ^ b) (hc : ∀ p ∈ List.zip x x.tail, p.1 ≠ p.2) : sameSignI (uint b hb) x = true := by
  unfold sameSignI
  rw [Bool.or_eq_true, Bool.or_eq_true]
  refine Or.inl (Or.inl ?_)
  rw [List.all_eq_true]
  intro p hp
  have hm := List.of_mem_zip (show (p.1, p.2) ∈ _ from hp)
  have h1 := hx _ hm.1
  have h2 := hx _ (List.mem_of_mem_tail hm.2)
  have h0 := uint_wrap_nonneg b hb (p.2 - p.1)
  rw [decide_eq_true_eq]
  refine lt_of_le_of_ne h0 (fun h => hc p hp ?_)
  have := uint_wrap_eq_zero b hb (p.2 - p.1) (by omega) (by omega) h.symm
  omega

theorem map_headD (x : List ℤ) : (x.map (fun z : ℤ => (z : ℚ))).headD 0 = (x.headD 0 : ℚ) := by
  cases x <;> simp

theorem map_getLastD (x : List ℤ) : (x.map (fun z : ℤ => (z : ℚ))).getLastD 0 = (x.getLastD 0 : ℚ) := by
  rw [List.getLastD_eq_getLast?, List.getLastD_eq_getLast?, List.getLast?_map]
  cases x.getLast? <;> simp

/-- C255 fails for descending unsigned numbers: they raise ValueError whatever the limits, although the same numbers are accepted otherwise. -/
theorem C255_descending_refuted (b : ℕ) (hb : 0 < b) (simps : List ℚ → List ℚ → ℚ) (x : List ℤ) (y xmin xmax : List ℚ) (hx : ∀ v ∈ x, 0 ≤ v ∧ v < 2 ^ b) (hs : x.Pairwise (· > ·))
    (h2 : 2 ≤ x.length) (hl : x.length = y.length) (hne : xmin ≠ []) :
    integrateROII (uint b hb) simps x y xmin xmax = .error .valueError ∧
      ∃ v, integrateROI simps (Spec.asNumbers x) y [(x.getLastD 0 : ℚ)] [(x.headD 0 : ℚ)] = .ok v := by
  have hlast : x.getLastD 0 < x.headD 0 := by
    match x, h2, hs with
    | a :: c :: r, _, hs =>
      have := (List.pairwise_cons.1 hs).1 ((c :: r).getLast (by simp)) (List.getLast_mem _)
      have e : (a :: c :: r).getLastD 0 = (c :: r).getLast (by simp) := by
        rw [List.getLastD_eq_getLast?, List.getLast?_cons_cons, List.getLast?_eq_some_getLast (by simp)]; rfl
      rw [e]; exact this
    | [], h2, _ => simp at h2
    | [a], h2, _ => simp at h2
  have hc : ∀ p ∈ List.zip x x.tail, p.2 < p.1 := by
    intro p hp
    have := zip_tail_all (fun a c => decide (c < a)) x (hs.imp (by intro a c h; simpa using h)) p hp
    simpa using this
  constructor
  · have hd := uint_not_dec b hb x
    unfold integrateROII
    simp only [if_neg hd]
    rw [if_neg (by simpa using hl), if_neg (by omega), sameSignI_unsigned b hb x hx (fun p hp => (hc p hp).ne'), if_neg (by simp)]
    split_ifs with k1 k2 k3 k4
    · rfl
    · rfl
    · rfl
    · rfl
    · exfalso
      match xmin, xmax, hne, k1, k2, k3, k4 with
      | l :: _, u :: _, _, k1, k2, k3, k4 =>
        simp only [List.zip_cons_cons, List.any_cons, Bool.or_eq_true, decide_eq_true_eq, not_or, not_le, not_lt] at k2 k3 k4
        have e1 := k2.1
        have e2 := k3.1
        have e3 := k4.1
        rw [map_headD] at e2
        rw [map_getLastD] at e3
        have : (x.getLastD 0 : ℚ) < (x.headD 0 : ℚ) := by exact_mod_cast hlast
        linarith
      | [], _, h, _, _, _, _ => exact h rfl
      | _ :: _, [], _, k1, _, _, _ => simp at k1
  · unfold integrateROI
    have hss : sameSign (Spec.asNumbers x) = true := by
      unfold sameSign
      rw [Bool.or_eq_true, Bool.or_eq_true]
      refine Or.inl (Or.inr ?_)
      unfold Spec.asNumbers
      rw [← List.map_tail, List.zip_map, List.all_map, List.all_eq_true]
      intro p hp
      simpa using hc p hp
    have hdec : (Spec.asNumbers x).getD 1 0 < (Spec.asNumbers x).getD 0 0 := by
      match x, h2, hc with
      | a :: c :: r, _, hc =>
        have := hc (a, c) (by simp)
        simpa [Spec.asNumbers] using this
      | [], h2, _ => simp at h2
      | [a], h2, _ => simp at h2
    have hlen : (Spec.asNumbers x).length = x.length := by simp [Spec.asNumbers]
    have e1 : (Spec.asNumbers x).reverse.headD 0 = (x.getLastD 0 : ℚ) := by
      rw [← map_getLastD]; simp [Spec.asNumbers, List.headD_eq_head?_getD, List.getLastD_eq_getLast?]
    have e2 : (Spec.asNumbers x).reverse.getLastD 0 = (x.headD 0 : ℚ) := by
      rw [← map_headD]; simp [Spec.asNumbers, List.headD_eq_head?_getD, List.getLastD_eq_getLast?]
    have e3 : (x.getLastD 0 : ℚ) < (x.headD 0 : ℚ) := by exact_mod_cast hlast
    simp only [if_pos hdec, hlen, hss]
    rw [if_neg (by simpa using hl), if_neg (by omega), if_neg (by simp), if_neg (by simp), if_neg (by simpa using e3), if_neg (by rw [e1]; simp), if_neg (by rw [e2]; simp)]
    exact ⟨_, rfl⟩

/-- C255 fails for unsorted unsigned numbers: no ValueError. -/
theorem C255_unsorted_refuted (b : ℕ) (hb : 0 < b) (simps : List ℚ → List ℚ → ℚ) (x : List ℤ) (y : List ℚ) (lo hi : ℚ) (hx : ∀ v ∈ x, 0 ≤ v ∧ v < 2 ^ b) (hs : x.IsChain (· ≠ ·))
    (h2 : 2 ≤ x.length) (hl : x.length = y.length) (h3 : (x.headD 0 : ℚ) ≤ lo) (h4 : lo < hi) (h5 : hi ≤ (x.getLastD 0 : ℚ)) :
    ∃ v, integrateROII (uint b hb) simps x y [lo] [hi] = .ok v := by
  have hc : ∀ p ∈ List.zip x x.tail, p.1 ≠ p.2 := by
    clear h2 hl h3 h5 hx
    induction x with
    | nil => simp
    | cons a r ih =>
      cases r with
      | nil => simp
      | cons c r =>
        rw [List.isChain_cons_cons] at hs
        intro p hp
        simp only [List.tail_cons, List.zip_cons_cons, List.mem_cons] at hp
        rcases hp with rfl | hp
        · exact hs.1
        · exact ih hs.2 p (by simpa using hp)
  have hd := uint_not_dec b hb x
  unfold integrateROII
  simp only [if_neg hd]
  rw [if_neg (by simpa using hl), if_neg (by omega), sameSignI_unsigned b hb x hx hc, if_neg (by simp), if_neg (by simp), if_neg (by simpa using h4),
    if_neg (by rw [map_headD]; simpa using h3), if_neg (by rw [map_getLastD]; simpa using h5)]
  exact ⟨_, rfl⟩

/-- 7 4 1 as 8-bit numbers: refused, whatever the limits; 0 5 3 7 accepted although out of order. -/
example (simps : List ℚ → List ℚ → ℚ) : integrateROII (uint 8 (by norm_num)) simps [7, 4, 1] [1, 2, 3] [1] [7] = .error .valueError :=
  (C255_descending_refuted 8 (by norm_num) simps [7, 4, 1] [1, 2, 3] [1] [7] (by simp) (by simp) (by simp) (by simp) (by simp)).1

example (simps : List ℚ → List ℚ → ℚ) : (∃ v, integrateROII (uint 8 (by norm_num)) simps [0, 5, 3, 7] [1, 2, 3, 4] [0] [7] = .ok v) ∧
    integrateROI simps [0, 5, 3, 7] [1, 2, 3, 4] [0] [7] = .error .valueError :=
  ⟨C255_unsorted_refuted 8 (by norm_num) simps [0, 5, 3, 7] [1, 2, 3, 4] 0 7 (by simp) (by simp) (by simp) (by simp) (by simp) (by norm_num) (by norm_num [List.getLastD]),
    by unfold integrateROI; rw [if_neg (by simp), if_neg (by simp), if_pos (by decide +kernel)]⟩

/-- The signed 16-bit numbers 7 4 1 meet the hypothesis of the exact case. -/
example : ∀ p ∈ List.zip [7, 4, 1] [7, 4, (1 : ℤ)].tail, (sint 16 (by norm_num)).Holds (p.2 - p.1) := by
  simp [IntType.Holds, IntType.lo, IntType.hi, sint]

end Verif.Wrap
