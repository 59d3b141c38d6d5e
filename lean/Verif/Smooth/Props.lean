/- Properties C147-C150: the two-dimensional Savitzky-Golay filter. -/
import Verif.Smooth.Model
import Mathlib.Algebra.Polynomial.Roots
import Mathlib.Algebra.Polynomial.BigOperators
import Mathlib.Tactic.LinearCombination
import Mathlib.LinearAlgebra.Matrix.NonsingularInverse
import Mathlib.LinearAlgebra.Matrix.DotProduct
import Mathlib.Tactic.IntervalCases
import Mathlib.Algebra.Order.Field.Rat
import Mathlib.Data.Rat.Cast.Order

namespace Verif.Smooth
open Verif

/-! ## Specification -/

/-- A polynomial in two variables of total degree at most n, by its coefficients. -/
def Spec.poly (n : ℕ) (c : ℕ → ℕ → ℚ) (x y : ℚ) : ℚ :=
  ∑ e ∈ Finset.range (n + 1), ∑ f ∈ Finset.range (n + 1 - e), c e f * (x ^ e * y ^ f)

/-- Its derivative by the first variable. -/
def Spec.polyDx (n : ℕ) (c : ℕ → ℕ → ℚ) (x y : ℚ) : ℚ :=
  ∑ e ∈ Finset.range (n + 1), ∑ f ∈ Finset.range (n + 1 - e), c e f * (e * x ^ (e - 1) * y ^ f)

/-- Its derivative by the second variable. -/
def Spec.polyDy (n : ℕ) (c : ℕ → ℕ → ℚ) (x y : ℚ) : ℚ :=
  ∑ e ∈ Finset.range (n + 1), ∑ f ∈ Finset.range (n + 1 - e), c e f * (x ^ e * (f * y ^ (f - 1)))

/-! ## the kernel -/

theorem mem_exps (order : ℕ) (p : ℕ × ℕ) : p ∈ exps order ↔ p.1 + p.2 ≤ order := by
  unfold exps
  simp only [List.mem_flatMap, List.mem_range, List.mem_map]
  constructor
  · rintro ⟨k, hk, n, hn, rfl⟩; simp only; omega
  · intro h; exact ⟨p.1 + p.2, by omega, p.2, by omega, by simp⟩

theorem nodup_exps (order : ℕ) : (exps order).Nodup := by
  unfold exps
  rw [List.nodup_flatMap]
  constructor
  · intro k _
    apply List.Nodup.map _ List.nodup_range
    intro a b hab
    simp only [Prod.mk.injEq] at hab
    exact hab.2
  · refine List.Pairwise.imp ?_ (List.nodup_range (n := order + 1))
    intro a b hab
    rw [Function.onFun, List.disjoint_left]
    intro x hx hy
    obtain ⟨n, hn, rfl⟩ := List.mem_map.1 hx
    obtain ⟨m, hm, hmn⟩ := List.mem_map.1 hy
    simp only [List.mem_range] at hn hm
    simp only [Prod.mk.injEq] at hmn
    omega

theorem exps_head (order : ℕ) : (exps order)[0]? = some (0, 0) := by
  unfold exps; rw [List.range_succ_eq_map]; simp

theorem exps_second (order : ℕ) (h : 1 ≤ order) : (exps order)[1]? = some (1, 0) ∧ (exps order)[2]? = some (0, 1) := by
  obtain ⟨m, rfl⟩ : ∃ m, order = m + 1 := ⟨order - 1, by omega⟩
  unfold exps
  rw [List.range_succ_eq_map, List.range_succ_eq_map]
  simp [List.range_succ]

/-- A polynomial of degree below 2 h + 1 that vanishes at the 2 h + 1 points -h..h is zero. -/
theorem coeffs_zero (h n : ℕ) (hn : n ≤ 2 * h) (g : ℕ → ℚ)
    (hz : ∀ a : Fin (2 * h + 1), ∑ e ∈ Finset.range (n + 1), g e * ind h a ^ e = 0) : ∀ e ≤ n, g e = 0 := by
  set p : Polynomial ℚ := ∑ e ∈ Finset.range (n + 1), Polynomial.C (g e) * Polynomial.X ^ e with hp
  have hev : ∀ x, p.eval x = ∑ e ∈ Finset.range (n + 1), g e * x ^ e := by
    intro x; simp [hp, Polynomial.eval_finset_sum]
  have hdeg : p.natDegree < Fintype.card (Fin (2 * h + 1)) := by
    rw [Fintype.card_fin]
    have : p.natDegree ≤ n := by
      apply Polynomial.natDegree_sum_le_of_forall_le
      intro e he
      have := Polynomial.natDegree_C_mul_X_pow_le (g e) e
      have h2 := Finset.mem_range.1 he
      omega
    omega
  have hinj : Function.Injective (fun a : Fin (2 * h + 1) => ind h a) := by
    intro a b hab
    unfold ind at hab
    simp only [add_right_inj, Nat.cast_inj] at hab
    exact Fin.ext hab
  have h0 : p = 0 := Polynomial.eq_zero_of_natDegree_lt_card_of_eval_eq_zero p hinj (fun a => by rw [hev]; exact hz a) hdeg
  intro e he
  have : p.coeff e = g e := by
    simp only [hp, Polynomial.finset_sum_coeff, Polynomial.coeff_C_mul, Polynomial.coeff_X_pow]
    rw [Finset.sum_eq_single e]
    · simp
    · intro b _ hb; simp [Ne.symm hb]
    · intro hb; simp at hb; omega
  rw [← this, h0]; simp

/-- The matrix has independent columns when the order is below the window size. -/
theorem design_injective (h order : ℕ) (ho : order ≤ 2 * h) (c : Fin (exps order).length → ℚ)
    (hc : (design h order).mulVec c = 0) : c = 0 := by
  set C : ℕ → ℕ → ℚ := fun e f => ∑ k, if (exps order).get k = (e, f) then c k else 0 with hC
  have hsum : ∀ a b : Fin (2 * h + 1), ∑ e ∈ Finset.range (order + 1), (∑ f ∈ Finset.range (order + 1), C e f * ind h b ^ f) * ind h a ^ e = 0 := by
    intro a b
    have h1 := congrFun hc (a, b)
    simp only [Matrix.mulVec, dotProduct, design, Pi.zero_apply] at h1
    rw [← h1]
    symm
    calc ∑ k, ind h a ^ ((exps order).get k).1 * ind h b ^ ((exps order).get k).2 * c k
        = ∑ k, ∑ e ∈ Finset.range (order + 1), ∑ f ∈ Finset.range (order + 1),
            (if (exps order).get k = (e, f) then c k else 0) * ind h b ^ f * ind h a ^ e := by
          apply Finset.sum_congr rfl
          intro k _
          have hm := (mem_exps order _).1 ((exps order).get_mem k)
          rw [Finset.sum_eq_single ((exps order).get k).1, Finset.sum_eq_single ((exps order).get k).2]
          · rw [if_pos rfl]; ring
          · intro f _ hf
            rw [if_neg (fun hx => hf (by rw [hx]))]; ring
          · intro hx; exfalso; apply hx; rw [Finset.mem_range]; omega
          · intro e _ he
            apply Finset.sum_eq_zero
            intro f _
            rw [if_neg (fun hx => he (by rw [hx]))]; ring
          · intro hx; exfalso; apply hx; rw [Finset.mem_range]; omega
      _ = ∑ e ∈ Finset.range (order + 1), ∑ f ∈ Finset.range (order + 1), ∑ k,
            (if (exps order).get k = (e, f) then c k else 0) * ind h b ^ f * ind h a ^ e := by
          rw [Finset.sum_comm]
          apply Finset.sum_congr rfl
          intro e _
          rw [Finset.sum_comm]
      _ = _ := by
          simp only [hC, Finset.sum_mul]
  have hzero : ∀ e ≤ order, ∀ f ≤ order, C e f = 0 := by
    intro e he f hf
    refine coeffs_zero h order ho (C e) (fun b => ?_) f hf
    exact coeffs_zero h order ho (fun e => ∑ f ∈ Finset.range (order + 1), C e f * ind h b ^ f) (fun a => hsum a b) e he
  funext k
  have hm := (mem_exps order _).1 ((exps order).get_mem k)
  have := hzero ((exps order).get k).1 (by omega) ((exps order).get k).2 (by omega)
  rw [hC] at this
  simp only at this
  rw [Finset.sum_eq_single k] at this
  · simpa using this
  · intro j _ hj
    rw [if_neg]
    intro hx
    exact hj ((List.nodup_iff_injective_get.1 (nodup_exps order)) hx)
  · intro hx; exact absurd (Finset.mem_univ k) hx

/-- Hence the pseudo-inverse is a left inverse. -/
theorem pinv_left (h order : ℕ) (ho : order ≤ 2 * h) (P) (hP : IsPinv (design h order) P) : P * design h order = 1 := by
  have key : ∀ v, (P * design h order).mulVec v = v := by
    intro v
    have : (design h order).mulVec ((P * design h order).mulVec v - v) = 0 := by
      rw [Matrix.mulVec_sub, Matrix.mulVec_mulVec, ← Matrix.mul_assoc, hP.apa, sub_self]
    have := design_injective h order ho _ this
    exact sub_eq_zero.1 this
  ext i j
  have := congrFun (key (Pi.single j 1)) i
  rw [Matrix.mulVec_single_one] at this
  rw [Matrix.one_apply]
  simpa [Pi.single_apply] using this

/-- Moments of a kernel row: it picks the coefficient of its own monomial. -/
theorem moment (h order : ℕ) (ho : order ≤ 2 * h) (P) (hP : IsPinv (design h order) P) (k : Fin (exps order).length) (e f : ℕ)
    (hef : e + f ≤ order) :
    ∑ p : Fin (2 * h + 1) × Fin (2 * h + 1), ind h p.1 ^ e * ind h p.2 ^ f * P k p = if (exps order).get k = (e, f) then 1 else 0 := by
  obtain ⟨j, hj⟩ := List.mem_iff_get.1 ((mem_exps order (e, f)).2 hef)
  have h1 := congrFun (congrFun (pinv_left h order ho P hP) k) j
  rw [Matrix.mul_apply, Matrix.one_apply] at h1
  have h2 : (k = j) ↔ (exps order).get k = (e, f) := by
    rw [← hj]
    exact ⟨fun h => by rw [h], fun h => (List.nodup_iff_injective_get.1 (nodup_exps order)) h⟩
  rw [← if_congr h2 rfl rfl, ← h1]
  apply Finset.sum_congr rfl
  intro p _
  unfold design
  rw [hj]; ring

/-- A kernel row applied to a polynomial of the distance to a point: its expansion coefficient there. -/
theorem kernel_monomial (h order : ℕ) (ho : order ≤ 2 * h) (P) (hP : IsPinv (design h order) P) (k : Fin (exps order).length) (e f : ℕ)
    (hef : e + f ≤ order) (x y : ℚ) :
    ∑ p : Fin (2 * h + 1) × Fin (2 * h + 1), (x - ind h p.1) ^ e * (y - ind h p.2) ^ f * P k p =
      ∑ i ∈ Finset.range (e + 1), ∑ j ∈ Finset.range (f + 1),
        (x ^ (e - i) * (-1) ^ i * (e.choose i)) * (y ^ (f - j) * (-1) ^ j * (f.choose j)) * (if (exps order).get k = (i, j) then 1 else 0) := by
  have hexp : ∀ (u v : ℚ) (n : ℕ), (u - v) ^ n = ∑ i ∈ Finset.range (n + 1), (u ^ (n - i) * (-1) ^ i * (n.choose i)) * v ^ i := by
    intro u v n
    rw [sub_eq_neg_add, add_pow]
    apply Finset.sum_congr rfl
    intro i _
    rw [neg_pow]; ring
  calc ∑ p : Fin (2 * h + 1) × Fin (2 * h + 1), (x - ind h p.1) ^ e * (y - ind h p.2) ^ f * P k p
      = ∑ p : Fin (2 * h + 1) × Fin (2 * h + 1), ∑ i ∈ Finset.range (e + 1), ∑ j ∈ Finset.range (f + 1),
        (x ^ (e - i) * (-1) ^ i * (e.choose i)) * (y ^ (f - j) * (-1) ^ j * (f.choose j)) * (ind h p.1 ^ i * ind h p.2 ^ j * P k p) := by
        apply Finset.sum_congr rfl
        intro p _
        rw [hexp x, hexp y, Finset.sum_mul_sum, Finset.sum_mul]
        apply Finset.sum_congr rfl
        intro i _
        rw [Finset.sum_mul]
        apply Finset.sum_congr rfl
        intro j _
        ring
    _ = ∑ i ∈ Finset.range (e + 1), ∑ j ∈ Finset.range (f + 1), ∑ p : Fin (2 * h + 1) × Fin (2 * h + 1),
        (x ^ (e - i) * (-1) ^ i * (e.choose i)) * (y ^ (f - j) * (-1) ^ j * (f.choose j)) * (ind h p.1 ^ i * ind h p.2 ^ j * P k p) := by
        rw [Finset.sum_comm]
        apply Finset.sum_congr rfl
        intro i _
        rw [Finset.sum_comm]
    _ = _ := by
        apply Finset.sum_congr rfl
        intro i hi
        apply Finset.sum_congr rfl
        intro j hj
        rw [← Finset.mul_sum, moment h order ho P hP k i j (by have := Finset.mem_range.1 hi; have := Finset.mem_range.1 hj; omega)]

theorem pick (e f : ℕ) (a b : ℕ) (F : ℕ → ℕ → ℚ) :
    ∑ i ∈ Finset.range (e + 1), ∑ j ∈ Finset.range (f + 1), F i j * (if ((a, b) : ℕ × ℕ) = (i, j) then 1 else 0) =
      if a ≤ e ∧ b ≤ f then F a b else 0 := by
  by_cases hab : a ≤ e ∧ b ≤ f
  · rw [if_pos hab, Finset.sum_eq_single a, Finset.sum_eq_single b]
    · simp
    · intro j _ hj; rw [if_neg (fun hx => hj (Prod.mk.inj hx).2.symm)]; ring
    · intro hx; exfalso; apply hx; rw [Finset.mem_range]; omega
    · intro i _ hi
      apply Finset.sum_eq_zero
      intro j _
      rw [if_neg (fun hx => hi (Prod.mk.inj hx).1.symm)]; ring
    · intro hx; exfalso; apply hx; rw [Finset.mem_range]; omega
  · rw [if_neg hab]
    apply Finset.sum_eq_zero
    intro i hi
    apply Finset.sum_eq_zero
    intro j hj
    rw [if_neg, mul_zero]
    intro hx
    have h1 := (Prod.mk.inj hx).1
    have h2 := (Prod.mk.inj hx).2
    have := Finset.mem_range.1 hi
    have := Finset.mem_range.1 hj
    omega

/-- A kernel row applied to a polynomial. -/
theorem kernel_poly (h order : ℕ) (ho : order ≤ 2 * h) (P) (hP : IsPinv (design h order) P) (k : Fin (exps order).length) (n : ℕ)
    (hn : n ≤ order) (c : ℕ → ℕ → ℚ) (x y : ℚ) (a b : ℕ) (hk : (exps order).get k = (a, b)) :
    ∑ p : Fin (2 * h + 1) × Fin (2 * h + 1), Spec.poly n c (x - ind h p.1) (y - ind h p.2) * P k p =
      ∑ e ∈ Finset.range (n + 1), ∑ f ∈ Finset.range (n + 1 - e), c e f *
        (if a ≤ e ∧ b ≤ f then (x ^ (e - a) * (-1) ^ a * (e.choose a)) * (y ^ (f - b) * (-1) ^ b * (f.choose b)) else 0) := by
  unfold Spec.poly
  simp only [Finset.sum_mul]
  rw [Finset.sum_comm]
  apply Finset.sum_congr rfl
  intro e he
  rw [Finset.sum_comm]
  apply Finset.sum_congr rfl
  intro f hf
  have h1 := Finset.mem_range.1 he
  have h2 := Finset.mem_range.1 hf
  have := kernel_monomial h order ho P hP k e f (by omega) x y
  rw [hk, pick] at this
  rw [← this, Finset.mul_sum]
  apply Finset.sum_congr rfl
  intro p _
  ring

/-- The padded image inside. -/
theorem pad_inside (h : ℕ) (im : Img) (i j : ℕ) (hi : i < im.N) (hj : j < im.M) : pad h im (i + h) (j + h) = im.px i j := by
  unfold pad
  simp only
  rw [if_neg (by omega), if_pos (by omega), if_neg (by omega), if_pos (by omega)]
  simp

/-- The image is this polynomial in the window around the pixel. -/
def Spec.PolyAt (im : Img) (h n : ℕ) (c : ℕ → ℕ → ℚ) (r s : ℕ) : Prop :=
  ∀ i j, r ≤ i + h → i ≤ r + h → s ≤ j + h → j ≤ s + h → im.px i j = Spec.poly n c i j

theorem conv_poly' (h order : ℕ) (ho : order ≤ 2 * h) (P) (hP : IsPinv (design h order) P) (k : Fin (exps order).length) (S : ℕ → ℕ → ℚ) (n : ℕ)
    (hn : n ≤ order) (c : ℕ → ℕ → ℚ) (r s a b : ℕ) (hk : (exps order).get k = (a, b))
    (hS : ∀ u v : Fin (2 * h + 1), S (r + (2 * h - u)) (s + (2 * h - v)) = Spec.poly n c (r - ind h u) (s - ind h v)) :
    convValid h S (P k) r s = ∑ e ∈ Finset.range (n + 1), ∑ f ∈ Finset.range (n + 1 - e), c e f *
        (if a ≤ e ∧ b ≤ f then ((r : ℚ) ^ (e - a) * (-1) ^ a * (e.choose a)) * ((s : ℚ) ^ (f - b) * (-1) ^ b * (f.choose b)) else 0) := by
  rw [← kernel_poly h order ho P hP k n hn c r s a b hk]
  unfold convValid
  apply Finset.sum_congr rfl
  intro p _
  rw [hS]

theorem conv_poly (h order : ℕ) (ho : order ≤ 2 * h) (P) (hP : IsPinv (design h order) P) (k : Fin (exps order).length) (im : Img) (n : ℕ)
    (hn : n ≤ order) (c : ℕ → ℕ → ℚ) (r s a b : ℕ) (hk : (exps order).get k = (a, b)) (hr : h ≤ r ∧ r + h < im.N) (hs : h ≤ s ∧ s + h < im.M)
    (hc : Spec.PolyAt im h n c r s) :
    convValid h (pad h im) (P k) r s = ∑ e ∈ Finset.range (n + 1), ∑ f ∈ Finset.range (n + 1 - e), c e f *
        (if a ≤ e ∧ b ≤ f then ((r : ℚ) ^ (e - a) * (-1) ^ a * (e.choose a)) * ((s : ℚ) ^ (f - b) * (-1) ^ b * (f.choose b)) else 0) := by
  apply conv_poly' h order ho P hP k _ n hn c r s a b hk
  intro u v
  have h1 := u.isLt
  have h2 := v.isLt
  have e1 : r + (2 * h - (u : ℕ)) = (r + h - u) + h := by omega
  have e2 : s + (2 * h - (v : ℕ)) = (s + h - v) + h := by omega
  rw [e1, e2, pad_inside h im _ _ (by omega) (by omega), hc _ _ (by omega) (by omega) (by omega) (by omega)]
  congr 1
  · unfold ind; rw [Nat.cast_sub (by omega)]; push_cast; ring
  · unfold ind; rw [Nat.cast_sub (by omega)]; push_cast; ring

/-! ## C147 polynomials are reproduced, and differentiated, inside the image -/

/-- The value at a pixel of the (only) image returned. -/
def Spec.valueAt (r : Py Res) (i j : ℕ) (v : ℚ) : Prop := ∃ o, r = .ok (.one o) ∧ o.px i j = v

theorem getIdx (order i : ℕ) (p : ℕ × ℕ) (h : (exps order)[i]? = some p) : ∃ hi : i < (exps order).length, (exps order).get ⟨i, hi⟩ = p := by
  obtain ⟨hi, e⟩ := List.getElem?_eq_some_iff.1 h
  exact ⟨hi, by simpa using e⟩

/-- The preliminary checks pass. -/
structure Spec.Valid (im : Img) (h order : ℕ) : Prop where
  half : 1 ≤ h
  ord : order ≤ 2 * h
  rows : h < im.N
  cols : h < im.M

theorem run_checks (im : Img) (h order : ℕ) (hv : Spec.Valid im h order) (pinv) (d : Deriv) :
    sgolay2d im (2 * h + 1) order pinv d = run im h order pinv d ∧ ¬ (im.N = 0 ∨ im.M = 0) ∧ ¬ (h = 0 ∨ im.N ≤ h ∨ im.M ≤ h) := by
  obtain ⟨h1, h2, h3, h4⟩ := hv
  refine ⟨?_, by omega, by omega⟩
  unfold sgolay2d
  simp only
  rw [if_neg (by omega), if_neg, show (2 * h + 1) / 2 = h by omega]
  rw [not_lt]
  have : (order : ℚ) ≤ 2 * h := by exact_mod_cast h2
  have h0 : (0 : ℚ) ≤ order := by positivity
  push_cast
  nlinarith

theorem smooth_eq (im : Img) (h order : ℕ) (hv : Spec.Valid im h order) (pinv) :
    ∃ hi : 0 < (exps order).length, (exps order).get ⟨0, hi⟩ = (0, 0) ∧
      sgolay2d im (2 * h + 1) order pinv .none = .ok (.one (filtered h im (pinv h order ⟨0, hi⟩))) := by
  obtain ⟨hi, e⟩ := getIdx order 0 _ (exps_head order)
  obtain ⟨h1, h2, h3⟩ := run_checks im h order hv pinv .none
  refine ⟨hi, e, ?_⟩
  rw [h1]; unfold run kernelRow
  rw [if_neg h2, if_neg h3, dif_pos hi]; rfl

theorem deriv_eq (im : Img) (h order : ℕ) (hv : Spec.Valid im h order) (ho : 1 ≤ order) (pinv) :
    ∃ (h1 : 1 < (exps order).length) (h2 : 2 < (exps order).length), (exps order).get ⟨1, h1⟩ = (1, 0) ∧ (exps order).get ⟨2, h2⟩ = (0, 1) ∧
      sgolay2d im (2 * h + 1) order pinv .col = .ok (.one (filtered h im (fun p => - pinv h order ⟨1, h1⟩ p))) ∧
      sgolay2d im (2 * h + 1) order pinv .row = .ok (.one (filtered h im (fun p => - pinv h order ⟨2, h2⟩ p))) ∧
      sgolay2d im (2 * h + 1) order pinv .both = .ok (.two (filtered h im (fun p => - pinv h order ⟨2, h2⟩ p))
        (filtered h im (fun p => - pinv h order ⟨1, h1⟩ p))) := by
  obtain ⟨i1, e1⟩ := getIdx order 1 _ (exps_second order ho).1
  obtain ⟨i2, e2⟩ := getIdx order 2 _ (exps_second order ho).2
  refine ⟨i1, i2, e1, e2, ?_, ?_, ?_⟩
  · obtain ⟨h1, h2, h3⟩ := run_checks im h order hv pinv .col
    rw [h1]; unfold run kernelRow
    rw [if_neg h2, if_neg h3, dif_pos i1]; rfl
  · obtain ⟨h1, h2, h3⟩ := run_checks im h order hv pinv .row
    rw [h1]; unfold run kernelRow
    rw [if_neg h2, if_neg h3, dif_pos i2]; rfl
  · obtain ⟨h1, h2, h3⟩ := run_checks im h order hv pinv .both
    rw [h1]; unfold run kernelRow
    rw [if_neg h2, if_neg h3, dif_pos i1, dif_pos i2]; rfl

theorem conv_neg (h : ℕ) (S : ℕ → ℕ → ℚ) (k : Fin (2 * h + 1) × Fin (2 * h + 1) → ℚ) (i j : ℕ) :
    convValid h S (fun p => - k p) i j = - convValid h S k i j := by
  unfold convValid
  rw [← Finset.sum_neg_distrib]
  apply Finset.sum_congr rfl
  intro p _; ring

/-- C147: smoothing reproduces a polynomial of degree up to the order at every pixel whose window lies in the image, for
every odd window larger than the order. -/
theorem C147_polynomials (im : Img) (h order : ℕ) (hv : Spec.Valid im h order) (pinv) (hP : IsPinv (design h order) (pinv h order))
    (n : ℕ) (hn : n ≤ order) (c : ℕ → ℕ → ℚ) (r s : ℕ) (hr : h ≤ r ∧ r + h < im.N) (hs : h ≤ s ∧ s + h < im.M)
    (hc : Spec.PolyAt im h n c r s) :
    Spec.valueAt (sgolay2d im (2 * h + 1) order pinv .none) r s (Spec.poly n c r s) := by
  obtain ⟨hi, e, hrun⟩ := smooth_eq im h order hv pinv
  refine ⟨_, hrun, ?_⟩
  show convValid h (pad h im) (pinv h order ⟨0, hi⟩) r s = _
  rw [conv_poly h order hv.ord _ hP _ im n hn c r s 0 0 e hr hs hc]
  unfold Spec.poly
  simp

/-- ... and the derivatives are those of the polynomial: "col" along the first index, "row" along the second, and "both"
returns the second one first. -/
theorem C147_derivatives (im : Img) (h order : ℕ) (hv : Spec.Valid im h order) (ho : 1 ≤ order) (pinv) (hP : IsPinv (design h order) (pinv h order))
    (n : ℕ) (hn : n ≤ order) (c : ℕ → ℕ → ℚ) (r s : ℕ) (hr : h ≤ r ∧ r + h < im.N) (hs : h ≤ s ∧ s + h < im.M)
    (hc : Spec.PolyAt im h n c r s) :
    Spec.valueAt (sgolay2d im (2 * h + 1) order pinv .col) r s (Spec.polyDx n c r s) ∧
    Spec.valueAt (sgolay2d im (2 * h + 1) order pinv .row) r s (Spec.polyDy n c r s) ∧
    ∃ a b, sgolay2d im (2 * h + 1) order pinv .both = .ok (.two a b) ∧ a.px r s = Spec.polyDy n c r s ∧ b.px r s = Spec.polyDx n c r s := by
  obtain ⟨i1, i2, e1, e2, hcol, hrow, hboth⟩ := deriv_eq im h order hv ho pinv
  have kx : (filtered h im (fun p => - pinv h order ⟨1, i1⟩ p)).px r s = Spec.polyDx n c r s := by
    show convValid h (pad h im) (fun p => - pinv h order ⟨1, i1⟩ p) r s = _
    rw [conv_neg, conv_poly h order hv.ord _ hP _ im n hn c r s 1 0 e1 hr hs hc, ← Finset.sum_neg_distrib]
    unfold Spec.polyDx
    apply Finset.sum_congr rfl
    intro e _
    rw [← Finset.sum_neg_distrib]
    apply Finset.sum_congr rfl
    intro f _
    by_cases he : 1 ≤ e
    · rw [if_pos ⟨he, by omega⟩]
      simp only [Nat.choose_one_right, Nat.choose_zero_right, Nat.sub_zero]; push_cast; ring
    · rw [if_neg (by omega)]
      have : e = 0 := by omega
      subst this; simp
  have ky : (filtered h im (fun p => - pinv h order ⟨2, i2⟩ p)).px r s = Spec.polyDy n c r s := by
    show convValid h (pad h im) (fun p => - pinv h order ⟨2, i2⟩ p) r s = _
    rw [conv_neg, conv_poly h order hv.ord _ hP _ im n hn c r s 0 1 e2 hr hs hc, ← Finset.sum_neg_distrib]
    unfold Spec.polyDy
    apply Finset.sum_congr rfl
    intro e _
    rw [← Finset.sum_neg_distrib]
    apply Finset.sum_congr rfl
    intro f _
    by_cases he : 1 ≤ f
    · rw [if_pos ⟨by omega, he⟩]
      simp only [Nat.choose_one_right, Nat.choose_zero_right, Nat.sub_zero]; push_cast; ring
    · rw [if_neg (by omega)]
      have : f = 0 := by omega
      subst this; simp
  exact ⟨⟨_, hcol, kx⟩, ⟨_, hrow, ky⟩, _, _, hboth, ky, kx⟩

/-- The hypotheses are met: the 5 × 5 image (i, j) ↦ i² + 3 i j, window 3, order 2, at the centre; the value is 16 and the
derivatives are 10 and 6. -/
example : Spec.Valid ⟨5, 5, fun i j => (i : ℚ) ^ 2 + 3 * i * j⟩ 1 2 ∧
    Spec.PolyAt ⟨5, 5, fun i j => (i : ℚ) ^ 2 + 3 * i * j⟩ 1 2 (fun e f => if (e, f) = (2, 0) then 1 else if (e, f) = (1, 1) then 3 else 0) 2 2 ∧
    Spec.poly 2 (fun e f => if (e, f) = (2, 0) then 1 else if (e, f) = (1, 1) then 3 else 0) 2 2 = 16 ∧
    Spec.polyDx 2 (fun e f => if (e, f) = (2, 0) then 1 else if (e, f) = (1, 1) then 3 else 0) 2 2 = 10 ∧
    Spec.polyDy 2 (fun e f => if (e, f) = (2, 0) then 1 else if (e, f) = (1, 1) then 3 else 0) 2 2 = 6 := by
  refine ⟨⟨by decide, by decide, by decide, by decide⟩, ?_, ?_, ?_, ?_⟩
  · intro i j _ _ _ _
    simp [Spec.poly, Finset.sum_range_succ]; ring
  all_goals (simp [Spec.poly, Spec.polyDx, Spec.polyDy, Finset.sum_range_succ]; norm_num)

/-! ### the contract of `pinv` can be met -/

/-- For every odd window larger than the order there is a pseudo-inverse. -/
theorem pinv_exists (h order : ℕ) (ho : order ≤ 2 * h) : ∃ P, IsPinv (design h order) P := by
  set A := design h order with hA
  set G := A.transpose * A with hG
  have hinj : ∀ v, G.mulVec v = 0 → v = 0 := by
    intro v hv
    apply design_injective h order ho
    have h1 : dotProduct v (G.mulVec v) = 0 := by rw [hv]; simp
    rw [hG, ← Matrix.mulVec_mulVec, Matrix.dotProduct_mulVec, Matrix.vecMul_transpose] at h1
    exact dotProduct_self_eq_zero.1 h1
  have hu : IsUnit G := by
    rw [← Matrix.mulVec_injective_iff_isUnit]
    intro x y hxy
    have : G.mulVec (x - y) = 0 := by rw [Matrix.mulVec_sub, sub_eq_zero]; exact hxy
    exact sub_eq_zero.1 (hinj _ this)
  have hdet : IsUnit G.det := (Matrix.isUnit_iff_isUnit_det _).1 hu
  have hsym : G.transpose = G := by rw [hG, Matrix.transpose_mul, Matrix.transpose_transpose]
  have hl : G⁻¹ * A.transpose * A = 1 := by rw [Matrix.mul_assoc, ← hG, Matrix.nonsing_inv_mul _ hdet]
  refine ⟨G⁻¹ * A.transpose, ?_, ?_, ?_, ?_⟩
  · rw [Matrix.mul_assoc, hl, Matrix.mul_one]
  · rw [hl, Matrix.one_mul]
  · rw [Matrix.transpose_mul, Matrix.transpose_mul, Matrix.transpose_transpose, Matrix.transpose_nonsing_inv, hsym, Matrix.mul_assoc]
  · rw [hl, Matrix.transpose_one]

/-! ## C148 the borders -/

theorem below_affine (a b x y : ℚ) (ha : 0 ≤ a) : below (a * x + b) (a * y + b) = a * below x y + b := by
  unfold below
  rw [show a * y + b - (a * x + b) = a * (y - x) by ring, abs_mul, abs_of_nonneg ha]; ring

theorem above_affine (a b x y : ℚ) (ha : 0 ≤ a) : above (a * x + b) (a * y + b) = a * above x y + b := by
  unfold above
  rw [show a * y + b - (a * x + b) = a * (y - x) by ring, abs_mul, abs_of_nonneg ha]; ring

/-- The image scaled and shifted. -/
def Spec.affine (a b : ℚ) (im : Img) : Img := ⟨im.N, im.M, fun i j => a * im.px i j + b⟩

theorem pad_affine (h : ℕ) (im : Img) (a b : ℚ) (ha : 0 ≤ a) (i j : ℕ) : pad h (Spec.affine a b im) i j = a * pad h im i j + b := by
  unfold pad Spec.affine
  simp only [below_affine a b _ _ ha, above_affine a b _ _ ha]
  split_ifs <;> rfl

/-- C148: scaling an image by a factor that is not negative and adding a constant does the same to the smoothed image, at
every pixel including the borders; in particular constant images stay as they are. -/
theorem C148_scale_and_shift (im : Img) (h order : ℕ) (hv : Spec.Valid im h order) (pinv) (hP : IsPinv (design h order) (pinv h order))
    (a b : ℚ) (ha : 0 ≤ a) :
    ∃ o o', sgolay2d im (2 * h + 1) order pinv .none = .ok (.one o) ∧
      sgolay2d (Spec.affine a b im) (2 * h + 1) order pinv .none = .ok (.one o') ∧
      o.N = im.N ∧ o.M = im.M ∧ o' = Spec.affine a b o := by
  obtain ⟨hi, e, hrun⟩ := smooth_eq im h order hv pinv
  obtain ⟨_, _, hrun'⟩ := smooth_eq (Spec.affine a b im) h order ⟨hv.half, hv.ord, hv.rows, hv.cols⟩ pinv
  refine ⟨_, _, hrun, hrun', rfl, rfl, ?_⟩
  unfold filtered Spec.affine
  simp only [Img.mk.injEq, true_and]
  funext r s
  have hm := moment h order hv.ord _ hP ⟨0, hi⟩ 0 0 (by omega)
  rw [if_pos e] at hm
  unfold convValid
  have key : ∀ p : Fin (2 * h + 1) × Fin (2 * h + 1),
      pad h ⟨im.N, im.M, fun i j => a * im.px i j + b⟩ (r + (2 * h - p.1)) (s + (2 * h - p.2)) * pinv h order ⟨0, hi⟩ p =
        a * (pad h im (r + (2 * h - p.1)) (s + (2 * h - p.2)) * pinv h order ⟨0, hi⟩ p) +
        b * (ind h p.1 ^ 0 * ind h p.2 ^ 0 * pinv h order ⟨0, hi⟩ p) := by
    intro p
    have := pad_affine h im a b ha (r + (2 * h - p.1)) (s + (2 * h - p.2))
    unfold Spec.affine at this
    rw [this]; ring
  rw [Finset.sum_congr rfl (fun p _ => key p), Finset.sum_add_distrib, ← Finset.mul_sum, ← Finset.mul_sum, hm, mul_one]

theorem pad_ramp (h N M : ℕ) (α β γ : ℚ) (hβ : 0 ≤ β) (hγ : 0 ≤ γ) (hN : h < N) (hM : h < M) (i j : ℕ) (hi : i < N + 2 * h) (hj : j < M + 2 * h) :
    pad h ⟨N, M, fun r c => α + β * r + γ * c⟩ i j = α + β * (i - h) + γ * (j - h) := by
  have hb : ∀ x y : ℚ, x ≤ y → below x y = 2 * x - y := by
    intro x y h; unfold below; rw [abs_of_nonneg (by linarith)]; ring
  have hab : ∀ x y : ℚ, y ≤ x → above x y = 2 * x - y := by
    intro x y h; unfold above; rw [abs_of_nonpos (by linarith)]; ring
  have cN : ((N - 1 : ℕ) : ℚ) = N - 1 := by rw [Nat.cast_sub (by omega)]; simp
  have cM : ((M - 1 : ℕ) : ℚ) = M - 1 := by rw [Nat.cast_sub (by omega)]; simp
  have lowI : i < h → ((h - i : ℕ) : ℚ) = h - i := fun h => by rw [Nat.cast_sub h.le]
  have lowJ : j < h → ((h - j : ℕ) : ℚ) = h - j := fun h => by rw [Nat.cast_sub h.le]
  have midI : ¬ i < h → ((i - h : ℕ) : ℚ) = i - h := fun h => by rw [Nat.cast_sub (by omega)]
  have midJ : ¬ j < h → ((j - h : ℕ) : ℚ) = j - h := fun h => by rw [Nat.cast_sub (by omega)]
  have hiI : ¬ i < N + h → ((N - 2 - (i - (N + h)) : ℕ) : ℚ) = 2 * N + h - 2 - i ∧ (2 * N + h - 2 - i : ℚ) ≤ N - 1 := by
    intro hx
    have : N - 2 - (i - (N + h)) + i = 2 * N + h - 2 := by omega
    have h2 : ((N - 2 - (i - (N + h)) + i + 2 : ℕ) : ℚ) = ((2 * N + h : ℕ) : ℚ) := by congr 1; omega
    push_cast at h2
    have h3 : ((N + h : ℕ) : ℚ) ≤ i := by exact_mod_cast (by omega : N + h ≤ i)
    push_cast at h3
    constructor <;> linarith
  have hiJ : ¬ j < M + h → ((M - 2 - (j - (M + h)) : ℕ) : ℚ) = 2 * M + h - 2 - j ∧ (2 * M + h - 2 - j : ℚ) ≤ M - 1 := by
    intro hx
    have h2 : ((M - 2 - (j - (M + h)) + j + 2 : ℕ) : ℚ) = ((2 * M + h : ℕ) : ℚ) := by congr 1; omega
    push_cast at h2
    have h3 : ((M + h : ℕ) : ℚ) ≤ j := by exact_mod_cast (by omega : M + h ≤ j)
    push_cast at h3
    constructor <;> linarith
  have pI : i < h → (0 : ℚ) ≤ h - i := fun hx => by have : (i : ℚ) ≤ h := by exact_mod_cast hx.le
                                                    linarith
  have pJ : j < h → (0 : ℚ) ≤ h - j := fun hx => by have : (j : ℚ) ≤ h := by exact_mod_cast hx.le
                                                    linarith
  unfold pad
  simp only [cN, cM, Nat.cast_zero, mul_zero, add_zero]
  split_ifs with c1 c2 c3 c4 c5 c6 c7 c8
  · rw [lowI c1, lowJ c2, hb _ _ (by have := mul_nonneg hβ (pI c1); have := mul_nonneg hγ (pJ c2); linarith)]; ring
  · rw [lowI c1, midJ c2, hb _ _ (by have := mul_nonneg hβ (pI c1); linarith)]; ring
  · obtain ⟨e1, e2⟩ := hiJ c3
    have := mul_le_mul_of_nonneg_left e2 hγ
    have := mul_nonneg hβ (pI c1)
    rw [lowI c1, e1, hab _ _ (by linarith), hab _ _ (by linarith), hb _ _ (by linarith)]; ring
  · rw [midI c1, lowJ c5, hb _ _ (by have := mul_nonneg hγ (pJ c5); linarith)]; ring
  · rw [midI c1, midJ c5]
  · obtain ⟨e1, e2⟩ := hiJ c6
    have := mul_le_mul_of_nonneg_left e2 hγ
    rw [midI c1, e1, hab _ _ (by linarith)]; ring
  · obtain ⟨e1, e2⟩ := hiI c4
    have := mul_le_mul_of_nonneg_left e2 hβ
    have := mul_nonneg hγ (pJ c7)
    rw [lowJ c7, e1, hab _ _ (by linarith), hab _ _ (by linarith), hb _ _ (by linarith)]; ring
  · obtain ⟨e1, e2⟩ := hiI c4
    have := mul_le_mul_of_nonneg_left e2 hβ
    rw [midJ c7, e1, hab _ _ (by linarith)]; ring
  · obtain ⟨e1, e2⟩ := hiI c4
    obtain ⟨e3, e4⟩ := hiJ c8
    have := mul_le_mul_of_nonneg_left e2 hβ
    have := mul_le_mul_of_nonneg_left e4 hγ
    rw [e1, e3, hab _ _ (by linarith)]; ring

/-- C148, the part that holds: a plane that does not fall along either axis is reproduced at every pixel, borders
included. -/
theorem C148_rising_plane_partial (N M h order : ℕ) (α β γ : ℚ) (hβ : 0 ≤ β) (hγ : 0 ≤ γ) (ho : 1 ≤ order)
    (hv : Spec.Valid ⟨N, M, fun r c => α + β * r + γ * c⟩ h order) (pinv) (hP : IsPinv (design h order) (pinv h order)) (r s : ℕ) (hr : r < N) (hs : s < M) :
    Spec.valueAt (sgolay2d ⟨N, M, fun r c => α + β * r + γ * c⟩ (2 * h + 1) order pinv .none) r s (α + β * r + γ * s) := by
  obtain ⟨hi, e, hrun⟩ := smooth_eq _ h order hv pinv
  refine ⟨_, hrun, ?_⟩
  have hN : h < N := hv.rows
  have hM : h < M := hv.cols
  show convValid h (pad h ⟨N, M, fun r c => α + β * r + γ * c⟩) (pinv h order ⟨0, hi⟩) r s = _
  rw [conv_poly' h order hv.ord _ hP ⟨0, hi⟩ _ 1 ho (fun e f => if (e, f) = (0, 0) then α else if (e, f) = (1, 0) then β else if (e, f) = (0, 1) then γ else 0)
    r s 0 0 e]
  · simp [Finset.sum_range_succ]; ring
  · intro u v
    have h1 := u.isLt
    have h2 := v.isLt
    rw [pad_ramp h N M α β γ hβ hγ hN hM _ _ (by omega) (by omega)]
    simp [Spec.poly, Finset.sum_range_succ, ind]
    rw [Nat.cast_sub (by omega), Nat.cast_sub (by omega)]
    push_cast
    ring

/-- For full column rank the normal equations determine the pseudo-inverse. -/
theorem normal_eq {m n : Type} [Fintype m] [Fintype n] (A : Matrix m n ℚ) (P : Matrix n m ℚ) (h : IsPinv A P) :
    A.transpose * A * P = A.transpose := by
  have h1 : A.transpose * (A * P) = A.transpose := by
    rw [← h.sap, ← Matrix.transpose_mul, h.apa]
  rw [Matrix.mul_assoc, h1]

/-- The 3 × 3 kernel of order 1 is the plain average. -/
theorem kernel_3_1 (P) (h : IsPinv (design 1 1) P) (hi : 0 < (exps 1).length) : ∀ p, P ⟨0, hi⟩ p = 1 / 9 := by
  intro p
  have h1 := congrFun (congrFun (normal_eq _ _ h) ⟨0, hi⟩) p
  have hG : (design 1 1).transpose * design 1 1 = Matrix.diagonal (fun i : Fin (exps 1).length => if i.val = 0 then 9 else 6) := by
    decide +kernel
  rw [hG, Matrix.diagonal_mul] at h1
  have h2 : (design 1 1).transpose ⟨0, hi⟩ p = 1 := by
    have : ∀ p, (design 1 1).transpose ⟨0, by decide⟩ p = 1 := by decide +kernel
    exact this p
  rw [h2] at h1
  simp at h1
  linarith

/-- C148 is false for falling images: the ramp 4, 3, 2, 1, 0 down the rows is not reproduced in the first row (the padding
continues it upwards with 3 instead of 5). -/
theorem C148_falling_ramp_refuted (pinv) (hP : IsPinv (design 1 1) (pinv 1 1)) :
    Spec.valueAt (sgolay2d ⟨5, 5, fun r _ => 4 - r⟩ 3 1 pinv .none) 0 2 (10 / 3) := by
  obtain ⟨hi, _, hrun⟩ := smooth_eq ⟨5, 5, fun r _ => 4 - r⟩ 1 1 ⟨by decide, by decide, by decide, by decide⟩ pinv
  refine ⟨_, hrun, ?_⟩
  show convValid 1 (pad 1 ⟨5, 5, fun r _ => 4 - r⟩) (pinv 1 1 ⟨0, hi⟩) 0 2 = _
  unfold convValid
  simp only [kernel_3_1 _ hP hi]
  decide +kernel

/-! ## C149 arguments -/

/-- Even windows and windows with too few points for the polynomial raise ValueError, as does a window of one pixel; an
unknown kind of derivative gives None. -/
theorem C149_errors (im : Img) (window order h : ℕ) (pinv) (d : Deriv) :
    (window % 2 = 0 → sgolay2d im window order pinv d = .error .valueError) ∧
    (2 * window ^ 2 < (order + 1) * (order + 2) → sgolay2d im window order pinv d = .error .valueError) ∧
    (0 < im.N → 0 < im.M → sgolay2d im 1 order pinv d = .error .valueError) ∧
    (Spec.Valid im h order → sgolay2d im (2 * h + 1) order pinv .other = .ok .nothing) := by
  refine ⟨?_, ?_, ?_, ?_⟩
  · intro hw; unfold sgolay2d; simp only; rw [if_pos hw]
  · intro hw
    unfold sgolay2d
    simp only
    split
    · rfl
    · rw [if_pos]
      have : ((2 * window ^ 2 : ℕ) : ℚ) < (((order + 1) * (order + 2) : ℕ) : ℚ) := by exact_mod_cast hw
      push_cast at this
      rw [lt_div_iff₀ (by norm_num)]; linarith
  · intro hN hM
    unfold sgolay2d
    simp only
    split
    · rfl
    · split
      · rfl
      · unfold run; rw [if_neg (by omega), if_pos (by left; rfl)]
  · intro hv
    obtain ⟨h1, h2, h3⟩ := run_checks im h order hv pinv .other
    rw [h1]; unfold run; rw [if_neg h2, if_neg h3]

/-- C149 is false as documented ("order must be less than window_size - 1"): order 5 with window 5 is accepted, and then
the derivative of the plain ramp r is not 1. -/
theorem C149_order_not_checked_refuted (pinv) (hP : IsPinv (design 2 5) (pinv 2 5)) (N M : ℕ) (hN : 5 ≤ N) (hM : 5 ≤ M) :
    ∃ o, sgolay2d ⟨N, M, fun r _ => (r : ℚ)⟩ 5 5 pinv .col = .ok (.one o) ∧ o.px 2 2 ≠ 1 := by
  have hl : 1 < (exps 5).length := by decide
  refine ⟨filtered 2 ⟨N, M, fun r _ => (r : ℚ)⟩ (fun p => - pinv 2 5 ⟨1, hl⟩ p), ?_, ?_⟩
  · unfold sgolay2d
    simp only
    rw [if_neg (by decide), if_neg (by norm_num)]
    unfold run kernelRow
    simp only
    rw [if_neg (by omega), if_neg (by omega), dif_pos hl]
    rfl
  · intro hone
    set Q := pinv 2 5 * design 2 5 with hQ
    -- the vector of coefficients of x^5 - 5 x^3 + 4 x
    set v : Fin (exps 5).length → ℚ := fun k => if (exps 5).get k = (5, 0) then 1 else if (exps 5).get k = (3, 0) then -5 else
      if (exps 5).get k = (1, 0) then 4 else 0 with hv
    have hker : (design 2 5).mulVec v = 0 := by rw [hv]; decide +kernel
    have hQv : Q.mulVec v = 0 := by rw [hQ, ← Matrix.mulVec_mulVec, hker, Matrix.mulVec_zero]
    have hsym : Q.transpose = Q := hP.spa
    have hidem : Q * Q = Q := by rw [hQ, ← Matrix.mul_assoc, hP.pap]
    have hAQ : design 2 5 * Q = design 2 5 := by rw [hQ, ← Matrix.mul_assoc, hP.apa]
    have h0 : 0 < (exps 5).length := by decide
    -- the row of the window's centre is (1, 0, 0, ...)
    have hc : ∀ k, design 2 5 (2, 2) k = if k = ⟨0, h0⟩ then 1 else 0 := by clear_value Q v; clear * -; decide +kernel +revert
    have hQ0 : Q ⟨0, h0⟩ ⟨1, hl⟩ = 0 := by
      have := congrFun (congrFun hAQ (2, 2)) ⟨1, hl⟩
      rw [Matrix.mul_apply] at this
      simpa [hc] using this
    have hQ1 : Q ⟨1, hl⟩ ⟨0, h0⟩ = 0 := by rw [← hsym]; exact hQ0
    have hval : Q ⟨1, hl⟩ ⟨1, hl⟩ = 1 := by
      rw [← hone]
      show _ = convValid 2 (pad 2 ⟨N, M, fun r _ => (r : ℚ)⟩) (fun p => - pinv 2 5 ⟨1, hl⟩ p) 2 2
      have hpad : ∀ p : Fin (2 * 2 + 1) × Fin (2 * 2 + 1), pad 2 ⟨N, M, fun r _ => (r : ℚ)⟩ (2 + (2 * 2 - p.1)) (2 + (2 * 2 - p.2)) =
          2 * design 2 5 p ⟨0, h0⟩ - design 2 5 p ⟨1, hl⟩ := by
        intro p
        have h1 := p.1.isLt
        have h2 := p.2.isLt
        rw [show 2 + (2 * 2 - (p.1 : ℕ)) = (4 - p.1) + 2 by omega, show 2 + (2 * 2 - (p.2 : ℕ)) = (4 - p.2) + 2 by omega,
          pad_inside _ _ _ _ (show 4 - (p.1 : ℕ) < N by omega) (show 4 - (p.2 : ℕ) < M by omega)]
        have e0 : design 2 5 p ⟨0, h0⟩ = 1 := by
          have : ∀ p, design 2 5 p ⟨0, by decide⟩ = 1 := by decide +kernel
          exact this p
        have e1 : design 2 5 p ⟨1, hl⟩ = ind 2 p.1 := by
          have : ∀ p, design 2 5 p ⟨1, by decide⟩ = ind 2 p.1 := by decide +kernel
          exact this p
        rw [e0, e1]; unfold ind
        show ((4 - (p.1 : ℕ) : ℕ) : ℚ) = _
        rw [Nat.cast_sub (by omega)]; push_cast; ring
      unfold convValid
      simp only [hpad]
      have : ∀ p, (2 * design 2 5 p ⟨0, h0⟩ - design 2 5 p ⟨1, hl⟩) * -pinv 2 5 ⟨1, hl⟩ p =
          pinv 2 5 ⟨1, hl⟩ p * design 2 5 p ⟨1, hl⟩ - 2 * (pinv 2 5 ⟨1, hl⟩ p * design 2 5 p ⟨0, h0⟩) := by intro p; ring
      rw [Finset.sum_congr rfl (fun p _ => this p), Finset.sum_sub_distrib, ← Finset.mul_sum, ← Matrix.mul_apply, ← Matrix.mul_apply, ← hQ, hQ1]
      ring
    have hsq : ∑ k, Q ⟨1, hl⟩ k ^ 2 = 1 := by
      rw [← hval]
      conv_rhs => rw [← hidem]
      rw [Matrix.mul_apply]
      apply Finset.sum_congr rfl
      intro k _
      have : Q k ⟨1, hl⟩ = Q ⟨1, hl⟩ k := congrFun (congrFun hsym ⟨1, hl⟩) k
      rw [this]; ring
    have hoff : ∀ k, k ≠ ⟨1, hl⟩ → Q ⟨1, hl⟩ k = 0 := by
      rw [← Finset.add_sum_erase _ _ (Finset.mem_univ (⟨1, hl⟩ : Fin (exps 5).length)), hval] at hsq
      have h3 : ∑ k ∈ Finset.univ.erase (⟨1, hl⟩ : Fin (exps 5).length), Q ⟨1, hl⟩ k ^ 2 = 0 := by linarith
      rw [Finset.sum_eq_zero_iff_of_nonneg (fun _ _ => sq_nonneg _)] at h3
      intro k hk
      exact pow_eq_zero_iff (two_ne_zero) |>.1 (h3 k (Finset.mem_erase.2 ⟨hk, Finset.mem_univ _⟩))
    have hcomp := congrFun hQv ⟨1, hl⟩
    rw [Matrix.mulVec, dotProduct, Finset.sum_eq_single ⟨1, hl⟩ (fun k _ hk => by rw [hoff k hk, zero_mul]) (by simp), hval] at hcomp
    have hv1 : v ⟨1, hl⟩ = 4 := by rw [hv]; clear * -; decide +kernel +revert
    rw [hv1] at hcomp
    norm_num at hcomp

end Verif.Smooth
