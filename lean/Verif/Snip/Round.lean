/- Property C240: snip_method in double precision (skbeam/core/fitting/background.py:161-202). -/
import Verif.Snip.Props
import Verif.FlMono
import Mathlib.Analysis.Complex.ExponentialBounds

namespace Verif.Snip.Rnd
open Verif Verif.Fl

/-! ## Model -/

/-- `np.log(np.log(background + 1) + 1)`, background.py 167, in rounded arithmetic; `flog` is what `np.log` computes. -/
def llsF (rnd flog : ℚ → ℚ) (x : ℚ) : ℚ := flog (rnd (flog (rnd (x + 1)) + 1))

/-- `np.exp(np.exp(background) - 1) - 1`, background.py 197; `fexp` is what `np.exp` computes. -/
def invF (rnd fexp : ℚ → ℚ) (x : ℚ) : ℚ := rnd (fexp (rnd (fexp x - 1)) - 1)

/-- One snipping pass, background.py 173-179 and 185-191, with the indices `lo`, `hi` that the computed windows give. -/
def passF (rnd : ℚ → ℚ) (lo hi : ℕ → ℕ) (b : ℕ → ℚ) (i : ℕ) : ℚ :=
  let temp := rnd (rnd (b (lo i) + b (hi i)) / 2)
  if temp < b i then temp else b i

/-- Lines 167-202 of `snip_method`: `smoothed` is the computed smoothed spectrum, `passes` are the index arrays of all passes (the first ones
and those of the while loop).  The windows are computed in rounded arithmetic too: the theorems hold for all index arrays inside the spectrum,
whatever these computations give.  No overflow, so that nothing is replaced in lines 199-200. -/
def snipF (rnd flog fexp : ℚ → ℚ) (passes : List ((ℕ → ℕ) × (ℕ → ℕ))) (smoothed : ℕ → ℚ) (i : ℕ) : ℚ :=
  invF rnd fexp (passes.foldl (fun b p => passF rnd p.1 p.2 b) (fun j => llsF rnd flog (smoothed j)) i)

/-! ## Specification -/

/-- A computed function with relative error at most v, whose results are floating-point numbers. -/
def Spec.Computes (rnd : ℚ → ℚ) (v : ℚ) (f : ℝ → ℝ) (g : ℚ → ℚ) : Prop := ∀ x : ℚ, rnd (g x) = g x ∧ |(g x : ℝ) - f x| ≤ v * |f x|

/-- The index arrays stay inside a spectrum of n channels. -/
def Spec.Inside (n : ℕ) (passes : List ((ℕ → ℕ) × (ℕ → ℕ))) : Prop := ∀ p ∈ passes, ∀ i < n, p.1 i < n ∧ p.2 i < n

/-! ## Proofs -/

section
variable {rnd flog fexp : ℚ → ℚ} {v : ℚ}

/-- A value within relative error v. -/
theorem up_of {a x V : ℝ} (h : |a - x| ≤ V * |x|) (hV0 : 0 ≤ V) (hV : V ≤ 1) {y : ℝ} (hxy : x ≤ y) : a ≤ y + V * |y| := by
  have h1 := (abs_le.1 h).2
  have : x + V * |x| ≤ y + V * |y| := by
    rcases abs_cases x with ⟨e, _⟩ | ⟨e, _⟩ <;> rcases abs_cases y with ⟨e', _⟩ | ⟨e', _⟩ <;> rw [e, e'] <;> nlinarith
  linarith

theorem lo_of {a x V : ℝ} (h : |a - x| ≤ V * |x|) (hV0 : 0 ≤ V) (hV : V ≤ 1) {y : ℝ} (hxy : y ≤ x) : y - V * |y| ≤ a := by
  have h1 := (abs_le.1 h).1
  have : y - V * |y| ≤ x - V * |x| := by
    rcases abs_cases x with ⟨e, _⟩ | ⟨e, _⟩ <;> rcases abs_cases y with ⟨e', _⟩ | ⟨e', _⟩ <;> rw [e, e'] <;> nlinarith
  linarith

theorem exp_upper {t : ℝ} (h0 : 0 ≤ t) (h1 : t ≤ 1 / 2 ^ 30) : Real.exp t ≤ 1 + t + t ^ 2 := by
  have h := Real.abs_exp_sub_one_sub_id_le (x := t) (by rw [abs_of_nonneg h0]; exact h1.trans (by norm_num))
  have := (abs_le.1 h).2
  linarith

theorem rndR (hr : Fl.Spec.Rel v rnd) (x : ℚ) : |(rnd x : ℝ) - x| ≤ v * |(x : ℝ)| := by
  have := hr.2 x
  exact_mod_cast this

/-- The logarithm of the logarithm of a count. -/
theorem count_bounds (B : ℝ) (h0 : 0 ≤ B) (h1 : B ≤ 2 ^ 53) : 0 ≤ Real.log (B + 1) ∧ Real.log (B + 1) ≤ 38 ∧
    0 ≤ Real.log (Real.log (B + 1) + 1) ∧ Real.log (Real.log (B + 1) + 1) ≤ 4 := by
  have hl := Real.log_nonneg (show (1 : ℝ) ≤ B + 1 by linarith)
  have hu : Real.log (B + 1) ≤ 38 := by
    have : Real.log (B + 1) ≤ Real.log (2 ^ 54) := Real.log_le_log (by linarith) (by norm_num at *; linarith)
    rw [Real.log_pow] at this
    have h2 := Real.log_two_lt_d9
    push_cast at this
    linarith
  refine ⟨hl, hu, Real.log_nonneg (by linarith), ?_⟩
  have h3 : Real.log (Real.log (B + 1) + 1) ≤ Real.log (Real.exp 4) := by
    apply Real.log_le_log (by linarith)
    have : Real.exp 4 = Real.exp 1 ^ 4 := by rw [← Real.exp_nat_mul]; norm_num
    rw [this]
    have e := Real.exp_one_gt_d9
    have : (2.7 : ℝ) ^ 4 ≤ Real.exp 1 ^ 4 := pow_le_pow_left₀ (by norm_num) (by linarith) 4
    norm_num at this ⊢
    linarith
  rwa [Real.log_exp] at h3

theorem log_one_add (V : ℝ) (h : 0 ≤ V) : Real.log (1 + V) ≤ V := by
  have := Real.log_le_sub_one_of_pos (show 0 < 1 + V by linarith); linarith

theorem log_one_sub (V : ℝ) (h : 0 ≤ V) (h1 : V ≤ 1 / 2 ^ 30) : -(2 * V) ≤ Real.log (1 - V) := by
  rw [Real.le_log_iff_exp_le (by norm_num at h1; linarith)]
  have h2 := Real.abs_exp_sub_one_sub_id_le (x := -(2 * V)) (by rw [abs_neg, abs_of_nonneg (by linarith)]; norm_num at h1; linarith)
  have := (abs_le.1 h2).2
  norm_num at h1
  nlinarith

/-- The computed double logarithm. -/
theorem lls_near (hr : Fl.Spec.Rel v rnd) (hc : Fl.Spec.Correct rnd) (h1' : rnd 1 = 1) (hl : Spec.Computes rnd v Real.log flog) (hv : v ≤ 1 / 2 ^ 50)
    (B : ℚ) (h0 : 0 ≤ B) (h1 : B ≤ 2 ^ 53) :
    |(llsF rnd flog B : ℝ) - Real.log (Real.log ((B : ℝ) + 1) + 1)| ≤ 13 * v := by
  have hv0 : (0 : ℝ) ≤ v := by exact_mod_cast hr.1
  have hv1 : (v : ℝ) ≤ 1 / 2 ^ 50 := by have : ((v : ℚ) : ℝ) ≤ ((1 / 2 ^ 50 : ℚ) : ℝ) := Rat.cast_le.2 hv
                                        simpa using this
  have hB0 : (0 : ℝ) ≤ B := by exact_mod_cast h0
  have hB1 : (B : ℝ) ≤ 2 ^ 53 := by exact_mod_cast h1
  obtain ⟨c1, c2, c3, c4⟩ := count_bounds B hB0 hB1
  obtain ⟨V, hV⟩ : ∃ V : ℝ, V = (v : ℝ) := ⟨_, rfl⟩
  rw [← hV] at hv0 hv1 ⊢
  have hvs : V ≤ 1 / 2 ^ 30 := hv1.trans (by norm_num)
  obtain ⟨L, hL⟩ : ∃ L : ℝ, L = Real.log ((B : ℝ) + 1) := ⟨_, rfl⟩
  obtain ⟨y1, hy1⟩ : ∃ y : ℚ, y = rnd (B + 1) := ⟨_, rfl⟩
  obtain ⟨l1, hl1⟩ : ∃ y : ℚ, y = flog y1 := ⟨_, rfl⟩
  obtain ⟨y2, hy2⟩ : ∃ y : ℚ, y = rnd (l1 + 1) := ⟨_, rfl⟩
  have e : llsF rnd flog B = flog y2 := by rw [hy2, hl1, hy1]; rfl
  rw [e, ← hL]
  rw [← hL] at c1 c2 c3 c4
  -- first sum
  have g1 : (1 : ℝ) ≤ y1 := by
    have : rnd 1 ≤ rnd (B + 1) := hc.mono _ _ (by linarith)
    rw [h1', ← hy1] at this
    exact_mod_cast this
  have r1 := rndR hr (B + 1)
  rw [← hy1, ← hV] at r1
  push_cast at r1
  rw [abs_of_nonneg (show (0 : ℝ) ≤ B + 1 by linarith)] at r1
  have hP : (0 : ℝ) < B + 1 := by linarith
  have k1 : Real.log y1 ≤ L + V := by
    have : Real.log y1 ≤ Real.log ((B + 1) * (1 + V)) := Real.log_le_log (by linarith) (by have := (abs_le.1 r1).2; nlinarith)
    rw [Real.log_mul hP.ne' (by linarith), ← hL] at this
    linarith [log_one_add V hv0]
  have k2 : L - 2 * V ≤ Real.log y1 := by
    have hpos : 0 < 1 - V := by norm_num at hvs; linarith
    have : Real.log ((B + 1) * (1 - V)) ≤ Real.log y1 := Real.log_le_log (mul_pos hP hpos) (by have := (abs_le.1 r1).1; nlinarith)
    rw [Real.log_mul hP.ne' hpos.ne', ← hL] at this
    linarith [log_one_sub V hv0 hvs]
  have k0 := Real.log_nonneg g1
  -- first logarithm
  have r2 := (hl y1).2
  rw [← hl1, ← hV, abs_of_nonneg k0] at r2
  have l0 : (0 : ℝ) ≤ l1 := by have := (abs_le.1 r2).1; nlinarith
  have m1 : (l1 : ℝ) + 1 ≤ (L + 1) * (1 + 2 * V) := by have := (abs_le.1 r2).2; nlinarith
  have m2 : (L + 1) * (1 - 3 * V) ≤ (l1 : ℝ) + 1 := by have := (abs_le.1 r2).1; nlinarith
  -- second sum
  have r3 := rndR hr (l1 + 1)
  rw [← hy2, ← hV] at r3
  push_cast at r3
  rw [abs_of_nonneg (show (0 : ℝ) ≤ l1 + 1 by linarith)] at r3
  have g2 : (1 : ℝ) ≤ y2 := by
    have h : (0 : ℚ) ≤ l1 := by exact_mod_cast l0
    have : rnd 1 ≤ rnd (l1 + 1) := hc.mono _ _ (by linarith)
    rw [h1', ← hy2] at this
    exact_mod_cast this
  have n1 : (y2 : ℝ) ≤ (L + 1) * (1 + 4 * V) := by have := (abs_le.1 r3).2; nlinarith
  have n2 : (L + 1) * (1 - 4 * V) ≤ (y2 : ℝ) := by
    have := (abs_le.1 r3).1
    have h3 : ((l1 : ℝ) + 1) * (1 - V) ≤ y2 := by linarith
    have h4 : (L + 1) * (1 - 3 * V) * (1 - V) ≤ ((l1 : ℝ) + 1) * (1 - V) := mul_le_mul_of_nonneg_right m2 (by norm_num at hvs; linarith)
    have h5 : (L + 1) * (1 - 4 * V) ≤ (L + 1) * (1 - 3 * V) * (1 - V) := by rw [mul_assoc]; apply mul_le_mul_of_nonneg_left _ (by linarith); nlinarith
    linarith
  have hM : (0 : ℝ) < L + 1 := by linarith
  have p1 : Real.log y2 ≤ Real.log (L + 1) + 4 * V := by
    have := Real.log_le_log (by linarith) n1
    rw [Real.log_mul hM.ne' (by linarith)] at this
    linarith [log_one_add (4 * V) (by linarith)]
  have p2 : Real.log (L + 1) - 8 * V ≤ Real.log y2 := by
    have h4 : 4 * V ≤ 1 / 2 ^ 30 := by norm_num at hv1 ⊢; linarith
    have hpos : 0 < 1 - 4 * V := by norm_num at h4; linarith
    have := Real.log_le_log (mul_pos hM hpos) n2
    rw [Real.log_mul hM.ne' hpos.ne'] at this
    linarith [log_one_sub (4 * V) (by linarith) h4]
  have p0 := Real.log_nonneg g2
  have r4 := (hl y2).2
  rw [← hV, abs_of_nonneg p0] at r4
  have q : V * Real.log y2 ≤ 4 * V + V * (1 / 2) := by
    have : Real.log y2 ≤ 4 + 1 / 2 := by norm_num at hvs; linarith
    nlinarith
  have := abs_le.1 r4
  rw [abs_le]
  constructor <;> linarith [this.1, this.2]

/-- Coming back, from above. -/
theorem inv_upper (hr : Fl.Spec.Rel v rnd) (he : Spec.Computes rnd v Real.exp fexp) (hv : v ≤ 1 / 2 ^ 50)
    (B : ℝ) (h0 : 0 ≤ B) (h1 : B ≤ 2 ^ 53) (x : ℚ) (hx : (x : ℝ) ≤ Real.log (Real.log (B + 1) + 1) + 13 * v) :
    (invF rnd fexp x : ℝ) ≤ B + 700 * v * (B + 1) := by
  have hv0 : (0 : ℝ) ≤ v := by exact_mod_cast hr.1
  have hv1 : (v : ℝ) ≤ 1 / 2 ^ 50 := by have : ((v : ℚ) : ℝ) ≤ ((1 / 2 ^ 50 : ℚ) : ℝ) := Rat.cast_le.2 hv
                                        simpa using this
  obtain ⟨c1, c2, c3, c4⟩ := count_bounds B h0 h1
  obtain ⟨V, hV⟩ : ∃ V : ℝ, V = (v : ℝ) := ⟨_, rfl⟩
  rw [← hV] at hv0 hv1 hx ⊢
  obtain ⟨e1, he1⟩ : ∃ y : ℚ, y = fexp x := ⟨_, rfl⟩
  obtain ⟨y, hy⟩ : ∃ y : ℚ, y = rnd (e1 - 1) := ⟨_, rfl⟩
  obtain ⟨e2, he2⟩ : ∃ z : ℚ, z = fexp y := ⟨_, rfl⟩
  have e : invF rnd fexp x = rnd (e2 - 1) := by rw [he2, hy, he1]; rfl
  rw [e]
  obtain ⟨L, hL⟩ : ∃ L : ℝ, L = Real.log (B + 1) := ⟨_, rfl⟩
  rw [← hL] at hx c1 c2 c3 c4
  have hM : (0 : ℝ) < L + 1 := by linarith
  have hP : (0 : ℝ) < B + 1 := by linarith
  have hVle : V ≤ 1 := hv1.trans (by norm_num)
  norm_num at hv1
  have hVV : V * V ≤ V * (1 / 1125899906842624) := mul_le_mul_of_nonneg_left hv1 hv0
  -- first exponential
  have r1 := (he x).2
  rw [← he1, ← hV, abs_of_pos (Real.exp_pos _)] at r1
  have a1 : Real.exp x ≤ (L + 1) * (1 + 14 * V) := by
    have := Real.exp_le_exp.2 hx
    rw [Real.exp_add, Real.exp_log hM] at this
    have h2 := exp_upper (t := 13 * V) (by linarith) (by norm_num; linarith)
    have h3 : Real.exp (13 * V) ≤ 1 + 14 * V := by nlinarith
    exact this.trans (mul_le_mul_of_nonneg_left h3 hM.le)
  have a2 : (e1 : ℝ) ≤ (L + 1) * (1 + 16 * V) := by
    have h2 := (abs_le.1 r1).2
    have h3 : (e1 : ℝ) ≤ Real.exp x * (1 + V) := by linarith
    have h4 : Real.exp x * (1 + V) ≤ (L + 1) * (1 + 14 * V) * (1 + V) := mul_le_mul_of_nonneg_right a1 (by linarith)
    have h5 : (L + 1) * (1 + 14 * V) * (1 + V) ≤ (L + 1) * (1 + 16 * V) := by rw [mul_assoc]; apply mul_le_mul_of_nonneg_left _ hM.le; nlinarith
    linarith
  -- minus one
  have r2 := rndR hr (e1 - 1)
  rw [← hy, ← hV] at r2
  push_cast at r2
  have hLV : L * V ≤ 38 * V := mul_le_mul_of_nonneg_right c2 hv0
  have a3 : (y : ℝ) ≤ L + 624 * V + V * |L + 624 * V| := up_of r2 hv0 hVle (by linarith)
  rw [abs_of_nonneg (show 0 ≤ L + 624 * V by linarith)] at a3
  have a4 : (y : ℝ) ≤ L + 664 * V := by linarith
  -- second exponential
  have r3 := (he y).2
  rw [← he2, ← hV, abs_of_pos (Real.exp_pos _)] at r3
  have b1 : Real.exp y ≤ (B + 1) * (1 + 665 * V) := by
    have := Real.exp_le_exp.2 a4
    rw [Real.exp_add, hL, Real.exp_log hP] at this
    have h2 := exp_upper (t := 664 * V) (by linarith) (by norm_num; linarith)
    have h3 : Real.exp (664 * V) ≤ 1 + 665 * V := by linarith
    exact this.trans (mul_le_mul_of_nonneg_left h3 hP.le)
  have b2 : (e2 : ℝ) ≤ (B + 1) * (1 + 667 * V) := by
    have h2 := (abs_le.1 r3).2
    have h3 : (e2 : ℝ) ≤ Real.exp y * (1 + V) := by linarith
    have h4 : Real.exp y * (1 + V) ≤ (B + 1) * (1 + 665 * V) * (1 + V) := mul_le_mul_of_nonneg_right b1 (by linarith)
    have h5 : (B + 1) * (1 + 665 * V) * (1 + V) ≤ (B + 1) * (1 + 667 * V) := by rw [mul_assoc]; apply mul_le_mul_of_nonneg_left _ hP.le; linarith
    linarith
  have r4 := rndR hr (e2 - 1)
  rw [← hV] at r4
  push_cast at r4
  have hBV : 0 ≤ (B + 1) * V := mul_nonneg hP.le hv0
  have hBVV : (B + 1) * V * V ≤ (B + 1) * V * (1 / 1125899906842624) := mul_le_mul_of_nonneg_left hv1 hBV
  have b3 := up_of r4 hv0 hVle (y := B + 667 * ((B + 1) * V)) (by linarith)
  rw [abs_of_nonneg (by linarith)] at b3
  linarith

/-- Coming back, from below. -/
theorem inv_lower (hr : Fl.Spec.Rel v rnd) (he : Spec.Computes rnd v Real.exp fexp) (hv : v ≤ 1 / 2 ^ 50)
    (B : ℝ) (h0 : 0 ≤ B) (h1 : B ≤ 2 ^ 53) (x : ℚ) (hx : Real.log (Real.log (B + 1) + 1) - 13 * v ≤ (x : ℝ)) :
    B - 700 * v * (B + 1) ≤ (invF rnd fexp x : ℝ) := by
  have hv0 : (0 : ℝ) ≤ v := by exact_mod_cast hr.1
  have hv1 : (v : ℝ) ≤ 1 / 2 ^ 50 := by have : ((v : ℚ) : ℝ) ≤ ((1 / 2 ^ 50 : ℚ) : ℝ) := Rat.cast_le.2 hv
                                        simpa using this
  obtain ⟨c1, c2, c3, c4⟩ := count_bounds B h0 h1
  obtain ⟨V, hV⟩ : ∃ V : ℝ, V = (v : ℝ) := ⟨_, rfl⟩
  rw [← hV] at hv0 hv1 hx ⊢
  obtain ⟨e1, he1⟩ : ∃ y : ℚ, y = fexp x := ⟨_, rfl⟩
  obtain ⟨y, hy⟩ : ∃ y : ℚ, y = rnd (e1 - 1) := ⟨_, rfl⟩
  obtain ⟨e2, he2⟩ : ∃ z : ℚ, z = fexp y := ⟨_, rfl⟩
  have e : invF rnd fexp x = rnd (e2 - 1) := by rw [he2, hy, he1]; rfl
  rw [e]
  obtain ⟨L, hL⟩ : ∃ L : ℝ, L = Real.log (B + 1) := ⟨_, rfl⟩
  rw [← hL] at hx c1 c2 c3 c4
  have hM : (0 : ℝ) < L + 1 := by linarith
  have hP : (0 : ℝ) < B + 1 := by linarith
  have hVle : V ≤ 1 := hv1.trans (by norm_num)
  norm_num at hv1
  have hVV : V * V ≤ V * (1 / 1125899906842624) := mul_le_mul_of_nonneg_left hv1 hv0
  have r1 := (he x).2
  rw [← he1, ← hV, abs_of_pos (Real.exp_pos _)] at r1
  have a1 : (L + 1) * (1 - 13 * V) ≤ Real.exp x := by
    have := Real.exp_le_exp.2 hx
    rw [sub_eq_add_neg, Real.exp_add, Real.exp_log hM] at this
    have h3 : 1 - 13 * V ≤ Real.exp (-(13 * V)) := by linarith [Real.add_one_le_exp (-(13 * V))]
    exact (mul_le_mul_of_nonneg_left h3 hM.le).trans this
  have a2 : (L + 1) * (1 - 14 * V) ≤ (e1 : ℝ) := by
    have h2 := (abs_le.1 r1).1
    have h3 : Real.exp x * (1 - V) ≤ (e1 : ℝ) := by linarith
    have h4 : (L + 1) * (1 - 13 * V) * (1 - V) ≤ Real.exp x * (1 - V) := mul_le_mul_of_nonneg_right a1 (by linarith)
    have h5 : (L + 1) * (1 - 14 * V) ≤ (L + 1) * (1 - 13 * V) * (1 - V) := by
      rw [mul_assoc]; apply mul_le_mul_of_nonneg_left _ hM.le; linarith [mul_nonneg hv0 hv0]
    linarith
  have r2 := rndR hr (e1 - 1)
  rw [← hy, ← hV] at r2
  push_cast at r2
  have hLV : L * V ≤ 38 * V := mul_le_mul_of_nonneg_right c2 hv0
  have a3 : L - 546 * V - V * |L - 546 * V| ≤ (y : ℝ) := lo_of r2 hv0 hVle (by linarith)
  have habs : V * |L - 546 * V| ≤ V * 39 := mul_le_mul_of_nonneg_left (abs_le.2 ⟨by linarith, by linarith⟩) hv0
  have a4 : L - 585 * V ≤ (y : ℝ) := by linarith
  have r3 := (he y).2
  rw [← he2, ← hV, abs_of_pos (Real.exp_pos _)] at r3
  have b1 : (B + 1) * (1 - 585 * V) ≤ Real.exp y := by
    have := Real.exp_le_exp.2 a4
    rw [sub_eq_add_neg, Real.exp_add, hL, Real.exp_log hP] at this
    have h3 : 1 - 585 * V ≤ Real.exp (-(585 * V)) := by linarith [Real.add_one_le_exp (-(585 * V))]
    exact (mul_le_mul_of_nonneg_left h3 hP.le).trans this
  have b2 : (B + 1) * (1 - 586 * V) ≤ (e2 : ℝ) := by
    have h2 := (abs_le.1 r3).1
    have h3 : Real.exp y * (1 - V) ≤ (e2 : ℝ) := by linarith
    have h4 : (B + 1) * (1 - 585 * V) * (1 - V) ≤ Real.exp y * (1 - V) := mul_le_mul_of_nonneg_right b1 (by linarith)
    have h5 : (B + 1) * (1 - 586 * V) ≤ (B + 1) * (1 - 585 * V) * (1 - V) := by
      rw [mul_assoc]; apply mul_le_mul_of_nonneg_left _ hP.le; linarith [mul_nonneg hv0 hv0]
    linarith
  have r4 := rndR hr (e2 - 1)
  rw [← hV] at r4
  push_cast at r4
  have hBV : 0 ≤ (B + 1) * V := mul_nonneg hP.le hv0
  have b3 := lo_of r4 hv0 hVle (y := B - 586 * ((B + 1) * V)) (by linarith)
  have hsmall : (B + 1) * V ≤ (B + 1) * (1 / 1125899906842624) := mul_le_mul_of_nonneg_left hv1 hP.le
  have habs2 : V * |B - 586 * ((B + 1) * V)| ≤ V * (B + 1) := mul_le_mul_of_nonneg_left (abs_le.2 ⟨by linarith, by linarith⟩) hv0
  linarith

/-- A pass gives floating-point numbers again, not larger, and not below a lower bound. -/
theorem pass_between (hc : Fl.Spec.Correct rnd) (n : ℕ) (lo hi : ℕ → ℕ) (h : ∀ i < n, lo i < n ∧ hi i < n) (b : ℕ → ℚ) (hb : ∀ i < n, rnd (b i) = b i)
    (i : ℕ) (hi' : i < n) : rnd (passF rnd lo hi b i) = passF rnd lo hi b i ∧ passF rnd lo hi b i ≤ b i ∧
      (passF rnd lo hi b i = b i ∨ min (b (lo i)) (b (hi i)) ≤ passF rnd lo hi b i) := by
  unfold passF
  simp only
  split_ifs with ht
  · refine ⟨hc.idem _, ht.le, Or.inr ?_⟩
    rw [← hc.half, hc.idem]
    obtain ⟨h1, h2⟩ := h i hi'
    have hm : rnd (min (b (lo i)) (b (hi i))) = min (b (lo i)) (b (hi i)) := by
      rcases min_choice (b (lo i)) (b (hi i)) with e | e <;> rw [e]
      · exact hb _ h1
      · exact hb _ h2
    rw [← hm]
    apply hc.mono
    have := min_le_left (b (lo i)) (b (hi i))
    have := min_le_right (b (lo i)) (b (hi i))
    linarith
  · exact ⟨hb i hi', le_refl _, Or.inl rfl⟩

theorem passes_between (hc : Fl.Spec.Correct rnd) (n : ℕ) (passes : List ((ℕ → ℕ) × (ℕ → ℕ))) (h : Spec.Inside n passes) (b : ℕ → ℚ)
    (hb : ∀ i < n, rnd (b i) = b i) (i : ℕ) (hi : i < n) :
    passes.foldl (fun b p => passF rnd p.1 p.2 b) b i ≤ b i ∧ ∃ j < n, b j ≤ passes.foldl (fun b p => passF rnd p.1 p.2 b) b i := by
  induction passes generalizing b with
  | nil => exact ⟨le_refl _, i, hi, le_refl _⟩
  | cons p t ih =>
    have hp := h p (by simp)
    have hpass := pass_between hc n p.1 p.2 hp b hb
    obtain ⟨h1, j, hj, h2⟩ := ih (fun q hq => h q (by simp [hq])) (passF rnd p.1 p.2 b) (fun i hi => (hpass i hi).1)
    rw [List.foldl_cons]
    refine ⟨h1.trans (hpass i hi).2.1, ?_⟩
    rcases (hpass j hj).2.2 with e | e
    · exact ⟨j, hj, by rw [← e]; exact h2⟩
    · rcases min_choice (b (p.1 j)) (b (p.2 j)) with e' | e'
      · exact ⟨p.1 j, (hp j hj).1, by rw [← e']; exact e.trans h2⟩
      · exact ⟨p.2 j, (hp j hj).2, by rw [← e']; exact e.trans h2⟩

end

/-! ## C240 -/

/-- In double precision the background exceeds the smoothed spectrum by at most 700 v (counts + 1) and falls below a lower bound of it by at most as much:
for counts from 0 to 2^53, logarithms and exponentials computed with a relative error of at most v, and any number of passes with any windows. -/
theorem C240_bounds (rnd flog fexp : ℚ → ℚ) (v : ℚ) (hr : Fl.Spec.Rel v rnd) (hc : Fl.Spec.Correct rnd) (h1 : rnd 1 = 1) (hv : v ≤ 1 / 2 ^ 50)
    (hl : Spec.Computes rnd v Real.log flog) (he : Spec.Computes rnd v Real.exp fexp) (n : ℕ) (passes : List ((ℕ → ℕ) × (ℕ → ℕ))) (hp : Spec.Inside n passes)
    (smoothed : ℕ → ℚ) (hs : ∀ j < n, 0 ≤ smoothed j ∧ smoothed j ≤ 2 ^ 53) (i : ℕ) (hi : i < n) :
    snipF rnd flog fexp passes smoothed i ≤ smoothed i + 700 * v * (smoothed i + 1) ∧
      ∀ lo, 0 ≤ lo → (∀ j < n, lo ≤ smoothed j) → lo - 700 * v * (lo + 1) ≤ snipF rnd flog fexp passes smoothed i := by
  obtain ⟨k1, j, hj, k2⟩ := passes_between hc n passes hp (fun j => llsF rnd flog (smoothed j)) (fun j _ => (hl _).1) i hi
  have near : ∀ j < n, _ := fun j hj => lls_near hr hc h1 hl hv (smoothed j) (hs j hj).1 (hs j hj).2
  constructor
  · have h2 := (abs_le.1 (near i hi)).2
    have k1' : ((passes.foldl (fun b p => passF rnd p.1 p.2 b) (fun j => llsF rnd flog (smoothed j)) i : ℚ) : ℝ) ≤ (llsF rnd flog (smoothed i) : ℚ) := Rat.cast_le.2 k1
    have := inv_upper hr he hv (smoothed i) (by exact_mod_cast (hs i hi).1) (by exact_mod_cast (hs i hi).2) _ (k1'.trans (by linarith))
    unfold snipF
    exact_mod_cast this
  · intro lo h0 hlo
    have h2 := (abs_le.1 (near j hj)).1
    have k2' : ((llsF rnd flog (smoothed j) : ℚ) : ℝ) ≤ (passes.foldl (fun b p => passF rnd p.1 p.2 b) (fun j => llsF rnd flog (smoothed j)) i : ℚ) := Rat.cast_le.2 k2
    have h0' : (0 : ℝ) ≤ lo := by exact_mod_cast h0
    have hlj : (lo : ℝ) ≤ smoothed j := Rat.cast_le.2 (hlo j hj)
    have hmono : Real.log (Real.log ((lo : ℝ) + 1) + 1) ≤ Real.log (Real.log ((smoothed j : ℝ) + 1) + 1) := lls_mono h0' hlj
    have hb : (lo : ℝ) ≤ 2 ^ 53 := by exact_mod_cast (hlo j hj).trans (hs j hj).2
    have := inv_lower hr he hv lo h0' hb _ (le_trans (by linarith) k2')
    unfold snipF
    exact_mod_cast this

/-- A flat smoothed spectrum: all channels of the background are the same number, whatever the windows. -/
theorem C240_flat (rnd flog fexp : ℚ → ℚ) (v : ℚ) (hc : Fl.Spec.Correct rnd)
    (hl : Spec.Computes rnd v Real.log flog) (n : ℕ) (passes : List ((ℕ → ℕ) × (ℕ → ℕ))) (hp : Spec.Inside n passes)
    (smoothed : ℕ → ℚ) (hs : ∀ j < n, ∀ k < n, smoothed j = smoothed k) (i k : ℕ) (hi : i < n) (hk : k < n) :
    snipF rnd flog fexp passes smoothed i = snipF rnd flog fexp passes smoothed k := by
  have key : ∀ i < n, passes.foldl (fun b p => passF rnd p.1 p.2 b) (fun j => llsF rnd flog (smoothed j)) i = llsF rnd flog (smoothed k) := by
    intro i hi
    obtain ⟨k1, j, hj, k2⟩ := passes_between hc n passes hp (fun j => llsF rnd flog (smoothed j)) (fun j _ => (hl _).1) i hi
    simp only [hs j hj k hk] at k2
    simp only [hs i hi k hk] at k1
    exact le_antisymm k1 k2
  unfold snipF
  rw [key i hi, key k hk]

/-- Close to every real number there is a double. -/
theorem exists_double (y : ℝ) : ∃ q : ℚ, round53 q = q ∧ |(q : ℝ) - y| ≤ ((1 / 2 ^ 51 : ℚ) : ℝ) * |y| := by
  by_cases h : y = 0
  · exact ⟨0, by decide +kernel, by simp [h]⟩
  · have hy : 0 < |y| := abs_pos.2 h
    obtain ⟨q, hq1, hq2⟩ := exists_rat_btwn (show y - 1 / 2 ^ 53 * |y| < y + 1 / 2 ^ 53 * |y| by linarith [show (0 : ℝ) < 1 / 2 ^ 53 * |y| by positivity])
    refine ⟨round53 q, round53_correct.idem q, ?_⟩
    have h1 := rndR round53_rel q
    have h2 : |(q : ℝ) - y| ≤ 1 / 2 ^ 53 * |y| := abs_le.2 ⟨by linarith, by linarith⟩
    have h3 : |(q : ℝ)| ≤ |y| + 1 / 2 ^ 53 * |y| := by have := abs_sub_abs_le_abs_sub (q : ℝ) y; linarith
    have h4 := abs_sub_le (round53 q : ℝ) q y
    push_cast at h1 ⊢
    norm_num at *
    nlinarith

/-- The hypotheses are met by double precision with well-computed logarithms and exponentials. -/
theorem snip_rounding_example : ∃ flog fexp : ℚ → ℚ, Spec.Computes round53 (1 / 2 ^ 51) Real.log flog ∧ Spec.Computes round53 (1 / 2 ^ 51) Real.exp fexp ∧
    ∀ (n : ℕ) (passes : List ((ℕ → ℕ) × (ℕ → ℕ))), Spec.Inside n passes → ∀ smoothed : ℕ → ℚ, (∀ j < n, 0 ≤ smoothed j ∧ smoothed j ≤ 2 ^ 53) → ∀ i < n,
      snipF round53 flog fexp passes smoothed i ≤ smoothed i + 1 / 2 ^ 41 * (smoothed i + 1) := by
  choose flog hlog using fun x : ℚ => exists_double (Real.log x)
  choose fexp hexp using fun x : ℚ => exists_double (Real.exp x)
  refine ⟨flog, fexp, hlog, hexp, fun n passes hp smoothed hs i hi => ?_⟩
  have hr : Fl.Spec.Rel (1 / 2 ^ 51) round53 := ⟨by positivity, fun x => (round53_rel.2 x).trans (mul_le_mul_of_nonneg_right (by norm_num) (abs_nonneg _))⟩
  have := (C240_bounds round53 flog fexp (1 / 2 ^ 51) hr round53_correct (by decide +kernel) (by norm_num) hlog hexp n passes hp smoothed hs i hi).1
  have h0 := (hs i hi).1
  norm_num at this ⊢
  linarith

example : Spec.Inside 3 [(fun i => i - 1, fun i => min (i + 1) 2)] ∧ ∀ j < 3, (0 : ℚ) ≤ [100, 250, 90].getD j 0 ∧ [100, 250, 90].getD j (0 : ℚ) ≤ 2 ^ 53 := by
  refine ⟨?_, by decide +kernel⟩
  intro p hp i hi
  simp only [List.mem_singleton] at hp
  subst hp
  show i - 1 < 3 ∧ min (i + 1) 2 < 3
  omega

end Verif.Snip.Rnd
