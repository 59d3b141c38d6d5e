/- Property C199: what it means that the reconstruction has stopped changing (skbeam/core/cdi.py 348-365).
All definitions are those of Cdi/Model.lean. -/
import Verif.Cdi.Nearest
import Mathlib.Tactic.IntervalCases

namespace Verif.Cdi
open Finset Verif

/-! ### Specification -/

/-- The object with its values outside the support divided by beta. -/
noncomputable def Spec.relaxed (beta : ℝ) (sup : ℕ → ℕ → Bool) (x : Arr) : Arr := fun i j => if sup i j then x i j else x i j / beta

/-! ### Lemmas -/

theorem relaxed_eq (beta : ℝ) (sup : ℕ → ℕ → Bool) (x : Arr) :
    (fun i j => (1 + (-1 / beta : ℂ)) * restrict sup x i j - (-1 / beta : ℂ) * x i j) = Spec.relaxed beta sup x := by
  funext i j
  unfold restrict Spec.relaxed
  split_ifs <;> ring

/-- An iteration that changes nothing: an object inside the support has been found among those with the measured modulus.  It is
what `pi_modulus` makes of the relaxed object: it vanishes outside the support, and in complex mode its modulus is the measured one
up to the guard offset (exactly the measured one for offset zero, where the relaxed object's transform does not vanish).  Missing for the
full property: this is not the object that is returned, see `C199_stopped_refuted`. -/
theorem C199_stopped_partial (p : Params) (hbeta : p.beta ≠ 0) (sup : ℕ → ℕ → Bool) (x : Arr)
    (hstop : ∀ i < p.r, ∀ j < p.c, nextObj p sup x i j = x i j) :
    ∃ y : Arr, y = project p (Spec.relaxed p.beta sup x) ∧
      (∀ i < p.r, ∀ j < p.c, sup i j = false → y i j = 0) ∧
      (∀ i < p.r, ∀ j < p.c, sup i j = true → y i j = project p x i j + (project p x i j - x i j) / p.beta) ∧
      (p.real = true → ∀ i j, ∃ v : ℝ, 0 ≤ v ∧ y i j = v) ∧
      (p.real = false → 0 < p.offset → ∀ k < p.r, ∀ l < p.c,
        ‖Spec.F p.r p.c y k l‖ = if 0 < p.d k l then p.d k l * (‖Spec.F p.r p.c (Spec.relaxed p.beta sup x) k l‖ / (‖Spec.F p.r p.c (Spec.relaxed p.beta sup x) k l‖ + p.offset))
          else ‖Spec.F p.r p.c (Spec.relaxed p.beta sup x) k l‖) := by
  have hb : (p.beta : ℂ) ≠ 0 := by exact_mod_cast hbeta
  have heq : ∀ i < p.r, ∀ j < p.c, restrict sup (fun i j => (1 + (1 / p.beta : ℂ)) * project p x i j - (1 / p.beta : ℂ) * x i j) i j =
      project p (Spec.relaxed p.beta sup x) i j := by
    intro i hi j hj
    have h := hstop i hi j hj
    unfold nextObj at h
    simp only [relaxed_eq] at h
    have h1 := add_eq_left.1 h
    exact sub_eq_zero.1 ((mul_eq_zero.1 h1).resolve_left hb)
  refine ⟨_, rfl, ?_, ?_, ?_, ?_⟩
  · intro i hi j hj hs
    rw [← heq i hi j hj]
    simp [restrict, hs]
  · intro i hi j hj hs
    rw [← heq i hi j hj]
    simp only [restrict, hs, if_true]
    field_simp
    ring
  · intro hr i j
    unfold project
    rw [if_pos hr]
    exact ⟨_, norm_nonneg _, rfl⟩
  · intro hr ho k hk l hl
    have hp : project p (Spec.relaxed p.beta sup x) = piModulus p.r p.c p.offset p.d (Spec.relaxed p.beta sup x) := by
      unfold project; rw [if_neg (by simp [hr])]
    rw [hp, F_piModulus p.r p.c p.offset p.d _ k l hk hl]
    split_ifs with hd
    · rw [norm_div, norm_mul, Complex.norm_real, Complex.norm_real, Real.norm_of_nonneg hd.le, Real.norm_of_nonneg (by positivity), mul_div_assoc]
    · rfl

/-! ### The object that is returned -/

theorem w_two : Dft.w 2 (-1) = -1 := by
  unfold Dft.w
  have : (2 * (Real.pi : ℂ) * Complex.I * ((-1 : ℤ) : ℂ) / ((2 : ℕ) : ℂ)) = -(Real.pi * Complex.I) := by push_cast; ring
  rw [this, Complex.exp_neg, Complex.exp_pi_mul_I]
  norm_num

theorem w_two' : Dft.w 2 1 = -1 := by
  have := Dft.w_congr 2 (by norm_num) 1 (-1) ⟨1, by norm_num⟩
  rw [this, w_two]

theorem fft2_pair (x : Arr) : Dft.fft2 1 2 x 0 0 = x 0 0 + x 0 1 ∧ Dft.fft2 1 2 x 0 1 = x 0 0 - x 0 1 := by
  unfold Dft.fft2 Dft.fft
  simp [sum_range_succ, Dft.w_zero, w_two]
  ring

theorem ifft2_pair (x : Arr) : Dft.ifft2 1 2 x 0 0 = (x 0 0 + x 0 1) / 2 ∧ Dft.ifft2 1 2 x 0 1 = (x 0 0 - x 0 1) / 2 := by
  unfold Dft.ifft2 Dft.ifft
  simp [sum_range_succ, Dft.w_zero, w_two']
  ring

/-- Two pixels of which only the first is in the support; the measured moduli are those of the object (2, 0). -/
noncomputable def pairParams (beta offset : ℝ) (real : Bool) : Params :=
  ⟨1, 2, fun _ _ => √2, offset, beta, real, 0, false, fun _ => fun _ _ => true, 0, 0, 1, 10, false, 1⟩

/-- `pi_modulus` of the objects (2, u) with |u| <= 1. -/
theorem piModulus_pair (offset u : ℝ) (ho : 0 ≤ offset) (hu : |u| ≤ 1) (x : Arr) (h0 : x 0 0 = 2) (h1 : x 0 1 = u) :
    ‖piModulus 1 2 offset (fun _ _ => √2) x 0 0 - 2‖ ≤ 4 * offset ∧ ‖piModulus 1 2 offset (fun _ _ => √2) x 0 1‖ ≤ 4 * offset := by
  obtain ⟨u1, u2⟩ := abs_le.1 hu
  have hs : (0 : ℝ) < √2 := by positivity
  have hss : √2 * √2 = (2 : ℝ) := Real.mul_self_sqrt (by norm_num)
  have hs1 : (1 : ℝ) ≤ √2 := by rw [show (1 : ℝ) = √1 by simp]; exact Real.sqrt_le_sqrt (by norm_num)
  obtain ⟨f0, f1⟩ := fft2_pair x
  -- the two entries of the transform are positive
  have ht : ∀ v : ℝ, 0 < v → ((√2 : ℝ) : ℂ) * (((v : ℝ) : ℂ) / ((√((1 * 2 : ℕ) : ℝ) : ℝ) : ℂ)) /
      (((‖((v : ℝ) : ℂ) / ((√((1 * 2 : ℕ) : ℝ) : ℝ) : ℂ)‖ : ℝ) + offset : ℝ) : ℂ) = ((v / (v / √2 + offset) : ℝ) : ℂ) := by
    intro v hv
    have e : ((1 * 2 : ℕ) : ℝ) = 2 := by norm_num
    rw [e, norm_div, Complex.norm_real, Complex.norm_real, Real.norm_of_nonneg hv.le, Real.norm_of_nonneg hs.le]
    have hsc : ((√2 : ℝ) : ℂ) ≠ 0 := by exact_mod_cast hs.ne'
    rw [mul_div_cancel₀ _ hsc]
    push_cast
    rfl
  have hp : ∀ j, piModulus 1 2 offset (fun _ _ => √2) x 0 j =
      Dft.ifft2 1 2 (fun k l => ((√2 : ℝ) : ℂ) * (Dft.fft2 1 2 x k l / ((√((1 * 2 : ℕ) : ℝ) : ℝ) : ℂ)) /
        (((‖Dft.fft2 1 2 x k l / ((√((1 * 2 : ℕ) : ℝ) : ℝ) : ℂ)‖ : ℝ) + offset : ℝ) : ℂ)) 0 j * ((√((1 * 2 : ℕ) : ℝ) : ℝ) : ℂ) := by
    intro j
    unfold piModulus
    simp only [if_pos hs]
  have a0 : Dft.fft2 1 2 x 0 0 = ((2 + u : ℝ) : ℂ) := by rw [f0, h0, h1]; push_cast; rfl
  have a1 : Dft.fft2 1 2 x 0 1 = ((2 - u : ℝ) : ℂ) := by rw [f1, h0, h1]; push_cast; rfl
  have e2 : ((1 * 2 : ℕ) : ℝ) = 2 := by norm_num
  set A : ℝ := (2 + u) / ((2 + u) / √2 + offset) with hA
  set B : ℝ := (2 - u) / ((2 - u) / √2 + offset) with hB
  have q0 : piModulus 1 2 offset (fun _ _ => √2) x 0 0 = (((A + B) / 2 * √2 : ℝ) : ℂ) := by
    rw [hp, (ifft2_pair _).1, a0, a1, ht _ (by linarith), ht _ (by linarith), e2, ← hA, ← hB]
    push_cast
    rfl
  have q1 : piModulus 1 2 offset (fun _ _ => √2) x 0 1 = (((A - B) / 2 * √2 : ℝ) : ℂ) := by
    rw [hp, (ifft2_pair _).2, a0, a1, ht _ (by linarith), ht _ (by linarith), e2, ← hA, ← hB]
    push_cast
    rfl
  -- both are close to the root of two
  have near : ∀ v : ℝ, 1 ≤ v → 0 ≤ √2 - v / (v / √2 + offset) ∧ √2 - v / (v / √2 + offset) ≤ 2 * offset := by
    intro v hv
    have hpos : 0 < v / √2 + offset := by positivity
    have e : √2 - v / (v / √2 + offset) = √2 * offset / (v / √2 + offset) := by
      rw [eq_div_iff hpos.ne', sub_mul, div_mul_cancel₀ _ hpos.ne', mul_add, mul_div_cancel₀ _ hs.ne']
      ring
    rw [e]
    refine ⟨by positivity, ?_⟩
    rw [div_le_iff₀ hpos]
    have h3 : √2 / 2 ≤ v / √2 := by
      rw [le_div_iff₀ hs]; nlinarith
    nlinarith
  obtain ⟨A1, A2⟩ := near (2 + u) (by linarith)
  obtain ⟨B1, B2⟩ := near (2 - u) (by linarith)
  rw [← hA] at A1 A2
  rw [← hB] at B1 B2
  have hs2 : √2 ≤ 2 := by nlinarith
  constructor
  · have e3 : piModulus 1 2 offset (fun _ _ => √2) x 0 0 - 2 = ((-(((√2 - A) + (√2 - B)) / 2 * √2) : ℝ) : ℂ) := by
      rw [q0, show (2 : ℂ) = ((2 : ℝ) : ℂ) by norm_num, ← Complex.ofReal_sub]
      congr 1
      linear_combination hss
    rw [e3, Complex.norm_real, norm_neg, Real.norm_of_nonneg (mul_nonneg (by linarith) hs.le)]
    nlinarith
  · rw [q1, Complex.norm_real, Real.norm_eq_abs, abs_mul, abs_of_pos hs]
    have : |(A - B) / 2| ≤ offset := by rw [abs_le]; constructor <;> linarith
    nlinarith [abs_nonneg ((A - B) / 2)]

/-- The object that is returned need not satisfy the constraints when the iteration has stopped: for two pixels with the first in the
support and the moduli of the object (2, 0), the object (2, 1) is changed by an iteration by no more than 20 beta times the guard offset
(10^-12 in the code; not at all for offset zero), in complex and in real mode, although it is not zero outside the support and both of its
moduli are wrong by 1 / sqrt 2, half of the measured values. -/
theorem C199_stopped_refuted (beta offset : ℝ) (hb : 1 ≤ beta) (ho : 0 ≤ offset) (real : Bool) (x : Arr) (h0 : x 0 0 = 2) (h1 : x 0 1 = 1) :
    let p := pairParams beta offset real
    let sup := fun (_ j : ℕ) => decide (j = 0)
    (∀ j < 2, ‖nextObj p sup x 0 j - x 0 j‖ ≤ 20 * beta * offset) ∧ sup 0 1 = false ∧ x 0 1 ≠ 0 ∧
      ‖Spec.F 1 2 x 0 0‖ = p.d 0 0 + 1 / √2 ∧ ‖Spec.F 1 2 x 0 1‖ = p.d 0 1 - 1 / √2 ∧ 1 / √2 = p.d 0 0 / 2 := by
  intro p sup
  have hs : (0 : ℝ) < √2 := by positivity
  have hss : √2 * √2 = (2 : ℝ) := Real.mul_self_sqrt (by norm_num)
  have hb0 : 0 < beta := by linarith
  have hbc : (beta : ℂ) ≠ 0 := by exact_mod_cast hb0.ne'
  have hinv : 0 ≤ 1 / beta ∧ 1 / beta ≤ 1 := ⟨by positivity, by rw [div_le_one hb0]; exact hb⟩
  -- both projections are close to (2, 0)
  have proj : ∀ (z : Arr) (u : ℝ), |u| ≤ 1 → z 0 0 = 2 → z 0 1 = u → ‖project p z 0 0 - 2‖ ≤ 4 * offset ∧ ‖project p z 0 1‖ ≤ 4 * offset := by
    intro z u hu z0 z1
    obtain ⟨k0, k1⟩ := piModulus_pair offset u ho hu z z0 z1
    unfold project
    by_cases hr : p.real = true
    · rw [if_pos hr]
      refine ⟨?_, le_trans (le_of_eq (by rw [Complex.norm_real, norm_norm]; rfl)) k1⟩
      refine le_trans ?_ k0
      have := abs_norm_sub_norm_le (piModulus 1 2 offset (fun _ _ => √2) z 0 0) (2 : ℂ)
      have e : ‖(2 : ℂ)‖ = 2 := by simp
      rw [e] at this
      rw [show (2 : ℂ) = ((2 : ℝ) : ℂ) by norm_num, ← Complex.ofReal_sub, Complex.norm_real, Real.norm_eq_abs]
      exact this
    · rw [if_neg hr]
      exact ⟨k0, k1⟩
  obtain ⟨a0, a1⟩ := proj x 1 (by norm_num) h0 (by rw [h1]; norm_num)
  obtain ⟨b0, b1⟩ := proj (Spec.relaxed beta sup x) (1 / beta) (by rw [abs_of_nonneg hinv.1]; exact hinv.2) (by simp [Spec.relaxed, sup, h0])
    (by simp [Spec.relaxed, sup, h1])
  have hnext : ∀ j, nextObj p sup x 0 j - x 0 j = beta * (restrict sup (fun i j => (1 + (1 / beta : ℂ)) * project p x i j - (1 / beta : ℂ) * x i j) 0 j - project p (Spec.relaxed beta sup x) 0 j) := by
    intro j
    have := relaxed_eq beta sup x
    unfold nextObj
    simp only [show p.beta = beta from rfl, this]
    ring
  have hf : ∀ v : ℝ, 0 ≤ v → ‖((v : ℝ) : ℂ) / ((√((1 * 2 : ℕ) : ℝ) : ℝ) : ℂ)‖ = v / √2 := by
    intro v hv
    rw [norm_div, Complex.norm_real, Complex.norm_real, Real.norm_of_nonneg hv, Real.norm_of_nonneg (by positivity)]
    norm_num
  obtain ⟨f0, f1⟩ := fft2_pair x
  refine ⟨?_, by simp [sup], by rw [h1]; norm_num, ?_, ?_, ?_⟩
  · intro j hj
    rw [hnext, norm_mul, Complex.norm_real, Real.norm_of_nonneg hb0.le]
    have key : ‖restrict sup (fun i j => (1 + (1 / beta : ℂ)) * project p x i j - (1 / beta : ℂ) * x i j) 0 j - project p (Spec.relaxed beta sup x) 0 j‖ ≤ 20 * offset := by
      interval_cases j
      · have e : restrict sup (fun i j => (1 + (1 / beta : ℂ)) * project p x i j - (1 / beta : ℂ) * x i j) 0 0 - project p (Spec.relaxed beta sup x) 0 0 =
            (((1 + 1 / beta : ℝ) : ℂ) * (project p x 0 0 - 2)) - (project p (Spec.relaxed beta sup x) 0 0 - 2) := by
          simp only [restrict, sup, decide_true, if_true, h0]
          push_cast
          ring
        rw [e]
        refine le_trans (norm_sub_le _ _) ?_
        rw [norm_mul, Complex.norm_real, Real.norm_of_nonneg (by linarith [hinv.1])]
        nlinarith [norm_nonneg (project p x 0 0 - 2), hinv.1, hinv.2]
      · simp only [restrict, sup, show decide ((1 : ℕ) = 0) = false from rfl, Bool.false_eq_true, if_false, zero_sub, norm_neg]
        linarith
    calc beta * _ ≤ beta * (20 * offset) := mul_le_mul_of_nonneg_left key hb0.le
      _ = 20 * beta * offset := by ring
  · unfold Spec.F
    rw [f0, h0, h1, show (2 + 1 : ℂ) = ((3 : ℝ) : ℂ) by norm_num, hf 3 (by norm_num)]
    show 3 / √2 = √2 + 1 / √2
    field_simp
    linarith
  · unfold Spec.F
    rw [f1, h0, h1, show (2 - 1 : ℂ) = ((1 : ℝ) : ℂ) by norm_num, hf 1 (by norm_num)]
    show 1 / √2 = √2 - 1 / √2
    field_simp
    linarith
  · show 1 / √2 = √2 / 2
    field_simp
    linarith

/-! ### non-vacuity -/

/-- An iteration that has stopped exists: the object (2, 1) above with offset zero. -/
example : ∀ j < 2, nextObj (pairParams 1 0 false) (fun (_ j : ℕ) => decide (j = 0)) (fun _ j => if j = 0 then 2 else 1) 0 j =
    (fun (_ j : ℕ) => (if j = 0 then 2 else 1 : ℂ)) 0 j := by
  intro j hj
  have h := (C199_stopped_refuted 1 0 le_rfl le_rfl false (fun _ j => if j = 0 then 2 else 1) (by simp) (by simp)).1 j hj
  rw [mul_zero] at h
  exact sub_eq_zero.1 (norm_le_zero_iff.1 h)

end Verif.Cdi
