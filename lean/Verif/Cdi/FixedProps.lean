/- Property C112: fixed points of the reconstruction. -/
import Verif.Cdi.Props

namespace Verif.Cdi
open Finset Verif

theorem norm_w (n : ℕ) (m : ℤ) : ‖Dft.w n m‖ = 1 := by
  unfold Dft.w
  rw [show (2 * Real.pi * Complex.I * m / n : ℂ) = ((2 * Real.pi * m / n : ℝ) : ℂ) * Complex.I from by push_cast; ring]
  exact Complex.norm_exp_ofReal_mul_I _

theorem norm_ifft_le (n : ℕ) (a : ℕ → ℂ) (b : ℝ) (h : ∀ k < n, ‖a k‖ ≤ b) (hb : 0 ≤ b) (m : ℕ) : ‖Dft.ifft n a m‖ ≤ b := by
  unfold Dft.ifft
  rw [norm_div, Complex.norm_natCast]
  refine div_le_of_le_mul₀ (Nat.cast_nonneg n) hb ?_
  calc ‖∑ k ∈ range n, a k * Dft.w n (m * k : ℤ)‖ ≤ ∑ k ∈ range n, ‖a k * Dft.w n (m * k : ℤ)‖ := norm_sum_le _ _
    _ ≤ ∑ _k ∈ range n, b := sum_le_sum (fun k hk => by rw [norm_mul, norm_w, mul_one]; exact h k (mem_range.1 hk))
    _ = b * n := by rw [sum_const, card_range, nsmul_eq_mul, mul_comm]

theorem norm_ifft2_le (r c : ℕ) (a : Arr) (b : ℝ) (h : ∀ k < r, ∀ l < c, ‖a k l‖ ≤ b) (hb : 0 ≤ b) (i j : ℕ) : ‖Dft.ifft2 r c a i j‖ ≤ b :=
  norm_ifft_le r _ b (fun k hk => norm_ifft_le c _ b (h k hk) hb j) hb i

theorem ifft_sub (n : ℕ) (a b : ℕ → ℂ) (m : ℕ) : Dft.ifft n (fun k => a k - b k) m = Dft.ifft n a m - Dft.ifft n b m := by
  unfold Dft.ifft
  rw [← sub_div, ← sum_sub_distrib]
  congr 1
  exact sum_congr rfl (fun k _ => by ring)

theorem ifft2_sub (r c : ℕ) (a b : Arr) (i j : ℕ) : Dft.ifft2 r c (fun k l => a k l - b k l) i j = Dft.ifft2 r c a i j - Dft.ifft2 r c b i j := by
  unfold Dft.ifft2
  rw [← ifft_sub]
  congr 1
  funext k
  exact ifft_sub c _ _ j

theorem piModulus_congr (r c : ℕ) (offset : ℝ) (d : ℕ → ℕ → ℝ) (x y : Arr) (h : ∀ i < r, ∀ j < c, y i j = x i j) :
    piModulus r c offset d y = piModulus r c offset d x := by
  unfold piModulus
  have hF : ∀ k l, Dft.fft2 r c y k l = Dft.fft2 r c x k l := fft2_congr r c y x h
  simp only [hF]

theorem project_congr (p : Params) (x y : Arr) (h : ∀ i < p.r, ∀ j < p.c, y i j = x i j) : project p y = project p x := by
  unfold project
  rw [piModulus_congr p.r p.c p.offset p.d x y h]

/-- The modulus projection moves an object with the measured modulus by at most the guard offset (times the square root of
the number of pixels). -/
theorem piModulus_near (r c : ℕ) (offset : ℝ) (hoff : 0 ≤ offset) (d : ℕ → ℕ → ℝ) (x : Arr)
    (hmod : ∀ k < r, ∀ l < c, 0 < d k l → ‖Spec.F r c x k l‖ = d k l) (i j : ℕ) (hi : i < r) (hj : j < c) :
    ‖piModulus r c offset d x i j - x i j‖ ≤ offset * √((r * c : ℕ) : ℝ) := by
  have h0 := sqrt_size_ne r c (by omega) (by omega)
  have hx : x i j = Dft.ifft2 r c (fun k l => Dft.fft2 r c x k l / √((r * c : ℕ) : ℝ)) i j * √((r * c : ℕ) : ℝ) := by
    have := ifft2_mul r c (fun k l => Dft.fft2 r c x k l) ((√((r * c : ℕ) : ℝ) : ℝ) : ℂ)⁻¹ i j
    simp only [div_eq_mul_inv]
    rw [this, Dft.ifft2_fft2 r c x i j hi hj, mul_assoc, inv_mul_cancel₀ h0, mul_one]
  unfold piModulus
  conv_lhs => rw [hx]
  rw [← sub_mul, ← ifft2_sub, norm_mul, Complex.norm_real, Real.norm_of_nonneg (Real.sqrt_nonneg _)]
  refine mul_le_mul_of_nonneg_right ?_ (Real.sqrt_nonneg _)
  refine norm_ifft2_le r c _ offset (fun k hk l hl => ?_) hoff i j
  by_cases hd : 0 < d k l
  · have hm := hmod k hk l hl hd
    unfold Spec.F at hm
    simp only [if_pos hd]
    set t := Dft.fft2 r c x k l / ((√((r * c : ℕ) : ℝ) : ℝ) : ℂ) with ht
    rw [hm]
    have hpos : 0 < d k l + offset := by linarith
    have hne : ((d k l + offset : ℝ) : ℂ) ≠ 0 := by exact_mod_cast hpos.ne'
    have : (d k l : ℂ) * t / ((d k l : ℝ) + offset : ℝ) - t = -(t * ((offset / (d k l + offset) : ℝ) : ℂ)) := by
      push_cast at hne ⊢
      field_simp
      ring
    rw [this, norm_neg, norm_mul, hm, Complex.norm_real, Real.norm_of_nonneg (by positivity), mul_div_assoc', div_le_iff₀ hpos]
    nlinarith
  · simp only [if_neg hd, sub_self, norm_zero]
    exact hoff

theorem project_near (p : Params) (hoff : 0 ≤ p.offset) (x : Arr)
    (hmod : ∀ k < p.r, ∀ l < p.c, 0 < p.d k l → ‖Spec.F p.r p.c x k l‖ = p.d k l)
    (i j : ℕ) (hi : i < p.r) (hj : j < p.c) (hreal : p.real = true → ∃ v : ℝ, 0 ≤ v ∧ x i j = v) :
    ‖project p x i j - x i j‖ ≤ p.offset * √((p.r * p.c : ℕ) : ℝ) := by
  have h := piModulus_near p.r p.c p.offset hoff p.d x hmod i j hi hj
  unfold project
  by_cases hr : p.real = true
  · rw [if_pos hr]
    obtain ⟨v, hv, hx⟩ := hreal hr
    refine le_trans ?_ h
    rw [hx, ← Complex.ofReal_sub, Complex.norm_real, Real.norm_eq_abs]
    have := abs_norm_sub_norm_le (piModulus p.r p.c p.offset p.d x i j) (v : ℂ)
    rwa [Complex.norm_real, Real.norm_of_nonneg hv] at this
  · rw [if_neg hr]
    exact h

/-- C112: an object that vanishes outside the support and has the measured modulus (and, in real mode, is real and
non-negative) is changed by an iteration, at any pixel, by no more than `max 1 |beta|` times the guard offset of
`pi_modulus` times the square root of the number of pixels; with offset zero it is not changed at all. -/
theorem C112_fixed_point (p : Params) (hoff : 0 ≤ p.offset) (hbeta : p.beta ≠ 0) (sup : ℕ → ℕ → Bool) (x : Arr)
    (hreal : p.real = true → ∀ i < p.r, ∀ j < p.c, ∃ v : ℝ, 0 ≤ v ∧ x i j = v)
    (hsup : ∀ i < p.r, ∀ j < p.c, sup i j = false → x i j = 0)
    (hmod : ∀ k < p.r, ∀ l < p.c, 0 < p.d k l → ‖Spec.F p.r p.c x k l‖ = p.d k l)
    (i j : ℕ) (hi : i < p.r) (hj : j < p.c) :
    ‖nextObj p sup x i j - x i j‖ ≤ max 1 |p.beta| * (p.offset * √((p.r * p.c : ℕ) : ℝ)) := by
  have hb : (p.beta : ℂ) ≠ 0 := by exact_mod_cast hbeta
  have hres : ∀ i < p.r, ∀ j < p.c, restrict sup x i j = x i j := by
    intro i hi j hj
    unfold restrict
    by_cases h : sup i j = true
    · rw [if_pos h]
    · rw [if_neg h, hsup i hi j hj (by simpa using h)]
  have hn := project_near p hoff x hmod i j hi hj (fun h => hreal h i hi j hj)
  have hnn : 0 ≤ p.offset * √((p.r * p.c : ℕ) : ℝ) := mul_nonneg hoff (Real.sqrt_nonneg _)
  unfold nextObj
  beta_reduce
  rw [project_congr p x (fun i j => (1 + -1 / (p.beta : ℂ)) * restrict sup x i j - -1 / (p.beta : ℂ) * x i j) (by
    intro i hi j hj
    beta_reduce
    rw [hres i hi j hj]; ring)]
  rw [add_sub_cancel_left]
  by_cases h : sup i j = true
  · have : (p.beta : ℂ) * (restrict sup (fun i j => (1 + 1 / (p.beta : ℂ)) * project p x i j - 1 / (p.beta : ℂ) * x i j) i j - project p x i j)
        = project p x i j - x i j := by
      unfold restrict
      rw [if_pos h]
      field_simp
      ring
    rw [this]
    exact hn.trans (le_mul_of_one_le_left hnn (le_max_left _ _))
  · have h' : sup i j = false := by simpa using h
    have : (p.beta : ℂ) * (restrict sup (fun i j => (1 + 1 / (p.beta : ℂ)) * project p x i j - 1 / (p.beta : ℂ) * x i j) i j - project p x i j)
        = -(p.beta * (project p x i j - x i j)) := by
      unfold restrict
      rw [if_neg h, hsup i hi j hj h']
      ring
    rw [this, norm_neg, norm_mul, Complex.norm_real, Real.norm_eq_abs]
    exact mul_le_mul (le_max_right _ _) hn (norm_nonneg _) (by positivity)

/-- The bound is not vacuous: with a positive offset an object that meets both constraints does change, so the iteration
has no exact fixed point there. -/
theorem C112_offset_moves (p : Params) (hr : p.r = 1) (hc : p.c = 1) (hreal : p.real = false) (hoff : 0 < p.offset) (hbeta : p.beta ≠ 0)
    (a : ℝ) (ha : 0 < a) (hd : p.d 0 0 = a) :
    ‖Spec.F p.r p.c (fun _ _ => (a : ℂ)) 0 0‖ = p.d 0 0 ∧ nextObj p (fun _ _ => true) (fun _ _ => (a : ℂ)) 0 0 ≠ a := by
  have hF : Dft.fft2 1 1 (fun _ _ => (a : ℂ)) 0 0 = a := by simp [Dft.fft2, Dft.fft, Dft.w_zero]
  have hb : (p.beta : ℂ) ≠ 0 := by exact_mod_cast hbeta
  constructor
  · unfold Spec.F
    rw [hr, hc, hF, hd]
    simp [abs_of_pos ha]
  · have hP : project p (fun _ _ => (a : ℂ)) 0 0 = a * a / (a + p.offset) := by
      unfold project
      rw [hreal]
      simp only [Bool.false_eq_true, if_false]
      unfold piModulus
      rw [hr, hc]
      unfold Dft.ifft2 Dft.ifft
      simp only [sum_range_one, Nat.cast_zero, mul_zero, Dft.w_zero, hF, hd, if_pos ha]
      simp [abs_of_pos ha]
    unfold nextObj
    beta_reduce
    rw [show (fun i j => (1 + -1 / (p.beta : ℂ)) * restrict (fun _ _ => true) (fun _ _ => (a : ℂ)) i j - -1 / (p.beta : ℂ) * (a : ℂ)) = (fun _ _ => (a : ℂ)) from by
      funext i j; unfold restrict; rw [if_pos rfl]; ring]
    unfold restrict
    rw [if_pos rfl, hP]
    intro h
    have h1 : (a : ℂ) * a / (a + p.offset) = a := by
      have : (a : ℂ) + p.beta * ((1 + 1 / p.beta) * (a * a / (a + p.offset)) - 1 / p.beta * a - a * a / (a + p.offset)) = a * a / (a + p.offset) := by
        field_simp
        ring
      beta_reduce at h
      rw [hP] at h
      rw [← this]; exact h
    have h2 : a * a / (a + p.offset) = a := by exact_mod_cast h1
    rw [div_eq_iff (by positivity)] at h2
    nlinarith [mul_pos ha hoff]

/-- Any object is an instance: take the modulus of its own transform as the pattern and the whole array as the support. -/
example (p : Params) (x : Arr) (hoff : p.offset = 0) (hbeta : p.beta ≠ 0) (hreal : p.real = false)
    (hd : ∀ k l, p.d k l = ‖Spec.F p.r p.c x k l‖) (i j : ℕ) (hi : i < p.r) (hj : j < p.c) : nextObj p (fun _ _ => true) x i j = x i j := by
  have := C112_fixed_point p hoff.ge hbeta (fun _ _ => true) x (by rw [hreal]; simp) (by simp) (fun k _ l _ _ => (hd k l).symm) i j hi hj
  rw [hoff, zero_mul, mul_zero] at this
  exact sub_eq_zero.1 (norm_le_zero_iff.1 this)

end Verif.Cdi
