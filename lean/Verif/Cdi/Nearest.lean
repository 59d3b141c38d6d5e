/- Property C193: the two constraints of the reconstruction are imposed with the smallest possible change
(skbeam/core/cdi.py).  All definitions are those of Cdi/Model.lean and Dft.lean. -/
import Verif.Cdi.FixedProps
import Mathlib.Algebra.Order.BigOperators.Ring.Finset

namespace Verif.Cdi
open Finset Verif

/-! ## Specification -/

/-- The distance of two objects: root of the sum of squared differences. -/
noncomputable def Spec.distance (r c : ℕ) (x y : Arr) : ℝ := √(∑ i ∈ range r, ∑ j ∈ range c, ‖x i j - y i j‖ ^ 2)

/-- The object has the measured modulus wherever something was measured. -/
def Spec.HasModulus (r c : ℕ) (d : ℕ → ℕ → ℝ) (y : Arr) : Prop :=
  ∀ k < r, ∀ l < c, 0 < d k l → ‖Dft.fft2 r c y k l‖ / √((r * c : ℕ) : ℝ) = d k l

/-! ## Parseval -/

theorem conj_w (n : ℕ) (m : ℤ) : (starRingEnd ℂ) (Dft.w n m) = Dft.w n (-m) := by
  unfold Dft.w
  rw [← Complex.exp_conj]
  congr 1
  have h2 : (starRingEnd ℂ) (2 : ℂ) = 2 := Complex.conj_ofNat 2
  simp [Complex.conj_ofReal, h2]

theorem parseval1 (n : ℕ) (a : ℕ → ℂ) : ∑ k ∈ range n, ‖Dft.fft n a k‖ ^ 2 = n * ∑ m ∈ range n, ‖a m‖ ^ 2 := by
  rcases Nat.eq_zero_or_pos n with rfl | hn
  · simp
  have hn' : (n : ℂ) ≠ 0 := by exact_mod_cast hn.ne'
  have key : ∑ k ∈ range n, Dft.fft n a k * (starRingEnd ℂ) (Dft.fft n a k) = n * ∑ m ∈ range n, a m * (starRingEnd ℂ) (a m) := by
    have h1 : ∀ k ∈ range n, Dft.fft n a k * (starRingEnd ℂ) (Dft.fft n a k) =
        ∑ m ∈ range n, a m * (Dft.w n (-(m * k : ℤ)) * (starRingEnd ℂ) (Dft.fft n a k)) := by
      intro k _
      conv_lhs => rw [show Dft.fft n a k * (starRingEnd ℂ) (Dft.fft n a k) =
        (∑ m ∈ range n, a m * Dft.w n (-(m * k : ℤ))) * (starRingEnd ℂ) (Dft.fft n a k) from rfl]
      rw [sum_mul]
      exact sum_congr rfl (fun m _ => by ring)
    rw [sum_congr rfl h1, sum_comm, mul_sum]
    apply sum_congr rfl
    intro m hm
    rw [← mul_sum]
    have h2 : ∑ k ∈ range n, Dft.w n (-(m * k : ℤ)) * (starRingEnd ℂ) (Dft.fft n a k) = n * (starRingEnd ℂ) (a m) := by
      have h3 := Dft.ifft_fft n a m (mem_range.1 hm)
      conv_rhs => rw [← h3]
      unfold Dft.ifft
      rw [map_div₀, map_sum, Complex.conj_natCast, mul_div_cancel₀ _ hn']
      apply sum_congr rfl
      intro k _
      rw [map_mul, conj_w, mul_comm]
    rw [h2]; ring
  have hz : ∀ z : ℂ, z * (starRingEnd ℂ) z = ((‖z‖ ^ 2 : ℝ) : ℂ) := by
    intro z; rw [Complex.mul_conj, Complex.normSq_eq_norm_sq]
  simp only [hz] at key
  exact_mod_cast key

theorem parseval2 (r c : ℕ) (x : Arr) :
    ∑ k ∈ range r, ∑ l ∈ range c, ‖Dft.fft2 r c x k l‖ ^ 2 = (r * c : ℕ) * ∑ i ∈ range r, ∑ j ∈ range c, ‖x i j‖ ^ 2 := by
  rw [sum_comm]
  unfold Dft.fft2
  rw [sum_congr rfl (fun l _ => parseval1 r (fun i => Dft.fft c (x i) l)), ← mul_sum, sum_comm,
    sum_congr rfl (fun i _ => parseval1 c (x i)), ← mul_sum, ← mul_assoc]
  push_cast
  rfl

theorem parseval_F (r c : ℕ) (hr : 0 < r) (hc : 0 < c) (x : Arr) :
    ∑ k ∈ range r, ∑ l ∈ range c, ‖Spec.F r c x k l‖ ^ 2 = ∑ i ∈ range r, ∑ j ∈ range c, ‖x i j‖ ^ 2 := by
  have hp : (0 : ℝ) < ((r * c : ℕ) : ℝ) := by exact_mod_cast Nat.mul_pos hr hc
  have : ∀ k l, ‖Spec.F r c x k l‖ ^ 2 = ‖Dft.fft2 r c x k l‖ ^ 2 / ((r * c : ℕ) : ℝ) := by
    intro k l
    unfold Spec.F
    rw [norm_div, Complex.norm_real, Real.norm_of_nonneg (Real.sqrt_nonneg _), div_pow, Real.sq_sqrt hp.le]
  simp only [this, ← sum_div, parseval2]
  field_simp

theorem fft_sub (n : ℕ) (a b : ℕ → ℂ) (m : ℕ) : Dft.fft n (fun k => a k - b k) m = Dft.fft n a m - Dft.fft n b m := by
  unfold Dft.fft
  rw [← sum_sub_distrib]
  exact sum_congr rfl (fun k _ => by ring)

theorem F_sub (r c : ℕ) (x y : Arr) (k l : ℕ) :
    Spec.F r c (fun i j => x i j - y i j) k l = Spec.F r c x k l - Spec.F r c y k l := by
  unfold Spec.F Dft.fft2
  rw [← sub_div, ← fft_sub]
  congr 2
  funext i
  exact fft_sub c _ _ l

theorem distance_F (r c : ℕ) (hr : 0 < r) (hc : 0 < c) (x y : Arr) :
    Spec.distance r c x y = √(∑ k ∈ range r, ∑ l ∈ range c, ‖Spec.F r c x k l - Spec.F r c y k l‖ ^ 2) := by
  unfold Spec.distance
  rw [← parseval_F r c hr hc (fun i j => x i j - y i j)]
  simp only [F_sub]

theorem minkowski {ι : Type} (s : Finset ι) (a b : ι → ℝ) :
    √(∑ i ∈ s, (a i + b i) ^ 2) ≤ √(∑ i ∈ s, a i ^ 2) + √(∑ i ∈ s, b i ^ 2) := by
  have hA : 0 ≤ ∑ i ∈ s, a i ^ 2 := sum_nonneg (fun _ _ => sq_nonneg _)
  have hB : 0 ≤ ∑ i ∈ s, b i ^ 2 := sum_nonneg (fun _ _ => sq_nonneg _)
  apply Real.sqrt_le_iff.2 ⟨by positivity, ?_⟩
  have hc := sum_mul_sq_le_sq_mul_sq s a b
  have h1 : ∑ i ∈ s, a i * b i ≤ √(∑ i ∈ s, a i ^ 2) * √(∑ i ∈ s, b i ^ 2) := by
    rw [← Real.sqrt_mul hA]
    exact Real.le_sqrt_of_sq_le hc
  have h2 : ∑ i ∈ s, (a i + b i) ^ 2 = ∑ i ∈ s, a i ^ 2 + ∑ i ∈ s, b i ^ 2 + 2 * ∑ i ∈ s, a i * b i := by
    rw [mul_sum, ← sum_add_distrib, ← sum_add_distrib]
    exact sum_congr rfl (fun i _ => by ring)
  rw [h2]
  nlinarith [Real.sq_sqrt hA, Real.sq_sqrt hB]

/-! ## The modulus constraint -/

theorem change_le (offset : ℝ) (ho : 0 ≤ offset) (d : ℝ) (t u : ℂ) (hu : 0 < d → ‖u‖ = d) :
    ‖t - (if 0 < d then (d : ℂ) * t / ((‖t‖ : ℝ) + offset : ℝ) else t)‖ ≤ ‖t - u‖ + offset := by
  by_cases hd : 0 < d
  · rw [if_pos hd]
    by_cases h0 : ‖t‖ + offset = 0
    · have ht : t = 0 := by
        have := norm_nonneg t
        exact norm_eq_zero.1 (by linarith)
      rw [ht]; simp; positivity
    have hpos : 0 < ‖t‖ + offset := lt_of_le_of_ne (by positivity) (Ne.symm h0)
    have hne : ((‖t‖ + offset : ℝ) : ℂ) ≠ 0 := by exact_mod_cast h0
    have e : t - (d : ℂ) * t / ((‖t‖ : ℝ) + offset : ℝ) = (((‖t‖ + offset - d) / (‖t‖ + offset) : ℝ) : ℂ) * t := by
      push_cast at hne ⊢
      field_simp
    rw [e, norm_mul, Complex.norm_real, Real.norm_eq_abs, abs_div, abs_of_pos hpos, div_mul_eq_mul_div, div_le_iff₀ hpos]
    have h1 : |‖t‖ + offset - d| ≤ ‖t - u‖ + offset := by
      have a1 := abs_norm_sub_norm_le t u
      rw [hu hd] at a1
      calc |‖t‖ + offset - d| = |(‖t‖ - d) + offset| := by ring_nf
        _ ≤ |‖t‖ - d| + |offset| := abs_add_le _ _
        _ ≤ ‖t - u‖ + offset := by rw [abs_of_nonneg ho]; linarith
    calc |‖t‖ + offset - d| * ‖t‖ ≤ (‖t - u‖ + offset) * ‖t‖ := mul_le_mul_of_nonneg_right h1 (norm_nonneg _)
      _ ≤ (‖t - u‖ + offset) * (‖t‖ + offset) := by
        apply mul_le_mul_of_nonneg_left _ (by positivity); linarith
  · rw [if_neg hd, sub_self, norm_zero]; positivity

theorem norm_F (r c : ℕ) (x : Arr) (k l : ℕ) : ‖Spec.F r c x k l‖ = ‖Dft.fft2 r c x k l‖ / √((r * c : ℕ) : ℝ) := by
  unfold Spec.F
  rw [norm_div, Complex.norm_real, Real.norm_of_nonneg (Real.sqrt_nonneg _)]

/-- C193: `pi_modulus` changes an object no more than is needed to impose the measured modulus: every object with that
modulus is at least as far away, up to the guard offset times the root of the number of pixels (nothing for offset 0). -/
theorem C193_modulus_nearest (r c : ℕ) (hr : 0 < r) (hc : 0 < c) (offset : ℝ) (ho : 0 ≤ offset) (d : ℕ → ℕ → ℝ)
    (x y : Arr) (hy : Spec.HasModulus r c d y) :
    Spec.distance r c x (piModulus r c offset d x) ≤ Spec.distance r c x y + offset * √((r * c : ℕ) : ℝ) := by
  rw [distance_F r c hr hc, distance_F r c hr hc]
  simp only [← sum_product']
  have h1 : ∑ p ∈ range r ×ˢ range c, ‖Spec.F r c x p.1 p.2 - Spec.F r c (piModulus r c offset d x) p.1 p.2‖ ^ 2 ≤
      ∑ p ∈ range r ×ˢ range c, (‖Spec.F r c x p.1 p.2 - Spec.F r c y p.1 p.2‖ + offset) ^ 2 := by
    apply sum_le_sum
    rintro ⟨k, l⟩ hp
    rw [mem_product, mem_range, mem_range] at hp
    apply pow_le_pow_left₀ (norm_nonneg _)
    simp only
    rw [F_piModulus r c offset d x k l hp.1 hp.2]
    exact change_le offset ho (d k l) _ _ (fun hd => by rw [norm_F]; exact hy k hp.1 l hp.2 hd)
  refine (Real.sqrt_le_sqrt h1).trans ((minkowski _ _ _).trans (add_le_add_right (le_of_eq ?_) _))
  rw [sum_const, card_product, card_range, card_range, nsmul_eq_mul, Real.sqrt_mul (by positivity), Real.sqrt_sq ho, mul_comm]

/-- C193: with offset 0, imposing the modulus twice is imposing it once. -/
theorem C193_modulus_twice (r c : ℕ) (d : ℕ → ℕ → ℝ) (x : Arr) (i j : ℕ) (hi : i < r) (hj : j < c) :
    piModulus r c 0 d (piModulus r c 0 d x) i j = piModulus r c 0 d x i j := by
  have hF : ∀ k < r, ∀ l < c, Spec.F r c (piModulus r c 0 d (piModulus r c 0 d x)) k l = Spec.F r c (piModulus r c 0 d x) k l := by
    intro k hk l hl
    rw [F_piModulus r c 0 d _ k l hk hl]
    by_cases hd : 0 < d k l
    · rw [if_pos hd]
      by_cases h0 : Spec.F r c x k l = 0
      · rw [F_piModulus r c 0 d x k l hk hl, h0]; simp
      · have := ((C108_modulus_partial r c 0 le_rfl d x k l hk hl).2 hd h0).2.2 rfl
        rw [this]
        have hne : (d k l : ℂ) ≠ 0 := by exact_mod_cast hd.ne'
        rw [add_zero, mul_div_assoc, mul_comm, div_mul_cancel₀ _ hne]
    · rw [if_neg hd]
  have h0 := sqrt_size_ne r c (by omega) (by omega)
  have hfft : ∀ k < r, ∀ l < c, Dft.fft2 r c (piModulus r c 0 d (piModulus r c 0 d x)) k l = Dft.fft2 r c (piModulus r c 0 d x) k l := by
    intro k hk l hl
    have := hF k hk l hl
    unfold Spec.F at this
    exact (div_left_inj' h0).1 this
  rw [← Dft.ifft2_fft2 r c (piModulus r c 0 d (piModulus r c 0 d x)) i j hi hj, ← Dft.ifft2_fft2 r c (piModulus r c 0 d x) i j hi hj]
  unfold Dft.ifft2
  exact Dft.ifft_congr r _ _ (fun k hk => Dft.ifft_congr c _ _ (fun l hl => hfft k hk l hl) j) i

/-- C193: the result holds at most the measured intensity, if the pattern is positive everywhere. -/
theorem C193_energy (r c : ℕ) (hr : 0 < r) (hc : 0 < c) (offset : ℝ) (ho : 0 ≤ offset) (d : ℕ → ℕ → ℝ)
    (hd : ∀ k < r, ∀ l < c, 0 < d k l) (x : Arr) :
    ∑ i ∈ range r, ∑ j ∈ range c, ‖piModulus r c offset d x i j‖ ^ 2 ≤ ∑ k ∈ range r, ∑ l ∈ range c, d k l ^ 2 := by
  rw [← parseval_F r c hr hc]
  apply sum_le_sum; intro k hk
  apply sum_le_sum; intro l hl
  rw [mem_range] at hk hl
  apply pow_le_pow_left₀ (norm_nonneg _)
  by_cases h0 : Spec.F r c x k l = 0
  · rw [F_piModulus r c offset d x k l hk hl, h0]
    simpa using (hd k hk l hl).le
  · rw [((C108_modulus_partial r c offset ho d x k l hk hl).2 (hd k hk l hl) h0).2.1]
    have hn : 0 < ‖Spec.F r c x k l‖ := norm_pos_iff.2 h0
    exact mul_le_of_le_one_right (hd k hk l hl).le ((div_le_one (by linarith)).2 (by linarith))

/-! ## The support constraint -/

/-- C193: setting the pixels outside the support to zero is the smallest change that makes the object vanish there, and
doing it twice is doing it once. -/
theorem C193_support_nearest (r c : ℕ) (sup : ℕ → ℕ → Bool) (x y : Arr) (hy : ∀ i < r, ∀ j < c, sup i j = false → y i j = 0) :
    Spec.distance r c x (restrict sup x) ≤ Spec.distance r c x y ∧ restrict sup (restrict sup x) = restrict sup x := by
  constructor
  · apply Real.sqrt_le_sqrt
    apply sum_le_sum; intro i hi
    apply sum_le_sum; intro j hj
    rw [mem_range] at hi hj
    apply pow_le_pow_left₀ (norm_nonneg _)
    unfold restrict
    by_cases h : sup i j = true
    · rw [if_pos h, sub_self, norm_zero]; exact norm_nonneg _
    · rw [if_neg h, hy i hi j hj (by simpa using h)]
  · funext i j; unfold restrict; split <;> simp_all

/-! Non-vacuity: objects with a given positive modulus exist (C156: any choice of phases gives one). -/

example (r c : ℕ) (hr : 0 < r) (hc : 0 < c) (d pha : ℕ → ℕ → ℝ) :
    Spec.HasModulus r c d (fun i j => Dft.ifft2 r c (fun k l => d k l * Complex.exp (Complex.I * pha k l)) i j *
      √((r * c : ℕ) : ℝ)) := by
  intro k hk l hl hd
  have h0 := sqrt_size_ne r c hr hc
  have hs : (√((r * c : ℕ) : ℝ)) ≠ 0 := by exact_mod_cast h0
  rw [fft2_mul, Dft.fft2_ifft2 r c _ k l hk hl, norm_mul, norm_mul, Complex.norm_real, Complex.norm_real,
    Real.norm_of_nonneg (Real.sqrt_nonneg _), mul_comm Complex.I, Complex.norm_exp_ofReal_mul_I, Real.norm_of_nonneg hd.le]
  field_simp

end Verif.Cdi
