/- Property C198: for gradients that are not the gradients of any phase, `recon` returns the phase that fits them best
(skbeam/core/dpc.py 214-293).  All definitions are those of Dpc/Model.lean and Dft.lean. -/
import Verif.Dpc.ReconProps
import Verif.Cdi.Nearest

namespace Verif.Dpc
open Finset Verif

/-! ### Specification -/

namespace Spec

/-- Fourier coefficient (k, l) of a real array on an n x m grid. -/
noncomputable def coefficient (n m : ℕ) (phi : ℕ → ℕ → ℝ) (k l : ℕ) : ℂ :=
  (∑ i ∈ range n, ∑ j ∈ range m, (phi i j : ℂ) * wave n (-freq n k) i * wave m (-freq m l) j) / (n * m)

/-- Derivative along the columns' index (distance `step` between neighbours) of the trigonometric polynomial through the array. -/
noncomputable def slopeX (n m : ℕ) (step : ℝ) (phi : ℕ → ℕ → ℝ) : ℕ → ℕ → ℂ :=
  trig n m (fun k l => Complex.I * waveNumber m step (freq m l) * coefficient n m phi k l)

/-- Derivative along the rows' index. -/
noncomputable def slopeY (n m : ℕ) (step : ℝ) (phi : ℕ → ℕ → ℝ) : ℕ → ℕ → ℂ :=
  trig n m (fun k l => Complex.I * waveNumber n step (freq n k) * coefficient n m phi k l)

/-- How badly a phase fits measured gradients: weighted sum of squares of the deviations. -/
noncomputable def misfit (n m : ℕ) (sx sy w : ℝ) (gx gy phi : ℕ → ℕ → ℝ) : ℝ :=
  ∑ i ∈ range n, ∑ j ∈ range m, ((1 - w) * ‖slopeX n m sx phi i j - gx i j‖ ^ 2 + w * ‖slopeY n m sy phi i j - gy i j‖ ^ 2)

end Spec

/-! ### Lemmas -/

/-- A real array as a complex one. -/
noncomputable def cplx (phi : ℕ → ℕ → ℝ) : ℕ → ℕ → ℂ := fun i j => (phi i j : ℂ)

theorem wave_neg (n k x : ℕ) (hn : 0 < n) : Spec.wave n (-Spec.freq n k) x = Dft.w n (-(x * k : ℤ)) := by
  have h1 : Spec.wave n (-Spec.freq n k) x = Dft.w n (-Spec.freq n k * x) := by
    unfold Spec.wave Dft.w
    congr 1
    push_cast
    ring
  rw [h1]
  apply Dft.w_congr n hn
  unfold Spec.freq
  split_ifs
  · refine ⟨0, by ring⟩
  · refine ⟨x, by ring⟩

theorem fft2_sum (n m : ℕ) (a : ℕ → ℕ → ℂ) (k l : ℕ) :
    Dft.fft2 n m a k l = ∑ i ∈ range n, ∑ j ∈ range m, a i j * Dft.w n (-(i * k : ℤ)) * Dft.w m (-(j * l : ℤ)) := by
  unfold Dft.fft2 Dft.fft
  apply sum_congr rfl
  intro i _
  rw [sum_mul]
  apply sum_congr rfl
  intro j _
  ring

theorem coefficient_eq (n m : ℕ) (hn : 0 < n) (hm : 0 < m) (phi : ℕ → ℕ → ℝ) (k l : ℕ) :
    Spec.coefficient n m phi k l = Dft.fft2 n m (cplx phi) k l / (n * m) := by
  unfold Spec.coefficient
  rw [fft2_sum]
  congr 1
  apply sum_congr rfl
  intro i _
  apply sum_congr rfl
  intro j _
  rw [wave_neg n k i hn, wave_neg m l j hm]
  rfl

theorem fft2_sub (n m : ℕ) (a b : ℕ → ℕ → ℂ) (k l : ℕ) : Dft.fft2 n m (fun i j => a i j - b i j) k l = Dft.fft2 n m a k l - Dft.fft2 n m b k l := by
  rw [fft2_sum, fft2_sum, fft2_sum, ← sum_sub_distrib]
  apply sum_congr rfl
  intro i _
  rw [← sum_sub_distrib]
  apply sum_congr rfl
  intro j _
  ring

/-- The squared deviation of a slope in Fourier space. -/
theorem slope_parseval (n m : ℕ) (hn : 0 < n) (hm : 0 < m) (phi g : ℕ → ℕ → ℝ) (q : ℕ → ℕ → ℂ) :
    ∑ i ∈ range n, ∑ j ∈ range m, ‖Spec.trig n m (fun k l => q k l * Spec.coefficient n m phi k l) i j - g i j‖ ^ 2 =
      (∑ k ∈ range n, ∑ l ∈ range m, ‖q k l * Dft.fft2 n m (cplx phi) k l - Dft.fft2 n m (cplx g) k l‖ ^ 2) / (n * m : ℕ) := by
  have hp : ((n * m : ℕ) : ℝ) ≠ 0 := by exact_mod_cast (Nat.mul_pos hn hm).ne'
  have hn' : (n : ℂ) ≠ 0 := by exact_mod_cast hn.ne'
  have hm' : (m : ℂ) ≠ 0 := by exact_mod_cast hm.ne'
  rw [eq_div_iff hp, mul_comm, ← Cdi.parseval2]
  apply sum_congr rfl
  intro k hk
  apply sum_congr rfl
  intro l hl
  congr 2
  rw [fft2_sub]
  congr 1
  have : (fun i j => Spec.trig n m (fun k l => q k l * Spec.coefficient n m phi k l) i j) = Dft.ifft2 n m (fun k l => q k l * Dft.fft2 n m (cplx phi) k l) := by
    funext i j
    rw [trig_ifft2 n m hn hm]
    congr 1
    funext k l
    rw [coefficient_eq n m hn hm]
    field_simp
  rw [show Spec.trig n m (fun k l => q k l * Spec.coefficient n m phi k l) = (fun i j => Spec.trig n m (fun k l => q k l * Spec.coefficient n m phi k l) i j) from rfl, this,
    Dft.fft2_ifft2 n m _ k l (mem_range.1 hk) (mem_range.1 hl)]

/-- The misfit of coefficients `b` to the transforms `tx`, `ty` at one frequency. -/
noncomputable def misfitAt (w kx ky : ℝ) (tx ty b : ℂ) : ℝ := (1 - w) * ‖Complex.I * kx * b - tx‖ ^ 2 + w * ‖Complex.I * ky * b - ty‖ ^ 2

theorem misfit_eq (n m : ℕ) (hn : 0 < n) (hm : 0 < m) (sx sy w : ℝ) (gx gy phi : ℕ → ℕ → ℝ) :
    Spec.misfit n m sx sy w gx gy phi = (∑ k ∈ range n, ∑ l ∈ range m,
      misfitAt w (Spec.waveNumber m sx (Spec.freq m l)) (Spec.waveNumber n sy (Spec.freq n k)) (Dft.fft2 n m (cplx gx) k l) (Dft.fft2 n m (cplx gy) k l)
        (Dft.fft2 n m (cplx phi) k l)) / (n * m : ℕ) := by
  unfold Spec.misfit misfitAt Spec.slopeX Spec.slopeY
  simp only [sum_add_distrib, ← mul_sum]
  rw [slope_parseval n m hn hm phi gx (fun _ l => Complex.I * Spec.waveNumber m sx (Spec.freq m l)),
    slope_parseval n m hn hm phi gy (fun k _ => Complex.I * Spec.waveNumber n sy (Spec.freq n k))]
  ring

theorem misfitAt_add (w kx ky : ℝ) (tx ty b d : ℂ) :
    misfitAt w kx ky tx ty (b + d) = misfitAt w kx ky tx ty b + (kx ^ 2 * (1 - w) + ky ^ 2 * w) * ‖d‖ ^ 2 +
      2 * ((starRingEnd ℂ) d * (((kx ^ 2 * (1 - w) + ky ^ 2 * w : ℝ) : ℂ) * b - -Complex.I * ((kx : ℂ) * tx * (1 - w) + (ky : ℂ) * ty * w))).re := by
  unfold misfitAt
  simp only [Complex.sq_norm, Complex.normSq_apply, Complex.sub_re, Complex.sub_im, Complex.mul_re, Complex.mul_im, Complex.add_re, Complex.add_im,
    Complex.I_re, Complex.I_im, Complex.ofReal_re, Complex.ofReal_im, Complex.conj_re, Complex.conj_im, Complex.neg_re, Complex.neg_im, Complex.one_re, Complex.one_im]
  ring

theorem neg_lt (n k : ℕ) (hn : 0 < n) : (n - k) % n < n := Nat.mod_lt _ hn

theorem neg_neg_mod (n k : ℕ) (hk : k < n) : (n - (n - k) % n) % n = k := by
  rcases Nat.eq_zero_or_pos k with rfl | h
  · simp
  · rw [Nat.mod_eq_of_lt (show n - k < n by omega), show n - (n - k) = k by omega, Nat.mod_eq_of_lt hk]

theorem sum_neg (n : ℕ) (hn : 0 < n) (f : ℕ → ℂ) : ∑ k ∈ range n, f ((n - k) % n) = ∑ k ∈ range n, f k := by
  apply Finset.sum_bij' (fun x _ => (n - x) % n) (fun x _ => (n - x) % n)
  · intro x _; exact mem_range.2 (neg_lt n x hn)
  · intro x _; exact mem_range.2 (neg_lt n x hn)
  · intro x hx; exact neg_neg_mod n x (mem_range.1 hx)
  · intro x hx; exact neg_neg_mod n x (mem_range.1 hx)
  · intro x _; rfl

theorem freq_neg_sq (n k : ℕ) (hk : k < n) : Spec.freq n ((n - k) % n) ^ 2 = Spec.freq n k ^ 2 := by
  rcases Nat.eq_zero_or_pos k with rfl | h
  · simp
  · rw [Nat.mod_eq_of_lt (show n - k < n by omega)]
    unfold Spec.freq
    by_cases h1 : n - k < n - n / 2 <;> by_cases h2 : k < n - n / 2
    · exfalso; omega
    · rw [if_pos h1, if_neg h2]
      push_cast [Nat.cast_sub hk.le]
      ring
    · rw [if_neg h1, if_pos h2]
      push_cast [Nat.cast_sub hk.le]
      ring
    · rw [if_neg h1, if_neg h2]
      have : (k : ℤ) - n = -(n - n / 2 : ℕ) ∧ ((n - k : ℕ) : ℤ) - n = -(n - n / 2 : ℕ) := by constructor <;> omega
      rw [this.1, this.2]

theorem waveNumber_neg_sq (n k : ℕ) (hk : k < n) (step : ℝ) :
    Spec.waveNumber n step (Spec.freq n ((n - k) % n)) ^ 2 = Spec.waveNumber n step (Spec.freq n k) ^ 2 := by
  unfold Spec.waveNumber
  have h : ((Spec.freq n ((n - k) % n) : ℤ) : ℝ) ^ 2 = ((Spec.freq n k : ℤ) : ℝ) ^ 2 := by exact_mod_cast freq_neg_sq n k hk
  rw [div_pow, div_pow, mul_pow, h, ← mul_pow]

theorem fft2_neg (n m : ℕ) (hn : 0 < n) (hm : 0 < m) (u : ℕ → ℕ → ℝ) (k l : ℕ) (hk : k < n) (hl : l < m) :
    Dft.fft2 n m (cplx u) ((n - k) % n) ((m - l) % m) = (starRingEnd ℂ) (Dft.fft2 n m (cplx u) k l) := by
  rw [fft2_sum, fft2_sum, map_sum]
  apply sum_congr rfl
  intro i _
  rw [map_sum]
  apply sum_congr rfl
  intro j _
  have e : ∀ (n k i : ℕ), 0 < n → k < n → Dft.w n (-(i * ((n - k) % n : ℕ) : ℤ)) = Dft.w n (- -(i * k : ℤ)) := by
    intro n k i hn hk
    apply Dft.w_congr n hn
    have h1 : (((n - k) % n : ℕ) : ℤ) = n - k - n * (((n - k) / n : ℕ) : ℤ) := by
      have := Nat.mod_add_div (n - k) n
      have h2 : (((n - k) % n + n * ((n - k) / n) : ℕ) : ℤ) = ((n - k : ℕ) : ℤ) := by rw [this]
      rw [Nat.cast_sub hk.le] at h2
      push_cast at h2 ⊢
      linarith
    rw [h1]
    exact ⟨-i + i * (((n - k) / n : ℕ) : ℤ), by ring⟩
  rw [map_mul, map_mul, Cdi.conj_w, Cdi.conj_w, e n k i hn hk, e m l j hm hl]
  congr 2
  exact (Complex.conj_ofReal _).symm

/-- For two real arrays a sum over the frequencies with even real weights is real. -/
theorem sum_real (n m : ℕ) (hn : 0 < n) (hm : 0 < m) (D : ℕ → ℕ → ℝ) (hD : ∀ k < n, ∀ l < m, D ((n - k) % n) ((m - l) % m) = D k l) (u v : ℕ → ℕ → ℝ) :
    (∑ k ∈ range n, ∑ l ∈ range m, (D k l : ℂ) * ((starRingEnd ℂ) (Dft.fft2 n m (cplx u) k l) * Dft.fft2 n m (cplx v) k l)).im = 0 := by
  rw [← Complex.conj_eq_iff_im]
  rw [map_sum]
  conv_rhs => rw [← sum_neg n hn]
  apply sum_congr rfl
  intro k hk
  rw [map_sum]
  conv_rhs => rw [← sum_neg m hm]
  apply sum_congr rfl
  intro l hl
  have hk := mem_range.1 hk
  have hl := mem_range.1 hl
  rw [fft2_neg n m hn hm u k l hk hl, fft2_neg n m hn hm v k l hk hl, hD k hk l hl, map_mul, map_mul, Complex.conj_ofReal]


/-- The coefficients computed by `recon`, in the order of the transform. -/
noncomputable def best (n m : ℕ) (sx sy w : ℝ) (gx gy : ℕ → ℕ → ℝ) (k l : ℕ) : ℂ :=
  let kx := Spec.waveNumber m sx (Spec.freq m l)
  let ky := Spec.waveNumber n sy (Spec.freq n k)
  open Classical in
  if kx ^ 2 * (1 - w) + ky ^ 2 * w = 0 then 0
  else -Complex.I * ((kx : ℂ) * Dft.fft2 n m (cplx gx) k l * (1 - w) + (ky : ℂ) * Dft.fft2 n m (cplx gy) k l * w) / ((kx ^ 2 * (1 - w) + ky ^ 2 * w : ℝ) : ℂ)

theorem best_mul (n m : ℕ) (sx sy w : ℝ) (hw : 0 ≤ w ∧ w ≤ 1) (gx gy : ℕ → ℕ → ℝ) (k l : ℕ) :
    ((Spec.waveNumber m sx (Spec.freq m l) ^ 2 * (1 - w) + Spec.waveNumber n sy (Spec.freq n k) ^ 2 * w : ℝ) : ℂ) * best n m sx sy w gx gy k l =
      -Complex.I * ((Spec.waveNumber m sx (Spec.freq m l) : ℂ) * Dft.fft2 n m (cplx gx) k l * (1 - w) + (Spec.waveNumber n sy (Spec.freq n k) : ℂ) * Dft.fft2 n m (cplx gy) k l * w) := by
  unfold best
  simp only
  set kx := Spec.waveNumber m sx (Spec.freq m l)
  set ky := Spec.waveNumber n sy (Spec.freq n k)
  by_cases h : kx ^ 2 * (1 - w) + ky ^ 2 * w = 0
  · rw [if_pos h, h]
    have h1 : 0 ≤ kx ^ 2 * (1 - w) := mul_nonneg (sq_nonneg _) (by linarith [hw.2])
    have h2 : 0 ≤ ky ^ 2 * w := mul_nonneg (sq_nonneg _) hw.1
    have h3 : kx * (1 - w) = 0 := by
      rcases mul_eq_zero.1 (show kx ^ 2 * (1 - w) = 0 by linarith) with h' | h'
      · rw [pow_eq_zero_iff two_ne_zero |>.1 h', zero_mul]
      · rw [h', mul_zero]
    have h4 : ky * w = 0 := by
      rcases mul_eq_zero.1 (show ky ^ 2 * w = 0 by linarith) with h' | h'
      · rw [pow_eq_zero_iff two_ne_zero |>.1 h', zero_mul]
      · rw [h', mul_zero]
    have h3' : (kx : ℂ) * (1 - w) = 0 := by exact_mod_cast h3
    have h4' : (ky : ℂ) * w = 0 := by exact_mod_cast h4
    rw [Complex.ofReal_zero, zero_mul]
    linear_combination Complex.I * Dft.fft2 n m (cplx gx) k l * h3' + Complex.I * Dft.fft2 n m (cplx gy) k l * h4'
  · rw [if_neg h]
    have : ((kx ^ 2 * (1 - w) + ky ^ 2 * w : ℝ) : ℂ) ≠ 0 := by exact_mod_cast h
    rw [mul_div_cancel₀ _ this]

/-- `recon` without padding: the real part of the inverse transform of these coefficients. -/
theorem recon_best (n m : ℕ) (hn : 0 < n) (hm : 0 < m) (sx sy w : ℝ) (hw : 0 ≤ w ∧ w ≤ 1) (gx gy : ℕ → ℕ → ℝ) :
    ∃ im, recon n m gx gy sx sy 0 w = .ok im ∧ im.rows = n ∧ im.cols = m ∧ ∀ i j, im.px i j = (Dft.ifft2 n m (best n m sx sy w gx gy) i j).re := by
  obtain ⟨im, him, hr, hc, hpx⟩ := (C63_recon n m gx gy sx sy 0 w).2 hw
  refine ⟨im, him, hr, hc, ?_⟩
  intro i j
  rw [hpx]
  simp only [Nat.mul_zero, Nat.zero_add, Nat.mul_one, Nat.zero_mul]
  have hpad : ∀ g : ℕ → ℕ → ℝ, ∀ i < n, ∀ j < m, (pad 0 n m g).px i j = g i j := by
    intro g i hi j hj
    have := (C63_pad_crop 0 n m g).2.2.1 i hi j hj
    simpa using this
  have hfft : ∀ (g : ℕ → ℕ → ℝ) (k l : ℕ), Dft.fft2 n m (fun i j => ((pad 0 n m g).px i j : ℂ)) k l = Dft.fft2 n m (cplx g) k l := by
    intro g k l
    apply Cdi.fft2_congr
    intro i' hi' j' hj'
    rw [hpad g i' hi' j' hj']
    rfl
  have hcoef : ∀ k < n, ∀ l < m, coeff n m sx sy w (Dft.fftshift2 n m (Dft.fft2 n m (fun i j => ((pad 0 n m gx).px i j : ℂ))))
      (Dft.fftshift2 n m (Dft.fft2 n m (fun i j => ((pad 0 n m gy).px i j : ℂ)))) k l = Dft.fftshift2 n m (best n m sx sy w gx gy) k l := by
    intro k hk l hl
    unfold coeff
    simp only [Dft.fftshift2, Dft.fftshift, hfft, kappa_eq m l hl sx, kappa_eq n k hk sy]
    unfold best
    simp only
  unfold solve
  congr 1
  unfold Dft.ifft2
  apply Dft.ifft_congr
  intro k hk
  apply Dft.ifft_congr
  intro l hl
  rw [← Dft.ifftshift2_fftshift2 n m (best n m sx sy w gx gy) k l hk hl]
  unfold Dft.ifftshift2 Dft.ifftshift
  exact hcoef _ (Nat.mod_lt _ hn) _ (Nat.mod_lt _ hm)

theorem fft2_re (n m : ℕ) (a : ℕ → ℕ → ℂ) (k l : ℕ) (hk : k < n) (hl : l < m) :
    Dft.fft2 n m (cplx (fun i j => (Dft.ifft2 n m a i j).re)) k l = a k l - Complex.I * Dft.fft2 n m (cplx (fun i j => (Dft.ifft2 n m a i j).im)) k l := by
  rw [mul_comm, ← Cdi.fft2_mul]
  conv_rhs => rw [← Dft.fft2_ifft2 n m a k l hk hl, ← fft2_sub]
  apply Cdi.fft2_congr
  intro i _ j _
  unfold cplx
  apply Complex.ext <;> simp

/-- The misfit of any phase exceeds that of the reconstruction by the weighted squares of the difference's slopes. -/
theorem misfit_excess (n m : ℕ) (hn : 0 < n) (hm : 0 < m) (sx sy w : ℝ) (hw : 0 ≤ w ∧ w ≤ 1) (gx gy phi : ℕ → ℕ → ℝ) (P : ℕ → ℕ → ℝ)
    (hP : ∀ i j, P i j = (Dft.ifft2 n m (best n m sx sy w gx gy) i j).re) :
    Spec.misfit n m sx sy w gx gy phi = Spec.misfit n m sx sy w gx gy P +
      (∑ k ∈ range n, ∑ l ∈ range m, (Spec.waveNumber m sx (Spec.freq m l) ^ 2 * (1 - w) + Spec.waveNumber n sy (Spec.freq n k) ^ 2 * w) *
        ‖Dft.fft2 n m (cplx (fun i j => phi i j - P i j)) k l‖ ^ 2) / (n * m : ℕ) := by
  rw [misfit_eq n m hn hm, misfit_eq n m hn hm, ← add_div]
  congr 1
  have hP' : P = fun i j => (Dft.ifft2 n m (best n m sx sy w gx gy) i j).re := by funext i j; exact hP i j
  have hphi : ∀ k l, Dft.fft2 n m (cplx phi) k l = Dft.fft2 n m (cplx P) k l + Dft.fft2 n m (cplx (fun i j => phi i j - P i j)) k l := by
    intro k l
    have : cplx (fun i j => phi i j - P i j) = fun i j => cplx phi i j - cplx P i j := by
      funext i j; unfold cplx; push_cast; rfl
    rw [this, fft2_sub]
    ring
  simp only [hphi, misfitAt_add, sum_add_distrib]
  rw [add_eq_left]
  simp only [← mul_sum]
  rw [mul_eq_zero]
  right
  have hS := sum_real n m hn hm (fun k l => Spec.waveNumber m sx (Spec.freq m l) ^ 2 * (1 - w) + Spec.waveNumber n sy (Spec.freq n k) ^ 2 * w)
    (fun k hk l hl => by simp only [waveNumber_neg_sq m l hl, waveNumber_neg_sq n k hk]) (fun i j => phi i j - P i j)
    (fun i j => (Dft.ifft2 n m (best n m sx sy w gx gy) i j).im)
  refine Eq.trans ?_ hS
  simp only [← Complex.re_sum]
  rw [show (∑ k ∈ range n, ∑ l ∈ range m, (((Spec.waveNumber m sx (Spec.freq m l) ^ 2 * (1 - w) + Spec.waveNumber n sy (Spec.freq n k) ^ 2 * w : ℝ) : ℂ) *
      ((starRingEnd ℂ) (Dft.fft2 n m (cplx fun i j => phi i j - P i j) k l) * Dft.fft2 n m (cplx fun i j => (Dft.ifft2 n m (best n m sx sy w gx gy) i j).im) k l))).im =
      (-Complex.I * ∑ k ∈ range n, ∑ l ∈ range m, (((Spec.waveNumber m sx (Spec.freq m l) ^ 2 * (1 - w) + Spec.waveNumber n sy (Spec.freq n k) ^ 2 * w : ℝ) : ℂ) *
      ((starRingEnd ℂ) (Dft.fft2 n m (cplx fun i j => phi i j - P i j) k l) * Dft.fft2 n m (cplx fun i j => (Dft.ifft2 n m (best n m sx sy w gx gy) i j).im) k l))).re by simp]
  congr 1
  rw [mul_sum]
  apply sum_congr rfl
  intro k hk
  rw [mul_sum]
  apply sum_congr rfl
  intro l hl
  rw [← best_mul n m sx sy w hw gx gy k l]
  conv_lhs => rw [hP', fft2_re n m _ k l (mem_range.1 hk) (mem_range.1 hl), ← hP']
  ring

/-! ### C198 -/

/-- On the grid itself (no padding): for any gradients, consistent or not, and any weighting, no phase fits them better than the
reconstruction. -/
theorem C198_least_squares (n m : ℕ) (hn : 0 < n) (hm : 0 < m) (sx sy w : ℝ) (hw : 0 ≤ w ∧ w ≤ 1) (gx gy : ℕ → ℕ → ℝ) :
    ∃ im, recon n m gx gy sx sy 0 w = .ok im ∧ im.rows = n ∧ im.cols = m ∧
      ∀ phi, Spec.misfit n m sx sy w gx gy im.px ≤ Spec.misfit n m sx sy w gx gy phi := by
  obtain ⟨im, him, hr, hc, hpx⟩ := recon_best n m hn hm sx sy w hw gx gy
  refine ⟨im, him, hr, hc, fun phi => ?_⟩
  rw [misfit_excess n m hn hm sx sy w hw gx gy phi im.px hpx]
  have : (0 : ℝ) ≤ (∑ k ∈ range n, ∑ l ∈ range m, (Spec.waveNumber m sx (Spec.freq m l) ^ 2 * (1 - w) + Spec.waveNumber n sy (Spec.freq n k) ^ 2 * w) *
        ‖Dft.fft2 n m (cplx (fun i j => phi i j - im.px i j)) k l‖ ^ 2) / (n * m : ℕ) := by
    apply div_nonneg _ (Nat.cast_nonneg _)
    apply sum_nonneg; intro k _
    apply sum_nonneg; intro l _
    have h1 : 0 ≤ 1 - w := by linarith [hw.2]
    have h2 := hw.1
    positivity
  linarith

/-- With a weighting strictly between 0 and 1 it is the only best one up to an additive constant. -/
theorem C198_unique (n m : ℕ) (hn : 0 < n) (hm : 0 < m) (sx sy w : ℝ) (hsx : sx ≠ 0) (hsy : sy ≠ 0) (hw : 0 < w ∧ w < 1) (gx gy phi : ℕ → ℕ → ℝ)
    (im : Img ℝ) (him : recon n m gx gy sx sy 0 w = .ok im) :
    Spec.misfit n m sx sy w gx gy phi = Spec.misfit n m sx sy w gx gy im.px ↔ ∃ c, ∀ i < n, ∀ j < m, phi i j = im.px i j + c := by
  obtain ⟨im', him', _, _, hpx⟩ := recon_best n m hn hm sx sy w ⟨hw.1.le, hw.2.le⟩ gx gy
  obtain rfl : im' = im := by rw [him] at him'; exact (Except.ok.inj him').symm
  have hex := misfit_excess n m hn hm sx sy w ⟨hw.1.le, hw.2.le⟩ gx gy phi im'.px hpx
  set d : ℕ → ℕ → ℝ := fun i j => phi i j - im'.px i j with hd
  have hnn : ((n * m : ℕ) : ℝ) ≠ 0 := by exact_mod_cast (Nat.mul_pos hn hm).ne'
  have h1w : 0 < 1 - w := by linarith [hw.2]
  have hw0 := hw.1
  have hiff : Spec.misfit n m sx sy w gx gy phi = Spec.misfit n m sx sy w gx gy im'.px ↔ ∀ k < n, ∀ l < m, ¬ (k = 0 ∧ l = 0) → Dft.fft2 n m (cplx d) k l = 0 := by
    rw [hex, add_eq_left, div_eq_zero_iff, or_iff_left hnn]
    have hterm : ∀ k ∈ range n, ∀ l ∈ range m, 0 ≤ (Spec.waveNumber m sx (Spec.freq m l) ^ 2 * (1 - w) + Spec.waveNumber n sy (Spec.freq n k) ^ 2 * w) * ‖Dft.fft2 n m (cplx d) k l‖ ^ 2 := by
      intro k _ l _
      positivity
    rw [sum_eq_zero_iff_of_nonneg (fun k hk => sum_nonneg (hterm k hk))]
    have hdiv : ∀ k < n, ∀ l < m, Spec.waveNumber m sx (Spec.freq m l) ^ 2 * (1 - w) + Spec.waveNumber n sy (Spec.freq n k) ^ 2 * w = 0 ↔ k = 0 ∧ l = 0 := by
      intro k hk l hl
      rw [← waveNumber_zero n k hk sy hsy, ← waveNumber_zero m l hl sx hsx]
      constructor
      · intro h
        have h1 : 0 ≤ Spec.waveNumber m sx (Spec.freq m l) ^ 2 * (1 - w) := by positivity
        have h2 : 0 ≤ Spec.waveNumber n sy (Spec.freq n k) ^ 2 * w := by positivity
        have h5 := (mul_eq_zero.1 (show Spec.waveNumber m sx (Spec.freq m l) ^ 2 * (1 - w) = 0 by linarith)).resolve_right h1w.ne'
        have h6 := (mul_eq_zero.1 (show Spec.waveNumber n sy (Spec.freq n k) ^ 2 * w = 0 by linarith)).resolve_right hw0.ne'
        exact ⟨pow_eq_zero_iff two_ne_zero |>.1 h6, pow_eq_zero_iff two_ne_zero |>.1 h5⟩
      · rintro ⟨h1, h2⟩; rw [h1, h2]; ring
    constructor
    · intro h k hk l hl hkl
      have := (sum_eq_zero_iff_of_nonneg (hterm k (mem_range.2 hk))).1 (h k (mem_range.2 hk)) l (mem_range.2 hl)
      rcases mul_eq_zero.1 this with h' | h'
      · exact absurd ((hdiv k hk l hl).1 h') hkl
      · exact norm_eq_zero.1 (pow_eq_zero_iff two_ne_zero |>.1 h')
    · intro h k hk
      apply sum_eq_zero
      intro l hl
      by_cases hkl : k = 0 ∧ l = 0
      · rw [(hdiv k (mem_range.1 hk) l (mem_range.1 hl)).2 hkl, zero_mul]
      · rw [h k (mem_range.1 hk) l (mem_range.1 hl) hkl]; simp
  rw [hiff]
  constructor
  · intro h
    refine ⟨(Dft.fft2 n m (cplx d) 0 0 / (n * m)).re, ?_⟩
    intro i hi j hj
    have h1 := Dft.ifft2_fft2 n m (cplx d) i j hi hj
    have h2 : Dft.ifft2 n m (Dft.fft2 n m (cplx d)) i j = Dft.fft2 n m (cplx d) 0 0 / (n * m) := by
      unfold Dft.ifft2 Dft.ifft
      rw [sum_eq_single 0]
      beta_reduce
      rw [sum_eq_single 0]
      · simp [Dft.w_zero, div_div, mul_comm]
      · intro l hl hl0
        rw [h 0 hn l (mem_range.1 hl) (fun h => hl0 h.2), zero_mul]
      · intro hh; exact absurd (mem_range.2 hm) hh
      · intro k hk hk0
        beta_reduce
        rw [sum_eq_zero, zero_div, zero_mul]
        intro l hl
        rw [h k (mem_range.1 hk) l (mem_range.1 hl) (fun h => hk0 h.1), zero_mul]
      · intro hh; exact absurd (mem_range.2 hn) hh
    rw [← h2, h1]
    simp [cplx, hd]
  · rintro ⟨c, hc⟩ k hk l hl hkl
    have : Dft.fft2 n m (cplx d) k l = Dft.fft2 n m (fun _ _ => (c : ℂ)) k l := by
      apply Cdi.fft2_congr
      intro i hi j hj
      simp only [cplx, hd]
      rw [hc i hi j hj]
      simp
    rw [this, fft2_sum]
    have e : ∀ (n k : ℕ), 0 < n → k < n → k ≠ 0 → ∑ i ∈ range n, Dft.w n (-(i * k : ℤ)) = 0 := by
      intro n k hn hk hk0
      have := Dft.sum_w n hn (-(k : ℤ))
      rw [if_neg] at this
      · rw [← this]
        apply sum_congr rfl
        intro i _
        congr 1
        ring
      · rw [Int.dvd_neg]
        intro hdv
        have := Int.le_of_dvd (by omega) hdv
        omega
    by_cases hk0 : k = 0
    · have hl0 : l ≠ 0 := fun h => hkl ⟨hk0, h⟩
      apply sum_eq_zero
      intro i _
      rw [← mul_sum, e m l hm hl hl0, mul_zero]
    · rw [sum_comm]
      apply sum_eq_zero
      intro j _
      rw [← sum_mul, ← mul_sum, e n k hn hk hk0, mul_zero, zero_mul]

/-! ### non-vacuity -/

/-- Gradients that belong to no phase (gx constant and non-zero on a periodic grid): the best misfit is not zero. -/
example : ∃ im, recon 2 3 (fun _ _ => 1) (fun _ _ => 0) 1 1 0 (1 / 2) = .ok im ∧ 0 < Spec.misfit 2 3 1 1 (1 / 2) (fun _ _ => 1) (fun _ _ => 0) im.px := by
  obtain ⟨im, him, _⟩ := C198_least_squares 2 3 (by norm_num) (by norm_num) 1 1 (1 / 2) (by norm_num) (fun _ _ => 1) (fun _ _ => 0)
  refine ⟨im, him, ?_⟩
  rw [misfit_eq 2 3 (by norm_num) (by norm_num)]
  apply div_pos _ (by norm_num)
  have hterm : ∀ k l, 0 ≤ misfitAt (1 / 2) (Spec.waveNumber 3 1 (Spec.freq 3 l)) (Spec.waveNumber 2 1 (Spec.freq 2 k)) (Dft.fft2 2 3 (cplx (fun _ _ => 1)) k l)
      (Dft.fft2 2 3 (cplx (fun _ _ => 0)) k l) (Dft.fft2 2 3 (cplx im.px) k l) := by
    intro k l
    unfold misfitAt
    norm_num
    positivity
  apply sum_pos' (fun k _ => sum_nonneg (fun l _ => hterm k l)) ⟨0, by simp, ?_⟩
  apply sum_pos' (fun l _ => hterm 0 l) ⟨0, by simp, ?_⟩
  have : Dft.fft2 2 3 (cplx (fun _ _ => (1 : ℝ))) 0 0 = 6 := by
    rw [fft2_sum]; simp [cplx, Dft.w_zero]; norm_num
  rw [this]
  unfold misfitAt
  have z : ∀ n, Spec.waveNumber n 1 (Spec.freq n 0) = 0 ∨ n = 0 := by
    intro n
    by_cases h : n = 0
    · exact Or.inr h
    · exact Or.inl ((waveNumber_zero n 0 (by omega) 1 one_ne_zero).2 rfl)
  rw [(z 3).resolve_right (by norm_num), (z 2).resolve_right (by norm_num)]
  norm_num
  positivity

end Verif.Dpc
