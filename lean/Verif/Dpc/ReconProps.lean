/- Properties C102-C104, C106: phase reconstruction and the fit's cost function. -/
import Verif.Dpc.Props
import Mathlib.Analysis.SpecialFunctions.Trigonometric.Basic
import Mathlib.Tactic.NormNum
import Mathlib.Tactic.IntervalCases

namespace Verif.Dpc
open Finset Verif

/-! ## C102 recon inverts the gradient -/

/-- Signed frequency of entry k of a transform of length n (as np.fft.fftfreq(n) * n). -/
def Spec.freq (n k : ℕ) : ℤ := if k < n - n / 2 then k else (k : ℤ) - n

/-- `exp(2 pi i f x / n)` for a signed frequency f at sample x. -/
noncomputable def Spec.wave (n : ℕ) (f : ℤ) (x : ℕ) : ℂ := Complex.exp (2 * Real.pi * Complex.I * f * x / n)

/-- The trigonometric polynomial with coefficients `a` on an n x m grid. -/
noncomputable def Spec.trig (n m : ℕ) (a : ℕ → ℕ → ℂ) (i j : ℕ) : ℂ :=
  ∑ k ∈ range n, ∑ l ∈ range m, a k l * Spec.wave n (Spec.freq n k) i * Spec.wave m (Spec.freq m l) j

/-- Wave number of frequency f on n samples with spacing `step`: the wave is `exp(i kappa x)` at position `x = sample * step`. -/
noncomputable def Spec.waveNumber (n : ℕ) (step : ℝ) (f : ℤ) : ℝ := 2 * Real.pi * f / (n * step)

theorem wave_eq (n k x : ℕ) (hn : 0 < n) : Spec.wave n (Spec.freq n k) x = Dft.w n (x * k : ℤ) := by
  have h1 : Spec.wave n (Spec.freq n k) x = Dft.w n (Spec.freq n k * x) := by
    unfold Spec.wave Dft.w
    congr 1
    push_cast
    ring
  rw [h1]
  apply Dft.w_congr n hn
  unfold Spec.freq
  split_ifs
  · refine ⟨0, by ring⟩
  · refine ⟨-x, by ring⟩

theorem trig_ifft2 (n m : ℕ) (hn : 0 < n) (hm : 0 < m) (a : ℕ → ℕ → ℂ) (i j : ℕ) :
    Spec.trig n m a i j = Dft.ifft2 n m (fun k l => n * m * a k l) i j := by
  unfold Spec.trig Dft.ifft2 Dft.ifft
  have hn' : (n : ℂ) ≠ 0 := by exact_mod_cast hn.ne'
  have hm' : (m : ℂ) ≠ 0 := by exact_mod_cast hm.ne'
  rw [sum_div]
  apply sum_congr rfl
  intro k _
  beta_reduce
  rw [sum_div, sum_mul, sum_div]
  apply sum_congr rfl
  intro l _
  rw [wave_eq n k i hn, wave_eq m l j hm]
  field_simp

theorem freq_shift (n k : ℕ) (hk : k < n) : Spec.freq n ((k + (n - n / 2)) % n) = (k : ℤ) - (n / 2 : ℕ) := by
  unfold Spec.freq
  by_cases h : k < n / 2
  · rw [Nat.mod_eq_of_lt (by omega), if_neg (by omega)]
    omega
  · have : (k + (n - n / 2)) % n = k - n / 2 := by
      rw [show k + (n - n / 2) = (k - n / 2) + n by omega, Nat.add_mod_right, Nat.mod_eq_of_lt (by omega)]
    rw [this, if_pos (by omega)]
    omega

theorem kappa_eq (n k : ℕ) (hk : k < n) (step : ℝ) : kappa n step k = Spec.waveNumber n step (Spec.freq n ((k + (n - n / 2)) % n)) := by
  rw [freq_shift n k hk]
  unfold kappa Spec.waveNumber
  generalize n / 2 = q
  push_cast
  congr 1
  ring

theorem waveNumber_zero (n k : ℕ) (hk : k < n) (step : ℝ) (hs : step ≠ 0) : Spec.waveNumber n step (Spec.freq n k) = 0 ↔ k = 0 := by
  have hn : (n : ℝ) ≠ 0 := by
    have : n ≠ 0 := by omega
    exact_mod_cast this
  unfold Spec.waveNumber
  rw [div_eq_zero_iff, mul_eq_zero, mul_eq_zero]
  have : ((Spec.freq n k : ℤ) : ℝ) = 0 ↔ k = 0 := by
    rw [Int.cast_eq_zero]
    unfold Spec.freq
    split_ifs <;> omega
  rw [this]
  simp [Real.pi_ne_zero, hn, hs]

open Classical in
/-- On the grid itself (no padding): if gx and gy are the derivatives, along the columns and along the rows, of a real
trigonometric polynomial phi with period n x m, then for any weighting strictly between 0 and 1 the reconstruction is phi
up to an additive constant. -/
theorem C102_recon_gradient (n m : ℕ) (hn : 0 < n) (hm : 0 < m) (sx sy w : ℝ) (hsx : sx ≠ 0) (hsy : sy ≠ 0) (hw0 : 0 < w) (hw1 : w < 1)
    (a : ℕ → ℕ → ℂ) (phi gx gy : ℕ → ℕ → ℝ)
    (hphi : ∀ i j, (phi i j : ℂ) = Spec.trig n m a i j)
    (hgx : ∀ i j, (gx i j : ℂ) = Spec.trig n m (fun k l => Complex.I * Spec.waveNumber m sx (Spec.freq m l) * a k l) i j)
    (hgy : ∀ i j, (gy i j : ℂ) = Spec.trig n m (fun k l => Complex.I * Spec.waveNumber n sy (Spec.freq n k) * a k l) i j) :
    ∃ im c, recon n m gx gy sx sy 0 w = .ok im ∧ im.rows = n ∧ im.cols = m ∧ ∀ i < n, ∀ j < m, im.px i j = phi i j - c := by
  obtain ⟨im, him, hr, hc, hpx⟩ := (C63_recon n m gx gy sx sy 0 w).2 ⟨hw0.le, hw1.le⟩
  refine ⟨im, (a 0 0).re, him, hr, hc, ?_⟩
  intro i hi j hj
  rw [hpx]
  simp only [Nat.mul_zero, Nat.zero_add, Nat.mul_one, Nat.zero_mul]
  have hpad : ∀ g : ℕ → ℕ → ℝ, ∀ i < n, ∀ j < m, (pad 0 n m g).px i j = g i j := by
    intro g i hi j hj
    have := (C63_pad_crop 0 n m g).2.2.1 i hi j hj
    simpa using this
  have hfft : ∀ (g : ℕ → ℕ → ℝ) (b : ℕ → ℕ → ℂ), (∀ i j, (g i j : ℂ) = Spec.trig n m b i j) → ∀ k < n, ∀ l < m,
      Dft.fft2 n m (fun i j => ((pad 0 n m g).px i j : ℂ)) k l = n * m * b k l := by
    intro g b hb k hk l hl
    rw [← Dft.fft2_ifft2 n m (fun k l => n * m * b k l) k l hk hl]
    unfold Dft.fft2
    apply Dft.fft_congr
    intro i' hi'
    apply Dft.fft_congr
    intro j' hj'
    beta_reduce
    rw [hpad g i' hi' j' hj', hb, trig_ifft2 n m hn hm]
  set H : ℕ → ℕ → ℂ := fun k l => n * m * (if k = 0 ∧ l = 0 then 0 else a k l) with hH
  have hcoef : ∀ k < n, ∀ l < m, coeff n m sx sy w (Dft.fftshift2 n m (Dft.fft2 n m (fun i j => ((pad 0 n m gx).px i j : ℂ))))
      (Dft.fftshift2 n m (Dft.fft2 n m (fun i j => ((pad 0 n m gy).px i j : ℂ)))) k l = Dft.fftshift2 n m H k l := by
    intro k hk l hl
    have hsk : (k + (n - n / 2)) % n < n := Nat.mod_lt _ hn
    have hsl : (l + (m - m / 2)) % m < m := Nat.mod_lt _ hm
    have etx : Dft.fftshift2 n m (Dft.fft2 n m (fun i j => ((pad 0 n m gx).px i j : ℂ))) k l = n * m * (Complex.I * Spec.waveNumber m sx (Spec.freq m ((l + (m - m / 2)) % m)) * a ((k + (n - n / 2)) % n) ((l + (m - m / 2)) % m)) := by
      unfold Dft.fftshift2 Dft.fftshift
      exact hfft gx _ hgx _ hsk _ hsl
    have ety : Dft.fftshift2 n m (Dft.fft2 n m (fun i j => ((pad 0 n m gy).px i j : ℂ))) k l = n * m * (Complex.I * Spec.waveNumber n sy (Spec.freq n ((k + (n - n / 2)) % n)) * a ((k + (n - n / 2)) % n) ((l + (m - m / 2)) % m)) := by
      unfold Dft.fftshift2 Dft.fftshift
      exact hfft gy _ hgy _ hsk _ hsl
    have eH : Dft.fftshift2 n m H k l = n * m * (if (k + (n - n / 2)) % n = 0 ∧ (l + (m - m / 2)) % m = 0 then 0 else a ((k + (n - n / 2)) % n) ((l + (m - m / 2)) % m)) := rfl
    unfold coeff
    rw [etx, ety, eH]
    simp only [kappa_eq m l hl sx, kappa_eq n k hk sy]
    have zx := waveNumber_zero m ((l + (m - m / 2)) % m) hsl sx hsx
    have zy := waveNumber_zero n ((k + (n - n / 2)) % n) hsk sy hsy
    set kx := Spec.waveNumber m sx (Spec.freq m ((l + (m - m / 2)) % m))
    set ky := Spec.waveNumber n sy (Spec.freq n ((k + (n - n / 2)) % n))
    have hdiv : kx ^ 2 * (1 - w) + ky ^ 2 * w = 0 ↔ kx = 0 ∧ ky = 0 := by
      constructor
      · intro h
        have h1 : 0 ≤ kx ^ 2 * (1 - w) := mul_nonneg (sq_nonneg _) (by linarith)
        have h2 : 0 ≤ ky ^ 2 * w := mul_nonneg (sq_nonneg _) hw0.le
        have h3 : kx ^ 2 * (1 - w) = 0 := by linarith
        have h4 : ky ^ 2 * w = 0 := by linarith
        have h5 := (mul_eq_zero.1 h3).resolve_right (by linarith)
        have h6 := (mul_eq_zero.1 h4).resolve_right hw0.ne'
        exact ⟨pow_eq_zero_iff (two_ne_zero) |>.1 h5, pow_eq_zero_iff (two_ne_zero) |>.1 h6⟩
      · rintro ⟨h1, h2⟩; rw [h1, h2]; ring
    by_cases hd : kx ^ 2 * (1 - w) + ky ^ 2 * w = 0
    · rw [if_pos hd]
      have := hdiv.1 hd
      rw [if_pos ⟨zy.1 this.2, zx.1 this.1⟩, mul_zero]
    · rw [if_neg hd, if_neg (fun h => hd (hdiv.2 ⟨zx.2 h.2, zy.2 h.1⟩))]
      have hd' : ((kx ^ 2 * (1 - w) + ky ^ 2 * w : ℝ) : ℂ) ≠ 0 := by exact_mod_cast hd
      rw [div_eq_iff hd']
      push_cast
      have hI : Complex.I * Complex.I = -1 := Complex.I_mul_I
      linear_combination (-(kx : ℂ) * (n * m * (kx * a ((k + (n - n / 2)) % n) ((l + (m - m / 2)) % m))) * (1 - w) - (ky : ℂ) * (n * m * (ky * a ((k + (n - n / 2)) % n) ((l + (m - m / 2)) % m))) * w) * hI
  unfold solve
  have hsol : Dft.ifft2 n m (Dft.ifftshift2 n m (coeff n m sx sy w (Dft.fftshift2 n m (Dft.fft2 n m (fun i j => ((pad 0 n m gx).px i j : ℂ))))
      (Dft.fftshift2 n m (Dft.fft2 n m (fun i j => ((pad 0 n m gy).px i j : ℂ)))))) i j = (phi i j : ℂ) - a 0 0 := by
    have h1 : Dft.ifft2 n m (Dft.ifftshift2 n m (coeff n m sx sy w (Dft.fftshift2 n m (Dft.fft2 n m (fun i j => ((pad 0 n m gx).px i j : ℂ))))
        (Dft.fftshift2 n m (Dft.fft2 n m (fun i j => ((pad 0 n m gy).px i j : ℂ)))))) i j = Dft.ifft2 n m H i j := by
      unfold Dft.ifft2
      apply Dft.ifft_congr
      intro k hk
      apply Dft.ifft_congr
      intro l hl
      rw [← Dft.ifftshift2_fftshift2 n m H k l hk hl]
      unfold Dft.ifftshift2 Dft.ifftshift
      exact hcoef _ (Nat.mod_lt _ hn) _ (Nat.mod_lt _ hm)
    rw [h1, hphi, hH, ← trig_ifft2 n m hn hm]
    have hsplit : ∀ k l, a k l = (if k = 0 ∧ l = 0 then 0 else a k l) + (if k = 0 ∧ l = 0 then a 0 0 else 0) := by
      intro k l
      by_cases h : k = 0 ∧ l = 0
      · rw [if_pos h, if_pos h, h.1, h.2, zero_add]
      · rw [if_neg h, if_neg h, add_zero]
    have hone : Spec.trig n m (fun k l => if k = 0 ∧ l = 0 then a 0 0 else 0) i j = a 0 0 := by
      unfold Spec.trig
      rw [sum_eq_single 0, sum_eq_single 0]
      · beta_reduce
        rw [if_pos ⟨rfl, rfl⟩]
        have e : ∀ n x, 0 < n → Spec.wave n (Spec.freq n 0) x = 1 := by
          intro n x h
          rw [wave_eq n 0 x h]; simp [Dft.w_zero]
        rw [e n i hn, e m j hm, mul_one, mul_one]
      · intro l _ hl; beta_reduce; rw [if_neg (fun h => hl h.2)]; ring
      · intro h; exact absurd (mem_range.2 hm) h
      · intro k _ hk
        apply sum_eq_zero
        intro l _
        beta_reduce
        rw [if_neg (fun h => hk h.1)]; ring
      · intro h; exact absurd (mem_range.2 hn) h
    have hadd : Spec.trig n m a i j = Spec.trig n m (fun k l => if k = 0 ∧ l = 0 then 0 else a k l) i j + Spec.trig n m (fun k l => if k = 0 ∧ l = 0 then a 0 0 else 0) i j := by
      unfold Spec.trig
      rw [← sum_add_distrib]
      apply sum_congr rfl
      intro k _
      rw [← sum_add_distrib]
      apply sum_congr rfl
      intro l _
      rw [← add_mul, ← add_mul, ← hsplit k l]
    rw [hadd, hone]
    ring
  rw [hsol]
  simp

/-- One period of a cosine along the columns of a 1 x 4 grid. -/
noncomputable def exCoef (A : ℝ) (_k l : ℕ) : ℂ := if l = 1 ∨ l = 3 then (A / 2 : ℝ) else 0

theorem exWave (l j : ℕ) : Spec.wave 4 (Spec.freq 4 l) j = Complex.exp (((Real.pi / 2 * (j * l) : ℝ) : ℂ) * Complex.I) := by
  rw [wave_eq 4 l j (by norm_num)]
  unfold Dft.w
  congr 1
  push_cast
  ring

theorem exTrig (b : ℕ → ℂ) (i j : ℕ) : Spec.trig 1 4 (fun _ l => b l) i j = b 0 + b 1 * Complex.exp (((Real.pi / 2 * j : ℝ) : ℂ) * Complex.I) +
    b 2 * Complex.exp (((Real.pi * j : ℝ) : ℂ) * Complex.I) + b 3 * Complex.exp (-(((Real.pi / 2 * j : ℝ) : ℂ) * Complex.I)) := by
  unfold Spec.trig
  simp only [sum_range_one, sum_range_succ, sum_range_zero, zero_add]
  have e0 : Spec.wave 1 (Spec.freq 1 0) i = 1 := by rw [wave_eq 1 0 i (by norm_num)]; simp [Dft.w_zero]
  rw [e0]
  have e1 : Spec.wave 4 (Spec.freq 4 0) j = 1 := by rw [wave_eq 4 0 j (by norm_num)]; simp [Dft.w_zero]
  have e2 : Spec.wave 4 (Spec.freq 4 3) j = Complex.exp (-(((Real.pi / 2 * j : ℝ) : ℂ) * Complex.I)) := by
    have : Spec.freq 4 3 = -1 := by decide
    rw [this]
    unfold Spec.wave
    congr 1
    push_cast
    ring
  rw [e1, e2, exWave 1 j, exWave 2 j]
  have h2 : (Real.pi / 2 * (j * (2 : ℕ)) : ℝ) = Real.pi * j := by push_cast; ring
  have h1 : (Real.pi / 2 * (j * (1 : ℕ)) : ℝ) = Real.pi / 2 * j := by push_cast; ring
  rw [h2, h1]
  ring

/-- Reconstruction of `A cos(pi j / 2)` from its derivative on four samples. -/
theorem recon_cosine (A sx sy w : ℝ) (hsx : sx ≠ 0) (hsy : sy ≠ 0) (hw0 : 0 < w) (hw1 : w < 1) :
    ∃ im c, recon 1 4 (fun _ j => -(Real.pi / (2 * sx)) * A * Real.sin (Real.pi / 2 * j)) (fun _ _ => 0) sx sy 0 w = .ok im ∧ im.rows = 1 ∧ im.cols = 4 ∧
      ∀ i < 1, ∀ j < 4, im.px i j = A * Real.cos (Real.pi / 2 * j) - c := by
  apply C102_recon_gradient 1 4 (by norm_num) (by norm_num) sx sy w hsx hsy hw0 hw1 (exCoef A)
  · intro i j
    have := exTrig (exCoef A 0) i j
    rw [show (fun (_ : ℕ) l => exCoef A 0 l) = exCoef A from rfl] at this
    rw [this]
    simp only [exCoef]
    norm_num
    rw [Complex.cos]
    ring_nf
  · intro i j
    have := exTrig (fun l => Complex.I * Spec.waveNumber 4 sx (Spec.freq 4 l) * exCoef A 0 l) i j
    rw [show (fun (_ : ℕ) l => Complex.I * Spec.waveNumber 4 sx (Spec.freq 4 l) * exCoef A 0 l) = fun k l => Complex.I * Spec.waveNumber 4 sx (Spec.freq 4 l) * exCoef A k l from rfl] at this
    rw [this]
    have f1 : Spec.freq 4 1 = 1 := by decide
    have f3 : Spec.freq 4 3 = -1 := by decide
    have hsx' : (sx : ℂ) ≠ 0 := by exact_mod_cast hsx
    simp only [exCoef, f1, f3, Spec.waveNumber]
    norm_num
    rw [Complex.sin]
    have hI : Complex.I * Complex.I = -1 := Complex.I_mul_I
    field_simp
    ring
  · intro i j
    unfold Spec.trig
    simp only [sum_range_one, Complex.ofReal_zero]
    symm
    apply sum_eq_zero
    intro l _
    have : Spec.freq 1 0 = 0 := by decide
    rw [this]
    simp [Spec.waveNumber]

/-! ## C103 scale -/

/-- The argument `scale` has no effect. -/
theorem C103_scale_ignored_refuted (rows cols : ℕ) (st : State ℝ) (lenx leny : ℕ) (energy sx sy : ℝ) (pixel focus : Option ℝ) (negate : Bool) (padding : ℕ) (w : ℝ) :
    reconstruct rows cols st lenx leny energy sx sy pixel focus negate false padding w = reconstruct rows cols st lenx leny energy sx sy pixel focus negate true padding w := rfl

/-- Without pixel size and distance and with negate=False the call raises, for every state. -/
theorem C103_unscaled_unnegated_refuted (rows cols : ℕ) (st : State ℝ) (lenx leny : ℕ) (energy sx sy : ℝ) (scale : Bool) (padding : ℕ) (w : ℝ) :
    reconstruct rows cols st lenx leny energy sx sy none none false scale padding w = .error .valueError := by
  unfold reconstruct
  split_ifs <;> simp

/-- With scale=False the phase still depends on the pixel size: doubling it doubles this phase. -/
theorem C103_scale_false_dependent_refuted : ∃ (st : State ℝ) (im1 im2 : Img ℝ) (amp1 amp2 : Img ℝ),
    reconstruct 1 4 st 1 1 (12.4e-4) 1 1 (some 1) (some 1) true false 0 (1 / 2) = .ok (im1, amp1) ∧
    reconstruct 1 4 st 1 1 (12.4e-4) 1 1 (some 2) (some 1) true false 0 (1 / 2) = .ok (im2, amp2) ∧ im1.px 0 0 - im1.px 0 2 = 2 ∧ im2.px 0 0 - im2.px 0 2 = 4 := by
  have key : ∀ p : ℝ, p ≠ 0 → ∃ im c, recon 1 4 (fun _ j => -1 * (Real.pi / 2 * Real.sin (Real.pi / 2 * j) * (1 : ℕ) * (p / (12.4e-4 / 12.4e-4 * 1)))) (fun _ _ => (0 : ℝ) * (1 : ℕ) * (p / (12.4e-4 / 12.4e-4 * 1))) 1 1 0 (1 / 2) = .ok im ∧ im.rows = 1 ∧ im.cols = 4 ∧
      ∀ i < 1, ∀ j < 4, im.px i j = p * Real.cos (Real.pi / 2 * j) - c := by
    intro p _
    have := recon_cosine p 1 1 (1 / 2) (by norm_num) (by norm_num) (by norm_num) (by norm_num)
    obtain ⟨im, c, h1, h2⟩ := this
    refine ⟨im, c, ?_, h2⟩
    rw [← h1]
    congr 1
    · funext _ j
      norm_num
      ring
    · funext _ j
      ring
  set st : State ℝ := ⟨fun _ _ => 0, fun _ _ => 0, fun _ j => Real.pi / 2 * Real.sin (Real.pi / 2 * j), fun _ _ => 0, 4⟩ with hst
  have run : ∀ p : ℝ, p ≠ 0 → ∃ im amp, reconstruct 1 4 st 1 1 (12.4e-4) 1 1 (some p) (some 1) true false 0 (1 / 2) = .ok (im, amp) ∧ im.px 0 0 - im.px 0 2 = 2 * p := by
    intro p hp
    obtain ⟨im, c, h1, _, _, h4⟩ := key p hp
    refine ⟨im, ⟨1, 4, fun i j => (st.ax i j + st.ay i j) / 2⟩, ?_, ?_⟩
    · unfold reconstruct
      have hsc : (some p : Option ℝ).getD 0 ≠ 0 ∧ (some (1 : ℝ)).getD 0 ≠ 0 := ⟨by simpa using hp, by simp⟩
      rw [if_neg (by norm_num)]
      simp only [if_pos hsc, if_true]
      simp only [Option.getD_some]
      rw [h1]
    · rw [h4 0 (by norm_num) 0 (by norm_num), h4 0 (by norm_num) 2 (by norm_num)]
      have : Real.pi / 2 * ((2 : ℕ) : ℝ) = Real.pi := by push_cast; ring
      rw [this]
      simp
      ring
  obtain ⟨im1, amp1, h1, h1'⟩ := run 1 (by norm_num)
  obtain ⟨im2, amp2, h2, h2'⟩ := run 2 (by norm_num)
  exact ⟨st, im1, im2, amp1, amp2, h1, h2, by rw [h1']; norm_num, by rw [h2']; norm_num⟩

/-- What holds: without pixel size (and with the default negate=True) the phase is reconstructed from the unscaled
gradients with the x gradient negated; the amplitude is the mean of the two fitted ones. -/
theorem C103_unscaled_partial (rows cols : ℕ) (st : State ℝ) (lenx leny : ℕ) (energy sx sy : ℝ) (scale : Bool) (padding : ℕ) (w : ℝ) (hw : 0 ≤ w ∧ w ≤ 1) :
    ∃ phase amp, reconstruct rows cols st lenx leny energy sx sy none none true scale padding w = .ok (phase, amp) ∧
      recon rows cols (fun i j => -st.gx i j) st.gy sx sy padding w = .ok phase ∧ ∀ i j, amp.px i j = (st.ax i j + st.ay i j) / 2 := by
  obtain ⟨im, him, _⟩ := (C63_recon rows cols (fun i j => -st.gx i j) st.gy sx sy padding w).2 hw
  refine ⟨im, ⟨rows, cols, fun i j => (st.ax i j + st.ay i j) / 2⟩, ?_, him, fun i j => rfl⟩
  unfold reconstruct
  rw [if_neg (by rintro (h | h) <;> linarith [hw.1, hw.2])]
  simp [him]

/-! ## C104 the fit's cost function -/

theorem beta_eq (len m : ℕ) (hlen : 0 < len) (hm : m < len) : beta len m = (m : ℝ) - (len / 2 : ℕ) := by
  unfold beta
  simp only
  have hlo : (-((len : ℤ) - 1)) / 2 = -((len / 2 : ℕ) : ℤ) := by omega
  have hhi : ((len : ℤ) - 1) / 2 - (-((len : ℤ) - 1)) / 2 = (len : ℤ) - 1 := by omega
  by_cases h1 : len = 1
  · rw [if_pos h1]
    subst h1
    have : m = 0 := by omega
    subst this
    norm_num
  · rw [if_neg h1]
    have hne : (len : ℝ) - 1 ≠ 0 := by
      have : (len : ℝ) ≠ 1 := by exact_mod_cast h1
      exact sub_ne_zero.2 this
    have h2 : ((((len : ℤ) - 1) / 2 : ℤ) : ℝ) - (((-((len : ℤ) - 1)) / 2 : ℤ) : ℝ) = (len : ℝ) - 1 := by exact_mod_cast hhi
    rw [h2, div_self hne, hlo]
    generalize len / 2 = q
    push_cast
    ring

/-- The residual is never negative, and for a line that is the reference line scaled by `a` and shifted cyclically by `d`
pixels it is zero at the parameters (a, 2 pi d / length). -/
theorem C104_cost_minimum (len : ℕ) (hlen : 0 < len) (ref diff : ℕ → ℝ) (a : ℝ) (d : ℕ) (hd : ∀ m < len, diff ((m + d) % len) = a * ref m) :
    (∀ v r s, 0 ≤ rss len v r s) ∧ rss len (a, 2 * Real.pi * d / len) (lineTransform len ref) (lineTransform len diff) = 0 := by
  constructor
  · intro v r s
    unfold rss
    apply sum_nonneg
    intro m _
    rw [Complex.mul_conj]
    simp [Complex.normSq_nonneg]
  · unfold rss
    apply sum_eq_zero
    intro m hm
    have hm' := mem_range.1 hm
    have hz : lineTransform len diff m - lineTransform len ref m * (a : ℂ) * Complex.exp (((2 * Real.pi * d / len : ℝ) : ℂ) * (Complex.I * beta len m)) = 0 := by
      have hE : Complex.exp (((2 * Real.pi * d / len : ℝ) : ℂ) * (Complex.I * beta len m)) = Dft.w len (d * ((m + (len - len / 2)) % len : ℕ)) := by
        have h1 : Complex.exp (((2 * Real.pi * d / len : ℝ) : ℂ) * (Complex.I * beta len m)) = Dft.w len (d * ((m : ℤ) - (len / 2 : ℕ))) := by
          unfold Dft.w
          rw [beta_eq len m hlen hm']
          congr 1
          generalize len / 2 = q
          push_cast
          ring
        rw [h1]
        apply Dft.w_congr len hlen
        rw [← mul_sub]
        have := Dft.fftshift_freq len m hm'
        rw [← Int.dvd_neg] at this
        have h2 : -((((m + (len - len / 2)) % len : ℕ) : ℤ) - ((m : ℤ) - (len / 2 : ℕ))) = (m : ℤ) - (len / 2 : ℕ) - (((m + (len - len / 2)) % len : ℕ) : ℤ) := by ring
        rw [h2] at this
        exact Dvd.dvd.mul_left this _
      rw [hE]
      unfold lineTransform Dft.fftshift
      set k := (m + (len - len / 2)) % len
      unfold Dft.ifft
      have hsum : ∑ x ∈ range len, (diff x : ℂ) * Dft.w len (k * x : ℤ) = ∑ x ∈ range len, (diff ((x + d) % len) : ℂ) * Dft.w len (k * ((x + d) % len : ℕ) : ℤ) := by
        symm
        apply Finset.sum_bij' (fun x _ => (x + d) % len) (fun x _ => (x + (len - d % len)) % len)
        · intro x _; exact mem_range.2 (Nat.mod_lt _ hlen)
        · intro x _; exact mem_range.2 (Nat.mod_lt _ hlen)
        · intro x hx
          have hx' := mem_range.1 hx
          have hdl := Nat.mod_lt d hlen
          rw [Nat.mod_add_mod]
          have h3 : x + d + (len - d % len) = x + len * (d / len + 1) := by
            have := Nat.mod_add_div d len
            rw [Nat.mul_add, Nat.mul_one]
            omega
          rw [h3, Nat.add_mul_mod_self_left, Nat.mod_eq_of_lt hx']
        · intro x hx
          have hx' := mem_range.1 hx
          have hdl := Nat.mod_lt d hlen
          rw [Nat.mod_add_mod]
          have h3 : x + (len - d % len) + d = x + len * (d / len + 1) := by
            have := Nat.mod_add_div d len
            rw [Nat.mul_add, Nat.mul_one]
            omega
          rw [h3, Nat.add_mul_mod_self_left, Nat.mod_eq_of_lt hx']
        · intro x _; rfl
      rw [hsum]
      have hterm : ∀ x ∈ range len, (diff ((x + d) % len) : ℂ) * Dft.w len (k * ((x + d) % len : ℕ) : ℤ) = (ref x : ℂ) * Dft.w len (k * x : ℤ) * ((a : ℂ) * Dft.w len (d * k)) := by
        intro x hx
        rw [hd x (mem_range.1 hx)]
        have : Dft.w len (k * ((x + d) % len : ℕ) : ℤ) = Dft.w len (k * x : ℤ) * Dft.w len (d * k) := by
          rw [← Dft.w_add]
          apply Dft.w_congr len hlen
          have h4 : (((x + d) % len : ℕ) : ℤ) = (x : ℤ) + d - len * (((x + d) / len : ℕ) : ℤ) := by
            have h5 : (((x + d) % len + len * ((x + d) / len) : ℕ) : ℤ) = ((x + d : ℕ) : ℤ) := by rw [Nat.mod_add_div]
            push_cast at h5 ⊢
            linarith
          rw [h4]
          exact ⟨-(k * (((x + d) / len : ℕ) : ℤ)), by ring⟩
        rw [this]
        push_cast
        ring
      rw [sum_congr rfl hterm, ← sum_mul]
      ring
    rw [hz]
    simp

example : (∀ m < 3, (fun m => if m = 1 then (10 : ℝ) else if m = 2 then 20 else 30) ((m + 1) % 3) = 2 * (fun m => if m = 0 then (5 : ℝ) else if m = 1 then 10 else 15) m) := by
  intro m hm
  interval_cases m <;> norm_num

/-! ## C106 dpc_runner -/

/-- For a non-empty sequence within the raster the result is the reconstruction from the state after all frames. -/
theorem C106_runner_partial {ι : Type} (fit : ι → (ℝ × ℝ) × (ℝ × ℝ)) (ims : List ι) (p focus : ℝ) (rows cols lenx leny : ℕ) (sx sy energy : ℝ) (padding : ℕ) (w : ℝ) (negate scale : Bool)
    (hne : ims ≠ []) (hle : ims.length ≤ rows * cols) :
    ∃ st, Spec.AfterFrames fit cols ims ims.length st ∧ dpcRunner fit ims (p, p) focus rows cols lenx leny sx sy energy padding w negate scale =
      reconstruct rows cols st lenx leny energy sx sy (some p) (some focus) negate scale padding w := by
  obtain ⟨h1, h2, _, h4⟩ := C61_raster fit rows cols ims
  have hlen : 0 < ims.length := List.length_pos_iff.2 hne
  set r := lazyDpc fit rows cols initState ims with hr
  have hl : r.1.length = ims.length := by omega
  obtain ⟨yl, hyl⟩ : ∃ yl, r.1[r.1.length - 1]? = some yl := ⟨_, List.getElem?_eq_getElem (by omega)⟩
  refine ⟨yl, ?_, ?_⟩
  · have := h4 _ yl hyl
    rw [hl, show ims.length - 1 + 1 = ims.length by omega] at this
    exact this
  · unfold dpcRunner
    rw [if_neg (by simp)]
    have e : r = (r.1, none) := Prod.ext rfl (h2.2 hle)
    rw [← hr, e]
    simp only [List.getLast?_eq_getElem?, hyl]

/-- With no frames at all the call raises UnboundLocalError. -/
theorem C106_no_frames_refuted {ι : Type} (fit : ι → (ℝ × ℝ) × (ℝ × ℝ)) (p focus : ℝ) (rows cols lenx leny : ℕ) (sx sy energy : ℝ) (padding : ℕ) (w : ℝ) (negate scale : Bool) :
    dpcRunner fit ([] : List ι) (p, p) focus rows cols lenx leny sx sy energy padding w negate scale = .error .unboundLocal := by
  unfold dpcRunner
  rw [if_neg (by simp)]
  rfl

/-- Pixels that are not square raise ValueError. -/
theorem C106_non_square {ι : Type} (fit : ι → (ℝ × ℝ) × (ℝ × ℝ)) (ims : List ι) (p q focus : ℝ) (hpq : p ≠ q) (rows cols lenx leny : ℕ) (sx sy energy : ℝ) (padding : ℕ) (w : ℝ) (negate scale : Bool) :
    dpcRunner fit ims (p, q) focus rows cols lenx leny sx sy energy padding w negate scale = .error .valueError := by
  unfold dpcRunner
  rw [if_pos hpq]

end Verif.Dpc
