/- Laws of `recon` (C242): linearity, transposition, units of the scan steps, mean, constant slopes and cyclic shifts. -/
import Verif.Dpc.Least
import Verif.Cdi.Ambiguities

namespace Verif.Dpc.Laws

open Finset Verif

/-! ### Specification -/

/-- The image with its axes exchanged (`im.T`). -/
def Spec.transpose (im : Img ℝ) : Img ℝ := ⟨im.cols, im.rows, fun i j => im.px j i⟩

/-- `a * f + b * g`, pixel by pixel. -/
def Spec.comb (a b : ℝ) (f g : ℕ → ℕ → ℝ) : ℕ → ℕ → ℝ := fun i j => a * f i j + b * g i j

/-- `np.roll(g, (-p, -q), axis=(0, 1))` of an image of `n` by `m` pixels. -/
def Spec.roll (n m p q : ℕ) (g : ℕ → ℕ → ℝ) : ℕ → ℕ → ℝ := fun i j => g ((i + p) % n) ((j + q) % m)

/-- `g[::-1, ::-1]` of an image of `n` by `m` pixels. -/
def Spec.turn (n m : ℕ) (g : ℕ → ℕ → ℝ) : ℕ → ℕ → ℝ := fun i j => g (n - 1 - i) (m - 1 - j)

/-! ### Linearity -/

theorem fft_lin (n : ℕ) (x y : ℂ) (a b : ℕ → ℂ) (k : ℕ) : Dft.fft n (fun m => x * a m + y * b m) k = x * Dft.fft n a k + y * Dft.fft n b k := by
  simp only [Dft.fft, mul_sum, ← sum_add_distrib]
  exact sum_congr rfl fun m _ => by ring

theorem ifft_lin (n : ℕ) (x y : ℂ) (a b : ℕ → ℂ) (k : ℕ) : Dft.ifft n (fun m => x * a m + y * b m) k = x * Dft.ifft n a k + y * Dft.ifft n b k := by
  simp only [Dft.ifft]
  rw [← mul_div_assoc, ← mul_div_assoc, ← add_div, mul_sum, mul_sum, ← sum_add_distrib]
  congr 1
  exact sum_congr rfl fun m _ => by ring

theorem fft2_lin (r c : ℕ) (x y : ℂ) (a b : ℕ → ℕ → ℂ) (k l : ℕ) :
    Dft.fft2 r c (fun i j => x * a i j + y * b i j) k l = x * Dft.fft2 r c a k l + y * Dft.fft2 r c b k l := by
  simp only [Dft.fft2, fft_lin]

theorem ifft2_lin (r c : ℕ) (x y : ℂ) (a b : ℕ → ℕ → ℂ) (k l : ℕ) :
    Dft.ifft2 r c (fun i j => x * a i j + y * b i j) k l = x * Dft.ifft2 r c a k l + y * Dft.ifft2 r c b k l := by
  simp only [Dft.ifft2, ifft_lin]

theorem coeff_lin (n m : ℕ) (sx sy w : ℝ) (x y : ℂ) (t1 u1 t2 u2 : ℕ → ℕ → ℂ) (k l : ℕ) :
    coeff n m sx sy w (fun i j => x * t1 i j + y * t2 i j) (fun i j => x * u1 i j + y * u2 i j) k l =
      x * coeff n m sx sy w t1 u1 k l + y * coeff n m sx sy w t2 u2 k l := by
  unfold coeff
  dsimp only
  split_ifs
  · simp
  · ring

theorem solve_lin (n m : ℕ) (sx sy w a b : ℝ) (gx gy hx hy : ℕ → ℕ → ℝ) (i j : ℕ) :
    solve n m sx sy w (Spec.comb a b gx hx) (Spec.comb a b gy hy) i j = a * solve n m sx sy w gx gy i j + b * solve n m sx sy w hx hy i j := by
  have h1 : ∀ g h : ℕ → ℕ → ℝ, Dft.fftshift2 n m (Dft.fft2 n m (fun i j => ((Spec.comb a b g h i j : ℝ) : ℂ))) =
      fun i j => (a : ℂ) * Dft.fftshift2 n m (Dft.fft2 n m (fun i j => (g i j : ℂ))) i j + (b : ℂ) * Dft.fftshift2 n m (Dft.fft2 n m (fun i j => (h i j : ℂ))) i j := by
    intro g h
    funext k l
    simp only [Spec.comb, Dft.fftshift2, Dft.fftshift, Complex.ofReal_add, Complex.ofReal_mul]
    exact fft2_lin n m a b _ _ _ _
  have h2 : ∀ t1 u1 t2 u2 : ℕ → ℕ → ℂ, Dft.ifftshift2 n m (coeff n m sx sy w (fun i j => (a : ℂ) * t1 i j + (b : ℂ) * t2 i j) (fun i j => (a : ℂ) * u1 i j + (b : ℂ) * u2 i j)) =
      fun i j => (a : ℂ) * Dft.ifftshift2 n m (coeff n m sx sy w t1 u1) i j + (b : ℂ) * Dft.ifftshift2 n m (coeff n m sx sy w t2 u2) i j := by
    intro t1 u1 t2 u2
    funext k l
    simp only [Dft.ifftshift2, Dft.ifftshift]
    exact coeff_lin n m sx sy w a b t1 u1 t2 u2 _ _
  unfold solve
  rw [h1, h1, h2, ifft2_lin, Complex.add_re, Complex.re_ofReal_mul, Complex.re_ofReal_mul]

theorem pad_comb (padding rows cols : ℕ) (a b : ℝ) (g h : ℕ → ℕ → ℝ) :
    (pad padding rows cols (Spec.comb a b g h)).px = Spec.comb a b (pad padding rows cols g).px (pad padding rows cols h).px := by
  funext i j
  simp only [pad, Spec.comb]
  split_ifs <;> simp

/-- C242: `recon` is linear in the two gradients: the phase of a weighted sum of two scans is the weighted sum of their phases. -/
theorem C242_linear (rows cols : ℕ) (gx gy hx hy : ℕ → ℕ → ℝ) (a b sx sy : ℝ) (padding : ℕ) (w : ℝ) (P Q : Img ℝ)
    (hP : recon rows cols gx gy sx sy padding w = .ok P) (hQ : recon rows cols hx hy sx sy padding w = .ok Q) :
    recon rows cols (Spec.comb a b gx hx) (Spec.comb a b gy hy) sx sy padding w = .ok ⟨rows, cols, Spec.comb a b P.px Q.px⟩ := by
  unfold recon at hP hQ ⊢
  split_ifs at hP hQ ⊢ with hw
  dsimp only at hP hQ ⊢
  obtain rfl := Except.ok.inj hP
  obtain rfl := Except.ok.inj hQ
  refine congrArg Except.ok (congrArg (Img.mk rows cols) ?_)
  funext i j
  rw [pad_comb, pad_comb]
  exact solve_lin _ _ _ _ _ _ _ _ _ _ _ _ _

/-! ### Transposition -/

theorem fft2_swap (r c : ℕ) (a : ℕ → ℕ → ℂ) (k l : ℕ) : Dft.fft2 c r (fun j i => a i j) l k = Dft.fft2 r c a k l := by
  simp only [Dft.fft2, Dft.fft, sum_mul]
  rw [sum_comm]
  exact sum_congr rfl fun i _ => sum_congr rfl fun j _ => by ring

theorem ifft2_swap (r c : ℕ) (a : ℕ → ℕ → ℂ) (i j : ℕ) : Dft.ifft2 c r (fun l k => a k l) j i = Dft.ifft2 r c a i j := by
  simp only [Dft.ifft2, Dft.ifft, sum_div, sum_mul]
  rw [sum_comm]
  exact sum_congr rfl fun i _ => sum_congr rfl fun j _ => by ring

theorem coeff_swap (n m : ℕ) (sx sy w : ℝ) (t u : ℕ → ℕ → ℂ) (k l : ℕ) :
    coeff m n sy sx (1 - w) (fun j i => u i j) (fun j i => t i j) l k = coeff n m sx sy w t u k l := by
  unfold coeff
  dsimp only
  have hd : kappa n sy k ^ 2 * (1 - (1 - w)) + kappa m sx l ^ 2 * (1 - w) = kappa m sx l ^ 2 * (1 - w) + kappa n sy k ^ 2 * w := by ring
  rw [hd]
  split_ifs
  · rfl
  · push_cast
    congr 1
    ring

theorem solve_swap (n m : ℕ) (sx sy w : ℝ) (gx gy : ℕ → ℕ → ℝ) (i j : ℕ) :
    solve m n sy sx (1 - w) (fun j i => gy i j) (fun j i => gx i j) j i = solve n m sx sy w gx gy i j := by
  have h1 : ∀ g : ℕ → ℕ → ℝ, Dft.fftshift2 m n (Dft.fft2 m n (fun j i => (g i j : ℂ))) =
      fun l k => Dft.fftshift2 n m (Dft.fft2 n m (fun i j => (g i j : ℂ))) k l := by
    intro g
    funext l k
    simp only [Dft.fftshift2, Dft.fftshift]
    exact fft2_swap n m (fun i j => (g i j : ℂ)) _ _
  have h2 : ∀ t u : ℕ → ℕ → ℂ, Dft.ifftshift2 m n (coeff m n sy sx (1 - w) (fun j i => u i j) (fun j i => t i j)) =
      fun l k => Dft.ifftshift2 n m (coeff n m sx sy w t u) k l := by
    intro t u
    funext l k
    simp only [Dft.ifftshift2, Dft.ifftshift]
    exact coeff_swap n m sx sy w t u _ _
  unfold solve
  rw [h1, h1, h2, ifft2_swap]

theorem pad_swap (padding rows cols : ℕ) (g : ℕ → ℕ → ℝ) :
    (pad padding cols rows (fun j i => g i j)).px = fun j i => (pad padding rows cols g).px i j := by
  funext j i
  simp only [pad]
  refine if_congr ?_ rfl rfl
  constructor
  · rintro ⟨a, b, c, d⟩
    exact ⟨c, d, a, b⟩
  · rintro ⟨a, b, c, d⟩
    exact ⟨c, d, a, b⟩

theorem crop_swap (padding rows cols : ℕ) (a b : ℕ → ℕ → ℝ) (h : ∀ i j, b j i = a i j) :
    (⟨cols, rows, cropCentre padding cols rows b⟩ : Img ℝ) = Spec.transpose ⟨rows, cols, cropCentre padding rows cols a⟩ := by
  refine congrArg (Img.mk cols rows) ?_
  funext j i
  exact h _ _

theorem recon_eq (rows cols : ℕ) (gx gy : ℕ → ℕ → ℝ) (sx sy : ℝ) (padding : ℕ) (w : ℝ) (hw : ¬ (w < 0 ∨ 1 < w)) :
    recon rows cols gx gy sx sy padding w = .ok ⟨rows, cols, cropCentre padding rows cols
      (solve (rows * (2 * padding + 1)) (cols * (2 * padding + 1)) sx sy w (pad padding rows cols gx).px (pad padding rows cols gy).px)⟩ := by
  unfold recon
  rw [if_neg hw]
  rfl

/-- C242: exchanging the axes of the scan (gradients, steps and weighting along) exchanges the axes of the phase; both calls raise for the same weightings. -/
theorem C242_transpose (rows cols : ℕ) (gx gy : ℕ → ℕ → ℝ) (sx sy : ℝ) (padding : ℕ) (w : ℝ) :
    recon cols rows (fun j i => gy i j) (fun j i => gx i j) sy sx padding (1 - w) = (recon rows cols gx gy sx sy padding w).map Spec.transpose := by
  by_cases hw : w < 0 ∨ 1 < w
  · have hw' : 1 - w < 0 ∨ 1 < 1 - w := by
      rcases hw with h | h
      · exact Or.inr (by linarith)
      · exact Or.inl (by linarith)
    unfold recon
    rw [if_pos hw, if_pos hw']
    rfl
  · have hw' : ¬ (1 - w < 0 ∨ 1 < 1 - w) := by
      rintro (h | h)
      · exact hw (Or.inr (by linarith))
      · exact hw (Or.inl (by linarith))
    rw [recon_eq _ _ _ _ _ _ _ _ hw, recon_eq _ _ _ _ _ _ _ _ hw', pad_swap padding rows cols gy, pad_swap padding rows cols gx]
    obtain ⟨A, hA⟩ : ∃ A, A = solve (rows * (2 * padding + 1)) (cols * (2 * padding + 1)) sx sy w (pad padding rows cols gx).px (pad padding rows cols gy).px := ⟨_, rfl⟩
    obtain ⟨B, hB⟩ : ∃ B, B = solve (cols * (2 * padding + 1)) (rows * (2 * padding + 1)) sy sx (1 - w) (fun j i => (pad padding rows cols gy).px i j)
      (fun j i => (pad padding rows cols gx).px i j) := ⟨_, rfl⟩
    have hAB : ∀ i j, B j i = A i j := by
      intro i j
      rw [hA, hB]
      exact solve_swap _ _ _ _ _ _ _ i j
    rw [← hA, ← hB]
    exact congrArg Except.ok (crop_swap padding rows cols A B hAB)

/-! ### Steps -/

theorem kappa_steps (n : ℕ) (step k : ℝ) (m : ℕ) : kappa n (k * step) m = k⁻¹ * kappa n step m := by
  unfold kappa
  rw [show (n : ℝ) * (k * step) = k * (n * step) by ring, div_mul_eq_div_div_swap, div_eq_inv_mul]

theorem coeff_steps (n m : ℕ) (sx sy w k : ℝ) (hk : k ≠ 0) (t u : ℕ → ℕ → ℂ) (i j : ℕ) :
    coeff n m (k * sx) (k * sy) w t u i j = k * coeff n m sx sy w t u i j + 0 * 0 := by
  unfold coeff
  dsimp only
  rw [kappa_steps, kappa_steps]
  generalize kappa m sx j = p
  generalize kappa n sy i = q
  have hd : (k⁻¹ * p) ^ 2 * (1 - w) + (k⁻¹ * q) ^ 2 * w = k⁻¹ ^ 2 * (p ^ 2 * (1 - w) + q ^ 2 * w) := by ring
  rw [hd]
  by_cases h0 : p ^ 2 * (1 - w) + q ^ 2 * w = 0
  · rw [if_pos h0, if_pos (by rw [h0, mul_zero])]
    simp
  · have hk' : k⁻¹ ≠ 0 := inv_ne_zero hk
    rw [if_neg h0, if_neg (mul_ne_zero (pow_ne_zero 2 hk') h0)]
    have hkc : (k : ℂ) ≠ 0 := Complex.ofReal_ne_zero.2 hk
    obtain ⟨D, hD⟩ : ∃ D, D = p ^ 2 * (1 - w) + q ^ 2 * w := ⟨_, rfl⟩
    rw [← hD] at h0 ⊢
    have hDc : (D : ℂ) ≠ 0 := Complex.ofReal_ne_zero.2 h0
    push_cast
    field_simp
    ring

/-- C242: the phase is measured in the units of gradient times step: with both steps `k` times as long, the phase is `k` times as large. -/
theorem C242_steps (rows cols : ℕ) (gx gy : ℕ → ℕ → ℝ) (k sx sy : ℝ) (hk : k ≠ 0) (padding : ℕ) (w : ℝ) (P : Img ℝ)
    (hP : recon rows cols gx gy sx sy padding w = .ok P) :
    recon rows cols gx gy (k * sx) (k * sy) padding w = .ok ⟨rows, cols, fun i j => k * P.px i j⟩ := by
  unfold recon at hP ⊢
  split_ifs at hP ⊢ with hw
  dsimp only at hP ⊢
  obtain rfl := Except.ok.inj hP
  refine congrArg Except.ok (congrArg (Img.mk rows cols) ?_)
  funext i j
  simp only [cropCentre]
  unfold solve
  have h2 : ∀ (n m : ℕ) (t u : ℕ → ℕ → ℂ), Dft.ifftshift2 n m (coeff n m (k * sx) (k * sy) w t u) =
      fun i j => (k : ℂ) * Dft.ifftshift2 n m (coeff n m sx sy w t u) i j + 0 * (fun _ _ => (0 : ℂ)) i j := by
    intro n m t u
    funext a b
    simp only [Dft.ifftshift2, Dft.ifftshift]
    exact coeff_steps n m sx sy w k hk t u _ _
  rw [h2, ifft2_lin]
  simp

/-! ### Mean, constant slopes, shifts -/

theorem best_zero (n m : ℕ) (hn : 0 < n) (hm : 0 < m) (sx sy w : ℝ) (gx gy : ℕ → ℕ → ℝ) : best n m sx sy w gx gy 0 0 = 0 := by
  have h : ∀ (n : ℕ), 0 < n → ∀ s, Spec.waveNumber n s (Spec.freq n 0) = 0 := by
    intro n hn s
    have : Spec.freq n 0 = 0 := by
      unfold Spec.freq
      rw [if_pos (by omega)]
      rfl
    rw [this]
    simp [Spec.waveNumber]
  unfold best
  simp only [h n hn, h m hm]
  rw [if_pos (by ring)]

/-- C242: without padding the phase has mean zero: an offset of the phase cannot be told from its slopes. -/
theorem C242_mean (n m : ℕ) (hn : 0 < n) (hm : 0 < m) (gx gy : ℕ → ℕ → ℝ) (sx sy w : ℝ) (P : Img ℝ) (hP : recon n m gx gy sx sy 0 w = .ok P) :
    ∑ i ∈ range n, ∑ j ∈ range m, P.px i j = 0 := by
  have hw : 0 ≤ w ∧ w ≤ 1 := by
    by_contra h
    have : w < 0 ∨ 1 < w := by
      by_contra h'
      push Not at h'
      exact h h'
    unfold recon at hP
    rw [if_pos this] at hP
    cases hP
  obtain ⟨im, him, _, _, hpx⟩ := recon_best n m hn hm sx sy w hw gx gy
  obtain rfl : im = P := by rw [hP] at him; exact (Except.ok.inj him).symm
  have h := Dft.fft2_ifft2 n m (best n m sx sy w gx gy) 0 0 hn hm
  rw [best_zero n m hn hm, fft2_sum] at h
  have h' := congrArg Complex.re h
  simp only [Complex.re_sum, Complex.zero_re, Nat.cast_zero, mul_zero, neg_zero, Dft.w_zero, mul_one] at h'
  simp only [hpx]
  exact h'

theorem weights (n m : ℕ) (gx gy : ℕ → ℕ → ℝ) (sx sy w : ℝ) (p : ℕ) (P : Img ℝ) (hP : recon n m gx gy sx sy p w = .ok P) : 0 ≤ w ∧ w ≤ 1 := by
  by_contra h
  have : w < 0 ∨ 1 < w := by
    by_contra h'
    push Not at h'
    exact h h'
  unfold recon at hP
  rw [if_pos this] at hP
  cases hP

/-- The phase of `recon` without padding. -/
theorem px_best (n m : ℕ) (hn : 0 < n) (hm : 0 < m) (gx gy : ℕ → ℕ → ℝ) (sx sy w : ℝ) (P : Img ℝ) (hP : recon n m gx gy sx sy 0 w = .ok P) (i j : ℕ) :
    P.px i j = (Dft.ifft2 n m (best n m sx sy w gx gy) i j).re := by
  obtain ⟨im, him, _, _, hpx⟩ := recon_best n m hn hm sx sy w (weights n m gx gy sx sy w 0 P hP) gx gy
  obtain rfl : im = P := by rw [hP] at him; exact (Except.ok.inj him).symm
  exact hpx i j

theorem fft2_const (n m : ℕ) (hn : 0 < n) (hm : 0 < m) (a : ℂ) (k l : ℕ) (hk : k < n) (hl : l < m) (h : ¬ (k = 0 ∧ l = 0)) :
    Dft.fft2 n m (fun _ _ => a) k l = 0 := by
  have hs : ∀ n k : ℕ, 0 < n → k < n → k ≠ 0 → ∑ i ∈ range n, Dft.w n (-(i * k : ℤ)) = 0 := by
    intro n k hn hk h0
    have := Dft.sum_w n hn (-(k : ℤ))
    rw [if_neg ?_] at this
    · rw [← this]
      refine sum_congr rfl fun i _ => ?_
      congr 1
      ring
    · intro hd
      rw [dvd_neg] at hd
      have := Nat.le_of_dvd (Nat.pos_of_ne_zero h0) (Int.natCast_dvd_natCast.1 hd)
      omega
  rw [fft2_sum]
  have e : ∑ i ∈ range n, ∑ j ∈ range m, a * Dft.w n (-(i * k : ℤ)) * Dft.w m (-(j * l : ℤ)) =
      a * (∑ i ∈ range n, Dft.w n (-(i * k : ℤ))) * ∑ j ∈ range m, Dft.w m (-(j * l : ℤ)) := by
    rw [mul_assoc, sum_mul_sum, mul_sum]
    refine sum_congr rfl fun i _ => ?_
    rw [mul_sum]
    exact sum_congr rfl fun j _ => by ring
  rw [e]
  by_cases hk0 : k = 0
  · have hl0 : l ≠ 0 := fun h' => h ⟨hk0, h'⟩
    rw [hs m l hm hl hl0, mul_zero]
  · rw [hs n k hn hk hk0, mul_zero, zero_mul]

/-- C242: without padding, constant slopes (a ramp of the phase) leave no trace: adding constants to both gradients changes nothing. -/
theorem C242_ramp (n m : ℕ) (hn : 0 < n) (hm : 0 < m) (gx gy : ℕ → ℕ → ℝ) (a b sx sy w : ℝ) (P : Img ℝ) (hP : recon n m gx gy sx sy 0 w = .ok P) :
    ∃ Q, recon n m (fun i j => gx i j + a) (fun i j => gy i j + b) sx sy 0 w = .ok Q ∧ Q.rows = n ∧ Q.cols = m ∧ ∀ i j, Q.px i j = P.px i j := by
  have hw := weights n m gx gy sx sy w 0 P hP
  obtain ⟨Q, hQ, hr, hc, hpx⟩ := recon_best n m hn hm sx sy w hw (fun i j => gx i j + a) (fun i j => gy i j + b)
  refine ⟨Q, hQ, hr, hc, fun i j => ?_⟩
  rw [hpx, px_best n m hn hm gx gy sx sy w P hP]
  refine congrArg Complex.re ?_
  apply Cdi.ifft2_congr
  intro k hk l hl
  by_cases h0 : k = 0 ∧ l = 0
  · obtain ⟨rfl, rfl⟩ := h0
    rw [best_zero n m hn hm, best_zero n m hn hm]
  · have hf : ∀ (g : ℕ → ℕ → ℝ) (c : ℝ), Dft.fft2 n m (cplx (fun i j => g i j + c)) k l = Dft.fft2 n m (cplx g) k l := by
      intro g c
      have e := fft2_lin n m 1 1 (cplx g) (fun _ _ => (c : ℂ)) k l
      rw [fft2_const n m hn hm c k l hk hl h0, mul_zero, add_zero] at e
      rw [← one_mul (Dft.fft2 n m (cplx g) k l), ← e]
      refine congrArg (fun f => Dft.fft2 n m f k l) ?_
      funext i j
      simp only [cplx, Complex.ofReal_add, one_mul]
    unfold best
    simp only [hf]

/-- C242: without padding the scan has no beginning: shifting both gradients cyclically shifts the phase. -/
theorem C242_roll (n m p q : ℕ) (hn : 0 < n) (hm : 0 < m) (gx gy : ℕ → ℕ → ℝ) (sx sy w : ℝ) (P : Img ℝ) (hP : recon n m gx gy sx sy 0 w = .ok P) :
    ∃ Q, recon n m (Spec.roll n m p q gx) (Spec.roll n m p q gy) sx sy 0 w = .ok Q ∧ Q.rows = n ∧ Q.cols = m ∧ ∀ i j, Q.px i j = Spec.roll n m p q P.px i j := by
  have hw := weights n m gx gy sx sy w 0 P hP
  obtain ⟨Q, hQ, hr, hc, hpx⟩ := recon_best n m hn hm sx sy w hw (Spec.roll n m p q gx) (Spec.roll n m p q gy)
  refine ⟨Q, hQ, hr, hc, fun i j => ?_⟩
  rw [hpx]
  simp only [Spec.roll]
  rw [px_best n m hn hm gx gy sx sy w P hP]
  refine congrArg Complex.re ?_
  have hf : ∀ (g : ℕ → ℕ → ℝ) (k l : ℕ), Dft.fft2 n m (cplx (Spec.roll n m p q g)) k l = Dft.w n (p * k : ℤ) * (Dft.w m (q * l : ℤ) * Dft.fft2 n m (cplx g) k l) := by
    intro g k l
    have e1 : ∀ i, Dft.fft m (cplx (Spec.roll n m p q g) i) l = Dft.w m (q * l : ℤ) * Dft.fft m (cplx g ((i + p) % n)) l := by
      intro i
      exact Cdi.fft_roll m q hm (cplx g ((i + p) % n)) l
    unfold Dft.fft2
    simp only [e1]
    rw [Cdi.fft_mul, Cdi.fft_roll n p hn (fun i => Dft.fft m (cplx g i) l) k]
    ring
  have hb : ∀ k l, best n m sx sy w (Spec.roll n m p q gx) (Spec.roll n m p q gy) k l = Dft.w n (p * k : ℤ) * (Dft.w m (q * l : ℤ) * best n m sx sy w gx gy k l) := by
    intro k l
    unfold best
    simp only [hf]
    split_ifs
    · simp
    · ring
  have hi : ∀ k, Dft.ifft m (fun l => best n m sx sy w (Spec.roll n m p q gx) (Spec.roll n m p q gy) k l) j =
      Dft.w n (p * k : ℤ) * Dft.ifft m (best n m sx sy w gx gy k) ((j + q) % m) := by
    intro k
    simp only [hb]
    rw [Cdi.ifft_mul, Cdi.ifft_roll m q hm (best n m sx sy w gx gy k) j]
  unfold Dft.ifft2
  rw [show (fun k => Dft.ifft m (best n m sx sy w (Spec.roll n m p q gx) (Spec.roll n m p q gy) k) j) =
    fun k : ℕ => Dft.w n (p * k : ℤ) * Dft.ifft m (best n m sx sy w gx gy k) ((j + q) % m) from funext hi]
  exact Cdi.ifft_roll n p hn (fun k => Dft.ifft m (best n m sx sy w gx gy k) ((j + q) % m)) i

/-- C242: without padding, turning the scan by half a turn (which reverses its slopes) turns the phase. -/
theorem C242_turn (n m : ℕ) (hn : 0 < n) (hm : 0 < m) (gx gy : ℕ → ℕ → ℝ) (sx sy w : ℝ) (P : Img ℝ) (hP : recon n m gx gy sx sy 0 w = .ok P) :
    ∃ Q, recon n m (fun i j => -Spec.turn n m gx i j) (fun i j => -Spec.turn n m gy i j) sx sy 0 w = .ok Q ∧ Q.rows = n ∧ Q.cols = m ∧
      ∀ i < n, ∀ j < m, Q.px i j = Spec.turn n m P.px i j := by
  have hw := weights n m gx gy sx sy w 0 P hP
  obtain ⟨Q, hQ, hr, hc, hpx⟩ := recon_best n m hn hm sx sy w hw (fun i j => -Spec.turn n m gx i j) (fun i j => -Spec.turn n m gy i j)
  refine ⟨Q, hQ, hr, hc, fun i hi j hj => ?_⟩
  rw [hpx]
  simp only [Spec.turn]
  rw [px_best n m hn hm gx gy sx sy w P hP, ← Complex.conj_re (Dft.ifft2 n m (best n m sx sy w gx gy) (n - 1 - i) (m - 1 - j))]
  refine congrArg Complex.re ?_
  have hf : ∀ (g : ℕ → ℕ → ℝ) (k l : ℕ), Dft.fft2 n m (cplx (fun i j => -g (n - 1 - i) (m - 1 - j))) k l =
      -(Dft.w n (k : ℤ) * (Dft.w m (l : ℤ) * (starRingEnd ℂ) (Dft.fft2 n m (cplx g) k l))) := by
    intro g k l
    have e1 : ∀ i, Dft.fft m (cplx (fun i j => -g (n - 1 - i) (m - 1 - j)) i) l = -Dft.w m (l : ℤ) * (starRingEnd ℂ) (Dft.fft m (cplx g (n - 1 - i)) l) := by
      intro i
      have e := Cdi.fft_turn m hm (cplx g (n - 1 - i)) l
      rw [show cplx (fun i j => -g (n - 1 - i) (m - 1 - j)) i = fun j => (-1 : ℂ) * (starRingEnd ℂ) (cplx g (n - 1 - i) (m - 1 - j)) from ?_, Cdi.fft_mul, e]
      · ring
      · funext j
        simp only [cplx, Complex.conj_ofReal, Complex.ofReal_neg]
        ring
    unfold Dft.fft2
    simp only [e1]
    rw [Cdi.fft_mul, Cdi.fft_turn n hn (fun i => Dft.fft m (cplx g i) l) k]
    ring
  have hb : ∀ k l, best n m sx sy w (fun i j => -gx (n - 1 - i) (m - 1 - j)) (fun i j => -gy (n - 1 - i) (m - 1 - j)) k l =
      Dft.w n (k : ℤ) * (Dft.w m (l : ℤ) * (starRingEnd ℂ) (best n m sx sy w gx gy k l)) := by
    intro k l
    unfold best
    simp only [hf]
    split_ifs
    · simp
    · simp only [map_div₀, map_mul, map_add, map_sub, map_one, map_neg, Complex.conj_I, Complex.conj_ofReal]
      ring
  have hl : ∀ k, Dft.ifft m (best n m sx sy w (fun i j => -gx (n - 1 - i) (m - 1 - j)) (fun i j => -gy (n - 1 - i) (m - 1 - j)) k) j =
      Dft.w n (k : ℤ) * (starRingEnd ℂ) (Dft.ifft m (best n m sx sy w gx gy k) (m - 1 - j)) := by
    intro k
    rw [show best n m sx sy w (fun i j => -gx (n - 1 - i) (m - 1 - j)) (fun i j => -gy (n - 1 - i) (m - 1 - j)) k = fun l : ℕ =>
      Dft.w n (k : ℤ) * (Dft.w m (l : ℤ) * (starRingEnd ℂ) (best n m sx sy w gx gy k l)) from funext (hb k), Cdi.ifft_mul, Cdi.ifft_turn m _ j hj]
  unfold Dft.ifft2
  rw [show (fun k => Dft.ifft m (best n m sx sy w (fun i j => -gx (n - 1 - i) (m - 1 - j)) (fun i j => -gy (n - 1 - i) (m - 1 - j)) k) j) =
    fun k : ℕ => Dft.w n (k : ℤ) * (starRingEnd ℂ) (Dft.ifft m (best n m sx sy w gx gy k) (m - 1 - j)) from funext hl]
  exact Cdi.ifft_turn n (fun k => Dft.ifft m (best n m sx sy w gx gy k) (m - 1 - j)) i hi

/-- A scan that meets the hypotheses: the cosine of `recon_cosine`, whose phase is not zero, in twice the steps, turned and shifted by one. -/
theorem laws_example : ∃ (gx gy : ℕ → ℕ → ℝ) (P Q R : Img ℝ), recon 1 4 gx gy 1 1 0 (1 / 2) = .ok P ∧ P.px 0 0 - P.px 0 2 = 2 ∧
    recon 1 4 gx gy (2 * 1) (2 * 1) 0 (1 / 2) = .ok Q ∧ Q.px 0 0 - Q.px 0 2 = 4 ∧
    recon 1 4 (Spec.roll 1 4 0 1 gx) (Spec.roll 1 4 0 1 gy) 1 1 0 (1 / 2) = .ok R ∧ R.px 0 3 - R.px 0 1 = 2 := by
  obtain ⟨P, c, hP, _, _, hpx⟩ := recon_cosine 1 1 1 (1 / 2) (by norm_num) (by norm_num) (by norm_num) (by norm_num)
  obtain ⟨R, hR, _, _, hRpx⟩ := C242_roll 1 4 0 1 (by norm_num) (by norm_num) _ _ _ _ _ P hP
  have h0 : P.px 0 0 - P.px 0 2 = 2 := by
    rw [hpx 0 (by norm_num) 0 (by norm_num), hpx 0 (by norm_num) 2 (by norm_num)]
    rw [show Real.pi / 2 * ((2 : ℕ) : ℝ) = Real.pi by push_cast; ring]
    simp
    norm_num
  refine ⟨_, _, P, _, R, hP, h0, C242_steps 1 4 _ _ 2 1 1 (by norm_num) 0 _ P hP, ?_, hR, ?_⟩
  · show 2 * P.px 0 0 - 2 * P.px 0 2 = 4
    linarith
  · rw [hRpx, hRpx]
    exact h0

end Verif.Dpc.Laws
