/- The discrete Fourier transform used by np.fft: definitions (with NumPy's conventions) and standard facts. -/
import Mathlib.Analysis.SpecialFunctions.Trigonometric.Basic
import Mathlib.Algebra.BigOperators.Ring.Finset
import Mathlib.Algebra.BigOperators.Field
import Mathlib.Analysis.SpecialFunctions.Complex.Log
import Mathlib.Tactic.FieldSimp
import Mathlib.Tactic.Ring
import Mathlib.Tactic.Linarith

namespace Verif.Dft
open Finset

/-- `exp(2 pi i m / n)`. -/
noncomputable def w (n : ℕ) (m : ℤ) : ℂ := Complex.exp (2 * Real.pi * Complex.I * m / n)

/-- `np.fft.fft` (1-D, length n): `A_k = sum_m a_m exp(-2 pi i m k / n)`. -/
noncomputable def fft (n : ℕ) (a : ℕ → ℂ) (k : ℕ) : ℂ := ∑ m ∈ range n, a m * w n (-(m * k : ℤ))

/-- `np.fft.ifft` (1-D, length n): `a_m = (1/n) sum_k A_k exp(2 pi i m k / n)`. -/
noncomputable def ifft (n : ℕ) (a : ℕ → ℂ) (m : ℕ) : ℂ := (∑ k ∈ range n, a k * w n (m * k : ℤ)) / n

/-- `np.fft.fft2`: fft along axis 1, then along axis 0. -/
noncomputable def fft2 (r c : ℕ) (a : ℕ → ℕ → ℂ) (k l : ℕ) : ℂ := fft r (fun i => fft c (a i) l) k

/-- `np.fft.ifft2`. -/
noncomputable def ifft2 (r c : ℕ) (a : ℕ → ℕ → ℂ) (i j : ℕ) : ℂ := ifft r (fun k => ifft c (a k) j) i

/-- `np.fft.fftshift` (1-D, length n): roll by n // 2. -/
def fftshift {α : Type} (n : ℕ) (a : ℕ → α) (m : ℕ) : α := a ((m + (n - n / 2)) % n)

/-- `np.fft.ifftshift` (1-D, length n): roll by -(n // 2). -/
def ifftshift {α : Type} (n : ℕ) (a : ℕ → α) (m : ℕ) : α := a ((m + n / 2) % n)

/-- `np.fft.fftshift` on both axes. -/
def fftshift2 {α : Type} (r c : ℕ) (a : ℕ → ℕ → α) (k l : ℕ) : α := fftshift r (fun k' => fftshift c (a k') l) k

/-- `np.fft.ifftshift` on both axes. -/
def ifftshift2 {α : Type} (r c : ℕ) (a : ℕ → ℕ → α) (k l : ℕ) : α := ifftshift r (fun k' => ifftshift c (a k') l) k

theorem w_add (n : ℕ) (a b : ℤ) : w n (a + b) = w n a * w n b := by
  unfold w
  rw [← Complex.exp_add]
  congr 1
  push_cast
  ring

theorem w_zero (n : ℕ) : w n 0 = 1 := by simp [w]

theorem w_mul_self (n : ℕ) (hn : 0 < n) (m : ℤ) : w n (n * m) = 1 := by
  unfold w
  rw [Complex.exp_eq_one_iff]
  refine ⟨m, ?_⟩
  have : (n : ℂ) ≠ 0 := by exact_mod_cast hn.ne'
  push_cast
  field_simp

theorem w_pow (n : ℕ) (m : ℤ) (k : ℕ) : w n m ^ k = w n (m * k) := by
  unfold w
  rw [← Complex.exp_nat_mul]
  congr 1
  push_cast
  ring

theorem w_eq_one (n : ℕ) (hn : 0 < n) (m : ℤ) : w n m = 1 ↔ (n : ℤ) ∣ m := by
  constructor
  · intro h
    unfold w at h
    rw [Complex.exp_eq_one_iff] at h
    obtain ⟨k, hk⟩ := h
    refine ⟨k, ?_⟩
    have hn' : (n : ℂ) ≠ 0 := by exact_mod_cast hn.ne'
    have hp : (2 * Real.pi * Complex.I : ℂ) ≠ 0 := Complex.two_pi_I_ne_zero
    have h2 : (m : ℂ) = n * k := by
      have h3 : (2 * Real.pi * Complex.I : ℂ) * (m : ℂ) = (2 * Real.pi * Complex.I) * (n * k) := by
        field_simp at hk
        linear_combination (2 * (Real.pi : ℂ) * Complex.I) * hk
      exact mul_left_cancel₀ hp h3
    exact_mod_cast h2
  · rintro ⟨k, rfl⟩
    exact w_mul_self n hn k

theorem w_congr (n : ℕ) (hn : 0 < n) (a b : ℤ) (h : (n : ℤ) ∣ a - b) : w n a = w n b := by
  obtain ⟨k, hk⟩ := h
  rw [show a = b + n * k by linarith, w_add, w_mul_self n hn, mul_one]

/-- Orthogonality of the exponentials. -/
theorem sum_w (n : ℕ) (hn : 0 < n) (m : ℤ) : ∑ k ∈ range n, w n (m * k) = if (n : ℤ) ∣ m then (n : ℂ) else 0 := by
  have h : ∀ k ∈ range n, w n (m * k) = w n m ^ k := fun k _ => (w_pow n m k).symm
  rw [sum_congr rfl h]
  split_ifs with hd
  · rw [(w_eq_one n hn m).2 hd]; simp
  · have hne : w n m ≠ 1 := fun h => hd ((w_eq_one n hn m).1 h)
    have hg := geom_sum_mul (w n m) n
    rw [w_pow, mul_comm m, w_mul_self n hn, sub_self] at hg
    exact (mul_eq_zero.1 hg).resolve_right (sub_ne_zero.2 hne)

theorem dvd_sub_iff (n : ℕ) (a b : ℕ) (ha : a < n) (hb : b < n) : (n : ℤ) ∣ (a : ℤ) - b ↔ a = b := by
  constructor
  · rintro ⟨k, hk⟩
    have hk0 : k = 0 := by
      by_contra hne
      rcases lt_or_gt_of_ne hne with h | h
      · have : (n : ℤ) * k ≤ -n := by nlinarith
        omega
      · have : (n : ℤ) ≤ n * k := by nlinarith
        omega
    rw [hk0] at hk
    omega
  · rintro rfl; simp

/-- `fft(ifft(a)) = a`. -/
theorem fft_ifft (n : ℕ) (a : ℕ → ℂ) (k : ℕ) (hk : k < n) : fft n (ifft n a) k = a k := by
  have hn : 0 < n := by omega
  have hn' : (n : ℂ) ≠ 0 := by exact_mod_cast hn.ne'
  unfold fft ifft
  have h1 : ∀ m ∈ range n, (∑ l ∈ range n, a l * w n (m * l : ℤ)) / n * w n (-(m * k : ℤ)) = ∑ l ∈ range n, a l / n * w n (((l : ℤ) - k) * m) := by
    intro m _
    rw [div_mul_eq_mul_div, sum_mul, sum_div]
    apply sum_congr rfl
    intro l _
    rw [mul_assoc, ← w_add, div_mul_eq_mul_div]
    congr 3
    ring
  rw [sum_congr rfl h1, sum_comm]
  have h2 : ∀ l ∈ range n, ∑ m ∈ range n, a l / n * w n (((l : ℤ) - k) * m) = if l = k then a l else 0 := by
    intro l hl
    rw [← mul_sum, sum_w n hn]
    by_cases h : l = k
    · rw [if_pos ((dvd_sub_iff n l k (mem_range.1 hl) hk).2 h), if_pos h]
      field_simp
    · rw [if_neg (fun hd => h ((dvd_sub_iff n l k (mem_range.1 hl) hk).1 hd)), if_neg h, mul_zero]
  rw [sum_congr rfl h2, sum_ite_eq' (range n) k a, if_pos (mem_range.2 hk)]

/-- `ifft(fft(a)) = a`. -/
theorem ifft_fft (n : ℕ) (a : ℕ → ℂ) (m : ℕ) (hm : m < n) : ifft n (fft n a) m = a m := by
  have hn : 0 < n := by omega
  have hn' : (n : ℂ) ≠ 0 := by exact_mod_cast hn.ne'
  unfold fft ifft
  have h1 : ∀ k ∈ range n, (∑ l ∈ range n, a l * w n (-(l * k : ℤ))) * w n (m * k : ℤ) = ∑ l ∈ range n, a l * w n (((m : ℤ) - l) * k) := by
    intro k _
    rw [sum_mul]
    apply sum_congr rfl
    intro l _
    rw [mul_assoc, ← w_add]
    congr 2
    ring
  rw [sum_congr rfl h1, sum_comm]
  have h2 : ∀ l ∈ range n, ∑ k ∈ range n, a l * w n (((m : ℤ) - l) * k) = if l = m then a l * n else 0 := by
    intro l hl
    rw [← mul_sum, sum_w n hn]
    by_cases h : l = m
    · rw [if_pos ((dvd_sub_iff n m l hm (mem_range.1 hl)).2 h.symm), if_pos h]
    · rw [if_neg (fun hd => h ((dvd_sub_iff n m l hm (mem_range.1 hl)).1 hd).symm), if_neg h, mul_zero]
  rw [sum_congr rfl h2, sum_ite_eq' (range n) m (fun l => a l * n), if_pos (mem_range.2 hm)]
  field_simp

theorem fft_congr (n : ℕ) (a b : ℕ → ℂ) (h : ∀ m < n, a m = b m) (k : ℕ) : fft n a k = fft n b k := by
  unfold fft
  exact sum_congr rfl (fun m hm => by rw [h m (mem_range.1 hm)])

theorem ifft_congr (n : ℕ) (a b : ℕ → ℂ) (h : ∀ m < n, a m = b m) (k : ℕ) : ifft n a k = ifft n b k := by
  unfold ifft
  rw [sum_congr rfl (fun m hm => by rw [h m (mem_range.1 hm)])]

theorem fft_sum (n c : ℕ) (a : ℕ → ℕ → ℂ) (z : ℕ → ℂ) (k : ℕ) : fft n (fun i => ∑ j ∈ range c, a i j * z j) k = ∑ j ∈ range c, fft n (fun i => a i j) k * z j := by
  unfold fft
  simp_rw [sum_mul]
  rw [sum_comm]
  exact sum_congr rfl (fun j _ => sum_congr rfl (fun i _ => by ring))

theorem ifft_sum (n c : ℕ) (a : ℕ → ℕ → ℂ) (z : ℕ → ℂ) (k : ℕ) : ifft n (fun i => ∑ j ∈ range c, a i j * z j) k = ∑ j ∈ range c, ifft n (fun i => a i j) k * z j := by
  unfold ifft
  simp_rw [sum_mul, div_mul_eq_mul_div, sum_mul]
  rw [← sum_div, sum_comm]
  congr 1
  exact sum_congr rfl (fun j _ => sum_congr rfl (fun i _ => by ring))

/-- `fft2(ifft2(a)) = a`. -/
theorem fft2_ifft2 (r c : ℕ) (a : ℕ → ℕ → ℂ) (k l : ℕ) (hk : k < r) (hl : l < c) : fft2 r c (ifft2 r c a) k l = a k l := by
  unfold fft2
  have h1 : ∀ i, fft c (ifft2 r c a i) l = ifft r (fun k' => a k' l) i := by
    intro i
    have : fft c (ifft2 r c a i) l = ifft r (fun k' => fft c (fun j => ifft c (a k') j) l) i := by
      unfold fft ifft2
      rw [ifft_sum]
    rw [this]
    exact ifft_congr r _ _ (fun k' _ => fft_ifft c (a k') l hl) i
  rw [fft_congr r _ (ifft r (fun k' => a k' l)) (fun i _ => h1 i)]
  exact fft_ifft r _ k hk

/-- `ifft2(fft2(a)) = a`. -/
theorem ifft2_fft2 (r c : ℕ) (a : ℕ → ℕ → ℂ) (i j : ℕ) (hi : i < r) (hj : j < c) : ifft2 r c (fft2 r c a) i j = a i j := by
  unfold ifft2
  have h1 : ∀ k, ifft c (fft2 r c a k) j = fft r (fun i' => a i' j) k := by
    intro k
    have : ifft c (fft2 r c a k) j = fft r (fun i' => ifft c (fun l => fft c (a i') l) j) k := by
      unfold ifft fft2
      rw [← fft_sum]
      simp only [fft]
      rw [sum_div]
      exact sum_congr rfl (fun _ _ => by rw [div_mul_eq_mul_div])
    rw [this]
    exact fft_congr r _ _ (fun i' _ => ifft_fft c (a i') j hj) k
  rw [ifft_congr r _ (fft r (fun i' => a i' j)) (fun k _ => h1 k)]
  exact ifft_fft r _ i hi

/-- The signed frequency at position m of a shifted spectrum is m - n // 2: it is congruent to the unshifted position. -/
theorem fftshift_freq (n m : ℕ) (hm : m < n) : (n : ℤ) ∣ (((m + (n - n / 2)) % n : ℕ) : ℤ) - ((m : ℤ) - (n / 2 : ℕ)) := by
  have h1 : ((((m + (n - n / 2)) % n : ℕ)) : ℤ) = ((m + (n - n / 2) : ℕ) : ℤ) - n * (((m + (n - n / 2)) / n : ℕ) : ℤ) := by
    have := Nat.mod_add_div (m + (n - n / 2)) n
    have h2 : (((m + (n - n / 2)) % n + n * ((m + (n - n / 2)) / n) : ℕ) : ℤ) = ((m + (n - n / 2) : ℕ) : ℤ) := by rw [this]
    push_cast at h2 ⊢
    linarith
  rw [h1]
  refine ⟨1 - (((m + (n - n / 2)) / n : ℕ) : ℤ), ?_⟩
  have : n / 2 ≤ n := Nat.div_le_self n 2
  push_cast [Nat.cast_sub this]
  ring

theorem ifftshift_fftshift {α : Type} (n : ℕ) (a : ℕ → α) (m : ℕ) (hm : m < n) : ifftshift n (fftshift n a) m = a m := by
  unfold ifftshift fftshift
  congr 1
  have h : n / 2 ≤ n := Nat.div_le_self n 2
  rw [Nat.mod_add_mod, show m + n / 2 + (n - n / 2) = m + n by omega, Nat.add_mod_right, Nat.mod_eq_of_lt hm]

theorem ifftshift2_fftshift2 {α : Type} (r c : ℕ) (a : ℕ → ℕ → α) (k l : ℕ) (hk : k < r) (hl : l < c) : ifftshift2 r c (fftshift2 r c a) k l = a k l := by
  unfold ifftshift2 fftshift2
  show fftshift r (fun k' => fftshift c (a k') ((l + c / 2) % c)) ((k + r / 2) % r) = a k l
  have h1 := ifftshift_fftshift c (a ((((k + r / 2) % r) + (r - r / 2)) % r)) l hl
  have h2 := ifftshift_fftshift r (fun k' => a k' l) k hk
  unfold ifftshift at h1 h2
  unfold fftshift at h1 h2 ⊢
  exact h1.trans h2

end Verif.Dft
