/- Properties C155 and C156: reported errors of a reconstruction, random starting objects. -/
import Verif.Cdi.Props

namespace Verif.Cdi
open Finset Verif

/-! ## C155 errors -/

/-- Root of the summed squares of the entries of an r × c array. -/
noncomputable def Spec.size (r c : ℕ) (x : ℕ → ℕ → ℝ) : ℝ := √(∑ i ∈ range r, ∑ j ∈ range c, x i j ^ 2)

theorem norm2_eq (r c : ℕ) (x : Arr) : norm2 r c x = Spec.size r c (fun i j => ‖x i j‖) := rfl

theorem size_nonneg (r c : ℕ) (x : ℕ → ℕ → ℝ) : 0 ≤ Spec.size r c x := Real.sqrt_nonneg _

theorem size_eq_zero (r c : ℕ) (x : ℕ → ℕ → ℝ) : Spec.size r c x = 0 ↔ ∀ i < r, ∀ j < c, x i j = 0 := by
  unfold Spec.size
  have hn : ∀ i, 0 ≤ ∑ j ∈ range c, x i j ^ 2 := fun i => sum_nonneg (fun _ _ => sq_nonneg _)
  rw [Real.sqrt_eq_zero (sum_nonneg (fun i _ => hn i)), sum_eq_zero_iff_of_nonneg (fun i _ => hn i)]
  constructor
  · intro h i hi j hj
    have := h i (mem_range.2 hi)
    rw [sum_eq_zero_iff_of_nonneg (fun _ _ => sq_nonneg _)] at this
    exact pow_eq_zero_iff two_ne_zero |>.1 (this j (mem_range.2 hj))
  · intro h i hi
    apply sum_eq_zero
    intro j hj
    rw [h i (mem_range.1 hi) j (mem_range.1 hj)]; ring

theorem norm2_ofReal (r c : ℕ) (x : ℕ → ℕ → ℝ) : norm2 r c (fun i j => (x i j : ℂ)) = Spec.size r c x := by
  rw [norm2_eq]
  unfold Spec.size
  simp only [Complex.norm_real, Real.norm_eq_abs, sq_abs]

/-- C155: `cal_diff_error` is the relative distance of the moduli of the (unitary) transform from the pattern; it is not
negative and vanishes exactly when the moduli are the pattern. -/
theorem C155_diff_error (r c : ℕ) (x : Arr) (d : ℕ → ℕ → ℝ) (hd : ∃ i < r, ∃ j < c, d i j ≠ 0) :
    ∃ e, calDiffError r c x d = some e ∧
      e = Spec.size r c (fun k l => ‖Dft.fft2 r c x k l‖ / √((r * c : ℕ) : ℝ) - d k l) / Spec.size r c d ∧ 0 ≤ e ∧
      (e = 0 ↔ ∀ k < r, ∀ l < c, ‖Dft.fft2 r c x k l‖ / √((r * c : ℕ) : ℝ) = d k l) := by
  have h0 : Spec.size r c d ≠ 0 := by
    intro h
    rw [size_eq_zero] at h
    obtain ⟨i, hi, j, hj, hne⟩ := hd
    exact hne (h i hi j hj)
  have hpos : 0 < Spec.size r c d := lt_of_le_of_ne (size_nonneg _ _ _) (Ne.symm h0)
  unfold calDiffError relative
  rw [norm2_ofReal, norm2_ofReal, if_neg h0]
  refine ⟨_, rfl, rfl, div_nonneg (size_nonneg _ _ _) hpos.le, ?_⟩
  rw [div_eq_zero_iff, or_iff_left h0, size_eq_zero]
  constructor
  · intro h k hk l hl; exact sub_eq_zero.1 (h k hk l hl)
  · intro h k hk l hl; exact sub_eq_zero.2 (h k hk l hl)

theorem err_inv (p : Params) (obj : Arr) (sup : ℕ → ℕ → Bool) (n : ℕ) :
    (stAt p obj sup n).objErr = (List.range n).map (fun m => relative (norm2 p.r p.c (fun i j => (stAt p obj sup (m + 1)).obj i j - (stAt p obj sup m).obj i j))
      (norm2 p.r p.c (stAt p obj sup m).obj)) ∧
    (stAt p obj sup n).diffErr = (List.range n).map (fun m => calDiffError p.r p.c (stAt p obj sup (m + 1)).obj p.d) := by
  induction n with
  | zero => exact ⟨rfl, rfl⟩
  | succ n ih =>
    rw [List.range_succ, List.map_append, List.map_append, ← ih.1, ← ih.2]
    have h := stAt_succ p obj sup n
    constructor
    · rw [h, List.map_singleton, h]; rfl
    · rw [h, List.map_singleton, h]; rfl

/-- C155, the error dictionary: one entry per iteration; entry n of diff_error is the error of the object after iteration n,
entry n of obj_error the relative change of the object in iteration n, for the objects X of the difference map. -/
theorem C155_error_dict (p : Params) (obj : Arr) (sup : ℕ → ℕ → Bool) :
    ∃ X S, Spec.Trajectory p obj sup X S ∧ (run p obj sup).objErr.length = p.n ∧ (run p obj sup).diffErr.length = p.n ∧
      ∀ n < p.n, (run p obj sup).diffErr[n]? = some (calDiffError p.r p.c (X (n + 1)) p.d) ∧
        ((∃ i < p.r, ∃ j < p.c, X n i j ≠ 0) → (run p obj sup).objErr[n]? =
          some (some (Spec.size p.r p.c (fun i j => ‖X (n + 1) i j - X n i j‖) / Spec.size p.r p.c (fun i j => ‖X n i j‖)))) := by
  refine ⟨_, _, trajectory p obj sup, ?_, ?_, ?_⟩
  · show (stAt p obj sup p.n).objErr.length = _
    rw [(err_inv p obj sup p.n).1]; simp
  · show (stAt p obj sup p.n).diffErr.length = _
    rw [(err_inv p obj sup p.n).2]; simp
  · intro n hn
    constructor
    · show (stAt p obj sup p.n).diffErr[n]? = _
      rw [(err_inv p obj sup p.n).2]; simp [hn]
    · rintro ⟨i, hi, j, hj, hne⟩
      show (stAt p obj sup p.n).objErr[n]? = _
      rw [(err_inv p obj sup p.n).1]
      simp only [List.getElem?_map, List.getElem?_range hn, Option.map_some]
      unfold relative
      rw [norm2_eq, norm2_eq, if_neg]
      intro h
      rw [size_eq_zero] at h
      exact hne (norm_eq_zero.1 (h i hi j hj))

/-! ## C156 random starting objects -/

theorem F_random (r c : ℕ) (d pha : ℕ → ℕ → ℝ) (k l : ℕ) (hk : k < r) (hl : l < c) :
    ‖Dft.fft2 r c (randomPhaseField r c d pha) k l‖ / √((r * c : ℕ) : ℝ) = |d k l| := by
  have hs : 0 < √((r * c : ℕ) : ℝ) := Real.sqrt_pos.2 (by exact_mod_cast Nat.mul_pos (by omega) (by omega))
  unfold randomPhaseField
  rw [fft2_mul, Dft.fft2_ifft2 r c _ k l hk hl, norm_mul, norm_mul, Complex.norm_real, Complex.norm_real, Real.norm_of_nonneg hs.le, Real.norm_eq_abs,
    mul_comm Complex.I, Complex.norm_exp_ofReal_mul_I, mul_one, mul_div_assoc, div_self hs.ne', mul_one]

/-- C156: whatever phases are drawn, the starting object has exactly the given diffraction pattern: its error is 0. -/
theorem C156_random_start (r c : ℕ) (d pha : ℕ → ℕ → ℝ) (hd : ∃ i < r, ∃ j < c, d i j ≠ 0) (hnn : ∀ i < r, ∀ j < c, 0 ≤ d i j) :
    calDiffError r c (randomPhaseField r c d pha) d = some 0 := by
  obtain ⟨e, h1, _, _, h2⟩ := C155_diff_error r c (randomPhaseField r c d pha) d hd
  rw [h1, h2.2]
  intro k hk l hl
  rw [F_random r c d pha k l hk hl, abs_of_nonneg (hnn k hk l hl)]

/-- ... but `cdi_recon` compares with the shifted pattern, so a starting object made from the same pattern has error 0 there
only if the pattern does not change under the shift. -/
theorem C156_shift_refuted (r c : ℕ) (d pha : ℕ → ℕ → ℝ) (hd : ∃ i < r, ∃ j < c, Dft.fftshift2 r c d i j ≠ 0) (hnn : ∀ i < r, ∀ j < c, 0 ≤ d i j) :
    calDiffError r c (randomPhaseField r c d pha) (Dft.fftshift2 r c d) = some 0 ↔ ∀ i < r, ∀ j < c, Dft.fftshift2 r c d i j = d i j := by
  obtain ⟨e, h1, _, _, h2⟩ := C155_diff_error r c (randomPhaseField r c d pha) (Dft.fftshift2 r c d) hd
  rw [h1, Option.some_inj, h2]
  constructor
  · intro h k hk l hl
    have := h k hk l hl
    rw [F_random r c d pha k l hk hl, abs_of_nonneg (hnn k hk l hl)] at this
    exact this.symm
  · intro h k hk l hl
    rw [F_random r c d pha k l hk hl, abs_of_nonneg (hnn k hk l hl), h k hk l hl]

/-- A 2 × 1 pattern that changes under the shift. -/
example : Dft.fftshift2 2 1 (fun i _ => if i = 1 then (3 : ℝ) else 0) 0 0 = 3 ∧ (∃ i < 2, ∃ j < 1, Dft.fftshift2 2 1 (fun i _ => if i = 1 then (3 : ℝ) else 0) i j ≠ 0) := by
  have : Dft.fftshift2 2 1 (fun i _ => if i = 1 then (3 : ℝ) else 0) 0 0 = 3 := by simp [Dft.fftshift2, Dft.fftshift]
  exact ⟨this, 0, by norm_num, 0, by norm_num, by rw [this]; norm_num⟩

end Verif.Cdi
