/- Properties C66, C113: SNIP background. -/
import Verif.Snip.Model
import Mathlib.Tactic.Linarith
import Mathlib.Tactic.Positivity
import Mathlib.Analysis.SpecificLimits.Basic

namespace Verif.Snip
open Finset Verif

/-- The smoothed spectrum: mean of the k samples around i (those outside the spectrum count as zero). -/
noncomputable def Spec.Smoothed (k : ℕ) (spectrum : List ℝ) (i : ℕ) : ℝ :=
  (∑ t ∈ range spectrum.length, if (t : ℤ) ≤ i + ((k - 1) / 2 : ℕ) ∧ (i : ℤ) + ((k - 1) / 2 : ℕ) < t + k then spectrum.getD t 0 else 0) / k

theorem smooth_spec (k : ℕ) (spectrum : List ℝ) (i : ℕ) :
    smooth k spectrum.length (fun m => spectrum.getD m 0) i = Spec.Smoothed k spectrum i := by
  unfold smooth Spec.Smoothed
  congr 1
  rw [← sum_filter, ← sum_filter]
  refine sum_bij' (fun j _ => ((i : ℤ) + ((k - 1) / 2 : ℕ) - j).toNat) (fun t _ => ((i : ℤ) + ((k - 1) / 2 : ℕ) - t).toNat) ?_ ?_ ?_ ?_ ?_
  · intro j hj
    simp only [mem_filter, mem_range] at hj ⊢
    omega
  · intro t ht
    simp only [mem_filter, mem_range] at ht ⊢
    omega
  · intro j hj
    simp only [mem_filter, mem_range] at hj ⊢
    omega
  · intro t ht
    simp only [mem_filter, mem_range] at ht ⊢
    omega
  · intro j hj
    rfl

theorem getD_lt (l : List ℝ) (i : ℕ) (h : i < l.length) : l.getD i 0 = l[i] := by
  rw [List.getD_eq_getElem?_getD, List.getElem?_eq_getElem h]
  rfl

theorem smoothed_nonneg (k : ℕ) (spectrum : List ℝ) (h : ∀ x ∈ spectrum, 0 ≤ x) (i : ℕ) : 0 ≤ Spec.Smoothed k spectrum i := by
  unfold Spec.Smoothed
  apply div_nonneg _ (Nat.cast_nonneg _)
  apply sum_nonneg
  intro t ht
  split_ifs
  · rw [getD_lt _ _ (mem_range.1 ht)]
    exact h _ (List.getElem_mem _)
  · exact le_refl 0

theorem smoothed_mono (k : ℕ) (s s' : List ℝ) (hl : s.length = s'.length) (h : ∀ i, s.getD i 0 ≤ s'.getD i 0) (i : ℕ) : Spec.Smoothed k s i ≤ Spec.Smoothed k s' i := by
  unfold Spec.Smoothed
  apply div_le_div_of_nonneg_right _ (Nat.cast_nonneg _)
  rw [hl]
  apply sum_le_sum
  intro t _
  split_ifs
  · exact h t
  · exact le_refl 0

theorem lls_mono {x y : ℝ} (hx : 0 ≤ x) (hxy : x ≤ y) : lls x ≤ lls y := by
  unfold lls
  have h1 : 0 ≤ Real.log (x + 1) := Real.log_nonneg (by linarith)
  have h2 : Real.log (x + 1) ≤ Real.log (y + 1) := Real.log_le_log (by linarith) (by linarith)
  exact Real.log_le_log (by linarith) (by linarith)

theorem invLls_mono {x y : ℝ} (hxy : x ≤ y) : invLls x ≤ invLls y := by
  unfold invLls
  have h1 := Real.exp_le_exp.2 hxy
  have h2 := Real.exp_le_exp.2 (sub_le_sub_right h1 1)
  linarith

theorem invLls_lls {x : ℝ} (hx : 0 ≤ x) : invLls (lls x) = x := by
  unfold invLls lls
  have h1 : 0 ≤ Real.log (x + 1) := Real.log_nonneg (by linarith)
  rw [Real.exp_log (by linarith), add_sub_cancel_right, Real.exp_log (by linarith), add_sub_cancel_right]

theorem clipIdx_lt (a : Args) (n : ℕ) (hn : 0 < n) (x : ℝ) : clipIdx a n x < n := by
  unfold clipIdx
  split_ifs with hx
  · have : 1 ≤ ⌊-a.xmax⌋₊ := by rw [Nat.one_le_floor_iff]; linarith
    omega
  rw [Nat.floor_lt' (by omega)]
  have h1 : min (max x (max a.xmin 0)) (min a.xmax ((n : ℝ) - 1)) ≤ n - 1 := le_trans (min_le_right _ _) (min_le_right _ _)
  linarith

theorem pass_le (a : Args) (n : ℕ) (w b : ℕ → ℝ) (i : ℕ) : pass a n w b i ≤ b i := by
  unfold pass
  simp only
  split_ifs with h
  · exact h.le
  · exact le_refl _

theorem pass_ge (a : Args) (n : ℕ) (hn : 0 < n) (w b : ℕ → ℝ) (lo : ℝ) (h : ∀ i < n, lo ≤ b i) (i : ℕ) (hi : i < n) : lo ≤ pass a n w b i := by
  unfold pass
  simp only
  have h1 := h _ (clipIdx_lt a n hn (i - w i))
  have h2 := h _ (clipIdx_lt a n hn (i + w i))
  split_ifs
  · linarith
  · exact h i hi

theorem pass_mono (a : Args) (n : ℕ) (hn : 0 < n) (w b b' : ℕ → ℝ) (h : ∀ i < n, b i ≤ b' i) (i : ℕ) (hi : i < n) : pass a n w b i ≤ pass a n w b' i := by
  unfold pass
  simp only
  have h1 := h _ (clipIdx_lt a n hn (i - w i))
  have h2 := h _ (clipIdx_lt a n hn (i + w i))
  have h3 := h i hi
  split_ifs with h4 h5 h5
  · linarith
  · push Not at h5; linarith
  · push Not at h4; linarith
  · linarith

theorem first_le (a : Args) (n k : ℕ) (b : ℕ → ℝ) (i : ℕ) : first a n k b i ≤ b i := by
  induction k generalizing b with
  | zero => exact le_refl _
  | succ k ih => exact le_trans (ih _) (pass_le a n _ b i)

theorem first_ge (a : Args) (n : ℕ) (hn : 0 < n) (lo : ℝ) (k : ℕ) (b : ℕ → ℝ) (h : ∀ i < n, lo ≤ b i) : ∀ i < n, lo ≤ first a n k b i := by
  induction k generalizing b with
  | zero => exact h
  | succ k ih => exact ih _ (fun i hi => pass_ge a n hn _ b lo h i hi)

theorem first_mono (a : Args) (n : ℕ) (hn : 0 < n) (k : ℕ) (b b' : ℕ → ℝ) (h : ∀ i < n, b i ≤ b' i) : ∀ i < n, first a n k b i ≤ first a n k b' i := by
  induction k generalizing b b' with
  | zero => exact h
  | succ k ih => exact ih _ _ (fun i hi => pass_mono a n hn _ b b' h i hi)

theorem loop_le (a : Args) (n : ℕ) (b : ℕ → ℝ) (m i : ℕ) : loop a n b m i ≤ b i := by
  induction m with
  | zero => exact le_refl _
  | succ m ih => exact le_trans (pass_le a n _ _ i) ih

theorem loop_ge (a : Args) (n : ℕ) (hn : 0 < n) (lo : ℝ) (b : ℕ → ℝ) (h : ∀ i < n, lo ≤ b i) (m : ℕ) : ∀ i < n, lo ≤ loop a n b m i := by
  induction m with
  | zero => exact h
  | succ m ih => exact fun i hi => pass_ge a n hn _ _ lo ih i hi

theorem loop_mono (a : Args) (n : ℕ) (hn : 0 < n) (b b' : ℕ → ℝ) (h : ∀ i < n, b i ≤ b' i) (m : ℕ) : ∀ i < n, loop a n b m i ≤ loop a n b' m i := by
  induction m with
  | zero => exact h
  | succ m ih => exact fun i hi => pass_mono a n hn _ _ _ ih i hi

theorem widthAt_eq (a : Args) (m i : ℕ) : widthAt a m i = windowP a i / a.decreaseFactor ^ m := by
  induction m with
  | zero => simp [widthAt]
  | succ m ih => rw [widthAt]; beta_reduce; rw [ih, pow_succ, div_div]

/-- With a decrease factor above one and a positive width threshold the loop ends, for every calibration. -/
theorem stops (a : Args) (n : ℕ) (hdf : 1 < a.decreaseFactor) (hth : 0 < a.widthThreshold) : ∃ m, Stops a n m := by
  have h : ∀ i, ∃ m0, ∀ m ≥ m0, widthAt a m i < a.widthThreshold := by
    intro i
    by_cases hw : windowP a i ≤ 0
    · refine ⟨0, fun m _ => ?_⟩
      rw [widthAt_eq]
      have : windowP a i / a.decreaseFactor ^ m ≤ 0 := div_nonpos_of_nonpos_of_nonneg hw (by positivity)
      linarith
    · push Not at hw
      obtain ⟨m0, hm0⟩ := pow_unbounded_of_one_lt (windowP a i / a.widthThreshold) hdf
      refine ⟨m0, fun m hm => ?_⟩
      rw [widthAt_eq, div_lt_iff₀ (by positivity)]
      have h1 : a.decreaseFactor ^ m0 ≤ a.decreaseFactor ^ m := pow_le_pow_right₀ hdf.le hm
      have h2 := lt_of_lt_of_le hm0 h1
      rw [div_lt_iff₀ hth] at h2
      linarith
  choose f hf using h
  refine ⟨(range n).sup f, fun i hi => hf i _ (Finset.le_sup (f := f) (mem_range.2 hi))⟩

theorem snip_form (a : Args) (n : ℕ) (hn : 0 < n) (he : a.eLin ≠ 0) (hk : 0 < conValOf a) (hx : -(n : ℝ) ≤ a.xmax) (hdf : 1 < a.decreaseFactor) (hth : 0 < a.widthThreshold) :
    ∃ m, ∀ s : List ℝ, s.length = n → snip a s = .ok (some (fun i => invLls (loop a n (first a n (iterNumOf a) (fun i => lls (Spec.Smoothed (conValOf a) s i))) m i))) := by
  classical
  have hst := stops a n hdf hth
  refine ⟨Nat.find hst, ?_⟩
  rintro s rfl
  unfold snip
  have hfl : ⌊-a.xmax⌋₊ ≤ s.length := Nat.floor_le_of_le (by linarith)
  rw [if_neg (by omega)]
  simp only [smooth_spec]
  rw [if_neg (by rintro ⟨⟨_, h⟩, _⟩; omega), if_neg (by rintro ⟨h, _⟩; exact he h), dif_pos hst]

/-- For every non-empty non-negative spectrum, calibration with a slope, boxcar size above 0, iteration count, width and range
(an upper end that is negative counts from the end and must not leave the spectrum): with a decrease factor above one and a
positive threshold snip_method returns; the background lies nowhere above the smoothed spectrum and
nowhere below a lower bound of it, in particular it is not negative. -/
theorem C66_snip (a : Args) (he : a.eLin ≠ 0) (hk : 0 < conValOf a) (hdf : 1 < a.decreaseFactor) (hth : 0 < a.widthThreshold) (spectrum : List ℝ)
    (hne : spectrum ≠ []) (hx : -(spectrum.length : ℝ) ≤ a.xmax) (hpos : ∀ x ∈ spectrum, 0 ≤ x) :
    ∃ bg, snip a spectrum = .ok (some bg) ∧ ∀ i < spectrum.length,
      bg i ≤ Spec.Smoothed (conValOf a) spectrum i ∧
      ∀ lo, 0 ≤ lo → (∀ j < spectrum.length, lo ≤ Spec.Smoothed (conValOf a) spectrum j) → lo ≤ bg i := by
  have hn : 0 < spectrum.length := List.length_pos_iff.2 hne
  obtain ⟨m, hm⟩ := snip_form a _ hn he hk hx hdf hth
  refine ⟨_, hm spectrum rfl, fun i hi => ⟨?_, ?_⟩⟩
  · have h1 := le_trans (loop_le a spectrum.length (first a spectrum.length (iterNumOf a) (fun i => lls (Spec.Smoothed (conValOf a) spectrum i))) m i) (first_le a _ _ _ i)
    have h2 := invLls_mono h1
    rwa [invLls_lls (smoothed_nonneg _ _ hpos i)] at h2
  · intro lo hlo hall
    have h1 := loop_ge a _ hn (lls lo) _ (first_ge a _ hn (lls lo) (iterNumOf a) _ (fun j hj => lls_mono hlo (hall j hj))) m i hi
    have h2 := invLls_mono h1
    rwa [invLls_lls hlo] at h2

/-- Every pass only lowers the background. -/
theorem C66_pass_lowers (a : Args) (n : ℕ) (w b : ℕ → ℝ) (i : ℕ) : pass a n w b i ≤ b i := pass_le a n w b i

/-- The condition on the decrease factor is needed: with a factor in (0,1] the loop never ends once some window reaches the
threshold. -/
theorem C66_needs_decrease (a : Args) (he : a.eLin ≠ 0) (hk : 0 < conValOf a) (h0 : 0 < a.decreaseFactor) (hdf : a.decreaseFactor ≤ 1) (hth : 0 ≤ a.widthThreshold) (spectrum : List ℝ)
    (hx : -(spectrum.length : ℝ) ≤ a.xmax) (hw : ∃ i < spectrum.length, a.widthThreshold ≤ windowP a i) : snip a spectrum = .ok none := by
  obtain ⟨i, hi, hge⟩ := hw
  unfold snip
  have hfl : ⌊-a.xmax⌋₊ ≤ spectrum.length := Nat.floor_le_of_le (by linarith)
  rw [if_neg (by omega)]
  simp only
  rw [if_neg (by rintro ⟨⟨_, h⟩, _⟩; omega)]
  rw [if_neg (by rintro ⟨h, _⟩; exact he h), dif_neg]
  rintro ⟨m, hm⟩
  have := hm i hi
  rw [widthAt_eq, div_lt_iff₀ (by positivity)] at this
  have h1 : a.decreaseFactor ^ m ≤ 1 := pow_le_one₀ h0.le hdf
  nlinarith

/-- An empty spectrum raises ValueError. -/
theorem C66_empty (a : Args) : snip a [] = .error .valueError := by
  unfold snip
  simp

/-- The condition on the slope is needed: with `e_lin = 0`, an offset and a positive width the call never returns. -/
theorem C66_needs_slope (a : Args) (he : a.eLin = 0) (ho : a.eOff ≠ 0) (hw : 0 < a.width) (hk : 0 < conValOf a) (spectrum : List ℝ) (hne : spectrum ≠ [])
    (hx : -(spectrum.length : ℝ) ≤ a.xmax) : snip a spectrum = .ok none := by
  have hn : 0 < spectrum.length := List.length_pos_iff.2 hne
  have hfl : ⌊-a.xmax⌋₊ ≤ spectrum.length := Nat.floor_le_of_le (by linarith)
  unfold snip
  rw [if_neg (by omega)]
  simp only
  rw [if_neg (by rintro ⟨⟨_, h⟩, _⟩; omega), if_pos ⟨he, by positivity⟩]

/-- The condition on the range is needed: an upper end below minus the number of samples raises IndexError as soon as a pass
is made. -/
theorem C66_needs_range (a : Args) (hk : 0 < conValOf a) (hi : 0 < iterNumOf a) (spectrum : List ℝ) (hne : spectrum ≠ [])
    (hx : a.xmax ≤ -(spectrum.length : ℝ) - 1) : snip a spectrum = .error .indexError := by
  have hn : 0 < spectrum.length := List.length_pos_iff.2 hne
  have hfl : spectrum.length < ⌊-a.xmax⌋₊ := by
    rw [Nat.lt_iff_add_one_le]
    apply Nat.le_floor
    push_cast
    linarith
  have : (0 : ℝ) ≤ spectrum.length := Nat.cast_nonneg _
  unfold snip
  rw [if_neg (by omega)]
  simp only
  rw [if_pos ⟨⟨by linarith, hfl⟩, Or.inl hi⟩]

/-- Raising a spectrum anywhere never lowers the background anywhere. -/
theorem C113_monotone (a : Args) (he : a.eLin ≠ 0) (hk : 0 < conValOf a) (hdf : 1 < a.decreaseFactor) (hth : 0 < a.widthThreshold)
    (s s' : List ℝ) (hne : s ≠ []) (hx : -(s.length : ℝ) ≤ a.xmax) (hl : s.length = s'.length)
    (hpos : ∀ x ∈ s, 0 ≤ x) (hle : ∀ i, s.getD i 0 ≤ s'.getD i 0) :
    ∃ bg bg', snip a s = .ok (some bg) ∧ snip a s' = .ok (some bg') ∧ ∀ i < s.length, bg i ≤ bg' i := by
  have hn : 0 < s.length := List.length_pos_iff.2 hne
  obtain ⟨m, hm⟩ := snip_form a _ hn he hk hx hdf hth
  refine ⟨_, _, hm s rfl, hm s' hl.symm, fun i hi => ?_⟩
  apply invLls_mono
  apply loop_mono a _ hn _ _ _ _ i hi
  apply first_mono a _ hn
  intro j hj
  exact lls_mono (smoothed_nonneg _ _ hpos j) (smoothed_mono _ _ _ hl hle j)

/-- The background of a constant spectrum without smoothing is that constant. -/
theorem C113_constant (a : Args) (he : a.eLin ≠ 0) (hdf : 1 < a.decreaseFactor) (hth : 0 < a.widthThreshold) (hk : a.conVal = some 1) (v : ℝ)
    (hv : 0 ≤ v) (n : ℕ) (hn : 0 < n) (hx : -(n : ℝ) ≤ a.xmax) :
    ∃ bg, snip a (List.replicate n v) = .ok (some bg) ∧ ∀ i < n, bg i = v := by
  have hsm : ∀ i < n, Spec.Smoothed (conValOf a) (List.replicate n v) i = v := by
    intro i hi
    have hk1 : conValOf a = 1 := by simp [conValOf, hk]
    rw [hk1]
    unfold Spec.Smoothed
    rw [List.length_replicate]
    simp only [Nat.sub_self, Nat.zero_div, Nat.cast_zero, add_zero, Nat.cast_one, div_one]
    rw [sum_eq_single i]
    · rw [if_pos (by omega), getD_lt _ _ (by simpa using hi), List.getElem_replicate]
    · intro t _ ht
      rw [if_neg (by omega)]
    · intro h; exact absurd (mem_range.2 hi) h
  obtain ⟨bg, h1, h2⟩ := C66_snip a he (by simp [conValOf, hk]) hdf hth (List.replicate n v) (by simp; omega) (by simpa using hx) (by intro x hx; rw [List.eq_of_mem_replicate hx]; exact hv)
  refine ⟨bg, h1, fun i hi => ?_⟩
  obtain ⟨h3, h4⟩ := h2 i (by simpa using hi)
  rw [hsm i hi] at h3
  exact le_antisymm h3 (h4 v hv (fun j hj => (hsm j (by simpa using hj)).ge))

/-- A typical call: ten eV per channel, a peak on a flat spectrum. -/
noncomputable def demo : Args := { eOff := 0, eLin := 1 / 100, eQuad := 0, epsilon := 296 / 100, width := 1 / 2, decreaseFactor := √2, widthThreshold := 1 / 2 }

example : ∃ bg, snip demo [5, 5, 9, 5, 5] = .ok (some bg) ∧ ∀ i < 5, 0 ≤ bg i ∧ bg i ≤ Spec.Smoothed 3 [5, 5, 9, 5, 5] i := by
  have h2 : 1 < demo.decreaseFactor := by
    show 1 < √2
    rw [Real.lt_sqrt (by norm_num)]; norm_num
  have hp : ∀ x ∈ ([5, 5, 9, 5, 5] : List ℝ), 0 ≤ x := by
    intro x hx
    simp only [List.mem_cons, List.not_mem_nil, or_false] at hx
    rcases hx with h | h | h | h | h <;> rw [h] <;> norm_num
  obtain ⟨bg, h, h'⟩ := C66_snip demo (by norm_num [demo]) (by simp [conValOf, demo]) h2 (by norm_num [demo]) [5, 5, 9, 5, 5] (by simp) (by norm_num [demo]) hp
  exact ⟨bg, h, fun i hi => ⟨(h' i hi).2 0 le_rfl (fun j _ => smoothed_nonneg _ _ hp j), (h' i hi).1⟩⟩

end Verif.Snip
