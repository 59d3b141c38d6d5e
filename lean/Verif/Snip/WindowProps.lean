/- Property C189: what the SNIP background is, exactly: windows, passes, units. -/
import Verif.Snip.Props

namespace Verif.Snip
open Finset Verif

/-! ### specification -/

/-- Energy of channel x. -/
def Spec.energy (a : Args) (x : ℝ) : ℝ := a.eOff + a.eLin * x + a.eQuad * x ^ 2

/-- Full width at half maximum of the detector at energy E: electronic noise and counting noise add in quadrature, the latter
being `2 sqrt(2 log 2) sqrt(epsilon e_lin E)`; 0 where the sum is negative. -/
noncomputable def Spec.fwhm (a : Args) (E : ℝ) : ℝ := √(max (a.eOff ^ 2 + 8 * Real.log 2 * (a.epsilon * a.eLin * E)) 0)

/-- Nearest position inside the spectrum, rounded down to a channel. -/
noncomputable def Spec.inside (n : ℕ) (x : ℝ) : ℕ := ⌊min (max x 0) ((n : ℝ) - 1)⌋₊

/-- One pass: nothing may lie above the mean of the two ends of its window. -/
noncomputable def Spec.lower (n : ℕ) (b w : ℕ → ℝ) (i : ℕ) : ℝ :=
  min (b i) ((b (Spec.inside n (i - w i)) + b (Spec.inside n (i + w i))) / 2)

/-- Passes with the given windows one after another, between the double logarithm of the smoothed spectrum and its inverse. -/
noncomputable def Spec.background (n : ℕ) (s : ℕ → ℝ) (ws : List (ℕ → ℝ)) (i : ℕ) : ℝ :=
  Real.exp (Real.exp (ws.foldl (Spec.lower n) (fun j => Real.log (Real.log (s j + 1) + 1)) i) - 1) - 1

/-- The same calibration in another unit of energy. -/
def Spec.unit (c : ℝ) (a : Args) : Args := { a with eOff := c * a.eOff, eLin := c * a.eLin, eQuad := c * a.eQuad }

/-! ### windows -/

theorem std_sq : (2 * √(2 * Real.log 2)) ^ 2 = 8 * Real.log 2 := by
  rw [mul_pow, Real.sq_sqrt (by positivity)]
  ring

theorem fwhm_eq (a : Args) (E : ℝ) :
    2 * √(2 * Real.log 2) * √(max ((a.eOff / (2 * √(2 * Real.log 2))) ^ 2 + E * a.epsilon * a.eLin) 0) = Spec.fwhm a E := by
  have h2 : (0 : ℝ) < Real.log 2 := Real.log_pos (by norm_num)
  have hs : 0 < 2 * √(2 * Real.log 2) := by positivity
  unfold Spec.fwhm
  rw [← std_sq]
  generalize 2 * √(2 * Real.log 2) = s at hs
  rw [← Real.sqrt_sq hs.le, ← Real.sqrt_mul (sq_nonneg s), Real.sqrt_sq hs.le, mul_max_of_nonneg _ _ (sq_nonneg s), mul_zero]
  congr 2
  field_simp

theorem window_eq (a : Args) (i : ℕ) : windowP a i =
    (a.width * Spec.fwhm a (Spec.energy a (i * a.binning.getD 1)) / a.eLin) / (if 0 < a.binning.getD 0 then 2 else 1) := by
  unfold windowP
  simp only
  have e : (if a.binning.isSome then (i : ℝ) * a.binning.getD 1 else i) = i * a.binning.getD 1 := by
    cases a.binning <;> simp
  rw [e]
  have e2 : a.eOff + ↑i * a.binning.getD 1 * a.eLin + (↑i * a.binning.getD 1) ^ 2 * a.eQuad = Spec.energy a (i * a.binning.getD 1) := by
    unfold Spec.energy; ring
  rw [e2, fwhm_eq]
  by_cases h : 0 < a.binning.getD 0
  · have hs : a.binning.isSome = true := by
      cases hb : a.binning with
      | none => rw [hb] at h; simp at h
      | some s => rfl
    rw [if_pos ⟨hs, h⟩, if_pos h]
  · rw [if_neg (fun h' => h h'.2), if_neg h, div_one]

/-- C189: without binning the window at every channel is `width` times the resolution at its energy, counted in channels. -/
theorem C189_window_partial (a : Args) (hb : a.binning = none) (he : a.eLin ≠ 0) (i : ℕ) :
    windowP a i * a.eLin = a.width * Spec.fwhm a (Spec.energy a i) := by
  rw [window_eq, hb]
  simp only [Option.getD_none, lt_irrefl, if_false, mul_one]
  field_simp

/-- C189 is false for binned spectra: with s channels per bin the window, which is counted in bins, is s/2 times as wide in
energy as `width` times the resolution: right only for bins of two channels. -/
theorem C189_binned_refuted (a : Args) (s : ℝ) (hs : 0 < s) (hb : a.binning = some s) (he : a.eLin ≠ 0) (i : ℕ) :
    windowP a i * (s * a.eLin) = s / 2 * (a.width * Spec.fwhm a (Spec.energy a (i * s))) ∧
    (s ≠ 2 → a.width * Spec.fwhm a (Spec.energy a (i * s)) ≠ 0 →
      windowP a i * (s * a.eLin) ≠ a.width * Spec.fwhm a (Spec.energy a (i * s))) := by
  have h : windowP a i * (s * a.eLin) = s / 2 * (a.width * Spec.fwhm a (Spec.energy a (i * s))) := by
    rw [window_eq, hb]
    simp only [Option.getD_some, if_pos hs]
    field_simp
  refine ⟨h, fun h2 h0 h3 => ?_⟩
  rw [h] at h3
  have : s / 2 = 1 := mul_right_cancel₀ h0 (by rw [h3, one_mul])
  exact h2 (by linarith)

/-! ### passes -/

theorem clip_full (a : Args) (n : ℕ) (hn : 0 < n) (h0 : a.xmin ≤ 0) (h1 : (n : ℝ) - 1 ≤ a.xmax) (x : ℝ) : clipIdx a n x = Spec.inside n x := by
  have : (1 : ℝ) ≤ n := by exact_mod_cast hn
  unfold clipIdx Spec.inside
  rw [if_neg (by linarith), max_eq_right h0, min_eq_right h1]

theorem pass_full (a : Args) (n : ℕ) (hn : 0 < n) (h0 : a.xmin ≤ 0) (h1 : (n : ℝ) - 1 ≤ a.xmax) (w b : ℕ → ℝ) : pass a n w b = Spec.lower n b w := by
  funext i
  unfold pass Spec.lower
  simp only [clip_full a n hn h0 h1]
  split_ifs with h
  · rw [min_eq_right h.le]
  · rw [min_eq_left (not_lt.1 h)]

theorem first_full (a : Args) (n : ℕ) (hn : 0 < n) (h0 : a.xmin ≤ 0) (h1 : (n : ℝ) - 1 ≤ a.xmax) (k : ℕ) (b : ℕ → ℝ) :
    first a n k b = (List.replicate k (windowP a)).foldl (Spec.lower n) b := by
  induction k generalizing b with
  | zero => rfl
  | succ k ih => rw [first, ih, pass_full a n hn h0 h1, List.replicate_succ, List.foldl_cons]

theorem loop_full (a : Args) (n : ℕ) (hn : 0 < n) (h0 : a.xmin ≤ 0) (h1 : (n : ℝ) - 1 ≤ a.xmax) (m : ℕ) (b : ℕ → ℝ) :
    loop a n b m = ((List.range m).map (fun k => fun i => windowP a i / a.decreaseFactor ^ k)).foldl (Spec.lower n) b := by
  induction m with
  | zero => rfl
  | succ m ih =>
    rw [loop, ih, pass_full a n hn h0 h1, List.range_succ, List.map_append, List.foldl_append]
    simp only [List.map_cons, List.map_nil, List.foldl_cons, List.foldl_nil]
    congr 1
    funext i
    exact widthAt_eq a m i

/-- C189: the background of the whole spectrum, exactly: `iter_num` passes with the full windows W, then m passes with W
divided by 1, d, d^2, ..., m being the least number for which every window divided by d^m is below the threshold. -/
theorem C189_exact (a : Args) (he : a.eLin ≠ 0) (hk : 0 < conValOf a) (hdf : 1 < a.decreaseFactor) (hth : 0 < a.widthThreshold)
    (spectrum : List ℝ) (hne : spectrum ≠ []) (h0 : a.xmin ≤ 0) (h1 : (spectrum.length : ℝ) - 1 ≤ a.xmax)
    (W : ℕ → ℝ) (hW : ∀ i : ℕ, W i = (a.width * Spec.fwhm a (Spec.energy a (i * a.binning.getD 1)) / a.eLin) / (if 0 < a.binning.getD 0 then 2 else 1)) :
    ∃ m, (∀ i < spectrum.length, W i / a.decreaseFactor ^ m < a.widthThreshold) ∧
      (∀ m' < m, ∃ i < spectrum.length, a.widthThreshold ≤ W i / a.decreaseFactor ^ m') ∧
      snip a spectrum = .ok (some (Spec.background spectrum.length (Spec.Smoothed (conValOf a) spectrum)
        (List.replicate (iterNumOf a) W ++ (List.range m).map (fun k => fun i => W i / a.decreaseFactor ^ k)))) := by
  classical
  have hWe : W = windowP a := funext (fun i => by rw [hW, window_eq])
  subst hWe
  have hn : 0 < spectrum.length := List.length_pos_iff.2 hne
  have hn1 : (1 : ℝ) ≤ spectrum.length := by exact_mod_cast hn
  have hst := stops a spectrum.length hdf hth
  refine ⟨Nat.find hst, ?_, ?_, ?_⟩
  · intro i hi
    rw [← widthAt_eq]
    exact Nat.find_spec hst i hi
  · intro m' hm'
    have := Nat.find_min hst hm'
    unfold Stops at this
    push Not at this
    obtain ⟨i, hi, h⟩ := this
    exact ⟨i, hi, by rwa [widthAt_eq] at h⟩
  · unfold snip
    rw [if_neg (by omega)]
    simp only [smooth_spec]
    rw [if_neg (by rintro ⟨⟨h, _⟩, _⟩; linarith), if_neg (by rintro ⟨h, _⟩; exact he h), dif_pos hst]
    congr 2
    funext i
    unfold Spec.background
    rw [loop_full a _ hn h0 h1, first_full a _ hn h0 h1, List.foldl_append]
    rfl

/-- What the result depends on. -/
theorem snip_congr (a a' : Args) (spectrum : List ℝ) (hw : windowP a = windowP a') (h0 : a.xmin = a'.xmin) (h1 : a.xmax = a'.xmax)
    (hd : a.decreaseFactor = a'.decreaseFactor) (ht : a.widthThreshold = a'.widthThreshold) (hc : conValOf a = conValOf a')
    (hi : iterNumOf a = iterNumOf a') (he : a.eLin = 0 ↔ a'.eLin = 0) (ho : 0 < a.width * |a.eOff| ↔ 0 < a'.width * |a'.eOff|) :
    snip a spectrum = snip a' spectrum := by
  classical
  have hwa : ∀ m, widthAt a m = widthAt a' m := by
    intro m
    funext i
    rw [widthAt_eq, widthAt_eq, hw, hd]
  have hp : ∀ n w b, pass a n w b = pass a' n w b := by
    intro n w b
    funext i
    unfold pass clipIdx
    rw [h0, h1]
  have hf : ∀ n k b, first a n k b = first a' n k b := by
    intro n k
    induction k with
    | zero => intro b; rfl
    | succ k ih => intro b; rw [first, first, hp, hw, ih]
  have hl : ∀ n b m, loop a n b m = loop a' n b m := by
    intro n b m
    induction m with
    | zero => rfl
    | succ m ih => rw [loop, loop, hp, hwa, ih]
  have hs : ∀ n m, Stops a n m ↔ Stops a' n m := by
    intro n m
    unfold Stops
    rw [hwa, ht]
  unfold snip
  rw [hc, hi, h1]
  by_cases c1 : spectrum.length = 0 ∨ conValOf a' = 0
  · rw [if_pos c1, if_pos c1]
  rw [if_neg c1, if_neg c1]
  simp only
  by_cases c2 : (a'.xmax ≤ -1 ∧ spectrum.length < ⌊-a'.xmax⌋₊) ∧ (0 < iterNumOf a' ∨ ¬ Stops a' spectrum.length 0 ∨ (a'.eLin = 0 ∧ 0 < a'.width * |a'.eOff|))
  · rw [if_pos c2, if_pos (by rwa [hs, he, ho])]
  rw [if_neg c2, if_neg (by rwa [hs, he, ho])]
  by_cases c3 : a'.eLin = 0 ∧ 0 < a'.width * |a'.eOff|
  · rw [if_pos c3, if_pos (by rwa [he, ho])]
  rw [if_neg c3, if_neg (by rwa [he, ho])]
  by_cases c4 : ∃ m, Stops a' spectrum.length m
  · have c5 : ∃ m, Stops a spectrum.length m := by obtain ⟨m, h⟩ := c4; exact ⟨m, (hs _ _).2 h⟩
    rw [dif_pos c4, dif_pos c5]
    have e : Nat.find c5 = Nat.find c4 :=
      le_antisymm (Nat.find_min' c5 ((hs _ _).2 (Nat.find_spec c4))) (Nat.find_min' c4 ((hs _ _).1 (Nat.find_spec c5)))
    rw [e]
    simp only [hl, hf]
  · rw [dif_neg c4, dif_neg (by rintro ⟨m, h⟩; exact c4 ⟨m, (hs _ _).1 h⟩)]

/-- C189: three samples are averaged and three first passes made, five of each for a binned spectrum, unless told otherwise. -/
theorem C189_defaults (a : Args) (spectrum : List ℝ) (k it : Option ℕ) (s : ℝ) :
    snip { a with binning := none, conVal := k, iterNum := it } spectrum =
      snip { a with binning := none, conVal := some (k.getD 3), iterNum := some (it.getD 3) } spectrum ∧
    snip { a with binning := some s, conVal := k, iterNum := it } spectrum =
      snip { a with binning := some s, conVal := some (k.getD 5), iterNum := some (it.getD 5) } spectrum := by
  constructor
  · apply snip_congr <;> first | rfl | simp [conValOf, iterNumOf]
  · apply snip_congr <;> first | rfl | simp [conValOf, iterNumOf]

/-! ### units -/

theorem window_unit (a : Args) (c : ℝ) (hc : 0 < c) (i : ℕ) : windowP (Spec.unit c a) i = windowP a i := by
  rw [window_eq, window_eq]
  have e : Spec.fwhm (Spec.unit c a) (Spec.energy (Spec.unit c a) (i * a.binning.getD 1)) = c * Spec.fwhm a (Spec.energy a (i * a.binning.getD 1)) := by
    unfold Spec.fwhm
    rw [← Real.sqrt_sq hc.le, ← Real.sqrt_mul (sq_nonneg c), Real.sqrt_sq hc.le, mul_max_of_nonneg _ _ (sq_nonneg c), mul_zero]
    congr 2
    unfold Spec.energy Spec.unit
    simp only
    ring
  show (a.width * Spec.fwhm (Spec.unit c a) (Spec.energy (Spec.unit c a) (i * a.binning.getD 1)) / (c * a.eLin)) / _ = _
  rw [e, mul_left_comm, mul_div_mul_left _ _ hc.ne']
  rfl

/-- C189: the background does not depend on the unit of energy of the calibration. -/
theorem C189_energy_unit (a : Args) (c : ℝ) (hc : 0 < c) (spectrum : List ℝ) : snip (Spec.unit c a) spectrum = snip a spectrum := by
  refine snip_congr _ _ _ (funext (window_unit a c hc)) rfl rfl rfl rfl rfl rfl (by simp [Spec.unit, hc.ne']) ?_
  show 0 < a.width * |c * a.eOff| ↔ _
  rw [abs_mul, abs_of_pos hc, mul_left_comm]
  exact mul_pos_iff_of_pos_left hc

/-! ### no windows -/

/-- C189: with `width` 0 the background of the whole spectrum is the smoothed spectrum. -/
theorem C189_no_width (a : Args) (he : a.eLin ≠ 0) (hk : 0 < conValOf a) (hdf : 1 < a.decreaseFactor) (hth : 0 < a.widthThreshold) (hw : a.width = 0)
    (spectrum : List ℝ) (hne : spectrum ≠ []) (hpos : ∀ x ∈ spectrum, 0 ≤ x) (h0 : a.xmin ≤ 0) (h1 : (spectrum.length : ℝ) - 1 ≤ a.xmax) :
    ∃ bg, snip a spectrum = .ok (some bg) ∧ ∀ i < spectrum.length, bg i = Spec.Smoothed (conValOf a) spectrum i := by
  obtain ⟨m, _, h2, h3⟩ := C189_exact a he hk hdf hth spectrum hne h0 h1 (fun _ => 0) (by simp [hw])
  have hm : m = 0 := by
    by_contra h
    obtain ⟨i, _, hi⟩ := h2 0 (by omega)
    simp at hi
    linarith
  subst hm
  refine ⟨_, h3, fun i hi => ?_⟩
  have key : ∀ k (b : ℕ → ℝ), (List.replicate k (fun _ : ℕ => (0 : ℝ))).foldl (Spec.lower spectrum.length) b i = b i := by
    intro k
    induction k with
    | zero => intro b; rfl
    | succ k ih =>
      intro b
      rw [List.replicate_succ, List.foldl_cons, ih]
      unfold Spec.lower Spec.inside
      have hle : (i : ℝ) ≤ (spectrum.length : ℝ) - 1 := by
        have : ((i + 1 : ℕ) : ℝ) ≤ spectrum.length := by exact_mod_cast hi
        push_cast at this
        linarith
      simp only [sub_zero, add_zero, max_eq_left (Nat.cast_nonneg (α := ℝ) i), min_eq_left hle, Nat.floor_natCast]
      rw [show (b i + b i) / 2 = b i by ring, min_self]
  unfold Spec.background
  simp only [List.range_zero, List.map_nil, List.append_nil, key]
  exact invLls_lls (smoothed_nonneg _ _ hpos i)

/-- The hypotheses are met: a typical call in keV and in eV. -/
example : snip (Spec.unit 1000 demo) [5, 5, 9, 5, 5] = snip demo [5, 5, 9, 5, 5] := C189_energy_unit demo 1000 (by norm_num) _

example : ∃ m, snip demo [5, 5, 9, 5, 5] = .ok (some (Spec.background 5 (Spec.Smoothed 3 [5, 5, 9, 5, 5])
    (List.replicate 3 (windowP demo) ++ (List.range m).map (fun k => fun i => windowP demo i / √2 ^ k)))) := by
  have h2 : 1 < demo.decreaseFactor := by
    show 1 < √2
    rw [Real.lt_sqrt (by norm_num)]; norm_num
  obtain ⟨m, _, _, h⟩ := C189_exact demo (by norm_num [demo]) (by simp [conValOf, demo]) h2 (by norm_num [demo]) [5, 5, 9, 5, 5] (by simp)
    (by norm_num [demo]) (by norm_num [demo]) (windowP demo) (fun i => window_eq demo i)
  exact ⟨m, h⟩

end Verif.Snip
