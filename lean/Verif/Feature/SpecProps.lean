/- Properties C58-C60, C98, C99: spectroscopy. -/
import Verif.Feature.Props

namespace Verif.Feature
open Verif

/-! ## C98 find_largest_peak -/

theorem argmax_eq (y : List ℝ) (j : ℕ) (m : ℝ) (hj : y[j]? = some m) (hmax : ∀ w ∈ y, w ≤ m) (hfirst : ∀ i v, i < j → y[i]? = some v → v < m) :
    argmax y = j := by
  unfold argmax
  obtain ⟨hlt, hv⟩ := List.getElem?_eq_some_iff.1 hj
  rw [List.findIdx_eq hlt]
  constructor
  · simp only [decide_eq_true_eq]; rw [hv]; exact hmax
  · intro i hi
    simp only [decide_eq_false_iff_not, not_forall]
    have := hfirst i y[i] hi (List.getElem?_eq_getElem (by omega))
    exact ⟨m, hv ▸ List.getElem_mem hlt, not_le.2 this⟩

/-- The result for an exact Gaussian is exact: the window (all points but the last by default) must hold three different
sampling points. -/
theorem gauss_peak (lstsq : List ℝ → List ℝ → ℝ × ℝ × ℝ) (hl : IsLstsq lstsq) (x : List ℝ) (h3 : Spec.ThreePoints x)
    (c H s : ℝ) (hH : 0 < H) (hs : 0 < s) :
    fitQuadToPeak lstsq x ((x.map (fun u => H * Real.exp (-(u - c) ^ 2 / (2 * s ^ 2)))).map Real.log) = .ok ((-(1 / (2 * s ^ 2)), c, Real.log H), 1) := by
  rw [log_gauss x c H s hH hs, fit_exact lstsq hl x h3 _ c _ (by simp; exact hs.ne')]

theorem gauss_width (s : ℝ) (hs : 0 < s) : 1 / √(-2 * -(1 / (2 * s ^ 2))) = s := by
  have : -2 * -(1 / (2 * s ^ 2)) = (1 / s) ^ 2 := by field_simp
  rw [this, Real.sqrt_sq (by positivity)]
  field_simp

theorem pySlice_map {α β : Type} (f : α → β) (l : List α) (a b : ℤ) : pySlice (l.map f) a b = (pySlice l a b).map f := by
  simp [pySlice, List.map_drop, List.map_take]

theorem pySlice_default {α : Type} (l : List α) : pySlice l 0 (-1) = l.dropLast := by
  simp only [pySlice]
  rw [if_neg (c := (0:ℤ) < 0) (by norm_num), if_pos (by norm_num), List.dropLast_eq_take]
  have : (max 0 (-1 + (l.length : ℤ))).toNat = l.length - 1 := by omega
  rw [this]
  simp

/-- Without a window: centre, height and width of an exact Gaussian. -/
theorem C98_gaussian_no_window (lstsq : List ℝ → List ℝ → ℝ × ℝ × ℝ) (hl : IsLstsq lstsq) (x : List ℝ) (h3 : Spec.ThreePoints x.dropLast)
    (c H s : ℝ) (hH : 0 < H) (hs : 0 < s) :
    findLargestPeak lstsq x (x.map (fun u => H * Real.exp (-(u - c) ^ 2 / (2 * s ^ 2)))) none = .ok (c, H, s) := by
  unfold findLargestPeak
  simp only [pySlice_default]
  rw [← List.map_dropLast, gauss_peak lstsq hl _ h3 c H s hH hs]
  simp only
  rw [Real.exp_log hH, gauss_width s hs]

example : Spec.ThreePoints ([0, 1, 2, 3] : List ℝ).dropLast :=
  ⟨0, by simp, 1, by simp, 2, by simp, by norm_num, by norm_num, by norm_num⟩

/-- With a window that does not reach before the first sample: exact too, and only the samples within the window count
(`g` agrees with the Gaussian there and is arbitrary elsewhere). -/
theorem C98_gaussian_window_partial (lstsq : List ℝ → List ℝ → ℝ × ℝ × ℝ) (hl : IsLstsq lstsq) (x y : List ℝ) (w j : ℕ) (m : ℝ)
    (hlen : y.length = x.length) (hj : y[j]? = some m) (hmax : ∀ v ∈ y, v ≤ m) (hfirst : ∀ i v, i < j → y[i]? = some v → v < m) (hwj : w ≤ j)
    (c H s : ℝ) (hH : 0 < H) (hs : 0 < s)
    (hy : ∀ (i : ℕ) u, j ≤ i + w → i ≤ j + w → x[i]? = some u → y[i]? = some (H * Real.exp (-(u - c) ^ 2 / (2 * s ^ 2))))
    (h3 : Spec.ThreePoints ((x.drop (j - w)).take (2 * w + 1))) :
    findLargestPeak lstsq x y (some w) = .ok (c, H, s) := by
  have hjl : j < x.length := by rw [← hlen]; exact (List.getElem?_eq_some_iff.1 hj).1
  have hsl : ∀ l : List ℝ, l.length = x.length → pySlice l ((j : ℤ) - w) ((j : ℤ) + w + 1) = (l.drop (j - w)).take (2 * w + 1) := by
    intro l hll
    simp only [pySlice]
    rw [if_neg (by omega), if_neg (by omega)]
    apply List.ext_getElem?
    intro i
    rw [List.getElem?_drop, List.getElem?_take, List.getElem?_take, List.getElem?_drop]
    have e : (min ((j : ℤ) - w) (l.length : ℤ)).toNat = j - w := by omega
    rw [e]
    have e2 : (min ((j : ℤ) + w + 1) (l.length : ℤ)).toNat = min (j + w + 1) l.length := by omega
    rw [e2]
    by_cases h1 : i < 2 * w + 1
    · rw [if_pos h1]
      by_cases h2 : j - w + i < min (j + w + 1) l.length
      · rw [if_pos h2]
      · rw [if_neg h2, List.getElem?_eq_none (by omega)]
    · rw [if_neg h1, if_neg (by omega)]
  unfold findLargestPeak
  simp only [argmax_eq y j m hj hmax hfirst]
  rw [hsl x rfl, hsl y hlen]
  have hyw : (y.drop (j - w)).take (2 * w + 1) = ((x.drop (j - w)).take (2 * w + 1)).map (fun u => H * Real.exp (-(u - c) ^ 2 / (2 * s ^ 2))) := by
    apply List.ext_getElem?
    intro i
    rw [List.getElem?_map, List.getElem?_take, List.getElem?_take, List.getElem?_drop, List.getElem?_drop]
    by_cases h1 : i < 2 * w + 1
    · rw [if_pos h1, if_pos h1]
      cases hx : x[j - w + i]? with
      | none =>
        rw [List.getElem?_eq_none_iff] at hx
        rw [List.getElem?_eq_none (by omega)]; rfl
      | some u => rw [hy (j - w + i) u (by omega) (by omega) hx]; rfl
    · rw [if_neg h1, if_neg h1]; rfl
  rw [hyw, gauss_peak lstsq hl _ h3 c H s hH hs]
  simp only
  rw [Real.exp_log hH, gauss_width s hs]

/-- A peak nearer to the start of the data than the window always raises (for data of at least 2*window+1 points). -/
theorem C98_window_at_start_refuted (lstsq : List ℝ → List ℝ → ℝ × ℝ × ℝ) (x y : List ℝ) (w j : ℕ) (m : ℝ) (hlen : y.length = x.length)
    (hj : y[j]? = some m) (hmax : ∀ v ∈ y, v ≤ m) (hfirst : ∀ i v, i < j → y[i]? = some v → v < m) (hwj : j < w) (hn : 2 * w + 1 ≤ x.length) :
    findLargestPeak lstsq x y (some w) = .error .exception := by
  have hjl : j < x.length := by rw [← hlen]; exact (List.getElem?_eq_some_iff.1 hj).1
  have hsl : pySlice x ((j : ℤ) - w) ((j : ℤ) + w + 1) = [] := by
    simp only [pySlice]
    rw [if_pos (by omega), if_neg (by omega)]
    apply List.drop_eq_nil_of_le
    rw [List.length_take]
    omega
  unfold findLargestPeak
  simp only [argmax_eq y j m hj hmax hfirst]
  rw [hsl]
  rfl

/-- Instance: the peak at sample 1, window 2, of a five-point spectrum. -/
example (lstsq : List ℝ → List ℝ → ℝ × ℝ × ℝ) : findLargestPeak lstsq [0, 1, 2, 3, 4] [2, 5, 3, 2, 1] (some 2) = .error .exception := by
  apply C98_window_at_start_refuted lstsq [0, 1, 2, 3, 4] [2, 5, 3, 2, 1] 2 1 5 rfl rfl
  · intro v hv; simp at hv; rcases hv with rfl | rfl | rfl | rfl | rfl <;> norm_num
  · intro i v hi hv
    have : i = 0 := by omega
    subst this
    simp at hv; rw [← hv]; norm_num
  · norm_num
  · norm_num

/-! ## C60 align_and_scale -/

theorem alignLoop_spec (pk : List ℝ → List ℝ → Py (ℝ × ℝ × ℝ)) (val : List ℝ × List ℝ → ℝ × ℝ × ℝ) : ∀ (spectra : List (List ℝ × List ℝ)) (base : Option ℝ),
    (∀ p ∈ spectra, pk p.1 p.2 = .ok (val p)) →
    alignLoop pk base spectra = .ok (spectra.map (fun p => (p.1.map (fun v => (v - (val p).1) *
      (base.getD ((val (spectra.headD ([], []))).2.2)) / (val p).2.2), p.2))) := by
  intro spectra
  induction spectra with
  | nil => intro base _; rfl
  | cons p t ih =>
    intro base h
    obtain ⟨e, c⟩ := p
    rw [alignLoop, h (e, c) (by simp)]
    simp only [List.headD_cons]
    rw [ih (some (base.getD (val (e, c)).2.2)) (fun p hp => h p (by simp [hp]))]
    simp

/-- For spectra that are Gaussians (of any centres, heights and widths), every aligned spectrum has its peak at 0 with
its own height and the width of the first spectrum, and the counts are unchanged. -/
theorem C60_align_gaussians (lstsq : List ℝ → List ℝ → ℝ × ℝ × ℝ) (hl : IsLstsq lstsq) (n : ℕ) (e : ℕ → List ℝ) (c H s : ℕ → ℝ)
    (h3 : ∀ i < n, Spec.ThreePoints (e i).dropLast) (hH : ∀ i < n, 0 < H i) (hs : ∀ i < n, 0 < s i) :
    ∃ out, alignAndScale (fun x y => findLargestPeak lstsq x y none) ((List.range n).map (fun i =>
        (e i, (e i).map (fun u => H i * Real.exp (-(u - c i) ^ 2 / (2 * s i ^ 2)))))) = .ok out ∧ out.length = n ∧
      ∀ i < n, ∃ e', out[i]? = some (e', (e i).map (fun u => H i * Real.exp (-(u - c i) ^ 2 / (2 * s i ^ 2)))) ∧
        findLargestPeak lstsq e' ((e i).map (fun u => H i * Real.exp (-(u - c i) ^ 2 / (2 * s i ^ 2)))) none = .ok (0, H i, s 0) := by
  set g : ℕ → List ℝ × List ℝ := fun i => (e i, (e i).map (fun u => H i * Real.exp (-(u - c i) ^ 2 / (2 * s i ^ 2)))) with hg
  have hpk : ∀ i < n, findLargestPeak lstsq (g i).1 (g i).2 none = .ok (c i, H i, s i) := fun i hi =>
    C98_gaussian_no_window lstsq hl (e i) (h3 i hi) (c i) (H i) (s i) (hH i hi) (hs i hi)
  classical
  set val : List ℝ × List ℝ → ℝ × ℝ × ℝ := fun p => match findLargestPeak lstsq p.1 p.2 none with | .ok r => r | .error _ => (0, 0, 0) with hval
  have hv : ∀ i < n, val (g i) = (c i, H i, s i) := by
    intro i hi
    simp only [hval, hpk i hi]
  have hspec := alignLoop_spec (fun x y => findLargestPeak lstsq x y none) val ((List.range n).map g) none (by
    intro p hp
    obtain ⟨i, hi, rfl⟩ := List.mem_map.1 hp
    have hi' := List.mem_range.1 hi
    rw [hv i hi']
    exact hpk i hi')
  refine ⟨_, hspec, by simp, ?_⟩
  intro i hi
  have hs0 : (val (((List.range n).map g).headD ([], []))).2.2 = s 0 := by
    have : ((List.range n).map g).headD ([], []) = g 0 := by
      obtain ⟨k, rfl⟩ : ∃ k, n = k + 1 := ⟨n - 1, by omega⟩
      rw [List.range_succ_eq_map]; rfl
    rw [this, hv 0 (by omega)]
  refine ⟨(e i).map (fun v => (v - c i) * s 0 / s i), ?_, ?_⟩
  · rw [List.getElem?_map, List.getElem?_map, List.getElem?_range hi]
    simp only [Option.map_some, Option.getD_none, hs0, hv i hi]
    rfl
  · have hsi := hs i hi
    have hs0p := hs 0 (by omega)
    have : (e i).map (fun u => H i * Real.exp (-(u - c i) ^ 2 / (2 * s i ^ 2))) =
        ((e i).map (fun v => (v - c i) * s 0 / s i)).map (fun u => H i * Real.exp (-(u - 0) ^ 2 / (2 * s 0 ^ 2))) := by
      rw [List.map_map]
      apply List.map_congr_left
      intro u _
      simp only [Function.comp]
      congr 2
      field_simp
      ring
    rw [this]
    apply C98_gaussian_no_window lstsq hl _ _ 0 (H i) (s 0) (hH i hi) hs0p
    rw [← List.map_dropLast]
    obtain ⟨u, hu, v, hv', w, hw, n1, n2, n3⟩ := h3 i hi
    have inj : ∀ a b : ℝ, a ≠ b → (a - c i) * s 0 / s i ≠ (b - c i) * s 0 / s i := by
      intro a b hab h
      apply hab
      have h2 : (a - c i) * s 0 = (b - c i) * s 0 := by
        have := congrArg (· * s i) h
        simpa [hsi.ne'] using this
      have := mul_right_cancel₀ hs0p.ne' h2
      linarith
    exact ⟨_, List.mem_map_of_mem hu, _, List.mem_map_of_mem hv', _, List.mem_map_of_mem hw, inj _ _ n1, inj _ _ n2, inj _ _ n3⟩

/-- With any peak finder: counts untouched and energies mapped affinely, peak to 0 and own width to the first width. -/
theorem C60_affine (pk : List ℝ → List ℝ → Py (ℝ × ℝ × ℝ)) (spectra : List (List ℝ × List ℝ)) (val : List ℝ × List ℝ → ℝ × ℝ × ℝ)
    (h : ∀ p ∈ spectra, pk p.1 p.2 = .ok (val p)) (hw : ∀ p ∈ spectra, (val p).2.2 ≠ 0) (first : List ℝ × List ℝ) (hf : spectra.head? = some first) :
    ∃ out, alignAndScale pk spectra = .ok out ∧ out.length = spectra.length ∧ ∀ (i : ℕ) p, spectra[i]? = some p →
      ∃ f : ℝ → ℝ, out[i]? = some (p.1.map f, p.2) ∧ f (val p).1 = 0 ∧ ∀ t d, f (t + d * (val p).2.2) - f t = d * (val first).2.2 := by
  refine ⟨_, alignLoop_spec pk val spectra none h, by simp, ?_⟩
  intro i p hp
  have hmem : p ∈ spectra := List.mem_of_getElem? hp
  have hne := hw p hmem
  have hhd : spectra.headD ([], []) = first := by
    cases spectra with
    | nil => simp at hf
    | cons a t => simpa using hf
  refine ⟨fun v => (v - (val p).1) * (val first).2.2 / (val p).2.2, ?_, by simp, ?_⟩
  · rw [List.getElem?_map, hp]
    simp only [Option.map_some, Option.getD_none, hhd]
  · intro t d
    field_simp
    ring

/-! ## C58 integrate_ROI errors -/

/-- Documented reasons for integrate_ROI to raise. -/
def Spec.BadROI (x y xmin xmax : List ℚ) : Prop :=
  x.length ≠ y.length ∨ ¬ (x.Pairwise (· < ·) ∨ x.Pairwise (· > ·)) ∨ xmin.length ≠ xmax.length ∨
  (∃ p ∈ List.zip xmin xmax, p.2 ≤ p.1) ∨ (∃ v ∈ xmin, ∀ u ∈ x, v < u) ∨ (∃ v ∈ xmax, ∀ u ∈ x, u < v)

theorem chain_zip (r : ℚ → ℚ → Prop) [DecidableRel r] (hr : ∀ a b c, r a b → r b c → r a c) (x : List ℚ) :
    (List.zip x x.tail).all (fun p => decide (r p.1 p.2)) = true ↔ x.Pairwise r := by
  induction x with
  | nil => simp
  | cons a t ih =>
    cases t with
    | nil => simp
    | cons b t =>
      simp only [List.tail_cons, List.zip_cons_cons, List.all_cons, Bool.and_eq_true, decide_eq_true_eq] at ih ⊢
      rw [ih, List.pairwise_cons (a := a)]
      constructor
      · rintro ⟨h1, h2⟩
        refine ⟨?_, h2⟩
        intro c hc
        rcases List.mem_cons.1 hc with rfl | hc
        · exact h1
        · exact hr _ _ _ h1 ((List.pairwise_cons.1 h2).1 c hc)
      · rintro ⟨h1, h2⟩
        exact ⟨h1 b (by simp), h2⟩

theorem sameSign_iff (x : List ℚ) : sameSign x = true ↔ x.Pairwise (· < ·) ∨ x.Pairwise (· > ·) ∨ x.Pairwise (· = ·) := by
  unfold sameSign
  rw [Bool.or_eq_true, Bool.or_eq_true, or_assoc]
  refine or_congr (chain_zip (· < ·) (fun _ _ _ => lt_trans) x) (or_congr ?_ (chain_zip (· = ·) (fun _ _ _ => Eq.trans) x))
  exact chain_zip (fun a b => b < a) (fun a b c h1 h2 => lt_trans h2 h1) x

theorem head_le (x : List ℚ) (hx : x.Pairwise (· ≤ ·)) (hne : x ≠ []) : ∀ u ∈ x, x.headD 0 ≤ u := by
  cases x with
  | nil => exact absurd rfl hne
  | cons a t =>
    intro u hu
    rcases List.mem_cons.1 hu with rfl | hu
    · exact le_refl _
    · exact (List.pairwise_cons.1 hx).1 u hu

theorem le_last (x : List ℚ) (hx : x.Pairwise (· ≤ ·)) (hne : x ≠ []) : ∀ u ∈ x, u ≤ x.getLastD 0 := by
  intro u hu
  have h1 : x.getLastD 0 = x.getLast hne := by
    rw [List.getLastD_eq_getLast?, List.getLast?_eq_some_getLast hne]; rfl
  rw [h1]
  rw [← List.dropLast_append_getLast hne] at hu hx
  rcases List.mem_append.1 hu with h | h
  · exact (List.pairwise_append.1 hx).2.2 u h _ (by simp)
  · simp at h; rw [h]

theorem headD_mem (x : List ℚ) (hne : x ≠ []) : x.headD 0 ∈ x := by
  cases x with
  | nil => exact absurd rfl hne
  | cons a t => simp

theorem lastD_mem (x : List ℚ) (hne : x ≠ []) : x.getLastD 0 ∈ x := by
  rw [List.getLastD_eq_getLast?, List.getLast?_eq_some_getLast hne]; exact List.getLast_mem hne

/-- The checks after the arrays have been put into ascending (or constant) order. -/
def tailROI (simps : List ℚ → List ℚ → ℚ) (x' y' xmin xmax : List ℚ) : Py ℚ :=
  if xmin.length ≠ xmax.length then .error .valueError
  else if (List.zip xmin xmax).any (fun p => p.2 ≤ p.1) then .error .valueError
  else if xmin.any (fun v => v < x'.headD 0) then .error .valueError
  else if xmax.any (fun v => x'.getLastD 0 < v) then .error .valueError
  else .ok (((List.zip xmin xmax).map (fun p => simps (region x' y' p.1 p.2).1 (region x' y' p.1 p.2).2)).sum)

theorem integrateROI_eq (simps : List ℚ → List ℚ → ℚ) (x y xmin xmax : List ℚ) (h2 : 2 ≤ x.length) :
    integrateROI simps x y xmin xmax = if x.length ≠ y.length then .error .valueError else if sameSign x = false then .error .valueError
      else if x.getD 1 0 < x.getD 0 0 then tailROI simps x.reverse y.reverse xmin xmax else tailROI simps x y xmin xmax := by
  unfold integrateROI
  by_cases h1 : x.length ≠ y.length
  · rw [if_pos h1, if_pos h1]
  · rw [if_neg h1, if_neg h1, if_neg (by omega)]
    by_cases hs : sameSign x = false
    · rw [if_pos hs, if_pos hs]
    · rw [if_neg hs, if_neg hs]
      by_cases hd : x.getD 1 0 < x.getD 0 0
      · simp only [if_pos hd, tailROI]
      · simp only [if_neg hd, tailROI]

theorem tailROI_error (simps : List ℚ → List ℚ → ℚ) (x y xmin xmax : List ℚ) (hx : x.Pairwise (· ≤ ·)) (hne : x ≠ []) :
    (∀ err, tailROI simps x y xmin xmax = .error err → err = .valueError) ∧
    ((∃ err, tailROI simps x y xmin xmax = .error err) ↔ xmin.length ≠ xmax.length ∨ (∃ p ∈ List.zip xmin xmax, p.2 ≤ p.1) ∨
      (∃ v ∈ xmin, ∀ u ∈ x, v < u) ∨ (∃ v ∈ xmax, ∀ u ∈ x, u < v)) := by
  have e3 : (xmin.any (fun v => v < x.headD 0)) = true ↔ ∃ v ∈ xmin, ∀ u ∈ x, v < u := by
    rw [List.any_eq_true]
    simp only [decide_eq_true_eq]
    exact exists_congr (fun v => and_congr_right (fun _ => ⟨fun h u hu => lt_of_lt_of_le h (head_le x hx hne u hu), fun h => h _ (headD_mem x hne)⟩))
  have e4 : (xmax.any (fun v => x.getLastD 0 < v)) = true ↔ ∃ v ∈ xmax, ∀ u ∈ x, u < v := by
    rw [List.any_eq_true]
    simp only [decide_eq_true_eq]
    exact exists_congr (fun v => and_congr_right (fun _ => ⟨fun h u hu => lt_of_le_of_lt (le_last x hx hne u hu) h, fun h => h _ (lastD_mem x hne)⟩))
  have e2 : ((List.zip xmin xmax).any (fun p => p.2 ≤ p.1)) = true ↔ ∃ p ∈ List.zip xmin xmax, p.2 ≤ p.1 := by
    rw [List.any_eq_true]; simp only [decide_eq_true_eq]
  unfold tailROI
  rw [← e2, ← e3, ← e4]
  generalize ((List.zip xmin xmax).any (fun p => p.2 ≤ p.1)) = A
  generalize (xmin.any (fun v => v < x.headD 0)) = B
  generalize (xmax.any (fun v => x.getLastD 0 < v)) = C
  by_cases h1 : xmin.length ≠ xmax.length
  · rw [if_pos h1]
    exact ⟨fun err h => by injection h with h; exact h.symm, fun _ => Or.inl h1, fun _ => ⟨_, rfl⟩⟩
  rw [if_neg h1]
  cases A
  · rw [if_neg (by simp)]
    cases B
    · rw [if_neg (by simp)]
      cases C
      · rw [if_neg (by simp)]
        refine ⟨fun err h => (by cases h), ?_⟩
        constructor
        · rintro ⟨err, h⟩; cases h
        · rintro (h | h | h | h)
          · exact absurd h h1
          · cases h
          · cases h
          · cases h
      · exact ⟨fun err h => by injection h with h; exact h.symm, fun _ => by simp, fun _ => ⟨_, rfl⟩⟩
    · exact ⟨fun err h => by injection h with h; exact h.symm, fun _ => by simp, fun _ => ⟨_, rfl⟩⟩
  · exact ⟨fun err h => by injection h with h; exact h.symm, fun _ => by simp, fun _ => ⟨_, rfl⟩⟩

/-- For at least two samples and at least one region, integrate_ROI raises exactly in the documented cases, and then
ValueError. -/
theorem C58_errors_partial (simps : List ℚ → List ℚ → ℚ) (x y xmin xmax : List ℚ) (h2 : 2 ≤ x.length) (hr : xmin ≠ []) :
    (∀ err, integrateROI simps x y xmin xmax = .error err → err = .valueError) ∧
    ((∃ err, integrateROI simps x y xmin xmax = .error err) ↔ Spec.BadROI x y xmin xmax) := by
  rw [integrateROI_eq simps x y xmin xmax h2]
  unfold Spec.BadROI
  by_cases h1 : x.length ≠ y.length
  · rw [if_pos h1]
    exact ⟨fun err h => by injection h with h; exact h.symm, by simp [h1]⟩
  rw [if_neg h1]
  by_cases hs : sameSign x = false
  · rw [if_pos hs]
    have hns : ¬ (x.Pairwise (· < ·) ∨ x.Pairwise (· > ·) ∨ x.Pairwise (· = ·)) := by
      rw [← sameSign_iff, hs]; simp
    refine ⟨fun err h => by injection h with h; exact h.symm, ?_⟩
    refine ⟨fun _ => Or.inr (Or.inl (fun h => hns (h.elim Or.inl (fun h => Or.inr (Or.inl h))))), fun _ => ⟨_, rfl⟩⟩
  rw [if_neg hs]
  have hs' := (sameSign_iff x).1 (by simpa using hs)
  obtain ⟨a, b, t, rfl⟩ : ∃ a b t, x = a :: b :: t := by
    cases x with
    | nil => simp at h2
    | cons a t => cases t with
      | nil => simp at h2
      | cons b t => exact ⟨a, b, t, rfl⟩
  simp only [List.getD_cons_zero, List.getD_cons_succ]
  have hclean : ∀ P : Prop, (¬ ((a :: b :: t).Pairwise (· < ·) ∨ (a :: b :: t).Pairwise (· > ·)) → P) →
      (((a :: b :: t).length ≠ y.length ∨ ¬ ((a :: b :: t).Pairwise (· < ·) ∨ (a :: b :: t).Pairwise (· > ·)) ∨ P) ↔ P) := by
    intro P hP
    constructor
    · rintro (h | h | h)
      · exact absurd h h1
      · exact hP h
      · exact h
    · exact fun h => Or.inr (Or.inr h)
  rcases hs' with h | h | h
  · have hab : a < b := (List.pairwise_cons.1 h).1 b (by simp)
    rw [if_neg (not_lt.2 hab.le)]
    have := tailROI_error simps (a :: b :: t) y xmin xmax (h.imp le_of_lt) (by simp)
    refine ⟨this.1, this.2.trans (hclean _ (fun h' => absurd (Or.inl h) h')).symm⟩
  · have hab : b < a := (List.pairwise_cons.1 h).1 b (by simp)
    rw [if_pos hab]
    have hrev : (a :: b :: t).reverse.Pairwise (· ≤ ·) := by
      rw [List.pairwise_reverse]; exact h.imp le_of_lt
    have := tailROI_error simps (a :: b :: t).reverse y.reverse xmin xmax hrev (by simp)
    simp only [List.mem_reverse] at this
    refine ⟨this.1, this.2.trans (hclean _ (fun h' => absurd (Or.inr h) h')).symm⟩
  · have hab : a = b := (List.pairwise_cons.1 h).1 b (by simp)
    rw [if_neg (by rw [hab]; exact lt_irrefl _)]
    have := tailROI_error simps (a :: b :: t) y xmin xmax (h.imp le_of_eq) (by simp)
    refine ⟨this.1, this.2.trans (hclean _ (fun _ => ?_)).symm⟩
    by_cases hl : xmin.length ≠ xmax.length
    · exact Or.inl hl
    · have hconst : ∀ u ∈ a :: b :: t, u = a := by
        intro u hu
        rcases List.mem_cons.1 hu with rfl | hu
        · rfl
        · exact ((List.pairwise_cons.1 h).1 u hu).symm
      obtain ⟨lo, ls, rfl⟩ := List.exists_cons_of_ne_nil hr
      obtain ⟨hi, his, rfl⟩ : ∃ hi his, xmax = hi :: his := by
        cases xmax with
        | nil => simp at hl
        | cons c d => exact ⟨c, d, rfl⟩
      right
      by_cases hle : hi ≤ lo
      · exact Or.inl ⟨(lo, hi), by simp, hle⟩
      · right
        by_cases hlo : lo < a
        · exact Or.inl ⟨lo, by simp, fun u hu => by rw [hconst u hu]; exact hlo⟩
        · exact Or.inr ⟨hi, by simp, fun u hu => by rw [hconst u hu]; exact lt_of_le_of_lt (not_lt.1 hlo) (not_le.1 hle)⟩

/-- A single sample raises IndexError. -/
theorem C58_single_sample_refuted (simps : List ℚ → List ℚ → ℚ) (a b : ℚ) (xmin xmax : List ℚ) :
    integrateROI simps [a] [b] xmin xmax = .error .indexError := by
  unfold integrateROI
  rw [if_neg (by simp), if_pos (by simp)]

/-- Descending samples give the result of the reversed data. -/
theorem C58_descending (simps : List ℚ → List ℚ → ℚ) (x y xmin xmax : List ℚ) (h2 : 2 ≤ x.length) (hx : x.Pairwise (· > ·)) :
    integrateROI simps x y xmin xmax = integrateROI simps x.reverse y.reverse xmin xmax := by
  rw [integrateROI_eq simps x y xmin xmax h2, integrateROI_eq simps x.reverse y.reverse xmin xmax (by simpa using h2)]
  simp only [List.length_reverse]
  by_cases h1 : x.length ≠ y.length
  · rw [if_pos h1, if_pos h1]
  have hr : x.reverse.Pairwise (· < ·) := by rw [List.pairwise_reverse]; exact hx
  rw [if_neg h1, if_neg h1, if_neg (c := sameSign x = false) (by rw [(sameSign_iff x).2 (Or.inr (Or.inl hx))]; simp),
    if_neg (c := sameSign x.reverse = false) (by rw [(sameSign_iff x.reverse).2 (Or.inl hr)]; simp)]
  have e1 : x.getD 1 0 < x.getD 0 0 := by
    match x, h2, hx with
    | a :: b :: t, _, hx => exact (List.pairwise_cons.1 hx).1 b (by simp)
  have e2 : ¬ x.reverse.getD 1 0 < x.reverse.getD 0 0 := by
    have h2' : 2 ≤ x.reverse.length := by simpa using h2
    match x.reverse, h2', hr with
    | a :: b :: t, _, hr => exact not_lt.2 ((List.pairwise_cons.1 hr).1 b (by simp)).le
  rw [if_pos e1, if_neg e2]

/-! ## C99 the integrated samples -/

theorem drop_countP {β : Type} (l : List (ℚ × β)) (lo : ℚ) (h : l.Pairwise (fun p q => p.1 < q.1)) :
    l.drop ((l.map Prod.fst).countP (· < lo)) = l.filter (fun p => lo ≤ p.1) := by
  induction l with
  | nil => rfl
  | cons a t ih =>
    have ht := (List.pairwise_cons.1 h).2
    rw [List.map_cons, List.countP_cons, List.filter_cons]
    by_cases ha : a.1 < lo
    · simp only [ha, decide_true, if_true, not_le.2 ha, decide_false, Bool.false_eq_true, if_false]
      rw [List.drop_succ_cons, ih ht]
    · have hz : (t.map Prod.fst).countP (· < lo) = 0 := by
        rw [List.countP_eq_zero]
        intro v hv
        obtain ⟨q, hq, rfl⟩ := List.mem_map.1 hv
        simp only [decide_eq_true_eq]
        have := (List.pairwise_cons.1 h).1 q hq
        linarith
      have ha' := not_lt.1 ha
      simp only [ha, decide_false, Bool.false_eq_true, if_false, ha', decide_true, if_true, hz]
      rw [show 0 + 0 = 0 from rfl, List.drop_zero, List.filter_eq_self.2]
      intro q hq
      simp only [decide_eq_true_eq]
      have := (List.pairwise_cons.1 h).1 q hq
      linarith

theorem take_countP {β : Type} (l : List (ℚ × β)) (hi : ℚ) (h : l.Pairwise (fun p q => p.1 < q.1)) (hm : hi ∈ l.map Prod.fst) :
    l.take ((l.map Prod.fst).countP (· < hi) + 1) = l.filter (fun p => p.1 ≤ hi) := by
  induction l with
  | nil => rfl
  | cons a t ih =>
    have ht := (List.pairwise_cons.1 h).2
    rw [List.map_cons, List.countP_cons, List.filter_cons]
    rw [List.map_cons, List.mem_cons] at hm
    rcases hm with hm | hm
    · have hz : (t.map Prod.fst).countP (· < hi) = 0 := by
        rw [List.countP_eq_zero]
        intro v hv
        obtain ⟨q, hq, rfl⟩ := List.mem_map.1 hv
        simp only [decide_eq_true_eq]
        have := (List.pairwise_cons.1 h).1 q hq
        linarith
      have h1 : ¬ a.1 < hi := by rw [hm]; exact lt_irrefl _
      have h2 : a.1 ≤ hi := le_of_eq hm.symm
      simp only [hz, h1, decide_false, Bool.false_eq_true, if_false, h2, decide_true, if_true]
      rw [show 0 + 0 + 1 = 1 from rfl, List.take_succ_cons, List.take_zero, List.filter_eq_nil_iff.2]
      intro q hq
      simp only [decide_eq_true_eq, not_le]
      rw [hm]
      exact (List.pairwise_cons.1 h).1 q hq
    · obtain ⟨q, hq, hqe⟩ := List.mem_map.1 hm
      have h1 : a.1 < hi := by rw [← hqe]; exact (List.pairwise_cons.1 h).1 q hq
      simp only [h1, decide_true, if_true, h1.le]
      rw [List.take_succ_cons, ih ht hm]

theorem zip_fst_snd {β : Type} (l : List (ℚ × β)) (a b : ℕ) : List.zip (((l.map Prod.fst).take b).drop a) (((l.map Prod.snd).take b).drop a) = (l.take b).drop a := by
  rw [← List.map_take, ← List.map_take, ← List.map_drop, ← List.map_drop]
  induction (l.take b).drop a with
  | nil => rfl
  | cons p t ih => simp [ih]

/-- When the upper limit is a sampling point, the integrated samples of a region are exactly those within its limits. -/
theorem C99_region_samples_partial (x y : List ℚ) (hxy : x.length = y.length) (hx : x.Pairwise (· < ·)) (lo hi : ℚ) (hlt : lo < hi) (hm : hi ∈ x) :
    List.zip (region x y lo hi).2 (region x y lo hi).1 = (List.zip x y).filter (fun p => lo ≤ p.1 ∧ p.1 ≤ hi) := by
  set l := List.zip x y with hl
  have e1 : l.map Prod.fst = x := List.map_fst_zip (by omega)
  have e2 : l.map Prod.snd = y := List.map_snd_zip (by omega)
  have hp : l.Pairwise (fun p q => p.1 < q.1) := by
    rw [← e1, List.pairwise_map] at hx
    exact hx
  unfold region Np.searchsortedLeft
  simp only
  have key := zip_fst_snd l (x.countP (· < lo)) (x.countP (· < hi) + 1)
  rw [e1, e2] at key
  rw [key]
  have ht := take_countP l hi hp (by rw [e1]; exact hm)
  rw [e1] at ht
  rw [ht]
  have hc : x.countP (· < lo) = ((l.filter (fun p => p.1 ≤ hi)).map Prod.fst).countP (· < lo) := by
    rw [← e1, List.countP_map, List.countP_map, List.countP_filter]
    apply List.countP_congr
    intro p _
    simp only [Function.comp, decide_eq_true_eq, Bool.and_eq_true]
    constructor
    · intro h; exact ⟨h, by linarith⟩
    · exact fun h => h.1
  rw [hc, drop_countP _ lo (hp.sublist List.filter_sublist), List.filter_filter]
  apply List.filter_congr
  intro p _
  simp

/-- When the upper limit is not a sampling point, one sample beyond it is integrated as well. -/
theorem C99_beyond_limit_refuted (x : List ℚ) (lo hi : ℚ) (hx : x.Pairwise (· < ·)) (y : List ℚ) (u : ℚ) (hu : u ∈ x) (hhi : hi < u) (hlo : lo ≤ hi)
    (hnext : ∀ v ∈ x, hi ≤ v → u ≤ v) : u ∈ (region x y lo hi).2 := by
  obtain ⟨k, hk, hku⟩ := List.mem_iff_getElem.1 hu
  have hc : x.countP (· < hi) = k := by
    have h1 : x = x.take k ++ x.drop k := (List.take_append_drop k x).symm
    rw [h1, List.countP_append]
    have ha : (x.take k).countP (· < hi) = k := by
      have : (x.take k).countP (· < hi) = (x.take k).length := by
        rw [List.countP_eq_length]
        intro v hv
        simp only [decide_eq_true_eq]
        by_contra hcon
        obtain ⟨i, hi', hiv⟩ := List.mem_iff_getElem.1 hv
        rw [List.length_take] at hi'
        rw [List.getElem_take] at hiv
        have h2 : x[i]'(by omega) < x[k] := List.pairwise_iff_getElem.1 hx i k (by omega) hk (by omega)
        have := hnext v (List.mem_of_mem_take hv) (not_lt.1 hcon)
        rw [hiv, hku] at h2
        linarith
      rw [this, List.length_take]; omega
    have hb : (x.drop k).countP (· < hi) = 0 := by
      rw [List.countP_eq_zero]
      intro v hv
      simp only [decide_eq_true_eq, not_lt]
      obtain ⟨i, hi', hiv⟩ := List.mem_iff_getElem.1 hv
      rw [List.getElem_drop] at hiv
      rw [List.length_drop] at hi'
      have : x[k] ≤ x[k + i]'(by omega) := by
        rcases Nat.eq_zero_or_pos i with rfl | hpos
        · exact le_refl _
        · exact (List.pairwise_iff_getElem.1 hx k (k + i) hk (by omega) (by omega)).le
      rw [hiv, hku] at this
      linarith
    rw [ha, hb]; rfl
  have hc2 : x.countP (· < lo) ≤ k := by
    rw [← hc]
    apply List.countP_mono_left
    intro v _
    simp only [decide_eq_true_eq]
    intro h; linarith
  unfold region Np.searchsortedLeft
  simp only
  rw [hc, List.mem_iff_getElem?]
  refine ⟨k - x.countP (· < lo), ?_⟩
  rw [List.getElem?_drop, List.getElem?_take, if_pos (by omega), show x.countP (· < lo) + (k - x.countP (· < lo)) = k by omega,
    List.getElem?_eq_getElem hk, hku]

/-- The result is the sum, over the regions, of Simpson's rule on the region's samples. -/
theorem C99_sum_over_regions (simps : List ℚ → List ℚ → ℚ) (x y xmin xmax : List ℚ) (v : ℚ) (h2 : 2 ≤ x.length) (hx : x.Pairwise (· < ·))
    (h : integrateROI simps x y xmin xmax = .ok v) :
    v = ((List.zip xmin xmax).map (fun p => simps (region x y p.1 p.2).1 (region x y p.1 p.2).2)).sum := by
  rw [integrateROI_eq simps x y xmin xmax h2] at h
  split_ifs at h with h3 h4 h5
  · exact absurd h5 (by
      match x, h2, hx with
      | a :: b :: t, _, hx => exact not_lt.2 ((List.pairwise_cons.1 hx).1 b (by simp)).le)
  · unfold tailROI at h
    split_ifs at h
    injection h with h
    exact h.symm

/-- Simpson's rule stand-in for the instances: the sum of the values. -/
def exSimps (y _x : List ℚ) : ℚ := y.sum

example : integrateROI exSimps [0, 1, 2, 3, 4] [1, 2, 3, 4, 5] [1] [3] = .ok 9 ∧ integrateROI exSimps [0, 1, 2, 3, 4] [1, 2, 3, 4, 5] [1] [5/2] = .ok 9 ∧
    integrateROI exSimps [4, 3, 2, 1, 0] [5, 4, 3, 2, 1] [1] [3] = .ok 9 ∧ integrateROI exSimps [0, 1, 1, 3] [1, 2, 3, 4] [1] [3] = .error .valueError := by
  decide +kernel

/-! ## C59 integrate_ROI_spectrum -/

/-- What the code computes: integrate_ROI on the right edges of the bins. -/
theorem C59_right_edges_partial (simps : List ℚ → List ℚ → ℚ) (edges counts xmin xmax : List ℚ) :
    integrateROISpectrum simps edges counts xmin xmax = integrateROI simps edges.tail counts xmin xmax := by
  unfold integrateROISpectrum
  congr 1
  cases edges with
  | nil => rfl
  | cons a t =>
    simp only [List.tail_cons]
    induction t generalizing a with
    | nil => rfl
    | cons b t ih =>
      simp only [List.dropLast_cons_cons, List.zipWith_cons_cons]
      rw [ih b]
      congr 1
      ring

/-- Bin centres 1, 3, 5 lie in the data; limits 1..3 contain the first two centres, but the call raises; limits 2..4
contain the centre of the second bin only, but the first two bins are integrated. -/
theorem C59_centres_refuted :
    (∀ simps, integrateROISpectrum simps [0, 2, 4, 6] [10, 20, 30] [1] [3] = .error .valueError) ∧
    integrateROISpectrum exSimps [0, 2, 4, 6] [10, 20, 30] [2] [4] = .ok 30 ∧
    (List.zipWith (fun a b => (a + b) / 2) ([0, 2, 4, 6] : List ℚ).dropLast ([0, 2, 4, 6] : List ℚ).tail).filter (fun c => 2 ≤ c ∧ c ≤ 4) = [3] := by
  refine ⟨fun simps => ?_, by decide +kernel, by decide +kernel⟩
  rw [C59_right_edges_partial, integrateROI_eq _ _ _ _ _ (by decide)]
  rw [if_neg (by decide), if_neg (by decide +kernel), if_neg (by decide +kernel)]
  unfold tailROI
  rw [if_neg (by decide), if_neg (by decide +kernel), if_pos (by decide +kernel)]

end Verif.Feature
