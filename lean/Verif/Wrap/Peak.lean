/- C222: peak heights of integer data. -/
import Verif.Wrap.Model
import Verif.Feature.Props

namespace Verif.Wrap
open Verif

/-! ### Model -/

/-- `np.ptp` of an array of integer type `t`: the difference is computed in the type (skbeam/core/feature.py:289). -/
def ptpI (t : IntType) (l : List ℤ) : Py ℤ :=
  match Feature.ptp l with
  | .error e => .error e
  | .ok h => .ok (t.wrap h)

/-- `filter_peak_height`, feature.py 257-293, for data of integer type `t`; as `Feature.filterPeakHeight`. -/
def filterPeakHeightI (t : IntType) (y : List ℤ) (thresh : ℤ) (window : ℕ) : List ℕ → Py (List ℕ)
  | [] => .ok []
  | ind :: rest =>
    match ptpI t (Feature.windowSlice y ind window) with
    | .error e => .error e
    | .ok h =>
      match filterPeakHeightI t y thresh window rest with
      | .error e => .error e
      | .ok out => .ok (if h > thresh then ind :: out else out)

/-! ## C222 -/

open Classical in
/-- C222, what comes out: for a threshold of at least 0 and data of any integer type, exactly the candidates are kept whose
peak-to-peak height exceeds the threshold and does not exceed the largest number of the type. -/
theorem C222_kept (t : IntType) (y : List ℤ) (hy : ∀ v ∈ y, t.lo ≤ v ∧ v ≤ t.hi) (thresh : ℤ) (h0 : 0 ≤ thresh) (window : ℕ) (cands : List ℕ)
    (hc : ∀ c ∈ cands, c < y.length) :
    filterPeakHeightI t y thresh window cands =
      .ok (cands.filter (fun c => decide (Feature.Spec.Tall y window thresh c ∧ ¬ Feature.Spec.Tall y window t.hi c))) := by
  induction cands with
  | nil => rfl
  | cons c l ih =>
    have hcl := hc c (by simp)
    have hmem : y[c] ∈ Feature.windowSlice y c window := (Feature.mem_window y c window _).2 ⟨c, by omega, by omega, List.getElem?_eq_getElem hcl⟩
    have key : ∃ p, Feature.ptp (Feature.windowSlice y c window) = .ok p ∧ (∀ s, s < p ↔ Feature.Spec.Tall y window s c) ∧ 0 ≤ p ∧ p ≤ 2 ^ t.bits - 1 := by
      have hwin : ∀ v ∈ Feature.windowSlice y c window, t.lo ≤ v ∧ v ≤ t.hi := by
        intro v hv
        obtain ⟨i, _, _, e⟩ := (Feature.mem_window y c window v).1 hv
        exact hy v (List.mem_of_getElem? e)
      have hmw : ∀ v, v ∈ Feature.windowSlice y c window ↔ ∃ i, c ≤ i + window ∧ i ≤ c + window ∧ y[i]? = some v := Feature.mem_window y c window
      revert hwin hmw hmem
      generalize Feature.windowSlice y c window = w
      intro hmem hwin hmw
      cases w with
      | nil => simp at hmem
      | cons a r =>
        obtain ⟨m1, m2⟩ := Feature.foldl_max_mem r a
        obtain ⟨n1, n2⟩ := Feature.foldl_min_mem r a
        refine ⟨_, rfl, fun s => ⟨fun hs => ?_, ?_⟩, ?_, ?_⟩
        · obtain ⟨i, i1, i2, i3⟩ := (hmw _).1 m1
          obtain ⟨j, j1, j2, j3⟩ := (hmw _).1 n1
          exact ⟨i, j, _, _, i1, i2, i3, j1, j2, j3, hs⟩
        · rintro ⟨i, j, u, v, i1, i2, i3, j1, j2, j3, huv⟩
          have := m2 u ((hmw u).2 ⟨i, i1, i2, i3⟩)
          have := n2 v ((hmw v).2 ⟨j, j1, j2, j3⟩)
          linarith
        · have := m2 a (by simp)
          have := n2 a (by simp)
          linarith
        · have h1 := (hwin _ m1).2
          have h2 := (hwin _ n1).1
          have h3 := hi_eq t
          linarith
    obtain ⟨p, e, hp, p0, p1⟩ := key
    have hiff : thresh < t.wrap p ↔ Feature.Spec.Tall y window thresh c ∧ ¬ Feature.Spec.Tall y window t.hi c := by
      rw [← hp, ← hp]
      have hlo : t.lo ≤ 0 := by
        have hq : (1 : ℤ) ≤ 2 ^ (t.bits - 1) := one_le_pow₀ (by norm_num)
        unfold IntType.lo
        split <;> linarith
      have hhi : 0 ≤ t.hi := by
        have hq : (1 : ℤ) ≤ 2 ^ (t.bits - 1) := one_le_pow₀ (by norm_num)
        have hq2 : (1 : ℤ) ≤ 2 ^ t.bits := one_le_pow₀ (by norm_num)
        unfold IntType.hi
        split <;> linarith
      by_cases hle : p ≤ t.hi
      · rw [wrap_of_holds t p ⟨by linarith, hle⟩]
        constructor
        · intro h; exact ⟨h, by linarith⟩
        · exact fun h => h.1
      · have h3 := hi_eq t
        have : t.wrap p = p - 2 ^ t.bits := by
          rw [wrap_iff]
          refine ⟨⟨by linarith, by linarith⟩, ?_⟩
          rw [Int.modEq_iff_dvd]
          exact ⟨1, by ring⟩
        rw [this]
        constructor
        · intro h; linarith
        · rintro ⟨_, h⟩; exact absurd (lt_of_not_ge hle) h
    rw [filterPeakHeightI, ptpI, e]
    simp only [ih (fun c' h' => hc c' (by simp [h'])), gt_iff_lt, List.filter_cons]
    by_cases h : thresh < t.wrap p
    · rw [if_pos h, if_pos (by simpa using hiff.1 h)]
    · rw [if_neg h, if_neg]
      intro hd
      exact h (hiff.2 (by simpa using hd))

open Classical in
/-- C222, the part that holds: for unsigned data, exactly the candidates whose peak-to-peak height exceeds the threshold are
kept.  Missing: signed data, see `C222_signed_refuted`. -/
theorem C222_unsigned_partial (b : ℕ) (hb : 0 < b) (y : List ℤ) (hy : ∀ v ∈ y, 0 ≤ v ∧ v < 2 ^ b) (thresh : ℤ) (h0 : 0 ≤ thresh) (window : ℕ)
    (cands : List ℕ) (hc : ∀ c ∈ cands, c < y.length) :
    filterPeakHeightI (uint b hb) y thresh window cands = .ok (cands.filter (fun c => decide (Feature.Spec.Tall y window thresh c))) := by
  have hy' : ∀ v ∈ y, (uint b hb).lo ≤ v ∧ v ≤ (uint b hb).hi := by
    intro v hv
    have := hy v hv
    simp only [IntType.lo, IntType.hi, uint]
    simp
    omega
  rw [C222_kept (uint b hb) y hy' thresh h0 window cands hc]
  congr 2
  funext c
  have : ¬ Feature.Spec.Tall y window (uint b hb).hi c := by
    rintro ⟨i, j, u, v, _, _, i3, _, _, j3, huv⟩
    have h1 := (hy' u (List.mem_of_getElem? i3)).2
    have h2 := (hy v (List.mem_of_getElem? j3)).1
    linarith
  simp [this]

/-- C222 is false for signed data, of every width and at every threshold of at least 0: a candidate whose window has a
peak-to-peak height of half the range of the type or more is dropped.  The tallest peaks are the ones that go missing. -/
theorem C222_signed_refuted (b : ℕ) (hb : 0 < b) (y : List ℤ) (hy : ∀ v ∈ y, -2 ^ (b - 1) ≤ v ∧ v < 2 ^ (b - 1)) (thresh : ℤ) (h0 : 0 ≤ thresh) (window : ℕ)
    (cands : List ℕ) (hc : ∀ c ∈ cands, c < y.length) :
    ∃ out, filterPeakHeightI (sint b hb) y thresh window cands = .ok out ∧
      ∀ c ∈ out, ∀ i j u v, c ≤ i + window → i ≤ c + window → y[i]? = some u → c ≤ j + window → j ≤ c + window → y[j]? = some v → u - v < 2 ^ (b - 1) := by
  have hy' : ∀ v ∈ y, (sint b hb).lo ≤ v ∧ v ≤ (sint b hb).hi := by
    intro v hv
    have := hy v hv
    simp only [IntType.lo, IntType.hi, sint, if_true]
    omega
  refine ⟨_, C222_kept (sint b hb) y hy' thresh h0 window cands hc, ?_⟩
  intro c hcm i j u v i1 i2 i3 j1 j2 j3
  rw [List.mem_filter] at hcm
  have h := hcm.2
  simp only [decide_eq_true_eq] at h
  by_contra hge
  refine h.2 ⟨i, j, u, v, i1, i2, i3, j1, j2, j3, ?_⟩
  simp only [IntType.hi, sint, if_true]
  omega

-- an 8-bit peak from -100 to 100 is dropped at threshold 10, a peak from 0 to 20 is kept
example : filterPeakHeightI (sint 8) [-100, 100, -100, 0, 0, 20, 0] 10 1 [1, 5] = .ok [5] ∧
    Feature.filterPeakHeight ([-100, 100, -100, 0, 0, 20, 0] : List ℤ) 10 1 [1, 5] = .ok [1, 5] := by decide +kernel

end Verif.Wrap
