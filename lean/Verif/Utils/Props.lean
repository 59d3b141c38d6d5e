/- Properties C01–C08. -/
import Verif.Utils.Lemmas

namespace Verif.Utils
open Verif

/-! ## C01 multi_tau_lags -/

/-- For at least one level and an even number of channels: the returned total is the length of the lag
array, the array is strictly increasing, entry j of level 1 is j, entry j of level i ≥ 2 is
(channels/2+j)·2^(i-1), and the per-level dictionary has keys 1..levels and concatenates to the array. -/
theorem C01_lag_table (levels channels : ℕ) (hl : 1 ≤ levels) (he : channels % 2 = 0) :
    ∃ tot lags dict, multiTauLags levels channels = .ok (tot, lags, dict) ∧
      lags.length = tot ∧ lags.Pairwise (· < ·) ∧
      (∀ j < channels, lags[j]? = some j) ∧
      (∀ i, 2 ≤ i → i ≤ levels → ∀ j < channels / 2,
        lags[channels + (i - 2) * (channels / 2) + j]? = some ((channels / 2 + j) * 2 ^ (i - 1))) ∧
      dict.map Prod.fst = (List.range levels).map (· + 1) ∧
      (dict.map Prod.snd).flatten = lags := by
  obtain ⟨h, rfl⟩ : ∃ h, channels = 2 * h := ⟨channels / 2, by omega⟩
  obtain ⟨n, rfl⟩ : ∃ n, levels = n + 1 := ⟨levels - 1, by omega⟩
  have hh : 2 * h / 2 = h := by omega
  set level := fun i : ℕ => (List.range h).map (fun j => (h + j) * 2 ^ (i - 1)) with hlev
  have hlen : ∀ a ∈ List.range' 2 n, (level a).length = h := by intro a _; simp [level]
  refine ⟨(n + 1 + 1) * (2 * h) / 2, List.range (2 * h) ++ (List.range' 2 n).flatMap level,
    (1, List.range (2 * h)) :: (List.range' 2 n).map (fun i => (i, level i)), ?_, ?_, ?_, ?_, ?_, ?_, ?_⟩
  · simp [multiTauLags, hh, hlev]
  · rw [List.length_append, length_flatMap_const _ _ h hlen]
    have : (n + 1 + 1) * (2 * h) / 2 = (n + 1 + 1) * h := by
      rw [show (n + 1 + 1) * (2 * h) = 2 * ((n + 1 + 1) * h) by ring]; simp
    rw [this]; simp; ring
  · rw [List.pairwise_append]
    refine ⟨List.pairwise_lt_range, ?_, ?_⟩
    · rw [List.pairwise_flatMap]
      refine ⟨fun a ha => ?_, ?_⟩
      · simp only [level]
        rw [List.pairwise_map]
        refine List.pairwise_lt_range.imp (fun {x y} hxy => ?_)
        exact Nat.mul_lt_mul_of_pos_right (by omega) (by positivity)
      · refine List.Pairwise.imp_of_mem (R := (· < ·)) ?_ List.pairwise_lt_range'
        intro a b ha hb hab x hx y hy
        simp only [List.mem_range'_1] at ha hb
        simp only [level, List.mem_map, List.mem_range] at hx hy
        obtain ⟨j, hj, rfl⟩ := hx
        obtain ⟨k, hk, rfl⟩ := hy
        have e : 2 ^ (a - 1) * 2 ≤ 2 ^ (b - 1) := by
          rw [← pow_succ]; exact Nat.pow_le_pow_right (by norm_num) (by omega)
        have e2 : 0 < 2 ^ (a - 1) := by positivity
        calc (h + j) * 2 ^ (a - 1) < (2 * h) * 2 ^ (a - 1) := Nat.mul_lt_mul_of_pos_right (by omega) e2
          _ = h * (2 ^ (a - 1) * 2) := by ring
          _ ≤ h * 2 ^ (b - 1) := Nat.mul_le_mul_left _ e
          _ ≤ (h + k) * 2 ^ (b - 1) := Nat.mul_le_mul_right _ (by omega)
    · intro a ha b hb
      simp only [List.mem_range] at ha
      simp only [level, List.mem_flatMap, List.mem_map, List.mem_range, List.mem_range'_1] at hb
      obtain ⟨i, hi, j, hj, rfl⟩ := hb
      have e : 2 ^ 1 ≤ 2 ^ (i - 1) := Nat.pow_le_pow_right (by norm_num) (by omega)
      nlinarith
  · intro j hj
    rw [List.getElem?_append_left (by simpa using hj)]
    simp [hj]
  · intro i h2 hi j hj
    rw [hh] at hj ⊢
    rw [List.getElem?_append_right (by simp; omega)]
    have e : 2 * h + (i - 2) * h + j - (List.range (2 * h)).length = (i - 2) * h + j := by simp; omega
    rw [e, getElem?_flatMap_const _ _ h hlen _ _ hj]
    have e3 : (List.range' 2 n)[i - 2]? = some i := by
      rw [List.getElem?_range' (by omega)]; congr 1; omega
    rw [e3]
    simp [level, hj]
  · simp only [List.map_cons, List.map_map]
    rw [List.range_succ_eq_map]
    simp only [List.map_cons, List.map_map, zero_add, List.cons.injEq, true_and]
    rw [List.range'_eq_map_range]
    simp [Function.comp_def, List.map_inj_left, add_comm, add_left_comm]
  · simp [List.flatMap_def, Function.comp_def]

/-- An odd number of channels is rejected. -/
theorem C01_odd_rejected (levels channels : ℕ) (h : channels % 2 ≠ 0) :
    multiTauLags levels channels = .error .valueError := by
  simp [multiTauLags, h]

/-- Non-vacuity / sample: the table for 3 levels and 8 channels. -/
example : multiTauLags 3 8 =
    .ok (16, [0,1,2,3,4,5,6,7,8,10,12,14,16,20,24,28],
      [(1,[0,1,2,3,4,5,6,7]), (2,[8,10,12,14]), (3,[16,20,24,28])]) := by decide

/-- With zero levels the advertised total (channels/2) is *not* the length of the returned array: the
hypothesis `1 ≤ levels` of `C01_lag_table` is needed. -/
theorem C01_zero_levels_mismatch :
    ∃ tot lags dict, multiTauLags 0 8 = .ok (tot, lags, dict) ∧ lags.length ≠ tot :=
  ⟨4, List.range 8, [(1, List.range 8)], by decide, by decide⟩

/-! ## C02 geometric_series -/

/-- Whenever the loop ends, the result is the maximal run `first, first·r, …` whose later elements stay
below the number of images. -/
theorem C02_result (fuel : ℕ) (ratio n first : ℚ) (s : List ℚ)
    (h : geometricSeries fuel ratio n first = some s) :
    (∀ k < s.length, s[k]? = some (first * ratio ^ k)) ∧
    (∀ k, 1 ≤ k → k < s.length → first * ratio ^ k < n) ∧
    1 ≤ s.length ∧ n ≤ first * ratio ^ s.length := by
  unfold geometricSeries at h
  rw [Option.map_eq_some_iff] at h
  obtain ⟨r, hr, rfl⟩ := h
  obtain ⟨m, rfl, h2, h3⟩ := geomLoop_eq _ _ _ _ _ _ hr
  simp only [List.reverse_append, List.reverse_reverse, List.reverse_cons, List.reverse_nil, List.nil_append,
    List.length_append, List.length_cons, List.length_nil, List.length_map, List.length_range]
  refine ⟨?_, ?_, by omega, by rw [add_comm]; simpa using h3⟩
  · intro k hk
    cases k with
    | zero => simp
    | succ k => simp [show k < m by omega]
  · intro k h1 hk
    obtain ⟨k, rfl⟩ : ∃ k', k = k' + 1 := ⟨k - 1, by omega⟩
    exact h2 k (by omega)

/-- The documented bound "last value ≤ number of images" holds whenever the first term obeys it. -/
theorem C02_last_le (fuel : ℕ) (ratio n first : ℚ) (s : List ℚ)
    (h : geometricSeries fuel ratio n first = some s) (hf : first ≤ n) : ∀ x ∈ s, x ≤ n := by
  obtain ⟨h1, h2, _, _⟩ := C02_result fuel ratio n first s h
  intro x hx
  obtain ⟨k, hk, rfl⟩ := List.getElem_of_mem hx
  have e := h1 k hk
  rw [List.getElem?_eq_getElem hk] at e
  have e := Option.some.inj e
  rw [e]
  by_cases hk1 : 1 ≤ k
  · exact le_of_lt (h2 k hk1 hk)
  · have : k = 0 := by omega
    subst this; simpa using hf

/-- For ratio ≥ 2 and first term ≥ 1 the loop always ends. -/
theorem C02_terminates (ratio n first : ℚ) (hr : 2 ≤ ratio) (hf : 1 ≤ first) :
    ∃ fuel0, ∀ fuel, fuel0 ≤ fuel → ∃ s, geometricSeries fuel ratio n first = some s := by
  obtain ⟨m, hm⟩ := exists_nat_ge n
  refine ⟨m + 1, fun fuel hfu => ?_⟩
  have key : ¬ first * ratio ^ (m + 1) < n := by
    push Not
    have h1 : (m:ℚ) + 1 ≤ 2 ^ (m + 1) := by
      have : m + 1 < 2 ^ (m + 1) := Nat.lt_two_pow_self
      exact_mod_cast this.le
    have h2 : (2:ℚ) ^ (m + 1) ≤ ratio ^ (m + 1) := pow_le_pow_left₀ (by norm_num) hr _
    have h3 : (1:ℚ) * ratio ^ (m + 1) ≤ first * ratio ^ (m + 1) :=
      mul_le_mul_of_nonneg_right hf (by positivity)
    linarith
  obtain ⟨r, h⟩ := geomLoop_some_of ratio n m first [first] key fuel (by omega)
  exact ⟨r.reverse, by simp [geometricSeries, h]⟩

/-- For a positive first term below the number of images and 0 ≤ ratio ≤ 1 the loop never ends. -/
theorem C02_diverges (ratio n first : ℚ) (h0 : 0 ≤ ratio) (h1 : ratio ≤ 1) (hf : 0 ≤ first) (hn : first < n) :
    ∀ fuel, geometricSeries fuel ratio n first = none := by
  intro fuel
  unfold geometricSeries
  rw [geomLoop_none_of]; rfl
  intro k _
  have : first * ratio ^ (k + 1) ≤ first * 1 := mul_le_mul_of_nonneg_left (pow_le_one₀ h0 h1) hf
  linarith

example : geometricSeries 20 2 100 1 = some [1, 2, 4, 8, 16, 32, 64] := by decide +kernel
example : geometricSeries 20 3 100 1 = some [1, 3, 9, 27, 81] := by decide +kernel
/-- A term equal to the number of images is left out (the docstring says "less than or equal"). -/
example : geometricSeries 20 2 64 1 = some [1, 2, 4, 8, 16, 32] := by decide +kernel

/-! ## C03 bin_edges -/

/-- The documented acceptance condition. -/
def binEdgesValid (mn mx : Option ℚ) (nbins : Option ℤ) (step : Option ℚ) : Prop :=
  (match mn, mx, nbins, step with
    | some a, some b, some n, none => a < b ∧ 0 < n
    | some a, some b, none, some s => a < b ∧ 0 < s ∧ s ≤ b - a
    | some _, none, some n, some _ => 0 < n
    | none, some _, some n, some _ => 0 < n
    | _, _, _, _ => False)

theorem floor_pos_case (a b s : ℚ) (hs : 0 < s) (hle : s ≤ b - a) :
    1 ≤ ⌊(b - a) / s⌋ ∧ a + ⌊(b - a) / s⌋ * s ≤ b ∧ b < a + (⌊(b - a) / s⌋ + 1) * s := by
  have h1 : (⌊(b - a) / s⌋ : ℚ) ≤ (b - a) / s := Int.floor_le _
  have h2 : (b - a) / s < (⌊(b - a) / s⌋ : ℚ) + 1 := Int.lt_floor_add_one _
  rw [le_div_iff₀ hs] at h1
  rw [div_lt_iff₀ hs] at h2
  refine ⟨?_, by linarith, by linarith⟩
  rw [Int.le_floor]; push_cast; rw [le_div_iff₀ hs]; linarith

/-- `bin_edges` succeeds exactly on the valid argument combinations. -/
theorem C03_accepts_iff (mn mx : Option ℚ) (nbins : Option ℤ) (step : Option ℚ) :
    (∃ e, binEdges mn mx nbins step = .ok e) ↔ binEdgesValid mn mx nbins step := by
  rcases mn with _ | a <;> rcases mx with _ | b <;> rcases nbins with _ | n <;> rcases step with _ | s <;>
    simp [binEdges, badRange, badNbins, binEdgesCore, binEdgesValid, isSome01]
  · by_cases h : n ≤ 0 <;> simp [h] <;> omega
  · by_cases h : n ≤ 0 <;> simp [h] <;> omega
  · by_cases h : b ≤ a
    · simp [h]
    · simp only [h, if_false]
      push Not at h
      by_cases h1 : b - a < s
      · simp [h1]
      · simp only [h1, if_false]
        by_cases h2 : s = 0
        · simp [h2]
        · simp only [h2, if_false]
          rcases lt_or_gt_of_ne h2 with hs | hs
          · have : ⌊(b - a) / s⌋ + 1 ≤ 0 := by
              have : ⌊(b - a) / s⌋ < 0 := by
                rw [Int.floor_lt]; push_cast
                exact div_neg_of_pos_of_neg (by linarith) hs
              omega
            simp [this, not_lt.2 hs.le]
          · have hk := floor_pos_case a b s hs (by linarith)
            have h3 : ¬ (⌊(b - a) / s⌋ + 1 ≤ 0) := by omega
            simp [h3, hs, h, not_lt.1 h1]
            split <;> simp
  · by_cases h : b ≤ a
    · simp [h]
    · by_cases h1 : n ≤ 0 <;> simp [h, h1] <;> first | omega | (push Not at h h1; exact ⟨h, h1⟩) | (intros; omega)

/-- ValueError is raised exactly when the number of given arguments is not three, the range is empty,
`nbins` is not positive, or the step exceeds the range. -/
theorem C03_valueError_iff (mn mx : Option ℚ) (nbins : Option ℤ) (step : Option ℚ) :
    binEdges mn mx nbins step = .error .valueError ↔
      ([mn.isSome, mx.isSome, nbins.isSome, step.isSome].count true ≠ 3 ∨
       (∃ a b, mn = some a ∧ mx = some b ∧ b ≤ a) ∨ (∃ n, nbins = some n ∧ n ≤ 0) ∨
       (∃ a b s, mn = some a ∧ mx = some b ∧ step = some s ∧ nbins = none ∧ b - a < s)) := by
  rcases mn with _ | a <;> rcases mx with _ | b <;> rcases nbins with _ | n <;> rcases step with _ | s <;>
    simp [binEdges, badRange, badNbins, binEdgesCore, isSome01]
  · by_cases h : b ≤ a
    · simp [h]
    · simp only [h, if_false]
      by_cases h1 : b - a < s
      · simp [h1]
      · simp only [h1, if_false]
        push Not at h h1
        by_cases h2 : s = 0
        · simp [h2, h, h.le]
        · simp only [h2, if_false]
          split
          · simp [h, h1]
          · split <;> simp [h, h1]
  · by_cases h : b ≤ a <;> by_cases h1 : n ≤ 0 <;> simp [h, h1]

/-- When `nbins` is given there are exactly `nbins + 1` edges. -/
theorem C03_nbins (mn mx : Option ℚ) (n : ℤ) (step : Option ℚ) (e : List ℚ)
    (h : binEdges mn mx (some n) step = .ok e) : (e.length : ℤ) = n + 1 := by
  have hv := (C03_accepts_iff mn mx (some n) step).1 ⟨e, h⟩
  rcases mn with _ | a <;> rcases mx with _ | b <;> rcases step with _ | s <;> simp [binEdgesValid] at hv
  · have h0 : ¬ n ≤ 0 := by omega
    simp [binEdges, badRange, badNbins, binEdgesCore, isSome01, h0] at h
    rw [← h]; simp; omega
  · have h0 : ¬ n ≤ 0 := by omega
    simp [binEdges, badRange, badNbins, binEdgesCore, isSome01, h0] at h
    rw [← h, length_arith]; push_cast; omega
  · have h0 : ¬ n ≤ 0 := by omega
    simp [binEdges, badRange, badNbins, binEdgesCore, isSome01, h0, not_le.2 hv.1] at h
    rw [← h]; simp [Np.linspace]; omega

/-- What `bin_edges` returns for valid arguments, in closed form (helper). -/
theorem binEdges_value (mn mx : Option ℚ) (nbins : Option ℤ) (step : Option ℚ) (e : List ℚ)
    (h : binEdges mn mx nbins step = .ok e) :
    (∃ a b n, mn = some a ∧ mx = some b ∧ nbins = some (n : ℤ) ∧ step = none ∧ a < b ∧ 0 < n ∧
      e = Np.linspace a b (n.toNat + 1)) ∨
    (∃ a b s, mn = some a ∧ mx = some b ∧ nbins = none ∧ step = some s ∧ a < b ∧ 0 < s ∧ s ≤ b - a ∧
      e = arith a s ⌊(b - a) / s⌋.toNat) ∨
    (∃ a n s, mn = some a ∧ mx = none ∧ nbins = some (n : ℤ) ∧ step = some s ∧ 0 < n ∧ e = arith a s n.toNat) ∨
    (∃ b n s, mn = none ∧ mx = some b ∧ nbins = some (n : ℤ) ∧ step = some s ∧ 0 < n ∧
      e = (List.range (n.toNat + 1)).reverse.map (fun (k : ℕ) => b - k * s)) := by
  have hv := (C03_accepts_iff mn mx nbins step).1 ⟨e, h⟩
  rcases mn with _ | a <;> rcases mx with _ | b <;> rcases nbins with _ | n <;> rcases step with _ | s <;>
    simp [binEdgesValid] at hv
  · have h0 : ¬ n ≤ 0 := by omega
    simp [binEdges, badRange, badNbins, binEdgesCore, isSome01, h0] at h
    exact Or.inr (Or.inr (Or.inr ⟨b, n, s, rfl, rfl, rfl, rfl, hv, by simpa using h.symm⟩))
  · have h0 : ¬ n ≤ 0 := by omega
    simp [binEdges, badRange, badNbins, binEdgesCore, isSome01, h0] at h
    exact Or.inr (Or.inr (Or.inl ⟨a, n, s, rfl, rfl, rfl, rfl, hv, h.symm⟩))
  · obtain ⟨h1, h2, h3⟩ := hv
    have hk := floor_pos_case a b s h2 h3
    have h4 : ¬ (⌊(b - a) / s⌋ + 1 ≤ 0) := by omega
    have h5 : ¬ (b - a < s) := by linarith
    have h6 : ¬ (b < a + (⌊(b - a) / s⌋ : ℚ) * s) := by linarith [hk.2.1]
    simp [binEdges, badRange, badNbins, binEdgesCore, isSome01, not_le.2 h1, h5, h2.ne', h4, h6] at h
    exact Or.inr (Or.inl ⟨a, b, s, rfl, rfl, rfl, rfl, h1, h2, h3, h.symm⟩)
  · obtain ⟨h1, h2⟩ := hv
    simp [binEdges, badRange, badNbins, binEdgesCore, isSome01, not_le.2 h1, not_le.2 h2] at h
    exact Or.inl ⟨a, b, n, rfl, rfl, rfl, rfl, h1, h2, h.symm⟩

/-- When `step` is given, consecutive edges differ by exactly `step`. -/
theorem C03_step (mn mx : Option ℚ) (nbins : Option ℤ) (s : ℚ) (e : List ℚ)
    (h : binEdges mn mx nbins (some s) = .ok e) : e.IsChain (fun x y => y - x = s) := by
  rcases binEdges_value _ _ _ _ _ h with ⟨a, b, n, _, _, _, h4, _⟩ | ⟨a, b, s', _, _, _, h4, _, _, _, rfl⟩ |
    ⟨a, n, s', _, _, _, h4, _, rfl⟩ | ⟨b, n, s', _, _, _, h4, _, rfl⟩
  · simp at h4
  · simp at h4; subst h4
    apply isChain_map_range; intro k _; push_cast; ring
  · simp at h4; subst h4
    apply isChain_map_range; intro k _; push_cast; ring
  · simp at h4; subst h4
    rw [List.isChain_iff_getElem]
    intro i hi
    simp only [List.length_map, List.length_reverse, List.length_range] at hi
    simp only [List.getElem_map, List.getElem_reverse, List.length_range, List.getElem_range]
    have : n.toNat + 1 - 1 - i = (n.toNat + 1 - 1 - (i + 1)) + 1 := by omega
    rw [this]; push_cast; ring

/-- When `range_min` is given it is the first edge, and (for a positive step) no edge is below it. -/
theorem C03_min (a : ℚ) (mx : Option ℚ) (nbins : Option ℤ) (step : Option ℚ) (e : List ℚ)
    (h : binEdges (some a) mx nbins step = .ok e) (hs : ∀ s, step = some s → 0 < s) :
    e.head? = some a ∧ ∀ x ∈ e, a ≤ x := by
  have ar : ∀ (s : ℚ) (n : ℕ), 0 < s → (arith a s n).head? = some a ∧ ∀ x ∈ arith a s n, a ≤ x := by
    intro s n hs
    refine ⟨by simp [arith, List.head?_range], ?_⟩
    intro x hx
    simp only [arith, List.mem_map, List.mem_range] at hx
    obtain ⟨k, _, rfl⟩ := hx
    have : 0 ≤ (k:ℚ) * s := by positivity
    linarith
  rcases binEdges_value _ _ _ _ _ h with ⟨a', b, n, h1, _, _, _, hab, hn, rfl⟩ |
    ⟨a', b, s', h1, _, _, h4, _, _, _, rfl⟩ | ⟨a', n, s', h1, _, _, h4, _, rfl⟩ | ⟨b, n, s', h1, _⟩
  · simp at h1; subst h1
    refine ⟨by simp [Np.linspace, List.head?_range], ?_⟩
    intro x hx
    simp only [Np.linspace, List.mem_map, List.mem_range] at hx
    obtain ⟨k, _, rfl⟩ := hx
    have : 0 ≤ (k:ℚ) * ((b - a) / ((n.toNat + 1 - 1 : ℕ) : ℚ)) :=
      mul_nonneg (by positivity) (div_nonneg (by linarith) (by positivity))
    linarith
  · simp at h1; subst h1; exact ar s' _ (hs _ h4)
  · simp at h1; subst h1; exact ar s' _ (hs _ h4)
  · simp at h1

/-- When `range_max` is given, no edge is above it (positive step); unless all of min, max, step are given,
it is the last edge. -/
theorem C03_max (mn : Option ℚ) (b : ℚ) (nbins : Option ℤ) (step : Option ℚ) (e : List ℚ)
    (h : binEdges mn (some b) nbins step = .ok e) (hs : ∀ s, step = some s → 0 < s) :
    (∀ x ∈ e, x ≤ b) ∧ (nbins ≠ none → e.getLast? = some b) := by
  rcases binEdges_value _ _ _ _ _ h with ⟨a, b', n, _, h1, h3, _, hab, hn, rfl⟩ |
    ⟨a, b', s, _, h1, h3, h4, _, hsp, hle, rfl⟩ | ⟨a', n, s', _, h1, _⟩ | ⟨b', n, s, _, h1, h3, h4, hn, rfl⟩
  · simp at h1; subst h1
    have hn' : (0:ℚ) < (n.toNat : ℚ) := by exact_mod_cast (by omega : 0 < n.toNat)
    refine ⟨?_, fun _ => ?_⟩
    · intro x hx
      simp only [Np.linspace, List.mem_map, List.mem_range] at hx
      obtain ⟨k, hk, rfl⟩ := hx
      simp only [Nat.add_sub_cancel]
      have h1 : (k:ℚ) ≤ n.toNat := by exact_mod_cast (by omega)
      have h2 : (k:ℚ) * ((b - a) / (n.toNat : ℚ)) ≤ n.toNat * ((b - a) / (n.toNat : ℚ)) :=
        mul_le_mul_of_nonneg_right h1 (div_nonneg (by linarith) hn'.le)
      have h3 : (n.toNat:ℚ) * ((b - a) / (n.toNat : ℚ)) = b - a := by field_simp
      linarith
    · rw [Np.linspace, List.getLast?_map, List.getLast?_range]
      simp only [Nat.add_sub_cancel]
      rw [if_neg (by omega)]
      simp only [Option.map_some, Option.some.injEq]
      have h3 : (n.toNat:ℚ) * ((b - a) / (n.toNat : ℚ)) = b - a := by field_simp
      linarith
  · simp at h1; subst h1
    refine ⟨?_, fun hne => absurd h3 hne⟩
    intro x hx
    simp only [arith, List.mem_map, List.mem_range] at hx
    obtain ⟨k, hk, rfl⟩ := hx
    have hk' := floor_pos_case a b s hsp hle
    have h1 : (k:ℚ) ≤ (⌊(b - a) / s⌋ : ℚ) := by exact_mod_cast (by omega : (k:ℤ) ≤ ⌊(b - a) / s⌋)
    have := mul_le_mul_of_nonneg_right h1 hsp.le
    linarith [hk'.2.1]
  · simp at h1
  · simp at h1; subst h1
    refine ⟨?_, fun _ => ?_⟩
    · intro x hx
      simp only [List.mem_map, List.mem_reverse, List.mem_range] at hx
      obtain ⟨k, hk, rfl⟩ := hx
      have := hs s h4
      have : 0 ≤ (k:ℚ) * s := by positivity
      linarith
    · rw [List.getLast?_map, List.getLast?_reverse, List.head?_range]
      simp

/-- With (min, max, step) the distance from the last edge to `range_max` is less than `step`. -/
theorem C03_gap (a b s : ℚ) (e : List ℚ) (h : binEdges (some a) (some b) none (some s) = .ok e) :
    ∃ l, e.getLast? = some l ∧ l ≤ b ∧ b - l < s := by
  rcases binEdges_value _ _ _ _ _ h with ⟨a', b', n, _, _, h3, _⟩ |
    ⟨a', b', s', h0, h1, h3, h4, _, hsp, hle, rfl⟩ | ⟨a', n, s', _, h1, _⟩ | ⟨b', n, s', h0, _⟩
  · simp at h3
  · simp at h0 h1 h4; subst h0 h1 h4
    have hk := floor_pos_case a b s hsp hle
    have hc : ((⌊(b - a) / s⌋.toNat : ℕ) : ℚ) = (⌊(b - a) / s⌋ : ℚ) := by
      have : ((⌊(b - a) / s⌋.toNat : ℕ) : ℤ) = ⌊(b - a) / s⌋ := Int.toNat_of_nonneg (by omega)
      exact_mod_cast this
    refine ⟨a + (⌊(b - a) / s⌋ : ℚ) * s, ?_, hk.2.1, by linarith [hk.2.2]⟩
    rw [arith, List.getLast?_map, List.getLast?_range]
    simp only [Nat.add_sub_cancel]
    rw [if_neg (by omega)]
    simp [hc]
  · simp at h1
  · simp at h0

/-- A negative step is accepted when `nbins` is given and then edges fall *below* `range_min`, against the
docstring ("all bin edges will be greater than or equal to [range_min]"): the positivity hypothesis of
`C03_min` is needed. -/
theorem C03_negative_step_violates_min :
    ∃ e, binEdges (some 0) none (some 2) (some (-1)) = .ok e ∧ ∃ x ∈ e, x < 0 :=
  ⟨[0, -1, -2], by decide +kernel, -1, by simp, by norm_num⟩

example : binEdges (some 0) (some 10) none (some 3) = .ok [0, 3, 6, 9] := by decide +kernel
example : binEdges (some 0) (some 1) (some 4) none = .ok [0, 1/4, 1/2, 3/4, 1] := by decide +kernel
example : binEdges none (some 1) (some 2) (some (1/2)) = .ok [0, 1/2, 1] := by decide +kernel

/-! ## C04 subtract_reference_images -/

/-- `j` is the latest reference frame before frame `i`. -/
def LatestRef (refs : List Bool) (i j : ℕ) : Prop :=
  j < i ∧ refs[j]? = some true ∧ ∀ m, j < m → m < i → refs[m]? = some false

/-- Indices of the measured (non-reference) frames, in order. -/
def measured (refs : List Bool) : List ℕ := (List.range refs.length).filter (fun i => refs[i]? == some false)

theorem measured_cons (b : Bool) (t : List Bool) :
    measured (b :: t) = (if b then [] else [0]) ++ (measured t).map (· + 1) := by
  unfold measured
  rw [List.length_cons, List.range_succ_eq_map, List.filter_cons, List.filter_map]
  cases b <;> simp [Function.comp_def]

theorem subRefLoop_spec {α : Type} [Sub α] (l : List (α × Bool)) (r : α) :
    List.Forall₂ (fun i o => ∃ j x y, LatestRef (true :: l.map Prod.snd) i j ∧
      (r :: l.map Prod.fst)[i]? = some x ∧ (r :: l.map Prod.fst)[j]? = some y ∧ o = x - y)
      ((measured (l.map Prod.snd)).map (· + 1)) (subRefLoop r l) := by
  induction l generalizing r with
  | nil => simp [measured, subRefLoop]
  | cons p t ih =>
    obtain ⟨x, b⟩ := p
    cases b with
    | true =>
      simp only [subRefLoop, List.map_cons, measured_cons, if_true, List.nil_append, List.map_map]
      have := ih x
      rw [← List.map_map, List.forall₂_map_left_iff]
      refine this.imp ?_
      rintro i o ⟨j, u, v, ⟨h1, h2, h3⟩, hu, hv, rfl⟩
      refine ⟨j + 1, u, v, ⟨by omega, ?_, ?_⟩, ?_, ?_, rfl⟩
      · simpa using h2
      · intro m hm1 hm2
        obtain ⟨m, rfl⟩ : ∃ k, m = k + 1 := ⟨m - 1, by omega⟩
        have := h3 m (by omega) (by omega)
        simpa using this
      · simpa using hu
      · simpa using hv
    | false =>
      simp only [subRefLoop, List.map_cons, measured_cons]
      simp only [Bool.false_eq_true, if_false, List.singleton_append, List.map_cons, List.map_map, zero_add]
      refine List.Forall₂.cons ?_ ?_
      · exact ⟨0, x, r, ⟨by omega, by simp, by intros; omega⟩, by simp, by simp, rfl⟩
      · rw [← List.map_map, List.forall₂_map_left_iff]
        refine (ih r).imp ?_
        rintro i o ⟨j, u, v, ⟨h1, h2, h3⟩, hu, hv, rfl⟩
        obtain ⟨i, rfl⟩ : ∃ k, i = k + 1 := ⟨i - 1, by omega⟩
        by_cases hj : j = 0
        · subst hj
          refine ⟨0, u, v, ⟨by omega, by simp, ?_⟩, ?_, ?_, rfl⟩
          · intro m hm1 hm2
            by_cases hm : m = 1
            · subst hm; simp
            · obtain ⟨m, rfl⟩ : ∃ k, m = k + 2 := ⟨m - 2, by omega⟩
              have := h3 (m + 1) (by omega) (by omega)
              simpa using this
          · simpa using hu
          · simpa using hv
        · obtain ⟨j, rfl⟩ : ∃ k, j = k + 1 := ⟨j - 1, by omega⟩
          refine ⟨j + 2, u, v, ⟨by omega, by simpa using h2, ?_⟩, ?_, ?_, rfl⟩
          · intro m hm1 hm2
            obtain ⟨m, rfl⟩ : ∃ k, m = k + 2 := ⟨m - 2, by omega⟩
            have := h3 (m + 1) (by omega) (by omega)
            simpa using this
          · simpa using hu
          · simpa using hv

/-- For every sequence of frames and flags of equal length whose first frame is a reference: the output
consists of, for each measured frame in order, that frame minus the latest reference frame before it. -/
theorem C04_subtract {α : Type} [Sub α] (imgs : List α) (refs : List Bool) (hlen : imgs.length = refs.length)
    (h0 : refs[0]? = some true) :
    ∃ out, subtractReferenceImages imgs refs = .ok out ∧
      List.Forall₂ (fun i o => ∃ j x y, LatestRef refs i j ∧ imgs[i]? = some x ∧ imgs[j]? = some y ∧ o = x - y)
        (measured refs) out := by
  match refs, h0 with
  | true :: refs, _ =>
    match imgs, hlen with
    | img :: rest, hlen =>
      simp at hlen
      refine ⟨subRefLoop img (rest.zip refs), rfl, ?_⟩
      have := subRefLoop_spec (rest.zip refs) img
      rw [List.map_fst_zip (by omega), List.map_snd_zip (by omega)] at this
      rw [measured_cons]
      simpa using this

/-- ValueError exactly when the first frame is not a reference (for non-empty input). -/
theorem C04_valueError_iff {α : Type} [Sub α] (imgs : List α) (refs : List Bool) (b : Bool)
    (h : refs[0]? = some b) : subtractReferenceImages imgs refs = .error .valueError ↔ b = false := by
  match refs, h with
  | c :: refs, h =>
    simp at h; subst h
    cases c
    · simp [subtractReferenceImages]
    · cases imgs <;> simp [subtractReferenceImages]

example : subtractReferenceImages [10, 13, 14, 100, 107] [true, false, false, true, false] = .ok [(3:ℤ), 4, 7] := by
  decide

/-! ## C05 bin_edges_to_centers / pairwise -/

/-- N+1 edges give N centers, each the midpoint of its two edges. -/
theorem C05_centers (e : List ℚ) :
    (binEdgesToCenters e).length = e.length - 1 ∧
    ∀ k a b, e[k]? = some a → e[k+1]? = some b → (binEdgesToCenters e)[k]? = some ((a + b) / 2) := by
  refine ⟨by simp [binEdgesToCenters], ?_⟩
  intro k a b ha hb
  have hb' := (List.getElem?_eq_some_iff.1 hb).1
  simp only [binEdgesToCenters, List.getElem?_zipWith]
  rw [List.getElem?_dropLast, if_pos (by omega), ha, List.getElem?_tail, hb]
  simp; ring

/-- For strictly increasing edges each center lies strictly inside its bin and the centers increase. -/
theorem C05_inside (e : List ℚ) (h : e.IsChain (· < ·)) :
    (∀ k c a b, (binEdgesToCenters e)[k]? = some c → e[k]? = some a → e[k+1]? = some b → a < c ∧ c < b) ∧
    (binEdgesToCenters e).IsChain (· < ·) := by
  have hg : ∀ k a b, e[k]? = some a → e[k+1]? = some b → a < b := by
    intro k a b ha hb
    rw [List.isChain_iff_getElem] at h
    rw [List.getElem?_eq_some_iff] at ha hb
    obtain ⟨h1, rfl⟩ := ha
    obtain ⟨h2, rfl⟩ := hb
    exact h k h2
  constructor
  · intro k c a b hc ha hb
    rw [(C05_centers e).2 k a b ha hb] at hc
    simp at hc
    have := hg k a b ha hb
    constructor <;> linarith
  · rw [List.isChain_iff_getElem]
    intro i hi
    have hl := (C05_centers e).1
    have h0 : e[i]? = some e[i] := List.getElem?_eq_getElem (by omega)
    have h1 : e[i+1]? = some e[i+1] := List.getElem?_eq_getElem (by omega)
    have h2 : e[i+2]? = some e[i+2] := List.getElem?_eq_getElem (by omega)
    have c1 := (C05_centers e).2 i _ _ h0 h1
    have c2 := (C05_centers e).2 (i+1) _ _ h1 h2
    rw [List.getElem?_eq_some_iff] at c1 c2
    rw [c1.2, c2.2]
    have := hg i _ _ h0 h1
    have := hg (i+1) _ _ h1 h2
    linarith

/-- `pairwise` yields exactly the consecutive pairs, in order. -/
theorem C05_pairwise {α : Type} (l : List α) : (pairwise l).length = l.length - 1 ∧
    ∀ k a b, l[k]? = some a → l[k+1]? = some b → (pairwise l)[k]? = some (a, b) := by
  refine ⟨by simp [pairwise], ?_⟩
  intro k a b ha hb
  rw [pairwise, List.zip, List.getElem?_zipWith, ha, List.getElem?_tail, hb]

example : binEdgesToCenters [0, 1, 3] = [1/2, 2] ∧ [0, 1, (3:ℚ)].IsChain (· < ·) := by decide +kernel

/-! ## C06 bin_1D -/

/-- What one bin (samples with `P`) should hold: total intensity, number of samples. -/
def totalY (x y : List ℚ) (P : ℚ → Prop) [DecidablePred P] : ℚ :=
  (((x.zip y).filter (fun p => decide (P p.1))).map Prod.snd).sum
/-- see `totalY`. -/
def numX (x : List ℚ) (P : ℚ → Prop) [DecidablePred P] : ℕ := x.countP (fun v => decide (P v))

theorem weightOf_ones (x : List ℚ) (P : ℚ → Prop) [DecidablePred P] :
    Np.weightOf (x.map (fun v => (v, 1))) P = numX x P := by
  induction x with
  | nil => simp [Np.weightOf, numX]
  | cons a t ih =>
    rw [List.map_cons, Np.weightOf_cons, ih, numX, numX, List.countP_cons]
    by_cases h : P a <;> simp [h]; ring

/-- With explicit limits `lo ≤ hi` and `n ≥ 1` bins, on aligned sample arrays: the edges are evenly spaced
from `lo` to `hi`; counts (values) sum to the number (intensity) of the samples in [lo, hi]; bin k holds exactly
the samples with lo+k·w ≤ x < lo+(k+1)·w, the last one also those at `hi`. -/
theorem C06_bin1D (x y : List ℚ) (hxy : x.length = y.length) (lo hi : ℚ) (hlo : lo ≤ hi) (n : ℕ) (hn : 1 ≤ n) :
    ∃ bins val count, bin1D x y (some n) (some lo) (some hi) = .ok (bins, val, count) ∧
      bins.length = n + 1 ∧ val.length = n ∧ count.length = n ∧
      (∀ k ≤ n, bins[k]? = some (lo + k * ((hi - lo) / n))) ∧
      count.sum = numX x (fun v => lo ≤ v ∧ v ≤ hi) ∧
      val.sum = totalY x y (fun v => lo ≤ v ∧ v ≤ hi) ∧
      (∀ k, k + 1 < n → ∀ a b, bins[k]? = some a → bins[k+1]? = some b →
        count[k]? = some (numX x (fun v => a ≤ v ∧ v < b) : ℚ) ∧
        val[k]? = some (totalY x y (fun v => a ≤ v ∧ v < b))) ∧
      (∀ k, k + 1 = n → ∀ a b, bins[k]? = some a → bins[k+1]? = some b →
        count[k]? = some (numX x (fun v => a ≤ v ∧ v ≤ b) : ℚ) ∧
        val[k]? = some (totalY x y (fun v => a ≤ v ∧ v ≤ b))) := by
  have hc := linspace_chain lo hi (n + 1) hlo
  have hlen : (Np.linspace lo hi (n + 1)).length = n + 1 := by simp [Np.linspace]
  have hget : ∀ k ≤ n, (Np.linspace lo hi (n + 1))[k]? = some (lo + k * ((hi - lo) / n)) := by
    intro k hk
    simp [Np.linspace, show k < n + 1 by omega]
  have hhead : (Np.linspace lo hi (n + 1)).head? = some lo := by
    rw [List.head?_eq_getElem?, hget 0 (by omega)]; simp
  have hn0 : (n:ℚ) ≠ 0 := by exact_mod_cast (by omega : n ≠ 0)
  have hlast : (Np.linspace lo hi (n + 1)).getLast? = some hi := by
    rw [List.getLast?_eq_getElem?, hlen, Nat.add_sub_cancel, hget n le_rfl]
    congr 1; field_simp; ring
  refine ⟨Np.linspace lo hi (n + 1), Np.diff (Np.cumAt (x.zip y) (Np.linspace lo hi (n + 1))),
    Np.diff (Np.cumAt (x.map (fun v => (v, 1))) (Np.linspace lo hi (n + 1))), ?_, hlen, ?_, ?_, hget, ?_, ?_, ?_, ?_⟩
  · have h1 : ¬ ((n:ℤ) + 1 < 0) := by omega
    have h2 : ¬ ((n:ℤ) + 1 = 0) := by omega
    simp only [bin1D, Np.histogram, hc, hxy, h1, h2, bind, Except.bind, pure, Except.pure]
    simp [hc]
  · rw [Np.length_diff, Np.length_cumAt, hlen]; rfl
  · rw [Np.length_diff, Np.length_cumAt, hlen]; rfl
  · rw [Np.histogram_sum _ _ hc lo hi hhead hlast (by omega), weightOf_ones]
  · rw [Np.histogram_sum _ _ hc lo hi hhead hlast (by omega)]; rfl
  · intro k hk a b ha hb
    rw [Np.histogram_bin _ _ hc k a b ha hb (by omega), Np.histogram_bin _ _ hc k a b ha hb (by omega),
      weightOf_ones]
    exact ⟨rfl, rfl⟩
  · intro k hk a b ha hb
    rw [Np.histogram_last _ _ hc k a b ha hb (by omega), Np.histogram_last _ _ hc k a b ha hb (by omega),
      weightOf_ones]
    exact ⟨rfl, rfl⟩

/-- With the default limits and a given number of bins no sample is lost. -/
theorem C06_default_limits (x y : List ℚ) (hxy : x.length = y.length) (hx : x ≠ []) (n : ℕ) (hn : 1 ≤ n) :
    ∃ bins val count, bin1D x y (some n) none none = .ok (bins, val, count) ∧
      count.sum = x.length ∧ val.sum = y.sum := by
  obtain ⟨lo, hlo⟩ : ∃ lo, x.min? = some lo := by
    cases h : x.min? with
    | none => exact absurd (List.min?_eq_none_iff.1 h) hx
    | some a => exact ⟨a, rfl⟩
  obtain ⟨hi, hhi⟩ : ∃ hi, x.max? = some hi := by
    cases h : x.max? with
    | none => exact absurd (List.max?_eq_none_iff.1 h) hx
    | some a => exact ⟨a, rfl⟩
  have h1 := (List.min?_eq_some_iff.1 hlo)
  have h2 := (List.max?_eq_some_iff.1 hhi)
  have hle : lo ≤ hi := h2.2 lo h1.1
  obtain ⟨bins, val, count, e, _, _, _, _, hcs, hvs, _⟩ := C06_bin1D x y hxy lo hi hle n hn
  refine ⟨bins, val, count, ?_, ?_, ?_⟩
  · rw [← e]; simp [bin1D, hlo, hhi, bind, Except.bind]
  · rw [hcs]; norm_cast
    rw [numX, List.countP_eq_length]
    intro a ha; simp [h1.2 a ha, h2.2 a ha]
  · rw [hvs, totalY]
    rw [List.filter_eq_self.2]
    · rw [List.map_snd_zip (by omega)]
    · intro p hp
      have := List.of_mem_zip hp
      simp [h1.2 _ this.1, h2.2 _ this.1]

/-- Defect: with *all* defaults, data spanning less than one unit is put into zero bins, so every sample is
lost. -/
theorem C06_default_nx_loses_all : ∃ bins, bin1D [0, 1/2] [3, 4] none none none = .ok (bins, [], []) :=
  ⟨[0], by decide +kernel⟩

example : bin1D [0, 1, 2, 3, 4, 9] [1, 2, 3, 4, 5, 6] (some 2) (some 0) (some 4) =
  .ok ([0, 2, 4], [3, 12], [2, 3]) := by decide +kernel

/-! ## C07 img_to_relative_xyi -/

theorem ravel_get {α : Type} {h w : ℕ} (img : Fin h → Fin w → α) (r : Fin h) (c : Fin w) :
    (ravel img)[r.1 * w + c.1]? = some (img r c) := by
  unfold ravel
  rw [getElem?_flatMap_const _ _ w (by simp) _ _ c.2]
  simp

theorem length_ravel {α : Type} {h w : ℕ} (img : Fin h → Fin w → α) : (ravel img).length = h * w := by
  unfold ravel
  rw [length_flatMap_const _ _ w (by simp)]; simp

/-- For square images the triple at flat position r·n+c is (column offset, row offset, intensity of pixel
(r,c)), and there is one triple per pixel.  Full statement (any shape) is refuted below. -/
theorem C07_aligned_square_partial {n : ℕ} (img : Fin n → Fin n → ℚ) (cx cy px py : ℚ) (hx : 0 < px) (hy : 0 < py) :
    ∃ X Y I, imgToRelativeXyi img cx cy (some px) (some py) = .ok (X, Y, I) ∧
      X.length = n * n ∧ Y.length = n * n ∧ I.length = n * n ∧
      ∀ r c : Fin n, X[r.1 * n + c.1]? = some (px * (c - cx)) ∧ Y[r.1 * n + c.1]? = some (py * (r - cy)) ∧
        I[r.1 * n + c.1]? = some (img r c) := by
  refine ⟨meshX ((Np.arange n).map (fun k => px * (k - cx))) ((Np.arange n).map (fun k => py * (k - cy))),
    meshY ((Np.arange n).map (fun k => px * (k - cx))) ((Np.arange n).map (fun k => py * (k - cy))),
    ravel img, ?_, ?_, ?_, length_ravel img, fun r c => ⟨?_, ?_, ravel_get img r c⟩⟩
  · simp [imgToRelativeXyi, not_le.2 hx, not_le.2 hy, bind, Except.bind, pure, Except.pure]
  · rw [meshX, length_flatMap_const _ _ n (by simp [Np.length_arange])]; simp [Np.length_arange]
  · rw [meshY, length_flatMap_const _ _ n (by simp [Np.length_arange])]; simp [Np.length_arange]
  · rw [meshX, getElem?_flatMap_const _ _ n (by simp [Np.length_arange]) _ _ c.2]
    simp [Np.getElem?_arange _ _ c.2, Np.getElem?_arange _ _ r.2]
  · rw [meshY, getElem?_flatMap_const _ _ n (by simp [Np.length_arange]) _ _ c.2]
    simp [Np.getElem?_arange _ _ c.2, Np.getElem?_arange _ _ r.2]

/-- The property fails for *every* non-square image with at least two rows and columns, whichever of the two
axes is called x: some triple carries another pixel's coordinates. -/
theorem C07_misaligned_nonsquare {h w : ℕ} (img : Fin h → Fin w → ℚ) (cx cy : ℚ) (h2 : 2 ≤ h) (w2 : 2 ≤ w)
    (hne : h ≠ w) :
    ∃ X Y I, imgToRelativeXyi img cx cy none none = .ok (X, Y, I) ∧
      ∃ (r : Fin h) (c : Fin w), I[r.1 * w + c.1]? = some (img r c) ∧
        ¬ (X[r.1 * w + c.1]? = some (c - cx) ∧ Y[r.1 * w + c.1]? = some (r - cy)) ∧
        ¬ (X[r.1 * w + c.1]? = some (r - cx) ∧ Y[r.1 * w + c.1]? = some (c - cy)) := by
  refine ⟨meshX ((Np.arange h).map (fun k => 1 * (k - cx))) ((Np.arange w).map (fun k => 1 * (k - cy))),
    meshY ((Np.arange h).map (fun k => 1 * (k - cx))) ((Np.arange w).map (fun k => 1 * (k - cy))), ravel img,
    by simp [imgToRelativeXyi, bind, Except.bind, pure, Except.pure], ?_⟩
  have gx : ∀ i j, j < h → (meshX ((Np.arange h).map (fun k => 1 * (k - cx)))
      ((Np.arange w).map (fun k => 1 * (k - cy))))[i * h + j]? = if i < w then some ((j:ℚ) - cx) else none := by
    intro i j hj
    rw [meshX, getElem?_flatMap_const _ _ h (by simp [Np.length_arange]) _ _ hj]
    by_cases hi : i < w <;> simp [Np.getElem?_arange, Np.getElem?_arange_ge, hj, hi]
  have gy : ∀ i j, j < h → (meshY ((Np.arange h).map (fun k => 1 * (k - cx)))
      ((Np.arange w).map (fun k => 1 * (k - cy))))[i * h + j]? = if i < w then some ((i:ℚ) - cy) else none := by
    intro i j hj
    rw [meshY, getElem?_flatMap_const _ _ h (by simp [Np.length_arange]) _ _ hj]
    by_cases hi : i < w <;> simp [Np.getElem?_arange, Np.getElem?_arange_ge, hj, hi]
  rcases lt_or_gt_of_ne hne with hlt | hgt
  · refine ⟨⟨0, by omega⟩, ⟨h, hlt⟩, ravel_get img _ _, ?_, ?_⟩
    · rintro ⟨e1, _⟩
      have := gx 1 0 (by omega)
      simp only [zero_mul, zero_add, one_mul, add_zero] at e1 this
      rw [this] at e1
      rw [if_pos (by omega)] at e1
      simp at e1
      have : (h:ℚ) = 0 := by linarith
      norm_cast at this; omega
    · rintro ⟨_, e1⟩
      have := gy 1 0 (by omega)
      simp only [zero_mul, zero_add, one_mul, add_zero] at e1 this
      rw [this] at e1
      rw [if_pos (by omega)] at e1
      simp at e1
      have : (h:ℚ) = 1 := by linarith
      norm_cast at this; omega
  · refine ⟨⟨1, by omega⟩, ⟨0, by omega⟩, ravel_get img _ _, ?_, ?_⟩
    · rintro ⟨e1, _⟩
      have := gx 0 w hgt
      simp only [zero_mul, zero_add, one_mul, add_zero] at e1 this
      rw [this] at e1
      rw [if_pos (by omega)] at e1
      simp at e1; omega
    · rintro ⟨e1, _⟩
      have := gx 0 w hgt
      simp only [zero_mul, zero_add, one_mul, add_zero] at e1 this
      rw [this] at e1
      rw [if_pos (by omega)] at e1
      simp at e1; omega

/-- Pixel sizes: exactly the non-positive or half-given ones raise. -/
theorem C07_pixel_size_validation {h w : ℕ} (img : Fin h → Fin w → ℚ) (cx cy : ℚ) (px py : Option ℚ) :
    imgToRelativeXyi img cx cy px py = .error .valueError ↔
      (px.isSome ≠ py.isSome ∨ ∃ a b, px = some a ∧ py = some b ∧ (a ≤ 0 ∨ b ≤ 0)) := by
  rcases px with _ | a <;> rcases py with _ | b <;>
    simp [imgToRelativeXyi, bind, Except.bind, pure, Except.pure]
  by_cases h1 : a ≤ 0 <;> by_cases h2 : b ≤ 0 <;> simp [h1, h2]

/-! ## C08 bin_grid -/

/-- Number of unmasked pixels. -/
def numUnmasked (px : List (ℚ × ℚ × Bool)) : ℕ := px.countP (fun p => p.2.2)

theorem countP_filter_ge {α : Type} (p q : α → Bool) (l : List α) :
    (l.filter p).countP q = l.countP (fun a => q a && p a) := by
  induction l with
  | nil => simp
  | cons a t ih => by_cases h : p a <;> simp [h, ih, List.countP_cons]

/-- With default bins (and `res > 0`), the number of pixels that end up in some bin is the number of unmasked
pixels with radius at most the last edge `lo - res/2 + ⌈(hi-lo)/res⌉·res`. -/
theorem C08_used_pixels (px : List (ℚ × ℚ × Bool)) (res lo hi : ℚ) (hres : 0 < res)
    (hlo : (px.map (fun p => p.1)).min? = some lo) (hhi : (px.map (fun p => p.1)).max? = some hi) :
    ∃ c n, binGridCount px res none = .ok (c, n) ∧
      (lo < hi → n.sum = px.countP (fun p => p.2.2 && decide (p.1 ≤ lo - res / 2 + ⌈(hi - lo) / res⌉ * res))) ∧
      (lo = hi → n = []) := by
  have h1 := (List.min?_eq_some_iff.1 hlo)
  have h2 := (List.max?_eq_some_iff.1 hhi)
  have hle : lo ≤ hi := h2.2 lo h1.1
  set N := ⌈(hi - lo) / res⌉ with hN
  have hN0 : 0 ≤ N := Int.ceil_nonneg (div_nonneg (by linarith) hres.le)
  have e : ⌈(hi + res * (1/2) - (lo - res * (1/2))) / res⌉ = N + 1 := by
    rw [show (hi + res * (1/2) - (lo - res * (1/2))) / res = (hi - lo) / res + 1 by field_simp; ring]
    rw [Int.ceil_add_one]
  set bins := arangeStep (lo - res * (1/2)) (hi + res * (1/2)) res with hb
  have hbins : bins = (List.range (N.toNat + 1)).map (fun (k : ℕ) => lo - res * (1/2) + k * res) := by
    rw [hb, arangeStep, e]; congr 2; omega
  have hchain : bins.IsChain (· ≤ ·) := by
    rw [hbins]; apply isChain_map_range; intro k _; push_cast; linarith
  have hlen : bins.length = N.toNat + 1 := by rw [hbins]; simp
  refine ⟨binEdgesToCenters bins,
    Np.diff (Np.cumAt ((px.filter (fun p => p.2.2)).map (fun p => (p.1, 1))) bins), ?_, ?_, ?_⟩
  · simp only [binGridCount, binGridBins, hlo, hhi, hres.ne', if_false, bind, Except.bind, pure, Except.pure,
      Np.histogram, ← hb, hchain, if_true]
  · intro hlt
    have hNpos : 1 ≤ N := by
      have : 0 < N := Int.ceil_pos.2 (div_pos (by linarith) hres)
      omega
    have hhead : bins.head? = some (lo - res * (1/2)) := by rw [hbins]; simp [List.head?_range]
    have hc : ((N.toNat : ℕ) : ℚ) = (N : ℚ) := by
      have : ((N.toNat : ℕ) : ℤ) = N := Int.toNat_of_nonneg hN0
      exact_mod_cast this
    have hlast : bins.getLast? = some (lo - res / 2 + N * res) := by
      rw [List.getLast?_eq_getElem?, hlen, hbins]
      simp only [Nat.add_sub_cancel]
      simp [hc]; ring
    rw [Np.histogram_sum _ _ hchain _ _ hhead hlast (by omega)]
    have := weightOf_ones ((px.filter (fun p => p.2.2)).map (fun p => p.1))
      (fun x => lo - res * (1/2) ≤ x ∧ x ≤ lo - res / 2 + N * res)
    rw [List.map_map] at this
    simp only [Function.comp_def] at this
    rw [this, numX, List.countP_map, countP_filter_ge]
    norm_cast
    apply List.countP_congr
    intro p hp
    have hp1 : lo ≤ p.1 := h1.2 _ (List.mem_map.2 ⟨p, hp, rfl⟩)
    have : lo - res * (1/2) ≤ p.1 := by linarith
    simp only [Function.comp_def, Bool.and_eq_true, decide_eq_true_eq, and_comm, and_congr_right_iff]
    intro _
    constructor
    · rintro ⟨h, _⟩; exact h
    · intro h; exact ⟨h, this⟩
  · intro heq
    have : N = 0 := by rw [hN, heq]; simp
    rw [hbins, this]; simp [Np.cumAt, Np.diff]

/-- Exact characterisation: with default bins and all pixels unmasked, every pixel is used iff the upper gap
`⌈t⌉ - t` of `t = (hi-lo)/res` is at least one half. -/
theorem C08_all_used_iff (px : List (ℚ × ℚ × Bool)) (res lo hi : ℚ) (hres : 0 < res)
    (hlo : (px.map (fun p => p.1)).min? = some lo) (hhi : (px.map (fun p => p.1)).max? = some hi)
    (hall : ∀ p ∈ px, p.2.2 = true) (hlt : lo < hi) :
    ∃ c n, binGridCount px res none = .ok (c, n) ∧
      (n.sum = numUnmasked px ↔ 1 / 2 ≤ ⌈(hi - lo) / res⌉ - (hi - lo) / res) := by
  obtain ⟨c, n, e, h1, _⟩ := C08_used_pixels px res lo hi hres hlo hhi
  refine ⟨c, n, e, ?_⟩
  have h2 := (List.max?_eq_some_iff.1 hhi)
  rw [h1 hlt]
  have hu : numUnmasked px = px.length := by rw [numUnmasked, List.countP_eq_length]; exact hall
  rw [hu]; norm_cast
  rw [List.countP_eq_length]
  have key : hi ≤ lo - res / 2 + ⌈(hi - lo) / res⌉ * res ↔ 1 / 2 ≤ ⌈(hi - lo) / res⌉ - (hi - lo) / res := by
    have : (⌈(hi - lo) / res⌉ - (hi - lo) / res) * res = ⌈(hi - lo) / res⌉ * res - (hi - lo) := by
      field_simp
    constructor
    · intro h
      by_contra hc
      push Not at hc
      have := mul_lt_mul_of_pos_right hc hres
      linarith
    · intro h
      have := mul_le_mul_of_nonneg_right h hres.le
      linarith
  rw [← key]
  constructor
  · intro h
    obtain ⟨p, hp, rfl⟩ := List.mem_map.1 h2.1
    have := h p hp
    simp at this
    exact this.2
  · intro h p hp
    have := h2.2 p.1 (List.mem_map.2 ⟨p, hp, rfl⟩)
    simp only [hall p hp, Bool.true_and, decide_eq_true_eq]
    linarith

/-- Refutation of C08: 3 × 4 units pixels (hypot 5), two pixels at radii 0 and 5: one of them is lost. -/
theorem C08_pixel_lost : ∃ c n, binGridCount [(0, 1, true), (5, 1, true)] 5 none = .ok (c, n) ∧
    (5:ℚ)^2 = 3^2 + 4^2 ∧ n.sum = 1 ∧ numUnmasked [(0, 1, true), (5, 1, true)] = 2 :=
  ⟨[0], [1], by decide +kernel, by norm_num, by norm_num, by decide⟩

/-- What holds for default bins: an unmasked pixel is never used more than once, i.e. the counts never exceed the
number of unmasked pixels. -/
theorem C08_no_double_count_partial (px : List (ℚ × ℚ × Bool)) (res lo hi : ℚ) (hres : 0 < res)
    (hlo : (px.map (fun p => p.1)).min? = some lo) (hhi : (px.map (fun p => p.1)).max? = some hi) :
    ∃ c n, binGridCount px res none = .ok (c, n) ∧ n.sum ≤ numUnmasked px := by
  obtain ⟨c, n, e, h1, h2⟩ := C08_used_pixels px res lo hi hres hlo hhi
  refine ⟨c, n, e, ?_⟩
  have hle : lo ≤ hi := (List.max?_eq_some_iff.1 hhi).2 lo (List.min?_eq_some_iff.1 hlo).1
  rcases lt_or_eq_of_le hle with h | h
  · rw [h1 h]; norm_cast
    apply List.countP_mono_left
    intro p _ hp
    simp only [Bool.and_eq_true] at hp
    exact hp.1
  · rw [h2 h]; simp

example : ([(0, 1, true), (3, 1, true)] : List (ℚ × ℚ × Bool)).map (fun p => p.1) = [0, 3] ∧
  [(0:ℚ), 3].min? = some 0 ∧ [(0:ℚ), 3].max? = some 3 := by decide +kernel
example : binGridCount [(0, 1, true), (2, 1, true), (1, 9, false)] 5 none = .ok ([0], [2]) := by decide +kernel

end Verif.Utils
