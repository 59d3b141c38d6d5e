/- Model of the error bars of one_time_from_two_time (skbeam/core/correlation.py) and property C176. -/
import Verif.Corr.TwoProps
import Mathlib.Analysis.SpecialFunctions.Sqrt

namespace Verif.Corr
open Verif Finset

/-- `np.nanstd` of a list (`ddof=0`): the population standard deviation of the numbers, NaN when there is none.
Real arithmetic. -/
noncomputable def nanstd (l : List (Option ℚ)) : Option ℝ :=
  let v := l.filterMap id
  if v.length = 0 then none
  else some (Real.sqrt (((v.map (fun x => (x - v.sum / v.length) ^ 2)).sum / v.length : ℚ) : ℝ))

/-- The second array returned by `one_time_from_two_time(..., calc_errors=True)` for one ROI, correlation.py:933-945:
`np.nanstd(diag_array) / np.sqrt(len(diag_array))` for every time distance. -/
noncomputable def oneTimeErr (m : ℕ) (g : ℕ → ℕ → Option ℚ) : List (Option ℝ) :=
  (List.range m).map (fun j => (nanstd (diagK m g j)).map (fun s => s / Real.sqrt ((diagK m g j).length : ℝ)))

/-- `one_time_from_two_time(two_time_corr, calc_errors)`, correlation.py:933-945, for all ROIs: the second result is
there only when errors are asked for. -/
noncomputable def oneTimeBoth (m : ℕ) (gs : List (ℕ → ℕ → Option ℚ)) (calcErrors : Bool) :
    List (List (Option ℚ)) × Option (List (List (Option ℝ))) :=
  (gs.map (oneTimeFromTwoTime m), if calcErrors then some (gs.map (oneTimeErr m)) else none)

/-! ## Specification -/

/-- Mean of the numbers `x t`, `t ∈ S`. -/
noncomputable def Spec.meanOn (S : Finset ℕ) (x : ℕ → ℝ) : ℝ := (∑ t ∈ S, x t) / S.card

/-- Standard error of that mean by the central limit theorem: standard deviation over the square root of the number of
values averaged. -/
noncomputable def Spec.semOn (S : Finset ℕ) (x : ℕ → ℝ) : ℝ :=
  Real.sqrt ((∑ t ∈ S, (x t - Spec.meanOn S x) ^ 2) / S.card) / Real.sqrt S.card

/-- The numbers at time distance j. -/
noncomputable def Spec.diagVal (g : ℕ → ℕ → Option ℚ) (j : ℕ) : ℕ → ℝ := fun t => (((g t (t + j)).getD 0 : ℚ) : ℝ)

/-! ## Proofs -/

theorem filterMap_range_sum (m : ℕ) (f : ℕ → Option ℚ) (h : ℚ → ℚ) :
    ((((List.range m).map f).filterMap id).map h).sum
      = ∑ t ∈ (range m).filter (fun t => (f t).isSome), h ((f t).getD 0) := by
  induction m with
  | zero => simp
  | succ m ih =>
    rw [List.range_succ, List.map_append, List.filterMap_append, List.map_append, List.sum_append, ih,
      range_add_one, filter_insert]
    cases hf : f m with
    | none => simp [hf]
    | some x =>
      simp only [List.map_cons, List.map_nil, hf, Option.isSome_some, if_true]
      rw [sum_insert (by simp)]
      simp [hf, add_comm]

theorem nanstd_diag (m : ℕ) (g : ℕ → ℕ → Option ℚ) (j : ℕ) :
    nanstd (diagK m g j) = if Spec.diagGood m g j = ∅ then none else
      some (Real.sqrt ((∑ t ∈ Spec.diagGood m g j,
        (Spec.diagVal g j t - Spec.meanOn (Spec.diagGood m g j) (Spec.diagVal g j)) ^ 2)
          / (Spec.diagGood m g j).card)) := by
  unfold nanstd diagK
  obtain ⟨h1, h2⟩ := filterMap_range (m - j) (fun t => g t (t + j))
  simp only [h1, h2, filterMap_range_sum]
  by_cases h : Spec.diagGood m g j = ∅
  · rw [if_pos h, if_pos]; exact card_eq_zero.2 h
  · rw [if_neg h, if_neg (show ¬ (#((range (m - j)).filter (fun t => (g t (t + j)).isSome = true)) = 0) from
      fun h' => h (card_eq_zero.1 h'))]
    simp [Spec.diagVal, Spec.meanOn, Spec.diagGood]

/-- C176 (shape): asking for errors does not change the curves, and gives one error array per ROI with one error per
time distance; without `calc_errors` there is none. -/
theorem C176_shape (m : ℕ) (gs : List (ℕ → ℕ → Option ℚ)) :
    (oneTimeBoth m gs true).1 = (oneTimeBoth m gs false).1 ∧ (oneTimeBoth m gs false).2 = none ∧
    ∃ es, (oneTimeBoth m gs true).2 = some es ∧ es.length = gs.length ∧
      ∀ (r : ℕ) (g : ℕ → ℕ → Option ℚ), gs[r]? = some g → es[r]? = some (oneTimeErr m g) ∧ (oneTimeErr m g).length = m := by
  refine ⟨rfl, rfl, gs.map (oneTimeErr m), rfl, by simp, ?_⟩
  intro r g h
  exact ⟨by rw [List.getElem?_map, h]; rfl, by simp [oneTimeErr]⟩

theorem oneTimeErr_get (m : ℕ) (g : ℕ → ℕ → Option ℚ) (j : ℕ) (hj : j < m) :
    (oneTimeErr m g)[j]? = some (if Spec.diagGood m g j = ∅ then none else
      some (Real.sqrt ((∑ t ∈ Spec.diagGood m g j,
        (Spec.diagVal g j t - Spec.meanOn (Spec.diagGood m g j) (Spec.diagVal g j)) ^ 2)
          / (Spec.diagGood m g j).card) / Real.sqrt ((m - j : ℕ) : ℝ))) := by
  unfold oneTimeErr
  rw [List.getElem?_map, List.getElem?_range hj, Option.map_some, nanstd_diag]
  have hl : (diagK m g j).length = m - j := by simp [diagK]
  rw [hl]
  split <;> simp

/-- C176: the error at time distance j is the standard error of the mean reported there whenever every entry at that
distance is a number.  (Missing: distances with NaN entries, see `C176_nan_refuted`.) -/
theorem C176_standard_error_partial (m : ℕ) (g : ℕ → ℕ → Option ℚ) (j : ℕ) (hj : j < m)
    (hg : ∀ t < m - j, (g t (t + j)).isSome) :
    (oneTimeErr m g)[j]? = some (some (Spec.semOn (range (m - j)) (Spec.diagVal g j))) ∧
    (oneTimeFromTwoTime m g)[j]?.map (Option.map (fun (q : ℚ) => (q : ℝ)))
      = some (some (Spec.meanOn (range (m - j)) (Spec.diagVal g j))) := by
  have hd : Spec.diagGood m g j = range (m - j) := by
    unfold Spec.diagGood
    rw [filter_true_of_mem]
    intro t ht
    exact hg t (mem_range.1 ht)
  have hne : range (m - j) ≠ ∅ := by
    rw [Ne, range_eq_empty_iff]
    omega
  constructor
  · rw [oneTimeErr_get m g j hj, hd, if_neg hne]
    simp [Spec.semOn]
  · rw [(C53_diagonal_means m g).2 j hj, hd, if_neg hne]
    simp [Spec.meanOn, Spec.diagVal]

/-- C176, every distance: the error is the standard error of the reported mean times the square root of the fraction of
entries that are numbers, because the divisor counts the NaN entries too; so it never exceeds the standard error, and
is strictly smaller as soon as one entry is NaN and the numbers differ. NaN when there is no number. -/
theorem C176_general_partial (m : ℕ) (g : ℕ → ℕ → Option ℚ) (j : ℕ) (hj : j < m) :
    let S := Spec.diagGood m g j
    (S = ∅ → (oneTimeErr m g)[j]? = some none) ∧
    (S ≠ ∅ → ∃ e : ℝ, (oneTimeErr m g)[j]? = some (some e) ∧
      e = Spec.semOn S (Spec.diagVal g j) * Real.sqrt ((S.card : ℝ) / ((m - j : ℕ) : ℝ)) ∧
      0 ≤ e ∧ e ≤ Spec.semOn S (Spec.diagVal g j) ∧
      (e = 0 ↔ ∀ t ∈ S, ∀ u ∈ S, g t (t + j) = g u (u + j)) ∧
      (S.card < m - j → e ≠ 0 → e < Spec.semOn S (Spec.diagVal g j))) := by
  intro S
  refine ⟨fun h => by rw [oneTimeErr_get m g j hj, if_pos h], fun h => ?_⟩
  have hc : (0 : ℝ) < S.card := by exact_mod_cast card_pos.2 (nonempty_iff_ne_empty.2 h)
  have hmj : (0 : ℝ) < ((m - j : ℕ) : ℝ) := by exact_mod_cast (by omega : 0 < m - j)
  have hle : S.card ≤ m - j := by
    have := card_filter_le (range (m - j)) (fun t => (g t (t + j)).isSome)
    rwa [card_range] at this
  have hle' : (S.card : ℝ) ≤ ((m - j : ℕ) : ℝ) := by exact_mod_cast hle
  set V := ∑ t ∈ S, (Spec.diagVal g j t - Spec.meanOn S (Spec.diagVal g j)) ^ 2 with hV
  have hV0 : 0 ≤ V := sum_nonneg (fun _ _ => sq_nonneg _)
  have hsc : 0 < Real.sqrt S.card := Real.sqrt_pos.2 hc
  have hsm : 0 < Real.sqrt ((m - j : ℕ) : ℝ) := Real.sqrt_pos.2 hmj
  have hsem : Spec.semOn S (Spec.diagVal g j) = Real.sqrt (V / S.card) / Real.sqrt S.card := rfl
  have he : Real.sqrt (V / S.card) / Real.sqrt ((m - j : ℕ) : ℝ)
      = Spec.semOn S (Spec.diagVal g j) * Real.sqrt ((S.card : ℝ) / ((m - j : ℕ) : ℝ)) := by
    rw [hsem, Real.sqrt_div hc.le]
    field_simp
  have hsem0 : 0 ≤ Spec.semOn S (Spec.diagVal g j) := by rw [hsem]; positivity
  refine ⟨Real.sqrt (V / S.card) / Real.sqrt ((m - j : ℕ) : ℝ), ?_, he, by positivity, ?_, ?_, ?_⟩
  · rw [oneTimeErr_get m g j hj, if_neg h]
  · rw [he]
    apply mul_le_of_le_one_right hsem0
    rw [Real.sqrt_le_one]
    exact (div_le_one hmj).2 hle'
  · have h1 : Real.sqrt (V / S.card) / Real.sqrt ((m - j : ℕ) : ℝ) = 0 ↔ V = 0 := by
      rw [div_eq_zero_iff, Real.sqrt_eq_zero (by positivity), div_eq_zero_iff]
      constructor
      · rintro ((h | h) | h)
        · exact h
        · exact absurd h hc.ne'
        · exact absurd h hsm.ne'
      · intro h; exact Or.inl (Or.inl h)
    rw [h1, hV, sum_eq_zero_iff_of_nonneg (fun _ _ => sq_nonneg _)]
    have hval : ∀ t ∈ S, ∀ u ∈ S, Spec.diagVal g j t = Spec.diagVal g j u → g t (t + j) = g u (u + j) := by
      intro t ht u hu e
      have h1 := (mem_filter.1 ht).2
      have h2 := (mem_filter.1 hu).2
      obtain ⟨x, hx⟩ := Option.isSome_iff_exists.1 h1
      obtain ⟨y, hy⟩ := Option.isSome_iff_exists.1 h2
      simp only [Spec.diagVal, hx, hy, Option.getD_some] at e
      rw [hx, hy]
      congr 1
      exact_mod_cast e
    constructor
    · intro hz t ht u hu
      apply hval t ht u hu
      have a := pow_eq_zero_iff (two_ne_zero) |>.1 (hz t ht)
      have b := pow_eq_zero_iff (two_ne_zero) |>.1 (hz u hu)
      linarith
    · intro hz t ht
      have hm : Spec.meanOn S (Spec.diagVal g j) = Spec.diagVal g j t := by
        unfold Spec.meanOn
        rw [div_eq_iff hc.ne', sum_congr rfl (fun u hu => show Spec.diagVal g j u = Spec.diagVal g j t by
          simp only [Spec.diagVal]; rw [hz u hu t ht]), sum_const, nsmul_eq_mul, mul_comm]
      rw [hm]; ring
  · intro hlt hne
    have hlt' : (S.card : ℝ) < ((m - j : ℕ) : ℝ) := by exact_mod_cast hlt
    have hs : 0 < Spec.semOn S (Spec.diagVal g j) := by
      rcases hsem0.lt_or_eq with h0 | h0
      · exact h0
      · exfalso; apply hne; rw [he, ← h0, zero_mul]
    rw [he]
    apply mul_lt_of_lt_one_right hs
    rw [Real.sqrt_lt' one_pos, one_pow]
    exact (div_lt_one hmj).2 hlt'

/-- C176 is false with NaN entries: the values 1, NaN, 3 at time distance 0 have mean 2 with standard error
1/√2, but the reported error is 1/√3. -/
theorem C176_nan_refuted : ∃ (m : ℕ) (g : ℕ → ℕ → Option ℚ), Spec.diagGood m g 0 = {0, 2} ∧
    (oneTimeErr m g)[0]? = some (some (1 / Real.sqrt 3)) ∧
    Spec.semOn (Spec.diagGood m g 0) (Spec.diagVal g 0) = 1 / Real.sqrt 2 ∧ 1 / Real.sqrt 3 < 1 / Real.sqrt 2 := by
  have hS : Spec.diagGood 3 (fun a b => if a = 1 ∧ b = 1 then none else some ((a : ℚ) + 1)) 0 = {0, 2} := by
    decide +kernel
  refine ⟨3, fun a b => if a = 1 ∧ b = 1 then none else some ((a : ℚ) + 1), hS, ?_, ?_, ?_⟩
  · rw [oneTimeErr_get _ _ _ (by norm_num), hS, if_neg (by simp)]
    norm_num [Spec.meanOn, Spec.diagVal]
  · rw [hS]
    norm_num [Spec.semOn, Spec.meanOn, Spec.diagVal]
  · apply one_div_lt_one_div_of_lt (Real.sqrt_pos.2 (by norm_num))
    exact Real.sqrt_lt_sqrt (by norm_num) (by norm_num)

/-- Non-vacuous: a full diagonal with the values 1, 2, 3 has error √(2/3)/√3. -/
example : (oneTimeErr 3 (fun a _ => some ((a : ℚ) + 1)))[0]? =
    some (some (Spec.semOn (range 3) (Spec.diagVal (fun a _ => some ((a : ℚ) + 1)) 0))) :=
  (C176_standard_error_partial 3 _ 0 (by norm_num) (by simp)).1

end Verif.Corr
