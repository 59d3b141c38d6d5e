/- Property C153: normalised bin edges. -/
import Verif.Speckle.Norm
import Mathlib.Tactic.FieldSimp
import Mathlib.Tactic.Ring
import Mathlib.Tactic.Linarith
import Mathlib.Algebra.Order.Field.Basic

namespace Verif.Speckle
open Verif

theorem normEdge_get (m : ℚ) (maxCts i k : ℕ) (hk : k < maxCts * 2 ^ i) : (normEdge m maxCts i)[k]? = some (k / (m * 2 ^ i)) := by
  unfold normEdge Np.arange
  rw [List.getElem?_map, List.getElem?_map, List.getElem?_range hk]; rfl

theorem length_normEdge (m : ℚ) (maxCts i : ℕ) : (normEdge m maxCts i).length = maxCts * 2 ^ i := by simp [normEdge, Np.arange]

/-- C153: for integration time i (2^i frames added up) and each of the num_rois regions j, the edges are the counts 0, 1, 2, ... below
max_cts · 2^i divided by the expected count mean_j · 2^i; there is one centre less, half-way between neighbouring edges;
a total count x falls between the k-th and the next edge after normalisation exactly if k ≤ x < k + 1. -/
theorem C153_edges (numTimes numRois : ℕ) (mean : List ℚ) (maxCts : ℕ) (hl : numRois ≤ mean.length) :
    ∃ E C, normalizeBinEdges numTimes numRois mean maxCts = .ok (E, C) ∧ E.length = numTimes ∧ C.length = numTimes ∧
      (∀ x ∈ E, x.length = numRois) ∧ (∀ x ∈ C, x.length = numRois) ∧
      ∀ i < numTimes, ∀ j < numRois, ∃ m e c, mean[j]? = some m ∧ (E[i]?.bind (·[j]?)) = some e ∧ (C[i]?.bind (·[j]?)) = some c ∧
        e.length = maxCts * 2 ^ i ∧ c.length = maxCts * 2 ^ i - 1 ∧ (∀ k < maxCts * 2 ^ i, e[k]? = some (k / (m * 2 ^ i))) ∧
        ∀ k, k + 1 < maxCts * 2 ^ i → ∃ x y, e[k]? = some x ∧ e[k + 1]? = some y ∧ c[k]? = some ((x + y) / 2) ∧
          (0 < m → ∀ t : ℚ, (x ≤ t / (m * 2 ^ i) ∧ t / (m * 2 ^ i) < y) ↔ ((k : ℚ) ≤ t ∧ t < k + 1)) := by
  unfold normalizeBinEdges
  rw [if_neg (by omega)]
  refine ⟨_, _, rfl, by simp, by simp, by simp [hl], by simp [hl], ?_⟩
  intro i hi j hj
  have hjl : j < mean.length := by omega
  have hm : (mean.take numRois)[j]? = some mean[j] := by rw [List.getElem?_take, if_pos hj, List.getElem?_eq_getElem hjl]
  refine ⟨mean[j], normEdge mean[j] maxCts i, Utils.binEdgesToCenters (normEdge mean[j] maxCts i), List.getElem?_eq_getElem hjl, ?_, ?_, length_normEdge _ _ _, ?_, ?_, ?_⟩
  · simp [hi, hj, hjl]
  · simp [hi, hj, hjl]
  · simp [Utils.binEdgesToCenters, length_normEdge]
  · intro k hk; exact normEdge_get _ _ _ _ hk
  · intro k hk
    refine ⟨_, _, normEdge_get _ _ _ k (by omega), normEdge_get _ _ _ (k + 1) hk, ?_, ?_⟩
    · unfold Utils.binEdgesToCenters
      rw [List.getElem?_zipWith, List.getElem?_dropLast, length_normEdge, if_pos (by omega), List.getElem?_tail, normEdge_get _ _ _ k (by omega), normEdge_get _ _ _ (k + 1) hk]
      simp only
      congr 1; ring
    · intro hm0 t
      have hp : 0 < mean[j] * 2 ^ i := mul_pos hm0 (by positivity)
      rw [div_le_div_iff_of_pos_right hp, div_lt_div_iff_of_pos_right hp]
      push_cast
      rfl

/-- C153: a mean is needed for every region. -/
theorem C153_missing_mean (numTimes numRois : ℕ) (mean : List ℚ) (maxCts : ℕ) (h0 : 0 < numTimes) (hl : mean.length < numRois) :
    normalizeBinEdges numTimes numRois mean maxCts = .error .indexError := by
  unfold normalizeBinEdges
  rw [if_pos ⟨h0, hl⟩]

example : normalizeBinEdges 2 2 [2, 1 / 2] 3 = .ok ([[[0, 1 / 2, 1], [0, 2, 4]], [[0, 1 / 4, 1 / 2, 3 / 4, 1, 5 / 4], [0, 1, 2, 3, 4, 5]]],
    [[[1 / 4, 3 / 4], [1, 3]], [[1 / 8, 3 / 8, 5 / 8, 7 / 8, 9 / 8], [1 / 2, 3 / 2, 5 / 2, 7 / 2, 9 / 2]]]) := by decide +kernel

end Verif.Speckle
