/- C270: laws of filter_n_largest (skbeam/core/feature.py 220-254). -/
import Verif.Feature.Props
import Mathlib.Data.List.Sort

namespace Verif.Feature
open Verif

/-- The candidates in descending order of height. -/
theorem n_largest_eq (argsort : List ℚ → List ℕ) (hs : Spec.IsArgsort argsort) (y : List ℚ) (cands : List ℕ)
    (hc : ∀ c ∈ cands, c < y.length) : ∃ m : List ℕ, m.Perm cands ∧ m.Pairwise (fun a b => y.getD b 0 ≤ y.getD a 0) ∧
      ∀ N : ℤ, 1 ≤ N → filterNLargest argsort y cands N = .ok (m.take N.toNat) := by
  obtain ⟨r, rest, h1, h2, h3, h4, h5⟩ := C56_n_largest argsort hs y cands hc (cands.length + 1) (by omega)
  have hrl : r.length = cands.length := by omega
  have hrest : rest = [] := by
    have := h2.length_eq
    rw [List.length_append] at this
    exact List.eq_nil_of_length_eq_zero (by omega)
  rw [hrest, List.append_nil] at h2
  refine ⟨r, h2, h5, ?_⟩
  intro N hN
  have hany : cands.any (fun c => decide (y.length ≤ c)) = false := by
    rw [List.any_eq_false]
    intro c hcc
    have := hc c hcc
    simp only [decide_eq_true_eq]
    omega
  unfold filterNLargest at h1 ⊢
  rw [if_neg (by omega), if_neg (by rw [hany]; simp)] at h1 ⊢
  simp only at h1 ⊢
  rw [if_pos (by omega)] at h1
  cases h1
  have hsl : (argsort (cands.map (fun c => y.getD c 0))).length = cands.length := by
    rw [(hs _).1.length_eq]; simp
  split_ifs with hlt
  · rw [List.take_of_length_le (by rw [hrl]; omega)]
  · rw [List.map_drop, List.take_reverse, List.length_map]

/-! ## C270 -/

/-- C270: the N largest are the first N of the N' largest, for N up to N'. -/
theorem C270_prefix (argsort : List ℚ → List ℕ) (hs : Spec.IsArgsort argsort) (y : List ℚ) (cands : List ℕ) (hc : ∀ c ∈ cands, c < y.length)
    (N N' : ℤ) (hN : 1 ≤ N) (hNN : N ≤ N') : ∃ r, filterNLargest argsort y cands N' = .ok r ∧ filterNLargest argsort y cands N = .ok (r.take N.toNat) := by
  obtain ⟨m, _, _, h⟩ := n_largest_eq argsort hs y cands hc
  refine ⟨_, h N' (by omega), ?_⟩
  rw [h N hN, List.take_take, min_eq_left (by omega)]

/-- C270: filtering the result again with at least the same N keeps all of it. -/
theorem C270_again (argsort : List ℚ → List ℕ) (hs : Spec.IsArgsort argsort) (y : List ℚ) (cands : List ℕ) (hc : ∀ c ∈ cands, c < y.length)
    (N N' : ℤ) (hN : 1 ≤ N) (hNN : N ≤ N') : ∃ r r', filterNLargest argsort y cands N = .ok r ∧ filterNLargest argsort y r N' = .ok r' ∧ r'.Perm r := by
  obtain ⟨m, hp, _, h⟩ := n_largest_eq argsort hs y cands hc
  have hc' : ∀ c ∈ m.take N.toNat, c < y.length := fun c hm => hc c (hp.subset (List.mem_of_mem_take hm))
  obtain ⟨m', hp', _, h'⟩ := n_largest_eq argsort hs y (m.take N.toNat) hc'
  refine ⟨_, _, h N hN, h' N' (by omega), ?_⟩
  rw [List.take_of_length_le]
  · exact hp'
  · rw [hp'.length_eq, List.length_take]
    omega

/-- C270: among candidates of different heights the result depends on their order by height alone: not on the sorting algorithm,
not on the order in which the candidates are given, not on the scale of the spectrum. -/
theorem C270_order (argsort argsort' : List ℚ → List ℕ) (hs : Spec.IsArgsort argsort) (hs' : Spec.IsArgsort argsort') (y y' : List ℚ)
    (cands cands' : List ℕ) (hc : ∀ c ∈ cands, c < y.length) (hc' : ∀ c ∈ cands', c < y'.length) (hperm : cands.Perm cands')
    (hdist : ∀ a ∈ cands, ∀ b ∈ cands, y.getD a 0 = y.getD b 0 → a = b)
    (hord : ∀ a ∈ cands, ∀ b ∈ cands, (y.getD a 0 ≤ y.getD b 0 ↔ y'.getD a 0 ≤ y'.getD b 0)) (N : ℤ) :
    filterNLargest argsort y cands N = filterNLargest argsort' y' cands' N := by
  by_cases hN : 1 ≤ N
  · obtain ⟨m, hp, hw, h⟩ := n_largest_eq argsort hs y cands hc
    obtain ⟨m', hp', hw', h'⟩ := n_largest_eq argsort' hs' y' cands' hc'
    rw [h N hN, h' N hN]
    have hpm : m.Perm m' := hp.trans (hperm.trans hp'.symm)
    have hw'' : m'.Pairwise (fun a b => y.getD b 0 ≤ y.getD a 0) := by
      refine hw'.imp_of_mem ?_
      intro a b ha hb hab
      have ha := hperm.symm.subset (hp'.subset ha)
      have hb := hperm.symm.subset (hp'.subset hb)
      exact (hord b hb a ha).2 hab
    have : m = m' := by
      refine List.Perm.eq_of_pairwise ?_ hw hw'' hpm
      intro a b ha hb h1 h2
      have hb := hp.subset (hpm.symm.subset hb)
      exact hdist a (hp.subset ha) b hb (le_antisymm h2 h1)
    rw [this]
  · unfold filterNLargest
    rw [if_pos (by omega), if_pos (by omega)]

/-- C270: a positive scale and an offset of the spectrum do not change the result. -/
theorem C270_scale (argsort : List ℚ → List ℕ) (hs : Spec.IsArgsort argsort) (y : List ℚ) (cands : List ℕ) (hc : ∀ c ∈ cands, c < y.length)
    (hdist : ∀ a ∈ cands, ∀ b ∈ cands, y.getD a 0 = y.getD b 0 → a = b) (s o : ℚ) (hpos : 0 < s) (N : ℤ) :
    filterNLargest argsort (y.map (fun v => s * v + o)) cands N = filterNLargest argsort y cands N := by
  symm
  have hv : ∀ a ∈ cands, (y.map (fun v => s * v + o)).getD a 0 = s * y.getD a 0 + o := by
    intro a ha
    have := hc a ha
    simp [List.getD, this]
  apply C270_order argsort argsort hs hs y _ cands cands hc (by simpa using hc) (List.Perm.refl _) hdist
  intro a ha b hb
  rw [hv a ha, hv b hb]
  constructor
  · intro h
    have := mul_le_mul_of_nonneg_left h hpos.le
    linarith
  · intro h
    exact le_of_mul_le_mul_left (by linarith) hpos

/-- Instance: four candidates of different heights, given in two orders. -/
example : (∀ a ∈ [0, 2, 3, 5], ∀ b ∈ [0, 2, 3, 5], ([5, 1, 9, 8, 2, 7] : List ℚ).getD a 0 = ([5, 1, 9, 8, 2, 7] : List ℚ).getD b 0 → a = b) ∧
    filterNLargest exArgsort [5, 1, 9, 8, 2, 7] [0, 2, 3, 5] 2 = .ok [2, 3] ∧ filterNLargest exArgsort [5, 1, 9, 8, 2, 7] [5, 3, 2, 0] 2 = .ok [2, 3] := by decide +kernel

end Verif.Feature
