import Verif.Utils.Model
import Mathlib.Algebra.Order.Floor.Semiring
import Mathlib.Algebra.Order.Archimedean.Basic
import Mathlib.Tactic.Positivity
import Mathlib.Data.List.MinMax

namespace Verif.Utils
open Verif

theorem geomLoop_eq (ratio n : ℚ) (fuel : ℕ) (first : ℚ) (acc r : List ℚ)
    (h : geomLoop ratio n fuel first acc = some r) :
    ∃ m : ℕ, r = ((List.range m).map (fun k => first * ratio ^ (k + 1))).reverse ++ acc ∧
      (∀ k < m, first * ratio ^ (k + 1) < n) ∧ ¬ first * ratio ^ (m + 1) < n := by
  induction fuel generalizing first acc with
  | zero => simp [geomLoop] at h
  | succ f ih =>
    unfold geomLoop at h
    split at h
    · rename_i hlt
      obtain ⟨m, h1, h2, h3⟩ := ih _ _ h
      have e : ∀ k, first * ratio * ratio ^ (k + 1) = first * ratio ^ (k + 1 + 1) := fun k => by ring
      refine ⟨m + 1, ?_, ?_, ?_⟩
      · rw [h1, List.range_succ_eq_map]
        simp only [e, List.map_cons, List.map_map, List.reverse_cons, List.append_assoc]
        simp [Function.comp_def]
      · intro k hk
        cases k with
        | zero => simpa using hlt
        | succ k => rw [← e]; exact h2 k (by omega)
      · rw [← e]; exact h3
    · rename_i hlt
      refine ⟨0, by simpa using h.symm, by simp, by simpa using hlt⟩

theorem geomLoop_none_of (ratio n : ℚ) (fuel : ℕ) (first : ℚ) (acc : List ℚ)
    (h : ∀ k < fuel, first * ratio ^ (k + 1) < n) : geomLoop ratio n fuel first acc = none := by
  induction fuel generalizing first acc with
  | zero => rfl
  | succ f ih =>
    unfold geomLoop
    rw [if_pos (by simpa using h 0 (by omega))]
    refine ih _ _ (fun k hk => ?_)
    have := h (k + 1) (by omega)
    calc first * ratio * ratio ^ (k + 1) = first * ratio ^ (k + 1 + 1) := by ring
      _ < n := this

theorem geomLoop_some_of (ratio n : ℚ) (m : ℕ) (first : ℚ) (acc : List ℚ)
    (h : ¬ first * ratio ^ (m + 1) < n) : ∀ fuel, m < fuel → ∃ r, geomLoop ratio n fuel first acc = some r := by
  induction m generalizing first acc with
  | zero =>
    intro fuel hf
    obtain ⟨f, rfl⟩ : ∃ f, fuel = f + 1 := ⟨fuel - 1, by omega⟩
    exact ⟨acc, by unfold geomLoop; rw [if_neg (by simpa using h)]⟩
  | succ m ih =>
    intro fuel hf
    obtain ⟨f, rfl⟩ : ∃ f, fuel = f + 1 := ⟨fuel - 1, by omega⟩
    unfold geomLoop
    split
    · refine ih _ _ ?_ f (by omega)
      intro hlt; apply h
      calc first * ratio ^ (m + 1 + 1) = first * ratio * ratio ^ (m + 1) := by ring
        _ < n := hlt
    · exact ⟨_, rfl⟩

theorem length_arith (a s : ℚ) (n : ℕ) : (arith a s n).length = n + 1 := by simp [arith]
theorem getElem?_arith (a s : ℚ) (n k : ℕ) (h : k < n + 1) : (arith a s n)[k]? = some (a + k * s) := by
  simp [arith, h]

theorem isChain_map_range (f : ℕ → ℚ) (n : ℕ) (R : ℚ → ℚ → Prop) (h : ∀ k, k + 1 < n → R (f k) (f (k+1))) :
    ((List.range n).map f).IsChain R := by
  rw [List.isChain_iff_getElem]
  intro i hi
  simp at hi
  simpa using h i hi

theorem linspace_chain (a b : ℚ) (n : ℕ) (h : a ≤ b) : (Np.linspace a b n).IsChain (· ≤ ·) := by
  apply isChain_map_range
  intro k hk
  have : (0:ℚ) ≤ (b - a) / ((n - 1 : ℕ) : ℚ) := div_nonneg (by linarith) (by positivity)
  push_cast
  nlinarith

end Verif.Utils
