import Verif.Grid.Model

namespace Verif.Grid
open Verif

theorem clr_iter (size : ℕ) (s : Clr) (t : ℕ) (hpc : s.pc t = .test) (hj : s.j < size) :
    let s' := s.run size (List.replicate 6 t)
    s'.pc t = .test ∧ s'.j = s.j + 1 ∧ (∀ t', t' ≠ t → s'.pc t' = s.pc t') ∧ s'.oob = s.oob ∧
    ∀ t' k c, s'.mem t' k c = if t' = t ∧ k < 3 ∧ c = s.j then 0 else s.mem t' k c := by
  obtain ⟨j, pc, mem, oob⟩ := s
  simp only at hpc hj
  have hle : ¬ size ≤ j := by omega
  simp only [Clr.run, List.replicate, List.foldl_cons, List.foldl_nil, Clr.step, hpc, hj, if_true, Clr.store, hle,
    decide_false, Bool.or_false]
  refine ⟨trivial, trivial, ?_, trivial, ?_⟩
  · intro t' ht; simp [ht]
  · intro t' k c
    by_cases h1 : t' = t <;> by_cases h2 : c = j
    · subst h1 h2
      by_cases h3 : k < 3
      · have : k = 0 ∨ k = 1 ∨ k = 2 := by omega
        rcases this with rfl | rfl | rfl <;> simp
      · simp [show k ≠ 0 by omega, show k ≠ 1 by omega, show k ≠ 2 by omega, h3]
    all_goals simp [h1, h2]

theorem clr_loop (size : ℕ) (t : ℕ) (n : ℕ) : ∀ s : Clr, s.pc t = .test → s.j + n ≤ size →
    let s' := s.run size (List.replicate (6 * n) t)
    s'.pc t = .test ∧ s'.j = s.j + n ∧ (∀ t', t' ≠ t → s'.pc t' = s.pc t') ∧ s'.oob = s.oob ∧
    ∀ t' k c, s'.mem t' k c = if t' = t ∧ k < 3 ∧ s.j ≤ c ∧ c < s.j + n then 0 else s.mem t' k c := by
  induction n with
  | zero =>
    intro s hpc _
    refine ⟨hpc, rfl, fun _ _ => rfl, rfl, fun t' k c => ?_⟩
    rw [if_neg (by omega)]; rfl
  | succ n ih =>
    intro s hpc hj
    have h6 := clr_iter size s t hpc (by omega)
    obtain ⟨a1, a2, a3, a4, a5⟩ := h6
    have := ih (s.run size (List.replicate 6 t)) a1 (by rw [a2]; omega)
    obtain ⟨b1, b2, b3, b4, b5⟩ := this
    have e : s.run size (List.replicate (6 * (n + 1)) t) =
        (s.run size (List.replicate 6 t)).run size (List.replicate (6 * n) t) := by
      rw [show 6 * (n + 1) = 6 + 6 * n by ring, List.replicate_add]
      simp only [Clr.run, List.foldl_append]
    simp only [e]
    refine ⟨b1, by rw [b2, a2]; ring, fun t' ht => by rw [b3 t' ht, a3 t' ht], by rw [b4, a4], fun t' k c => ?_⟩
    rw [b5, a5, a2]
    by_cases h1 : t' = t ∧ k < 3
    · by_cases h2 : s.j ≤ c ∧ c < s.j + (n + 1)
      · rw [if_pos (show t' = t ∧ k < 3 ∧ s.j ≤ c ∧ c < s.j + (n + 1) from ⟨h1.1, h1.2, h2.1, h2.2⟩)]
        by_cases h3 : c = s.j
        · rw [if_pos (c := t' = t ∧ k < 3 ∧ c = s.j) ⟨h1.1, h1.2, h3⟩, ite_self]
        · rw [if_pos]; exact ⟨h1.1, h1.2, by omega, by omega⟩
      · rw [if_neg, if_neg, if_neg] <;> omega
    · rw [if_neg (fun h => h1 ⟨h.1, h.2.1⟩), if_neg (fun h => h1 ⟨h.1, h.2.1⟩), if_neg (fun h => h1 ⟨h.1, h.2.1⟩)]

/-- The whole loop run without interruption by one thread, from the `test` with j = 0. -/
theorem clr_whole (size : ℕ) (t : ℕ) (s : Clr) (hpc : s.pc t = .test) (hj : s.j = 0) :
    let s' := s.run size (List.replicate (6 * size + 1) t)
    s'.pc t = .done ∧ s'.j = size ∧ (∀ t', t' ≠ t → s'.pc t' = s.pc t') ∧ s'.oob = s.oob ∧
    ∀ t' k c, s'.mem t' k c = if t' = t ∧ k < 3 ∧ c < size then 0 else s.mem t' k c := by
  obtain ⟨b1, b2, b3, b4, b5⟩ := clr_loop size t size s hpc (by omega)
  have e : s.run size (List.replicate (6 * size + 1) t) = (s.run size (List.replicate (6 * size) t)).step size t := by
    rw [List.replicate_add]
    simp only [Clr.run, List.foldl_append, List.replicate_one, List.foldl_cons, List.foldl_nil]
  simp only [e]
  set r := s.run size (List.replicate (6 * size) t)
  rw [hj, Nat.zero_add] at b2
  have es : r.step size t = { r with pc := fun t' => if t' = t then .done else r.pc t' } := by
    unfold Clr.step; rw [b1]; simp [b2]
  rw [es]
  refine ⟨by simp, b2, fun t' ht => by simp [ht, b3 t' ht], b4, fun t' k c => ?_⟩
  rw [b5]; simp [hj]

end Verif.Grid
