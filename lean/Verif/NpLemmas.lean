/- Lemmas on the numpy primitives used in several areas. -/
import Verif.Np
import Verif.Fl
import Mathlib.Tactic.Positivity

namespace Verif.Np
open Verif

/-- For ascending `a`, the entries ≤ x are exactly the first `digitize a x` ones. -/
theorem getElem?_le_iff_digitize (a : List ℚ) (h : a.Pairwise (· ≤ ·)) (x : ℚ) (k : ℕ) (v : ℚ) (hk : a[k]? = some v) :
    v ≤ x ↔ k < digitize a x := by
  unfold digitize searchsortedRight
  induction a generalizing k with
  | nil => simp at hk
  | cons b t ih =>
    rw [List.pairwise_cons] at h
    rw [List.countP_cons]
    cases k with
    | zero =>
      simp at hk; subst hk
      by_cases hb : b ≤ x
      · simp [hb]
      · have : t.countP (fun e => decide (e ≤ x)) = 0 := by
          rw [List.countP_eq_zero]
          intro e he; simp only [decide_eq_true_eq]; have := h.1 e he; intro h2; exact hb (by linarith)
        simp [hb, this]
    | succ k =>
      simp only [List.getElem?_cons_succ] at hk
      rw [ih h.2 k hk]
      by_cases hb : b ≤ x
      · simp [hb]
      · have hv : b ≤ v := h.1 v (List.mem_of_getElem? hk)
        have h0 : t.countP (fun e => decide (e ≤ x)) = 0 := by
          rw [List.countP_eq_zero]
          intro e he; simp only [decide_eq_true_eq]; have := h.1 e he; intro h2; exact hb (by linarith)
        simp [hb, h0]

theorem digitize_le_length (a : List ℚ) (x : ℚ) : digitize a x ≤ a.length := List.countP_le_length

theorem roundHalfEven_close (q : ℚ) : |q - (Fl.roundHalfEven q : ℚ)| ≤ 1 / 2 := by
  have h1 := Int.floor_le q
  have h2 := Int.lt_floor_add_one q
  unfold Fl.roundHalfEven
  simp only
  split
  · rw [abs_le]; constructor <;> linarith
  · split
    · push_cast; rw [abs_le]; constructor <;> linarith
    · split
      · rw [abs_le]; constructor <;> linarith
      · push_cast; rw [abs_le]; constructor <;> linarith

end Verif.Np
