/- Lemmas for the cross-correlation model. -/
import Verif.Cross.Model
import Verif.Cross.Spec
import Verif.Corr.LabelLemmas
import Mathlib.Algebra.BigOperators.Group.Finset.Basic
import Mathlib.Algebra.BigOperators.Group.Finset.Sigma
import Mathlib.Algebra.Order.Ring.Rat

namespace Verif.Cross
open Verif Finset

theorem mem_positions (h w : ℕ) (p : ℕ × ℕ) : p ∈ positions h w ↔ p.1 < h ∧ p.2 < w := by
  obtain ⟨a, b⟩ := p
  simp [positions]

theorem nodup_positions (h w : ℕ) : (positions h w).Nodup := by
  unfold positions
  rw [List.nodup_flatMap]
  refine ⟨fun x _ => (List.nodup_range).map (fun a b e => by simpa using e), ?_⟩
  refine (List.nodup_range (n := h)).imp ?_
  intro a b hab
  simp only [Function.onFun, List.disjoint_left, List.mem_map]
  rintro ⟨x, y⟩ ⟨q, _, e1⟩ ⟨q', _, e2⟩
  simp only [Prod.mk.injEq] at e1 e2
  exact hab (by omega)

theorem sum_positions (h w : ℕ) (f : ℕ × ℕ → ℚ) :
    ((positions h w).map f).sum = ∑ p ∈ (positions h w).toFinset, f p := by
  rw [List.sum_toFinset _ (nodup_positions h w)]

theorem box_bounds (S : List (ℕ × ℕ)) (p : ℕ × ℕ) (hp : p ∈ S) :
    (boxOf S).r0 ≤ p.1 ∧ p.1 ≤ (boxOf S).r1 ∧ (boxOf S).c0 ≤ p.2 ∧ p.2 ≤ (boxOf S).c1 := by
  have key : ∀ (l : List ℕ) (x : ℕ), x ∈ l → l.min?.getD 0 ≤ x ∧ x ≤ l.max?.getD 0 := by
    intro l x hx
    have hne : l ≠ [] := by rintro rfl; simp at hx
    constructor
    · cases h : l.min? with
      | none => exact absurd (List.min?_eq_none_iff.1 h) hne
      | some m => exact (List.min?_eq_some_iff.1 h).2 x hx
    · cases h : l.max? with
      | none => exact absurd (List.max?_eq_none_iff.1 h) hne
      | some m => exact (List.max?_eq_some_iff.1 h).2 x hx
  have h1 := key (S.map Prod.fst) p.1 (List.mem_map.2 ⟨p, hp, rfl⟩)
  have h2 := key (S.map Prod.snd) p.2 (List.mem_map.2 ⟨p, hp, rfl⟩)
  exact ⟨h1.1, h1.2, h2.1, h2.2⟩

/-- The correlation of two sub-images is the sum over pixel pairs of the region at the displacement of the entry. -/
theorem crossCorr_sub (S : List (ℕ × ℕ)) (a b : Img) (m1 m2 : ℕ) :
    crossCorr (boxOf S).h (boxOf S).w (sub S a) (sub S b) m1 m2 =
      Spec.pairSum S.toFinset a b ((m1 : ℤ) - ((boxOf S).r1 - (boxOf S).r0 : ℕ))
        ((m2 : ℤ) - ((boxOf S).c1 - (boxOf S).c0 : ℕ)) := by
  unfold crossCorr convFull
  rw [sum_positions]
  set B := boxOf S with hB
  have hbox := box_bounds S
  rw [← hB] at hbox
  have hh : B.h = 1 + (B.r1 - B.r0) := rfl
  have hw : B.w = 1 + (B.c1 - B.c0) := rfl
  -- keep the terms whose two pixels are in the region
  set good : ℕ × ℕ → Prop := fun p => (p.1 ≤ m1 ∧ m1 - p.1 < B.h ∧ p.2 ≤ m2 ∧ m2 - p.2 < B.w) ∧
    (p.1 + B.r0, p.2 + B.c0) ∈ S ∧ (B.h - 1 - (m1 - p.1) + B.r0, B.w - 1 - (m2 - p.2) + B.c0) ∈ S with hgood
  have hterm : ∀ p ∈ (positions B.h B.w).toFinset,
      (if p.1 ≤ m1 ∧ m1 - p.1 < B.h ∧ p.2 ≤ m2 ∧ m2 - p.2 < B.w then
        sub S a p.1 p.2 * rev B.h B.w (sub S b) (m1 - p.1) (m2 - p.2) else 0) =
      if good p then a (p.1 + B.r0) (p.2 + B.c0) *
        b (B.h - 1 - (m1 - p.1) + B.r0) (B.w - 1 - (m2 - p.2) + B.c0) else 0 := by
    intro p _
    by_cases h1 : p.1 ≤ m1 ∧ m1 - p.1 < B.h ∧ p.2 ≤ m2 ∧ m2 - p.2 < B.w
    · rw [if_pos h1]
      unfold rev sub
      rw [← hB]
      by_cases h2 : (p.1 + B.r0, p.2 + B.c0) ∈ S
      · by_cases h3 : (B.h - 1 - (m1 - p.1) + B.r0, B.w - 1 - (m2 - p.2) + B.c0) ∈ S
        · rw [if_pos h2, if_pos h3, if_pos ⟨h1, h2, h3⟩]
        · rw [if_neg h3, mul_zero, if_neg (c := good p) (fun h => h3 h.2.2)]
      · rw [if_neg h2, zero_mul, if_neg (c := good p) (fun h => h2 h.2.1)]
    · rw [if_neg h1, if_neg (fun h => h1 h.1)]
  rw [sum_congr rfl hterm, ← sum_filter]
  unfold Spec.pairSum Spec.pairs
  refine sum_nbij' (fun p => ((p.1 + B.r0, p.2 + B.c0), (B.h - 1 - (m1 - p.1) + B.r0, B.w - 1 - (m2 - p.2) + B.c0)))
    (fun pp => (pp.1.1 - B.r0, pp.1.2 - B.c0)) ?_ ?_ ?_ ?_ ?_
  · intro p hp
    simp only [mem_filter, List.mem_toFinset, mem_positions, hgood] at hp
    obtain ⟨⟨hp1, hp2⟩, ⟨h1, h2, h3, h4⟩, h5, h6⟩ := hp
    simp only [mem_filter, mem_product, List.mem_toFinset]
    refine ⟨⟨h5, h6⟩, ?_, ?_⟩ <;> push_cast <;> omega
  · rintro ⟨⟨x, y⟩, ⟨x', y'⟩⟩ hpp
    simp only [mem_filter, mem_product, List.mem_toFinset] at hpp
    obtain ⟨⟨h1, h2⟩, h3, h4⟩ := hpp
    have b1 := hbox _ h1
    have b2 := hbox _ h2
    simp only [] at b1 b2
    simp only [mem_filter, List.mem_toFinset, mem_positions, hgood]
    have e1 : x - B.r0 + B.r0 = x := by omega
    have e2 : y - B.c0 + B.c0 = y := by omega
    have e3 : B.h - 1 - (m1 - (x - B.r0)) + B.r0 = x' := by omega
    have e4 : B.w - 1 - (m2 - (y - B.c0)) + B.c0 = y' := by omega
    rw [e1, e2, e3, e4]
    refine ⟨⟨by omega, by omega⟩, ⟨by omega, by omega, by omega, by omega⟩, h1, h2⟩
  · intro p _
    simp
  · rintro ⟨⟨x, y⟩, ⟨x', y'⟩⟩ hpp
    simp only [mem_filter, mem_product, List.mem_toFinset] at hpp
    obtain ⟨⟨h1, h2⟩, h3, h4⟩ := hpp
    have b1 := hbox _ h1
    have b2 := hbox _ h2
    simp only [] at b1 b2
    simp only [Prod.mk.injEq]
    refine ⟨⟨by omega, by omega⟩, by omega, by omega⟩
  · intro p _; rfl

end Verif.Cross
