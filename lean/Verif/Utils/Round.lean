/- Property C211: bin_edges with rounding arithmetic. -/
import Verif.Utils.Props
import Verif.FlProps

namespace Verif.Utils
open Verif

/-- `bin_edges(range_min=a, range_max=b, step=s)`, skbeam/core/utils.py:747-785, with a rounding after every operation.  The
floor division of floats goes through `fmod`, which is exact, so it is the floor of the exact quotient (below 2^53);
`np.arange(n + 1)` holds whole numbers. -/
def binEdgesR (rnd : ℚ → ℚ) (a b s : ℚ) : Py (List ℚ) :=
  if b ≤ a then .error .valueError
  else if s > rnd (b - a) then .error .valueError
  else if s = 0 then .error .zeroDivision
  else
    let n := ⌊rnd (b - a) / s⌋
    if n + 1 ≤ 0 then .error .indexError
    else
      let ret := (List.range (n.toNat + 1)).map (fun (k : ℕ) => rnd (a + rnd (k * s)))
      if rnd (a + rnd (n * s)) > b then .ok ret.dropLast else .ok ret

/-- Without rounding this is the model of `Verif/Utils/Model.lean`. -/
theorem binEdgesR_id (a b s : ℚ) : binEdgesR id a b s = binEdges (some a) (some b) none (some s) := by
  unfold binEdgesR binEdges
  simp only [isSome01, badRange, badNbins, binEdgesCore, arith, id]
  by_cases h : b ≤ a <;> simp [h]

theorem edge_err {u : ℚ} {rnd : ℚ → ℚ} (hr : Fl.Spec.Rel u rnd) (hu1 : u ≤ 1) (a s : ℚ) (hs : 0 ≤ s) (k : ℕ) :
    |rnd (a + rnd (k * s)) - (a + k * s)| ≤ u * |a| + 3 * u * (k * s) := by
  obtain ⟨hu, hr⟩ := hr
  have hk : 0 ≤ (k : ℚ) * s := by positivity
  have h1 := hr (k * s)
  have h2 := hr (a + rnd (k * s))
  rw [abs_of_nonneg hk] at h1
  have h3 : |rnd (k * s)| ≤ k * s + u * (k * s) := by
    have := abs_add_le (rnd (k * s) - k * s) (k * s)
    rw [sub_add_cancel, abs_of_nonneg hk] at this; linarith
  have h4 := abs_add_le a (rnd (k * s))
  have h5 : u * |a + rnd (k * s)| ≤ u * (|a| + (k * s + u * (k * s))) := mul_le_mul_of_nonneg_left (by linarith) hu
  have h6 : u * (u * (k * s)) ≤ u * (k * s) := mul_le_mul_of_nonneg_left (mul_le_of_le_one_left hk hu1) hu
  have h7 := abs_add_le (rnd (a + rnd (k * s)) - (a + rnd (k * s))) (rnd (k * s) - k * s)
  have e : rnd (a + rnd (k * s)) - (a + rnd (k * s)) + (rnd (k * s) - k * s) = rnd (a + rnd (k * s)) - (a + k * s) := by ring
  rw [e] at h7
  linarith

/-! ## C211 -/

/-- The size of the rounding errors. -/
def Spec.resolution (u a b : ℚ) : ℚ := 2 * u * |a| + 14 * u * (b - a)

/-- C211: a step larger than the rounding errors. -/
theorem C211_edges_partial (u : ℚ) (rnd : ℚ → ℚ) (hr : Fl.Spec.Rel u rnd) (hu : u ≤ 1 / 8) (a b s : ℚ) (ha : rnd a = a) (hab : a < b)
    (hs : Spec.resolution u a b < s) (hsb : s ≤ rnd (b - a)) :
    ∃ e, binEdgesR rnd a b s = .ok e ∧ e.head? = some a ∧ e.Pairwise (· < ·) ∧ (∀ x ∈ e, a ≤ x ∧ x ≤ b) ∧
      (∀ (k : ℕ) (x : ℚ), e[k]? = some x → |x - (a + k * s)| ≤ Spec.resolution u a b / 2) ∧
      ∀ x, e.getLast? = some x → b - x < s + Spec.resolution u a b := by
  have hu0 := hr.1
  have hba : 0 < b - a := by linarith
  set R := Spec.resolution u a b with hR
  have hR0 : 0 ≤ R := by rw [hR]; unfold Spec.resolution; positivity
  have hs0 : 0 < s := by linarith
  have hd := hr.2 (b - a)
  rw [abs_of_pos hba] at hd
  set d := rnd (b - a) with hdd
  have hd1 := (abs_le.1 hd).1
  have hd2 := (abs_le.1 hd).2
  set n := ⌊d / s⌋ with hn
  have hn1 : 1 ≤ n := by rw [hn, Int.le_floor]; rw [le_div_iff₀ hs0]; simpa using hsb
  obtain ⟨m, hm⟩ : ∃ m : ℕ, n = m := ⟨n.toNat, by omega⟩
  have hm1 : 1 ≤ m := by omega
  have hns : (m : ℚ) * s ≤ d := by
    have := Int.floor_le (d / s)
    rw [← hn, hm, le_div_iff₀ hs0] at this
    exact_mod_cast this
  have hns' : d < ((m : ℚ) + 1) * s := by
    have := Int.lt_floor_add_one (d / s)
    rw [← hn, hm, div_lt_iff₀ hs0] at this
    exact_mod_cast this
  have hub : u * (b - a) ≤ (b - a) / 8 := by
    have := mul_le_mul_of_nonneg_right hu hba.le
    linarith
  set E : ℕ → ℚ := fun k => rnd (a + rnd (k * s)) with hE
  have herr : ∀ k : ℕ, k ≤ m → |E k - (a + k * s)| ≤ R / 2 - u * (b - a) := by
    intro k hk
    refine (edge_err hr (by linarith) a s hs0.le k).trans ?_
    have hkm : (k : ℚ) * s ≤ m * s := mul_le_mul_of_nonneg_right (by exact_mod_cast hk) hs0.le
    have h1 : u * (k * s) ≤ u * (d) := mul_le_mul_of_nonneg_left (by linarith) hu0
    have h2 : u * d ≤ u * (9 / 8 * (b - a)) := mul_le_mul_of_nonneg_left (by linarith) hu0
    have h3 : 0 ≤ u * (b - a) := by positivity
    rw [hR]; unfold Spec.resolution
    linarith
  have hub0 : 0 ≤ u * (b - a) := by positivity
  have hstep : ∀ i j : ℕ, i < j → j ≤ m → E i < E j := by
    intro i j hij hj
    have h1 := (abs_le.1 (herr i (by omega))).2
    have h2 := (abs_le.1 (herr j hj)).1
    have : ((i : ℚ) + 1) * s ≤ j * s := mul_le_mul_of_nonneg_right (by exact_mod_cast hij) hs0.le
    linarith
  have hE0 : E 0 = a := by
    have h0 : rnd 0 = 0 := by have := hr.2 0; simpa using this
    simp [hE, h0, ha]
  have hge : ∀ k, k ≤ m → a ≤ E k := by
    intro k hk
    rcases Nat.eq_zero_or_pos k with rfl | h
    · rw [hE0]
    · rw [← hE0]; exact (hstep 0 k h hk).le
  -- properties of a prefix of the edges
  have hpre : ∀ N : ℕ, 1 ≤ N → N ≤ m + 1 → E (N - 1) ≤ b →
      ((List.range N).map E).head? = some a ∧ ((List.range N).map E).Pairwise (· < ·) ∧ (∀ x ∈ (List.range N).map E, a ≤ x ∧ x ≤ b) ∧
      (∀ (k : ℕ) (x : ℚ), ((List.range N).map E)[k]? = some x → |x - (a + k * s)| ≤ R / 2) ∧ ((List.range N).map E).getLast? = some (E (N - 1)) := by
    intro N hN hNm hlast
    refine ⟨?_, ?_, ?_, ?_, ?_⟩
    · obtain ⟨N', rfl⟩ : ∃ N', N = N' + 1 := ⟨N - 1, by omega⟩
      rw [List.range_succ_eq_map]
      simp [hE0]
    · rw [List.pairwise_map]
      apply List.Pairwise.imp_of_mem _ List.pairwise_lt_range
      intro i j _ hj hij
      exact hstep i j hij (by have := List.mem_range.1 hj; omega)
    · intro x hx
      obtain ⟨k, hk, rfl⟩ := List.mem_map.1 hx
      have hk := List.mem_range.1 hk
      refine ⟨hge k (by omega), ?_⟩
      rcases Nat.lt_or_ge k (N - 1) with h | h
      · exact (hstep k (N - 1) h (by omega)).le.trans hlast
      · rw [show k = N - 1 by omega]; exact hlast
    · intro k x hx
      rw [List.getElem?_map] at hx
      by_cases hk : k < N
      · rw [List.getElem?_range hk] at hx
        simp only [Option.map_some, Option.some.injEq] at hx
        rw [← hx]
        have := herr k (by omega)
        linarith
      · rw [List.getElem?_eq_none (by simpa using hk)] at hx; simp at hx
    · obtain ⟨N', rfl⟩ : ∃ N', N = N' + 1 := ⟨N - 1, by omega⟩
      rw [List.range_succ, List.map_append]
      simp
  have hcomp : binEdgesR rnd a b s = if E m > b then .ok ((List.range m).map E) else .ok ((List.range (m + 1)).map E) := by
    unfold binEdgesR
    simp only
    rw [if_neg (by linarith), if_neg (by linarith), if_neg hs0.ne', ← hdd, ← hn, hm, if_neg (by omega)]
    simp only [Int.toNat_natCast]
    have : ((List.range (m + 1)).map (fun (k : ℕ) => rnd (a + rnd (k * s)))).dropLast = (List.range m).map E := by
      rw [List.range_succ, List.map_append]
      simp [hE]
    rw [this]
    rfl
  rw [hcomp]
  by_cases hover : E m > b
  · rw [if_pos hover]
    have hl : E (m - 1) ≤ b := by
      have h1 := (abs_le.1 (herr (m - 1) (by omega))).2
      have : ((m - 1 : ℕ) : ℚ) = m - 1 := by push_cast [Nat.cast_sub hm1]; ring
      rw [this] at h1
      linarith
    obtain ⟨p1, p2, p3, p4, p5⟩ := hpre m hm1 (by omega) hl
    refine ⟨_, rfl, p1, p2, p3, p4, ?_⟩
    intro x hx
    rw [p5] at hx
    rw [← Option.some.inj hx]
    have h1 := (abs_le.1 (herr (m - 1) (by omega))).1
    have h2 := (abs_le.1 (herr m le_rfl)).2
    have : ((m - 1 : ℕ) : ℚ) = m - 1 := by push_cast [Nat.cast_sub hm1]; ring
    rw [this] at h1
    linarith
  · rw [if_neg hover]
    obtain ⟨p1, p2, p3, p4, p5⟩ := hpre (m + 1) (by omega) le_rfl (by simpa using not_lt.1 hover)
    refine ⟨_, rfl, p1, p2, p3, p4, ?_⟩
    intro x hx
    rw [p5] at hx
    rw [← Option.some.inj hx]
    have h1 := (abs_le.1 (herr m le_rfl)).1
    simp only [Nat.add_sub_cancel]
    linarith

/-- An instance of the hypotheses: double precision, [-6, -1.8] in steps of 2.1. -/
example : Fl.Spec.Rel (1 / 2 ^ 53) Fl.round53 ∧ Fl.round53 (-6) = -6 ∧
    Spec.resolution (1 / 2 ^ 53) (-6) (Fl.round53 (-9 / 5)) < Fl.round53 (21 / 10) ∧
    Fl.round53 (21 / 10) ≤ Fl.round53 (Fl.round53 (-9 / 5) - (-6)) :=
  ⟨Fl.round53_rel, by decide +kernel, by decide +kernel, by decide +kernel⟩

/-- C211 fails for the number of bins: two steps of 2.1 fit between -6 and -1.8, but in double precision the second edge
computed is above the limit and dropped with its bin; nine bins of 0.1 are made between 0 and 1. -/
theorem C211_bins_refuted :
    ((binEdgesR Fl.round53 (-6) (Fl.round53 (-9 / 5)) (Fl.round53 (21 / 10))).toOption.map List.length = some 2) ∧
    ((binEdgesR id (-6) (-9 / 5) (21 / 10)).toOption.map List.length = some 3) ∧
    ((binEdgesR Fl.round53 0 1 (Fl.round53 (1 / 10))).toOption.map List.length = some 10) ∧
    ((binEdgesR id 0 1 (1 / 10)).toOption.map List.length = some 11) := by
  decide +kernel

/-- C211 fails for steps below the resolution: equal edges. -/
theorem C211_resolution_refuted :
    (binEdgesR Fl.round53 (2 ^ 53) (2 ^ 53 + 2) (1 / 2)).toOption.map (List.take 3) = some [2 ^ 53, 2 ^ 53, 2 ^ 53] := by
  decide +kernel

end Verif.Utils
