/- C281: laws of bin_edges, bin_edges_to_centers and bin_1D (skbeam/core/utils.py). -/
import Verif.Utils.Props

namespace Verif.Utils
open Verif

theorem linspace_affine (c d a b : ℚ) (n : ℕ) : Np.linspace (c * a + d) (c * b + d) n = (Np.linspace a b n).map (fun v => c * v + d) := by
  unfold Np.linspace
  rw [List.map_map]
  apply List.map_congr_left
  intro k _
  simp only [Function.comp]
  ring

theorem arith_affine (c d a s : ℚ) (n : ℕ) : arith (c * a + d) (c * s) n = (arith a s n).map (fun v => c * v + d) := by
  unfold arith
  rw [List.map_map]
  apply List.map_congr_left
  intro k _
  simp only [Function.comp]
  ring

/-! ## C281 -/

/-- C281: bin_edges in another unit and from another origin: limits and step converted give the edges converted, or the same error. -/
theorem C281_edges_affine (c d : ℚ) (hc : 0 < c) (mn mx : Option ℚ) (n : Option ℤ) (s : Option ℚ) :
    binEdges (mn.map (fun v => c * v + d)) (mx.map (fun v => c * v + d)) n (s.map (fun v => c * v)) = (binEdges mn mx n s).map (List.map (fun v => c * v + d)) := by
  have h1 : ∀ {α β : Type} (f : α → β) (o : Option α), isSome01 (o.map f) = isSome01 o := by
    intro α β f o
    cases o <;> rfl
  have h2 : badRange (mn.map (fun v => c * v + d)) (mx.map (fun v => c * v + d)) = badRange mn mx := by
    cases mn <;> cases mx <;> simp only [Option.map_none, Option.map_some, badRange]
    simp only [add_le_add_iff_right, mul_le_mul_iff_right₀ hc]
  unfold binEdges
  rw [h1, h1, h1, h2]
  split_ifs
  · rfl
  · rfl
  · rfl
  · rcases mn with _ | a <;> rcases mx with _ | b <;> rcases n with _ | n <;> rcases s with _ | s <;> try rfl
    · simp only [Option.map_none, Option.map_some, binEdgesCore, Except.map, List.map_map]
      congr 1
      apply List.map_congr_left
      intro k _
      simp only [Function.comp]
      ring
    · simp only [Option.map_none, Option.map_some, binEdgesCore, Except.map, arith_affine]
    · have e1 : c * b + d - (c * a + d) = c * (b - a) := by ring
      have e2 : c * (b - a) / (c * s) = (b - a) / s := mul_div_mul_left _ _ hc.ne'
      have e3 : c * s > c * (b - a) ↔ s > b - a := mul_lt_mul_iff_right₀ hc
      have e4 : c * s = 0 ↔ s = 0 := by simp [hc.ne']
      have e5 : ∀ z : ℚ, c * a + d + z * (c * s) > c * b + d ↔ a + z * s > b := fun z => by
        rw [show c * a + d + z * (c * s) = c * (a + z * s) + d by ring]
        simp only [gt_iff_lt, add_lt_add_iff_right, mul_lt_mul_iff_right₀ hc]
      simp only [Option.map_none, Option.map_some, binEdgesCore, e1, e2, e3, e4, e5, arith_affine]
      split_ifs <;> simp [Except.map, List.map_dropLast]
    · simp only [Option.map_none, Option.map_some, binEdgesCore, Except.map, linspace_affine]

/-- C281: the three ways to ask for n bins agree: from the minimum upwards, from the maximum downwards, and between the limits. -/
theorem C281_ways_agree (a s : ℚ) (hs : 0 < s) (n : ℕ) (hn : 1 ≤ n) :
    binEdges (some a) none (some n) (some s) = binEdges none (some (a + n * s)) (some n) (some s) ∧
    binEdges (some a) none (some n) (some s) = binEdges (some a) (some (a + n * s)) (some n) none ∧
    binEdges (some a) none (some n) (some s) = binEdges (some a) (some (a + n * s)) none (some s) := by
  have hn0 : ¬ (n : ℤ) ≤ 0 := by omega
  have hnq : (0 : ℚ) < n := by exact_mod_cast hn
  have hlt : ¬ a + n * s ≤ a := by
    have := mul_pos hnq hs
    linarith
  have e0 : binEdges (some a) none (some n) (some s) = .ok (arith a s n) := by
    simp [binEdges, isSome01, badRange, badNbins, binEdgesCore, hn0]
    omega
  refine ⟨?_, ?_, ?_⟩
  · rw [e0]
    have e1 : binEdges none (some (a + n * s)) (some n) (some s) = .ok ((List.range (n + 1)).reverse.map (fun (k : ℕ) => a + n * s - k * s)) := by
      simp [binEdges, isSome01, badRange, badNbins, binEdgesCore, hn0]
      omega
    rw [e1]
    congr 1
    unfold arith
    apply List.ext_getElem
    · simp
    · intro i h1 h2
      simp only [List.getElem_map, List.getElem_range, List.getElem_reverse, List.length_range]
      have hi : i ≤ n := by simp at h1; omega
      rw [show n + 1 - 1 - i = n - i by omega, Nat.cast_sub hi]
      ring
  · rw [e0]
    have e1 : binEdges (some a) (some (a + n * s)) (some n) none = .ok (Np.linspace a (a + n * s) (n + 1)) := by
      simp only [binEdges, isSome01, badRange, badNbins, binEdgesCore, hn0, hlt]
      simp
    rw [e1]
    congr 1
    unfold arith Np.linspace
    apply List.map_congr_left
    intro k _
    rw [Nat.add_sub_cancel]
    congr 1
    field_simp
    ring
  · rw [e0]
    have e2 : (a + n * s - a) / s = n := by field_simp; ring
    have e3 : ¬ s > a + n * s - a := by
      have : (1 : ℚ) ≤ n := by exact_mod_cast hn
      nlinarith
    have e4 : binEdges (some a) (some (a + n * s)) none (some s) = binEdgesCore (some a) (some (a + n * s)) none (some s) := by
      simp only [binEdges, isSome01, badRange, badNbins, hlt]
      simp
    rw [e4]
    simp only [binEdgesCore, e2, e3, hs.ne', if_false, Int.floor_natCast, Int.cast_natCast, gt_iff_lt, lt_irrefl, Int.toNat_natCast]
    rw [if_neg (by omega)]

/-- C281: centres are converted like their edges. -/
theorem C281_centers_affine (c d : ℚ) (e : List ℚ) : binEdgesToCenters (e.map (fun v => c * v + d)) = (binEdgesToCenters e).map (fun v => c * v + d) := by
  unfold binEdgesToCenters
  rw [← List.map_dropLast, ← List.map_tail, List.zipWith_map, List.map_zipWith]
  congr 1
  funext a b
  ring

theorem cumAt_affine (c d : ℚ) (hc : 0 < c) (s : List (ℚ × ℚ)) : ∀ e : List ℚ, Np.cumAt (s.map (fun p => (c * p.1 + d, p.2))) (e.map (fun v => c * v + d)) = Np.cumAt s e
  | [] => rfl
  | [x] => by
    simp only [List.map_cons, List.map_nil, Np.cumAt, Np.cumRight, List.filter_map, List.map_map, Function.comp_def, add_le_add_iff_right, mul_le_mul_iff_right₀ hc]
  | x :: y :: t => by
    have ih := cumAt_affine c d hc s (y :: t)
    rw [List.map_cons] at ih ⊢
    simp only [List.map_cons, Np.cumAt] at ih ⊢
    rw [ih]
    simp only [Np.cumLeft, List.filter_map, List.map_map, Function.comp_def, add_lt_add_iff_right, mul_lt_mul_iff_right₀ hc]

theorem histogram_affine (c d : ℚ) (hc : 0 < c) (s : List (ℚ × ℚ)) (e : List ℚ) :
    Np.histogram (s.map (fun p => (c * p.1 + d, p.2))) (e.map (fun v => c * v + d)) = Np.histogram s e := by
  unfold Np.histogram
  rw [cumAt_affine c d hc]
  apply if_congr _ rfl rfl
  rw [List.isChain_map]
  simp only [add_le_add_iff_right, mul_le_mul_iff_right₀ hc]

/-- C281: bin_1D in another unit and from another origin of the coordinate: the edges are converted, sums and counts stay. -/
theorem C281_bin1D_affine (c d : ℚ) (hc : 0 < c) (x y : List ℚ) (n : ℤ) (lo hi : ℚ) :
    bin1D (x.map (fun v => c * v + d)) y (some n) (some (c * lo + d)) (some (c * hi + d)) =
      (bin1D x y (some n) (some lo) (some hi)).map (fun r => (r.1.map (fun v => c * v + d), r.2)) := by
  have h1 := histogram_affine c d hc (x.zip y) (Np.linspace lo hi (n.toNat + 1))
  have h2 := histogram_affine c d hc (x.map (fun v => (v, 1))) (Np.linspace lo hi (n.toNat + 1))
  have e1 : (x.zip y).map (fun p => (c * p.1 + d, p.2)) = (x.map (fun v => c * v + d)).zip y := by
    rw [List.zip_map_left]
    rfl
  have e2 : (x.map (fun v => (v, (1 : ℚ)))).map (fun p => (c * p.1 + d, p.2)) = (x.map (fun v => c * v + d)).map (fun v => (v, 1)) := by
    rw [List.map_map, List.map_map]
    rfl
  rw [e1, ← linspace_affine] at h1
  rw [e2, ← linspace_affine] at h2
  unfold bin1D
  simp only [bind, Except.bind, pure, Except.pure, List.length_map, h1, h2]
  split_ifs
  · rfl
  · rfl
  · rfl
  · cases Np.histogram (x.zip y) (Np.linspace lo hi (n.toNat + 1)) with
    | error e => rfl
    | ok v =>
      cases Np.histogram (x.map (fun v => (v, 1))) (Np.linspace lo hi (n.toNat + 1)) with
      | error e => rfl
      | ok w => simp only [Except.map, linspace_affine]

/-- Instance: three bins of width 2 from 1 on, in three ways. -/
example : binEdges (some 1) none (some 3) (some 2) = .ok [1, 3, 5, 7] ∧ binEdges none (some 7) (some 3) (some 2) = .ok [1, 3, 5, 7] ∧
    binEdges (some 1) (some 7) none (some 2) = .ok [1, 3, 5, 7] := by decide +kernel

end Verif.Utils
