/- Property C152: the reported edges and centres of a histogram describe its cells. -/
import Verif.Hist.Edges
import Verif.Hist.Props

namespace Verif.Hist
open Verif

theorem edge_get (a : Axis) (k : ℕ) (hk : k ≤ a.nbin) :
    (Np.linspace a.low a.high (a.nbin + 1))[k]? = some (a.low + k * ((a.high - a.low) / a.nbin)) := by
  unfold Np.linspace
  rw [List.getElem?_map, List.getElem?_range (by omega), Option.map_some, Nat.add_sub_cancel]

/-- C152, per dimension: nbin + 1 edges from low to high, equally spaced; nbin centres, each half-way between two
neighbouring edges. -/
theorem C152_edges (h : Hist) (hw : h.Wf) (d : ℕ) (a : Axis) (ha : h.axes[d]? = some a) :
    (edges h).length = h.axes.length ∧ (centers h).length = h.axes.length ∧
    ∃ e c, (edges h)[d]? = some e ∧ (centers h)[d]? = some c ∧ e.length = a.nbin + 1 ∧ c.length = a.nbin ∧
      e[0]? = some a.low ∧ e[a.nbin]? = some a.high ∧
      ∀ k < a.nbin, ∃ x y, e[k]? = some x ∧ e[k + 1]? = some y ∧ y - x = (a.high - a.low) / a.nbin ∧ c[k]? = some ((x + y) / 2) := by
  have hn : 0 < a.nbin := hw.2.1 a (List.mem_of_getElem? ha)
  have hn' : (a.nbin : ℚ) ≠ 0 := by exact_mod_cast hn.ne'
  refine ⟨by simp [edges], by simp [centers, edges], Np.linspace a.low a.high (a.nbin + 1), Utils.binEdgesToCenters (Np.linspace a.low a.high (a.nbin + 1)), ?_, ?_, ?_, ?_, ?_, ?_, ?_⟩
  · simp [edges, ha]
  · simp [centers, edges, ha]
  · simp [Np.linspace]
  · simp [Utils.binEdgesToCenters, Np.linspace]
  · rw [edge_get a 0 (by omega)]; simp
  · rw [edge_get a a.nbin le_rfl]; congr 1; field_simp; ring
  · intro k hk
    refine ⟨_, _, edge_get a k hk.le, edge_get a (k + 1) hk, by push_cast; ring, ?_⟩
    unfold Utils.binEdgesToCenters
    have hl : (Np.linspace a.low a.high (a.nbin + 1)).length = a.nbin + 1 := by simp [Np.linspace]
    rw [List.getElem?_zipWith, List.getElem?_dropLast, hl, Nat.add_sub_cancel, if_pos hk, List.getElem?_tail, edge_get a k hk.le, edge_get a (k + 1) hk]
    simp only
    congr 1; ring

/-- The point `xs` lies in cell `ks` of the grid with the given edges: in every dimension between edge k (included) and
edge k + 1 (excluded). -/
def Spec.Inside (E : List (List ℚ)) (xs : List ℚ) (ks : List ℕ) : Prop :=
  xs.length = E.length ∧ ks.length = E.length ∧ ∀ d < E.length,
    (E.getD d []).getD (ks.getD d 0) 0 ≤ xs.getD d 0 ∧ xs.getD d 0 < (E.getD d []).getD (ks.getD d 0 + 1) 0

theorem inside_iff (axes : List Axis) (xs : List ℚ) (ks : List ℕ) (hv : ValidCell axes ks) :
    InCell axes xs ks ↔ Spec.Inside (axes.map (fun a => Np.linspace a.low a.high (a.nbin + 1))) xs ks := by
  induction axes generalizing xs ks with
  | nil =>
    cases ks with
    | nil => cases xs <;> simp [InCell, Spec.Inside]
    | cons k ks => simp [ValidCell] at hv
  | cons a as ih =>
    cases ks with
    | nil => simp [ValidCell] at hv
    | cons k ks =>
      cases xs with
      | nil => simp [InCell, Spec.Inside]
      | cons x xs =>
        obtain ⟨hk, hv⟩ := hv
        have e1 : (Np.linspace a.low a.high (a.nbin + 1)).getD k 0 = a.low + k * ((a.high - a.low) / a.nbin) := by
          rw [List.getD_eq_getElem?_getD, edge_get a k hk.le]; rfl
        have e2 : (Np.linspace a.low a.high (a.nbin + 1)).getD (k + 1) 0 = a.low + (k + 1) * ((a.high - a.low) / a.nbin) := by
          rw [List.getD_eq_getElem?_getD, edge_get a (k + 1) hk]; push_cast; rfl
        simp only [InCell, ih xs ks hv, Spec.Inside, List.length_cons, List.map_cons, List.length_map, InBin]
        constructor
        · rintro ⟨h1, h2, h3, h4⟩
          refine ⟨by omega, by omega, ?_⟩
          intro d hd
          cases d with
          | zero => simpa only [List.getD_cons_zero, e1, e2] using h1
          | succ d => simpa only [List.getD_cons_succ] using h4 d (by omega)
        · rintro ⟨h2, h3, h4⟩
          refine ⟨?_, by omega, by omega, ?_⟩
          · have := h4 0 (by omega)
            simpa only [List.getD_cons_zero, e1, e2] using this
          · intro d hd
            have := h4 (d + 1) (by omega)
            simpa only [List.getD_cons_succ] using this

open Classical in
/-- C152, filling: an accepted call increases cell ks by exactly the total weight of the samples lying between the
*reported* edges of that cell (same restriction to contiguous arrays on the N-D path as in C18). -/
theorem C152_fill_partial (nd : Bool) (h : Hist) (hw : h.Wf) (coords : List Coord) (ws : List ℚ)
    (ha : Accepted nd h coords ws) (hc : ReadsRaw nd coords → ∀ c ∈ coords, c.stride = 1) :
    ∃ h', fill id nd h coords ws = (h', .ok ()) ∧ edges h' = edges h ∧ centers h' = centers h ∧
      ∀ ks, ValidCell h.axes ks → ∃ old, h.values[flat h.axes ks]? = some old ∧ h'.values[flat h.axes ks]? =
        some (old + ((samples coords ws).map (fun s => if Spec.Inside (edges h) s.1 ks then s.2 else 0)).sum) := by
  obtain ⟨h', h1, h2, _, h3⟩ := C18_fill_cells_partial nd h hw coords ws ha hc
  refine ⟨h', h1, by simp [edges, h2], by simp [centers, edges, h2], ?_⟩
  intro ks hk
  obtain ⟨old, g1, g2⟩ := h3 ks hk
  refine ⟨old, g1, ?_⟩
  rw [g2]
  have : cellWeight h.axes (samples coords ws) ks = ((samples coords ws).map (fun s => if Spec.Inside (edges h) s.1 ks then s.2 else 0)).sum := by
    unfold cellWeight
    congr 1
    apply List.map_congr_left
    intro s _
    have : InCell h.axes s.1 ks ↔ Spec.Inside (edges h) s.1 ks := inside_iff h.axes s.1 ks hk
    by_cases hh : InCell h.axes s.1 ks
    · rw [if_pos hh, if_pos (this.1 hh)]
    · rw [if_neg hh, if_neg (fun g => hh (this.2 g))]
  rw [this]

/-- C152 is false for non-contiguous arrays on the N-D path: two samples lie between the reported edges of the first cell,
which receives only one of them. -/
theorem C152_strided_refuted :
    let c : Coord := ⟨.float64, 2, 2, fun i => [0, 1, 0].getD i 0⟩
    let h : Hist := ⟨[⟨2, 0, 2⟩, ⟨2, 0, 2⟩, ⟨2, 0, 2⟩], [0, 0, 0, 0, 0, 0, 0, 0]⟩
    Accepted false h [c, c, c] [1] ∧ samples [c, c, c] [1] = [([0, 0, 0], 1), ([0, 0, 0], 1)] ∧
      Spec.Inside (edges h) [0, 0, 0] [0, 0, 0] ∧ flat h.axes [0, 0, 0] = 0 ∧ (fill id false h [c, c, c] [1]).1.values[0]? = some 1 := by
  refine ⟨⟨rfl, by simp, by simp, by simp⟩, by decide +kernel, ?_, by decide +kernel, by decide +kernel⟩
  refine (inside_iff _ _ _ ?_).1 ?_
  · simp [ValidCell]
  · simp [InCell, InBin]

/-- Four bins on [0, 2), two on [-1, 1). -/
example : edges ⟨[⟨4, 0, 2⟩, ⟨2, -1, 1⟩], List.replicate 8 0⟩ = [[0, 1 / 2, 1, 3 / 2, 2], [-1, 0, 1]] ∧
    centers ⟨[⟨4, 0, 2⟩, ⟨2, -1, 1⟩], List.replicate 8 0⟩ = [[1 / 4, 3 / 4, 5 / 4, 7 / 4], [-1 / 2, 1 / 2]] := by
  decide +kernel

example : Spec.Inside (edges ⟨[⟨4, 0, 2⟩, ⟨2, -1, 1⟩], List.replicate 8 0⟩) [1 / 2, 3 / 4] [1, 1] := by
  rw [edges, ← inside_iff _ _ _ (by simp [ValidCell])]
  decide +kernel

end Verif.Hist
