/- Property C202: grid3d in floating-point arithmetic. -/
import Verif.Grid.Props
import Verif.FlProps
import Mathlib.Tactic.IntervalCases

namespace Verif.Grid
open Verif

/-- The intensities of the points that the (rounded) position arithmetic puts into voxel c. -/
def Spec.members (rnd : ℚ → ℚ) (g : Grid) (c : ℕ) (data : List Pt) : List ℚ :=
  data.filterMap (fun p => match voxel rnd g p with | some (c', v) => if c' = c then some v else none | none => none)

/-- One thread's share of them. -/
def share (rnd : ℚ → ℚ) (g : Grid) (c t : ℕ) (ev : List (ℕ × Pt)) : List ℚ :=
  Spec.members rnd g c ((ev.filter (fun e => decide (e.1 = t))).map Prod.snd)

/-- Exact counts and rounded sums of one accumulator against a list of values; `k` roundings. -/
def Tracks (u : ℚ) (k : ℕ) (a : Acc) (vs : List ℚ) : Prop :=
  a.n = vs.length ∧ Fl.Near u k a.s vs.sum (vs.map abs).sum ∧
    Fl.Near u (k + 1) a.s2 (vs.map (fun v => v * v)).sum (vs.map (fun v => v * v)).sum

theorem Tracks.mono {u : ℚ} (hu : 0 ≤ u) {k k' : ℕ} {a : Acc} {vs : List ℚ} (h : Tracks u k a vs) (hk : k ≤ k') : Tracks u k' a vs :=
  ⟨h.1, h.2.1.mono hu hk, h.2.2.mono hu (by omega)⟩

theorem Tracks.zero (u : ℚ) (hu : 0 ≤ u) : Tracks u 0 ⟨0, 0, 0⟩ [] :=
  ⟨rfl, by simpa using Fl.Near.zero u, by simpa using (Fl.Near.zero u).mono hu (Nat.zero_le 1)⟩

theorem Tracks.add {u : ℚ} {rnd : ℚ → ℚ} (hr : Fl.Spec.Rel u rnd) {k : ℕ} {a : Acc} {vs : List ℚ} (h : Tracks u k a vs) (v : ℚ) :
    Tracks u (k + 1) (a.add rnd v) (vs ++ [v]) := by
  have hu := hr.1
  refine ⟨by simp [Acc.add, h.1], ?_, ?_⟩
  · have := Fl.Near.rnd_add hr h.2.1 (Fl.Near.exact u k hu v)
    simpa [Acc.add] using this
  · have e : Fl.Near u 0 (v * v) (v * v) (v * v) := by
      have := Fl.Near.exact u 0 hu (v * v); rwa [abs_of_nonneg (mul_self_nonneg v)] at this
    have := Fl.Near.rnd_add hr h.2.2 ((e.round hr).mono hu (show 0 + 1 ≤ k + 1 by omega))
    simpa [Acc.add] using this

theorem Tracks.merge {u : ℚ} {rnd : ℚ → ℚ} (hr : Fl.Spec.Rel u rnd) {k : ℕ} {a b : Acc} {vs ws : List ℚ} (h : Tracks u k a vs) (h' : Tracks u k b ws) :
    Tracks u (k + 1) (a.merge rnd b) (vs ++ ws) := by
  refine ⟨by simp [Acc.merge, h.1, h'.1], ?_, ?_⟩
  · simpa [Acc.merge] using Fl.Near.rnd_add hr h.2.1 h'.2.1
  · simpa [Acc.merge] using Fl.Near.rnd_add hr h.2.2 h'.2.2

theorem Tracks.perm {u : ℚ} {k : ℕ} {a : Acc} {vs ws : List ℚ} (h : Tracks u k a vs) (hp : vs.Perm ws) : Tracks u k a ws := by
  have e1 := hp.length_eq
  have e2 := hp.sum_eq
  have e3 := (hp.map abs).sum_eq
  have e4 := (hp.map (fun v => v * v)).sum_eq
  exact ⟨by rw [h.1, e1], by rw [← e2, ← e3]; exact h.2.1, by rw [← e4]; exact h.2.2⟩

theorem share_append (rnd : ℚ → ℚ) (g : Grid) (c t : ℕ) (ev : List (ℕ × Pt)) (e : ℕ × Pt) :
    share rnd g c t (ev ++ [e]) = share rnd g c t ev ++ (if e.1 = t then Spec.members rnd g c [e.2] else []) := by
  unfold share Spec.members
  by_cases h : e.1 = t <;> simp [h, List.filterMap_append]

theorem accumulate_tracks {u : ℚ} {rnd : ℚ → ℚ} (hr : Fl.Spec.Rel u rnd) (g : Grid) (c t : ℕ) (ev : List (ℕ × Pt)) :
    Tracks u (share rnd g c t ev).length (accumulate rnd g zeroed ev t c) (share rnd g c t ev) := by
  induction ev using List.reverseRecOn with
  | nil => exact Tracks.zero u hr.1
  | append_singleton ev e ih =>
    have hacc : accumulate rnd g zeroed (ev ++ [e]) = handle rnd g (accumulate rnd g zeroed ev) e.1 e.2 := by
      simp [accumulate]
    rw [hacc, share_append]
    unfold handle
    cases hv : voxel rnd g e.2 with
    | none =>
      have : Spec.members rnd g c [e.2] = [] := by simp [Spec.members, hv]
      simpa [this] using ih
    | some cv =>
      obtain ⟨c', v⟩ := cv
      simp only
      by_cases ht : e.1 = t
      · rw [if_pos ht]
        by_cases hc : c' = c
        · have : Spec.members rnd g c [e.2] = [v] := by simp [Spec.members, hv, hc]
          rw [if_pos ⟨ht.symm, hc.symm⟩, this, ht, hc, List.length_append]
          exact ih.add hr v
        · have : Spec.members rnd g c [e.2] = [] := by simp [Spec.members, hv, hc]
          rw [if_neg (fun h => hc h.2.symm), this]
          simpa using ih
      · rw [if_neg ht, if_neg (fun h => ht h.1.symm)]
        simpa using ih

theorem gather_tracks {u : ℚ} {rnd : ℚ → ℚ} (hr : Fl.Spec.Rel u rnd) (m : Priv) (c K : ℕ) (S : ℕ → List ℚ) (h : ∀ t, Tracks u K (m t c) (S t)) (n : ℕ) :
    Tracks u (K + n) ((List.range' 1 n).foldl (fun a t => a.merge rnd (m t c)) (m 0 c)) ((List.range (n + 1)).flatMap S) := by
  induction n with
  | zero => simpa using h 0
  | succ n ih =>
    have e : List.range' 1 (n + 1) = List.range' 1 n ++ [n + 1] := by
      rw [List.range'_concat]; simp [Nat.add_comm]
    rw [e, List.foldl_append, List.range_succ, List.flatMap_append]
    simp only [List.foldl_cons, List.foldl_nil, List.flatMap_cons, List.flatMap_nil, List.append_nil]
    exact ih.merge hr ((h (n + 1)).mono hr.1 (by omega))

theorem shares_perm (rnd : ℚ → ℚ) (g : Grid) (c T : ℕ) (ev : List (ℕ × Pt)) (hev : ∀ e ∈ ev, e.1 < T) :
    ((List.range T).flatMap (fun t => share rnd g c t ev)).Perm (Spec.members rnd g c (ev.map Prod.snd)) := by
  have h1 : ∀ t, share rnd g c t ev = ((ev.filter (fun e => decide (e.1 = t))).map Prod.snd).filterMap
      (fun p => match voxel rnd g p with | some (c', v) => if c' = c then some v else none | none => none) := fun t => rfl
  simp only [h1, Spec.members, ← List.filterMap_flatMap, ← List.map_flatMap]
  apply List.Perm.filterMap
  apply List.Perm.map
  have key : ∀ n, ((List.range n).flatMap (fun t => ev.filter (fun e => decide (e.1 = t)))).Perm (ev.filter (fun e => decide (e.1 < n))) := by
    intro n
    induction n with
    | zero => simp
    | succ n ih =>
      rw [List.range_succ, List.flatMap_append]
      simp only [List.flatMap_cons, List.flatMap_nil, List.append_nil]
      refine (ih.append_right _).trans ?_
      have h := List.filter_append_perm (fun e : ℕ × Pt => decide (e.1 < n)) (ev.filter (fun e => decide (e.1 < n + 1)))
      rw [List.filter_filter, List.filter_filter] at h
      have e1 : (fun a : ℕ × Pt => decide (a.1 < n) && decide (a.1 < n + 1)) = fun a => decide (a.1 < n) := by
        funext a; by_cases h1 : a.1 < n
        · simp [h1, Nat.lt_succ_of_lt h1]
        · simp [h1]
      have e2 : (fun a : ℕ × Pt => (!decide (a.1 < n)) && decide (a.1 < n + 1)) = fun a => decide (a.1 = n) := by
        funext a
        rcases lt_trichotomy a.1 n with h1 | h1 | h1
        · simp [h1, h1.ne]
        · simp [h1]
        · have h2 : ¬ a.1 < n + 1 := by omega
          simp [h1.ne', h2]
      rw [e1, e2] at h
      exact h
  refine (key T).trans ?_
  rw [List.filter_eq_self.2]
  intro e he
  simpa using hev e he

theorem share_length (rnd : ℚ → ℚ) (g : Grid) (c t : ℕ) (ev : List (ℕ × Pt)) :
    (share rnd g c t ev).length ≤ (Spec.members rnd g c (ev.map Prod.snd)).length := by
  unfold share Spec.members
  exact ((List.filter_sublist.map Prod.snd).filterMap _).length_le

theorem out_tracks {u : ℚ} {rnd : ℚ → ℚ} (hr : Fl.Spec.Rel u rnd) (g : Grid) (T : ℕ) (hT : 1 ≤ T) (data : List Pt) (ev : List (ℕ × Pt))
    (hev : Spec.Schedules T data ev) (c : ℕ) :
    Tracks u ((Spec.members rnd g c data).length + T) (out rnd g T zeroed ev c) (Spec.members rnd g c data) := by
  have hperm : (Spec.members rnd g c (ev.map Prod.snd)).Perm (Spec.members rnd g c data) := hev.1.filterMap _
  have hK : ∀ t, Tracks u (Spec.members rnd g c data).length (accumulate rnd g zeroed ev t c) (share rnd g c t ev) := by
    intro t
    refine (accumulate_tracks hr g c t ev).mono hr.1 ?_
    rw [← hperm.length_eq]
    exact share_length rnd g c t ev
  have hg := gather_tracks hr (accumulate rnd g zeroed ev) c _ _ hK (T - 1)
  rw [show T - 1 + 1 = T by omega] at hg
  have h0 := (Tracks.zero u hr.1).mono hr.1 (Nat.zero_le ((Spec.members rnd g c data).length + (T - 1)))
  have := h0.merge hr hg
  rw [List.nil_append, show (Spec.members rnd g c data).length + (T - 1) + 1 = (Spec.members rnd g c data).length + T by omega] at this
  exact this.perm ((shares_perm rnd g c T ev hev.2).trans hperm)

/-! ## C202 -/

/-- C202: with floating-point arithmetic of unit roundoff u, for every number of threads and every schedule: the occupancy
of a voxel is exactly the number of its points, its sum is that of their intensities and its sum of squares that of the
squares, with a relative error (against the sum of magnitudes) of at most (1+u)^(n+T) - 1 and (1+u)^(n+T+1) - 1, where n is
the number of points in the voxel. -/
theorem C202_accuracy (u : ℚ) (rnd : ℚ → ℚ) (hr : Fl.Spec.Rel u rnd) (g : Grid) (T : ℕ) (hT : 1 ≤ T) (data : List Pt) (ev : List (ℕ × Pt))
    (hev : Spec.Schedules T data ev) (c : ℕ) :
    let vs := Spec.members rnd g c data
    let a := out rnd g T zeroed ev c
    a.n = vs.length ∧ |a.s - vs.sum| ≤ ((1 + u) ^ (vs.length + T) - 1) * (vs.map abs).sum ∧
      |a.s2 - (vs.map (fun v => v * v)).sum| ≤ ((1 + u) ^ (vs.length + T + 1) - 1) * (vs.map (fun v => v * v)).sum := by
  intro vs a
  obtain ⟨h1, h2, h3⟩ := out_tracks hr g T hT data ev hev c
  exact ⟨h1, h2.1, h3.1⟩

/-- C202, two runs on the same data (other thread numbers, other schedules): occupancies are identical, sums differ by at
most twice the bound. -/
theorem C202_runs_agree_partial (u : ℚ) (rnd : ℚ → ℚ) (hr : Fl.Spec.Rel u rnd) (g : Grid) (T T' : ℕ) (hT : 1 ≤ T) (hT' : 1 ≤ T') (data : List Pt)
    (ev ev' : List (ℕ × Pt)) (hev : Spec.Schedules T data ev) (hev' : Spec.Schedules T' data ev') (c : ℕ) :
    let vs := Spec.members rnd g c data
    let a := out rnd g T zeroed ev c
    let a' := out rnd g T' zeroed ev' c
    a.n = a'.n ∧ |a.s - a'.s| ≤ 2 * ((1 + u) ^ (vs.length + max T T') - 1) * (vs.map abs).sum := by
  intro vs a a'
  have h := (out_tracks hr g T hT data ev hev c).mono hr.1 (show vs.length + T ≤ vs.length + max T T' by omega)
  have h' := (out_tracks hr g T' hT' data ev' hev' c).mono hr.1 (show vs.length + T' ≤ vs.length + max T T' by omega)
  refine ⟨by rw [h.1, h'.1], ?_⟩
  have e : a.s - a'.s = (a.s - vs.sum) - (a'.s - vs.sum) := by ring
  rw [e]
  refine (abs_sub _ _).trans ?_
  have := h.2.1.1
  have := h'.2.1.1
  linarith

/-- The position, in units of bins, is not within 5·u·n of an inner or upper bin boundary (the lower limit needs no
margin). -/
def Spec.Away (u : ℚ) (a : Axis) (x : ℚ) : Prop :=
  ∀ m : ℕ, 1 ≤ m → m ≤ a.n → 5 * u * a.n < |(x - a.lo) / (a.hi - a.lo) * a.n - m|

theorem chain (u p q P Y n : ℚ) (hu : 0 ≤ u) (hu1 : u ≤ 1 / 100) (hp : 0 ≤ p) (hn : 0 ≤ n) (hq1 : (1 - u) * p ≤ (1 + u) * q)
    (hq2 : (1 - u) * q ≤ (1 + u) * p) (hP1 : (1 - u) * q ≤ P) (hP2 : P ≤ (1 + u) * q) (hY1 : (1 - u) * (P * n) ≤ Y) (hY2 : Y ≤ (1 + u) * (P * n)) :
    Y ≤ (1 + 5 * u) * (p * n) ∧ (1 - 5 * u) * (p * n) ≤ Y ∧ P ≤ (1 + 5 * u) * p ∧ (1 - u) ^ 2 * p ≤ (1 + u) * P := by
  have a1 : 0 ≤ 1 - u := by linarith
  have a2 : 0 ≤ 1 + u := by linarith
  have c1 : (1 + u) ^ 3 ≤ (1 + 5 * u) * (1 - u) := by nlinarith [mul_nonneg hu hu, mul_nonneg (mul_nonneg hu hu) hu]
  have c2 : (1 - 5 * u) * (1 + u) ≤ (1 - u) ^ 3 := by nlinarith [mul_nonneg hu hu, mul_nonneg (mul_nonneg hu hu) hu]
  have hPp2 : (1 - u) * P ≤ (1 + u) ^ 2 * p := by
    have := mul_le_mul_of_nonneg_left hP2 a1
    have := mul_le_mul_of_nonneg_left hq2 a2
    linarith
  have hPp1 : (1 - u) ^ 2 * p ≤ (1 + u) * P := by
    have := mul_le_mul_of_nonneg_left hP1 a2
    have := mul_le_mul_of_nonneg_left hq1 a1
    linarith
  have hPup : (1 + u) * P ≤ (1 + 5 * u) * p := by
    have e1 := mul_le_mul_of_nonneg_left hPp2 a2
    have e2 : (1 + u) ^ 3 * p ≤ (1 + 5 * u) * (1 - u) * p := mul_le_mul_of_nonneg_right c1 hp
    have e3 : (1 - u) * ((1 + u) * P) ≤ (1 - u) * ((1 + 5 * u) * p) := by linarith
    exact le_of_mul_le_mul_left e3 (by linarith)
  have hPlow : (1 - 5 * u) * p ≤ (1 - u) * P := by
    have e1 := mul_le_mul_of_nonneg_left hPp1 a1
    have e2 : (1 - 5 * u) * (1 + u) * p ≤ (1 - u) ^ 3 * p := mul_le_mul_of_nonneg_right c2 hp
    have e3 : (1 + u) * ((1 - 5 * u) * p) ≤ (1 + u) * ((1 - u) * P) := by linarith
    exact le_of_mul_le_mul_left e3 (by linarith)
  have hP0 : 0 ≤ P := by
    have h1 : 0 ≤ (1 + u) * q := le_trans (mul_nonneg a1 hp) hq1
    have h2 : 0 ≤ q := by
      by_contra hc
      push Not at hc
      nlinarith
    exact le_trans (mul_nonneg a1 h2) hP1
  refine ⟨?_, ?_, ?_, hPp1⟩
  · have := mul_le_mul_of_nonneg_right hPup hn
    linarith
  · have := mul_le_mul_of_nonneg_right hPlow hn
    linarith
  · have := mul_nonneg hu hP0
    linarith

/-- Away from the boundaries the rounded position arithmetic finds the same bin as the exact one. -/
theorem cell_round (u : ℚ) (hu1 : u ≤ 1 / 100) (rnd : ℚ → ℚ) (hr : Fl.Spec.Rel u rnd) (a : Axis) (h : a.lo < a.hi) (hn : 0 < a.n) (x : ℚ)
    (hx : Spec.Away u a x) : cell rnd a x = cell id a x := by
  obtain ⟨hu, hr⟩ := hr
  have hn' : (0 : ℚ) < a.n := by exact_mod_cast hn
  have hl : 0 < a.hi - a.lo := by linarith
  -- two-sided bounds for positive arguments
  have pos : ∀ z, 0 ≤ z → (1 - u) * z ≤ rnd z ∧ rnd z ≤ (1 + u) * z := by
    intro z hz
    have := abs_le.1 (hr z)
    rw [abs_of_nonneg hz] at this
    constructor <;> linarith [this.1, this.2]
  have neg : ∀ z, z < 0 → rnd z < 0 := by
    intro z hz
    have := abs_le.1 (hr z)
    rw [abs_of_neg hz] at this
    nlinarith [this.2]
  obtain ⟨hL1, hL2⟩ := pos _ hl.le
  set L := rnd (a.hi - a.lo) with hL
  have hLpos : 0 < L := by nlinarith
  unfold cell
  simp only [id, ← hL]
  rw [if_neg hLpos.ne', if_neg hl.ne']
  rcases lt_or_ge x a.lo with hlt | hge
  · have h1 : rnd (x - a.lo) < 0 := neg _ (by linarith)
    have h2 : rnd (rnd (x - a.lo) / L) < 0 := neg _ (div_neg_of_neg_of_pos h1 hLpos)
    have h3 : (x - a.lo) / (a.hi - a.lo) < 0 := div_neg_of_neg_of_pos (by linarith) hl
    rw [if_neg (fun q => absurd q.1 (not_le.2 h2)), if_neg (fun q => absurd q.1 (not_le.2 h3))]
  · have hd : 0 ≤ x - a.lo := by linarith
    obtain ⟨hA1, hA2⟩ := pos _ hd
    set A := rnd (x - a.lo)
    have hA0 : 0 ≤ A := le_trans (mul_nonneg (by linarith) hd) hA1
    set p := (x - a.lo) / (a.hi - a.lo) with hp
    have hp0 : 0 ≤ p := div_nonneg hd hl.le
    have hxp : x - a.lo = p * (a.hi - a.lo) := by rw [hp]; field_simp
    have hq0 : 0 ≤ A / L := div_nonneg hA0 hLpos.le
    -- A / L against p
    have hq1 : (1 - u) * p ≤ (1 + u) * (A / L) := by
      rw [show (1 + u) * (A / L) = ((1 + u) * A) / L by ring, le_div_iff₀ hLpos]
      have e : (1 - u) * p * L ≤ (1 - u) * p * ((1 + u) * (a.hi - a.lo)) := mul_le_mul_of_nonneg_left hL2 (mul_nonneg (by linarith) hp0)
      have e2 : (1 - u) * p * ((1 + u) * (a.hi - a.lo)) = (1 + u) * ((1 - u) * (x - a.lo)) := by rw [hxp]; ring
      have e3 : (1 + u) * ((1 - u) * (x - a.lo)) ≤ (1 + u) * A := mul_le_mul_of_nonneg_left hA1 (by linarith)
      linarith
    have hq2 : (1 - u) * (A / L) ≤ (1 + u) * p := by
      rw [show (1 - u) * (A / L) = ((1 - u) * A) / L by ring, div_le_iff₀ hLpos]
      have e : (1 + u) * p * ((1 - u) * (a.hi - a.lo)) ≤ (1 + u) * p * L := mul_le_mul_of_nonneg_left hL1 (mul_nonneg (by linarith) hp0)
      have e2 : (1 + u) * p * ((1 - u) * (a.hi - a.lo)) = (1 - u) * ((1 + u) * (x - a.lo)) := by rw [hxp]; ring
      have e3 : (1 - u) * A ≤ (1 - u) * ((1 + u) * (x - a.lo)) := mul_le_mul_of_nonneg_left hA2 (by linarith)
      linarith
    obtain ⟨hP1, hP2⟩ := pos _ hq0
    set P := rnd (A / L)
    have hP0 : 0 ≤ P := le_trans (mul_nonneg (by linarith) hq0) hP1
    obtain ⟨hY1, hY2⟩ := pos (P * a.n) (mul_nonneg hP0 hn'.le)
    set Y := rnd (P * a.n)
    have hY0 : 0 ≤ Y := le_trans (mul_nonneg (by linarith) (mul_nonneg hP0 hn'.le)) hY1
    obtain ⟨hYup, hYlow, hPle, hPp1⟩ := chain u p (A / L) P Y a.n hu hu1 hp0 hn'.le hq1 hq2 hP1 hP2 hY1 hY2
    by_cases hp1 : p < 1
    · -- inside: floor agrees
      have hyn : p * a.n < a.n := by have := mul_lt_mul_of_pos_right hp1 hn'; linarith
      have hun : 0 ≤ u * a.n := mul_nonneg hu hn'.le
      have huy : u * (p * a.n) ≤ u * a.n := mul_le_mul_of_nonneg_left hyn.le hu
      obtain ⟨i, hi⟩ : ∃ i : ℕ, (i : ℤ) = ⌊p * a.n⌋ := ⟨⌊p * a.n⌋.toNat, Int.toNat_of_nonneg (Int.floor_nonneg.2 (mul_nonneg hp0 hn'.le))⟩
      have hf := Int.floor_eq_iff.1 hi.symm
      push_cast at hf
      have hin : i < a.n := by
        have : (i : ℚ) < a.n := lt_of_le_of_lt hf.1 hyn
        exact_mod_cast this
      have hup : p * a.n < i + 1 - 5 * u * a.n := by
        have := hx (i + 1) (by omega) (by omega)
        push_cast at this
        rw [abs_of_neg (by linarith [hf.2])] at this
        linarith
      have hlow : (i : ℚ) ≤ Y := by
        rcases Nat.eq_zero_or_pos i with h0 | h0
        · rw [h0]; simpa using hY0
        · have := hx i h0 hin.le
          rw [abs_of_nonneg (by linarith [hf.1])] at this
          linarith
      have hup' : Y < i + 1 := by linarith
      have hP1 : P < 1 := by
        have hin' : ((i : ℚ) + 1) ≤ a.n := by exact_mod_cast hin
        have : p * a.n < (1 - 5 * u) * a.n := by linarith
        have : p < 1 - 5 * u := lt_of_mul_lt_mul_right this hn'.le
        have h5 := mul_lt_mul_of_pos_left this (show 0 < 1 + 5 * u by linarith)
        have := mul_nonneg hu hu
        linarith
      rw [if_pos ⟨hP0, hP1⟩, if_pos ⟨hp0, hp1⟩]
      have e1 : pyInt Y = i := by
        unfold pyInt; rw [if_pos hY0, Int.floor_eq_iff]; push_cast; exact ⟨hlow, hup'⟩
      have e2 : pyInt (p * a.n) = i := by
        unfold pyInt; rw [if_pos (mul_nonneg hp0 hn'.le), ← hi]
      rw [e1, e2]
    · -- beyond the upper limit
      push Not at hp1
      have := hx a.n hn le_rfl
      have hge' : (a.n : ℚ) ≤ p * a.n := by have := mul_le_mul_of_nonneg_right hp1 hn'.le; linarith
      rw [abs_of_nonneg (by linarith)] at this
      have hp5 : 1 + 5 * u < p := by
        have : (1 + 5 * u) * a.n < p * a.n := by linarith
        exact lt_of_mul_lt_mul_right this hn'.le
      have hP1 : 1 ≤ P := by
        -- (1-u)^2 p ≤ (1+u) P and (1-u)^2 (1+5u) ≥ 1+u
        have c3 : 1 + u ≤ (1 - u) ^ 2 * (1 + 5 * u) := by nlinarith [mul_nonneg hu hu, mul_nonneg (mul_nonneg hu hu) hu]
        have : (1 - u) ^ 2 * (1 + 5 * u) ≤ (1 - u) ^ 2 * p := mul_le_mul_of_nonneg_left hp5.le (by positivity)
        have : (1 + u) * 1 ≤ (1 + u) * P := by linarith
        exact le_of_mul_le_mul_left this (by linarith)
      rw [if_neg (fun q => absurd q.2 (not_lt.2 hP1)), if_neg (fun q => absurd q.2 (not_lt.2 hp1))]

/-- C202: if no point lies within 5·u·n bins of a bin boundary (lower limits excepted), the rounded arithmetic puts every
point into the voxel it lies in, so C202_accuracy speaks about exactly the points of that voxel. -/
theorem C202_members (u : ℚ) (hu1 : u ≤ 1 / 100) (rnd : ℚ → ℚ) (hr : Fl.Spec.Rel u rnd) (g : Grid) (hg : Spec.Proper g) (data : List Pt)
    (hd : ∀ p ∈ data, Spec.Away u g.x p.x ∧ Spec.Away u g.y p.y ∧ Spec.Away u g.z p.z)
    (i j k : ℕ) (hi : i < g.x.n) (hj : j < g.y.n) (hk : k < g.z.n) :
    Spec.members rnd g (flat g i j k) data = Spec.values g i j k data := by
  obtain ⟨⟨hx, hx'⟩, ⟨hy, hy'⟩, hz, hz'⟩ := id hg
  unfold Spec.members Spec.values
  apply List.filterMap_congr
  intro p hp
  obtain ⟨h1, h2, h3⟩ := hd p hp
  have hv : voxel rnd g p = voxel id g p := by
    unfold voxel
    rw [cell_round u hu1 rnd hr g.x hx hx' p.x h1, cell_round u hu1 rnd hr g.y hy hy' p.y h2, cell_round u hu1 rnd hr g.z hz hz' p.z h3]
  rw [hv]
  have hpt := pt_eq g hg p i j k hi hj hk
  unfold pt at hpt
  cases hvx : voxel id g p with
  | none =>
    rw [hvx] at hpt
    cases hw : (if Spec.inVoxel g i j k p then p.v else none) with
    | none => rfl
    | some v => rw [hw] at hpt; exact absurd (congrArg Acc.n hpt) (by simp)
  | some cv =>
    obtain ⟨c, v⟩ := cv
    rw [hvx] at hpt
    simp only at hpt ⊢
    cases hw : (if Spec.inVoxel g i j k p then p.v else none) with
    | none =>
      rw [hw] at hpt
      by_cases hc : c = flat g i j k
      · rw [if_pos hc] at hpt; exact absurd (congrArg Acc.n hpt) (by simp)
      · rw [if_neg hc]
    | some w =>
      rw [hw] at hpt
      by_cases hc : c = flat g i j k
      · rw [if_pos hc] at hpt ⊢
        have := congrArg Acc.s hpt
        simp only at this
        rw [this]
      · rw [if_neg hc] at hpt; exact absurd (congrArg Acc.n hpt) (by simp)

/-- C202 is false literally: the same three points in double precision, two schedules of two threads, different sums. -/
theorem C202_reproducible_refuted :
    let g : Grid := ⟨⟨0, 1, 1⟩, ⟨0, 1, 1⟩, ⟨0, 1, 1⟩⟩
    let p : ℚ → Pt := fun v => ⟨0, 0, 0, some v⟩
    let data := [p 1, p (1 / 2 ^ 53), p (1 / 2 ^ 53)]
    let ev := [(0, p 1), (0, p (1 / 2 ^ 53)), (0, p (1 / 2 ^ 53))]
    let ev' := [(0, p 1), (1, p (1 / 2 ^ 53)), (1, p (1 / 2 ^ 53))]
    Spec.Schedules 2 data ev ∧ Spec.Schedules 2 data ev' ∧ (out Fl.round53 g 2 zeroed ev 0).s = 1 ∧
      (out Fl.round53 g 2 zeroed ev' 0).s = 1 + 1 / 2 ^ 52 := by
  refine ⟨⟨.refl _, by simp⟩, ⟨.refl _, by simp⟩, by decide +kernel, by decide +kernel⟩

/-- The hypotheses are met by double precision. -/
example : Fl.Spec.Rel (1 / 2 ^ 53) Fl.round53 := Fl.round53_rel
example : Spec.members Fl.round53 ⟨⟨0, 1, 2⟩, ⟨0, 1, 1⟩, ⟨0, 1, 1⟩⟩ 1 [⟨3 / 4, 0, 0, some 5⟩, ⟨1 / 4, 0, 0, some 6⟩, ⟨1 / 2, 0, 0, some 7⟩] = [5, 7] := by
  decide +kernel
/-- Points in the middle of their bins are away from the boundaries. -/
example : Spec.Away (1 / 2 ^ 53) ⟨0, 1, 2⟩ (3 / 4) ∧ Spec.Away (1 / 2 ^ 53) ⟨0, 1, 2⟩ 0 := by
  constructor <;> intro m h1 h2 <;> simp only at h2 <;> interval_cases m <;> norm_num

end Verif.Grid
