/- Properties C56, C57, C96, C97: peak filtering and refinement. -/
import Verif.Feature.Model
import Mathlib.Tactic.Linarith
import Mathlib.Tactic.FieldSimp
import Mathlib.Tactic.Ring
import Mathlib.Tactic.NormNum

namespace Verif.Feature
open Verif

/-! ## C56 filter_n_largest -/

/-- A sorting permutation, as returned by `np.argsort` (any order of ties). -/
def Spec.IsArgsort (argsort : List ℚ → List ℕ) : Prop :=
  ∀ l, (argsort l).Perm (List.range l.length) ∧ ((argsort l).map (fun i => l.getD i 0)).Pairwise (· ≤ ·)

theorem map_getD_range (l : List ℕ) : (List.range l.length).map (fun i => l.getD i 0) = l := by
  apply List.ext_getElem?
  intro i
  rw [List.getElem?_map]
  by_cases h : i < l.length
  · rw [List.getElem?_range h]; simp [List.getD, h]
  · rw [List.getElem?_eq_none (by simpa using h), List.getElem?_eq_none (by omega)]; rfl

/-- The result has min(N, number) elements; together with the dropped ones they are the candidates; no dropped candidate
is higher than a kept one; the kept ones are in descending order. -/
theorem C56_n_largest (argsort : List ℚ → List ℕ) (hs : Spec.IsArgsort argsort) (y : List ℚ) (cands : List ℕ)
    (hc : ∀ c ∈ cands, c < y.length) (N : ℤ) (hN : 1 ≤ N) :
    ∃ r rest, filterNLargest argsort y cands N = .ok r ∧ (r ++ rest).Perm cands ∧ (r.length : ℤ) = min N cands.length ∧
      (∀ a ∈ r, ∀ b ∈ rest, y.getD b 0 ≤ y.getD a 0) ∧ r.Pairwise (fun a b => y.getD b 0 ≤ y.getD a 0) := by
  set ys := cands.map (fun c => y.getD c 0) with hys
  obtain ⟨hp, hsort⟩ := hs ys
  set s := argsort ys with hsdef
  have hlen : s.length = cands.length := by rw [hp.length_eq]; simp [hys]
  have hval : ∀ i ∈ s, ys.getD i 0 = y.getD (cands.getD i 0) 0 := by
    intro i hi
    have : i < cands.length := by
      have := hp.subset hi
      simpa [hys] using this
    simp [hys, List.getD, this]
  have hsort' : (s.map (fun i => cands.getD i 0)).Pairwise (fun a b => y.getD a 0 ≤ y.getD b 0) := by
    rw [List.map_congr_left hval] at hsort
    rw [List.pairwise_map] at hsort ⊢
    exact hsort
  have hperm : (s.map (fun i => cands.getD i 0)).Perm cands := by
    have := hp.map (fun i => cands.getD i 0)
    rw [show ys.length = cands.length by simp [hys], map_getD_range] at this
    exact this
  set k := s.length - N.toNat with hk
  set m := s.map (fun i => cands.getD i 0) with hm
  have hmk : m = m.take k ++ m.drop k := (List.take_append_drop k m).symm
  have hres : filterNLargest argsort y cands N = .ok (m.drop k).reverse := by
    unfold filterNLargest
    rw [if_neg (by omega), if_neg]
    · simp only [← hys, ← hsdef]
      split
      · have : k = 0 := by omega
        rw [this]; simp [hm]
      · rw [← hk, List.map_drop]
    · simp only [List.any_eq_true, decide_eq_true_eq, not_exists, not_and, not_le]
      exact hc
  refine ⟨(m.drop k).reverse, m.take k, hres, ?_, ?_, ?_, ?_⟩
  · refine List.Perm.trans ?_ hperm
    have h1 : ((m.drop k).reverse ++ m.take k).Perm (m.drop k ++ m.take k) := (List.reverse_perm _).append_right _
    refine h1.trans ((List.perm_append_comm).trans ?_)
    rw [← hmk]
  · rw [List.length_reverse, List.length_drop]
    have : m.length = s.length := by simp [hm]
    omega
  · intro a ha b hb
    rw [List.mem_reverse] at ha
    rw [hmk, List.pairwise_append] at hsort'
    exact hsort'.2.2 b hb a ha
  · rw [List.pairwise_reverse]
    rw [hmk, List.pairwise_append] at hsort'
    exact hsort'.2.1

/-- A limit below 1 raises. -/
theorem C56_bad_limit (argsort : List ℚ → List ℕ) (y : List ℚ) (cands : List ℕ) (N : ℤ) (hN : N < 1) :
    filterNLargest argsort y cands N = .error .valueError := by
  unfold filterNLargest
  rw [if_pos (by omega)]

/-- Insertion sort of positions: a concrete sorting permutation. -/
def exArgsort (l : List ℚ) : List ℕ := (List.range l.length).insertionSort (fun i j => l.getD i 0 ≤ l.getD j 0)

theorem exArgsort_ok : Spec.IsArgsort exArgsort := by
  intro l
  refine ⟨List.perm_insertionSort _ _, ?_⟩
  rw [List.pairwise_map]
  haveI : IsTrans ℕ (fun i j => l.getD i 0 ≤ l.getD j 0) := ⟨fun a b c h1 h2 => le_trans h1 h2⟩
  haveI : Std.Total (fun i j : ℕ => l.getD i 0 ≤ l.getD j 0) := ⟨fun a b => le_total _ _⟩
  exact List.pairwise_insertionSort _ _

example : filterNLargest exArgsort [5, 1, 9, 9, 2, 7] [0, 2, 3, 5] 3 = .ok [3, 2, 5] ∧
    filterNLargest exArgsort [5, 1, 9, 9, 2, 7] [0, 2] 3 = .ok [2, 0] := by decide +kernel

/-! ## C57 filter_peak_height -/

theorem mem_window {α : Type} (y : List α) (ind w : ℕ) (v : α) :
    v ∈ windowSlice y ind w ↔ ∃ i, ind ≤ i + w ∧ i ≤ ind + w ∧ y[i]? = some v := by
  unfold windowSlice
  rw [List.mem_iff_getElem?]
  constructor
  · rintro ⟨k, hk⟩
    rw [List.getElem?_drop, List.getElem?_take] at hk
    split at hk
    · exact ⟨ind - w + k, by omega, by omega, hk⟩
    · simp at hk
  · rintro ⟨i, h1, h2, h3⟩
    refine ⟨i - (ind - w), ?_⟩
    have := (List.getElem?_eq_some_iff.1 h3).1
    rw [List.getElem?_drop, List.getElem?_take, show ind - w + (i - (ind - w)) = i by omega, if_pos (by omega)]
    exact h3

theorem foldl_max_mem {α : Type} [LinearOrder α] (t : List α) : ∀ a, t.foldl max a ∈ a :: t ∧ ∀ v ∈ a :: t, v ≤ t.foldl max a := by
  induction t with
  | nil => intro a; simp
  | cons b t ih =>
    intro a
    obtain ⟨h1, h2⟩ := ih (max a b)
    simp only [List.foldl_cons]
    constructor
    · rcases List.mem_cons.1 h1 with h | h
      · rw [h]; rcases le_total a b with hab | hab
        · rw [max_eq_right hab]; simp
        · rw [max_eq_left hab]; simp
      · simp [h]
    · intro v hv
      have h0 := h2 (max a b) (by simp)
      rcases List.mem_cons.1 hv with rfl | hv
      · exact le_trans (le_max_left _ _) h0
      · rcases List.mem_cons.1 hv with rfl | hv
        · exact le_trans (le_max_right _ _) h0
        · exact h2 v (by simp [hv])

theorem foldl_min_mem {α : Type} [LinearOrder α] (t : List α) : ∀ a, t.foldl min a ∈ a :: t ∧ ∀ v ∈ a :: t, t.foldl min a ≤ v := by
  induction t with
  | nil => intro a; simp
  | cons b t ih =>
    intro a
    obtain ⟨h1, h2⟩ := ih (min a b)
    simp only [List.foldl_cons]
    constructor
    · rcases List.mem_cons.1 h1 with h | h
      · rw [h]; rcases le_total a b with hab | hab
        · rw [min_eq_left hab]; simp
        · rw [min_eq_right hab]; simp
      · simp [h]
    · intro v hv
      have h0 := h2 (min a b) (by simp)
      rcases List.mem_cons.1 hv with rfl | hv
      · exact le_trans h0 (min_le_left _ _)
      · rcases List.mem_cons.1 hv with rfl | hv
        · exact le_trans h0 (min_le_right _ _)
        · exact h2 v (by simp [hv])

theorem ptp_spec {α : Type} [Field α] [LinearOrder α] [IsStrictOrderedRing α] (l : List α) (h : l ≠ []) : ∃ p, ptp l = .ok p ∧ ∀ t, t < p ↔ ∃ a ∈ l, ∃ b ∈ l, t < a - b := by
  cases l with
  | nil => exact absurd rfl h
  | cons a t =>
    obtain ⟨m1, m2⟩ := foldl_max_mem t a
    obtain ⟨n1, n2⟩ := foldl_min_mem t a
    refine ⟨_, rfl, fun s => ⟨fun hs => ⟨_, m1, _, n1, hs⟩, ?_⟩⟩
    rintro ⟨u, hu, v, hv, huv⟩
    have := m2 u hu
    have := n2 v hv
    linarith

/-- The tallest difference between two samples within `window` of position `ind`, and within the data, exceeds t. -/
def Spec.Tall {α : Type} [LinearOrder α] [Sub α] (y : List α) (window : ℕ) (thresh : α) (ind : ℕ) : Prop :=
  ∃ i j vi vj, ind ≤ i + window ∧ i ≤ ind + window ∧ y[i]? = some vi ∧ ind ≤ j + window ∧ j ≤ ind + window ∧ y[j]? = some vj ∧ thresh < vi - vj

open Classical in
/-- Exactly the candidates whose window has a peak-to-peak height above the threshold are kept, in order. -/
theorem C57_peak_height {α : Type} [Field α] [LinearOrder α] [IsStrictOrderedRing α] (y : List α) (thresh : α) (window : ℕ) (cands : List ℕ) (hc : ∀ c ∈ cands, c < y.length) :
    filterPeakHeight y thresh window cands = .ok (cands.filter (fun c => decide (Spec.Tall y window thresh c))) := by
  induction cands with
  | nil => rfl
  | cons c t ih =>
    have hcl := hc c (by simp)
    have hne : windowSlice y c window ≠ [] := by
      have : y[c] ∈ windowSlice y c window := (mem_window y c window _).2 ⟨c, by omega, by omega, List.getElem?_eq_getElem hcl⟩
      exact List.ne_nil_of_mem this
    obtain ⟨p, h1, h2⟩ := ptp_spec _ hne
    have hiff : thresh < p ↔ Spec.Tall y window thresh c := by
      rw [h2]
      constructor
      · rintro ⟨a, ha, b, hb, hab⟩
        obtain ⟨i, i1, i2, i3⟩ := (mem_window y c window a).1 ha
        obtain ⟨j, j1, j2, j3⟩ := (mem_window y c window b).1 hb
        exact ⟨i, j, a, b, i1, i2, i3, j1, j2, j3, hab⟩
      · rintro ⟨i, j, a, b, i1, i2, i3, j1, j2, j3, hab⟩
        exact ⟨a, (mem_window y c window a).2 ⟨i, i1, i2, i3⟩, b, (mem_window y c window b).2 ⟨j, j1, j2, j3⟩, hab⟩
    rw [filterPeakHeight, h1]
    simp only [ih (fun c' h' => hc c' (by simp [h'])), gt_iff_lt, List.filter_cons]
    by_cases hp : thresh < p
    · rw [if_pos hp, if_pos (by simpa using hiff.1 hp)]
    · rw [if_neg hp, if_neg (by simpa using fun h => hp (hiff.2 h))]

/-- A candidate with no sample within `window` of it (it must lie beyond the end of the data) raises ValueError. -/
theorem C57_outside {α : Type} [Field α] [LinearOrder α] [IsStrictOrderedRing α] (y : List α) (thresh : α) (window : ℕ) (cands : List ℕ)
    (hc : ∃ c ∈ cands, y.length + window ≤ c) : filterPeakHeight y thresh window cands = .error .valueError := by
  induction cands with
  | nil => simp at hc
  | cons c t ih =>
    unfold filterPeakHeight
    cases hw : windowSlice y c window with
    | nil => rfl
    | cons a l =>
      have ha : a ∈ windowSlice y c window := by rw [hw]; simp
      obtain ⟨i, h1, _, h3⟩ := (mem_window y c window a).1 ha
      have hi := (List.getElem?_eq_some_iff.1 h3).1
      obtain ⟨c', hc', hle⟩ := hc
      rcases List.mem_cons.1 hc' with rfl | hc'
      · omega
      · simp only [ptp, ih ⟨c', hc', hle⟩]

example : filterPeakHeight [0, 5, 1, 2, 1, 0, 9] 3 1 [0, 3, 6] = .ok [0, 6] := by decide +kernel

/-! ## C96 exactness of the peak refinement -/

theorem sum_sq_zero (l : List ℝ) (h : ∀ v ∈ l, 0 ≤ v) (hs : l.sum ≤ 0) : ∀ v ∈ l, v = 0 := by
  induction l with
  | nil => simp
  | cons a t ih =>
    have ha := h a (by simp)
    have ht : 0 ≤ t.sum := List.sum_nonneg (fun v hv => h v (by simp [hv]))
    rw [List.sum_cons] at hs
    intro v hv
    rcases List.mem_cons.1 hv with rfl | hv
    · linarith
    · exact ih (fun v hv => h v (by simp [hv])) (by linarith) v hv

/-- Three different sampling points. -/
def Spec.ThreePoints (x : List ℝ) : Prop := ∃ u ∈ x, ∃ v ∈ x, ∃ w ∈ x, u ≠ v ∧ u ≠ w ∧ v ≠ w

theorem three_length (x : List ℝ) (h : Spec.ThreePoints x) : 3 ≤ x.length := by
  obtain ⟨u, hu, v, hv, w, hw, h1, h2, h3⟩ := h
  have hn : [u, v, w].Nodup := by simp [h1, h2, h3]
  have hsub : [u, v, w] ⊆ x := by
    intro z hz
    simp at hz
    rcases hz with rfl | rfl | rfl <;> assumption
  exact (hn.subperm hsub).length_le

theorem quad_unique (a b c u v w : ℝ) (h1 : u ≠ v) (h2 : u ≠ w) (h3 : v ≠ w) (e1 : a * u ^ 2 + b * u + c = 0)
    (e2 : a * v ^ 2 + b * v + c = 0) (e3 : a * w ^ 2 + b * w + c = 0) : a = 0 ∧ b = 0 ∧ c = 0 := by
  have f1 : a * (u + v) + b = 0 := by
    apply mul_left_cancel₀ (sub_ne_zero.2 h1)
    linarith
  have f2 : a * (u + w) + b = 0 := by
    apply mul_left_cancel₀ (sub_ne_zero.2 h2)
    linarith
  have ha : a = 0 := by
    apply mul_right_cancel₀ (sub_ne_zero.2 h3)
    linarith
  subst ha
  have hb : b = 0 := by linarith
  subst hb
  exact ⟨rfl, rfl, by linarith⟩

theorem fit_exact (lstsq : List ℝ → List ℝ → ℝ × ℝ × ℝ) (hl : IsLstsq lstsq) (x : List ℝ) (h3 : Spec.ThreePoints x)
    (a c h : ℝ) (ha : a ≠ 0) :
    fitQuadToPeak lstsq x (x.map (fun u => a * (u - c) ^ 2 + h)) = .ok ((a, c, h), 1) := by
  have hlen := three_length x h3
  set y := x.map (fun u => a * (u - c) ^ 2 + h) with hy
  have hz : sse x y (a, -2 * a * c, a * c ^ 2 + h) = 0 := by
    unfold sse
    rw [hy, List.zipWith_map_right]
    have : (fun u v => (a * u ^ 2 + -2 * a * c * u + (a * c ^ 2 + h) - (a * (v - c) ^ 2 + h)) ^ 2) = fun u v : ℝ =>
      (a * u ^ 2 + -2 * a * c * u + (a * c ^ 2 + h) - (a * (v - c) ^ 2 + h)) ^ 2 := rfl
    rw [List.zipWith_self]
    apply List.sum_eq_zero
    intro v hv
    rw [List.mem_map] at hv
    obtain ⟨u, _, rfl⟩ := hv
    ring
  have hmin := hl x y (a, -2 * a * c, a * c ^ 2 + h)
  rw [hz] at hmin
  have hpt : ∀ u ∈ x, (lstsq x y).1 * u ^ 2 + (lstsq x y).2.1 * u + (lstsq x y).2.2 = a * (u - c) ^ 2 + h := by
    intro u hu
    have := sum_sq_zero _ (by
      intro v hv
      rw [List.zipWith_map_right, List.zipWith_self, List.mem_map] at hv
      obtain ⟨_, _, rfl⟩ := hv
      positivity) hmin
    have h1 := this (((lstsq x y).1 * u ^ 2 + (lstsq x y).2.1 * u + (lstsq x y).2.2 - (a * (u - c) ^ 2 + h)) ^ 2) (by
      rw [List.zipWith_map_right, List.zipWith_self, List.mem_map]
      exact ⟨u, hu, rfl⟩)
    have h2 := pow_eq_zero_iff (two_ne_zero) |>.1 h1
    linarith
  obtain ⟨u, hu, v, hv, w, hw, n1, n2, n3⟩ := h3
  have q := quad_unique ((lstsq x y).1 - a) ((lstsq x y).2.1 + 2 * a * c) ((lstsq x y).2.2 - a * c ^ 2 - h) u v w n1 n2 n3
    (by have := hpt u hu; linarith) (by have := hpt v hv; linarith) (by have := hpt w hw; linarith)
  have hbeta : lstsq x y = (a, -2 * a * c, a * c ^ 2 + h) := by
    apply Prod.ext
    · show (lstsq x y).1 = a; linarith [q.1]
    · apply Prod.ext
      · show (lstsq x y).2.1 = -2 * a * c; linarith [q.2.1]
      · show (lstsq x y).2.2 = a * c ^ 2 + h; linarith [q.2.2]
  unfold fitQuadToPeak
  rw [if_neg (by omega)]
  simp only [hbeta, hz, zero_div, sub_zero]
  congr 2
  have e1 : -(-2 * a * c) / (2 * a) = c := by field_simp
  have e2 : a * c ^ 2 + h - a * (-2 * a * c / (2 * a)) ^ 2 = h := by
    have : -2 * a * c / (2 * a) = -c := by field_simp
    rw [this]; ring
  rw [e1, e2]

/-- A parabola is refined to its vertex, whatever the threshold (at most 1) on R^2. -/
theorem C96_quadratic (lstsq : List ℝ → List ℝ → ℝ × ℝ × ℝ) (hl : IsLstsq lstsq) (x : List ℝ) (h3 : Spec.ThreePoints x)
    (a c h : ℝ) (ha : a ≠ 0) (rval : Option ℝ) (hr : ∀ t, rval = some t → t ≤ 1) :
    refineQuadratic lstsq rval x (x.map (fun u => a * (u - c) ^ 2 + h)) = .ok (some (c, h)) := by
  unfold refineQuadratic
  rw [fit_exact lstsq hl x h3 a c h ha]
  cases rval with
  | none => rfl
  | some t =>
    simp only
    rw [if_neg (not_lt.2 (hr t rfl))]

theorem log_gauss (x : List ℝ) (c H s : ℝ) (hH : 0 < H) (hs : 0 < s) :
    (x.map (fun u => H * Real.exp (-(u - c) ^ 2 / (2 * s ^ 2)))).map Real.log = x.map (fun u => -(1 / (2 * s ^ 2)) * (u - c) ^ 2 + Real.log H) := by
  rw [List.map_map]
  apply List.map_congr_left
  intro u _
  simp only [Function.comp]
  rw [Real.log_mul hH.ne' (Real.exp_pos _).ne', Real.log_exp]
  ring

/-- A Gaussian is refined to its exact centre and height by refine_log_quadratic. -/
theorem C96_gaussian (lstsq : List ℝ → List ℝ → ℝ × ℝ × ℝ) (hl : IsLstsq lstsq) (x : List ℝ) (h3 : Spec.ThreePoints x)
    (c H s : ℝ) (hH : 0 < H) (hs : 0 < s) (rval : Option ℝ) (hr : ∀ t, rval = some t → t ≤ 1) :
    refineLogQuadratic lstsq rval x (x.map (fun u => H * Real.exp (-(u - c) ^ 2 / (2 * s ^ 2)))) = .ok (some (c, H)) := by
  unfold refineLogQuadratic
  rw [log_gauss x c H s hH hs, fit_exact lstsq hl x h3 _ c _ (by simp; exact hs.ne')]
  cases rval with
  | none => simp only; rw [Real.exp_log hH]
  | some t =>
    simp only
    rw [if_neg (not_lt.2 (hr t rfl)), Real.exp_log hH]

/-- Instance: three points of a Gaussian centred at 1. -/
example (lstsq : List ℝ → List ℝ → ℝ × ℝ × ℝ) (hl : IsLstsq lstsq) :
    refineLogQuadratic lstsq none [0, 1, 3] ([0, 1, 3].map (fun u => 5 * Real.exp (-(u - 1) ^ 2 / (2 * 2 ^ 2)))) = .ok (some (1, 5)) :=
  C96_gaussian lstsq hl [0, 1, 3] ⟨0, by simp, 1, by simp, 3, by simp, by norm_num, by norm_num, by norm_num⟩ 1 5 2 (by norm_num) (by norm_num) none (by simp)

/-! ## C97 peak_refinement -/

/-- peak_refinement calls the refine function once per candidate, on the samples within `window` of it (fewer at the ends
of the data), and returns the results of the candidates that were not rejected, in order. -/
theorem C97_peak_refinement {α : Type} (refine : List α → List α → Py (Option (α × α))) (x y : List α) (hxy : x.length = y.length)
    (window : ℕ) (f : List α → List α → Option (α × α)) (cands : List ℕ) (hf : ∀ c ∈ cands,
      refine ((x.drop (c - window)).take (c + window + 1 - (c - window))) ((y.drop (c - window)).take (c + window + 1 - (c - window))) =
        .ok (f ((x.drop (c - window)).take (c + window + 1 - (c - window))) ((y.drop (c - window)).take (c + window + 1 - (c - window))))) :
    peakRefinement refine x y window cands = .ok (cands.filterMap (fun c =>
      f ((x.drop (c - window)).take (c + window + 1 - (c - window))) ((y.drop (c - window)).take (c + window + 1 - (c - window))))) := by
  have hw : ∀ (l : List α) (c : ℕ), (l.take (min l.length (c + window + 1))).drop (c - window) = (l.drop (c - window)).take (c + window + 1 - (c - window)) := by
    intro l c
    rw [List.drop_take]
    apply List.ext_getElem?
    intro i
    rw [List.getElem?_take, List.getElem?_take, List.getElem?_drop]
    by_cases h1 : i < c + window + 1 - (c - window)
    · rw [if_pos h1]
      by_cases h2 : i < min l.length (c + window + 1) - (c - window)
      · rw [if_pos h2]
      · rw [if_neg h2, List.getElem?_eq_none (by omega)]
    · rw [if_neg h1, if_neg (by omega)]
  induction cands with
  | nil => rfl
  | cons c t ih =>
    rw [peakRefinement, windowSlice, hw x c, hxy, hw y c, hf c (by simp), ih (fun c' h' => hf c' (by simp [h']))]
    simp only [List.filterMap_cons]
    split <;> simp_all

end Verif.Feature
