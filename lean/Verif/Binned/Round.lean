/- Property C210: the sums, means and standard deviations of BinnedStatistic with rounding arithmetic. -/
import Verif.Binned.Props
import Verif.Corr.Round

namespace Verif.Binned
open Verif Function

/-! ### model: as `Verif/Binned/Model.lean` with a rounding after every floating-point operation -/

/-- `np.bincount(keys, weights)`: the weights are added one after the other to the entry of their key, starting from zeros. -/
def sumsR (rnd : ℚ → ℚ) (keys : List ℕ) (w : List ℚ) : ℕ → ℚ :=
  (keys.zip w).foldl (fun m e => update m e.1 (rnd (m e.1 + e.2))) (fun _ => 0)

/-- 'sum', binned_statistic.py:306-310 (zero beyond the largest key). -/
def resSumR (rnd : ℚ → ℚ) (keys : List ℕ) (vals : List ℚ) (c : ℕ) : ℚ := sumsR rnd keys vals c

/-- 'mean', binned_statistic.py:291-295; `none` = NaN. -/
def resMeanR (rnd : ℚ → ℚ) (keys : List ℕ) (vals : List ℚ) (c : ℕ) : Option ℚ :=
  if keys.count c = 0 then none else some (rnd (sumsR rnd keys vals c / keys.count c))

/-- The quantity under the root of 'std', binned_statistic.py:296-301 (empty bins: 0).  The result is NaN where it is negative. -/
def resVarR (rnd : ℚ → ℚ) (keys : List ℕ) (vals : List ℚ) (c : ℕ) : ℚ :=
  if keys.count c = 0 then 0
  else rnd (rnd (sumsR rnd keys (vals.map (fun v => rnd (v ^ 2))) c / keys.count c) - rnd (rnd (sumsR rnd keys vals c / keys.count c) ^ 2))

/-! ### lemmas -/

/-- Sum from the left with a rounding after every addition. -/
def sumR (rnd : ℚ → ℚ) (vs : List ℚ) : ℚ := vs.foldl (fun a v => rnd (a + v)) 0

theorem sumsR_eq (rnd : ℚ → ℚ) (keys : List ℕ) (w : List ℚ) (c : ℕ) :
    sumsR rnd keys w c = sumR rnd (((keys.zip w).filter (fun e => decide (e.1 = c))).map Prod.snd) := by
  unfold sumsR sumR
  have key : ∀ (l : List (ℕ × ℚ)) (m : ℕ → ℚ), (l.foldl (fun m e => update m e.1 (rnd (m e.1 + e.2))) m) c =
      ((l.filter (fun e => decide (e.1 = c))).map Prod.snd).foldl (fun a v => rnd (a + v)) (m c) := by
    intro l
    induction l with
    | nil => intro m; rfl
    | cons e t ih =>
      intro m
      simp only [List.foldl_cons, ih, List.filter_cons]
      by_cases h : e.1 = c
      · subst h; simp
      · simp [h, update_of_ne (Ne.symm h)]
  exact key _ _

theorem sumR_near {u : ℚ} {rnd : ℚ → ℚ} (hr : Fl.Spec.Rel u rnd) (vs : List ℚ) : Fl.Near u vs.length (sumR rnd vs) vs.sum (vs.map abs).sum := by
  induction vs using List.reverseRecOn with
  | nil => exact Fl.Near.zero u
  | append_singleton t v ih =>
    unfold sumR at ih ⊢
    rw [List.foldl_append]
    simpa using Fl.Near.rnd_add hr ih (Fl.Near.exact u _ hr.1 v)

theorem sumR_sq_near {u : ℚ} {rnd : ℚ → ℚ} (hr : Fl.Spec.Rel u rnd) (vs : List ℚ) :
    Fl.Near u (vs.length + 1) (sumR rnd (vs.map (fun v => rnd (v ^ 2)))) (vs.map (fun v => v ^ 2)).sum (vs.map (fun v => v ^ 2)).sum := by
  induction vs using List.reverseRecOn with
  | nil => exact (Fl.Near.zero u).mono hr.1 (by omega)
  | append_singleton t v ih =>
    unfold sumR at ih ⊢
    have h1 : Fl.Near u 1 (rnd (v ^ 2)) (v ^ 2) (v ^ 2) := by
      have := (Fl.Near.exact u 0 hr.1 (v ^ 2)).round hr
      rwa [abs_of_nonneg (sq_nonneg v)] at this
    rw [List.map_append, List.foldl_append]
    simpa using Fl.Near.rnd_add hr ih (h1.mono hr.1 (by omega))

theorem sq_mean_le (vs : List ℚ) (h : vs ≠ []) : ((vs.map abs).sum / vs.length) ^ 2 ≤ (vs.map (fun v => v ^ 2)).sum / vs.length := by
  have hn : (0 : ℚ) < vs.length := by
    have := List.length_pos_of_ne_nil h
    exact_mod_cast this
  have key : ∀ (m : ℚ) (l : List ℚ), 0 ≤ (l.map (fun v => v ^ 2)).sum - 2 * m * (l.map abs).sum + l.length * m ^ 2 := by
    intro m l
    induction l with
    | nil => simp
    | cons a l ih =>
      simp only [List.map_cons, List.sum_cons, List.length_cons]
      push_cast
      have := sq_nonneg (|a| - m)
      have e : |a| ^ 2 = a ^ 2 := sq_abs a
      linarith
  have := key ((vs.map abs).sum / vs.length) vs
  set A := (vs.map abs).sum
  set Q := (vs.map (fun v => v ^ 2)).sum
  have e : Q - 2 * (A / vs.length) * A + vs.length * (A / vs.length) ^ 2 = vs.length * (Q / vs.length - (A / vs.length) ^ 2) := by
    field_simp; ring
  rw [e] at this
  have := nonneg_of_mul_nonneg_right this hn
  linarith

theorem count_zero_iff (keys : List ℕ) (w : List ℚ) (h : w.length = keys.length) (c : ℕ) (vs : List ℚ)
    (hvs : ((keys.zip w).filter (fun e => decide (e.1 = c))).map Prod.snd = vs) : keys.count c = vs.length := by
  rw [count_eq_length keys w h c, hvs]

/-! ## C210 -/

section
variable (u : ℚ) (rnd : ℚ → ℚ) (hr : Fl.Spec.Rel u rnd) (es : List (List ℚ)) (ni : List ℕ) (samples : List (List ℚ)) (h : Spec.Ok es ni samples)
  (vals : List ℚ) (hl : vals.length = samples.length)
include hr h hl

omit hl in
/-- C210: sums, with `n` values in the cell. -/
theorem C210_sum_partial :
    ∃ A, call (nbin es) ni (resSumR rnd (xy es ni samples) vals) = .ok A ∧ A.shape = es.map (fun e => e.length - 1) ∧
      ∀ idx, Spec.Valid es idx →
        let vs := Spec.cellValues es idx samples vals
        |A.get idx - vs.sum| ≤ ((1 + u) ^ vs.length - 1) * (vs.map abs).sum := by
  obtain ⟨A, h1, h2, h3⟩ := call_eq (nbin es) ni h.ni (resSumR rnd (xy es ni samples) vals)
  refine ⟨A, h1, by rw [h2, shape_eq], fun idx hi => ?_⟩
  have hlen : idx.length = (nbin es).length := by rw [← List.Forall₂.length_eq hi]; simp [nbin]
  rw [h3 idx hlen]
  unfold resSumR
  rw [sumsR_eq, keyed_values es h.edges ni h.ni.1 samples h.clear _ idx hi]
  exact (sumR_near hr _).1

/-- C210: means; NaN for an empty cell only. -/
theorem C210_mean_partial :
    ∃ A, call (nbin es) ni (resMeanR rnd (xy es ni samples) vals) = .ok A ∧ A.shape = es.map (fun e => e.length - 1) ∧
      ∀ idx, Spec.Valid es idx →
        let vs := Spec.cellValues es idx samples vals
        (vs = [] → A.get idx = none) ∧
        (vs ≠ [] → ∃ m, A.get idx = some m ∧ |m - vs.sum / vs.length| ≤ ((1 + u) ^ (vs.length + 1) - 1) * ((vs.map abs).sum / vs.length)) := by
  obtain ⟨A, h1, h2, h3⟩ := call_eq (nbin es) ni h.ni (resMeanR rnd (xy es ni samples) vals)
  refine ⟨A, h1, by rw [h2, shape_eq], fun idx hi => ?_⟩
  have hlen : idx.length = (nbin es).length := by rw [← List.Forall₂.length_eq hi]; simp [nbin]
  have hk := keyed_values es h.edges ni h.ni.1 samples h.clear vals idx hi
  have hcnt := count_zero_iff (xy es ni samples) vals (by simp [xy, hl]) _ _ hk
  rw [h3 idx hlen]
  unfold resMeanR
  rw [sumsR_eq, hk, hcnt]
  intro vs
  refine ⟨fun he => by rw [if_pos (by simp [show Spec.cellValues es idx samples vals = [] from he])], fun he => ?_⟩
  rw [if_neg (by simpa using he)]
  exact ⟨_, rfl, ((Verif.Corr.near_div (by positivity) (sumR_near hr vs)).round hr).1⟩

/-- C210: what is under the square root of the standard deviation. -/
theorem C210_std_partial :
    ∃ A, call (nbin es) ni (resVarR rnd (xy es ni samples) vals) = .ok A ∧ A.shape = es.map (fun e => e.length - 1) ∧
      ∀ idx, Spec.Valid es idx →
        let vs := Spec.cellValues es idx samples vals
        let V : ℚ := (vs.map (fun v => (v - vs.sum / vs.length) ^ 2)).sum / vs.length
        let q : ℚ := (vs.map (fun v => v ^ 2)).sum / vs.length
        (vs = [] → A.get idx = 0) ∧
        (vs ≠ [] → |A.get idx - V| ≤ ((1 + u) ^ (2 * vs.length + 4) - 1) * (2 * q) ∧
          (u ≤ 1 → ((1 + u) ^ (2 * vs.length + 3) - 1) * (2 * q) ≤ V → 0 ≤ A.get idx)) := by
  have hu := hr.1
  obtain ⟨A, h1, h2, h3⟩ := call_eq (nbin es) ni h.ni (resVarR rnd (xy es ni samples) vals)
  refine ⟨A, h1, by rw [h2, shape_eq], fun idx hi => ?_⟩
  have hlen : idx.length = (nbin es).length := by rw [← List.Forall₂.length_eq hi]; simp [nbin]
  have hk := keyed_values es h.edges ni h.ni.1 samples h.clear vals idx hi
  have hcnt := count_zero_iff (xy es ni samples) vals (by simp [xy, hl]) _ _ hk
  rw [h3 idx hlen]
  unfold resVarR
  rw [sumsR_eq, sumsR_eq, filter_zip_map, hk, hcnt]
  intro vs V q
  refine ⟨fun he => by rw [if_pos (by simp [show Spec.cellValues es idx samples vals = [] from he])], fun he => ?_⟩
  rw [if_neg (by simpa using he)]
  have hn : (0 : ℚ) < vs.length := by
    have := List.length_pos_of_ne_nil he
    exact_mod_cast this
  change |rnd (rnd (sumR rnd (vs.map (fun v => rnd (v ^ 2))) / vs.length) - rnd (rnd (sumR rnd vs / vs.length) ^ 2)) - V| ≤ _ ∧
    (_ → _ → 0 ≤ rnd (rnd (sumR rnd (vs.map (fun v => rnd (v ^ 2))) / vs.length) - rnd (rnd (sumR rnd vs / vs.length) ^ 2)))
  have hm := (Verif.Corr.near_div hn.le (sumR_near hr vs)).round hr
  have hm2 := (Verif.Corr.near_mul hu hm hm).round hr
  rw [← pow_two, ← pow_two, ← pow_two] at hm2
  have hm3 := (Verif.Corr.near_bound hu (sq_mean_le vs he) hm2).mono hu (show vs.length + 1 + (vs.length + 1) + 1 ≤ 2 * vs.length + 3 by omega)
  have hs2 := ((Verif.Corr.near_div hn.le (sumR_sq_near hr vs)).round hr).mono hu (show vs.length + 1 + 1 ≤ 2 * vs.length + 3 by omega)
  have hV : V = q - (vs.sum / vs.length) ^ 2 := by
    have key : ∀ (m : ℚ) (l : List ℚ), (l.map (fun v => (v - m) ^ 2)).sum =
        (l.map (fun v => v ^ 2)).sum - 2 * m * l.sum + l.length * m ^ 2 := by
      intro m l
      induction l with
      | nil => simp
      | cons a l ih => simp only [List.map_cons, List.sum_cons, ih, List.length_cons]; push_cast; ring
    show (vs.map (fun v => (v - vs.sum / vs.length) ^ 2)).sum / (vs.length : ℚ) = _
    rw [key]
    show _ = (vs.map (fun v => v ^ 2)).sum / (vs.length : ℚ) - _
    field_simp
    ring
  have hneg : Fl.Near u (2 * vs.length + 3) (-rnd (rnd (sumR rnd vs / vs.length) ^ 2)) (-(vs.sum / vs.length) ^ 2) q := by
    refine ⟨?_, by rw [abs_neg]; exact hm3.2⟩
    rw [← abs_neg, neg_sub, sub_neg_eq_add, neg_add_eq_sub]
    exact hm3.1
  have hd := hs2.add hneg
  rw [← sub_eq_add_neg, ← sub_eq_add_neg, ← two_mul] at hd
  change Fl.Near u _ _ (q - (vs.sum / vs.length) ^ 2) (2 * q) at hd
  rw [← hV] at hd
  refine ⟨(hd.round hr).1, fun hu1 hbig => ?_⟩
  set x := rnd (sumR rnd (vs.map (fun v => rnd (v ^ 2))) / vs.length) - rnd (rnd (sumR rnd vs / vs.length) ^ 2)
  have hx : 0 ≤ x := by
    have := (abs_le.1 hd.1).1
    linarith
  have := hr.2 x
  rw [abs_of_nonneg hx] at this
  have h5 := (abs_le.1 this).1
  have : u * x ≤ x := mul_le_of_le_one_left hx hu1
  linarith

end

/-- C210 fails for the standard deviation of equal values: three values 0.1 (in double precision) in one bin give a negative
"variance", hence NaN instead of 0. -/
theorem C210_nan_refuted : ∃ v : ℚ, v = Fl.round53 (1 / 10) ∧
    resVarR Fl.round53 (xy [[0, 1]] [0] [[1 / 2], [1 / 2], [1 / 2]]) [v, v, v] 1 < 0 := by
  refine ⟨_, rfl, ?_⟩
  decide +kernel

end Verif.Binned
