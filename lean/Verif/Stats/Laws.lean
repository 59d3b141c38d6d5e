/- C271: laws of statistics_1D (skbeam/core/stats.py 51-93). -/
import Verif.Stats.Props
import Mathlib.Data.List.Zip

namespace Verif.Stats
open Verif

theorem min?_perm {l l' : List ℚ} (h : l.Perm l') : l.min? = l'.min? := by
  cases hm : l.min? with
  | none =>
    rw [List.min?_eq_none_iff] at hm
    subst hm
    rw [List.nil_perm.1 h]
    rfl
  | some a =>
    symm
    rw [List.min?_eq_some_iff] at hm ⊢
    exact ⟨h.subset hm.1, fun b hb => hm.2 b (h.symm.subset hb)⟩

theorem max?_perm {l l' : List ℚ} (h : l.Perm l') : l.max? = l'.max? := by
  cases hm : l.max? with
  | none =>
    rw [List.max?_eq_none_iff] at hm
    subst hm
    rw [List.nil_perm.1 h]
    rfl
  | some a =>
    symm
    rw [List.max?_eq_some_iff] at hm ⊢
    exact ⟨h.subset hm.1, fun b hb => hm.2 b (h.symm.subset hb)⟩

/-! ## C271 -/

/-- C271: a change f of every intensity that changes the statistic by g (f and g the same scale and offset for the mean, a scale for the sum)
changes every bin by g; edges and errors stay. -/
theorem C271_values {β : Type} (stat : List ℚ → β) (f : ℚ → ℚ) (g : β → β) (hfg : ∀ l, stat (l.map f) = g (stat l)) (x y : List ℚ)
    (nx : Option ℤ) (mn mx : Option ℚ) :
    statistics1D x (y.map f) stat nx mn mx = (statistics1D x y stat nx mn mx).map (fun r => (r.1, r.2.map g)) := by
  have hb : ∀ edges, binnedStatistic x (y.map f) stat edges = (binnedStatistic x y stat edges).map (fun v => v.map g) := by
    intro edges
    unfold binnedStatistic
    rw [List.length_map]
    split_ifs
    · rfl
    · rfl
    · simp only [Except.map, List.map_map]
      congr 1
      apply List.map_congr_left
      intro i _
      simp only [Function.comp]
      rw [← hfg, List.zip_map_right, List.filter_map]
      simp only [List.map_map]
      rfl
  unfold statistics1D
  cases limit mn x.min? with
  | error e => rfl
  | ok lo =>
    cases limit mx x.max? with
    | error e => rfl
    | ok hi =>
      simp only [bind, Except.bind]
      split_ifs
      · rfl
      · rw [hb]
        cases binnedStatistic x y stat (Np.linspace lo hi (nx.getD defaultBins + 1).toNat) <;> rfl

/-- C271: a statistic that does not depend on the order of the values does not depend on the order of the samples. -/
theorem C271_order {β : Type} (stat : List ℚ → β) (hstat : ∀ l l', l.Perm l' → stat l = stat l') (d d' : List (ℚ × ℚ)) (hd : d.Perm d')
    (nx : Option ℤ) (mn mx : Option ℚ) :
    statistics1D (d.map Prod.fst) (d.map Prod.snd) stat nx mn mx = statistics1D (d'.map Prod.fst) (d'.map Prod.snd) stat nx mn mx := by
  have hz : ∀ l : List (ℚ × ℚ), (l.map Prod.fst).zip (l.map Prod.snd) = l := by
    intro l
    rw [List.zip_map', List.map_congr_left (g := id) (by rintro ⟨a, b⟩ _; rfl), List.map_id]
  have hb : ∀ edges, binnedStatistic (d.map Prod.fst) (d.map Prod.snd) stat edges = binnedStatistic (d'.map Prod.fst) (d'.map Prod.snd) stat edges := by
    intro edges
    unfold binnedStatistic
    simp only [List.length_map, ne_eq, not_true_eq_false, if_false, hz]
    split_ifs
    · rfl
    · congr 1
      apply List.map_congr_left
      intro i _
      exact hstat _ _ ((hd.filter _).map _)
  unfold statistics1D
  rw [min?_perm (hd.map Prod.fst), max?_perm (hd.map Prod.fst)]
  simp only [hb]

/-- C271: with given limits, the values of two data sets combine, bin by bin, for a statistic whose values combine (sum, count, max). -/
theorem C271_joined {β : Type} (stat : List ℚ → β) (op : β → β → β) (hop : ∀ l l', stat (l ++ l') = op (stat l) (stat l')) (x x' y y' : List ℚ)
    (nx : Option ℤ) (lo hi : ℚ) (e e' : List ℚ) (v v' : List β) (h : statistics1D x y stat nx (some lo) (some hi) = .ok (e, v))
    (h' : statistics1D x' y' stat nx (some lo) (some hi) = .ok (e', v')) :
    e' = e ∧ statistics1D (x ++ x') (y ++ y') stat nx (some lo) (some hi) = .ok (e, List.zipWith op v v') := by
  unfold statistics1D at h h' ⊢
  simp only [limit, bind, Except.bind, pure, Except.pure] at h h' ⊢
  split_ifs at h with h0
  rw [if_neg h0] at h' ⊢
  obtain ⟨E, hE⟩ : ∃ E, E = Np.linspace lo hi (nx.getD defaultBins + 1).toNat := ⟨_, rfl⟩
  rw [← hE] at h h' ⊢
  unfold binnedStatistic at h h' ⊢
  split_ifs at h with h1 h2
  split_ifs at h' with h3
  rw [not_not] at h1 h3
  cases h; cases h'
  refine ⟨rfl, ?_⟩
  rw [if_neg (by simp [h1, h3]), if_neg h2]
  simp only [List.zipWith_map, List.zipWith_self]
  congr 2
  apply List.map_congr_left
  intro i _
  rw [List.zip_append h1, List.filter_append, List.map_append, hop]

/-- Instances: sums scale and combine, counts do not depend on the order. -/
example (c : ℚ) : ∀ l : List ℚ, (l.map (fun v => c * v)).sum = c * l.sum := fun l => List.sum_map_mul_left l id c |>.trans (by simp)
example : ∀ l l' : List ℚ, (l ++ l').sum = l.sum + l'.sum := fun _ _ => List.sum_append
example : ∀ l l' : List ℚ, l.Perm l' → l.sum = l'.sum := fun _ _ h => h.sum_eq

example : statistics1D [0, 1, 2, 3] [5, 6, 7, 8] List.sum (some 2) (some 0) (some 4) = .ok ([0, 2, 4], [11, 15]) := by decide +kernel

end Verif.Stats
