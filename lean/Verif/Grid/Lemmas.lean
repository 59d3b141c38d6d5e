import Verif.Grid.Spec
import Mathlib.Algebra.BigOperators.Group.List.Lemmas
import Mathlib.Tactic.Positivity

namespace Verif.Grid
open Verif

theorem Acc.ext' {a b : Acc} (h1 : a.n = b.n) (h2 : a.s = b.s) (h3 : a.s2 = b.s2) : a = b := by
  cases a; cases b; simp_all

instance : Zero Acc := ⟨⟨0, 0, 0⟩⟩
instance : Add Acc := ⟨fun a b => a.merge id b⟩
@[simp] theorem Acc.zero_n : (0 : Acc).n = 0 := rfl
@[simp] theorem Acc.zero_s : (0 : Acc).s = 0 := rfl
@[simp] theorem Acc.zero_s2 : (0 : Acc).s2 = 0 := rfl
@[simp] theorem Acc.add_n (a b : Acc) : (a + b).n = a.n + b.n := rfl
@[simp] theorem Acc.add_s (a b : Acc) : (a + b).s = a.s + b.s := rfl
@[simp] theorem Acc.add_s2 (a b : Acc) : (a + b).s2 = a.s2 + b.s2 := rfl

instance : AddCommMonoid Acc where
  add_assoc a b c := Acc.ext' (by simp [add_assoc]) (by simp [add_assoc]) (by simp [add_assoc])
  zero_add a := Acc.ext' (by simp) (by simp) (by simp)
  add_zero a := Acc.ext' (by simp) (by simp) (by simp)
  add_comm a b := Acc.ext' (by simp [add_comm]) (by simp [add_comm]) (by simp [add_comm])
  nsmul := nsmulRec

/-- Contribution of a point to voxel c. -/
def pt (g : Grid) (c : ℕ) (p : Pt) : Acc :=
  match voxel id g p with
  | none => 0
  | some (c', v) => if c' = c then ⟨1, v, v * v⟩ else 0

theorem handle_id (g : Grid) (m : Priv) (t : ℕ) (p : Pt) (t' c : ℕ) :
    handle id g m t p t' c = m t' c + if t = t' then pt g c p else 0 := by
  unfold handle pt
  cases voxel id g p with
  | none => simp
  | some w =>
    obtain ⟨c', v⟩ := w
    by_cases h1 : t = t'
    · subst h1
      by_cases h2 : c' = c
      · subst h2
        simp only [and_self, if_true]
        exact Acc.ext' rfl rfl rfl
      · simp [h2, Ne.symm h2]
    · simp [h1, Ne.symm h1]

theorem accumulate_id (g : Grid) (ev : List (ℕ × Pt)) (m : Priv) (t c : ℕ) :
    accumulate id g m ev t c = m t c + (ev.map (fun e => if e.1 = t then pt g c e.2 else 0)).sum := by
  unfold accumulate
  induction ev generalizing m with
  | nil => simp
  | cons e ev ih => rw [List.foldl_cons, ih, handle_id, List.map_cons, List.sum_cons, add_assoc]

theorem gather_id (T : ℕ) (hT : 1 ≤ T) (m : Priv) (c : ℕ) :
    gather id T m c = ((List.range T).map (fun t => m t c)).sum := by
  obtain ⟨n, rfl⟩ : ∃ n, T = n + 1 := ⟨T - 1, by omega⟩
  unfold gather
  rw [Nat.add_sub_cancel, List.range_eq_range', List.range'_succ, List.map_cons, List.sum_cons]
  have : ∀ (l : List ℕ) (a : Acc), l.foldl (fun a t => a.merge id (m t c)) a = a + (l.map (fun t => m t c)).sum := by
    intro l
    induction l with
    | nil => simp
    | cons x l ih => intro a; rw [List.foldl_cons, ih, List.map_cons, List.sum_cons, ← add_assoc]; rfl
  exact this _ _

theorem sum_ite_range (T t : ℕ) (ht : t < T) (a : Acc) : ((List.range T).map (fun t' => if t = t' then a else 0)).sum = a := by
  induction T with
  | zero => omega
  | succ T ih =>
    rw [List.range_succ, List.map_append, List.sum_append, List.map_singleton, List.sum_singleton]
    by_cases h : t = T
    · subst h
      have : ((List.range t).map (fun t' => if t = t' then a else 0)) = (List.range t).map (fun _ => 0) := by
        apply List.map_congr_left
        intro x hx; rw [List.mem_range] at hx; rw [if_neg (by omega)]
      rw [this]; simp
    · rw [ih (by omega), if_neg h, add_zero]

theorem out_id (g : Grid) (T : ℕ) (hT : 1 ≤ T) (m : Priv) (ev : List (ℕ × Pt)) (hev : ∀ e ∈ ev, e.1 < T) (c : ℕ) :
    out id g T m ev c = ((List.range T).map (fun t => m t c)).sum + (ev.map (fun e => pt g c e.2)).sum := by
  have h0 : out id g T m ev c = 0 + gather id T (accumulate id g m ev) c := rfl
  rw [h0, zero_add, gather_id T hT]
  simp only [accumulate_id]
  rw [List.sum_map_add]
  congr 1
  clear h0
  induction ev with
  | nil => simp
  | cons e ev ih =>
    simp only [List.map_cons, List.sum_cons]
    rw [List.sum_map_add, ih (fun x hx => hev x (by simp [hx])), sum_ite_range T e.1 (hev e (by simp))]

/-- The computed cell is the bin containing x. -/
theorem cell_iff (a : Axis) (h : a.lo < a.hi) (hn : 0 < a.n) (x : ℚ) (i : ℕ) :
    cell id a x = some i ↔ i < a.n ∧ Spec.inBin a i x := by
  have hn' : (0 : ℚ) < a.n := by exact_mod_cast hn
  have hl : 0 < a.hi - a.lo := by linarith
  unfold cell Spec.inBin
  simp only [id]
  rw [if_neg hl.ne']
  have e1 : ∀ y : ℚ, a.lo + y * ((a.hi - a.lo) / a.n) ≤ x ↔ y ≤ (x - a.lo) / (a.hi - a.lo) * a.n := by
    intro y
    rw [div_mul_eq_mul_div, le_div_iff₀ hl, mul_div_assoc', ← le_sub_iff_add_le', div_le_iff₀ hn']
  have e2 : ∀ y : ℚ, x < a.lo + y * ((a.hi - a.lo) / a.n) ↔ (x - a.lo) / (a.hi - a.lo) * a.n < y := by
    intro y; rw [← not_le, e1, not_le]
  rw [e1, e2]
  set p := (x - a.lo) / (a.hi - a.lo)
  by_cases hp : 0 ≤ p ∧ p < 1
  · rw [if_pos hp]
    have h0 : 0 ≤ p * a.n := mul_nonneg hp.1 hn'.le
    have h1 : p * a.n < a.n := by nlinarith [hp.2]
    unfold pyInt
    rw [if_pos h0]
    constructor
    · intro h
      simp only [Option.some.injEq] at h
      have hf : (⌊p * a.n⌋ : ℤ) = i := by rw [← h, Int.toNat_of_nonneg (Int.floor_nonneg.2 h0)]
      rw [Int.floor_eq_iff] at hf
      push_cast at hf
      exact ⟨by have : (i : ℚ) < a.n := lt_of_le_of_lt hf.1 h1
                exact_mod_cast this, hf.1, hf.2⟩
    · rintro ⟨_, h2, h3⟩
      have hf : (⌊p * a.n⌋ : ℤ) = i := by rw [Int.floor_eq_iff]; push_cast; exact ⟨h2, h3⟩
      rw [hf]; rfl
  · rw [if_neg hp]
    constructor
    · intro h; simp at h
    · rintro ⟨h1, h2, h3⟩
      exfalso; apply hp
      have hi0 : (0 : ℚ) ≤ i := by positivity
      constructor
      · by_contra hc; push Not at hc; nlinarith
      · have h4 : ((i : ℚ) + 1) ≤ a.n := by exact_mod_cast h1
        by_contra hc; push Not at hc; nlinarith

theorem cell_lt (a : Axis) (h : a.lo < a.hi) (hn : 0 < a.n) (x : ℚ) (i : ℕ) (hc : cell id a x = some i) : i < a.n :=
  ((cell_iff a h hn x i).1 hc).1

theorem flat_lt (g : Grid) (i j k : ℕ) (hi : i < g.x.n) (hj : j < g.y.n) (hk : k < g.z.n) : flat g i j k < g.size := by
  unfold flat Grid.size
  calc i * (g.y.n * g.z.n) + j * g.z.n + k < i * (g.y.n * g.z.n) + (j + 1) * g.z.n := by rw [add_mul]; omega
    _ ≤ i * (g.y.n * g.z.n) + g.y.n * g.z.n := by
        have := Nat.mul_le_mul_right g.z.n (Nat.succ_le_of_lt hj); simp only [Nat.succ_eq_add_one] at this; omega
    _ = (i + 1) * (g.y.n * g.z.n) := by ring
    _ ≤ g.x.n * (g.y.n * g.z.n) := Nat.mul_le_mul_right _ hi
    _ = _ := by ring

theorem flat_inj (g : Grid) (i j k i' j' k' : ℕ) (hj : j < g.y.n) (hk : k < g.z.n) (hj' : j' < g.y.n) (hk' : k' < g.z.n)
    (h : flat g i j k = flat g i' j' k') : i = i' ∧ j = j' ∧ k = k' := by
  unfold flat at h
  have e : ∀ a b c : ℕ, a * (g.y.n * g.z.n) + b * g.z.n + c = (a * g.y.n + b) * g.z.n + c := by intros; ring
  rw [e, e] at h
  have hz : 0 < g.z.n := by omega
  have hy : 0 < g.y.n := by omega
  have h1 : k = k' := by
    have := congrArg (· % g.z.n) h
    simpa [Nat.mul_add_mod_of_lt hk, Nat.mul_add_mod_of_lt hk', Nat.add_mod, Nat.mod_eq_of_lt hk, Nat.mod_eq_of_lt hk'] using this
  have h2 : i * g.y.n + j = i' * g.y.n + j' := by
    have := congrArg (· / g.z.n) h
    simpa [Nat.add_div_of_dvd_right, Nat.div_eq_of_lt hk, Nat.div_eq_of_lt hk', hz] using this
  have h3 : j = j' := by
    have := congrArg (· % g.y.n) h2
    simpa [Nat.add_mod, Nat.mod_eq_of_lt hj, Nat.mod_eq_of_lt hj'] using this
  have h4 : i = i' := by
    have := congrArg (· / g.y.n) h2
    simpa [Nat.add_div_of_dvd_right, Nat.div_eq_of_lt hj, Nat.div_eq_of_lt hj', hy] using this
  exact ⟨h4, h3, h1⟩

/-- Which voxel a point goes to. -/
theorem voxel_iff (g : Grid) (hg : Spec.Proper g) (p : Pt) (c : ℕ) (v : ℚ) :
    voxel id g p = some (c, v) ↔ p.v = some v ∧ ∃ i j k, i < g.x.n ∧ j < g.y.n ∧ k < g.z.n ∧ c = flat g i j k ∧
      Spec.inVoxel g i j k p := by
  obtain ⟨⟨hx, hx'⟩, ⟨hy, hy'⟩, hz, hz'⟩ := hg
  unfold voxel
  constructor
  · intro h
    split at h
    · next v' i j k h1 h2 h3 h4 =>
      simp only [Option.some.injEq, Prod.mk.injEq] at h
      obtain ⟨rfl, rfl⟩ := h
      rw [cell_iff g.x hx hx'] at h2
      rw [cell_iff g.y hy hy'] at h3
      rw [cell_iff g.z hz hz'] at h4
      exact ⟨h1, i, j, k, h2.1, h3.1, h4.1, rfl, h2.2, h3.2, h4.2⟩
    · simp at h
  · rintro ⟨h1, i, j, k, h2, h3, h4, rfl, h5, h6, h7⟩
    rw [h1, (cell_iff g.x hx hx' p.x i).2 ⟨h2, h5⟩, (cell_iff g.y hy hy' p.y j).2 ⟨h3, h6⟩,
      (cell_iff g.z hz hz' p.z k).2 ⟨h4, h7⟩]

theorem pt_eq (g : Grid) (hg : Spec.Proper g) (p : Pt) (i j k : ℕ) (hi : i < g.x.n) (hj : j < g.y.n) (hk : k < g.z.n) :
    pt g (flat g i j k) p =
      match (if Spec.inVoxel g i j k p then p.v else none) with
      | none => 0
      | some v => ⟨1, v, v * v⟩ := by
  unfold pt
  by_cases hin : Spec.inVoxel g i j k p
  · rw [if_pos hin]
    cases hv : p.v with
    | none =>
      have : voxel id g p = none := by unfold voxel; rw [hv]
      rw [this]
    | some v =>
      have : voxel id g p = some (flat g i j k, v) := (voxel_iff g hg p _ v).2 ⟨hv, i, j, k, hi, hj, hk, rfl, hin⟩
      rw [this]; simp
  · rw [if_neg hin]
    cases hv : voxel id g p with
    | none => rfl
    | some w =>
      obtain ⟨c, v⟩ := w
      obtain ⟨_, i', j', k', h1, h2, h3, h4, h5⟩ := (voxel_iff g hg p c v).1 hv
      show (if c = flat g i j k then _ else _) = _
      rw [if_neg]
      intro hc
      obtain ⟨rfl, rfl, rfl⟩ := flat_inj g i j k i' j' k' hj hk h2 h3 (hc.symm.trans h4)
      exact hin h5

theorem sum_pt (g : Grid) (hg : Spec.Proper g) (data : List Pt) (i j k : ℕ) (hi : i < g.x.n) (hj : j < g.y.n) (hk : k < g.z.n) :
    (data.map (pt g (flat g i j k))).sum =
      let vs := Spec.values g i j k data
      ⟨vs.length, vs.sum, (vs.map (fun v => v * v)).sum⟩ := by
  induction data with
  | nil => rfl
  | cons p data ih =>
    rw [List.map_cons, List.sum_cons, ih, pt_eq g hg p i j k hi hj hk]
    unfold Spec.values
    rw [List.filterMap_cons]
    cases (if Spec.inVoxel g i j k p then p.v else none) with
    | none => simp
    | some v =>
      simp only [List.length_cons, List.sum_cons, List.map_cons]
      exact Acc.ext' (by simp [add_comm]) rfl rfl

/-- Every index used by the accumulation is inside the arrays. -/
theorem voxel_lt (g : Grid) (hg : Spec.Proper g) (p : Pt) (c : ℕ) (v : ℚ) (h : voxel id g p = some (c, v)) : c < g.size := by
  obtain ⟨_, i, j, k, h1, h2, h3, rfl, _⟩ := (voxel_iff g hg p c v).1 h
  exact flat_lt g i j k h1 h2 h3

theorem count_voxels (g : Grid) (data : List Pt) (hlt : ∀ p ∈ data, ∀ c v, voxel id g p = some (c, v) → c < g.size) :
    ((List.range g.size).map (fun c => ((data.map (pt g c)).sum).n)).sum =
      (data.filter (fun p => (voxel id g p).isSome)).length := by
  induction data with
  | nil => simp
  | cons p data ih =>
    simp only [List.map_cons, List.sum_cons, Acc.add_n]
    rw [List.sum_map_add, ih (fun q hq => hlt q (by simp [hq])), List.filter_cons]
    unfold pt
    cases hv : voxel id g p with
    | none => simp
    | some w =>
      obtain ⟨c, v⟩ := w
      have hc := hlt p (by simp) c v hv
      have e : ((List.range g.size).map (fun c' => (if c = c' then (⟨1, v, v * v⟩ : Acc) else 0).n)).sum = 1 := by
        have := congrArg Acc.n (sum_ite_range g.size c hc ⟨1, v, v * v⟩)
        have hs : ∀ l : List Acc, l.sum.n = (l.map Acc.n).sum := by
          intro l; induction l with
          | nil => rfl
          | cons a l ih => simp [ih]
        rw [hs, List.map_map] at this; exact this
      simp only [Option.isSome_some, if_true, List.length_cons]
      rw [e, add_comm]

end Verif.Grid
