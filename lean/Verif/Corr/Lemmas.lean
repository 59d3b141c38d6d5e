import Verif.Corr.Ring
import Verif.Corr.Spec
import Mathlib.Algebra.BigOperators.Ring.Finset
import Mathlib.Algebra.BigOperators.Intervals
import Mathlib.Tactic.FieldSimp
import Mathlib.Tactic.Positivity

namespace Verif.Corr
open Verif Finset

/-- Frame number k of the pixel history v. -/
def frameOf (v : ℕ → ℕ → Option ℚ) (P k : ℕ) : Frame := (List.range P).map (v k)

/-- Pixel p is NaN in one of the frames of the group. -/
abbrev PixBad (v : ℕ → ℕ → Option ℚ) (l k p : ℕ) : Prop := ∃ j ∈ range (2 ^ l), v (k * 2 ^ l + j) p = none

/-- Pixel p of the k-th level-l frame. -/
def lvl (v : ℕ → ℕ → Option ℚ) (l k p : ℕ) : Option ℚ :=
  if PixBad v l k p then none else some (Spec.blockAvg v l k p)

theorem avg_map (P : ℕ) (g h : ℕ → Option ℚ) : avg ((List.range P).map g) ((List.range P).map h) =
    (List.range P).map (fun p => match g p, h p with | some x, some y => some ((x + y) / 2) | _, _ => none) := by
  unfold avg
  rw [List.zipWith_map, List.zipWith_self]
  apply List.map_congr_left
  intro p _
  cases g p <;> cases h p <;> rfl

theorem blockAvg_succ (v : ℕ → ℕ → Option ℚ) (l k p : ℕ) :
    Spec.blockAvg v (l + 1) k p = (Spec.blockAvg v l (2 * k) p + Spec.blockAvg v l (2 * k + 1) p) / 2 := by
  unfold Spec.blockAvg
  rw [pow_succ, mul_comm (2 ^ l) 2, two_mul (2 ^ l), sum_range_add]
  have e1 : ∀ j, k * (2 ^ l + 2 ^ l) + j = 2 * k * 2 ^ l + j := fun j => by ring
  have e2 : ∀ j, 2 * k * 2 ^ l + (2 ^ l + j) = (2 * k + 1) * 2 ^ l + j := fun j => by ring
  simp only [e1, e2]
  have : (2 : ℚ) ^ l ≠ 0 := by positivity
  field_simp
  ring

theorem lvl_zero (v : ℕ → ℕ → Option ℚ) (k p : ℕ) : lvl v 0 k p = v k p := by
  unfold lvl Spec.blockAvg
  cases h : v k p <;> simp [h]

theorem lvl_succ (v : ℕ → ℕ → Option ℚ) (l k p : ℕ) : lvl v (l + 1) k p =
    match lvl v l (2 * k) p, lvl v l (2 * k + 1) p with | some x, some y => some ((x + y) / 2) | _, _ => none := by
  have hsplit : (∃ j ∈ range (2 ^ (l + 1)), v (k * 2 ^ (l + 1) + j) p = none) ↔
      (∃ j ∈ range (2 ^ l), v (2 * k * 2 ^ l + j) p = none) ∨
      (∃ j ∈ range (2 ^ l), v ((2 * k + 1) * 2 ^ l + j) p = none) := by
    simp only [mem_range]
    constructor
    · rintro ⟨j, hj, h⟩
      by_cases hjl : j < 2 ^ l
      · left; refine ⟨j, hjl, ?_⟩; rw [← h]; congr 1; rw [pow_succ]; ring
      · right; refine ⟨j - 2 ^ l, by rw [pow_succ] at hj; omega, ?_⟩
        rw [← h]; congr 1; rw [pow_succ]
        have : (2 * k + 1) * 2 ^ l + (j - 2 ^ l) = 2 * k * 2 ^ l + (2 ^ l + (j - 2 ^ l)) := by ring
        rw [this, Nat.add_sub_cancel' (by omega)]; ring
    · rintro (⟨j, hj, h⟩ | ⟨j, hj, h⟩)
      · refine ⟨j, by rw [pow_succ]; omega, ?_⟩; rw [← h]; congr 1; rw [pow_succ]; ring
      · refine ⟨2 ^ l + j, by rw [pow_succ]; omega, ?_⟩; rw [← h]; congr 1; rw [pow_succ]; ring
  unfold lvl
  by_cases h1 : ∃ j ∈ range (2 ^ l), v (2 * k * 2 ^ l + j) p = none
  · rw [if_pos (hsplit.2 (Or.inl h1)), if_pos h1]
  · by_cases h2 : ∃ j ∈ range (2 ^ l), v ((2 * k + 1) * 2 ^ l + j) p = none
    · rw [if_pos (hsplit.2 (Or.inr h2)), if_pos h2, if_neg h1]
    · rw [if_neg (fun h => (hsplit.1 h).elim h1 h2), if_neg h1, if_neg h2, blockAvg_succ]

theorem X_eq (v : ℕ → ℕ → Option ℚ) (P l k : ℕ) :
    X avg (frameOf v P) l k = (List.range P).map (lvl v l k) := by
  induction l generalizing k with
  | zero =>
    show frameOf v P k = _
    unfold frameOf; congr 1; funext p; exact (lvl_zero v k p).symm
  | succ l ih =>
    show avg (X avg (frameOf v P) l (2 * k)) (X avg (frameOf v P) l (2 * k + 1)) = _
    rw [ih, ih, avg_map]; congr 1; funext p; exact (lvl_succ v l k p).symm

theorem good_map (L : List ℕ) (g : ℕ → Option ℚ) : good (L.map g) =
    if ∃ p ∈ L, g p = none then none else some (L.map (fun p => (g p).getD 0)) := by
  induction L with
  | nil => simp [good]
  | cons a t ih =>
    rw [List.map_cons]
    cases h : g a with
    | none => simp [good, h]
    | some x =>
      rw [good, ih]
      by_cases ht : ∃ p ∈ t, g p = none
      · have : ∃ p ∈ a :: t, g p = none := by obtain ⟨p, hp, e⟩ := ht; exact ⟨p, by simp [hp], e⟩
        rw [if_pos ht, if_pos this]; rfl
      · have : ¬ ∃ p ∈ a :: t, g p = none := by
          rintro ⟨p, hp, e⟩
          rcases List.mem_cons.1 hp with rfl | hp
          · rw [h] at e; simp at e
          · exact ht ⟨p, hp, e⟩
        rw [if_neg ht, if_neg this]; simp [h]

theorem good_X (v : ℕ → ℕ → Option ℚ) (P l k : ℕ) : good (X avg (frameOf v P) l k) =
    if Spec.BlockBad v P l k then none else some ((List.range P).map (Spec.blockAvg v l k)) := by
  rw [X_eq, good_map]
  have hiff : (∃ p ∈ List.range P, lvl v l k p = none) ↔ Spec.BlockBad v P l k := by
    constructor
    · rintro ⟨p, hp, h⟩
      unfold lvl at h
      split at h
      · next hj => obtain ⟨j, hj, e⟩ := hj; exact ⟨j, hj, p, by simpa using hp, e⟩
      · simp at h
    · rintro ⟨j, hj, p, hp, e⟩
      exact ⟨p, by simpa using hp, by unfold lvl; rw [if_pos ⟨j, hj, e⟩]⟩
  by_cases h : Spec.BlockBad v P l k
  · rw [if_pos (hiff.2 h), if_pos h]
  · rw [if_neg (fun hh => h (hiff.1 hh)), if_neg h]
    congr 1
    apply List.map_congr_left
    intro p hp
    unfold lvl
    rw [if_neg]
    · rfl
    · rintro ⟨j, hj, e⟩; exact h ⟨j, hj, p, by simpa using hp, e⟩

theorem sum_range_list (P : ℕ) (g : ℕ → ℚ) : ((List.range P).map g).sum = ∑ p ∈ range P, g p := by
  induction P with
  | zero => simp
  | succ P ih => rw [List.range_succ, List.map_append, List.sum_append, ih, sum_range_succ]; simp

theorem binned_map (P : ℕ) (lab : ℕ → ℕ) (w : ℕ → ℚ) (r : ℕ) :
    binned ((List.range P).map lab) ((List.range P).map w) r = ∑ p ∈ (range P).filter (fun p => lab p = r + 1), w p := by
  unfold binned
  rw [List.zipWith_map, List.zipWith_self, sum_range_list, sum_filter]

theorem numPixels_map (P : ℕ) (lab : ℕ → ℕ) (r : ℕ) :
    numPixels ((List.range P).map lab) r = ((range P).filter (fun p => lab p = r + 1)).card := by
  unfold numPixels
  induction P with
  | zero => simp
  | succ P ih =>
    rw [List.range_succ, List.map_append, List.count_append, ih, range_add_one, filter_insert]
    split
    · next h => rw [card_insert_of_notMem (by simp)]; simp [h]
    · next h => simp [h]

theorem roiMean_eq (P : ℕ) (lab : ℕ → ℕ) (w : ℕ → ℚ) (r : ℕ) :
    binned ((List.range P).map lab) ((List.range P).map w) r / numPixels ((List.range P).map lab) r =
      Spec.roiMean P lab r w := by
  rw [binned_map, numPixels_map]; rfl

/-! ### Cells: one delay of one level -/

/-- Delays computed on level l. -/
def Valid (n l i : ℕ) : Prop := i < n ∧ (l = 0 ∨ n / 2 ≤ i)

/-- Position of a delay in `norm[level + 1]`. -/
def indOf (n l i : ℕ) : ℕ := l * n / 2 + i - levBefore n l

theorem row_inj {n l l' i i' : ℕ} (hn : n % 2 = 0) (h : Valid n l i) (h' : Valid n l' i')
    (e : l * n / 2 + i = l' * n / 2 + i') : l = l' ∧ i = i' := by
  obtain ⟨m, rfl⟩ : ∃ m, n = 2 * m := ⟨n / 2, by omega⟩
  have e1 : l * (2 * m) / 2 = l * m := by rw [mul_left_comm]; exact Nat.mul_div_cancel_left _ (by norm_num)
  have e2 : l' * (2 * m) / 2 = l' * m := by rw [mul_left_comm]; exact Nat.mul_div_cancel_left _ (by norm_num)
  have hm : 2 * m / 2 = m := by omega
  rw [e1, e2] at e
  obtain ⟨a1, a2⟩ := h
  obtain ⟨b1, b2⟩ := h'
  rw [hm] at a2 b2
  rcases Nat.lt_trichotomy l l' with hl | hl | hl
  · exfalso
    have : (l + 1) * m ≤ l' * m := Nat.mul_le_mul_right m hl
    have : l * m + m = (l + 1) * m := by ring
    rcases b2 with b2 | b2 <;> omega
  · subst hl; exact ⟨rfl, by omega⟩
  · exfalso
    have : (l' + 1) * m ≤ l * m := Nat.mul_le_mul_right m hl
    have : l' * m + m = (l' + 1) * m := by ring
    rcases a2 with a2 | a2 <;> omega

theorem indOf_eq {n l i : ℕ} (hn : n % 2 = 0) (h : Valid n l i) : indOf n l i = if l = 0 then i else i - n / 2 := by
  obtain ⟨m, rfl⟩ : ∃ m, n = 2 * m := ⟨n / 2, by omega⟩
  unfold indOf levBefore
  have hm : 2 * m / 2 = m := by omega
  have e1 : l * (2 * m) / 2 = l * m := by rw [mul_left_comm]; exact Nat.mul_div_cancel_left _ (by norm_num)
  by_cases hl : l = 0
  · simp [hl]
  · obtain ⟨k, rfl⟩ := Nat.exists_eq_succ_of_ne_zero hl
    simp only [hl, if_false, e1, hm, Nat.succ_eq_add_one, Nat.add_sub_cancel]
    obtain ⟨_, h2 | h2⟩ := h
    · omega
    · rw [hm] at h2
      have : (k + 1) * m = k * m + m := by ring
      omega

theorem ind_inj {n l i i' : ℕ} (hn : n % 2 = 0) (h : Valid n l i) (h' : Valid n l i')
    (e : indOf n l i = indOf n l i') : i = i' := by
  rw [indOf_eq hn h, indOf_eq hn h'] at e
  by_cases hl : l = 0
  · simpa [hl] using e
  · simp only [hl, if_false] at e
    obtain ⟨_, h2 | h2⟩ := h
    · exact absurd h2 hl
    · obtain ⟨_, h3 | h3⟩ := h'
      · exact absurd h3 hl
      · omega

/-- The part of the accumulator that belongs to one delay of one level. -/
structure Cell where
  G : ℕ → ℚ
  past : ℕ → ℚ
  fut : ℕ → ℚ
  bad : ℕ

def cell (n : ℕ) (a : Acc) (l i : ℕ) : Cell :=
  ⟨a.G (l * n / 2 + i), a.past (l * n / 2 + i), a.fut (l * n / 2 + i), a.norm l (indOf n l i)⟩

/-- The running-mean update of one cell; `m` is the number of pairs so far, this one included. -/
def cellStep (labels : List ℕ) (p f : Frame) (m : ℚ) (x : Cell) : Cell :=
  match good p, good f with
  | some p, some f =>
    let up (arr : ℕ → ℚ) (w : List ℚ) : ℕ → ℚ :=
      fun r => arr r + (binned labels w r / numPixels labels r - arr r) / (m - x.bad)
    ⟨up x.G (List.zipWith (· * ·) p f), up x.past p, up x.fut f, x.bad⟩
  | _, _ => ⟨x.G, x.past, x.fut, x.bad + 1⟩

theorem upd_same (labels : List ℕ) (arr : ℕ → ℕ → ℚ) (t : ℕ) (w : List ℚ) (m : ℚ) :
    upd labels arr t w m t = fun r => arr t r + (binned labels w r / numPixels labels r - arr t r) / m := by
  funext r; simp [upd]

theorem upd_other (labels : List ℕ) (arr : ℕ → ℕ → ℚ) (t t' : ℕ) (h : t' ≠ t) (w : List ℚ) (m : ℚ) :
    upd labels arr t w m t' = arr t' := by
  funext r; simp [upd, h]

theorem oneDelay_same (c : Cfg) (r : Ring Frame) (l : ℕ) (a : Acc) (i : ℕ) :
    cell c.n (oneDelay c r l a i) l i =
      cellStep c.labels (r.buf l ((((slot c.n (r.cur l) : ℕ) : ℤ) - i) % c.n).toNat) (r.buf l (slot c.n (r.cur l)))
        ((r.img l : ℚ) - i) (cell c.n a l i) := by
  unfold oneDelay cellStep
  simp only []
  cases h1 : good (r.buf l ((((slot c.n (r.cur l) : ℕ) : ℤ) - i) % c.n).toNat) with
  | none => simp [cell, put2, indOf]
  | some p =>
    cases h2 : good (r.buf l (slot c.n (r.cur l))) with
    | none => simp [cell, put2, indOf]
    | some f => simp [cell, upd_same, indOf]

theorem oneDelay_other (c : Cfg) (hn : c.n % 2 = 0) (r : Ring Frame) (l : ℕ) (a : Acc) (i l' i' : ℕ)
    (hv : Valid c.n l i) (hv' : Valid c.n l' i') (hne : ¬ (l' = l ∧ i' = i)) :
    cell c.n (oneDelay c r l a i) l' i' = cell c.n a l' i' := by
  have hrow : l' * c.n / 2 + i' ≠ l * c.n / 2 + i := fun e => hne (row_inj hn hv' hv e)
  have hind : ¬ (l' = l ∧ indOf c.n l' i' = l * c.n / 2 + i - levBefore c.n l) := by
    rintro ⟨rfl, e⟩
    exact hne ⟨rfl, ind_inj hn hv' hv e⟩
  unfold oneDelay
  simp only []
  split
  · simp [cell, upd_other _ _ _ _ hrow]
  · simp only [cell, put2, hind, if_false]

theorem fold_delays (c : Cfg) (hn : c.n % 2 = 0) (r : Ring Frame) (l : ℕ) (ds : List ℕ) (hnd : ds.Nodup)
    (hv : ∀ i ∈ ds, Valid c.n l i) (a : Acc) (l' i' : ℕ) (hv' : Valid c.n l' i') :
    cell c.n (ds.foldl (oneDelay c r l) a) l' i' =
      if l' = l ∧ i' ∈ ds then cell c.n (oneDelay c r l a i') l i' else cell c.n a l' i' := by
  induction ds generalizing a with
  | nil => simp
  | cons d t ih =>
    rw [List.foldl_cons, ih (List.nodup_cons.1 hnd).2 (fun i hi => hv i (by simp [hi]))]
    have hd := (List.nodup_cons.1 hnd).1
    by_cases h1 : l' = l ∧ i' ∈ t
    · have hne : i' ≠ d := fun e => hd (e ▸ h1.2)
      rw [if_pos h1, if_pos ⟨h1.1, by simp [h1.2]⟩]
      have hvl : Valid c.n l i' := h1.1 ▸ hv'
      rw [oneDelay_same, oneDelay_same, oneDelay_other c hn r l a d l i' (hv d (by simp)) hvl (by simp [hne])]
    · rw [if_neg h1]
      by_cases h2 : l' = l ∧ i' = d
      · obtain ⟨rfl, rfl⟩ := h2
        rw [if_pos ⟨rfl, by simp⟩]
      · have h3 : ¬ (l' = l ∧ i' ∈ d :: t) := by
          rintro ⟨e, hm⟩
          rcases List.mem_cons.1 hm with e2 | hm
          · exact h2 ⟨e, e2⟩
          · exact h1 ⟨e, hm⟩
        rw [if_neg h3, oneDelay_other c hn r l a d l' i' (hv d (by simp)) hv' h2]

theorem mem_delays (n l img i : ℕ) : i ∈ delays n l img ↔ i < img ∧ Valid n l i := by
  unfold delays Valid
  simp only [List.mem_map, List.mem_range]
  by_cases hl : l = 0
  · subst hl; simp
  · simp only [hl, if_false, false_or]
    constructor
    · rintro ⟨j, hj, rfl⟩; omega
    · rintro ⟨h1, h2, h3⟩; exact ⟨i - n / 2, by omega, by omega⟩

theorem delays_nodup (n l img : ℕ) : (delays n l img).Nodup := by
  unfold delays
  apply List.Pairwise.map _ _ (List.nodup_range)
  intro a b hab e; exact hab (by omega)

/-! ### The specification cell and its recursion -/

def specCell (v : ℕ → ℕ → Option ℚ) (P : ℕ) (lab : ℕ → ℕ) (l i N : ℕ) : Cell :=
  ⟨Spec.G v P lab l i N, Spec.past v P lab l i N, Spec.future v P lab l i N, (N - i) - (Spec.pairs v P l i N).card⟩

theorem pairs_card_le (v : ℕ → ℕ → Option ℚ) (P l i N : ℕ) : (Spec.pairs v P l i N).card ≤ N - i := by
  unfold Spec.pairs
  exact (card_filter_le _ _).trans (by simp)

theorem pairs_succ (v : ℕ → ℕ → Option ℚ) (P l i N : ℕ) (h : i ≤ N) : Spec.pairs v P l i (N + 1) =
    if ¬ Spec.BlockBad v P l (N - i) ∧ ¬ Spec.BlockBad v P l N then insert (N - i) (Spec.pairs v P l i N)
    else Spec.pairs v P l i N := by
  unfold Spec.pairs
  have e : N + 1 - i = (N - i) + 1 := by omega
  rw [e, range_add_one, filter_insert]
  have : N - i + i = N := by omega
  rw [this]

theorem notMem_pairs (v : ℕ → ℕ → Option ℚ) (P l i N : ℕ) : N - i ∉ Spec.pairs v P l i N := by
  simp [Spec.pairs]

theorem pairMean_insert (v : ℕ → ℕ → Option ℚ) (P l i N : ℕ) (h : i ≤ N) (q : ℕ → ℚ)
    (hg : ¬ Spec.BlockBad v P l (N - i) ∧ ¬ Spec.BlockBad v P l N) :
    Spec.pairMean v P l i (N + 1) q = Spec.pairMean v P l i N q +
      (q (N - i) - Spec.pairMean v P l i N q) / ((Spec.pairs v P l i N).card + 1) := by
  unfold Spec.pairMean
  rw [pairs_succ v P l i N h, if_pos hg, card_insert_of_notMem (notMem_pairs v P l i N),
    sum_insert (notMem_pairs v P l i N), if_neg (Nat.succ_ne_zero _)]
  have h1 : ((Spec.pairs v P l i N).card + 1 : ℚ) ≠ 0 := by positivity
  push_cast
  split
  · next h0 =>
    have : Spec.pairs v P l i N = ∅ := card_eq_zero.1 h0
    rw [this]; simp
  · next h0 =>
    have h2 : ((Spec.pairs v P l i N).card : ℚ) ≠ 0 := by exact_mod_cast h0
    field_simp
    ring

theorem specCell_stay (v : ℕ → ℕ → Option ℚ) (P : ℕ) (lab : ℕ → ℕ) (l i N : ℕ) (h : N < i) :
    specCell v P lab l i (N + 1) = specCell v P lab l i N := by
  have e : Spec.pairs v P l i (N + 1) = Spec.pairs v P l i N := by
    unfold Spec.pairs
    have h1 : N + 1 - i = 0 := by omega
    have h2 : N - i = 0 := by omega
    rw [h1, h2]
  unfold specCell Spec.G Spec.past Spec.future Spec.pairMean
  rw [e]
  have h1 : N + 1 - i = 0 := by omega
  have h2 : N - i = 0 := by omega
  rw [h1, h2]

theorem zipWith_mul_map (P : ℕ) (g h : ℕ → ℚ) : List.zipWith (· * ·) ((List.range P).map g) ((List.range P).map h) =
    (List.range P).map (fun p => g p * h p) := by
  rw [List.zipWith_map, List.zipWith_self]

theorem specCell_step (v : ℕ → ℕ → Option ℚ) (P : ℕ) (lab : ℕ → ℕ) (l i N : ℕ) (h : i ≤ N) :
    cellStep ((List.range P).map lab) (X avg (frameOf v P) l (N - i)) (X avg (frameOf v P) l N)
      (((N + 1 : ℕ) : ℚ) - i) (specCell v P lab l i N) = specCell v P lab l i (N + 1) := by
  unfold cellStep
  rw [good_X, good_X]
  have hle := pairs_card_le v P l i N
  by_cases hg : ¬ Spec.BlockBad v P l (N - i) ∧ ¬ Spec.BlockBad v P l N
  · rw [if_neg hg.1, if_neg hg.2]
    have hm : (((N + 1 : ℕ) : ℚ) - i - (specCell v P lab l i N).bad) = (Spec.pairs v P l i N).card + 1 := by
      simp only [specCell]
      rw [Nat.cast_sub hle, Nat.cast_sub h]; push_cast; ring
    have hbad : N + 1 - i - (Spec.pairs v P l i (N + 1)).card = N - i - (Spec.pairs v P l i N).card := by
      rw [pairs_succ v P l i N h, if_pos hg, card_insert_of_notMem (notMem_pairs v P l i N)]; omega
    simp only [hm, zipWith_mul_map, roiMean_eq]
    unfold specCell
    rw [hbad]
    have hN : N - i + i = N := by omega
    congr 1
    · funext r; unfold Spec.G; rw [pairMean_insert v P l i N h _ hg, hN]
    · funext r; unfold Spec.past; rw [pairMean_insert v P l i N h _ hg]
    · funext r; unfold Spec.future; rw [pairMean_insert v P l i N h _ hg, hN]
  · have hpairs : Spec.pairs v P l i (N + 1) = Spec.pairs v P l i N := by
      rw [pairs_succ v P l i N h, if_neg hg]
    have hres : (⟨(specCell v P lab l i N).G, (specCell v P lab l i N).past, (specCell v P lab l i N).fut,
        (specCell v P lab l i N).bad + 1⟩ : Cell) = specCell v P lab l i (N + 1) := by
      unfold specCell Spec.G Spec.past Spec.future Spec.pairMean
      rw [hpairs]
      simp only [Cell.mk.injEq, true_and]
      omega
    by_cases h1 : Spec.BlockBad v P l (N - i)
    · rw [if_pos h1]; exact hres
    · by_cases h2 : Spec.BlockBad v P l N
      · rw [if_pos h2, if_neg h1]; exact hres
      · exact absurd ⟨h1, h2⟩ hg

/-- The accumulator agrees with the specification on every delay, given the number of frames seen on each level. -/
def AccOk (v : ℕ → ℕ → Option ℚ) (P : ℕ) (lab : ℕ → ℕ) (L n : ℕ) (N : ℕ → ℕ) (a : Acc) : Prop :=
  ∀ l i, l < L → Valid n l i → cell n a l i = specCell v P lab l i (N l)

theorem process_ok (v : ℕ → ℕ → Option ℚ) (P : ℕ) (lab : ℕ → ℕ) (L n : ℕ) (hn : n % 2 = 0) (hn2 : 2 ≤ n)
    (N : ℕ → ℕ) (r : Ring Frame) (l : ℕ) (a : Acc) (_hl : l < L)
    (hr : LevOk n (X avg (frameOf v P) l) (N l + 1) r l) (ha : AccOk v P lab L n N a) :
    AccOk v P lab L n (fun j => if j = l then N l + 1 else N j)
      (process { L := L, n := n, labels := (List.range P).map lab } r l a) := by
  intro l' i' hl' hv'
  obtain ⟨h1, h2, h3, h4⟩ := hr
  have hn0 : 0 < n := by omega
  unfold process
  simp only []
  rw [fold_delays { L := L, n := n, labels := (List.range P).map lab } hn r l _ (delays_nodup _ _ _) (fun i hi => ((mem_delays _ _ _ _).1 hi).2) a l' i' hv']
  by_cases he : l' = l
  · subst he
    rw [if_pos (rfl : l' = l') (c := l' = l')]
    by_cases hi : i' < r.img l'
    · rw [if_pos ⟨rfl, (mem_delays _ _ _ _).2 ⟨hi, hv'⟩⟩]
      have hsame := oneDelay_same { L := L, n := n, labels := (List.range P).map lab } r l' a i'
      simp only [] at hsame ⊢
      rw [hsame]
      rw [slot_eq hn0 h2 h3, delay_eq hn0 (by omega), h1, ha l' i' hl' hv']
      have hb1 : r.buf l' ((N l' + 1) % n) = X avg (frameOf v P) l' (N l') := h4 (N l') (by omega) (by omega)
      have hb2 : r.buf l' ((N l' + 1 - i') % n) = X avg (frameOf v P) l' (N l' - i') := by
        have := h4 (N l' - i') (by omega) (by have := hv'.1; omega)
        rw [← this]; congr 2; omega
      rw [hb1, hb2]
      exact specCell_step v P lab l' i' (N l') (by omega)
    · rw [if_neg (fun h => hi ((mem_delays _ _ _ _).1 h.2).1), ha l' i' hl' hv', specCell_stay]; omega
  · rw [if_neg (fun h => he h.1), if_neg he]
    exact ha l' i' hl' hv'

theorem init_ok (v : ℕ → ℕ → Option ℚ) (P : ℕ) (lab : ℕ → ℕ) (L n : ℕ) :
    AccOk v P lab L n (fun _ => 0) ⟨fun _ _ => 0, fun _ _ => 0, fun _ _ => 0, fun _ _ => 0⟩ := by
  intro l i _ _
  have : Spec.pairs v P l i 0 = ∅ := by simp [Spec.pairs]
  unfold cell specCell Spec.G Spec.past Spec.future Spec.pairMean
  rw [this]; simp

/-- The state after T frames. -/
theorem run_ok (v : ℕ → ℕ → Option ℚ) (P : ℕ) (lab : ℕ → ℕ) (L n : ℕ) (hn : n % 2 = 0) (hn2 : 2 ≤ n) (hL : 1 ≤ L)
    (T : ℕ) :
    let c : Cfg := { L := L, n := n, labels := (List.range P).map lab }
    let s := ((List.range T).map (frameOf v P)).foldl (step c) (init c)
    RingOk avg (frameOf v P) L n T s.1 ∧ AccOk v P lab L n (fun l => T / 2 ^ l) s.2 := by
  intro c s
  exact feeds_ok hn2 hL _ (process c) (AccOk v P lab L n)
    (fun N r l a hl _ hr ha => process_ok v P lab L n hn hn2 N r l a hl hr ha)
    (fun N N' a h ha l i hl hv => by rw [← h l hl]; exact ha l i hl hv)
    _ (init_ok v P lab L n) T

end Verif.Corr
