/- Lemmas for the two-time correlation. -/
import Verif.Corr.TwoModel
import Verif.Corr.TwoSpec
import Verif.Corr.Lemmas

namespace Verif.Corr
open Verif Finset

/-! ### values -/

theorem foldr_add_none (l : List (Option ℚ)) (h : none ∈ l) : l.foldr (Option.map₂ (· + ·)) (some 0) = none := by
  induction l with
  | nil => simp at h
  | cons a t ih =>
    rw [List.foldr_cons]
    rcases List.mem_cons.1 h with h | h
    · rw [← h]; rfl
    · rw [ih h]; cases a <;> rfl

theorem foldr_add_some (l : List ℚ) : (l.map some).foldr (Option.map₂ (· + ·)) (some 0) = some l.sum := by
  induction l with
  | nil => rfl
  | cons a t ih => rw [List.map_cons, List.foldr_cons, ih]; rfl

theorem binnedO_map (P : ℕ) (lab : ℕ → ℕ) (g : ℕ → Option ℚ) (r : ℕ) :
    binnedO ((List.range P).map lab) ((List.range P).map g) r =
      if ∃ p ∈ range P, lab p = r + 1 ∧ g p = none then none
      else some (∑ p ∈ (range P).filter (fun p => lab p = r + 1), (g p).getD 0) := by
  unfold binnedO
  rw [List.zipWith_map, List.zipWith_self]
  split
  · next h =>
    obtain ⟨p, hp, hl, hg⟩ := h
    apply foldr_add_none
    rw [List.mem_map]
    exact ⟨p, by simpa using hp, by simp [hl, hg]⟩
  · next h =>
    have : (List.range P).map (fun p => if lab p = r + 1 then g p else some 0) =
        ((List.range P).map (fun p => if lab p = r + 1 then (g p).getD 0 else 0)).map some := by
      rw [List.map_map]
      apply List.map_congr_left
      intro p hp
      simp only [Function.comp]
      split
      · next hl =>
        cases hg : g p with
        | none => exact absurd ⟨p, by simpa using hp, hl, hg⟩ h
        | some x => rfl
      · rfl
    rw [this, foldr_add_some, sum_range_list, sum_filter]

theorem lvl_none_iff (v : ℕ → ℕ → Option ℚ) (l k p : ℕ) : lvl v l k p = none ↔ PixBad v l k p := by
  unfold lvl; split
  · next h => simp [h]
  · next h => simp only [reduceCtorEq, false_iff]; exact h

theorem zipWith_mulO_map (P : ℕ) (g h : ℕ → Option ℚ) :
    List.zipWith (Option.map₂ (· * ·)) ((List.range P).map g) ((List.range P).map h) =
    (List.range P).map (fun p => Option.map₂ (· * ·) (g p) (h p)) := by
  rw [List.zipWith_map, List.zipWith_self]

theorem twoVal_X (v : ℕ → ℕ → Option ℚ) (P : ℕ) (lab : ℕ → ℕ) (l k1 k2 r : ℕ) :
    twoVal ((List.range P).map lab) (X avg (frameOf v P) l k1) (X avg (frameOf v P) l k2) r =
      Spec.twoTime v P lab l k1 k2 r := by
  unfold twoVal
  rw [X_eq, X_eq, zipWith_mulO_map, binnedO_map, binnedO_map, binnedO_map]
  have hb : ∀ k, (∃ p ∈ range P, lab p = r + 1 ∧ lvl v l k p = none) ↔ Spec.RoiBad v P lab r l k := by
    intro k
    constructor
    · rintro ⟨p, hp, hl, h⟩; exact ⟨p, hp, hl, (lvl_none_iff v l k p).1 h⟩
    · rintro ⟨p, hp, hl, h⟩; exact ⟨p, hp, hl, (lvl_none_iff v l k p).2 h⟩
  unfold Spec.twoTime
  by_cases h1 : Spec.RoiBad v P lab r l k1
  · have e := (hb k1).2 h1
    rw [if_pos e]
    simp only [h1, true_or, if_true]
    split <;> simp_all
  · by_cases h2 : Spec.RoiBad v P lab r l k2
    · have e := (hb k2).2 h2
      rw [if_pos e]
      simp only [h2, or_true, if_true]
      split <;> simp_all
    · rw [if_neg (fun h => h1 ((hb k1).1 h)), if_neg (fun h => h2 ((hb k2).1 h)), if_neg (not_or.2 ⟨h1, h2⟩)]
      have hv : ∀ k, ¬ Spec.RoiBad v P lab r l k → ∀ p ∈ (range P).filter (fun p => lab p = r + 1),
          lvl v l k p = some (Spec.blockAvg v l k p) := by
        intro k hk p hp
        simp only [mem_filter] at hp
        unfold lvl
        rw [if_neg]
        intro hbad
        exact hk ⟨p, hp.1, hp.2, hbad⟩
      rw [if_neg (by
        rintro ⟨p, hp, hl, h⟩
        have hm : p ∈ (range P).filter (fun p => lab p = r + 1) := by simp only [mem_filter]; exact ⟨hp, hl⟩
        rw [hv k1 h1 p hm, hv k2 h2 p hm] at h
        simp at h)]
      simp only []
      unfold Spec.roiMean
      rw [numPixels_map]
      set S := (range P).filter (fun p => lab p = r + 1)
      have s1 : ∀ k, ¬ Spec.RoiBad v P lab r l k → ∑ p ∈ S, (lvl v l k p).getD 0 = ∑ p ∈ S, Spec.blockAvg v l k p :=
        fun k hk => sum_congr rfl (fun p hp => by rw [hv k hk p hp, Option.getD_some])
      have s2 : ∑ p ∈ S, (Option.map₂ (· * ·) (lvl v l k1 p) (lvl v l k2 p)).getD 0 =
          ∑ p ∈ S, Spec.blockAvg v l k1 p * Spec.blockAvg v l k2 p :=
        sum_congr rfl (fun p hp => by rw [hv k1 h1 p hp, hv k2 h2 p hp, Option.map₂_some_some, Option.getD_some])
      rw [s1 k1 h1, s1 k2 h2, s2]
      by_cases hc : (S.card : ℚ) = 0
      · have : S = ∅ := by rw [← card_eq_zero]; exact_mod_cast hc
        simp [this]
      · have hiff : (∑ p ∈ S, Spec.blockAvg v l k1 p) * ∑ p ∈ S, Spec.blockAvg v l k2 p = 0 ↔
            (∑ p ∈ S, Spec.blockAvg v l k1 p) / S.card * ((∑ p ∈ S, Spec.blockAvg v l k2 p) / S.card) = 0 := by
          simp [hc]
        by_cases h0 : (∑ p ∈ S, Spec.blockAvg v l k1 p) * ∑ p ∈ S, Spec.blockAvg v l k2 p = 0
        · rw [if_pos h0, if_pos (hiff.1 h0)]
        · rw [if_neg h0, if_neg (fun h => h0 (hiff.2 h))]
          congr 1
          obtain ⟨ha, hb'⟩ := not_or.1 (fun h => h0 (mul_eq_zero.2 h))
          field_simp

/-! ### cells -/

theorem pyInt_nat_half (m : ℕ) : pyInt ((m : ℚ) + 1 / 2) = m := by
  unfold pyInt
  rw [if_pos (by positivity), Int.floor_eq_iff]
  constructor <;> push_cast <;> linarith

theorem pyInt_nat (m : ℕ) : pyInt (m : ℚ) = m := by
  unfold pyInt
  rw [if_pos (by positivity)]; exact_mod_cast Int.floor_natCast m

/-- Time of the k-th frame of level l. -/
def timeOf (l k : ℕ) : ℚ := k * 2 ^ l + (2 ^ l + 1) / 2

theorem timeOf_succ (l k : ℕ) : (timeOf l (2 * k) + timeOf l (2 * k + 1)) / 2 = timeOf (l + 1) k := by
  unfold timeOf; push_cast; rw [pow_succ]; ring

/-- The cells written for the pair (k - i, k) of level-l frames. -/
def cellsN (l k i : ℕ) : List (ℕ × ℕ) := (List.range (2 ^ l)).map (fun j => (k * 2 ^ l + j, (k - i) * 2 ^ l + j))

theorem cellsOf_eq (l k i : ℕ) (hi : i ≤ k) :
    (cellsOf l (timeOf l k) (i * 2 ^ l)).map (fun xy => (pyInt xy.1, pyInt xy.2)) =
      (cellsN l k i).map (fun pq => ((pq.1 : ℤ), (pq.2 : ℤ))) := by
  obtain ⟨d, rfl⟩ := Nat.exists_eq_add_of_le hi
  unfold cellsOf cellsN
  rw [Nat.add_sub_cancel_left]
  by_cases hl : l = 0
  · subst hl
    simp only [if_true, pow_zero, List.range_one, List.map_cons, List.map_nil, List.cons.injEq, and_true, Prod.mk.injEq,
      timeOf]
    constructor
    · rw [← pyInt_nat]; congr 1; push_cast; ring
    · rw [← pyInt_nat]; congr 1; push_cast; ring
  · obtain ⟨m, rfl⟩ : ∃ m, l = m + 1 := ⟨l - 1, by omega⟩
    rw [if_neg hl]
    have e : 2 * 2 ^ (m + 1 - 1) = 2 ^ (m + 1) := by rw [Nat.add_sub_cancel, pow_succ]; ring
    rw [e, List.map_map, List.map_map]
    apply List.map_congr_left
    intro j _
    simp only [Function.comp, Prod.mk.injEq, timeOf, Nat.add_sub_cancel]
    constructor
    · rw [← pyInt_nat_half]; congr 1; push_cast; rw [pow_succ]; ring
    · rw [← pyInt_nat_half]; congr 1; push_cast; rw [pow_succ]; ring

/-- Consecutive writes. -/
def puts (g : ℕ → ℕ → ℕ → Option ℚ) (ws : List ((ℕ × ℕ) × (ℕ → Option ℚ))) : ℕ → ℕ → ℕ → Option ℚ :=
  ws.foldl (fun g w => put3 g w.1.1 w.1.2 w.2) g

theorem puts_notMem (g : ℕ → ℕ → ℕ → Option ℚ) (ws : List ((ℕ × ℕ) × (ℕ → Option ℚ))) (r p q : ℕ)
    (h : ∀ w ∈ ws, w.1 ≠ (p, q)) : puts g ws r p q = g r p q := by
  induction ws generalizing g with
  | nil => rfl
  | cons w t ih =>
    show puts (put3 g w.1.1 w.1.2 w.2) t r p q = _
    rw [ih _ (fun w' h' => h w' (by simp [h']))]
    unfold put3
    rw [if_neg]
    rintro ⟨rfl, rfl⟩
    exact h w (by simp) rfl

theorem puts_mem (g : ℕ → ℕ → ℕ → Option ℚ) (ws : List ((ℕ × ℕ) × (ℕ → Option ℚ))) (r p q : ℕ) (x : Option ℚ)
    (h : ∀ w ∈ ws, w.1 = (p, q) → w.2 r = x) (hex : ∃ w ∈ ws, w.1 = (p, q)) : puts g ws r p q = x := by
  induction ws generalizing g with
  | nil => simp at hex
  | cons w t ih =>
    show puts (put3 g w.1.1 w.1.2 w.2) t r p q = _
    by_cases ht : ∃ w ∈ t, w.1 = (p, q)
    · exact ih _ (fun w' h' => h w' (by simp [h'])) ht
    · push Not at ht
      rw [puts_notMem _ _ _ _ _ ht]
      obtain ⟨w', hw', e⟩ := hex
      rcases List.mem_cons.1 hw' with rfl | hw'
      · unfold put3
        rw [e]; simp only [and_self, if_true]
        exact h w' (by simp) e
      · exact absurd e (ht w' hw')

theorem writes_ok (nf : ℕ) (val : ℕ → Option ℚ) (xys : List (ℚ × ℚ)) (pqs : List (ℕ × ℕ))
    (he : xys.map (fun xy => (pyInt xy.1, pyInt xy.2)) = pqs.map (fun pq => ((pq.1 : ℤ), (pq.2 : ℤ))))
    (hb : ∀ pq ∈ pqs, pq.1 < nf ∧ pq.2 < nf) (a : TAcc) (ha : a.err = false) :
    xys.foldl (writeCell nf val) a = { a with g2 := puts a.g2 (pqs.map (fun pq => (pq, val))) } := by
  induction xys generalizing pqs a with
  | nil =>
    cases pqs with
    | nil => rfl
    | cons b t => simp at he
  | cons x t ih =>
    cases pqs with
    | nil => simp at he
    | cons b u =>
      simp only [List.map_cons, List.cons.injEq, Prod.mk.injEq] at he
      obtain ⟨⟨e1, e2⟩, et⟩ := he
      obtain ⟨b1, b2⟩ := hb b (by simp)
      have hw : writeCell nf val a x = { a with g2 := put3 a.g2 b.1 b.2 val } := by
        unfold writeCell pyIndex
        rw [e1, e2]
        simp [ha, b1, b2]
      rw [List.foldl_cons, hw, ih u et (fun pq h => hb pq (by simp [h])) { a with g2 := put3 a.g2 b.1 b.2 val } ha]
      rfl

theorem delaysFold_ok (c : Cfg) (lags : List ℕ) (nf : ℕ) (r : Ring Frame) (l k : ℕ) (ds : List ℕ)
    (V : ℕ → ℕ → Option ℚ)
    (hlag : ∀ i ∈ ds, lags[l * c.n / 2 + i]? = some (i * 2 ^ l)) (hk : ∀ i ∈ ds, i ≤ k) (hb : (k + 1) * 2 ^ l ≤ nf)
    (hval : ∀ i ∈ ds, twoVal c.labels (r.buf l ((((slot c.n (r.cur l) : ℕ) : ℤ) - i) % c.n).toNat)
      (r.buf l (slot c.n (r.cur l))) = V i)
    (a : TAcc) (ha : a.err = false) :
    ds.foldl (oneDelay2 c lags nf r l (timeOf l k)) a =
      { a with g2 := puts a.g2 (ds.flatMap (fun i => (cellsN l k i).map (fun pq => (pq, V i)))) } := by
  induction ds generalizing a with
  | nil => rfl
  | cons i t ih =>
    have h1 : oneDelay2 c lags nf r l (timeOf l k) a i =
        { a with g2 := puts a.g2 ((cellsN l k i).map (fun pq => (pq, V i))) } := by
      unfold oneDelay2
      simp only [hlag i (by simp)]
      rw [writes_ok nf _ _ (cellsN l k i) (cellsOf_eq l k i (hk i (by simp))) _ a ha, hval i (by simp)]
      intro pq hpq
      unfold cellsN at hpq
      obtain ⟨j, hj, rfl⟩ := List.mem_map.1 hpq
      have hj := List.mem_range.1 hj
      have e : (k + 1) * 2 ^ l = k * 2 ^ l + 2 ^ l := by ring
      have h2 : (k - i) * 2 ^ l ≤ k * 2 ^ l := Nat.mul_le_mul_right _ (Nat.sub_le _ _)
      constructor <;> simp only [] <;> omega
    rw [List.foldl_cons, h1, ih (fun j hj => hlag j (by simp [hj])) (fun j hj => hk j (by simp [hj]))
      (fun j hj => hval j (by simp [hj]))
      { a with g2 := puts a.g2 ((cellsN l k i).map (fun pq => (pq, V i))) } ha]
    simp only [List.flatMap_cons, puts, List.foldl_append]

/-- Cell (p, q) is covered by the pair (k - i, k) of level-l frames. -/
def Cov (L n : ℕ) (N : ℕ → ℕ) (l i k p q : ℕ) : Prop :=
  l < L ∧ Valid n l i ∧ i ≤ k ∧ k < N l ∧ (p, q) ∈ cellsN l k i

theorem mem_cellsN (l k i p q : ℕ) : (p, q) ∈ cellsN l k i ↔ ∃ j < 2 ^ l, p = k * 2 ^ l + j ∧ q = (k - i) * 2 ^ l + j := by
  unfold cellsN
  simp only [List.mem_map, List.mem_range, Prod.mk.injEq]
  constructor
  · rintro ⟨j, hj, rfl, rfl⟩; exact ⟨j, hj, rfl, rfl⟩
  · rintro ⟨j, hj, rfl, rfl⟩; exact ⟨j, hj, rfl, rfl⟩

theorem cell_diff {l k i p q : ℕ} (hi : i ≤ k) (h : (p, q) ∈ cellsN l k i) : p = q + i * 2 ^ l ∧ p / 2 ^ l = k := by
  obtain ⟨j, hj, rfl, rfl⟩ := (mem_cellsN _ _ _ _ _).1 h
  obtain ⟨d, rfl⟩ := Nat.exists_eq_add_of_le hi
  refine ⟨by rw [Nat.add_sub_cancel_left]; ring, ?_⟩
  rw [mul_comm, Nat.mul_add_div (by positivity), Nat.div_eq_of_lt hj, add_zero]

theorem lag_inj_lt {n l l' i i' : ℕ} (hn : n % 2 = 0) (hl : l < l') (h : Valid n l i) (h' : Valid n l' i') :
    i * 2 ^ l < i' * 2 ^ l' := by
  obtain ⟨m, rfl⟩ : ∃ m, n = 2 * m := ⟨n / 2, by omega⟩
  have hi' : m ≤ i' := by rcases h'.2 with h2 | h2 <;> omega
  have hi : i < 2 * m := h.1
  calc i * 2 ^ l < 2 * m * 2 ^ l := Nat.mul_lt_mul_of_pos_right hi (by positivity)
    _ = m * 2 ^ (l + 1) := by rw [pow_succ]; ring
    _ ≤ i' * 2 ^ l' := Nat.mul_le_mul hi' (Nat.pow_le_pow_right (by norm_num) hl)

theorem cov_inj {L n : ℕ} {N N' : ℕ → ℕ} (hn : n % 2 = 0) {l i k l' i' k' p q : ℕ} (h : Cov L n N l i k p q)
    (h' : Cov L n N' l' i' k' p q) : l = l' ∧ i = i' ∧ k = k' := by
  obtain ⟨_, hv, hi, _, hm⟩ := h
  obtain ⟨_, hv', hi', _, hm'⟩ := h'
  obtain ⟨e1, e2⟩ := cell_diff hi hm
  obtain ⟨e1', e2'⟩ := cell_diff hi' hm'
  have hlag : i * 2 ^ l = i' * 2 ^ l' := by omega
  have hl : l = l' := by
    rcases lt_trichotomy l l' with h | h | h
    · have := lag_inj_lt hn h hv hv'; omega
    · exact h
    · have := lag_inj_lt hn h hv' hv; omega
  subst hl
  exact ⟨rfl, Nat.eq_of_mul_eq_mul_right (by positivity) hlag, by omega⟩

structure TInv (v : ℕ → ℕ → Option ℚ) (P : ℕ) (lab : ℕ → ℕ) (L n : ℕ) (N : ℕ → ℕ) (a : TAcc) : Prop where
  err : a.err = false
  time : a.time = N 0
  times : ∀ l < L, a.timeInd l = (List.range (N l)).map (timeOf l)
  count : ∀ l < L, a.count l = N l
  le : ∀ l < L, N l * 2 ^ l ≤ N 0
  cov : ∀ l i k p q r, Cov L n N l i k p q → a.g2 r p q = Spec.twoTime v P lab l (k - i) k r
  rest : ∀ p q r, (∀ l i k, ¬ Cov L n N l i k p q) → a.g2 r p q = some 0

/-- As long as at most `nf` frames have arrived the state is as specified; afterwards the exception has been raised. -/
def TOk (v : ℕ → ℕ → Option ℚ) (P : ℕ) (lab : ℕ → ℕ) (L n nf : ℕ) (N : ℕ → ℕ) (a : TAcc) : Prop :=
  if N 0 ≤ nf then TInv v P lab L n N a else a.err = true

theorem cov_push {L n l : ℕ} {N : ℕ → ℕ} {l' i k p q : ℕ} :
    Cov L n (fun j => if j = l then N l + 1 else N j) l' i k p q ↔
      Cov L n N l' i k p q ∨ (l' = l ∧ k = N l ∧ l < L ∧ Valid n l i ∧ i ≤ N l ∧ (p, q) ∈ cellsN l (N l) i) := by
  unfold Cov
  by_cases h : l' = l
  · subst h
    simp only [if_true, true_and]
    constructor
    · rintro ⟨h1, h2, h3, h4, h5⟩
      by_cases hk : k = N l'
      · subst hk; right; exact ⟨rfl, h1, h2, h3, h5⟩
      · left; exact ⟨h1, h2, h3, by omega, h5⟩
    · rintro (⟨h1, h2, h3, h4, h5⟩ | ⟨rfl, h1, h2, h3, h5⟩)
      · exact ⟨h1, h2, h3, by omega, h5⟩
      · exact ⟨h1, h2, h3, by omega, h5⟩
  · simp [h]

/-- The matrix after the writes of one level. -/
theorem writes_inv (v : ℕ → ℕ → Option ℚ) (P : ℕ) (lab : ℕ → ℕ) (L n : ℕ) (hn : n % 2 = 0) (N : ℕ → ℕ) (l : ℕ)
    (hl : l < L) (g : ℕ → ℕ → ℕ → Option ℚ)
    (hcov : ∀ l i k p q r, Cov L n N l i k p q → g r p q = Spec.twoTime v P lab l (k - i) k r)
    (hrest : ∀ p q r, (∀ l i k, ¬ Cov L n N l i k p q) → g r p q = some 0) :
    let N' := fun j => if j = l then N l + 1 else N j
    let g' := puts g ((delays n l (N l + 1)).flatMap (fun i => (cellsN l (N l) i).map
      (fun pq => (pq, Spec.twoTime v P lab l (N l - i) (N l)))))
    (∀ l i k p q r, Cov L n N' l i k p q → g' r p q = Spec.twoTime v P lab l (k - i) k r) ∧
    (∀ p q r, (∀ l i k, ¬ Cov L n N' l i k p q) → g' r p q = some 0) := by
  intro N' g'
  have hmem : ∀ w, w ∈ (delays n l (N l + 1)).flatMap (fun i => (cellsN l (N l) i).map
      (fun pq => (pq, Spec.twoTime v P lab l (N l - i) (N l)))) ↔
      ∃ i, i ≤ N l ∧ Valid n l i ∧ w.1 ∈ cellsN l (N l) i ∧ w.2 = Spec.twoTime v P lab l (N l - i) (N l) := by
    intro w
    simp only [List.mem_flatMap, mem_delays, List.mem_map]
    constructor
    · rintro ⟨i, ⟨h1, h2⟩, pq, hpq, rfl⟩; exact ⟨i, by omega, h2, hpq, rfl⟩
    · rintro ⟨i, h1, h2, h3, h4⟩; exact ⟨i, ⟨by omega, h2⟩, w.1, h3, by rw [← h4]⟩
  have hnewcov : ∀ i p q, i ≤ N l → Valid n l i → (p, q) ∈ cellsN l (N l) i → Cov L n N' l i (N l) p q := by
    intro i p q h1 h2 h3; exact cov_push.2 (Or.inr ⟨rfl, rfl, hl, h2, h1, h3⟩)
  refine ⟨?_, ?_⟩
  · intro l' i k p q r h
    rcases cov_push.1 h with h' | ⟨rfl, rfl, h1, h2, h3, h4⟩
    · show puts _ _ _ _ _ = _
      rw [puts_notMem]
      · exact hcov l' i k p q r h'
      · intro w hw e
        obtain ⟨i', hi', hv', hc', _⟩ := (hmem w).1 hw
        rw [e] at hc'
        obtain ⟨e1, e2, e3⟩ := cov_inj hn h (hnewcov i' p q hi' hv' hc')
        subst e1
        have := h'.2.2.2.1
        omega
    · apply puts_mem
      · intro w hw e
        obtain ⟨i', hi', hv', hc', hw2⟩ := (hmem w).1 hw
        rw [e] at hc'
        obtain ⟨_, e2, _⟩ := cov_inj hn h (hnewcov i' p q hi' hv' hc')
        rw [hw2, e2]
      · exact ⟨((p, q), Spec.twoTime v P lab l' (N l' - i) (N l')), (hmem _).2 ⟨i, h3, h2, h4, rfl⟩, rfl⟩
  · intro p q r h
    show puts _ _ _ _ _ = _
    rw [puts_notMem]
    · exact hrest p q r (fun l' i k hc => h l' i k (cov_push.2 (Or.inl hc)))
    · intro w hw e
      obtain ⟨i', hi', hv', hc', _⟩ := (hmem w).1 hw
      rw [e] at hc'
      exact h l i' (N l) (hnewcov i' p q hi' hv' hc')

theorem ring_vals {v : ℕ → ℕ → Option ℚ} {P n : ℕ} {lab : ℕ → ℕ} {r : Ring Frame} {l M : ℕ} (hn0 : 0 < n)
    (hr : LevOk n (X avg (frameOf v P) l) (M + 1) r l) (i : ℕ) (hi : i ≤ M) (hin : i < n) :
    twoVal ((List.range P).map lab) (r.buf l ((((slot n (r.cur l) : ℕ) : ℤ) - i) % n).toNat)
      (r.buf l (slot n (r.cur l))) = Spec.twoTime v P lab l (M - i) M := by
  obtain ⟨h1, h2, h3, h4⟩ := hr
  rw [slot_eq hn0 h2 h3, delay_eq hn0 (by omega)]
  have hb1 : r.buf l ((M + 1) % n) = X avg (frameOf v P) l M := h4 M (by omega) (by omega)
  have hb2 : r.buf l ((M + 1 - i) % n) = X avg (frameOf v P) l (M - i) := by
    have := h4 (M - i) (by omega) (by omega)
    rw [← this]; congr 2; omega
  rw [hb1, hb2]
  funext q
  exact twoVal_X v P lab l (M - i) M q

/-- Once raised, the exception stays. -/
theorem process2_err (c : Cfg) (lags : List ℕ) (nf : ℕ) (r : Ring Frame) (l : ℕ) (a : TAcc) (h : a.err = true) :
    process2 c lags nf r l a = a := by
  unfold process2; rw [if_pos h]

theorem writeCell_err (nf : ℕ) (val : ℕ → Option ℚ) (xys : List (ℚ × ℚ)) (a : TAcc) (h : a.err = true) :
    (xys.foldl (writeCell nf val) a).err = true := by
  induction xys generalizing a with
  | nil => exact h
  | cons x t ih => rw [List.foldl_cons]; apply ih; unfold writeCell; rw [if_pos h]; exact h

theorem oneDelay2_err (c : Cfg) (lags : List ℕ) (nf : ℕ) (r : Ring Frame) (l : ℕ) (time : ℚ) (ds : List ℕ) (a : TAcc)
    (h : a.err = true) : (ds.foldl (oneDelay2 c lags nf r l time) a).err = true := by
  induction ds generalizing a with
  | nil => exact h
  | cons i t ih =>
    rw [List.foldl_cons]; apply ih
    unfold oneDelay2
    simp only []
    split
    · rfl
    · exact writeCell_err _ _ _ _ h

theorem range_succ_map (M l : ℕ) : (List.range (M + 1)).map (timeOf l) = (List.range M).map (timeOf l) ++ [timeOf l M] := by
  rw [List.range_succ, List.map_append]; rfl

theorem process2_ok (v : ℕ → ℕ → Option ℚ) (P : ℕ) (lab : ℕ → ℕ) (L n nf : ℕ) (hn : n % 2 = 0) (hn2 : 2 ≤ n)
    (lags : List ℕ) (hlags : ∀ l i, l < L → Valid n l i → lags[l * n / 2 + i]? = some (i * 2 ^ l))
    (N : ℕ → ℕ) (r : Ring Frame) (l : ℕ) (a : TAcc) (hl : l < L) (hN : l = 0 ∨ 2 * (N l + 1) ≤ N (l - 1))
    (hr : LevOk n (X avg (frameOf v P) l) (N l + 1) r l) (ha : TOk v P lab L n nf N a) :
    TOk v P lab L n nf (fun j => if j = l then N l + 1 else N j)
      (process2 { L := L, n := n, labels := (List.range P).map lab } lags nf r l a) := by
  have hn0 : 0 < n := by omega
  unfold TOk at ha ⊢
  by_cases h0 : N 0 ≤ nf
  swap
  · rw [if_neg h0] at ha
    rw [process2_err _ _ _ _ _ _ ha, if_neg]
    · exact ha
    · simp only []; split
      · next h => subst h; omega
      · exact h0
  rw [if_pos h0] at ha
  have himg : r.img l = N l + 1 := hr.1
  have hvals : ∀ i ∈ delays n l (r.img l),
      twoVal ((List.range P).map lab) (r.buf l ((((slot n (r.cur l) : ℕ) : ℤ) - i) % n).toNat)
        (r.buf l (slot n (r.cur l))) = Spec.twoTime v P lab l (N l - i) (N l) := by
    intro i hi
    obtain ⟨h1, h2⟩ := (mem_delays _ _ _ _).1 hi
    exact ring_vals hn0 hr i (by omega) h2.1
  have hle : ∀ i ∈ delays n l (r.img l), i ≤ N l := by
    intro i hi; obtain ⟨h1, _⟩ := (mem_delays _ _ _ _).1 hi; omega
  have hlag : ∀ i ∈ delays n l (r.img l), lags[l * n / 2 + i]? = some (i * 2 ^ l) := by
    intro i hi; exact hlags l i hl ((mem_delays _ _ _ _).1 hi).2
  obtain ⟨herr, htime, htimes, hcount, hNle, hcov, hrest⟩ := ha
  have hw := writes_inv v P lab L n hn N l hl a.g2 hcov hrest
  rcases Nat.eq_zero_or_pos l with rfl | hpos
  · simp only [if_true]
    have hfold := delaysFold_ok { L := L, n := n, labels := (List.range P).map lab } lags nf r 0 (N 0)
      (delays n 0 (r.img 0)) (fun i => Spec.twoTime v P lab 0 (N 0 - i) (N 0)) hlag hle
    have hT : ((a.time + 1 : ℕ) : ℚ) = timeOf 0 (N 0) := by rw [htime]; unfold timeOf; push_cast; ring
    have hproc : process2 { L := L, n := n, labels := (List.range P).map lab } lags nf r 0 a =
        (let a2 := (delays n 0 (r.img 0)).foldl
          (oneDelay2 { L := L, n := n, labels := (List.range P).map lab } lags nf r 0 (timeOf 0 (N 0)))
          { a with count := put1 a.count 0 (a.count 0 + 1), time := a.time + 1 }
        { a2 with timeInd := put1 a2.timeInd 0 (a2.timeInd 0 ++ [timeOf 0 (N 0)]) }) := by
      unfold process2
      rw [if_neg (by simp [herr]), if_pos rfl]
      simp only [hT]
    rw [hproc]
    by_cases hlt : N 0 + 1 ≤ nf
    · rw [if_pos hlt, hfold (by simpa using hlt) hvals
        { a with count := put1 a.count 0 (a.count 0 + 1), time := a.time + 1 } herr]
      refine ⟨herr, ?_, ?_, ?_, ?_, ?_, ?_⟩
      · simp [htime]
      · intro l' hl'
        by_cases h : l' = 0
        · subst h; simp only [put1, if_true]; rw [htimes 0 hl', range_succ_map]
        · simp only [put1, h, if_false]; exact htimes l' hl'
      · intro l' hl'
        by_cases h : l' = 0
        · subst h; simp only [put1, if_true]; rw [hcount 0 hl']
        · simp only [put1, h, if_false]; exact hcount l' hl'
      · intro l' hl'
        by_cases h : l' = 0
        · subst h; simp
        · simp only [h, if_false, if_true]; have := hNle l' hl'; omega
      · rw [himg]; exact hw.1
      · rw [himg]; exact hw.2
    · rw [if_neg hlt]
      -- the first delay already writes outside the matrix
      have hd : delays n 0 (r.img 0) = 0 :: (delays n 0 (r.img 0)).tail := by
        rw [himg]; unfold delays
        obtain ⟨m, hm⟩ : ∃ m, min (N 0 + 1) n = m + 1 := ⟨min (N 0 + 1) n - 1, by omega⟩
        simp [hm, List.range_succ_eq_map]
      rw [hd, List.foldl_cons]
      simp only []
      apply oneDelay2_err
      unfold oneDelay2
      have h00 := hlags 0 0 hl ⟨by omega, Or.inl rfl⟩
      simp only [zero_mul, Nat.zero_div, add_zero] at h00 ⊢
      rw [h00]
      simp only [cellsOf, if_true, List.foldl_cons, List.foldl_nil]
      have hp : pyInt (timeOf 0 (N 0) - 1) = (nf : ℤ) := by
        have : N 0 = nf := by omega
        rw [← pyInt_nat nf, ← this]; congr 1; unfold timeOf; push_cast; ring
      unfold writeCell
      simp only [herr]
      rw [hp]
      simp [pyIndex]
  · have hl0 : l ≠ 0 := by omega
    have hN' : 2 * (N l + 1) ≤ N (l - 1) := hN.resolve_left hl0
    have hbound : (N l + 1) * 2 ^ l ≤ N 0 := by
      have h1 := hNle (l - 1) (by omega)
      have e : 2 ^ l = 2 * 2 ^ (l - 1) := by rw [← pow_succ']; congr 1; omega
      calc (N l + 1) * 2 ^ l = 2 * (N l + 1) * 2 ^ (l - 1) := by rw [e]; ring
        _ ≤ N (l - 1) * 2 ^ (l - 1) := Nat.mul_le_mul_right _ hN'
        _ ≤ N 0 := h1
    have hfold := delaysFold_ok { L := L, n := n, labels := (List.range P).map lab } lags nf r l (N l)
      (delays n l (r.img l)) (fun i => Spec.twoTime v P lab l (N l - i) (N l)) hlag hle (by omega) hvals
    rw [if_pos (by simp only [hl0.symm, if_false]; exact h0)]
    unfold process2
    rw [if_neg (by simp [herr]), if_neg hl0]
    have hc : put1 a.count l (a.count l + 1) l = N l + 1 := by simp [put1, hcount l hl]
    simp only [hc, Nat.add_sub_cancel, htimes (l - 1) (by omega)]
    have g1 : ((List.range (N (l - 1))).map (timeOf (l - 1)))[N l * 2]? = some (timeOf (l - 1) (2 * N l)) := by
      rw [List.getElem?_map, List.getElem?_range (by omega)]; simp [mul_comm]
    have g2 : ((List.range (N (l - 1))).map (timeOf (l - 1)))[N l * 2 + 1]? = some (timeOf (l - 1) (2 * N l + 1)) := by
      rw [List.getElem?_map, List.getElem?_range (by omega)]; simp [mul_comm]
    rw [g1, g2]
    simp only []
    rw [timeOf_succ, Nat.sub_add_cancel (by omega), hfold
      { a with timeInd := put1 a.timeInd l (a.timeInd l ++ [timeOf l (N l)])
               count := put1 a.count l (a.count l + 1) } herr]
    refine ⟨herr, ?_, ?_, ?_, ?_, ?_, ?_⟩
    · simp only [hl0.symm, if_false]; exact htime
    · intro l' hl'
      by_cases h : l' = l
      · subst h; simp only [put1, if_true]; rw [htimes l' hl', range_succ_map]
      · simp only [put1, h, if_false]; exact htimes l' hl'
    · intro l' hl'
      by_cases h : l' = l
      · subst h; simp only [put1, if_true]; rw [hcount l' hl']
      · simp only [put1, h, if_false]; exact hcount l' hl'
    · intro l' hl'
      simp only [hl0.symm, if_false]
      by_cases h : l' = l
      · subst h; simp only [if_true]; exact hbound
      · simp only [h, if_false]; exact hNle l' hl'
    · rw [himg]; exact hw.1
    · rw [himg]; exact hw.2

theorem run2_ok (v : ℕ → ℕ → Option ℚ) (P : ℕ) (lab : ℕ → ℕ) (L n nf : ℕ) (hn : n % 2 = 0) (hn2 : 2 ≤ n) (hL : 1 ≤ L)
    (lags : List ℕ) (hlags : ∀ l i, l < L → Valid n l i → lags[l * n / 2 + i]? = some (i * 2 ^ l)) (T : ℕ) :
    let c : Cfg := { L := L, n := n, labels := (List.range P).map lab }
    let s := ((List.range T).map (frameOf v P)).foldl (step2 c lags nf) (init2 c)
    TOk v P lab L n nf (fun l => T / 2 ^ l) s.2 := by
  intro c s
  refine (feeds_ok hn2 hL _ (process2 c lags nf) (TOk v P lab L n nf)
    (fun N r l a hl hN hr ha => process2_ok v P lab L n nf hn hn2 lags hlags N r l a hl hN hr ha)
    ?_ _ ?_ T).2
  · intro N N' a h ha
    unfold TOk at ha ⊢
    rw [← h 0 (by omega)]
    split
    · next h0 =>
      rw [if_pos h0] at ha
      obtain ⟨herr, htime, htimes, hcount, hNle, hcov, hrest⟩ := ha
      have hc : ∀ l i k p q, Cov L n N' l i k p q ↔ Cov L n N l i k p q := by
        intro l i k p q; unfold Cov
        constructor
        · rintro ⟨h1, h2, h3, h4, h5⟩; exact ⟨h1, h2, h3, by rw [h l h1]; exact h4, h5⟩
        · rintro ⟨h1, h2, h3, h4, h5⟩; exact ⟨h1, h2, h3, by rw [← h l h1]; exact h4, h5⟩
      refine ⟨herr, by rw [htime, h 0 (by omega)], fun l hl => by rw [htimes l hl, h l hl],
        fun l hl => by rw [hcount l hl, h l hl], fun l hl => by rw [← h l hl, ← h 0 (by omega)]; exact hNle l hl, ?_, ?_⟩
      · intro l i k p q r hh; exact hcov l i k p q r ((hc _ _ _ _ _).1 hh)
      · intro p q r hh; exact hrest p q r (fun l i k h' => hh l i k ((hc _ _ _ _ _).2 h'))
    · next h0 => rw [if_neg h0] at ha; exact ha
  · unfold TOk
    rw [if_pos (Nat.zero_le _)]
    refine ⟨rfl, rfl, fun _ _ => rfl, fun _ _ => rfl, fun _ _ => by simp, ?_, fun _ _ _ _ => rfl⟩
    intro l i k p q r h
    exact absurd h.2.2.2.1 (Nat.not_lt_zero _)

end Verif.Corr
