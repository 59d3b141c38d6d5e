/- Lemmas for the region-of-interest properties. -/
import Verif.Roi.Model
import Verif.Roi.Spec

namespace Verif.Roi
open Verif

/-! ### rectangles -/

theorem rectSel_iff (shape : ℕ × ℕ) (q : ℤ × ℤ × ℤ × ℤ) (h1 : 0 ≤ q.1 + q.2.2.1) (h2 : 0 ≤ q.2.1 + q.2.2.2) (r c : ℕ)
    (hr : r < shape.1) (hc : c < shape.2) : rectSel shape q r c = true ↔ Spec.inRect q r c := by
  unfold rectSel inSlice sliceStart sliceStop Spec.inRect
  rw [if_neg (by omega), if_neg (by omega), if_neg (by omega), if_neg (by omega)]
  simp only [Bool.and_eq_true, decide_eq_true_eq]
  omega

theorem anyLabelled_iff (shape : ℕ × ℕ) (L : ℕ → ℕ → ℕ) (sel : ℕ → ℕ → Bool) :
    anyLabelled shape L sel = true ↔ ∃ r c, r < shape.1 ∧ c < shape.2 ∧ sel r c = true ∧ L r c ≠ 0 := by
  unfold anyLabelled
  simp only [List.any_eq_true, List.mem_range, Bool.and_eq_true, decide_eq_true_eq]
  constructor
  · rintro ⟨r, hr, c, hc, h1, h2⟩; exact ⟨r, c, hr, hc, h1, h2⟩
  · rintro ⟨r, c, hr, hc, h1, h2⟩; exact ⟨r, hr, c, hc, h1, h2⟩

/-- The label image after the rectangles `done`. -/
def RectInv (shape : ℕ × ℕ) (done : List (ℤ × ℤ × ℤ × ℤ)) (L : ℕ → ℕ → ℕ) : Prop :=
  ∀ r c, r < shape.1 → c < shape.2 → Spec.Labels (fun k => ∃ q, done[k]? = some q ∧ Spec.inRect q r c) (L r c)

theorem rectLoop_spec (shape : ℕ × ℕ) (rest : List (ℤ × ℤ × ℤ × ℤ)) : ∀ (done : List (ℤ × ℤ × ℤ × ℤ)) (L : ℕ → ℕ → ℕ),
    (∀ q ∈ rest, 0 ≤ q.1 + q.2.2.1 ∧ 0 ≤ q.2.1 + q.2.2.2) → RectInv shape done L →
    (∃ L', rectLoop shape done.length rest L = .ok L' ∧ RectInv shape (done ++ rest) L') ∨
    (rectLoop shape done.length rest L = .error .valueError ∧
      ∃ (r c i j : ℕ) (q q' : ℤ × ℤ × ℤ × ℤ), r < shape.1 ∧ c < shape.2 ∧ i < j ∧ (done ++ rest)[i]? = some q ∧ (done ++ rest)[j]? = some q' ∧
        Spec.inRect q r c ∧ Spec.inRect q' r c) := by
  induction rest with
  | nil => intro done L _ hinv; left; exact ⟨L, rfl, by simpa using hinv⟩
  | cons q t ih =>
    intro done L hpos hinv
    have hq := hpos q (by simp)
    unfold rectLoop
    by_cases hany : anyLabelled shape L (rectSel shape q) = true
    · right
      rw [if_pos hany]
      refine ⟨rfl, ?_⟩
      obtain ⟨r, c, hr, hc, hs, hl⟩ := (anyLabelled_iff _ _ _).1 hany
      have hin := (rectSel_iff shape q hq.1 hq.2 r c hr hc).1 hs
      obtain ⟨k, hk⟩ := Nat.exists_eq_succ_of_ne_zero hl
      obtain ⟨q', hq', hin'⟩ := ((hinv r c hr hc).1 k).1 hk
      obtain ⟨hklt, _⟩ := List.getElem?_eq_some_iff.1 hq'
      exact ⟨r, c, k, done.length, q', q, hr, hc, hklt, by rw [List.getElem?_append_left hklt]; exact hq',
        by simp, hin', hin⟩
    · rw [if_neg hany]
      have hfree : ∀ r c, r < shape.1 → c < shape.2 → Spec.inRect q r c → L r c = 0 := by
        intro r c hr hc hin
        by_contra h
        exact hany ((anyLabelled_iff _ _ _).2 ⟨r, c, hr, hc, (rectSel_iff shape q hq.1 hq.2 r c hr hc).2 hin, h⟩)
      have hinv' : RectInv shape (done ++ [q]) (fun r c => if rectSel shape q r c then done.length + 1 else L r c) := by
        intro r c hr hc
        have hs := rectSel_iff shape q hq.1 hq.2 r c hr hc
        obtain ⟨i1, i2⟩ := hinv r c hr hc
        have hk : ∀ k : ℕ, (∃ q_1, (done ++ [q])[k]? = some q_1 ∧ Spec.inRect q_1 r c) ↔
            (∃ q_1, done[k]? = some q_1 ∧ Spec.inRect q_1 r c) ∨ (k = done.length ∧ Spec.inRect q r c) := by
          intro k
          rcases Nat.lt_trichotomy k done.length with h | h | h
          · rw [List.getElem?_append_left h]
            constructor
            · intro h'; exact Or.inl h'
            · rintro (h' | ⟨h', _⟩)
              · exact h'
              · omega
          · subst h
            simp
          · rw [List.getElem?_append_right (by omega)]
            have e1 : [q][k - done.length]? = none := by rw [List.getElem?_eq_none_iff]; simp; omega
            have e2 : done[k]? = none := by rw [List.getElem?_eq_none_iff]; omega
            rw [e1, e2]; simp; omega
        by_cases hin : Spec.inRect q r c
        · have h0 := hfree r c hr hc hin
          have hno := i2.1 h0
          simp only [hs.2 hin, if_true]
          constructor
          · intro k
            refine Iff.trans ?_ (hk k).symm
            constructor
            · intro h; right; exact ⟨by omega, hin⟩
            · rintro (h | ⟨h, _⟩)
              · exact absurd h (hno k)
              · omega
          · constructor
            · intro h; omega
            · intro h; exact absurd ((hk done.length).2 (Or.inr ⟨rfl, hin⟩)) (h done.length)
        · have : rectSel shape q r c = false := by rw [Bool.eq_false_iff]; exact fun h => hin (hs.1 h)
          simp only [this, Bool.false_eq_true, if_false]
          have hk' : ∀ k : ℕ, (∃ q_1, (done ++ [q])[k]? = some q_1 ∧ Spec.inRect q_1 r c) ↔ (∃ q_1, done[k]? = some q_1 ∧ Spec.inRect q_1 r c) := by
            intro k; rw [hk k]; simp [hin]
          exact ⟨fun k => (i1 k).trans (hk' k).symm, by rw [i2]; exact forall_congr' (fun k => not_congr (hk' k).symm)⟩
      have := ih (done ++ [q]) _ (fun q' hq' => hpos q' (by simp [hq'])) hinv'
      simpa using this

/-! ### digitize and _make_roi -/

theorem digitizeG_iff {α : Type} [LinearOrder α] (a : List α) (h : a.Pairwise (· ≤ ·)) (x : α) (k : ℕ) (v : α) (hk : a[k]? = some v) :
    v ≤ x ↔ k < digitizeG a x := by
  unfold digitizeG
  induction a generalizing k with
  | nil => simp at hk
  | cons b t ih =>
    rw [List.pairwise_cons] at h
    rw [List.countP_cons]
    have h0 : ¬ b ≤ x → t.countP (fun e => decide (e ≤ x)) = 0 := by
      intro hb
      rw [List.countP_eq_zero]
      intro e he
      simp only [decide_eq_true_eq]
      exact fun h2 => hb (le_trans (h.1 e he) h2)
    cases k with
    | zero =>
      simp at hk; subst hk
      by_cases hb : b ≤ x
      · simp [hb]
      · simp [hb, h0 hb]
    | succ k =>
      simp only [List.getElem?_cons_succ] at hk
      rw [ih h.2 k hk]
      by_cases hb : b ≤ x
      · simp [hb]
      · simp [hb, h0 hb]

theorem digitizeG_le {α : Type} [LinearOrder α] (a : List α) (x : α) : digitizeG a x ≤ a.length := List.countP_le_length

theorem edgesOk_iff {α : Type} [LinearOrder α] (edges : List α) :
    edgesOk edges = true ↔ edges.length % 2 = 0 ∧ edges.Pairwise (· ≤ ·) := by
  unfold edgesOk
  simp [List.isChain_iff_pairwise]

/-- `_make_roi` labels the k-th interval k+1. -/
theorem makeRoi_labels {α : Type} [LinearOrder α] (edges : List α) (h : edgesOk edges = true) (x : α) :
    Spec.Labels (fun k => Spec.inPair edges k x) (makeRoi edges x) := by
  obtain ⟨heven, hasc⟩ := (edgesOk_iff edges).1 h
  have hle := digitizeG_le edges x
  have key : ∀ k, Spec.inPair edges k x ↔ digitizeG edges x = 2 * k + 1 := by
    intro k
    constructor
    · rintro ⟨a, b, ha, hb, h1, h2⟩
      have e1 := (digitizeG_iff edges hasc x _ a ha).1 h1
      have e2 : ¬ 2 * k + 1 < digitizeG edges x := fun hc => absurd ((digitizeG_iff edges hasc x _ b hb).2 hc) (not_le.2 h2)
      omega
    · intro hd
      have hlen : 2 * k + 1 < edges.length := by omega
      refine ⟨edges[2 * k], edges[2 * k + 1], List.getElem?_eq_getElem (by omega), List.getElem?_eq_getElem hlen, ?_, ?_⟩
      · exact (digitizeG_iff edges hasc x (2 * k) _ (List.getElem?_eq_getElem (by omega))).2 (by omega)
      · exact lt_of_not_ge (fun hc => by
          have := (digitizeG_iff edges hasc x (2 * k + 1) _ (List.getElem?_eq_getElem hlen)).1 hc
          omega)
  constructor
  · intro k
    show _ ↔ Spec.inPair edges k x
    rw [key]
    unfold makeRoi
    simp only
    split <;> omega
  · simp only [key]
    unfold makeRoi
    simp only
    constructor
    · intro h0 k hk
      rw [if_pos (by omega)] at h0
      omega
    · intro hno
      have : digitizeG edges x % 2 = 0 := by
        by_contra hodd
        exact hno (digitizeG edges x / 2) (by omega)
      rw [if_neg (by omega)]

/-! ### ring_edges -/

theorem pairs_spec (l : List (ℚ × ℚ)) : ∀ a : ℚ,
    (pairs (cumsum a (l.flatMap (fun p => [p.1, p.2])))).length = l.length ∧
    (∀ (k : ℕ) (p : ℚ × ℚ), l[k]? = some p → ∃ e, (pairs (cumsum a (l.flatMap (fun p => [p.1, p.2]))))[k]? = some e ∧ e.2 - e.1 = p.2) ∧
    (∀ (p : ℚ × ℚ), l[0]? = some p → ∃ e, (pairs (cumsum a (l.flatMap (fun p => [p.1, p.2]))))[0]? = some e ∧ e.1 = a + p.1) ∧
    (∀ (k : ℕ) (p : ℚ × ℚ), l[k + 1]? = some p → ∃ e e', (pairs (cumsum a (l.flatMap (fun p => [p.1, p.2]))))[k]? = some e ∧
      (pairs (cumsum a (l.flatMap (fun p => [p.1, p.2]))))[k + 1]? = some e' ∧ e'.1 - e.2 = p.1) := by
  induction l with
  | nil => intro a; simp [cumsum, pairs]
  | cons q t ih =>
    intro a
    obtain ⟨i1, i2, i3, i4⟩ := ih (a + q.1 + q.2)
    have e : pairs (cumsum a ((q :: t).flatMap (fun p => [p.1, p.2]))) =
        (a + q.1, a + q.1 + q.2) :: pairs (cumsum (a + q.1 + q.2) (t.flatMap (fun p => [p.1, p.2]))) := by
      simp [cumsum, pairs]
    rw [e]
    refine ⟨by simp [i1], ?_, ?_, ?_⟩
    · intro k p hp
      cases k with
      | zero => simp at hp; subst hp; exact ⟨_, rfl, by simp⟩
      | succ k => simp only [List.getElem?_cons_succ] at hp ⊢; exact i2 k p hp
    · intro p hp; simp at hp; subst hp; exact ⟨_, rfl, rfl⟩
    · intro k p hp
      simp only [List.getElem?_cons_succ] at hp
      cases k with
      | zero =>
        obtain ⟨e, he, hv⟩ := i3 p hp
        exact ⟨_, e, rfl, he, by rw [hv]; ring⟩
      | succ k => simp only [List.getElem?_cons_succ] at hp ⊢; exact i4 k p hp

/-! ### angles -/

theorem wrapAngle_range (x y : ℝ) : 0 ≤ wrapAngle (Geom.arctan2 y x) ∧ wrapAngle (Geom.arctan2 y x) < 2 * Real.pi := by
  have h1 := Complex.neg_pi_lt_arg ⟨x, y⟩
  have h2 := Complex.arg_le_pi ⟨x, y⟩
  have hp := Real.pi_pos
  unfold wrapAngle Geom.arctan2
  split
  · constructor <;> linarith
  · constructor <;> linarith

/-- Segment j of ascending segment edges contains θ iff θ is digitized as j+1 (and there are that many edges). -/
theorem seg_iff (seg : List ℝ) (h : seg.Pairwise (· ≤ ·)) (j : ℕ) (θ : ℝ) :
    (∃ a b, seg[j]? = some a ∧ seg[j + 1]? = some b ∧ a ≤ θ ∧ θ < b) ↔ digitizeG seg θ = j + 1 ∧ j + 1 < seg.length := by
  constructor
  · rintro ⟨a, b, ha, hb, h1, h2⟩
    have e1 := (digitizeG_iff seg h θ _ a ha).1 h1
    have e2 : ¬ j + 1 < digitizeG seg θ := fun hc => absurd ((digitizeG_iff seg h θ _ b hb).2 hc) (not_le.2 h2)
    obtain ⟨h3, _⟩ := List.getElem?_eq_some_iff.1 hb
    exact ⟨by omega, h3⟩
  · rintro ⟨hd, hlt⟩
    refine ⟨seg[j], seg[j + 1], List.getElem?_eq_getElem (by omega), List.getElem?_eq_getElem hlt, ?_, ?_⟩
    · exact (digitizeG_iff seg h θ j _ (List.getElem?_eq_getElem (by omega))).2 (by omega)
    · exact lt_of_not_ge (fun hc => by
        have := (digitizeG_iff seg h θ (j + 1) _ (List.getElem?_eq_getElem hlt)).1 hc
        omega)

theorem foldl_unique (P : ℕ → Prop) [DecidablePred P] (f : ℕ → ℕ) (n : ℕ) :
    ((∀ i < n, ¬ P i) → (List.range n).foldl (fun lab i => if P i then f i else lab) 0 = 0) ∧
    (∀ i < n, P i → (∀ j < n, P j → j = i) → (List.range n).foldl (fun lab i => if P i then f i else lab) 0 = f i) := by
  induction n with
  | zero => simp
  | succ n ih =>
    simp only [List.range_succ, List.foldl_append, List.foldl_cons, List.foldl_nil]
    constructor
    · intro h
      rw [if_neg (h n (by omega))]
      exact ih.1 (fun i hi => h i (by omega))
    · intro i hi hPi hu
      by_cases hn : P n
      · rw [if_pos hn, hu n (by omega) hn]
      · rw [if_neg hn]
        have : i ≠ n := fun h => hn (h ▸ hPi)
        exact ih.2 i (by omega) hPi (fun j hj hPj => hu j (by omega) hPj)

theorem segLabel_spec (edges seg : List ℝ) (h : edgesOk edges = true) (ρ θ : ℝ) :
    ((∀ i, ¬ Spec.inPair edges i ρ) → segLabel edges seg ρ θ = 0) ∧
    (∀ i, Spec.inPair edges i ρ → segLabel edges seg ρ θ = digitizeG seg θ + (seg.length - 1) * i) := by
  obtain ⟨heven, hasc⟩ := (edgesOk_iff edges).1 h
  have hP : ∀ i, i < edges.length / 2 → ((edges.getD (2 * i) 0 ≤ ρ ∧ ρ < edges.getD (2 * i + 1) 0) ↔ Spec.inPair edges i ρ) := by
    intro i hi
    have h1 : 2 * i < edges.length := by omega
    have h2 : 2 * i + 1 < edges.length := by omega
    unfold Spec.inPair
    simp [List.getD, h1, h2]
  have hlt : ∀ i, Spec.inPair edges i ρ → i < edges.length / 2 := by
    rintro i ⟨a, b, ha, hb, _⟩
    obtain ⟨h3, _⟩ := List.getElem?_eq_some_iff.1 hb
    omega
  have huniq : ∀ i j, Spec.inPair edges i ρ → Spec.inPair edges j ρ → i = j := by
    intro i j hi hj
    have := makeRoi_labels edges h ρ
    have e1 := (this.1 i).2 hi
    have e2 := (this.1 j).2 hj
    omega
  classical
  have hf := foldl_unique (fun i => edges.getD (2 * i) 0 ≤ ρ ∧ ρ < edges.getD (2 * i + 1) 0) (fun i => digitizeG seg θ + (seg.length - 1) * i)
    (edges.length / 2)
  unfold segLabel
  constructor
  · intro hno
    have := hf.1 (fun i hi => by rw [hP i hi]; exact hno i)
    convert this
  · intro i hi
    have := hf.2 i (hlt i hi) ((hP i (hlt i hi)).2 hi) (fun j hj hPj => huniq j i ((hP j hj).1 hPj) hi)
    convert this

end Verif.Roi
