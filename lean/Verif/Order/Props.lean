/- Properties C214-C216: what floating-point arithmetic keeps of order and accuracy in bin_edges_to_centers, ring_edges and the
conversions between q and d. -/
import Verif.FlMono
import Verif.Utils.Model
import Verif.Roi.Together

namespace Verif.Order
open Verif Fl

/-! ## C214 bin_edges_to_centers -/

/-- `bin_edges_to_centers`, utils.py:972-973, with a rounding after the addition and after the product. -/
def centersR (rnd : ℚ → ℚ) (e : List ℚ) : List ℚ := List.zipWith (fun a b => rnd (rnd (a + b) * (1 / 2))) e.dropLast e.tail

/-- Without rounding it is the model of C05. -/
theorem centersR_id (e : List ℚ) : centersR id e = Utils.binEdgesToCenters e := rfl

theorem centersR_get (rnd : ℚ → ℚ) (e : List ℚ) (k : ℕ) (a b : ℚ) (ha : e[k]? = some a) (hb : e[k + 1]? = some b) :
    (centersR rnd e)[k]? = some (rnd (rnd (a + b) * (1 / 2))) := by
  obtain ⟨h1, e1⟩ := List.getElem?_eq_some_iff.1 hb
  obtain ⟨h0, e0⟩ := List.getElem?_eq_some_iff.1 ha
  unfold centersR
  rw [List.getElem?_zipWith]
  have p1 : e.dropLast[k]? = some a := by
    rw [List.getElem?_eq_getElem (by simp; omega), List.getElem_dropLast]; simpa using e0
  have p2 : e.tail[k]? = some b := by simpa using hb
  rw [p1, p2]

/-- In floating point every center lies in its (closed) bin, so the centers ascend with the edges; each is accurate to one
rounding error of the larger edge. -/
theorem C214_centers_partial (u : ℚ) (rnd : ℚ → ℚ) (hr : Spec.Rel u rnd) (hc : Spec.Correct rnd) (e : List ℚ) (hrep : ∀ x ∈ e, rnd x = x)
    (hasc : e.Pairwise (· ≤ ·)) :
    (centersR rnd e).length = e.length - 1 ∧
    (∀ (k : ℕ) (a b : ℚ), e[k]? = some a → e[k + 1]? = some b →
      ∃ c, (centersR rnd e)[k]? = some c ∧ a ≤ c ∧ c ≤ b ∧ |c - (a + b) / 2| ≤ u * max |a| |b|) ∧
    (centersR rnd e).Pairwise (· ≤ ·) := by
  have hlen : (centersR rnd e).length = e.length - 1 := by simp [centersR]
  have hval : ∀ a b, rnd (rnd (a + b) * (1 / 2)) = rnd (a + b) / 2 := by
    intro a b
    rw [show rnd (a + b) * (1 / 2) = rnd (a + b) / 2 by ring, hc.half, hc.idem]
  have key : ∀ (k : ℕ) (a b : ℚ), e[k]? = some a → e[k + 1]? = some b →
      ∃ c, (centersR rnd e)[k]? = some c ∧ a ≤ c ∧ c ≤ b ∧ |c - (a + b) / 2| ≤ u * max |a| |b| := by
    intro k a b ha hb
    have ra := hrep a (List.mem_of_getElem? ha)
    have rb := hrep b (List.mem_of_getElem? hb)
    have hab : a ≤ b := by
      obtain ⟨h1, e1⟩ := List.getElem?_eq_some_iff.1 hb
      obtain ⟨h0, e0⟩ := List.getElem?_eq_some_iff.1 ha
      rw [← e0, ← e1]
      exact List.pairwise_iff_getElem.1 hasc k (k + 1) h0 h1 (by omega)
    refine ⟨_, centersR_get rnd e k a b ha hb, ?_, ?_, ?_⟩
    · rw [hval]
      have := hc.mono (2 * a) (a + b) (by linarith)
      rw [hc.two, ra] at this
      linarith
    · rw [hval]
      have := hc.mono (a + b) (2 * b) (by linarith)
      rw [hc.two, rb] at this
      linarith
    · rw [hval, ← sub_div, abs_div, abs_of_pos (by norm_num : (0 : ℚ) < 2), div_le_iff₀ (by norm_num)]
      refine (hr.2 (a + b)).trans ?_
      have h1 := abs_add_le a b
      have h2 : |a| + |b| ≤ max |a| |b| * 2 := by
        have := le_max_left |a| |b|
        have := le_max_right |a| |b|
        linarith
      calc u * |a + b| ≤ u * (max |a| |b| * 2) := mul_le_mul_of_nonneg_left (h1.trans h2) hr.1
        _ = _ := by ring
  refine ⟨hlen, key, ?_⟩
  rw [← List.isChain_iff_pairwise, List.isChain_iff_getElem]
  intro i hi
  have h0 : i + 2 < e.length := by omega
  obtain ⟨c, hc1, -, hc2, -⟩ := key i _ _ (List.getElem?_eq_getElem (show i < e.length by omega)) (List.getElem?_eq_getElem (show i + 1 < e.length by omega))
  obtain ⟨d, hd1, hd2, -, -⟩ := key (i + 1) _ _ (List.getElem?_eq_getElem (show i + 1 < e.length by omega)) (List.getElem?_eq_getElem (show i + 1 + 1 < e.length by omega))
  obtain ⟨q1, q2⟩ := List.getElem?_eq_some_iff.1 hc1
  obtain ⟨q3, q4⟩ := List.getElem?_eq_some_iff.1 hd1
  rw [q2, q4]
  exact hc2.trans hd2

example : (∀ x ∈ [(1 : ℚ), 3 / 2, 5], round53 x = x) ∧ [(1 : ℚ), 3 / 2, 5].Pairwise (· ≤ ·) ∧ centersR round53 [1, 3 / 2, 5] = [5 / 4, 13 / 4] := by decide +kernel

/-- Strictly inside, as in exact arithmetic (C05), it need not lie: between neighbouring doubles there is nothing. -/
theorem C214_inside_refuted : centersR round53 [1, 1 + 1 / 2 ^ 52] = [1] ∧ (1 : ℚ) < 1 + 1 / 2 ^ 52 ∧ round53 (1 + 1 / 2 ^ 52) = 1 + 1 / 2 ^ 52 := by decide +kernel

/-! ## C215 ring_edges -/

/-- `np.cumsum` starting from `a`, with a rounding after every addition. -/
def cumsumR (rnd : ℚ → ℚ) (a : ℚ) : List ℚ → List ℚ
  | [] => []
  | x :: t => rnd (a + x) :: cumsumR rnd (rnd (a + x)) t

/-- `ring_edges`, roi.py:140-221, with a rounding after every addition (see `Roi.ringEdges`). -/
def ringEdgesR (rnd : ℚ → ℚ) (inner : ℚ) (width spacing : Roi.Arg) (num : Option ℤ) : Py (List (ℚ × ℚ)) :=
  if Roi.bothListsBad width spacing then .error .valueError
  else match Roi.numRings width spacing num with
    | .error e => .error e
    | .ok n => match Roi.regular width n, Roi.regular spacing (n - 1) with
      | .ok w, .ok s =>
        let all := Roi.inserted spacing inner :: s
        if all.length ≠ w.length then .error .valueError
        else .ok (Roi.pairs (cumsumR rnd 0 ((all.zip w).flatMap (fun p => [p.1, p.2]))))
      | .error e, _ => .error e
      | _, .error e => .error e

theorem cumsumR_id (l : List ℚ) : ∀ a, cumsumR id a l = Roi.cumsum a l := by
  induction l with
  | nil => intro a; rfl
  | cons x t ih => intro a; simp only [cumsumR, Roi.cumsum, id, ih]

/-- Without rounding it is the model of C29. -/
theorem ringEdgesR_id (inner : ℚ) (width spacing : Roi.Arg) (num : Option ℤ) : ringEdgesR id inner width spacing num = Roi.ringEdges inner width spacing num := by
  unfold ringEdgesR Roi.ringEdges
  simp only [cumsumR_id]
  rfl

theorem cumsumR_length (rnd : ℚ → ℚ) (l : List ℚ) : ∀ a, (cumsumR rnd a l).length = l.length := by
  induction l with
  | nil => intro a; rfl
  | cons x t ih => intro a; simp [cumsumR, ih]

theorem cumsumR_chain (rnd : ℚ → ℚ) (hc : Spec.Correct rnd) (l : List ℚ) : ∀ a, rnd a = a → (∀ x ∈ l, 0 ≤ x) → (a :: cumsumR rnd a l).IsChain (· ≤ ·) := by
  induction l with
  | nil => intro a _ _; simp [cumsumR]
  | cons x t ih =>
    intro a ha h
    have h1 : a ≤ rnd (a + x) := by
      have := hc.mono a (a + x) (by linarith [h x (by simp)])
      rwa [ha] at this
    simp only [cumsumR]
    exact List.isChain_cons_cons.2 ⟨h1, ih _ (hc.idem _) (fun y hy => h y (by simp [hy]))⟩

/-- Entry k of the rounded sums, for terms that are not negative. -/
theorem cumsumR_err (u : ℚ) (rnd : ℚ → ℚ) (hr : Spec.Rel u rnd) (l : List ℚ) : ∀ (a A : ℚ) (n : ℕ), 0 ≤ A → |a - A| ≤ ((1 + u) ^ n - 1) * A → (∀ x ∈ l, 0 ≤ x) →
    ∀ (k : ℕ) (v : ℚ), (Roi.cumsum A l)[k]? = some v → ∃ v', (cumsumR rnd a l)[k]? = some v' ∧ |v' - v| ≤ ((1 + u) ^ (n + k + 1) - 1) * v := by
  induction l with
  | nil => intro a A n _ _ _ k v h; simp [Roi.cumsum] at h
  | cons x t ih =>
    intro a A n hA haA hx k v h
    have hu := hr.1
    have hx0 := hx x (by simp)
    have hstep : |rnd (a + x) - (A + x)| ≤ ((1 + u) ^ (n + 1) - 1) * (A + x) := by
      have h1 := hr.2 (a + x)
      have h2 : |a + x| ≤ (1 + u) ^ n * (A + x) := by
        have hp : (1 : ℚ) ≤ (1 + u) ^ n := one_le_pow₀ (by linarith)
        have h3 := abs_le.1 haA
        rw [abs_le]
        constructor <;> nlinarith
      have h4 : |a + x - (A + x)| ≤ ((1 + u) ^ n - 1) * (A + x) := by
        have hp : (1 : ℚ) ≤ (1 + u) ^ n := one_le_pow₀ (by linarith)
        rw [show a + x - (A + x) = a - A by ring]
        refine haA.trans ?_
        nlinarith
      have h5 := abs_add_le (rnd (a + x) - (a + x)) (a + x - (A + x))
      have e : rnd (a + x) - (a + x) + (a + x - (A + x)) = rnd (a + x) - (A + x) := by ring
      rw [e] at h5
      have h6 : u * |a + x| ≤ u * ((1 + u) ^ n * (A + x)) := mul_le_mul_of_nonneg_left h2 hu
      calc |rnd (a + x) - (A + x)| ≤ u * ((1 + u) ^ n * (A + x)) + ((1 + u) ^ n - 1) * (A + x) := by linarith
        _ = _ := by rw [pow_succ]; ring
    cases k with
    | zero =>
      simp only [Roi.cumsum, List.getElem?_cons_zero, Option.some.injEq] at h
      subst h
      exact ⟨rnd (a + x), by simp [cumsumR], by simpa using hstep⟩
    | succ k =>
      simp only [Roi.cumsum, List.getElem?_cons_succ] at h
      obtain ⟨v', h1, h2⟩ := ih (rnd (a + x)) (A + x) (n + 1) (by linarith) hstep (fun y hy => hx y (by simp [hy])) k v h
      refine ⟨v', by simpa [cumsumR] using h1, ?_⟩
      rw [show n + (k + 1) + 1 = n + 1 + k + 1 by ring]
      exact h2

theorem pairs_get (l : List ℚ) : ∀ k : ℕ, (Roi.pairs l)[k]? = (l[2 * k]?).bind (fun a => (l[2 * k + 1]?).map (fun b => (a, b))) := by
  induction l using Roi.pairs.induct with
  | case1 a b t ih =>
    intro k
    cases k with
    | zero => simp [Roi.pairs]
    | succ k =>
      rw [show 2 * (k + 1) = 2 * k + 2 by ring, show 2 * k + 2 + 1 = 2 * k + 1 + 2 by ring]
      simp only [Roi.pairs, List.getElem?_cons_succ]
      exact ih k
  | case2 l h =>
    intro k
    match l, h with
    | [], _ => simp [Roi.pairs]
    | [a], _ => simp [Roi.pairs]
    | a :: b :: t, h => exact absurd rfl (h a b t)

theorem pairs_length (l : List ℚ) : (Roi.pairs l).length = l.length / 2 := by
  induction l using Roi.pairs.induct with
  | case1 a b t ih => simp only [Roi.pairs, List.length_cons, ih]; omega
  | case2 l h =>
    match l, h with
    | [], _ => simp [Roi.pairs]
    | [a], _ => simp [Roi.pairs]
    | a :: b :: t, h => exact absurd rfl (h a b t)

theorem cumsumR_succ (rnd : ℚ → ℚ) (l : List ℚ) : ∀ (a : ℚ) (i : ℕ) (v x : ℚ), (cumsumR rnd a l)[i]? = some v → l[i + 1]? = some x →
    (cumsumR rnd a l)[i + 1]? = some (rnd (v + x)) := by
  induction l with
  | nil => intro a i v x h; simp [cumsumR] at h
  | cons y t ih =>
    intro a i v x h hx
    simp only [cumsumR, List.getElem?_cons_succ] at h hx ⊢
    cases i with
    | zero =>
      simp only [List.getElem?_cons_zero, Option.some.injEq] at h
      subst h
      cases t with
      | nil => simp at hx
      | cons z t' =>
        simp only [List.getElem?_cons_zero, Option.some.injEq] at hx
        subst hx
        simp [cumsumR]
    | succ i =>
      simp only [List.getElem?_cons_succ] at h
      exact ih _ i v x h hx

theorem regular_get (a : Roi.Arg) (n : ℤ) (l : List ℚ) (h : Roi.regular a n = .ok l) (k : ℕ) (x : ℚ) (hk : l[k]? = some x) : Roi.Spec.nth a k = some x := by
  cases a with
  | list b l' => simp only [Roi.regular, Except.ok.injEq] at h; subst h; exact hk
  | scalar q =>
    simp only [Roi.regular] at h
    split at h
    · simp at h
    · simp only [Except.ok.injEq] at h
      subst h
      obtain ⟨h1, h2⟩ := List.getElem?_eq_some_iff.1 hk
      simp only [List.getElem_replicate] at h2
      simp [Roi.Spec.nth, h2]

theorem terms_get (all w : List ℚ) (hl : all.length = w.length) : ∀ k : ℕ, ((all.zip w).flatMap (fun p => [p.1, p.2]))[2 * k]? = all[k]? ∧
    ((all.zip w).flatMap (fun p => [p.1, p.2]))[2 * k + 1]? = w[k]? := by
  induction all generalizing w with
  | nil => intro k; cases w with
    | nil => simp
    | cons => simp at hl
  | cons a t ih =>
    intro k
    cases w with
    | nil => simp at hl
    | cons b w =>
      have := ih w (by simpa using hl)
      cases k with
      | zero => simp
      | succ k =>
        rw [show 2 * (k + 1) = 2 * k + 2 by ring, show 2 * k + 2 + 1 = 2 * k + 1 + 2 by ring]
        simpa using this k

/-- ring_edges in floating point, for an inner radius, widths and spacings that are not negative: it succeeds when it succeeds in
exact arithmetic, with as many rings; every edge has a relative error of at most one rounding error per addition; rings
accepts the edges, whatever the roundings, and labels a pixel by the ring containing its radius; and rings with spacing 0
between them share their edge exactly, so no radius falls between them. -/
theorem C215_edges_partial (u : ℚ) (rnd : ℚ → ℚ) (hr : Spec.Rel u rnd) (hc : Spec.Correct rnd) (inner : ℚ) (hin : 0 ≤ inner) (width spacing : Roi.Arg) (num : Option ℤ)
    (hw : ∀ k w, Roi.Spec.nth width k = some w → 0 ≤ w) (hs : ∀ k s, Roi.Spec.nth spacing k = some s → 0 ≤ s)
    (E : List (ℚ × ℚ)) (h : Roi.ringEdges inner width spacing num = .ok E) :
    ∃ E', ringEdgesR rnd inner width spacing num = .ok E' ∧ E'.length = E.length ∧
      (∀ (k : ℕ) (e e' : ℚ × ℚ), E[k]? = some e → E'[k]? = some e' →
        |e'.1 - e.1| ≤ ((1 + u) ^ (2 * k + 1) - 1) * e.1 ∧ |e'.2 - e.2| ≤ ((1 + u) ^ (2 * k + 2) - 1) * e.2) ∧
      (∀ (k : ℕ) (e e' : ℚ × ℚ), E'[k]? = some e → E'[k + 1]? = some e' → Roi.Spec.nth spacing k = some 0 → e.2 = e'.1) ∧
      ∀ (center : ℝ × ℝ) (shape : ℕ × ℕ), ∃ img, Roi.rings (Roi.Spec.flat E') center shape = .ok img ∧
        ∀ r c, r < shape.1 → c < shape.2 → ∃ lab, Geom.Spec.at img r c = some lab ∧
          ∀ k, lab = k + 1 ↔ ∃ e, E'[k]? = some e ∧ (e.1 : ℝ) ≤ Roi.Spec.radius center r c ∧ Roi.Spec.radius center r c < e.2 := by
  unfold Roi.ringEdges at h
  unfold ringEdgesR
  by_cases hb : Roi.bothListsBad width spacing = true
  · rw [if_pos hb] at h; simp at h
  rw [if_neg hb] at h ⊢
  cases hn : Roi.numRings width spacing num with
  | error e => rw [hn] at h; simp at h
  | ok n =>
    rw [hn] at h
    simp only at h ⊢
    cases h1 : Roi.regular width n with
    | error e => rw [h1] at h; simp at h
    | ok w =>
      cases h2 : Roi.regular spacing (n - 1) with
      | error e => rw [h1, h2] at h; simp at h
      | ok s =>
        rw [h1, h2] at h
        simp only at h ⊢
        by_cases hl : (Roi.inserted spacing inner :: s).length ≠ w.length
        · rw [if_pos hl] at h; simp at h
        rw [if_neg hl] at h ⊢
        rw [not_not] at hl
        simp only [Except.ok.injEq] at h
        set all := Roi.inserted spacing inner :: s with hall
        set L := (all.zip w).flatMap (fun p => [p.1, p.2]) with hL
        have htg := terms_get all w hl
        have hLlen : L.length = 2 * w.length := by
          rw [hL]
          have : ∀ l : List (ℚ × ℚ), (l.flatMap (fun p => [p.1, p.2])).length = 2 * l.length := by
            intro l; induction l with
            | nil => rfl
            | cons a t ih => rw [List.flatMap_cons, List.length_append, ih]; simp; ring
          rw [this, List.length_zip, hl, min_self]
        have hins : 0 ≤ Roi.inserted spacing inner := by
          unfold Roi.inserted
          split
          · have : 0 ≤ pyInt inner := by unfold pyInt; rw [if_pos hin]; exact Int.floor_nonneg.2 hin
            exact_mod_cast this
          · exact hin
        have hpos : ∀ x ∈ L, 0 ≤ x := by
          intro x hx
          rw [hL, List.mem_flatMap] at hx
          obtain ⟨p, hp, hx⟩ := hx
          have hmem := List.of_mem_zip hp
          simp only [List.mem_cons, List.not_mem_nil, or_false] at hx
          rcases hx with rfl | rfl
          · have := hmem.1
            rw [hall, List.mem_cons] at this
            rcases this with h' | h'
            · rw [h']; exact hins
            · obtain ⟨k, hk⟩ := List.mem_iff_getElem?.1 h'
              exact hs k _ (regular_get spacing _ s h2 k _ hk)
          · obtain ⟨k, hk⟩ := List.mem_iff_getElem?.1 hmem.2
            exact hw k _ (regular_get width _ w h1 k _ hk)
        have hcl : ∀ l : List ℚ, ∀ a, (Roi.cumsum a l).length = l.length := by
          intro l a; rw [← cumsumR_id]; exact cumsumR_length id l a
        have hch : (cumsumR rnd 0 L).IsChain (· ≤ ·) := (cumsumR_chain rnd hc L 0 hc.zero hpos).tail
        refine ⟨_, rfl, ?_, ?_, ?_, ?_⟩
        · rw [← h, pairs_length, pairs_length, cumsumR_length, hcl]
        · intro k e e' he he'
          rw [← h, pairs_get] at he
          rw [pairs_get] at he'
          have err := cumsumR_err u rnd hr L 0 0 0 le_rfl (by simp) hpos
          cases a1 : (Roi.cumsum 0 L)[2 * k]? with
          | none => rw [a1] at he; simp at he
          | some x =>
            cases a2 : (Roi.cumsum 0 L)[2 * k + 1]? with
            | none => rw [a1, a2] at he; simp at he
            | some y =>
              rw [a1, a2] at he
              simp only [Option.bind_some, Option.map_some, Option.some.injEq] at he
              obtain ⟨x', b1, c1⟩ := err _ _ a1
              obtain ⟨y', b2, c2⟩ := err _ _ a2
              rw [b1, b2] at he'
              simp only [Option.bind_some, Option.map_some, Option.some.injEq] at he'
              subst he; subst he'
              rw [Nat.zero_add] at c1 c2
              exact ⟨c1, c2⟩
        · intro k e e' he he' hz
          rw [pairs_get] at he he'
          cases a2 : (cumsumR rnd 0 L)[2 * k + 1]? with
          | none => rw [a2] at he; simp at he
          | some y =>
            cases a1 : (cumsumR rnd 0 L)[2 * k]? with
            | none => rw [a1] at he; simp at he
            | some x =>
              rw [a1, a2] at he
              simp only [Option.bind_some, Option.map_some, Option.some.injEq] at he
              have hkl : 2 * (k + 1) < L.length := by
                by_contra hge
                rw [List.getElem?_eq_none (by rw [cumsumR_length]; omega)] at he'
                simp at he'
              have hz' : L[2 * k + 1 + 1]? = some 0 := by
                rw [show 2 * k + 1 + 1 = 2 * (k + 1) by ring, (htg (k + 1)).1, hall, List.getElem?_cons_succ]
                have : k < s.length := by simp [hall] at hl; omega
                rw [List.getElem?_eq_getElem this]
                have := regular_get spacing _ s h2 k _ (List.getElem?_eq_getElem this)
                rw [hz] at this
                exact this.symm
              have hnext := cumsumR_succ rnd L 0 (2 * k + 1) y 0 a2 hz'
              rw [show 2 * k + 1 + 1 = 2 * (k + 1) by ring] at hnext
              rw [hnext, add_zero] at he'
              have hidem : rnd y = y := by
                have : ∀ (l : List ℚ) (a : ℚ), ∀ z ∈ cumsumR rnd a l, rnd z = z := by
                  intro l
                  induction l with
                  | nil => intro a z hz; simp [cumsumR] at hz
                  | cons x t ih =>
                    intro a z hz
                    simp only [cumsumR, List.mem_cons] at hz
                    rcases hz with rfl | hz
                    · exact hc.idem _
                    · exact ih _ z hz
                exact this L 0 y (List.mem_of_getElem? a2)
              rw [hidem] at he'
              cases a3 : (cumsumR rnd 0 L)[2 * (k + 1) + 1]? with
              | none => rw [a3] at he'; simp at he'
              | some z =>
                rw [a3] at he'
                simp only [Option.bind_some, Option.map_some, Option.some.injEq] at he'
                rw [← he, ← he']
        · intro center shape
          set E' := Roi.pairs (cumsumR rnd 0 L) with hE'
          have hget : ∀ (k : ℕ) (e : ℚ × ℚ), E'[k]? = some e → (cumsumR rnd 0 L)[2 * k]? = some e.1 ∧ (cumsumR rnd 0 L)[2 * k + 1]? = some e.2 := by
            intro k e he
            rw [hE', pairs_get] at he
            cases a1 : (cumsumR rnd 0 L)[2 * k]? with
            | none => rw [a1] at he; simp at he
            | some x =>
              cases a2 : (cumsumR rnd 0 L)[2 * k + 1]? with
              | none => rw [a1, a2] at he; simp at he
              | some y =>
                rw [a1, a2] at he
                simp only [Option.bind_some, Option.map_some, Option.some.injEq] at he
                subst he
                exact ⟨rfl, rfl⟩
          have hle : ∀ (i : ℕ) (x y : ℚ), (cumsumR rnd 0 L)[i]? = some x → (cumsumR rnd 0 L)[i + 1]? = some y → x ≤ y := by
            intro i x y hx hy
            obtain ⟨p1, p2⟩ := List.getElem?_eq_some_iff.1 hx
            obtain ⟨q1, q2⟩ := List.getElem?_eq_some_iff.1 hy
            rw [← p2, ← q2]
            exact List.isChain_iff_getElem.1 hch i q1
          have hflat := Roi.flat_ok E' (fun k e he => hle _ _ _ (hget k e he).1 (hget k e he).2)
            (fun k e e' he he' => hle (2 * k + 1) _ _ (hget k e he).2 (by
              rw [show 2 * k + 1 + 1 = 2 * (k + 1) by ring]; exact (hget (k + 1) e' he').1))
          obtain ⟨img, i1, -, i2⟩ := (Roi.C28_rings (Roi.Spec.flat E') center shape).2 ⟨by rw [Roi.flat_length]; omega, hflat.pairwise⟩
          refine ⟨img, i1, fun r c hr' hc' => ?_⟩
          obtain ⟨lab, hat, hlab⟩ := i2 r c hr' hc'
          refine ⟨lab, hat, fun k => ?_⟩
          rw [hlab.1 k]
          show Roi.Spec.inPair _ _ _ ↔ _
          unfold Roi.Spec.inPair
          rw [(Roi.flat_get E' k).1, (Roi.flat_get E' k).2]
          constructor
          · rintro ⟨a, b, ha, hb, hab⟩
            cases he : E'[k]? with
            | none => rw [he] at ha; simp at ha
            | some e =>
              rw [he] at ha hb
              simp only [Option.map_some, Option.some.injEq] at ha hb
              subst ha; subst hb
              exact ⟨e, rfl, hab⟩
          · rintro ⟨e, he, hab⟩
            rw [he]
            exact ⟨_, _, rfl, rfl, hab⟩

/-- Instance: three adjacent rings of width 0.1 (as a double) starting at 1. -/
example : ringEdgesR round53 1 (.scalar (3602879701896397 / 2 ^ 55)) (.scalar 0) (some 3) =
    .ok [(1, 2476979795053773 / 2 ^ 51), (2476979795053773 / 2 ^ 51, 1351079888211149 / 2 ^ 50), (1351079888211149 / 2 ^ 50, 2927339757790823 / 2 ^ 51)] := by decide +kernel

/-- The widths are not exactly those asked for, as they are in exact arithmetic (C29): a ring of width 0.1 at 1 is wider by
more than 8e-17, also when the difference is rounded again. -/
theorem C215_width_refuted : ∃ a b, ringEdgesR round53 1 (.scalar (round53 (1 / 10))) (.scalar 0) (some 1) = .ok [(a, b)] ∧ round53 (b - a) ≠ round53 (1 / 10) := by
  exact ⟨1, 2476979795053773 / 2 ^ 51, by decide +kernel, by decide +kernel⟩

/-! ## C216 q and d -/

/-- `q_to_d` and `d_to_q`, utils.py:1007, 1033, with a rounding after the division; c is the double 2 * np.pi. -/
def convertR (rnd : ℚ → ℚ) (c x : ℚ) : ℚ := rnd (c / x)

/-- In floating point, larger q give smaller (or equal) d, and converting forth and back changes a value by at most three
rounding errors. -/
theorem C216_conversion_partial (u : ℚ) (hu : u ≤ 1 / 3) (rnd : ℚ → ℚ) (hr : Spec.Rel u rnd) (hc : Spec.Correct rnd) (c : ℚ) (hc0 : 0 < c) :
    (∀ x y, 0 < x → x ≤ y → convertR rnd c y ≤ convertR rnd c x) ∧
    (∀ x, 0 < x → |convertR rnd c x - c / x| ≤ u * (c / x)) ∧
    (∀ x, 0 < x → |convertR rnd c (convertR rnd c x) - x| ≤ 3 * u * x) := by
  have hrel : ∀ x, 0 < x → |convertR rnd c x - c / x| ≤ u * (c / x) := by
    intro x hx
    have := hr.2 (c / x)
    rwa [abs_of_pos (div_pos hc0 hx)] at this
  refine ⟨fun x y hx hxy => hc.mono _ _ (div_le_div_of_nonneg_left hc0.le hx hxy), hrel, fun x hx => ?_⟩
  have hu0 := hr.1
  have h1 := abs_le.1 (hrel x hx)
  have hq : 0 < c / x := div_pos hc0 hx
  have hypos : 0 < convertR rnd c x := by nlinarith
  set y := convertR rnd c x
  have h2 := abs_le.1 (hrel y hypos)
  have hy : y * x ≤ (1 + u) * c ∧ (1 - u) * c ≤ y * x := by
    have e : c / x * x = c := by field_simp
    constructor <;> nlinarith
  have hcy : c / y * y = c := by field_simp
  have hcyp : 0 < c / y := div_pos hc0 hypos
  have k1 : c / y ≤ x / (1 - u) := by
    rw [div_le_div_iff₀ hypos (by linarith)]
    nlinarith [hy.2]
  have k2 : x / (1 + u) ≤ c / y := by
    rw [div_le_div_iff₀ (by linarith) hypos]
    nlinarith [hy.1]
  have k3 : (1 + u) * (x / (1 - u)) ≤ (1 + 3 * u) * x := by
    rw [mul_div_assoc', div_le_iff₀ (by linarith)]
    nlinarith [mul_nonneg hu0 hx.le, mul_nonneg (mul_nonneg hu0 hx.le) (by linarith : (0 : ℚ) ≤ 1 - 3 * u)]
  have k4 : (1 - 3 * u) * x ≤ (1 - u) * (x / (1 + u)) := by
    rw [mul_div_assoc', le_div_iff₀ (by linarith)]
    nlinarith [mul_nonneg hu0 hx.le, mul_nonneg (mul_nonneg hu0 hx.le) hu0]
  rw [abs_le]
  constructor
  · have : (1 - u) * (x / (1 + u)) ≤ (1 - u) * (c / y) := mul_le_mul_of_nonneg_left k2 (by linarith)
    linarith
  · have : (1 + u) * (c / y) ≤ (1 + u) * (x / (1 - u)) := mul_le_mul_of_nonneg_left k1 (by linarith)
    linarith

example : Spec.Rel (1 / 2 ^ 53) round53 ∧ Spec.Correct round53 := ⟨round53_rel, round53_correct⟩

/-- Converting forth and back is not exact, as it is in exact arithmetic (C10): q = 25 does not come back. -/
theorem C216_roundtrip_refuted : convertR round53 (884279719003555 / 2 ^ 47) (convertR round53 (884279719003555 / 2 ^ 47) 25) ≠ 25 ∧
    round53 (884279719003555 / 2 ^ 47) = 884279719003555 / 2 ^ 47 := by decide +kernel

end Verif.Order
