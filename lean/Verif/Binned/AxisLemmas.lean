import Verif.Binned.BinLemmas
import Mathlib.Data.List.Sort
import Mathlib.Data.List.Perm.Basic

namespace Verif.Binned
open Verif

/-- Positional numbers with digits below the radices are unique. -/
theorem mixed_lt : ∀ l : List (ℕ × ℕ), (∀ p ∈ l, p.1 < p.2) → mixed l < (l.map Prod.snd).prod
  | [], _ => by simp [mixed]
  | (c, r) :: t, h => by
    have ht := mixed_lt t (fun p hp => h p (by simp [hp]))
    have hc := h (c, r) (by simp)
    simp only [mixed, List.map_cons, List.prod_cons]
    simp only at hc
    calc c * (t.map Prod.snd).prod + mixed t < c * (t.map Prod.snd).prod + (t.map Prod.snd).prod := by omega
      _ = (c + 1) * (t.map Prod.snd).prod := by ring
      _ ≤ r * (t.map Prod.snd).prod := Nat.mul_le_mul_right _ hc

theorem mixed_inj {ι : Type} (l : List ι) (f g r : ι → ℕ) (hf : ∀ d ∈ l, f d < r d) (hg : ∀ d ∈ l, g d < r d)
    (h : mixed (l.map (fun d => (f d, r d))) = mixed (l.map (fun d => (g d, r d)))) : ∀ d ∈ l, f d = g d := by
  induction l with
  | nil => simp
  | cons d t ih =>
    simp only [List.map_cons, mixed, List.map_map] at h
    have e1 : (Prod.snd ∘ fun d => (f d, r d)) = r := rfl
    have e2 : (Prod.snd ∘ fun d => (g d, r d)) = r := rfl
    rw [e1, e2] at h
    have h1 := mixed_lt (t.map (fun d => (f d, r d))) (by
      intro p hp; obtain ⟨x, hx, rfl⟩ := List.mem_map.1 hp; exact hf x (by simp [hx]))
    have h2 := mixed_lt (t.map (fun d => (g d, r d))) (by
      intro p hp; obtain ⟨x, hx, rfl⟩ := List.mem_map.1 hp; exact hg x (by simp [hx]))
    rw [List.map_map, e1] at h1
    rw [List.map_map, e2] at h2
    set P := (t.map r).prod
    have hP : 0 < P := by omega
    have hd : f d = g d := by
      have := congrArg (· / P) h
      rwa [Nat.mul_comm, Nat.mul_add_div hP, Nat.div_eq_of_lt h1, Nat.mul_comm (g d), Nat.mul_add_div hP,
        Nat.div_eq_of_lt h2, Nat.add_zero, Nat.add_zero] at this
    have ht := ih (fun x hx => hf x (by simp [hx])) (fun x hx => hg x (by simp [hx])) (by rw [hd] at h; omega)
    intro x hx
    rcases List.mem_cons.1 hx with rfl | hx
    · exact hd
    · exact ht x hx

/-! ### swapping -/

/-- Transposition of positions. -/
def sw (i j k : ℕ) : ℕ := if k = i then j else if k = j then i else k

theorem length_swapAt (l : List ℕ) (i j : ℕ) : (swapAt l i j).length = l.length := by simp [swapAt]

theorem getD_swapAt (l : List ℕ) (i j k : ℕ) (hi : i < l.length) (hj : j < l.length) (hk : k < l.length) :
    (swapAt l i j).getD k 0 = l.getD (sw i j k) 0 := by
  unfold swapAt sw
  simp only [List.getD_eq_getElem?_getD, List.getElem?_set, List.length_set]
  by_cases h1 : k = j
  · subst h1
    by_cases h2 : k = i
    · subst h2; simp [hk]
    · simp [h2, hk]
  · by_cases h2 : k = i
    · subst h2; simp [Ne.symm h1, hk]
    · simp [Ne.symm h1, Ne.symm h2, h1, h2]

theorem sw_lt (i j k n : ℕ) (hi : i < n) (hj : j < n) (hk : k < n) : sw i j k < n := by
  unfold sw; split_ifs <;> assumption

theorem sw_sw (i j k : ℕ) : sw i j (sw i j k) = k := by unfold sw; split_ifs <;> omega

theorem getD_eq_get (l : List ℕ) (k : ℕ) (h : k < l.length) : l.getD k 0 = l[k] := by
  simp [h]

theorem swapAt_perm (l : List ℕ) (i j : ℕ) (hi : i < l.length) (hj : j < l.length) (hn : l.Nodup) : (swapAt l i j).Perm l := by
  have hn' : (swapAt l i j).Nodup := by
    rw [List.nodup_iff_injective_getElem]
    intro ⟨a, ha⟩ ⟨b, hb⟩ hab
    simp only [length_swapAt] at ha hb
    have e : ∀ k (hk : k < l.length), (swapAt l i j)[k]'(by rw [length_swapAt]; exact hk) = l[sw i j k]'(sw_lt i j k _ hi hj hk) := by
      intro k hk
      rw [← getD_eq_get (swapAt l i j) k (by rw [length_swapAt]; exact hk), getD_swapAt l i j k hi hj hk,
        getD_eq_get l _ (sw_lt i j k _ hi hj hk)]
    simp only at hab
    rw [e a ha, e b hb] at hab
    have := (List.Nodup.getElem_inj_iff hn).1 hab
    have h2 := congrArg (sw i j) this
    rw [sw_sw, sw_sw] at h2
    simpa using h2
  rw [List.perm_ext_iff_of_nodup hn' hn]
  intro a
  constructor
  · intro h
    obtain ⟨k, hk, rfl⟩ := List.getElem_of_mem h
    rw [length_swapAt] at hk
    rw [← getD_eq_get (swapAt l i j) k (by rw [length_swapAt]; exact hk), getD_swapAt l i j k hi hj hk,
        getD_eq_get l _ (sw_lt i j k _ hi hj hk)]
    exact List.getElem_mem _
  · intro h
    obtain ⟨k, hk, rfl⟩ := List.getElem_of_mem h
    have h1 := sw_lt i j k _ hi hj hk
    have : (swapAt l i j).getD (sw i j k) 0 = l.getD k 0 := by rw [getD_swapAt l i j _ hi hj h1, sw_sw]
    rw [getD_eq_get l k hk, getD_eq_get (swapAt l i j) _ (by rw [length_swapAt]; exact h1)] at this
    rw [← this]; exact List.getElem_mem _

theorem idxOf_eq_of (l : List ℕ) (hn : l.Nodup) (k : ℕ) (hk : k < l.length) (d : ℕ) (h : l.getD k 0 = d) : l.idxOf d = k := by
  rw [getD_eq_get l k hk] at h
  subst h
  exact List.Nodup.idxOf_getElem hn k hk

theorem getD_idxOf (l : List ℕ) (d : ℕ) (h : d ∈ l) : l.getD (l.idxOf d) 0 = d := by
  have := List.idxOf_lt_length_of_mem h
  rw [getD_eq_get l _ this]; exact List.getElem_idxOf this

/-- The position of a value after the swap. -/
theorem idxOf_swapAt (l : List ℕ) (hn : l.Nodup) (i j : ℕ) (hi : i < l.length) (hj : j < l.length) (d : ℕ) (hd : d ∈ l) :
    (swapAt l i j).idxOf d = sw i j (l.idxOf d) := by
  have hp := swapAt_perm l i j hi hj hn
  have h0 := List.idxOf_lt_length_of_mem hd
  have h1 := sw_lt i j (l.idxOf d) _ hi hj h0
  apply idxOf_eq_of _ (hp.nodup_iff.2 hn) _ (by rw [length_swapAt]; exact h1)
  rw [getD_swapAt l i j _ hi hj h1, sw_sw, getD_idxOf l d hd]

/-- Indices by dimension, from indices by axis. -/
def toDims (D : ℕ) (ni idx : List ℕ) : List ℕ := (List.range D).map (fun d => idx.getD (ni.idxOf d) 0)

theorem toDims_swap (D : ℕ) (ni idx : List ℕ) (hp : ni.Perm (List.range D)) (hi' : idx.length = D) (i j : ℕ) (hi : i < D) (hj : j < D) :
    toDims D ni (swapAt idx i j) = toDims D (swapAt ni i j) idx := by
  have hlen : ni.length = D := by rw [hp.length_eq]; simp
  have hn : ni.Nodup := hp.nodup_iff.2 List.nodup_range
  unfold toDims
  apply List.map_congr_left
  intro d hd
  have hdm : d ∈ ni := hp.mem_iff.2 hd
  have h0 := List.idxOf_lt_length_of_mem hdm
  rw [idxOf_swapAt ni hn i j (by omega) (by omega) d hdm, getD_swapAt idx i j _ (by omega) (by omega) (by omega)]

theorem toDims_range (D : ℕ) (idx : List ℕ) (h : idx.length = D) : toDims D (List.range D) idx = idx := by
  unfold toDims
  apply List.ext_getElem
  · simp [h]
  · intro k h1 h2
    simp only [List.length_map, List.length_range] at h1
    have : (List.range D).idxOf k = k := by
      apply idxOf_eq_of _ List.nodup_range _ (by simpa using h1)
      simp [h1]
    simp [this, h2]

/-- What the loop keeps: entries and shape, read by dimension, do not change. -/
structure Keeps {α : Type} (D : ℕ) (G : List ℕ → α) (S : List ℕ) (st : Nd α × List ℕ) : Prop where
  perm : st.2.Perm (List.range D)
  get : ∀ idx, idx.length = D → st.1.get idx = G (toDims D st.2 idx)
  len : st.1.shape.length = D
  shape : toDims D st.2 st.1.shape = S

theorem keeps_step {α : Type} (D : ℕ) (G : List ℕ → α) (S : List ℕ) (st : Nd α × List ℕ) (h : Keeps D G S st) (i : ℕ) (hi : i < D) :
    Keeps D G S (restoreStep st i) := by
  obtain ⟨A, ni⟩ := st
  obtain ⟨hp, hg, hl, hs⟩ := h
  simp only at hp hg hl hs
  have hlen : ni.length = D := by rw [hp.length_eq]; simp
  have hn : ni.Nodup := hp.nodup_iff.2 List.nodup_range
  have hj : ni.idxOf i < D := by
    rw [← hlen]; exact List.idxOf_lt_length_of_mem (hp.mem_iff.2 (by simpa using hi))
  refine ⟨?_, ?_, ?_, ?_⟩
  · exact (swapAt_perm ni i (ni.idxOf i) (by omega) (by omega) hn).trans hp
  · intro idx hidx
    show A.get (swapAt idx i (ni.idxOf i)) = _
    rw [hg _ (by rw [length_swapAt]; exact hidx), toDims_swap D ni idx hp hidx i _ hi hj]
    rfl
  · show (swapAt A.shape _ _).length = D
    rw [length_swapAt]; exact hl
  · show toDims D (swapAt ni i (ni.idxOf i)) (swapAt A.shape i (ni.idxOf i)) = S
    rw [← toDims_swap D ni _ hp (by rw [length_swapAt]; exact hl) i _ hi hj, ← hs]
    congr 1
    apply List.ext_getElem
    · simp [length_swapAt]
    · intro k h1 h2
      have hk : k < A.shape.length := h2
      rw [← getD_eq_get _ k h1, ← getD_eq_get _ k h2,
        getD_swapAt _ i _ k (by rw [length_swapAt]; omega) (by rw [length_swapAt]; omega) (by rw [length_swapAt]; omega),
        getD_swapAt _ i _ _ (by omega) (by omega) (by apply sw_lt <;> omega), sw_sw]

theorem sorted_step {α : Type} (D : ℕ) (st : Nd α × List ℕ) (hp : st.2.Perm (List.range D)) (i : ℕ) (hi : i < D)
    (hs : ∀ k, k < i → st.2.getD k 0 = k) : ∀ k, k < i + 1 → (restoreStep st i).2.getD k 0 = k := by
  obtain ⟨A, ni⟩ := st
  simp only at hp hs
  have hlen : ni.length = D := by rw [hp.length_eq]; simp
  have hn : ni.Nodup := hp.nodup_iff.2 List.nodup_range
  have him : i ∈ ni := hp.mem_iff.2 (by simpa using hi)
  have hj : ni.idxOf i < D := by
    rw [← hlen]; exact List.idxOf_lt_length_of_mem him
  have hji : i ≤ ni.idxOf i := by
    by_contra hc
    push Not at hc
    have := hs _ hc
    rw [getD_idxOf ni i him] at this
    omega
  intro k hk
  show (swapAt ni i (ni.idxOf i)).getD k 0 = k
  rw [getD_swapAt ni i _ k (by omega) (by omega) (by omega)]
  unfold sw
  by_cases h1 : k = i
  · subst h1; rw [if_pos rfl, getD_idxOf ni k him]
  · rw [if_neg h1]
    by_cases h2 : k = ni.idxOf i
    · omega
    · rw [if_neg h2]; exact hs k (by omega)

theorem restore_all {α : Type} (D : ℕ) (G : List ℕ → α) (S : List ℕ) (st : Nd α × List ℕ) (h : Keeps D G S st) :
    let r := (List.range D).foldl restoreStep st
    Keeps D G S r ∧ r.2 = List.range D := by
  have key : ∀ n, n ≤ D → let r := (List.range n).foldl restoreStep st
      Keeps D G S r ∧ ∀ k, k < n → r.2.getD k 0 = k := by
    intro n
    induction n with
    | zero => intro _; exact ⟨h, fun k hk => by omega⟩
    | succ n ih =>
      intro hn
      obtain ⟨h1, h2⟩ := ih (by omega)
      rw [List.range_succ]
      simp only [List.foldl_append, List.foldl_cons, List.foldl_nil]
      exact ⟨keeps_step D G S _ h1 n (by omega), sorted_step D _ h1.perm n (by omega) h2⟩
  obtain ⟨h1, h2⟩ := key D le_rfl
  refine ⟨h1, ?_⟩
  have hlen := h1.perm.length_eq
  simp only [List.length_range] at hlen
  apply List.ext_getElem
  · simpa using hlen
  · intro k hk _
    rw [← getD_eq_get _ k hk, h2 k (by omega)]; simp

theorem sort_eq (nb ni : List ℕ) (h : IsArgsort nb ni) :
    nb.insertionSort (· ≤ ·) = ni.map (fun d => nb.getD d 0) := by
  apply List.Perm.eq_of_pairwise (le := (· ≤ ·)) (fun a b _ _ h1 h2 => le_antisymm h1 h2)
  · exact List.pairwise_insertionSort (· ≤ ·) nb
  · exact h.2
  · refine (List.perm_insertionSort _ _).trans ?_
    have e : nb = (List.range nb.length).map (fun d => nb.getD d 0) := by
      apply List.ext_getElem
      · simp
      · intro k h1 h2; simp [h1]
    conv_lhs => rw [e]
    exact (h.1.map _).symm

/-- The final array: entry `idx` (one index per dimension, in the caller's order) is the flat entry of the sample bin
numbers idx+1, and the shape check succeeds. -/
theorem call_eq {α : Type} (nb ni : List ℕ) (h : IsArgsort nb ni) (flat : ℕ → α) :
    ∃ A, call nb ni flat = .ok A ∧ A.shape = nb.map (fun n => n - 2) ∧
      ∀ idx, idx.length = nb.length → A.get idx = flat (xyOf nb ni (idx.map (fun i => i + 1))) := by
  set D := nb.length with hD
  have hlen : ni.length = D := by rw [h.1.length_eq]; simp [hD]
  have hn : ni.Nodup := h.1.nodup_iff.2 List.nodup_range
  have hk : Keeps D (fun v => flat (xyOf nb ni v)) nb (reshape flat (nb.insertionSort (· ≤ ·)), ni) := by
    refine ⟨h.1, ?_, ?_, ?_⟩
    · intro idx hidx
      show flat _ = flat _
      congr 1
      rw [sort_eq nb ni h]
      unfold xyOf
      congr 1
      apply List.ext_getElem
      · simp [hidx, hlen]
      · intro k h1 h2
        simp only [List.length_zip, List.length_map, hidx, hlen] at h1
        have hkD : k < D := by omega
        have hmem : ni[k]'(by omega) ∈ ni := List.getElem_mem _
        have hlt : ni[k]'(by omega) < D := by have := h.1.mem_iff.1 hmem; simpa using this
        have hpos : ni.idxOf (ni[k]'(by omega)) = k := List.Nodup.idxOf_getElem hn k (by omega)
        simp [toDims, hlt, hpos, hidx, hkD]
    · show (nb.insertionSort _).length = D
      simp [hD]
    · show toDims D ni (nb.insertionSort _) = nb
      rw [sort_eq nb ni h]
      unfold toDims
      apply List.ext_getElem
      · simp [hD]
      · intro k h1 h2
        have hkm : k ∈ ni := h.1.mem_iff.2 (by simpa using h2)
        have h3 := List.idxOf_lt_length_of_mem hkm
        simp [h3, h2]
  obtain ⟨hr, hrange⟩ := restore_all D _ nb _ hk
  have hshape : ((List.range D).foldl restoreStep (reshape flat (nb.insertionSort (· ≤ ·)), ni)).1.shape = nb := by
    have := hr.shape
    rw [hrange, toDims_range D _ hr.len] at this
    exact this
  refine ⟨shaped nb ni flat, ?_, ?_, ?_⟩
  · unfold call
    rw [if_neg]
    simp only [shaped, ne_eq, not_not]
    rw [hshape]
  · simp only [shaped]; rw [hshape]
  · intro idx hidx
    simp only [shaped]
    rw [hr.get _ (by simpa using hidx), hrange, toDims_range D _ (by simpa using hidx)]

end Verif.Binned
