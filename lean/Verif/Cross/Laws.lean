/- C237: what the correlation of a region depends on. -/
import Verif.Cross.Props
import Mathlib.Algebra.BigOperators.Ring.Finset
import Mathlib.Tactic.IntervalCases

namespace Verif.Cross
open Verif

/-! ## specification side -/

/-- The pixels that carry the id in the first mask are those that carry id' in the second, moved by (u, v). -/
def Spec.SameShape (H W : ℕ) (mask : ℕ → ℕ → ℤ) (id : ℤ) (H' W' : ℕ) (mask' : ℕ → ℕ → ℤ) (id' : ℤ) (u v : ℕ) : Prop :=
  (∀ p q, p < H → q < W → mask p q = id → p + u < H' ∧ q + v < W' ∧ mask' (p + u) (q + v) = id') ∧
  ∀ p' q', p' < H' → q' < W' → mask' p' q' = id' → ∃ p q, p < H ∧ q < W ∧ mask p q = id ∧ p' = p + u ∧ q' = q + v

/-- The second image is the first one moved by (u, v), on the pixels with that id. -/
def Spec.SameContent (H W : ℕ) (mask : ℕ → ℕ → ℤ) (id : ℤ) (a a' : ℕ → ℕ → ℚ) (u v : ℕ) : Prop :=
  ∀ p q, p < H → q < W → mask p q = id → a' (p + u) (q + v) = a p q

/-! ## lemmas -/

theorem boxOf_perm {S S' : List (ℕ × ℕ)} (h : S.Perm S') : boxOf S = boxOf S' := by
  have mn : ∀ {l l' : List ℕ}, l.Perm l' → l.min? = l'.min? := by
    intro l l' hl
    cases hm : l.min? with
    | none => rw [List.min?_eq_none_iff] at hm; subst hm; rw [← hl.nil_eq]; rfl
    | some x =>
      obtain ⟨h1, h2⟩ := List.min?_eq_some_iff.1 hm
      exact (List.min?_eq_some_iff.2 ⟨hl.mem_iff.1 h1, fun b hb => h2 b (hl.mem_iff.2 hb)⟩).symm
  have mx : ∀ {l l' : List ℕ}, l.Perm l' → l.max? = l'.max? := by
    intro l l' hl
    cases hm : l.max? with
    | none => rw [List.max?_eq_none_iff] at hm; subst hm; rw [← hl.nil_eq]; rfl
    | some x =>
      obtain ⟨h1, h2⟩ := List.max?_eq_some_iff.1 hm
      exact (List.max?_eq_some_iff.2 ⟨hl.mem_iff.1 h1, fun b hb => h2 b (hl.mem_iff.2 hb)⟩).symm
  unfold boxOf
  rw [mn (h.map _), mn (h.map Prod.snd), mx (h.map Prod.fst), mx (h.map Prod.snd)]

theorem sub_perm {S S' : List (ℕ × ℕ)} (h : S.Perm S') (a : Img) : sub S a = sub S' a := by
  funext i j
  unfold sub
  rw [boxOf_perm h]
  simp only [h.mem_iff]

theorem average_perm {S S' : List (ℕ × ℕ)} (h : S.Perm S') (a : Img) : average S a = average S' a := by
  unfold average
  rw [(h.map _).sum_eq, h.length_eq]

theorem region_perm (nrm : Norm) {S S' : List (ℕ × ℕ)} (h : S.Perm S') (a b : Img) :
    correlateRegion nrm S a b = correlateRegion nrm S' a b := by
  funext m1 m2
  unfold correlateRegion maskcorr
  simp only [boxOf_perm h, sub_perm h, average_perm h]

/-- The list of pixels moved by (u, v). -/
def shift (u v : ℕ) (S : List (ℕ × ℕ)) : List (ℕ × ℕ) := S.map (fun p => (p.1 + u, p.2 + v))

theorem boxOf_shift (u v : ℕ) (S : List (ℕ × ℕ)) (hS : S ≠ []) :
    boxOf (shift u v S) = ⟨(boxOf S).r0 + u, (boxOf S).r1 + u, (boxOf S).c0 + v, (boxOf S).c1 + v⟩ := by
  have mn : ∀ (l : List ℕ) (k : ℕ), l ≠ [] → (l.map (· + k)).min?.getD 0 = l.min?.getD 0 + k := by
    intro l k hl
    cases hm : l.min? with
    | none => rw [List.min?_eq_none_iff] at hm; exact absurd hm hl
    | some x =>
      obtain ⟨h1, h2⟩ := List.min?_eq_some_iff.1 hm
      rw [show (l.map (· + k)).min? = some (x + k) from List.min?_eq_some_iff.2 ⟨List.mem_map.2 ⟨x, h1, rfl⟩, by
        intro b hb; obtain ⟨y, hy, rfl⟩ := List.mem_map.1 hb; have := h2 y hy; omega⟩]
      rfl
  have mx : ∀ (l : List ℕ) (k : ℕ), l ≠ [] → (l.map (· + k)).max?.getD 0 = l.max?.getD 0 + k := by
    intro l k hl
    cases hm : l.max? with
    | none => rw [List.max?_eq_none_iff] at hm; exact absurd hm hl
    | some x =>
      obtain ⟨h1, h2⟩ := List.max?_eq_some_iff.1 hm
      rw [show (l.map (· + k)).max? = some (x + k) from List.max?_eq_some_iff.2 ⟨List.mem_map.2 ⟨x, h1, rfl⟩, by
        intro b hb; obtain ⟨y, hy, rfl⟩ := List.mem_map.1 hb; have := h2 y hy; omega⟩]
      rfl
  have e1 : (shift u v S).map Prod.fst = (S.map Prod.fst).map (· + u) := by simp [shift]
  have e2 : (shift u v S).map Prod.snd = (S.map Prod.snd).map (· + v) := by simp [shift]
  unfold boxOf
  rw [e1, e2, mn _ _ (by simpa using hS), mn _ _ (by simpa using hS), mx _ _ (by simpa using hS), mx _ _ (by simpa using hS)]

theorem sub_shift (u v : ℕ) (S : List (ℕ × ℕ)) (hS : S ≠ []) (a a' : Img) (h : ∀ p ∈ S, a' (p.1 + u) (p.2 + v) = a p.1 p.2) :
    sub (shift u v S) a' = sub S a := by
  funext i j
  unfold sub
  rw [boxOf_shift u v S hS]
  simp only
  have hm : (i + ((boxOf S).r0 + u), j + ((boxOf S).c0 + v)) ∈ shift u v S ↔ (i + (boxOf S).r0, j + (boxOf S).c0) ∈ S := by
    unfold shift
    rw [List.mem_map]
    constructor
    · rintro ⟨p, hp, e⟩
      rw [Prod.mk.injEq] at e
      have : p = (i + (boxOf S).r0, j + (boxOf S).c0) := Prod.ext (by omega) (by omega)
      rw [← this]; exact hp
    · intro hp; exact ⟨_, hp, by rw [Prod.mk.injEq]; omega⟩
  by_cases hp : (i + (boxOf S).r0, j + (boxOf S).c0) ∈ S
  · rw [if_pos (hm.2 hp), if_pos hp, ← h _ hp]
    congr 1 <;> ring
  · rw [if_neg (fun hh => hp (hm.1 hh)), if_neg hp]

theorem region_shift (nrm : Norm) (u v : ℕ) (S : List (ℕ × ℕ)) (hS : S ≠ []) (a b a' b' : Img)
    (ha : ∀ p ∈ S, a' (p.1 + u) (p.2 + v) = a p.1 p.2) (hb : ∀ p ∈ S, b' (p.1 + u) (p.2 + v) = b p.1 p.2) :
    correlateRegion nrm (shift u v S) a' b' = correlateRegion nrm S a b := by
  have hh : (boxOf (shift u v S)).h = (boxOf S).h := by rw [boxOf_shift u v S hS]; unfold Box.h; simp only; omega
  have hw : (boxOf (shift u v S)).w = (boxOf S).w := by rw [boxOf_shift u v S hS]; unfold Box.w; simp only; omega
  have av : ∀ (x x' : Img), (∀ p ∈ S, x' (p.1 + u) (p.2 + v) = x p.1 p.2) → average (shift u v S) x' = average S x := by
    intro x x' hx
    unfold average shift
    rw [List.map_map, List.length_map]
    congr 2
    exact List.map_congr_left hx
  funext m1 m2
  unfold correlateRegion maskcorr
  simp only [hh, hw, sub_shift u v S hS (fun _ _ => 1) (fun _ _ => 1) (fun _ _ => rfl), sub_shift u v S hS a a' ha,
    sub_shift u v S hS b b' hb, av a a' ha, av b b' hb]

theorem nodup_region (H W : ℕ) (mask : ℕ → ℕ → ℤ) (id : ℤ) : (region H W mask id).Nodup := (nodup_positions H W).filter _

theorem mem_region (H W : ℕ) (mask : ℕ → ℕ → ℤ) (id : ℤ) (p : ℕ × ℕ) :
    p ∈ region H W mask id ↔ p.1 < H ∧ p.2 < W ∧ mask p.1 p.2 = id := by
  unfold region
  rw [List.mem_filter, mem_positions, decide_eq_true_eq, and_assoc]

/-- Rows and columns exchanged. -/
def swp (S : List (ℕ × ℕ)) : List (ℕ × ℕ) := S.map Prod.swap

theorem boxOf_swp (S : List (ℕ × ℕ)) : boxOf (swp S) = ⟨(boxOf S).c0, (boxOf S).c1, (boxOf S).r0, (boxOf S).r1⟩ := by
  unfold boxOf swp
  simp only [List.map_map]
  rfl

theorem sub_swp (S : List (ℕ × ℕ)) (a : Img) (i j : ℕ) : sub (swp S) (fun x y => a y x) i j = sub S a j i := by
  unfold sub
  rw [boxOf_swp]
  simp only
  have : (i + (boxOf S).c0, j + (boxOf S).r0) ∈ swp S ↔ (j + (boxOf S).r0, i + (boxOf S).c0) ∈ S := by
    unfold swp
    rw [List.mem_map]
    constructor
    · rintro ⟨⟨p, q⟩, hp, e⟩
      rw [Prod.swap_prod_mk, Prod.mk.injEq] at e
      rw [← e.1, ← e.2]; exact hp
    · intro hp; exact ⟨_, hp, rfl⟩
  by_cases hp : (j + (boxOf S).r0, i + (boxOf S).c0) ∈ S
  · rw [if_pos (this.2 hp), if_pos hp]
  · rw [if_neg (fun hh => hp (this.1 hh)), if_neg hp]

theorem positions_swap (h w : ℕ) : (positions w h).Perm ((positions h w).map Prod.swap) := by
  rw [List.perm_ext_iff_of_nodup (nodup_positions _ _) ((nodup_positions _ _).map (Prod.swap_injective))]
  intro p
  rw [mem_positions, List.mem_map]
  constructor
  · intro hp; exact ⟨p.swap, by rw [mem_positions]; exact ⟨hp.2, hp.1⟩, by simp⟩
  · rintro ⟨q, hq, rfl⟩; rw [mem_positions] at hq; exact ⟨hq.2, hq.1⟩

theorem crossCorr_swap (h w : ℕ) (x y x' y' : Img) (hx : ∀ i j, x' i j = x j i) (hy : ∀ i j, y' i j = y j i) (m1 m2 : ℕ) :
    crossCorr w h x' y' m2 m1 = crossCorr h w x y m1 m2 := by
  unfold crossCorr convFull
  rw [((positions_swap h w).map _).sum_eq, List.map_map]
  congr 1
  apply List.map_congr_left
  intro p _
  simp only [Function.comp, Prod.fst_swap, Prod.snd_swap, hx, rev, hy]
  congr 1
  rw [eq_iff_iff]; tauto

/-! ## C237 -/

/-- C237: the correlation image of a region depends on nothing but the shape of the region and the two images inside it:
neither on the place of the region in the frame, the size of the frame, the number it carries, the other regions, nor on
pixels outside it - whatever the normalisation. -/
theorem C237_region_only (nrm : Norm) (H W : ℕ) (mask : ℕ → ℕ → ℤ) (a b : Img) (H' W' : ℕ) (mask' : ℕ → ℕ → ℤ) (a' b' : Img)
    (i i' : ℕ) (id id' : ℤ) (hi : (ids H W mask)[i]? = some id) (hi' : (ids H' W' mask')[i']? = some id') (u v : ℕ)
    (hs : Spec.SameShape H W mask id H' W' mask' id' u v) (ha : Spec.SameContent H W mask id a a' u v)
    (hb : Spec.SameContent H W mask id b b' u v) :
    ∃ c, (correlate nrm H W mask a b)[i]? = some c ∧ (correlate nrm H' W' mask' a' b')[i']? = some c := by
  have hp : (region H' W' mask' id').Perm (shift u v (region H W mask id)) := by
    rw [List.perm_ext_iff_of_nodup (nodup_region _ _ _ _)]
    · intro p
      rw [mem_region]
      unfold shift
      rw [List.mem_map]
      constructor
      · rintro ⟨h1, h2, h3⟩
        obtain ⟨x, y, g1, g2, g3, g4, g5⟩ := hs.2 p.1 p.2 h1 h2 h3
        exact ⟨(x, y), (mem_region ..).2 ⟨g1, g2, g3⟩, Prod.ext g4.symm g5.symm⟩
      · rintro ⟨q, hq, rfl⟩
        obtain ⟨g1, g2, g3⟩ := (mem_region ..).1 hq
        exact hs.1 q.1 q.2 g1 g2 g3
    · apply (nodup_region H W mask id).map
      intro x y hxy
      simp only [Prod.mk.injEq] at hxy
      exact Prod.ext (by omega) (by omega)
  have hne : region H W mask id ≠ [] := by
    have hmem : id ∈ ids H W mask := List.mem_of_getElem? hi
    obtain ⟨-, h2, -⟩ := C54_displacement_sums H W mask a b
    obtain ⟨-, p, q, h3, h4, h5⟩ := (h2 id).1 hmem
    exact List.ne_nil_of_mem ((mem_region H W mask id (p, q)).2 ⟨h3, h4, h5⟩)
  refine ⟨correlateRegion nrm (region H W mask id) a b, ?_, ?_⟩
  · unfold correlate; rw [List.getElem?_map, hi]; rfl
  · unfold correlate; rw [List.getElem?_map, hi', Option.map_some, region_perm nrm hp, region_shift nrm u v _ hne a b a' b']
    · intro p hp'; obtain ⟨g1, g2, g3⟩ := (mem_region ..).1 hp'; exact ha p.1 p.2 g1 g2 g3
    · intro p hp'; obtain ⟨g1, g2, g3⟩ := (mem_region ..).1 hp'; exact hb p.1 p.2 g1 g2 g3

/-- C237, superposition: without normalisation the correlation is linear in the first image and in the second. -/
theorem C237_bilinear (H W : ℕ) (mask : ℕ → ℕ → ℤ) (a a' b : Img) (k k' : ℚ) (i : ℕ) (id : ℤ)
    (hi : (ids H W mask)[i]? = some id) :
    ∃ c c' d e e' f, (correlate ⟨false, false⟩ H W mask a b)[i]? = some c ∧
      (correlate ⟨false, false⟩ H W mask a' b)[i]? = some c' ∧
      (correlate ⟨false, false⟩ H W mask (fun x y => k * a x y + k' * a' x y) b)[i]? = some d ∧
      (correlate ⟨false, false⟩ H W mask b a)[i]? = some e ∧ (correlate ⟨false, false⟩ H W mask b a')[i]? = some e' ∧
      (correlate ⟨false, false⟩ H W mask b (fun x y => k * a x y + k' * a' x y))[i]? = some f ∧
      ∀ m1 m2, ∃ x x' y y', c m1 m2 = some x ∧ c' m1 m2 = some x' ∧ d m1 m2 = some (k * x + k' * x') ∧
        e m1 m2 = some y ∧ e' m1 m2 = some y' ∧ f m1 m2 = some (k * y + k' * y') := by
  obtain ⟨c, h1, g1⟩ := (C54_displacement_sums H W mask a b).2.2.2 i id hi
  obtain ⟨c', h2, g2⟩ := (C54_displacement_sums H W mask a' b).2.2.2 i id hi
  obtain ⟨d, h3, g3⟩ := (C54_displacement_sums H W mask (fun x y => k * a x y + k' * a' x y) b).2.2.2 i id hi
  obtain ⟨e, h4, g4⟩ := (C54_displacement_sums H W mask b a).2.2.2 i id hi
  obtain ⟨e', h5, g5⟩ := (C54_displacement_sums H W mask b a').2.2.2 i id hi
  obtain ⟨f, h6, g6⟩ := (C54_displacement_sums H W mask b (fun x y => k * a x y + k' * a' x y)).2.2.2 i id hi
  refine ⟨c, c', d, e, e', f, h1, h2, h3, h4, h5, h6, fun m1 m2 => ⟨_, _, _, _, g1 m1 m2, g2 m1 m2, ?_, g4 m1 m2, g5 m1 m2, ?_⟩⟩
  · rw [g3 m1 m2]
    unfold Spec.pairSum
    rw [Finset.mul_sum, Finset.mul_sum, ← Finset.sum_add_distrib]
    congr 1
    apply Finset.sum_congr rfl
    intro pp _; ring
  · rw [g6 m1 m2]
    unfold Spec.pairSum
    rw [Finset.mul_sum, Finset.mul_sum, ← Finset.sum_add_distrib]
    congr 1
    apply Finset.sum_congr rfl
    intro pp _; ring

/-- C237, rows and columns: exchanging them in the mask and in both images exchanges them in the correlation images,
whatever the normalisation. -/
theorem C237_transposed (nrm : Norm) (H W : ℕ) (mask : ℕ → ℕ → ℤ) (a b : Img) (i i' : ℕ) (id : ℤ)
    (hi : (ids H W mask)[i]? = some id) (hi' : (ids W H (fun q p => mask p q))[i']? = some id) :
    ∃ c d, (correlate nrm H W mask a b)[i]? = some c ∧
      (correlate nrm W H (fun q p => mask p q) (fun q p => a p q) (fun q p => b p q))[i']? = some d ∧
      ∀ m1 m2, d m2 m1 = c m1 m2 := by
  have hp : (region W H (fun q p => mask p q) id).Perm (swp (region H W mask id)) := by
    unfold swp
    rw [List.perm_ext_iff_of_nodup (nodup_region _ _ _ _) ((nodup_region _ _ _ _).map Prod.swap_injective)]
    intro p
    rw [mem_region]
    rw [List.mem_map]
    constructor
    · rintro ⟨h1, h2, h3⟩
      exact ⟨p.swap, (mem_region ..).2 ⟨h2, h1, h3⟩, by simp⟩
    · rintro ⟨q, hq, rfl⟩
      obtain ⟨g1, g2, g3⟩ := (mem_region ..).1 hq
      exact ⟨g2, g1, g3⟩
  refine ⟨correlateRegion nrm (region H W mask id) a b,
    correlateRegion nrm (swp (region H W mask id)) (fun q p => a p q) (fun q p => b p q), ?_, ?_, ?_⟩
  · unfold correlate; rw [List.getElem?_map, hi]; rfl
  · unfold correlate; rw [List.getElem?_map, hi', Option.map_some, region_perm nrm hp]
  · intro m1 m2
    generalize region H W mask id = S
    have hh : (boxOf (swp S)).h = (boxOf S).w := by rw [boxOf_swp]; rfl
    have hw : (boxOf (swp S)).w = (boxOf S).h := by rw [boxOf_swp]; rfl
    have av : ∀ x : Img, average (swp S) (fun q p => x p q) = average S x := by
      intro x
      unfold average swp
      rw [List.map_map, List.length_map]
      rfl
    have s1 := fun i j => sub_swp S (fun _ _ => (1 : ℚ)) i j
    have sa := fun i j => sub_swp S a i j
    have sb := fun i j => sub_swp S b i j
    unfold correlateRegion maskcorr
    simp only [hh, hw, av]
    rw [crossCorr_swap (boxOf S).h (boxOf S).w (sub S a) (sub S b) _ _ sa sb,
      crossCorr_swap (boxOf S).h (boxOf S).w (sub S (fun _ _ => 1)) (sub S (fun _ _ => 1)) _ _ s1 s1,
      crossCorr_swap (boxOf S).h (boxOf S).w (fun i j => sub S a i j * sub S (fun _ _ => 1) i j) (sub S (fun _ _ => 1)) _ _
        (fun i j => by rw [sa, s1]) s1,
      crossCorr_swap (boxOf S).h (boxOf S).w (sub S (fun _ _ => 1)) (fun i j => sub S b i j * sub S (fun _ _ => 1) i j) _ _
        s1 (fun i j => by rw [sb, s1])]

/-- An L-shaped region moved by (1, 2) into a larger frame, with another number and another region beside it. -/
example : Spec.SameShape 2 2 (fun p q => if p = 0 ∧ q = 1 then 0 else 3) 3 4 5
    (fun p q => if (p = 1 ∧ q = 2) ∨ (p = 2 ∧ q = 2) ∨ (p = 2 ∧ q = 3) then 7 else if p = 0 then 2 else 0) 7 1 2 ∧
    (ids 2 2 (fun p q => if p = 0 ∧ q = 1 then 0 else 3))[0]? = some 3 ∧
    (ids 4 5 (fun p q => if (p = 1 ∧ q = 2) ∨ (p = 2 ∧ q = 2) ∨ (p = 2 ∧ q = 3) then 7 else if p = 0 then 2 else 0))[1]? =
      some 7 := by
  refine ⟨⟨?_, ?_⟩, by decide, by decide⟩
  · intro p q hp hq
    interval_cases p <;> interval_cases q <;> simp
  · intro p q hp hq
    interval_cases p <;> interval_cases q <;> simp

end Verif.Cross
