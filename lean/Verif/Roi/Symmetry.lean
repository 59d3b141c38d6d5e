/- Property C206: laws of circular averages. -/
import Verif.Roi.StatProps
import Mathlib.Data.List.MinMax
import Mathlib.Data.Fintype.Basic
import Mathlib.Tactic.Linarith
import Mathlib.Tactic.FieldSimp

namespace Verif.Roi
open Verif

/-! ### rearranging the pixels -/

theorem minmax_perm {l l' : List ℚ} (h : l.Perm l') : l.min? = l'.min? ∧ l.max? = l'.max? := by
  constructor
  · rcases hm : l.min? with _ | a
    · rw [List.min?_eq_none_iff] at hm; subst hm
      rw [List.nil_perm.1 h]; rfl
    · symm
      rw [List.min?_eq_some_iff] at hm ⊢
      exact ⟨h.mem_iff.1 hm.1, fun b hb => hm.2 b (h.mem_iff.2 hb)⟩
  · rcases hm : l.max? with _ | a
    · rw [List.max?_eq_none_iff] at hm; subst hm
      rw [List.nil_perm.1 h]; rfl
    · symm
      rw [List.max?_eq_some_iff] at hm ⊢
      exact ⟨h.mem_iff.1 hm.1, fun b hb => hm.2 b (h.mem_iff.2 hb)⟩

theorem histogram_perm {s s' : List (ℚ × ℚ)} (h : s.Perm s') (e : List ℚ) : Np.histogram s e = Np.histogram s' e := by
  have hc : Np.cumAt s e = Np.cumAt s' e := by
    have hl : ∀ x, Np.cumLeft s x = Np.cumLeft s' x := fun x => ((h.filter _).map _).sum_eq
    have hr : ∀ x, Np.cumRight s x = Np.cumRight s' x := fun x => ((h.filter _).map _).sum_eq
    induction e with
    | nil => rfl
    | cons a t ih => cases t with
      | nil => simp only [Np.cumAt, hr]
      | cons b t => simp only [Np.cumAt, hl] at ih ⊢; rw [ih]
  unfold Np.histogram
  rw [hc]

theorem bin1D_perm {p p' : List (ℚ × ℚ)} (h : p.Perm p') (nx : Option ℤ) (mn mx : Option ℚ) :
    Utils.bin1D (p.map Prod.fst) (p.map Prod.snd) nx mn mx = Utils.bin1D (p'.map Prod.fst) (p'.map Prod.snd) nx mn mx := by
  have hz : ∀ q : List (ℚ × ℚ), (q.map Prod.fst).zip (q.map Prod.snd) = q := by
    intro q; induction q <;> simp_all
  unfold Utils.bin1D
  rw [(minmax_perm (h.map Prod.fst)).1, (minmax_perm (h.map Prod.fst)).2, hz, hz]
  simp only [List.length_map, ne_eq, not_true_eq_false, if_false, List.map_map, histogram_perm h,
    histogram_perm (h.map ((fun v => (v, (1 : ℚ))) ∘ Prod.fst))]

theorem circularAverage_perm {radial img radial' img' : List ℚ} {mask mask' : Option (List ℤ)}
    (h : (Spec.usedPixels mask radial img).Perm (Spec.usedPixels mask' radial' img')) (threshold : ℚ) (n : ℤ) (lo hi : Option ℚ) :
    circularAverage radial img mask threshold n lo hi = circularAverage radial' img' mask' threshold n lo hi := by
  unfold circularAverage
  rw [masked_used, masked_used]
  simp only [bin1D_perm h]

/-- All pixels of an H × W image in row-major order. -/
def pix (H W : ℕ) : List (Fin H × Fin W) := (List.finRange H).flatMap (fun r => (List.finRange W).map (fun c => (r, c)))

theorem ravel_pix {H W : ℕ} {α : Type} (f : Fin H → Fin W → α) : Utils.ravel f = (pix H W).map (fun p => f p.1 p.2) := by
  unfold Utils.ravel pix
  rw [List.map_flatMap]
  simp [Function.comp_def]

theorem pix_nodup (H W : ℕ) : (pix H W).Nodup := by
  have : pix H W = (List.finRange H).product (List.finRange W) := rfl
  rw [this]
  exact (List.nodup_finRange H).product (List.nodup_finRange W)

theorem mem_pix {H W : ℕ} (p : Fin H × Fin W) : p ∈ pix H W := by
  unfold pix
  simp only [List.mem_flatMap, List.mem_map]
  exact ⟨p.1, List.mem_finRange _, p.2, List.mem_finRange _, rfl⟩

theorem pix_perm {H W : ℕ} {H' W' : ℕ} (σ : Fin H × Fin W ≃ Fin H' × Fin W') : ((pix H W).map σ).Perm (pix H' W') := by
  rw [List.perm_ext_iff_of_nodup ((pix_nodup H W).map σ.injective) (pix_nodup H' W')]
  intro p
  simp only [mem_pix, iff_true, List.mem_map]
  exact ⟨σ.symm p, trivial, by simp⟩

theorem used_ravel {H W : ℕ} (m : Option (Fin H → Fin W → ℤ)) (rad img : Fin H → Fin W → ℚ) :
    Spec.usedPixels (m.map Utils.ravel) (Utils.ravel rad) (Utils.ravel img) =
      ((pix H W).filter (fun p => decide (∀ f ∈ m, f p.1 p.2 = 1))).map (fun p => (rad p.1 p.2, img p.1 p.2)) := by
  rw [← masked_used]
  unfold masked
  rcases m with _ | m
  · simp [ravel_pix, List.zip_map']
  · simp only [Option.map_some, ravel_pix, List.zip_map', List.filter_map, List.map_map, Option.mem_def, Option.some.injEq, forall_eq']
    rfl

/-! ## C206 -/

/-- C206: pixels may be rearranged, as long as every intensity (and mask entry) stays at its distance from the centre. -/
theorem C206_rearranged {H W H' W' : ℕ} (rad img : Fin H → Fin W → ℚ) (rad' img' : Fin H' → Fin W' → ℚ)
    (mask : Option ((Fin H → Fin W → ℤ) × (Fin H' → Fin W' → ℤ)))
    (σ : Fin H × Fin W ≃ Fin H' × Fin W')
    (hr : ∀ p, rad' (σ p).1 (σ p).2 = rad p.1 p.2) (hv : ∀ p, img' (σ p).1 (σ p).2 = img p.1 p.2)
    (hm : ∀ m ∈ mask, ∀ p, m.2 (σ p).1 (σ p).2 = m.1 p.1 p.2) (threshold : ℚ) (n : ℤ) (lo hi : Option ℚ) :
    circularAverage (Utils.ravel rad') (Utils.ravel img') (mask.map (fun m => Utils.ravel m.2)) threshold n lo hi =
      circularAverage (Utils.ravel rad) (Utils.ravel img) (mask.map (fun m => Utils.ravel m.1)) threshold n lo hi := by
  apply circularAverage_perm
  have e1 := used_ravel (mask.map Prod.snd) rad' img'
  have e2 := used_ravel (mask.map Prod.fst) rad img
  rw [Option.map_map] at e1 e2
  change Spec.usedPixels (mask.map (fun m => Utils.ravel m.2)) _ _ = _ at e1
  change Spec.usedPixels (mask.map (fun m => Utils.ravel m.1)) _ _ = _ at e2
  rw [e1, e2]
  refine (((pix_perm σ).symm.filter _).map _).trans ?_
  rw [List.filter_map, List.map_map]
  have ef : (pix H W).filter ((fun p : Fin H' × Fin W' => decide (∀ f ∈ mask.map Prod.snd, f p.1 p.2 = 1)) ∘ σ) =
      (pix H W).filter (fun p => decide (∀ f ∈ mask.map Prod.fst, f p.1 p.2 = 1)) := by
    apply List.filter_congr
    intro p _
    rcases mask with _ | m
    · simp
    · simp [hm m rfl p]
  rw [ef]
  have em : (fun p : Fin H' × Fin W' => (rad' p.1 p.2, img' p.1 p.2)) ∘ σ = fun p => (rad p.1 p.2, img p.1 p.2) := by
    funext p
    simp [hr, hv]
  rw [em]

/-- C206: turning the image upside down about its middle row does not change its circular average.  `f` computes the radius
from the distances to the centre along the two axes. -/
theorem C206_flip {H W : ℕ} (f : ℚ → ℚ → ℚ) (c1 : ℚ) (img : Fin H → Fin W → ℚ) (mask : Option (Fin H → Fin W → ℤ)) (threshold : ℚ) (n : ℤ) (lo hi : Option ℚ) :
    let rad : Fin H → Fin W → ℚ := fun r c => f |(r : ℚ) - ((H : ℚ) - 1) / 2| |(c : ℚ) - c1|
    circularAverage (Utils.ravel rad) (Utils.ravel (fun r c => img r.rev c)) (mask.map (fun m => Utils.ravel (fun r c => m r.rev c))) threshold n lo hi =
      circularAverage (Utils.ravel rad) (Utils.ravel img) (mask.map Utils.ravel) threshold n lo hi := by
  intro rad
  have := C206_rearranged rad img rad (fun r c => img r.rev c) (mask.map (fun m => (m, fun r c => m r.rev c)))
    (Equiv.prodCongr Fin.revPerm (Equiv.refl _)) ?_ ?_ ?_ threshold n lo hi
  · simpa [Function.comp_def] using this
  · rintro ⟨r, c⟩
    simp only [Equiv.prodCongr_apply, Prod.map_apply, Fin.revPerm_apply, Equiv.refl_apply, rad]
    congr 1
    rw [Fin.val_rev, ← abs_neg]
    congr 1
    have := r.2
    push_cast [Nat.cast_sub (show (r : ℕ) + 1 ≤ H by omega)]
    ring
  · rintro ⟨r, c⟩; simp
  · intro m hm
    obtain ⟨m', _, rfl⟩ := Option.mem_map.1 hm
    rintro ⟨r, c⟩; simp

/-- C206: nor does a quarter turn of a square image about its middle. -/
theorem C206_quarter_turn {H : ℕ} (f : ℚ → ℚ → ℚ) (hf : ∀ a b, f a b = f b a) (img : Fin H → Fin H → ℚ) (mask : Option (Fin H → Fin H → ℤ)) (threshold : ℚ) (n : ℤ) (lo hi : Option ℚ) :
    let rad : Fin H → Fin H → ℚ := fun r c => f |(r : ℚ) - ((H : ℚ) - 1) / 2| |(c : ℚ) - ((H : ℚ) - 1) / 2|
    circularAverage (Utils.ravel rad) (Utils.ravel (fun r c => img c r.rev)) (mask.map (fun m => Utils.ravel (fun r c => m c r.rev))) threshold n lo hi =
      circularAverage (Utils.ravel rad) (Utils.ravel img) (mask.map Utils.ravel) threshold n lo hi := by
  intro rad
  have := C206_rearranged rad img rad (fun r c => img c r.rev) (mask.map (fun m => (m, fun r c => m c r.rev)))
    ((Equiv.prodComm _ _).trans (Equiv.prodCongr Fin.revPerm (Equiv.refl _))) ?_ ?_ ?_ threshold n lo hi
  · simpa [Function.comp_def] using this
  · rintro ⟨r, c⟩
    simp only [Equiv.trans_apply, Equiv.prodComm_apply, Prod.swap, Equiv.prodCongr_apply, Prod.map_apply, Fin.revPerm_apply, Equiv.refl_apply, rad]
    rw [hf]
    congr 1
    rw [Fin.val_rev, ← abs_neg]
    congr 1
    have := c.2
    push_cast [Nat.cast_sub (show (c : ℕ) + 1 ≤ H by omega)]
    ring
  · rintro ⟨r, c⟩; simp
  · intro m hm
    obtain ⟨m', _, rfl⟩ := Option.mem_map.1 hm
    rintro ⟨r, c⟩; simp

theorem used_linear (mask : Option (List ℤ)) (radial i1 i2 : List ℚ) (h1 : i1.length = radial.length) (h2 : i2.length = radial.length) (a b : ℚ) (lo w : ℚ) (n k : ℕ) :
    let px := fun i => Spec.usedPixels mask radial i
    (Spec.binValues (px i1) lo w n k).length = (Spec.binValues (px (List.zipWith (fun x y => a * x + b * y) i1 i2)) lo w n k).length ∧
    (Spec.binValues (px (List.zipWith (fun x y => a * x + b * y) i1 i2)) lo w n k).sum =
      a * (Spec.binValues (px i1) lo w n k).sum + b * (Spec.binValues (px i2) lo w n k).sum := by
  intro px
  have hl : ∀ i : List ℚ, i.length = radial.length → ∀ k, Spec.binValues (px i) lo w n k =
      (((List.range radial.length).filter (fun k => match mask with
        | none => true
        | some m => decide (m[k]? = some 1))).filter (fun j => decide (Spec.inBin lo w n k (radial.getD j 0)))).map (fun j => i.getD j 0) := by
    intro i hi k
    simp only [px, Spec.binValues, Spec.usedPixels, hi, min_self, List.filter_map, List.map_map]
    rfl
  rw [hl i1 h1, hl _ (by simp [h1, h2]), hl i2 h2]
  refine ⟨by simp, ?_⟩
  have : ∀ L : List ℕ, (∀ j ∈ L, j < radial.length) → (L.map (fun j => (List.zipWith (fun x y => a * x + b * y) i1 i2).getD j 0)).sum =
      a * (L.map (fun j => i1.getD j 0)).sum + b * (L.map (fun j => i2.getD j 0)).sum := by
    intro L
    induction L with
    | nil => simp
    | cons j L ih =>
      intro hL
      simp only [List.map_cons, List.sum_cons]
      rw [ih (fun x hx => hL x (List.mem_cons_of_mem _ hx))]
      have hj := hL j (List.mem_cons_self ..)
      have g1 : i1[j]? = some i1[j] := List.getElem?_eq_getElem (by omega)
      have g2 : i2[j]? = some i2[j] := List.getElem?_eq_getElem (by omega)
      simp only [List.getD_eq_getElem?_getD, List.getElem?_zipWith, g1, g2, Option.getD_some]
      ring
  apply this
  intro j hj
  simpa using List.mem_of_mem_filter (List.mem_of_mem_filter hj)

/-- C206: circular averages are linear in the image. -/
theorem C206_linear (radial i1 i2 : List ℚ) (h1 : i1.length = radial.length) (h2 : i2.length = radial.length) (mask : Option (List ℤ)) (threshold : ℚ) (ht : 0 ≤ threshold)
    (n : ℕ) (hn : 1 ≤ n) (lo hi : ℚ) (hlo : lo ≤ hi) (a b : ℚ) :
    ∃ centers a1 a2, circularAverage radial i1 mask threshold n (some lo) (some hi) = .ok (centers, a1) ∧
      circularAverage radial i2 mask threshold n (some lo) (some hi) = .ok (centers, a2) ∧
      circularAverage radial (List.zipWith (fun x y => a * x + b * y) i1 i2) mask threshold n (some lo) (some hi) =
        .ok (centers, List.zipWith (fun x y => a * x + b * y) a1 a2) := by
  have e1 := (C34_average radial i1 mask threshold ht n hn lo hi hlo).1
  have e2 := (C34_average radial i2 mask threshold ht n hn lo hi hlo).1
  have e3 := (C34_average radial (List.zipWith (fun x y => a * x + b * y) i1 i2) mask threshold ht n hn lo hi hlo).1
  have u := fun k => used_linear mask radial i1 i2 h1 h2 a b lo ((hi - lo) / n) n k
  have v : ∀ k, (Spec.binValues (Spec.usedPixels mask radial i2) lo ((hi - lo) / n) n k).length =
      (Spec.binValues (Spec.usedPixels mask radial i1) lo ((hi - lo) / n) n k).length := by
    intro k
    have a' := (used_linear mask radial i2 i1 h2 h1 0 0 lo ((hi - lo) / n) n k).1
    have b' := (used_linear mask radial i1 i2 h1 h2 0 0 lo ((hi - lo) / n) n k).1
    simp only [zero_mul, add_zero] at a' b'
    rw [a', b']
    congr 3
    apply List.ext_getElem <;> simp [h1, h2]
  simp only [← (u _).1] at e3
  simp only [v] at e2
  refine ⟨_, _, _, e1, e2, ?_⟩
  rw [e3]
  congr 2
  rw [List.zipWith_map, List.zipWith_self]
  apply List.map_congr_left
  intro k _
  rw [(u k).2]
  ring

theorem mean_between (l : List ℚ) (hne : l ≠ []) (A B : ℚ) (h : ∀ v ∈ l, A ≤ v ∧ v ≤ B) : A ≤ l.sum / l.length ∧ l.sum / l.length ≤ B := by
  have hp : (0 : ℚ) < l.length := by
    have := List.length_pos_iff.2 hne
    exact_mod_cast this
  have key : ∀ l : List ℚ, (∀ v ∈ l, A ≤ v ∧ v ≤ B) → A * l.length ≤ l.sum ∧ l.sum ≤ B * l.length := by
    intro l
    induction l with
    | nil => simp
    | cons x t ih =>
      intro h
      have h1 := ih (fun v hv => h v (List.mem_cons_of_mem _ hv))
      have h2 := h x (List.mem_cons_self ..)
      simp only [List.sum_cons, List.length_cons]
      push_cast
      constructor <;> linarith
  rw [le_div_iff₀ hp, div_le_iff₀ hp]
  exact key l h

/-- C206: the average reported for a bin lies between any bounds of the used pixels in that bin. -/
theorem C206_bounds (radial img : List ℚ) (mask : Option (List ℤ)) (threshold : ℚ) (ht : 0 ≤ threshold) (n : ℕ) (hn : 1 ≤ n) (lo hi : ℚ) (hlo : lo ≤ hi) :
    ∃ bins : List ℕ, ∃ avg : ℕ → ℚ, bins.Pairwise (· < ·) ∧ (∀ k ∈ bins, k < n) ∧
      circularAverage radial img mask threshold n (some lo) (some hi) =
        .ok (bins.map (fun (k : ℕ) => lo + (k + 1 / 2) * ((hi - lo) / n)), bins.map avg) ∧
      ∀ k ∈ bins, ∀ A B, (∀ p ∈ Spec.usedPixels mask radial img, Spec.inBin lo ((hi - lo) / n) n k p.1 → A ≤ p.2 ∧ p.2 ≤ B) → A ≤ avg k ∧ avg k ≤ B := by
  obtain ⟨e, hne, _⟩ := C34_average radial img mask threshold ht n hn lo hi hlo
  refine ⟨_, _, ?_, ?_, e, ?_⟩
  · exact List.Pairwise.filter _ List.pairwise_lt_range
  · intro k hk; simpa using List.mem_of_mem_filter hk
  · intro k hk A B h
    apply mean_between _ (hne k hk)
    intro v hv
    unfold Spec.binValues at hv
    obtain ⟨p, hp, rfl⟩ := List.mem_map.1 hv
    have := List.mem_filter.1 hp
    exact h p this.1 (by simpa using this.2)

/-- C206: the average of an image that rises with the distance from the centre rises. -/
theorem C206_monotone (radial img : List ℚ) (mask : Option (List ℤ)) (threshold : ℚ) (ht : 0 ≤ threshold) (n : ℕ) (hn : 1 ≤ n) (lo hi : ℚ) (hlo : lo ≤ hi)
    (f : ℚ → ℚ) (hf : Monotone f) (himg : ∀ p ∈ Spec.usedPixels mask radial img, p.2 = f p.1) :
    ∃ centers avg, circularAverage radial img mask threshold n (some lo) (some hi) = .ok (centers, avg) ∧ avg.Pairwise (· ≤ ·) := by
  obtain ⟨bins, avg, hp, hb, e, hbd⟩ := C206_bounds radial img mask threshold ht n hn lo hi hlo
  refine ⟨_, _, e, ?_⟩
  rw [List.pairwise_map]
  refine hp.imp_of_mem ?_
  intro k k' hk hk' hlt
  have hw : 0 ≤ (hi - lo) / n := div_nonneg (by linarith) (by positivity)
  have h1 : avg k ≤ f (lo + (k + 1 : ℕ) * ((hi - lo) / n)) := by
    apply (hbd k hk (min (f (lo + k * ((hi - lo) / n))) (f (lo + (k + 1 : ℕ) * ((hi - lo) / n)))) _ ?_).2
    intro p hp' hin
    rw [himg p hp']
    refine ⟨min_le_of_left_le (hf hin.1), hf ?_⟩
    rcases hin.2 with h | h
    · exact h.le
    · exact h.2.le
  have h2 : f (lo + k' * ((hi - lo) / n)) ≤ avg k' := by
    apply (hbd k' hk' _ (f (lo + (k' + 1 : ℕ) * ((hi - lo) / n))) ?_).1
    intro p hp' hin
    rw [himg p hp']
    refine ⟨hf hin.1, hf ?_⟩
    rcases hin.2 with h | h
    · exact h.le
    · exact h.2.le
  refine h1.trans (le_trans (hf ?_) h2)
  have : ((k + 1 : ℕ) : ℚ) ≤ (k' : ℚ) := by exact_mod_cast hlt
  have := mul_le_mul_of_nonneg_right this hw
  linarith

/-- A case: a 2 × 2 image about its corner pixel and the same image mirrored at the diagonal. -/
example : circularAverage [0, 1, 1, 2] [5, 2, 4, 7] none 0 2 none none = .ok ([1 / 2, 3 / 2], [5, 13 / 3]) := by decide +kernel
example : circularAverage [0, 1, 1, 2] [5, 4, 2, 7] none 0 2 none none = .ok ([1 / 2, 3 / 2], [5, 13 / 3]) := by decide +kernel
example : ∀ p ∈ Spec.usedPixels none [0, 1, 1, 2] [0, 3, 3, 6], p.2 = 3 * p.1 := by decide +kernel

end Verif.Roi
