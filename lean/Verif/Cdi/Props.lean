/- Properties C64, C65, C107-C112: coherent diffraction imaging. -/
import Verif.Cdi.Model
import Mathlib.Tactic.NormNum

namespace Verif.Cdi
open Finset Verif

/-! ## C64 supports -/

theorem inSlice_fit (s : ℕ) (r : ℤ) (i : ℕ) (h0 : 0 ≤ r) (hr : r ≤ (s / 2 : ℕ)) (hi : i < s) :
    inSlice s ((s / 2 : ℕ) - r) ((s / 2 : ℕ) + r) i = true ↔ ((s / 2 : ℕ) : ℤ) - r ≤ i ∧ (i : ℤ) < (s / 2 : ℕ) + r := by
  unfold inSlice
  simp only [Bool.and_eq_true, decide_eq_true_eq]
  rw [if_neg (by omega), if_neg (by omega)]
  omega

/-- A box that fits the array is 1 exactly at the multi-indices that lie, in every axis, from `radius` below the centre to
just below `radius` above it, and 0 elsewhere. -/
theorem C64_box_partial (r : ℤ) (h0 : 0 ≤ r) (shape idx : List ℕ) (hfit : ∀ s ∈ shape, r ≤ (s / 2 : ℕ)) (hidx : List.Forall₂ (fun i s => i < s) idx shape) :
    ∃ v, boxSupport (.int r) shape idx = .ok v ∧ (v = 0 ∨ v = 1) ∧
      (v = 1 ↔ List.Forall₂ (fun (i s : ℕ) => -r ≤ (i : ℤ) - (s / 2 : ℕ) ∧ (i : ℤ) - (s / 2 : ℕ) < r) idx shape) := by
  refine ⟨_, rfl, by split_ifs <;> simp, ?_⟩
  have key : (List.zipWith (fun (s i : ℕ) => inSlice s ((s / 2 : ℕ) - r) ((s / 2 : ℕ) + r) i) shape idx).all id = true ↔
      List.Forall₂ (fun (i s : ℕ) => -r ≤ (i : ℤ) - (s / 2 : ℕ) ∧ (i : ℤ) - (s / 2 : ℕ) < r) idx shape := by
    induction hidx with
    | nil => simp
    | cons h _ ih =>
      rename_i i s is ss _
      rw [List.zipWith_cons_cons, List.all_cons, Bool.and_eq_true, ih (fun s' hs' => hfit s' (by simp [hs'])), List.forall₂_cons]
      simp only [id]
      rw [inSlice_fit s r i h0 (hfit s (by simp)) h]
      constructor
      · rintro ⟨h1, h2⟩; exact ⟨⟨by omega, by omega⟩, h2⟩
      · rintro ⟨h1, h2⟩; exact ⟨⟨by omega, by omega⟩, h2⟩
  rw [← key]
  generalize (List.zipWith (fun (s i : ℕ) => inSlice s ((s / 2 : ℕ) - r) ((s / 2 : ℕ) + r) i) shape idx).all id = b
  cases b <;> simp

/-- A box larger than the array misses the centre: in one dimension, for `s//2 < radius < s`, the centre is outside. -/
theorem C64_large_box_refuted (s : ℕ) (hs : 0 < s) (r : ℤ) (h1 : ((s / 2 : ℕ) : ℤ) < r) (h2 : r < s) :
    boxSupport (.int r) [s] [s / 2] = .ok 0 := by
  have h : inSlice s ((s / 2 : ℕ) - r) ((s / 2 : ℕ) + r) (s / 2) = false := by
    rw [Bool.eq_false_iff]
    unfold inSlice
    simp only [ne_eq, Bool.and_eq_true, decide_eq_true_eq]
    rw [if_pos (by omega)]
    rintro ⟨h, -⟩
    have := le_trans (le_max_right _ _) h
    omega
  simp only [boxSupport, List.zipWith_cons_cons, List.zipWith_nil_left, List.all_cons, List.all_nil, id, Bool.and_true]
  rw [h]
  rfl

/-- A float radius, the documented type, raises. -/
theorem C64_float_radius_refuted (r : ℚ) (shape idx : List ℕ) : boxSupport (.float r) shape idx = .error .typeError := rfl

/-- The disk is 1 exactly at Euclidean distance less than the radius from the centre. -/
theorem C64_disk (radius : ℝ) (hr : 0 < radius) (shape idx : List ℕ) :
    (diskSupport radius shape idx = 0 ∨ diskSupport radius shape idx = 1) ∧
    (diskSupport radius shape idx = 1 ↔ (((List.zipWith (fun (d i : ℕ) => ((i : ℤ) - (d / 2 : ℕ)) ^ 2) shape idx).sum : ℤ) : ℝ) < radius ^ 2) := by
  unfold diskSupport
  have h : dist shape idx < radius ↔ ((distSq shape idx : ℤ) : ℝ) < radius ^ 2 := Real.sqrt_lt' hr
  constructor
  · split_ifs <;> simp
  · rw [show (List.zipWith (fun (d i : ℕ) => ((i : ℤ) - (d / 2 : ℕ)) ^ 2) shape idx).sum = distSq shape idx from rfl, ← h]
    split_ifs with hh <;> simp [hh]

example : boxSupport (.int 1) [4, 5] [1, 2] = .ok 1 ∧ boxSupport (.int 1) [4, 5] [3, 2] = .ok 0 ∧ boxSupport (.int 3) [4, 5] [2, 2] = .ok 0 := by decide +kernel

/-! ## C107 gauss -/

theorem allIdx_ne_nil (dims : List ℕ) (h : ∀ d ∈ dims, 0 < d) : allIdx dims ≠ [] := by
  induction dims with
  | nil => simp [allIdx]
  | cons d rest ih =>
    have hd := h d (by simp)
    have hr := ih (fun d' h' => h d' (by simp [h']))
    rw [allIdx]
    obtain ⟨x, xs, hx⟩ := List.exists_cons_of_ne_nil hr
    have : (0 :: x) ∈ (List.range d).flatMap (fun i => (allIdx rest).map (i :: ·)) := by
      rw [List.mem_flatMap]
      exact ⟨0, List.mem_range.2 hd, by rw [hx]; simp⟩
    exact List.ne_nil_of_mem this

theorem sum_pos_list (l : List (List ℕ)) (f : List ℕ → ℝ) (hl : l ≠ []) (hf : ∀ x, 0 < f x) : 0 < (l.map f).sum := by
  cases l with
  | nil => exact absurd rfl hl
  | cons a t =>
    rw [List.map_cons, List.sum_cons]
    have : 0 ≤ (t.map f).sum := List.sum_nonneg (by
      intro v hv
      obtain ⟨x, _, rfl⟩ := List.mem_map.1 hv
      exact (hf x).le)
    linarith [hf a]

/-- For any shape without empty axes and any width: the entries are positive, sum to one over all positions, and a
position is lower the farther it is from the centre. -/
theorem C107_gauss (dims : List ℕ) (hd : ∀ d ∈ dims, 0 < d) (sigma : ℝ) (hs : sigma ≠ 0) :
    (∀ idx, 0 < gauss dims sigma idx) ∧ ((allIdx dims).map (gauss dims sigma)).sum = 1 ∧
    (∀ i j, distSq dims i < distSq dims j → gauss dims sigma j < gauss dims sigma i) := by
  have hpos := sum_pos_list (allIdx dims) (fun i => Real.exp (-((dist dims i / sigma) ^ 2) / 2)) (allIdx_ne_nil dims hd) (fun x => Real.exp_pos _)
  have hnn : ∀ i, (0 : ℝ) ≤ (distSq dims i : ℝ) := by
    intro i
    have : (0 : ℤ) ≤ distSq dims i := by
      unfold distSq
      apply List.sum_nonneg
      intro v hv
      rw [List.mem_iff_getElem?] at hv
      obtain ⟨k, hk⟩ := hv
      rw [List.getElem?_zipWith] at hk
      split at hk
      · injection hk with hk; rw [← hk]; positivity
      · simp at hk
    exact_mod_cast this
  refine ⟨fun idx => div_pos (Real.exp_pos _) hpos, ?_, ?_⟩
  · have : (allIdx dims).map (gauss dims sigma) = (allIdx dims).map (fun idx => Real.exp (-((dist dims idx / sigma) ^ 2) / 2) *
        (((allIdx dims).map (fun i => Real.exp (-((dist dims i / sigma) ^ 2) / 2))).sum)⁻¹) :=
      List.map_congr_left (fun idx _ => by unfold gauss; rw [div_eq_mul_inv])
    rw [this, List.sum_map_mul_right]
    exact mul_inv_cancel₀ hpos.ne'
  · intro i j hij
    unfold gauss
    apply div_lt_div_of_pos_right _ hpos
    apply Real.exp_lt_exp.2
    have h1 : dist dims i ^ 2 = distSq dims i := Real.sq_sqrt (hnn i)
    have h2 : dist dims j ^ 2 = distSq dims j := Real.sq_sqrt (hnn j)
    rw [div_pow, div_pow, h1, h2]
    have h3 : (distSq dims i : ℝ) < distSq dims j := by exact_mod_cast hij
    have h4 : 0 < sigma ^ 2 := by positivity
    have := div_lt_div_of_pos_right h3 h4
    linarith

/-- The listed positions are exactly the multi-indices of the shape. -/
theorem C107_positions (dims idx : List ℕ) : idx ∈ allIdx dims ↔ List.Forall₂ (fun i d => i < d) idx dims := by
  induction dims generalizing idx with
  | nil => simp [allIdx]
  | cons d rest ih =>
    rw [allIdx, List.mem_flatMap]
    constructor
    · rintro ⟨i, hi, h⟩
      obtain ⟨x, hx, rfl⟩ := List.mem_map.1 h
      exact List.Forall₂.cons (List.mem_range.1 hi) ((ih x).1 hx)
    · intro h
      cases h with
      | cons h1 h2 => exact ⟨_, List.mem_range.2 h1, List.mem_map.2 ⟨_, (ih _).2 h2, rfl⟩⟩

/-! ## C108 pi_modulus -/

theorem fft2_congr (r c : ℕ) (a b : Arr) (h : ∀ i < r, ∀ j < c, a i j = b i j) (k l : ℕ) : Dft.fft2 r c a k l = Dft.fft2 r c b k l := by
  unfold Dft.fft2
  exact Dft.fft_congr r _ _ (fun i hi => Dft.fft_congr c _ _ (fun j hj => h i hi j hj) l) k

theorem ifft2_congr (r c : ℕ) (a b : Arr) (h : ∀ i < r, ∀ j < c, a i j = b i j) (k l : ℕ) : Dft.ifft2 r c a k l = Dft.ifft2 r c b k l := by
  unfold Dft.ifft2
  exact Dft.ifft_congr r _ _ (fun i hi => Dft.ifft_congr c _ _ (fun j hj => h i hi j hj) l) k

theorem fft2_mul (r c : ℕ) (a : Arr) (s : ℂ) (k l : ℕ) : Dft.fft2 r c (fun i j => a i j * s) k l = Dft.fft2 r c a k l * s := by
  unfold Dft.fft2 Dft.fft
  rw [sum_mul]
  apply sum_congr rfl
  intro i _
  beta_reduce
  have : (∑ m ∈ range c, a i m * s * Dft.w c (-(m * l))) = (∑ m ∈ range c, a i m * Dft.w c (-(m * l))) * s := by
    rw [sum_mul]
    exact sum_congr rfl (fun j _ => by ring)
  rw [this]
  ring

theorem ifft2_mul (r c : ℕ) (a : Arr) (s : ℂ) (k l : ℕ) : Dft.ifft2 r c (fun i j => a i j * s) k l = Dft.ifft2 r c a k l * s := by
  unfold Dft.ifft2 Dft.ifft
  rw [div_mul_eq_mul_div, sum_mul]
  congr 1
  apply sum_congr rfl
  intro i _
  beta_reduce
  have : (∑ m ∈ range c, a i m * s * Dft.w c (l * m)) = (∑ m ∈ range c, a i m * Dft.w c (l * m)) * s := by
    rw [sum_mul]
    exact sum_congr rfl (fun j _ => by ring)
  rw [this]
  ring

/-- The normalised transform, `fftn(x) / sqrt(size)`. -/
noncomputable def Spec.F (r c : ℕ) (x : Arr) (k l : ℕ) : ℂ := Dft.fft2 r c x k l / √((r * c : ℕ) : ℝ)

theorem sqrt_size_ne (r c : ℕ) (hr : 0 < r) (hc : 0 < c) : ((√((r * c : ℕ) : ℝ) : ℝ) : ℂ) ≠ 0 := by
  have : 0 < √((r * c : ℕ) : ℝ) := Real.sqrt_pos.2 (by exact_mod_cast Nat.mul_pos hr hc)
  exact_mod_cast this.ne'

theorem F_piModulus (r c : ℕ) (offset : ℝ) (d : ℕ → ℕ → ℝ) (x : Arr) (k l : ℕ) (hk : k < r) (hl : l < c) :
    Spec.F r c (piModulus r c offset d x) k l = if 0 < d k l then d k l * Spec.F r c x k l / ((‖Spec.F r c x k l‖ : ℝ) + offset : ℝ) else Spec.F r c x k l := by
  have h0 := sqrt_size_ne r c (by omega) (by omega)
  unfold Spec.F piModulus
  rw [fft2_mul, Dft.fft2_ifft2 r c _ k l hk hl, mul_div_assoc, div_self h0, mul_one]

/-- The phases of the transform are kept and entries where the pattern is not positive are unchanged; with a positive
transform entry the new modulus is the measured one times `|F| / (|F| + offset)`; it is the measured one exactly when the
offset is zero. -/
theorem C108_modulus_partial (r c : ℕ) (offset : ℝ) (ho : 0 ≤ offset) (d : ℕ → ℕ → ℝ) (x : Arr) (k l : ℕ) (hk : k < r) (hl : l < c) :
    (d k l ≤ 0 → Spec.F r c (piModulus r c offset d x) k l = Spec.F r c x k l) ∧
    (0 < d k l → Spec.F r c x k l ≠ 0 →
      (∃ s : ℝ, 0 < s ∧ Spec.F r c (piModulus r c offset d x) k l = s * Spec.F r c x k l) ∧
      ‖Spec.F r c (piModulus r c offset d x) k l‖ = d k l * (‖Spec.F r c x k l‖ / (‖Spec.F r c x k l‖ + offset)) ∧
      (offset = 0 → ‖Spec.F r c (piModulus r c offset d x) k l‖ = d k l)) := by
  rw [F_piModulus r c offset d x k l hk hl]
  constructor
  · intro h
    rw [if_neg (not_lt.2 h)]
  · intro h hF
    rw [if_pos h]
    have hn : 0 < ‖Spec.F r c x k l‖ := norm_pos_iff.2 hF
    have hden : 0 < ‖Spec.F r c x k l‖ + offset := by linarith
    have hnorm : ‖(d k l : ℂ) * Spec.F r c x k l / ((‖Spec.F r c x k l‖ : ℝ) + offset : ℝ)‖ = d k l * (‖Spec.F r c x k l‖ / (‖Spec.F r c x k l‖ + offset)) := by
      rw [norm_div, norm_mul, Complex.norm_real, Complex.norm_real, Real.norm_of_nonneg h.le, Real.norm_of_nonneg hden.le, mul_div_assoc]
    refine ⟨⟨d k l / (‖Spec.F r c x k l‖ + offset), by positivity, ?_⟩, hnorm, ?_⟩
    · push_cast
      ring
    · intro h0
      rw [hnorm, h0, add_zero, div_self hn.ne', mul_one]

/-- With the positive offset of the code the measured modulus is never reached. -/
theorem C108_modulus_refuted (r c : ℕ) (offset : ℝ) (ho : 0 < offset) (d : ℕ → ℕ → ℝ) (x : Arr) (k l : ℕ) (hk : k < r) (hl : l < c) (hd : 0 < d k l) :
    ‖Spec.F r c (piModulus r c offset d x) k l‖ < d k l := by
  by_cases hF : Spec.F r c x k l = 0
  · rw [F_piModulus r c offset d x k l hk hl, if_pos hd, hF]
    simpa using hd
  · rw [((C108_modulus_partial r c offset ho.le d x k l hk hl).2 hd hF).2.1]
    have hn : 0 < ‖Spec.F r c x k l‖ := norm_pos_iff.2 hF
    have : ‖Spec.F r c x k l‖ / (‖Spec.F r c x k l‖ + offset) < 1 := (div_lt_one (by linarith)).2 (by linarith)
    nlinarith

/-! ## C65 the averaged object -/

/-- Iteration n refines the support. -/
def Spec.Shrinks (p : Params) (n : ℕ) : Prop :=
  p.swFlag = true ∧ p.swStart * p.n ≤ n ∧ (n : ℚ) ≤ p.swEnd * p.n ∧ n % p.swStep = 0

open Classical in
/-- The objects and supports of the difference-map iteration: with P the modulus projection and S the restriction to the
current support, `x' = x + beta (S((1 + 1/beta) P x - x/beta) - P((1 - 1/beta) S x + x/beta))`. -/
def Spec.Trajectory (p : Params) (obj : Arr) (sup : ℕ → ℕ → Bool) (X : ℕ → Arr) (S : ℕ → ℕ → ℕ → Bool) : Prop :=
  X 0 = obj ∧ S 0 = sup ∧ ∀ n < p.n,
    (X (n + 1) = fun i j => X n i j + p.beta * ((if S n i j then (1 + 1 / (p.beta : ℂ)) * project p (X n) i j - 1 / (p.beta : ℂ) * X n i j else 0) -
      project p (fun i' j' => (1 - 1 / (p.beta : ℂ)) * (if S n i' j' then X n i' j' else 0) + 1 / (p.beta : ℂ) * X n i' j') i j)) ∧
    S (n + 1) = if Spec.Shrinks p n then p.findSupport (X (n + 1)) else S n

/-- Loop state after n iterations. -/
noncomputable def stAt (p : Params) (obj : Arr) (sup : ℕ → ℕ → Bool) (n : ℕ) : St := (List.range n).foldl (step p) (initSt obj sup)

theorem stAt_succ (p : Params) (obj : Arr) (sup : ℕ → ℕ → Bool) (n : ℕ) : stAt p obj sup (n + 1) = step p (stAt p obj sup n) n := by
  unfold stAt
  rw [List.range_succ, List.foldl_append]
  rfl

theorem shrinks_iff (p : Params) (n : ℕ) : shrinks p n = true ↔ Spec.Shrinks p n := by
  unfold shrinks Spec.Shrinks
  simp only [Bool.and_eq_true, decide_eq_true_eq, and_assoc]

theorem trajectory (p : Params) (obj : Arr) (sup : ℕ → ℕ → Bool) :
    Spec.Trajectory p obj sup (fun n => (stAt p obj sup n).obj) (fun n => (stAt p obj sup n).sup) := by
  refine ⟨rfl, rfl, fun n _ => ?_⟩
  simp only [stAt_succ]
  constructor
  · simp only [step, nextObj, restrict]
    have e : (fun i j => (1 + -1 / (p.beta : ℂ)) * (if (stAt p obj sup n).sup i j then (stAt p obj sup n).obj i j else 0) - -1 / (p.beta : ℂ) * (stAt p obj sup n).obj i j) =
        fun i j => (1 - 1 / (p.beta : ℂ)) * (if (stAt p obj sup n).sup i j then (stAt p obj sup n).obj i j else 0) + 1 / (p.beta : ℂ) * (stAt p obj sup n).obj i j := by
      funext i j; ring
    rw [e]
  · simp only [step]
    by_cases h : Spec.Shrinks p n
    · rw [if_pos h, if_pos ((shrinks_iff p n).2 h)]
    · rw [if_neg h, if_neg (fun h' => h ((shrinks_iff p n).1 h'))]

theorem avg_inv (p : Params) (obj : Arr) (sup : ℕ → ℕ → Bool) (n : ℕ) :
    (stAt p obj sup n).avgN = ((range n).filter (fun (k : ℕ) => p.startAvg * p.n < (k : ℚ))).card ∧
    ∀ i j, (stAt p obj sup n).avg i j = ∑ k ∈ (range n).filter (fun (k : ℕ) => p.startAvg * p.n < (k : ℚ)), (stAt p obj sup (k + 1)).obj i j := by
  induction n with
  | zero => exact ⟨rfl, fun i j => rfl⟩
  | succ n ih =>
    rw [range_add_one, filter_insert]
    by_cases h : p.startAvg * p.n < (n : ℚ)
    · rw [if_pos h]
      have hnot : n ∉ (range n).filter (fun (k : ℕ) => p.startAvg * p.n < (k : ℚ)) := by simp
      rw [card_insert_of_notMem hnot, stAt_succ]
      constructor
      · simp only [step, h, decide_true, if_true]; rw [ih.1]
      · intro i j
        rw [sum_insert hnot, stAt_succ]
        simp only [step, h, decide_true, if_true]
        rw [ih.2]
        ring
    · rw [if_neg h, stAt_succ]
      constructor
      · simp only [step, h, decide_false]; exact ih.1
      · intro i j
        simp only [step, h, decide_false]
        exact ih.2 i j

/-- When at least one iteration lies after the averaging start, the returned object is the mean of the objects of exactly
those iterations. -/
theorem C65_average_partial (p : Params) (obj : Arr) (sup : ℕ → ℕ → Bool) (hsome : ∃ n < p.n, p.startAvg * p.n < (n : ℚ)) :
    ∃ X S, Spec.Trajectory p obj sup X S ∧ ∃ a, (run p obj sup).avg = some a ∧ ∀ i j,
      a i j = (∑ n ∈ (range p.n).filter (fun (n : ℕ) => p.startAvg * p.n < (n : ℚ)), X (n + 1) i j) / ((range p.n).filter (fun (n : ℕ) => p.startAvg * p.n < (n : ℚ))).card := by
  refine ⟨_, _, trajectory p obj sup, ?_⟩
  obtain ⟨h1, h2⟩ := avg_inv p obj sup p.n
  obtain ⟨n, hn, hlt⟩ := hsome
  have hpos : 0 < ((range p.n).filter (fun (k : ℕ) => p.startAvg * p.n < (k : ℚ))).card :=
    card_pos.2 ⟨n, mem_filter.2 ⟨mem_range.2 hn, hlt⟩⟩
  have hst : stAt p obj sup p.n = (List.range p.n).foldl (step p) (initSt obj sup) := rfl
  refine ⟨fun i j => (stAt p obj sup p.n).avg i j / (stAt p obj sup p.n).avgN, ?_, ?_⟩
  · unfold run
    simp only [← hst]
    rw [if_neg (by omega)]
  · intro i j
    beta_reduce
    rw [h1, h2]

/-- When no iteration lies after the averaging start, every entry of the returned object is NaN. -/
theorem C65_nan_refuted (p : Params) (obj : Arr) (sup : ℕ → ℕ → Bool) (hnone : ∀ n < p.n, (n : ℚ) ≤ p.startAvg * p.n) : (run p obj sup).avg = none := by
  obtain ⟨h1, _⟩ := avg_inv p obj sup p.n
  have hst : stAt p obj sup p.n = (List.range p.n).foldl (step p) (initSt obj sup) := rfl
  unfold run
  simp only [← hst]
  rw [if_pos]
  rw [h1, card_eq_zero, filter_eq_empty_iff]
  intro n hn
  exact not_lt.2 (hnone n (mem_range.1 hn))

theorem default_start (N : ℕ) : (∃ n < N, (4 / 5 : ℚ) * N < (n : ℚ)) ↔ 6 ≤ N := by
  constructor
  · rintro ⟨n, hn, h⟩
    by_contra hc
    have h2 : (n : ℚ) + 1 ≤ N := by exact_mod_cast hn
    have h3 : (N : ℚ) ≤ 5 := by
      have : N ≤ 5 := by omega
      exact_mod_cast this
    linarith
  · intro h
    refine ⟨N - 1, by omega, ?_⟩
    have : ((N - 1 : ℕ) : ℚ) = N - 1 := by rw [Nat.cast_sub (by omega)]; norm_num
    rw [this]
    have h3 : (6 : ℚ) ≤ N := by exact_mod_cast h
    linarith

/-- With the default start_avg = 0.8 the returned object is a number exactly if there are six iterations or more; with five
or fewer it is NaN, whatever the data. -/
theorem C65_default_start_partial (p : Params) (obj : Arr) (sup : ℕ → ℕ → Bool) (hs : p.startAvg = 4 / 5) :
    (∃ a, (run p obj sup).avg = some a) ↔ 6 ≤ p.n := by
  rw [← default_start]
  constructor
  · rintro ⟨a, ha⟩
    by_contra hc
    push Not at hc
    rw [C65_nan_refuted p obj sup (by rw [hs]; exact hc)] at ha
    exact absurd ha (by simp)
  · intro h
    obtain ⟨_, _, _, a, ha, _⟩ := C65_average_partial p obj sup (by rw [hs]; exact h)
    exact ⟨a, ha⟩

/-- A pi_modulus_flag other than "real" and "complex" (in any letter case) raises ValueError, these two succeed. -/
theorem C65_flag (p : Params) (flag : String) (obj : Arr) (sup : ℕ → ℕ → Bool) :
    (∃ res, cdiRecon p flag obj sup = .ok res) ↔ flag.toLower = "real" ∨ flag.toLower = "complex" := by
  unfold cdiRecon
  by_cases h1 : flag.toLower = "real"
  · rw [if_pos h1]; exact ⟨fun _ => Or.inl h1, fun _ => ⟨_, rfl⟩⟩
  · rw [if_neg h1]
    by_cases h2 : flag.toLower = "complex"
    · rw [if_pos h2]; exact ⟨fun _ => Or.inr h2, fun _ => ⟨_, rfl⟩⟩
    · rw [if_neg h2]
      constructor
      · rintro ⟨_, h⟩; cases h
      · rintro (h | h)
        · exact absurd h h1
        · exact absurd h h2

/-! ## C109 callback -/

theorem calls_inv (p : Params) (obj : Arr) (sup : ℕ → ℕ → Bool) (n : ℕ) :
    (stAt p obj sup n).calls = if p.cb = true ∧ p.n % p.cbStep = 0 then n else 0 := by
  induction n with
  | zero => simp [stAt, initSt]
  | succ n ih =>
    rw [stAt_succ]
    simp only [step, Bool.and_eq_true, decide_eq_true_eq]
    by_cases h : p.cb = true ∧ p.n % p.cbStep = 0
    · rw [if_pos h] at ih ⊢; rw [if_pos h, ih]
    · rw [if_neg h] at ih ⊢; rw [if_neg h, ih]

/-- The callback is called in every iteration if cb_step divides the number of iterations, and never otherwise. -/
theorem C109_callback_refuted (p : Params) (obj : Arr) (sup : ℕ → ℕ → Bool) (hcb : p.cb = true) :
    (p.cbStep ∣ p.n → (run p obj sup).calls = p.n) ∧ (¬ p.cbStep ∣ p.n → (run p obj sup).calls = 0) := by
  have hst : (run p obj sup).calls = (stAt p obj sup p.n).calls := rfl
  rw [hst, calls_inv]
  constructor
  · intro h; rw [if_pos ⟨hcb, Nat.mod_eq_zero_of_dvd h⟩]
  · intro h; rw [if_neg (fun h' => h (Nat.dvd_of_mod_eq_zero h'.2))]

/-- For cb_step = 1 that is the documented number of calls. -/
theorem C109_callback_partial (p : Params) (obj : Arr) (sup : ℕ → ℕ → Bool) (hcb : p.cb = true) (h1 : p.cbStep = 1) :
    (run p obj sup).calls = p.n / p.cbStep := by
  rw [(C109_callback_refuted p obj sup hcb).1 (by rw [h1]; exact one_dvd _), h1, Nat.div_one]

/-! ## C110 sup_error -/

open Classical in
/-- Entry n of sup_error is, in an iteration that refines the support, the size of the support refined before (0 if there
was none), otherwise 0. -/
theorem C110_previous_size_partial (p : Params) (obj : Arr) (sup : ℕ → ℕ → Bool) :
    ∃ X S, Spec.Trajectory p obj sup X S ∧ (run p obj sup).supErr.length = p.n ∧ ∀ n < p.n,
      (run p obj sup).supErr[n]? = some (if Spec.Shrinks p n ∧ ∃ m < n, Spec.Shrinks p m then supSize p.r p.c (S n) else 0) := by
  refine ⟨_, _, trajectory p obj sup, ?_⟩
  have hold : ∀ n, (stAt p obj sup n).supOld = if ∃ m < n, Spec.Shrinks p m then (stAt p obj sup n).sup else fun _ _ => false := by
    intro n
    induction n with
    | zero => simp [stAt, initSt]
    | succ n ih =>
      rw [stAt_succ]
      simp only [step]
      by_cases h : Spec.Shrinks p n
      · rw [if_pos ((shrinks_iff p n).2 h), if_pos ((shrinks_iff p n).2 h), if_pos ⟨n, by omega, h⟩]
      · rw [if_neg (fun h' => h ((shrinks_iff p n).1 h')), if_neg (fun h' => h ((shrinks_iff p n).1 h')), ih]
        by_cases h2 : ∃ m < n, Spec.Shrinks p m
        · obtain ⟨m, hm, hm'⟩ := h2
          rw [if_pos ⟨m, hm, hm'⟩, if_pos ⟨m, by omega, hm'⟩]
        · rw [if_neg h2, if_neg]
          rintro ⟨m, hm, hm'⟩
          rcases Nat.lt_succ_iff_lt_or_eq.1 hm with h3 | h3
          · exact h2 ⟨m, h3, hm'⟩
          · exact h (h3 ▸ hm')
  have hzero : supSize p.r p.c (fun _ _ => false) = 0 := by simp [supSize]
  have key : ∀ n, (stAt p obj sup n).supErr = (List.range n).map (fun n => if Spec.Shrinks p n ∧ ∃ m < n, Spec.Shrinks p m then supSize p.r p.c (stAt p obj sup n).sup else 0) := by
    intro n
    induction n with
    | zero => rfl
    | succ n ih =>
      rw [stAt_succ, List.range_succ, List.map_append, ← ih]
      simp only [step, List.map_cons, List.map_nil]
      congr 2
      rw [hold n]
      by_cases h : Spec.Shrinks p n
      · rw [if_pos ((shrinks_iff p n).2 h)]
        by_cases h2 : ∃ m < n, Spec.Shrinks p m
        · rw [if_pos h2, if_pos ⟨h, h2⟩]
        · rw [if_neg h2, if_neg (fun h' => h2 h'.2), hzero]
      · rw [if_neg (fun h' => h ((shrinks_iff p n).1 h')), if_neg (fun h' => h h'.1)]
  have hst : (run p obj sup).supErr = (stAt p obj sup p.n).supErr := rfl
  rw [hst, key]
  refine ⟨by simp, fun n hn => ?_⟩
  rw [List.getElem?_map, List.getElem?_range hn]
  rfl

/-- The first refined support is never recorded, however large it is. -/
theorem C110_first_size_refuted (p : Params) (obj : Arr) (sup : ℕ → ℕ → Bool) (n : ℕ) (hn : n < p.n) (hs : Spec.Shrinks p n) (hfirst : ∀ m < n, ¬ Spec.Shrinks p m) :
    (run p obj sup).supErr[n]? = some 0 := by
  obtain ⟨X, S, _, _, h⟩ := C110_previous_size_partial p obj sup
  rw [h n hn, if_neg]
  rintro ⟨_, m, hm, hm'⟩
  exact hfirst m hm hm'

/-! ## C111 the caller's object -/

theorem piModulus_zero (r c : ℕ) (offset : ℝ) (d : ℕ → ℕ → ℝ) (hd : ∀ k l, d k l ≤ 0) (x : Arr) (i j : ℕ) (hi : i < r) (hj : j < c) : piModulus r c offset d x i j = x i j := by
  have h0 := sqrt_size_ne r c (by omega) (by omega)
  unfold piModulus
  have : (fun k l => let t := Dft.fft2 r c x k l / √((r * c : ℕ) : ℝ); if 0 < d k l then d k l * t / ((‖t‖ : ℝ) + offset : ℝ) else t) =
      fun k l => Dft.fft2 r c x k l * ((√((r * c : ℕ) : ℝ) : ℝ) : ℂ)⁻¹ := by
    funext k l
    simp only
    rw [if_neg (not_lt.2 (hd k l)), div_eq_mul_inv]
  rw [this, ifft2_mul, Dft.ifft2_fft2 r c x i j hi hj, mul_assoc, inv_mul_cancel₀ h0, mul_one]

/-- The array passed by the caller holds the last iterate afterwards; with an empty support and no measured intensity one
iteration erases it. -/
theorem C111_caller_object_refuted (p : Params) (obj : Arr) (hn : p.n = 1) (hb : p.beta ≠ 0) (hreal : p.real = false) (hd : ∀ k l, p.d k l ≤ 0) (i j : ℕ) (hi : i < p.r) (hj : j < p.c) :
    (run p obj (fun _ _ => false)).caller i j = 0 := by
  have hc : (run p obj (fun _ _ => false)).caller = (stAt p obj (fun _ _ => false) 1).obj := by
    show (stAt p obj (fun _ _ => false) p.n).obj = _
    rw [hn]
  have hb' : (p.beta : ℂ) ≠ 0 := by exact_mod_cast hb
  rw [hc, stAt_succ]
  simp only [step, nextObj, restrict, stAt, List.range_zero, List.foldl_nil, initSt]
  unfold project
  rw [hreal]
  simp only [Bool.false_eq_true, if_false]
  rw [piModulus_zero p.r p.c p.offset p.d hd _ i j hi hj]
  field_simp
  ring

/-- What holds: it is the last object of the iteration. -/
theorem C111_last_iterate_partial (p : Params) (obj : Arr) (sup : ℕ → ℕ → Bool) :
    ∃ X S, Spec.Trajectory p obj sup X S ∧ (run p obj sup).caller = X p.n := ⟨_, _, trajectory p obj sup, rfl⟩

end Verif.Cdi
