import Verif.Hist.Model
import Mathlib.Tactic.Positivity
import Mathlib.Algebra.BigOperators.Group.List.Lemmas
import Mathlib.Data.List.Perm.Basic

namespace Verif.Hist
open Verif

/-! ### Specification vocabulary -/

/-- `x` lies in bin `k` of axis `a`: the half-open interval between the k-th and (k+1)-th of the
`nbin+1` evenly spaced edges from low to high. -/
def InBin (a : Axis) (x : ℚ) (k : ℕ) : Prop :=
  a.low + k * ((a.high - a.low) / a.nbin) ≤ x ∧ x < a.low + (k + 1) * ((a.high - a.low) / a.nbin)

/-- The sample `xs` lies in the cell with bin numbers `ks`. -/
def InCell : List Axis → List ℚ → List ℕ → Prop
  | [], [], [] => True
  | a :: as, x :: xs, k :: ks => InBin a x k ∧ InCell as xs ks
  | _, _, _ => False

/-- `ks` are bin numbers of an existing cell. -/
def ValidCell : List Axis → List ℕ → Prop
  | [], [] => True
  | a :: as, k :: ks => k < a.nbin ∧ ValidCell as ks
  | _, _ => False

/-- Row-major position of a cell. -/
def flat : List Axis → List ℕ → ℕ
  | _ :: as, k :: ks => k * (as.map Axis.nbin).prod + flat as ks
  | _, _ => 0

instance decInBin (a x k) : Decidable (InBin a x k) := by unfold InBin; infer_instance
instance decInCell : ∀ as xs ks, Decidable (InCell as xs ks)
  | [], [], [] => isTrue trivial
  | a :: as, x :: xs, k :: ks => @instDecidableAnd _ _ (decInBin a x k) (decInCell as xs ks)
  | [], [], _ :: _ => isFalse id
  | [], _ :: _, [] => isFalse id
  | [], _ :: _, _ :: _ => isFalse id
  | _ :: _, [], [] => isFalse id
  | _ :: _, [], _ :: _ => isFalse id
  | _ :: _, _ :: _, [] => isFalse id

/-- Total weight of the samples in cell `ks`. -/
def cellWeight (axes : List Axis) (samples : List (List ℚ × ℚ)) (ks : List ℕ) : ℚ :=
  (samples.map (fun s => if InCell axes s.1 ks then s.2 else 0)).sum

/-- The sample is inside [low, high) in every dimension. -/
def InRange (axes : List Axis) (xs : List ℚ) : Prop :=
  List.Forall₂ (fun a x => a.low ≤ x ∧ x < a.high) axes xs

/-- The value array has one entry per cell and every axis has at least one bin (what `__init__` establishes). -/
def Hist.Wf (h : Hist) : Prop :=
  h.values.length = (h.axes.map Axis.nbin).prod ∧ (∀ a ∈ h.axes, 0 < a.nbin) ∧ h.axes ≠ []

/-! ### one axis -/

theorem findIndices_spec (a : Axis) (hn : 0 < a.nbin) (x : ℚ) :
    (findIndices id x a.low a.high (a.binsize id) = -1 ∧ ¬ (a.low ≤ x ∧ x < a.high) ∧ ∀ k < a.nbin, ¬ InBin a x k) ∨
    (∃ k < a.nbin, findIndices id x a.low a.high (a.binsize id) = (k : ℤ) ∧ (a.low ≤ x ∧ x < a.high) ∧ InBin a x k ∧
      ∀ k', InBin a x k' → k' = k) := by
  have hn' : (0:ℚ) < a.nbin := by exact_mod_cast hn
  set w := (a.high - a.low) / a.nbin with hw
  have hwn : a.high = a.low + a.nbin * w := by rw [hw]; field_simp; ring
  by_cases h : a.low ≤ x ∧ x < a.high
  · right
    have hwpos : 0 < w := div_pos (by linarith) hn'
    have hq : 0 ≤ (x - a.low) / w := div_nonneg (by linarith) hwpos.le
    have hf : findIndices id x a.low a.high (a.binsize id) = ⌊(x - a.low) / w⌋ := by
      simp only [findIndices, h, and_self, not_true, if_false, Axis.binsize, id, ← hw, pyInt, hq, if_true]
    have hfl0 : 0 ≤ ⌊(x - a.low) / w⌋ := Int.floor_nonneg.2 hq
    obtain ⟨k, hk⟩ := Int.eq_ofNat_of_zero_le hfl0
    have h1 : (k:ℚ) ≤ (x - a.low) / w := by
      have := Int.floor_le ((x - a.low) / w); rw [hk] at this; exact_mod_cast this
    have h2 : (x - a.low) / w < k + 1 := by
      have := Int.lt_floor_add_one ((x - a.low) / w); rw [hk] at this; exact_mod_cast this
    rw [le_div_iff₀ hwpos] at h1
    rw [div_lt_iff₀ hwpos] at h2
    refine ⟨k, ?_, by rw [hf, hk], h, ⟨by linarith, by linarith⟩, ?_⟩
    · have : (k:ℚ) * w < a.nbin * w := by linarith
      have := lt_of_mul_lt_mul_right this hwpos.le
      exact_mod_cast this
    · rintro k' ⟨h3, h4⟩
      rw [← hw] at h3 h4
      have e1 : (k:ℚ) * w < (k' + 1) * w := by linarith
      have e2 : (k':ℚ) * w < (k + 1) * w := by linarith
      have e1 := lt_of_mul_lt_mul_right e1 hwpos.le
      have e2 := lt_of_mul_lt_mul_right e2 hwpos.le
      have e1 : k < k' + 1 := by exact_mod_cast e1
      have e2 : k' < k + 1 := by exact_mod_cast e2
      omega
  · left
    refine ⟨by simp only [findIndices, h, not_false_iff, if_true], h, ?_⟩
    rintro k hk ⟨h1, h2⟩
    rw [← hw] at h1 h2
    have hwpos : 0 < w := by linarith
    have hk' : (k:ℚ) + 1 ≤ a.nbin := by exact_mod_cast hk
    apply h
    constructor
    · have : 0 ≤ (k:ℚ) * w := by positivity
      linarith
    · have : ((k:ℚ) + 1) * w ≤ a.nbin * w := mul_le_mul_of_nonneg_right hk' hwpos.le
      linarith

/-- Index of one axis as an option (helper for the proofs). -/
def axIdx (a : Axis) (x : ℚ) : Option ℕ :=
  let i := findIndices id x a.low a.high (a.binsize id)
  if i = -1 then none else some i.toNat

theorem axIdx_cases (a : Axis) (hn : 0 < a.nbin) (x : ℚ) :
    (axIdx a x = none ∧ findIndices id x a.low a.high (a.binsize id) = -1 ∧ ¬ (a.low ≤ x ∧ x < a.high) ∧
      ∀ k < a.nbin, ¬ InBin a x k) ∨
    (∃ k < a.nbin, axIdx a x = some k ∧ findIndices id x a.low a.high (a.binsize id) = (k : ℤ) ∧
      (a.low ≤ x ∧ x < a.high) ∧ InBin a x k ∧ ∀ k', InBin a x k' → k' = k) := by
  rcases findIndices_spec a hn x with ⟨h1, h2, h3⟩ | ⟨k, hk, h1, h2, h3, h4⟩
  · left; exact ⟨by simp [axIdx, h1], h1, h2, h3⟩
  · right; refine ⟨k, hk, ?_, h1, h2, h3, h4⟩
    simp only [axIdx, h1]
    rw [if_neg (by omega)]; simp

/-- Cell of a sample (helper for the proofs). -/
def cellIdx : List Axis → List ℚ → Option (List ℕ)
  | [], [] => some []
  | a :: as, x :: xs => match axIdx a x, cellIdx as xs with
    | some k, some ks => some (k :: ks)
    | _, _ => none
  | _, _ => none

theorem cellIdx_cases (axes : List Axis) (hp : ∀ a ∈ axes, 0 < a.nbin) (xs : List ℚ) :
    (cellIdx axes xs = none ∧ ¬ InRange axes xs ∧ ∀ ks, ValidCell axes ks → ¬ InCell axes xs ks) ∨
    (∃ ks, cellIdx axes xs = some ks ∧ ValidCell axes ks ∧ InRange axes xs ∧ InCell axes xs ks ∧
      ∀ ks', InCell axes xs ks' → ks' = ks) := by
  induction axes generalizing xs with
  | nil =>
    cases xs with
    | nil => right; refine ⟨[], rfl, trivial, .nil, trivial, ?_⟩; intro ks h; cases ks <;> simp_all [InCell]
    | cons x xs =>
      left; refine ⟨rfl, by rintro ⟨⟩, ?_⟩; intro ks _; cases ks <;> simp [InCell]
  | cons a as ih =>
    cases xs with
    | nil => left; refine ⟨rfl, by rintro ⟨⟩, ?_⟩; intro ks _; cases ks <;> simp [InCell]
    | cons x xs =>
      rcases axIdx_cases a (hp a (by simp)) x with ⟨h1, _, h3, h4⟩ | ⟨k, hk, h1, _, h3, h4, h5⟩
      · left
        refine ⟨by simp [cellIdx, h1], ?_, ?_⟩
        · intro h; cases h with | cons h _ => exact h3 h
        · rintro (_ | ⟨k, ks⟩) hv
          · simp [ValidCell] at hv
          · simp only [ValidCell] at hv; rintro ⟨h, _⟩; exact h4 k hv.1 h
      · rcases ih (fun b hb => hp b (by simp [hb])) xs with ⟨g1, g2, g3⟩ | ⟨ks, g1, g2, g3, g4, g5⟩
        · left
          refine ⟨by simp [cellIdx, h1, g1], ?_, ?_⟩
          · intro h; cases h with | cons _ h => exact g2 h
          · rintro (_ | ⟨k, ks⟩) hv
            · simp [ValidCell] at hv
            · simp only [ValidCell] at hv; rintro ⟨_, h⟩; exact g3 ks hv.2 h
        · right
          refine ⟨k :: ks, by simp [cellIdx, h1, g1], ⟨hk, g2⟩, .cons h3 g3, ⟨h4, g4⟩, ?_⟩
          rintro (_ | ⟨k', ks'⟩) h
          · simp [InCell] at h
          · obtain ⟨e1, e2⟩ := h
            rw [h5 k' e1, g5 ks' e2]

theorem flat_lt (axes : List Axis) (ks : List ℕ) (h : ValidCell axes ks) :
    flat axes ks < (axes.map Axis.nbin).prod := by
  induction axes generalizing ks with
  | nil => cases ks <;> simp_all [ValidCell, flat]
  | cons a as ih =>
    cases ks with
    | nil => simp [ValidCell] at h
    | cons k ks =>
      obtain ⟨h1, h2⟩ := h
      have := ih ks h2
      simp only [flat, List.map_cons, List.prod_cons]
      calc k * (as.map Axis.nbin).prod + flat as ks < k * (as.map Axis.nbin).prod + (as.map Axis.nbin).prod := by omega
        _ = (k + 1) * (as.map Axis.nbin).prod := by ring
        _ ≤ a.nbin * (as.map Axis.nbin).prod := Nat.mul_le_mul_right _ h1

theorem flat_inj (axes : List Axis) (ks ks' : List ℕ) (h : ValidCell axes ks) (h' : ValidCell axes ks')
    (e : flat axes ks = flat axes ks') : ks = ks' := by
  induction axes generalizing ks ks' with
  | nil => cases ks <;> cases ks' <;> simp_all [ValidCell]
  | cons a as ih =>
    cases ks with
    | nil => simp [ValidCell] at h
    | cons k ks =>
      cases ks' with
      | nil => simp [ValidCell] at h'
      | cons k' ks' =>
        obtain ⟨h1, h2⟩ := h
        obtain ⟨h1', h2'⟩ := h'
        have l := flat_lt as ks h2
        have l' := flat_lt as ks' h2'
        simp only [flat] at e
        set P := (as.map Axis.nbin).prod
        have hk : k = k' := by
          have e1 : (flat as ks + P * k) / P = k := by
            rw [Nat.add_mul_div_left _ _ (by omega), Nat.div_eq_of_lt l]; simp
          have e2 : (flat as ks' + P * k') / P = k' := by
            rw [Nat.add_mul_div_left _ _ (by omega), Nat.div_eq_of_lt l']; simp
          rw [← e1, ← e2]; congr 1
          rw [mul_comm P k, mul_comm P k']; omega
        subst hk
        rw [ih ks ks' h2 h2' (by omega)]

/-! ### abstract filling -/

/-- Add one sample (helper for the proofs). -/
def specStep (axes : List Axis) (v : List ℚ) (s : List ℚ × ℚ) : List ℚ :=
  match cellIdx axes s.1 with
  | some ks => v.modify (flat axes ks) (· + s.2)
  | none => v

/-- Add one sample, the sum rounded by `fa` (helper for the proofs). -/
def specStepF (fa : ℚ → ℚ) (axes : List Axis) (v : List ℚ) (s : List ℚ × ℚ) : List ℚ :=
  match cellIdx axes s.1 with
  | some ks => v.modify (flat axes ks) (fun x => fa (x + s.2))
  | none => v

theorem specStepF_id (axes : List Axis) : specStepF id axes = specStep axes := rfl

theorem length_specStep (axes v s) : (specStep axes v s).length = v.length := by
  unfold specStep; split <;> simp

theorem length_foldl_specStep (axes v l) : (List.foldl (specStep axes) v l).length = v.length := by
  induction l generalizing v with
  | nil => rfl
  | cons s t ih => rw [List.foldl_cons, ih, length_specStep]

theorem specStep_get (axes : List Axis) (hp : ∀ a ∈ axes, 0 < a.nbin) (v : List ℚ) (s : List ℚ × ℚ) (ks : List ℕ)
    (hk : ValidCell axes ks) :
    (specStep axes v s)[flat axes ks]? = v[flat axes ks]?.map (· + (if InCell axes s.1 ks then s.2 else 0)) := by
  unfold specStep
  rcases cellIdx_cases axes hp s.1 with ⟨h1, _, h3⟩ | ⟨ks', h1, h2, _, h4, h5⟩
  · rw [h1]; simp [h3 ks hk]
  · rw [h1]
    simp only [List.getElem?_modify]
    by_cases e : ks' = ks
    · subst e; simp [h4]
    · have : ¬ InCell axes s.1 ks := fun h => e (h5 ks h).symm
      have hf : flat axes ks' ≠ flat axes ks := fun h => e (flat_inj axes _ _ h2 hk h)
      simp [this, hf]

theorem foldl_specStep_get (axes : List Axis) (hp : ∀ a ∈ axes, 0 < a.nbin) (l : List (List ℚ × ℚ)) (v : List ℚ)
    (ks : List ℕ) (hk : ValidCell axes ks) :
    (l.foldl (specStep axes) v)[flat axes ks]? = v[flat axes ks]?.map (· + cellWeight axes l ks) := by
  induction l generalizing v with
  | nil => simp [cellWeight]
  | cons s t ih =>
    rw [List.foldl_cons, ih, specStep_get axes hp v s ks hk]
    simp only [cellWeight, List.map_cons, List.sum_cons, Option.map_map]
    congr 1
    funext x; simp; ring

theorem sum_modify (v : List ℚ) (i : ℕ) (w : ℚ) (h : i < v.length) : (v.modify i (· + w)).sum = v.sum + w := by
  induction v generalizing i with
  | nil => simp at h
  | cons a t ih =>
    cases i with
    | zero => simp [List.modify]; ring
    | succ i =>
      simp only [List.length_cons] at h
      simp only [List.modify_succ_cons, List.sum_cons, ih i (by omega)]; ring

open Classical in
theorem foldl_specStep_sum (axes : List Axis) (hp : ∀ a ∈ axes, 0 < a.nbin) (l : List (List ℚ × ℚ)) (v : List ℚ)
    (hv : v.length = (axes.map Axis.nbin).prod) :
    (l.foldl (specStep axes) v).sum = v.sum + (l.map (fun s => if InRange axes s.1 then s.2 else 0)).sum := by
  induction l generalizing v with
  | nil => simp
  | cons s t ih =>
    rw [List.foldl_cons, ih _ (by rw [length_specStep, hv])]
    simp only [List.map_cons, List.sum_cons]
    have : (specStep axes v s).sum = v.sum + (if InRange axes s.1 then s.2 else 0) := by
      unfold specStep
      rcases cellIdx_cases axes hp s.1 with ⟨h1, h2, _⟩ | ⟨ks', h1, h2, h3, _, _⟩
      · rw [h1]; simp [h2]
      · rw [h1]; simp only [h3, if_true]
        exact sum_modify _ _ _ (by rw [hv]; exact flat_lt axes ks' h2)
    rw [this]; ring

theorem modify_comm (v : List ℚ) (i j : ℕ) (a b : ℚ) :
    (v.modify i (· + a)).modify j (· + b) = (v.modify j (· + b)).modify i (· + a) := by
  apply List.ext_getElem?
  intro n
  simp only [List.getElem?_modify]
  cases v[n]? with
  | none => rfl
  | some x =>
    by_cases h1 : i = n <;> by_cases h2 : j = n <;> simp [h1, h2]
    ring

theorem specStep_comm (axes : List Axis) (v : List ℚ) (s t : List ℚ × ℚ) :
    specStep axes (specStep axes v s) t = specStep axes (specStep axes v t) s := by
  unfold specStep
  cases cellIdx axes s.1 <;> cases cellIdx axes t.1 <;> simp [modify_comm]

theorem foldl_specStep_perm (axes : List Axis) (v : List ℚ) {l l' : List (List ℚ × ℚ)} (h : l.Perm l') :
    l.foldl (specStep axes) v = l'.foldl (specStep axes) v := by
  haveI : RightCommutative (specStep axes) := ⟨specStep_comm axes⟩
  exact h.foldl_eq _

/-! ### the three code paths -/

theorem addAt_some (fa : ℚ → ℚ) (v : List ℚ) (i : ℕ) (w : ℚ) (h : i < v.length) : addAt fa v i w = some (v.modify i (fun x => fa (x + w))) := by
  simp [addAt, h]

theorem fill1d_eq (fa : ℚ → ℚ) (a : Axis) (hn : 0 < a.nbin) (l : List (ℚ × ℚ)) (v : List ℚ) (hv : v.length = a.nbin) :
    fill1dLoop id fa a v l = ((l.map (fun p => ([p.1], p.2))).foldl (specStepF fa [a]) v, .ok ()) := by
  induction l generalizing v with
  | nil => rfl
  | cons p t ih =>
    obtain ⟨x, w⟩ := p
    simp only [fill1dLoop, List.map_cons, List.foldl_cons]
    rcases axIdx_cases a hn x with ⟨h1, h2, _⟩ | ⟨k, hk, h1, h2, _⟩
    · rw [h2, if_pos rfl, ih v hv]
      simp [specStepF, cellIdx, h1]
    · rw [h2, if_neg (by omega), addAt_some fa v k w (by omega)]
      have : specStepF fa [a] v ([x], w) = v.modify k (fun x => fa (x + w)) := by simp [specStepF, cellIdx, h1, flat]
      rw [this]
      exact ih _ (by simpa using hv)

theorem fill2d_eq (fa : ℚ → ℚ) (a b : Axis) (ha : 0 < a.nbin) (hb : 0 < b.nbin) (l : List ((ℚ × ℚ) × ℚ)) (v : List ℚ)
    (hv : v.length = a.nbin * b.nbin) :
    fill2dLoop id fa a b v l = ((l.map (fun p => ([p.1.1, p.1.2], p.2))).foldl (specStepF fa [a, b]) v, .ok ()) := by
  induction l generalizing v with
  | nil => rfl
  | cons p t ih =>
    obtain ⟨⟨x, y⟩, w⟩ := p
    simp only [fill2dLoop, List.map_cons, List.foldl_cons]
    rcases axIdx_cases a ha x with ⟨h1, h2, _⟩ | ⟨k, hk, h1, h2, _⟩
    · rw [h2, if_pos rfl, ih v hv]
      simp [specStepF, cellIdx, h1]
    · rw [h2, if_neg (by omega)]
      rcases axIdx_cases b hb y with ⟨g1, g2, _⟩ | ⟨k', hk', g1, g2, _⟩
      · rw [g2, if_pos rfl, ih v hv]
        simp [specStepF, cellIdx, h1, g1]
      · rw [g2, if_neg (by omega), if_neg (by push Not; exact ⟨by exact_mod_cast hk, by exact_mod_cast hk'⟩)]
        have hlt : k * b.nbin + k' < v.length := by
          rw [hv]
          calc k * b.nbin + k' < k * b.nbin + b.nbin := by omega
            _ = (k + 1) * b.nbin := by ring
            _ ≤ _ := Nat.mul_le_mul_right _ hk
        have e : (k:ℤ) * b.nbin + k' = ((k * b.nbin + k' : ℕ) : ℤ) := by push_cast; ring
        rw [e, addAt_some fa v _ w hlt]
        have : specStepF fa [a, b] v ([x, y], w) = v.modify (k * b.nbin + k') (fun x => fa (x + w)) := by
          simp [specStepF, cellIdx, h1, g1, flat]
        rw [this]
        exact ih _ (by simpa using hv)

theorem sortDims_eq (cs : List (Coord × DimInfo)) (h : ∀ p ∈ cs, p.1.dtype = .int64 ∨ p.1.dtype = .float64) :
    sortDims cs = cs.filter (fun p => p.1.dtype = .int64) ++ cs.filter (fun p => p.1.dtype = .float64) := by
  induction cs with
  | nil => rfl
  | cons c t ih =>
    have ih := ih (fun p hp => h p (by simp [hp]))
    unfold sortDims at ih ⊢
    rw [List.insertionSort_cons, ih]
    rcases h c (by simp) with hc | hc
    · have : ∀ l : List (Coord × DimInfo), List.orderedInsert (fun p q => ctypeIndex p.1.dtype ≤ ctypeIndex q.1.dtype) c l = c :: l := by
        intro l; cases l with
        | nil => rfl
        | cons d l => rw [List.orderedInsert_cons, if_pos (by simp [hc, ctypeIndex])]
      rw [this]; simp [hc]
    · simp only [hc, List.filter_cons]
      simp only [reduceCtorEq, decide_false, Bool.false_eq_true, if_false, decide_true, if_true]
      have h0 : ∀ p ∈ t.filter (fun p => p.1.dtype = .int64), p.1.dtype = .int64 := by
        intro p hp; simpa using (List.mem_filter.1 hp).2
      have h1 : ∀ p ∈ t.filter (fun p => p.1.dtype = .float64), p.1.dtype = .float64 := by
        intro p hp; simpa using (List.mem_filter.1 hp).2
      generalize t.filter (fun p => p.1.dtype = .int64) = F0 at h0
      generalize t.filter (fun p => p.1.dtype = .float64) = F1 at h1
      induction F0 with
      | nil =>
        cases F1 with
        | nil => rfl
        | cons d l =>
          rw [List.nil_append, List.orderedInsert_cons, if_pos (by rw [hc, h1 d (by simp)]), List.nil_append]
      | cons d l ih2 =>
        rw [List.cons_append, List.orderedInsert_cons,
          if_neg (by rw [hc, h0 d (by simp)]; simp [ctypeIndex]), ih2 (fun p hp => h0 p (by simp [hp])), List.cons_append]

/-- Value of `ndIndex` as "all in range → sum". -/
theorem ndIndex_eq (fl : ℚ → ℚ) (l : List (ℚ × DimInfo)) (d : ℤ) :
    ndIndex fl l d = if ∀ p ∈ l, findIndices fl p.1 p.2.low p.2.high p.2.binsize ≠ -1 then
      d + (l.map (fun p => (p.2.stride : ℤ) * findIndices fl p.1 p.2.low p.2.high p.2.binsize)).sum else -1 := by
  induction l generalizing d with
  | nil => simp [ndIndex]
  | cons p t ih =>
    obtain ⟨x, di⟩ := p
    simp only [ndIndex]
    by_cases h : findIndices fl x di.low di.high di.binsize = -1
    · simp [h]
    · rw [if_neg h, ih]
      simp only [List.forall_mem_cons, List.map_cons, List.sum_cons]
      by_cases g : ∀ p ∈ t, findIndices fl p.1 p.2.low p.2.high p.2.binsize ≠ -1
      · rw [if_pos g, if_pos ⟨h, g⟩]; ring
      · rw [if_neg g, if_neg (fun hh => g hh.2)]

theorem length_strides (ns : List ℕ) : (strides ns).length = ns.length := by
  induction ns with
  | nil => rfl
  | cons n ns ih => simp [strides, ih]

theorem length_dimInfos (fl axes) : (dimInfos fl axes).length = axes.length := by
  simp [dimInfos, length_strides]

/-- In-order evaluation of all dimensions gives the row-major position of the sample's cell. -/
theorem ndIndex_dimInfos (axes : List Axis) (hp : ∀ a ∈ axes, 0 < a.nbin) (xs : List ℚ)
    (hl : xs.length = axes.length) (d : ℤ) :
    ndIndex id (xs.zip (dimInfos id axes)) d =
      match cellIdx axes xs with | some ks => d + (flat axes ks : ℤ) | none => -1 := by
  induction axes generalizing xs d with
  | nil => cases xs with
    | nil => simp [dimInfos, strides, ndIndex, cellIdx, flat]
    | cons x xs => simp at hl
  | cons a as ih =>
    cases xs with
    | nil => simp at hl
    | cons x xs =>
      have e : dimInfos id (a :: as) = ⟨(as.map Axis.nbin).prod, a.low, a.high, a.binsize id⟩ :: dimInfos id as := by
        simp [dimInfos, strides]
      rw [e]
      simp only [List.zip_cons_cons, ndIndex, cellIdx]
      rcases axIdx_cases a (hp a (by simp)) x with ⟨h1, h2, _⟩ | ⟨k, hk, h1, h2, _⟩
      · rw [h2, if_pos rfl, h1]
      · rw [h2, if_neg (by omega), h1, ih (fun b hb => hp b (by simp [hb])) xs (by simpa using hl)]
        cases cellIdx as xs with
        | none => rfl
        | some ks => simp only [flat]; push_cast; ring

theorem zip_filter_fst {α β : Type} (p : α → Bool) (l : List α) (m : List β) (h : l.length = m.length) :
    ((l.zip m).filter (fun q => p q.1)).map Prod.fst = l.filter p := by
  induction l generalizing m with
  | nil => simp
  | cons a t ih =>
    cases m with
    | nil => simp at h
    | cons b m =>
      have := ih m (by simpa using h)
      by_cases hp : p a <;> simp [hp, this]

theorem findIndices_id_ge (x lo hi bs : ℚ) (hb : 0 ≤ bs) : -1 ≤ findIndices id x lo hi bs := by
  unfold findIndices
  split
  · exact le_rfl
  · rename_i h
    push Not at h
    have : 0 ≤ (x - lo) / bs := div_nonneg (by linarith) hb
    simp only [id, pyInt, this, if_true]
    have := Int.floor_nonneg.2 this
    omega

theorem fillnd_step (axes : List Axis) (hp : ∀ a ∈ axes, 0 < a.nbin) (coords : List Coord)
    (hl : coords.length = axes.length) (ht : ∀ c ∈ coords, c.dtype = .int64 ∨ c.dtype = .float64) (i : ℕ) :
    let dims := (sortDims (coords.zip (dimInfos id axes))).map Prod.snd
    let ints := coords.filter (fun c => c.dtype = .int64)
    let floats := coords.filter (fun c => c.dtype = .float64)
    let d0 := ndIndex id ((ints.map (·.raw i)).zip dims) 0
    (if d0 = -1 then -1 else ndIndex id ((floats.map (·.raw i)).zip (dims.drop ints.length)) d0) =
      match cellIdx axes (coords.map (·.raw i)) with | some ks => (flat axes ks : ℤ) | none => -1 := by
  intro dims ints floats d0
  set cs := coords.zip (dimInfos id axes) with hcs
  have hlen : coords.length = (dimInfos id axes).length := by rw [length_dimInfos, hl]
  have hcst : ∀ p ∈ cs, p.1.dtype = .int64 ∨ p.1.dtype = .float64 := fun p hp' => ht _ (List.of_mem_zip hp').1
  set F0 := cs.filter (fun p => p.1.dtype = .int64) with hF0
  set F1 := cs.filter (fun p => p.1.dtype = .float64) with hF1
  have hd : dims = F0.map Prod.snd ++ F1.map Prod.snd := by
    simp only [dims]; rw [sortDims_eq cs hcst, List.map_append]
  have hi : ints = F0.map Prod.fst := by
    simp only [ints]
    exact (zip_filter_fst (fun c : Coord => decide (c.dtype = .int64)) coords _ hlen).symm
  have hf : floats = F1.map Prod.fst := by
    simp only [floats]
    exact (zip_filter_fst (fun c : Coord => decide (c.dtype = .float64)) coords _ hlen).symm
  let g : Coord × DimInfo → ℚ × DimInfo := fun p => (p.1.raw i, p.2)
  have z0 : (ints.map (·.raw i)).zip dims = F0.map g := by
    rw [hd, hi, List.map_map]
    have : (F0.map ((fun c : Coord => c.raw i) ∘ Prod.fst)).zip (F0.map Prod.snd ++ F1.map Prod.snd)
        = (F0.map ((fun c : Coord => c.raw i) ∘ Prod.fst)).zip (F0.map Prod.snd) := by
      have := List.zip_append (l₁ := F0.map ((fun c : Coord => c.raw i) ∘ Prod.fst)) (r₁ := [])
        (l₂ := F0.map Prod.snd) (r₂ := F1.map Prod.snd) (by simp)
      simpa using this
    rw [this, List.zip_map']; rfl
  have z1 : (floats.map (·.raw i)).zip (dims.drop ints.length) = F1.map g := by
    rw [hd, hi, hf, List.map_map, List.length_map]
    rw [show F0.length = (F0.map Prod.snd).length by simp, List.drop_left, List.zip_map']; rfl
  -- sequential evaluation over F0 ++ F1
  have seq : (if d0 = -1 then -1 else ndIndex id ((floats.map (·.raw i)).zip (dims.drop ints.length)) d0) =
      ndIndex id ((F0 ++ F1).map g) 0 := by
    simp only [d0]
    rw [z0, z1]
    rw [ndIndex_eq id (F0.map g) 0]
    by_cases h : ∀ p ∈ F0.map g, findIndices id p.1 p.2.low p.2.high p.2.binsize ≠ -1
    · have hnn : 0 ≤ ((F0.map g).map (fun p => (p.2.stride : ℤ) * findIndices id p.1 p.2.low p.2.high p.2.binsize)).sum := by
        apply List.sum_nonneg
        intro z hz
        obtain ⟨p, hp', rfl⟩ := List.mem_map.1 hz
        have hne := h p hp'
        apply mul_nonneg (by positivity)
        obtain ⟨q, hq, rfl⟩ := List.mem_map.1 hp'
        have hqc : q ∈ cs := (List.mem_filter.1 hq).1
        have hqd := (List.of_mem_zip hqc).2
        simp only [dimInfos] at hqd
        obtain ⟨n, hn, hqn⟩ := List.getElem_of_mem hqd
        simp only [List.getElem_zipWith] at hqn
        simp only [g] at hne ⊢
        rw [← hqn] at hne ⊢
        simp only at hne ⊢
        set a := axes[n]'(by simp at hn; omega) with ha
        rcases axIdx_cases a (hp a (List.getElem_mem _)) (q.1.raw i) with ⟨_, h2, _⟩ | ⟨k, hk, _, h2, _⟩
        · exact absurd h2 hne
        · rw [h2]; positivity
      rw [if_pos h, if_neg (by omega), ndIndex_eq, ndIndex_eq]
      by_cases h1 : ∀ p ∈ F1.map g, findIndices id p.1 p.2.low p.2.high p.2.binsize ≠ -1
      · rw [if_pos h1, if_pos (by rw [List.map_append]; intro p hp'; rcases List.mem_append.1 hp' with h' | h'; exact h p h'; exact h1 p h')]
        rw [List.map_append, List.map_append, List.sum_append]; ring
      · rw [if_neg h1, if_neg (fun hh => h1 (fun p hp' => hh p (by rw [List.map_append]; exact List.mem_append_right _ hp')))]
    · rw [if_neg h, if_pos rfl, ndIndex_eq, if_neg (fun hh => h (fun p hp' => hh p (by rw [List.map_append]; exact List.mem_append_left _ hp')))]
  rw [seq]
  -- permutation of cs
  have perm : ((F0 ++ F1).map g).Perm (cs.map g) := by
    apply List.Perm.map
    have : F1 = cs.filter (fun p => !decide (p.1.dtype = .int64)) := by
      rw [hF1]; apply List.filter_congr
      intro p hp'
      rcases hcst p hp' with h | h <;> simp [h]
    rw [this]
    exact List.filter_append_perm _ _
  have e1 : ndIndex id ((F0 ++ F1).map g) 0 = ndIndex id (cs.map g) 0 := by
    rw [ndIndex_eq, ndIndex_eq]
    have : (∀ p ∈ (F0 ++ F1).map g, findIndices id p.1 p.2.low p.2.high p.2.binsize ≠ -1) ↔
        (∀ p ∈ cs.map g, findIndices id p.1 p.2.low p.2.high p.2.binsize ≠ -1) :=
      ⟨fun h p hp' => h p (perm.mem_iff.2 hp'), fun h p hp' => h p (perm.mem_iff.1 hp')⟩
    simp only [this]
    rw [(perm.map (fun p : ℚ × DimInfo => (p.2.stride : ℤ) * findIndices id p.1 p.2.low p.2.high p.2.binsize)).sum_eq]
  have e2 : cs.map g = (coords.map (·.raw i)).zip (dimInfos id axes) := by
    rw [hcs, List.zip_map_left]; rfl
  rw [e1, e2, ndIndex_dimInfos axes hp _ (by simpa using hl)]
  cases cellIdx axes (coords.map (·.raw i)) <;> simp

theorem fillndLoop_eq (fa : ℚ → ℚ) (axes : List Axis) (hp : ∀ a ∈ axes, 0 < a.nbin) (coords : List Coord)
    (hl : coords.length = axes.length) (ht : ∀ c ∈ coords, c.dtype = .int64 ∨ c.dtype = .float64)
    (l : List (ℕ × ℚ)) (v : List ℚ) (hv : v.length = (axes.map Axis.nbin).prod) :
    fillndLoop id fa (coords.filter (fun c => c.dtype = .int64)) (coords.filter (fun c => c.dtype = .float64))
      ((sortDims (coords.zip (dimInfos id axes))).map Prod.snd) v l =
      ((l.map (fun p => (coords.map (·.raw p.1), p.2))).foldl (specStepF fa axes) v, .ok ()) := by
  induction l generalizing v with
  | nil => rfl
  | cons p t ih =>
    obtain ⟨i, w⟩ := p
    have hs := fillnd_step axes hp coords hl ht i
    simp only at hs
    simp only [fillndLoop, List.map_cons, List.foldl_cons]
    rcases cellIdx_cases axes hp (coords.map (·.raw i)) with ⟨h1, _, _⟩ | ⟨ks, h1, h2, _⟩
    · rw [h1] at hs
      have hss : specStepF fa axes v (coords.map (·.raw i), w) = v := by simp [specStepF, h1]
      rw [hss]
      split
      · exact ih v hv
      · rename_i hne
        rw [if_neg hne] at hs
        rw [if_pos hs]; exact ih v hv
    · rw [h1] at hs
      have hss : specStepF fa axes v (coords.map (·.raw i), w) = v.modify (flat axes ks) (fun x => fa (x + w)) := by simp [specStepF, h1]
      rw [hss]
      split
      · rename_i he
        rw [if_pos he] at hs; simp at hs
      · rename_i hne
        rw [if_neg hne] at hs
        simp only at hs
        rw [hs, if_neg (by omega), addAt_some fa v _ w (by rw [hv]; exact flat_lt axes ks h2)]
        exact ih _ (by simpa using hv)

end Verif.Hist
