/- C262: rings, segmented_rings and bar with integer edges (skbeam/core/roi.py 99-137, 224-298, 536-614). -/
import Verif.Wrap.Model
import Verif.Roi.Model
import Mathlib.Tactic.NormNum

namespace Verif.Wrap
open Verif Verif.Roi

/-- `np.all(np.diff(edges) >= 0)`, roi.py 130, 264, 603, for edges of integer type `t`: the differences are computed in the type. -/
def risingI (t : IntType) (e : List ℤ) : Bool := (List.zip e e.tail).all (fun p => decide (0 ≤ t.wrap (p.2 - p.1)))

/-- roi.py 125-135, 259-269, 598-608 for edges of integer type `t`. -/
def edgesOkI (t : IntType) (e : List ℤ) : Bool := decide (e.length % 2 = 0) && risingI t e

/-- The edges as numbers. -/
def asReals (e : List ℤ) : List ℝ := e.map (fun z : ℤ => (z : ℝ))
/-- see `asReals`. -/
def asRats (e : List ℤ) : List ℚ := e.map (fun z : ℤ => (z : ℚ))

/-- `np.digitize(x, edges, right=False)` for descending edges: the number of edges above x. -/
def digitizeDown {α : Type} [LinearOrder α] (edges : List α) (x : α) : ℕ := edges.countP (fun e => decide (x < e))

/-- `_make_roi`, roi.py 559-561, one pixel, descending edges. -/
def makeRoiDown {α : Type} [LinearOrder α] (edges : List α) (x : α) : ℕ :=
  let d := digitizeDown edges x
  ((if d % 2 ≠ 0 then d else 0) + 1) / 2

/-- `_make_roi`, roi.py 559-561: `np.digitize` accepts ascending and descending edges and raises ValueError for others. -/
def labeller {α : Type} [LinearOrder α] (edges : List α) : Py (α → ℕ) :=
  if edges.IsChain (· ≤ ·) then .ok (makeRoi edges)
  else if edges.IsChain (· ≥ ·) then .ok (makeRoiDown edges)
  else .error .valueError

/-- `rings`, roi.py 99-137, for edges of integer type `t`. -/
noncomputable def ringsI (t : IntType) (e : List ℤ) (center : ℝ × ℝ) (shape : ℕ × ℕ) : Py (List (List ℕ)) :=
  if edgesOkI t e then do
    let f ← labeller (asReals e)
    .ok ((Geom.radialGrid center shape none).map (fun row => row.map f))
  else .error .valueError

/-- `bar`, roi.py 565-614, for edges of integer type `t`; otherwise as `Roi.bar`. -/
def barI (t : IntType) (e : List ℤ) (shape : ℕ × ℕ) (horizontal : Bool) (values : Option (List ℚ)) : Py (List ℕ) :=
  if edgesOkI t e then do
    let v := match values with
      | none => (List.range shape.1).flatMap (fun (r : ℕ) => List.replicate shape.2 (r : ℚ))
      | some v => v
    let v := if horizontal then v else (List.range shape.1).flatMap (fun _ => (List.range shape.2).map (fun (c : ℕ) => (c : ℚ)))
    let f ← labeller (asRats e)
    if v.length = shape.1 * shape.2 then .ok (v.map f) else .error .valueError
  else .error .valueError

/-- `segmented_rings`, roi.py 224-298, for edges of integer type `t`; otherwise as `Roi.segmentedRings`. -/
noncomputable def segmentedRingsI (t : IntType) (e : List ℤ) (segments : ℕ ⊕ List ℝ) (center : ℝ × ℝ) (shape : ℕ × ℕ) (offset : ℝ) :
    Py (List (List ℕ)) :=
  if edgesOkI t e then
    .ok (List.zipWith (fun rr aa => List.zipWith (fun ρ a => segLabel (asReals e) (segmentEdges segments offset) ρ (wrapAngle a)) rr aa)
      (Geom.radialGrid center shape none) (Geom.angleGrid center shape none))
  else .error .valueError

/-! ### Specification -/

/-- The three functions do with the integers what they do with the same numbers in floating point. -/
def Spec.AsFloats (t : IntType) (e : List ℤ) : Prop :=
  (∀ center shape, ringsI t e center shape = rings (e.map (fun z : ℤ => (z : ℝ))) center shape) ∧
  (∀ shape hor values, barI t e shape hor values = bar (e.map (fun z : ℤ => (z : ℚ))) shape hor values) ∧
  ∀ segments center shape offset,
    segmentedRingsI t e segments center shape offset = segmentedRings (e.map (fun z : ℤ => (z : ℝ))) segments center shape offset

/-! ### Lemmas -/

theorem rising_iff (t : IntType) (e : List ℤ) (h : ∀ p ∈ List.zip e e.tail, t.Holds (p.2 - p.1)) :
    risingI t e = decide (e.IsChain (· ≤ ·)) := by
  rw [Bool.eq_iff_iff, decide_eq_true_iff]
  unfold risingI
  induction e with
  | nil => simp
  | cons a l ih =>
    cases l with
    | nil => simp
    | cons b l =>
      have h1 := ih (fun p hp => h p (by simp only [List.tail_cons, List.zip_cons_cons, List.mem_cons]; exact Or.inr hp))
      have h2 := wrap_of_holds t (b - a) (h (a, b) (by simp))
      simp only [List.tail_cons, List.zip_cons_cons, List.all_cons, Bool.and_eq_true, decide_eq_true_eq, List.isChain_cons_cons] at h1 ⊢
      rw [h2, h1]
      exact and_congr_left' (by omega)

theorem chain_cast {α : Type} [LinearOrder α] (f : ℤ → α) (hf : ∀ a b, f a ≤ f b ↔ a ≤ b) (e : List ℤ) :
    (e.map f).IsChain (· ≤ ·) ↔ e.IsChain (· ≤ ·) := by
  rw [List.isChain_map]
  constructor <;> intro h <;> exact h.imp (fun a b hab => by simpa [hf] using hab)

theorem chain_cast_ge {α : Type} [LinearOrder α] (f : ℤ → α) (hf : ∀ a b, f a ≤ f b ↔ a ≤ b) (e : List ℤ) :
    (e.map f).IsChain (· ≥ ·) ↔ e.IsChain (· ≥ ·) := by
  rw [List.isChain_map]
  constructor <;> intro h <;> exact h.imp (fun a b hab => by simpa [hf] using hab)

theorem edgesOk_cast {α : Type} [LinearOrder α] (f : ℤ → α) (hf : ∀ a b, f a ≤ f b ↔ a ≤ b) (t : IntType) (e : List ℤ)
    (h : risingI t e = decide (e.IsChain (· ≤ ·))) : edgesOkI t e = edgesOk (e.map f) := by
  unfold edgesOkI edgesOk
  rw [h, List.length_map]
  simp only [chain_cast f hf]

theorem asFloats (t : IntType) (e : List ℤ) (h : risingI t e = decide (e.IsChain (· ≤ ·))) : Spec.AsFloats t e := by
  have hR : ∀ a b : ℤ, (a : ℝ) ≤ b ↔ a ≤ b := fun a b => Int.cast_le
  have hQ : ∀ a b : ℤ, (a : ℚ) ≤ b ↔ a ≤ b := fun a b => Int.cast_le
  refine ⟨fun c s => ?_, fun s hor v => ?_, fun seg c s o => ?_⟩
  · unfold ringsI rings
    rw [edgesOk_cast _ hR t e h]
    by_cases hk : edgesOk (e.map (fun z : ℤ => (z : ℝ))) = true
    · rw [if_pos hk, if_pos hk]
      have : (e.map (fun z : ℤ => (z : ℝ))).IsChain (· ≤ ·) := by
        unfold edgesOk at hk; exact of_decide_eq_true (Bool.and_eq_true _ _ ▸ hk).2
      unfold labeller asReals
      rw [if_pos this]; rfl
    · rw [if_neg hk, if_neg hk]
  · unfold barI bar
    rw [edgesOk_cast _ hQ t e h]
    by_cases hk : edgesOk (e.map (fun z : ℤ => (z : ℚ))) = true
    · rw [if_pos hk, if_pos hk]
      have : (e.map (fun z : ℤ => (z : ℚ))).IsChain (· ≤ ·) := by
        unfold edgesOk at hk; exact of_decide_eq_true (Bool.and_eq_true _ _ ▸ hk).2
      unfold labeller asRats
      rw [if_pos this]; rfl
    · rw [if_neg hk, if_neg hk]
  · unfold segmentedRingsI segmentedRings
    rw [edgesOk_cast _ hR t e h]; rfl

theorem rising_uint (b : ℕ) (hb : 0 < b) (e : List ℤ) : risingI (uint b hb) e = true := by
  unfold risingI
  rw [List.all_eq_true]
  intro p _
  rw [wrap_uint, decide_eq_true_eq]
  exact Int.emod_nonneg _ (by positivity)

theorem count_down {α : Type} [LinearOrder α] (e : List α) (x : α) : digitizeDown e x + digitizeG e x = e.length := by
  unfold digitizeDown digitizeG
  induction e with
  | nil => rfl
  | cons a l ih =>
    rw [List.countP_cons, List.countP_cons, List.length_cons]
    by_cases h : x < a
    · have : ¬ a ≤ x := not_le.2 h
      simp only [h, this, decide_true, decide_false, if_true]; simp; omega
    · have : a ≤ x := not_lt.1 h
      simp only [h, this, decide_true, decide_false, if_true]; simp; omega

/-- From outside: descending edges number the rings in the opposite order. -/
theorem label_down {α : Type} [LinearOrder α] (e : List α) (he : e.length % 2 = 0) (x : α) :
    makeRoiDown e x = if makeRoi e.reverse x = 0 then 0 else e.length / 2 + 1 - makeRoi e.reverse x := by
  have h1 := count_down e x
  have h2 : digitizeG e.reverse x = digitizeG e x := by unfold digitizeG; rw [List.countP_reverse]
  unfold makeRoiDown makeRoi
  simp only [h2]
  split_ifs <;> omega

/-! ## C262 -/

/-- C262: holds whenever the differences of neighbouring edges fit the type. -/
theorem C262_exact_partial (t : IntType) (e : List ℤ) (h : ∀ p ∈ List.zip e e.tail, t.Holds (p.2 - p.1)) : Spec.AsFloats t e :=
  asFloats t e (rising_iff t e h)

/-- C262: thus for signed types and edges that are not negative. -/
theorem C262_signed_partial (b : ℕ) (hb : 0 < b) (e : List ℤ) (h : ∀ a ∈ e, 0 ≤ a ∧ (sint b hb).Holds a) : Spec.AsFloats (sint b hb) e := by
  apply C262_exact_partial
  rintro ⟨p, q⟩ hp
  have h1 := h p (List.of_mem_zip hp).1
  have h2 := h q (List.mem_of_mem_tail (List.of_mem_zip hp).2)
  simp only [IntType.Holds, IntType.lo, IntType.hi, sint, if_true] at h1 h2 ⊢
  constructor <;> omega

/-- C262: and for unsigned types and ascending edges. -/
theorem C262_ascending_partial (b : ℕ) (hb : 0 < b) (e : List ℤ) (h : e.IsChain (· ≤ ·)) : Spec.AsFloats (uint b hb) e :=
  asFloats _ e (by rw [rising_uint]; simpa using h)

/-- C262, where the claim fails: unsigned edges in descending order are accepted by `rings`, which numbers the rings from outside;
the same numbers in floating point raise ValueError. -/
theorem C262_descending_refuted (b : ℕ) (hb : 0 < b) (e : List ℤ) (he : e.length % 2 = 0) (h2 : 2 ≤ e.length) (hd : e.IsChain (· > ·))
    (center : ℝ × ℝ) (shape : ℕ × ℕ) :
    ringsI (uint b hb) e center shape = .ok ((Geom.radialGrid center shape none).map (fun row => row.map (fun ρ =>
      if makeRoi (asReals e).reverse ρ = 0 then 0 else e.length / 2 + 1 - makeRoi (asReals e).reverse ρ))) ∧
    rings (asReals e) center shape = .error .valueError := by
  have hR : ∀ a b : ℤ, (a : ℝ) ≤ b ↔ a ≤ b := fun a b => Int.cast_le
  have hn : ¬ (asReals e).IsChain (· ≤ ·) := by
    unfold asReals
    rw [chain_cast _ hR]
    intro hc
    match e, h2, hd, hc with
    | a :: b :: l, _, hd, hc =>
      have := (List.isChain_cons_cons.1 hd).1
      have := (List.isChain_cons_cons.1 hc).1
      omega
  have hg : (asReals e).IsChain (· ≥ ·) := by
    unfold asReals
    rw [chain_cast_ge _ hR]
    exact hd.imp (fun a b hab => le_of_lt hab)
  constructor
  · unfold ringsI edgesOkI labeller
    rw [rising_uint, if_pos (by simpa using he), if_neg hn, if_pos hg]
    simp only [bind, Except.bind]
    congr 2
    funext row
    congr 1
    funext ρ
    rw [label_down _ (by unfold asReals; rwa [List.length_map])]
    simp only [asReals, List.length_map]
    try rfl
  · unfold rings edgesOk
    rw [if_neg (by simp [hn])]

/-- C262, where the claim fails: unsigned edges in any order are accepted by `segmented_rings`. -/
theorem C262_segmented_refuted (b : ℕ) (hb : 0 < b) (e : List ℤ) (he : e.length % 2 = 0) (hd : ¬ e.IsChain (· ≤ ·))
    (segments : ℕ ⊕ List ℝ) (center : ℝ × ℝ) (shape : ℕ × ℕ) (offset : ℝ) :
    (∃ r, segmentedRingsI (uint b hb) e segments center shape offset = .ok r) ∧
    segmentedRings (asReals e) segments center shape offset = .error .valueError := by
  have hR : ∀ a b : ℤ, (a : ℝ) ≤ b ↔ a ≤ b := fun a b => Int.cast_le
  constructor
  · unfold segmentedRingsI edgesOkI
    rw [rising_uint, if_pos (by simpa using he)]
    exact ⟨_, rfl⟩
  · unfold segmentedRings edgesOk
    rw [if_neg]
    rw [Bool.and_eq_true, decide_eq_true_eq, decide_eq_true_eq]
    rintro ⟨-, h⟩
    exact hd ((chain_cast _ hR e).1 h)

/-- C262, where the claim fails: ascending edges of a signed type are refused when they span more than its range (-100 and 100 of type int8). -/
theorem C262_wide_refuted (shape : ℕ × ℕ) (values : Option (List ℚ)) (horizontal : Bool) :
    barI (sint 8 (by norm_num)) [-100, 100] shape horizontal values = .error .valueError ∧ edgesOk (asRats [-100, 100]) = true := by
  constructor
  · unfold barI
    rw [if_neg (by decide)]
  · simp [edgesOk, asRats]

example : ([50, 40, 30, 20] : List ℤ).length % 2 = 0 ∧ ([50, 40, 30, 20] : List ℤ).IsChain (· > ·) := by decide
example : makeRoiDown ([50, 40, 30, 20] : List ℚ) 45 = 1 ∧ makeRoiDown ([50, 40, 30, 20] : List ℚ) 25 = 2 := by decide +kernel
example : ∀ a ∈ ([2, 100] : List ℤ), 0 ≤ a ∧ (sint 8 (by norm_num)).Holds a := by
  simp [IntType.Holds, IntType.lo, IntType.hi, sint]

end Verif.Wrap
