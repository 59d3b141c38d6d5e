/- Property C184: grid3d with a mask of integers (skbeam/core/utils.py:841-846, 877-894, 929-930). -/
import Verif.Grid.Props

namespace Verif.Grid
open Verif

/-- `q[np.ravel(binary_mask)]` with an integer mask, utils.py:929-930: NumPy reads the entries as row numbers, not as
yes/no (negative entries, which a 0/1 mask does not have, are not modelled). -/
def applyIntMask (pts : List Pt) (m : List ℕ) : Py (List Pt) :=
  m.mapM (fun i => match pts[i]? with | some p => .ok p | none => .error .indexError)

/-- The points given to the C code when the mask holds integers: the shape check and the repetition for every image
(utils.py:878-894) do not look at the type of the entries. -/
def gridPointsInt (shape : List ℕ) (img : List (Option ℚ)) (q : List (ℚ × ℚ × ℚ)) (mask : List ℕ × List ℕ) : Py (List Pt) :=
  match insertIntensity q img with
  | .error e => .error e
  | .ok pts =>
    if mask.1 = shape then applyIntMask pts mask.2
    else match shape with
      | [] => .error .indexError
      | 0 :: _ => .error .indexError
      | n :: single => if mask.1 = single then applyIntMask pts ((List.replicate n mask.2).flatten) else .error .valueError

theorem applyIntMask_mem (pts : List Pt) (m : List ℕ) (hm : ∀ i ∈ m, i ≤ 1) (out : List Pt) (h : applyIntMask pts m = .ok out) :
    out.length = m.length ∧ ∀ p ∈ out, pts[0]? = some p ∨ pts[1]? = some p := by
  unfold applyIntMask at h
  induction m generalizing out with
  | nil =>
    simp only [List.mapM_nil, pure, Except.pure, Except.ok.injEq] at h
    subst h; simp
  | cons i t ih =>
    rw [List.mapM_cons] at h
    simp only [bind, Except.bind, pure, Except.pure] at h
    cases hi : pts[i]? with
    | none => rw [hi] at h; cases h
    | some p =>
      rw [hi] at h
      simp only at h
      split at h
      · cases h
      · next out' ho =>
        simp only [Except.ok.injEq] at h
        subst h
        obtain ⟨h1, h2⟩ := ih (fun i hi => hm i (by simp [hi])) out' ho
        refine ⟨by simp [h1], ?_⟩
        intro p' hp'
        rcases List.mem_cons.1 hp' with rfl | hp'
        · have : i ≤ 1 := hm i (by simp)
          rcases Nat.le_one_iff_eq_zero_or_eq_one.1 this with rfl | rfl
          · exact Or.inl hi
          · exact Or.inr hi
        · exact h2 p' hp'

/-- C184 is false: with a mask of integers 0 and 1 of the stack's shape, whatever its pattern, as many points are gridded
as there are pixels, and every one of them is the very first or the very second pixel of the stack. -/
theorem C184_integer_mask_refuted (shape : List ℕ) (img : List (Option ℚ)) (q : List (ℚ × ℚ × ℚ)) (m : List ℕ)
    (hq : q.length = img.length) (hm : m.length = img.length) (h01 : ∀ i ∈ m, i ≤ 1) (out : List Pt)
    (h : gridPointsInt shape img q (shape, m) = .ok out) :
    out.length = img.length ∧ ∀ p ∈ out, Spec.point q img 0 = some p ∨ Spec.point q img 1 = some p := by
  unfold gridPointsInt at h
  rw [insertIntensity_eq q img hq] at h
  simp only [if_true] at h
  obtain ⟨h1, h2⟩ := applyIntMask_mem _ _ h01 out h
  have hpts : ∀ k : ℕ, (List.zipWith (fun (p : ℚ × ℚ × ℚ) v => (⟨p.1, p.2.1, p.2.2, v⟩ : Pt)) q img)[k]? = Spec.point q img k := by
    intro k
    rw [List.getElem?_zipWith]
    unfold Spec.point
    cases q[k]? <;> cases img[k]? <;> rfl
  refine ⟨by rw [h1, hm], ?_⟩
  intro p hp
  have := h2 p hp
  rwa [hpts, hpts] at this

theorem applyIntMask_eq (pts : List Pt) (m : List ℕ) :
    ((∀ i ∈ m, i < pts.length) → applyIntMask pts m = .ok (m.filterMap (fun i => pts[i]?))) ∧
    ((∃ i ∈ m, pts.length ≤ i) → applyIntMask pts m = .error .indexError) := by
  unfold applyIntMask
  induction m with
  | nil => exact ⟨fun _ => rfl, by simp⟩
  | cons i t ih =>
    rw [List.mapM_cons]
    simp only [bind, Except.bind, pure, Except.pure]
    constructor
    · intro h
      have hi := h i (by simp)
      simp only [List.getElem?_eq_getElem hi, ih.1 (fun j hj => h j (by simp [hj])), List.filterMap_cons]
    · rintro ⟨j, hj, hle⟩
      by_cases hi : i < pts.length
      · simp only [List.getElem?_eq_getElem hi]
        rw [ih.2 ?_]
        rcases List.mem_cons.1 hj with rfl | hj
        · omega
        · exact ⟨j, hj, hle⟩
      · simp only [List.getElem?_eq_none (not_lt.1 hi)]

/-- C184, exactly: the entries of an integer mask, repeated for every image if the mask has the shape of one, are the numbers
of the pixels that are gridded; a number that is no pixel raises IndexError, a mask of any other shape ValueError. -/
theorem C184_outcome (n : ℕ) (hn : 0 < n) (single : List ℕ) (img : List (Option ℚ)) (q : List (ℚ × ℚ × ℚ)) (s m used : List ℕ)
    (hq : q.length = img.length) (hu : used = if s = n :: single then m else (List.replicate n m).flatten) :
    (s ≠ n :: single → s ≠ single → gridPointsInt (n :: single) img q (s, m) = .error .valueError) ∧
    (s = n :: single ∨ s = single →
      ((∀ i ∈ used, i < img.length) → gridPointsInt (n :: single) img q (s, m) = .ok (used.filterMap (Spec.point q img))) ∧
      ((∃ i ∈ used, img.length ≤ i) → gridPointsInt (n :: single) img q (s, m) = .error .indexError)) := by
  set pts := List.zipWith (fun (p : ℚ × ℚ × ℚ) v => (⟨p.1, p.2.1, p.2.2, v⟩ : Pt)) q img with hp
  have hlen : pts.length = img.length := by simp [hp, hq]
  have hpts : (fun k : ℕ => pts[k]?) = Spec.point q img := by
    funext k
    rw [hp, List.getElem?_zipWith]
    unfold Spec.point
    cases q[k]? <;> cases img[k]? <;> rfl
  have key : gridPointsInt (n :: single) img q (s, m) =
      if s = n :: single then applyIntMask pts m
      else if s = single then applyIntMask pts ((List.replicate n m).flatten) else .error .valueError := by
    unfold gridPointsInt
    rw [insertIntensity_eq q img hq]
    obtain ⟨n', rfl⟩ : ∃ n', n = n' + 1 := ⟨n - 1, by omega⟩
    rfl
  rw [key]
  constructor
  · intro h1 h2
    rw [if_neg h1, if_neg h2]
  · intro h
    have h2 := applyIntMask_eq pts used
    rw [hlen, hpts] at h2
    by_cases h1 : s = n :: single
    · rw [if_pos h1] at hu ⊢
      subst hu
      exact h2
    · have h3 : s = single := h.resolve_left h1
      rw [if_neg h1] at hu ⊢
      rw [if_pos h3]
      subst hu
      exact h2

/-- A mask that should remove the first two of four pixels grids exactly those, twice each. -/
theorem C184_witness :
    gridPointsInt [1, 4] [some 1, some 2, some 3, some 4] [(0,0,0), (1,0,0), (2,0,0), (3,0,0)] ([1, 4], [0, 0, 1, 1]) =
      .ok [⟨0, 0, 0, some 1⟩, ⟨0, 0, 0, some 1⟩, ⟨1, 0, 0, some 2⟩, ⟨1, 0, 0, some 2⟩] ∧
    gridPoints [1, 4] [some 1, some 2, some 3, some 4] [(0,0,0), (1,0,0), (2,0,0), (3,0,0)]
        (some ([1, 4], [false, false, true, true])) =
      .ok [⟨2, 0, 0, some 3⟩, ⟨3, 0, 0, some 4⟩] := by decide +kernel

/-- What holds: the same pattern given as booleans removes exactly the pixels marked False (C45), for a mask of the
stack's shape. -/
theorem C184_boolean_partial (n : ℕ) (hn : 0 < n) (single : List ℕ) (img : List (Option ℚ)) (q : List (ℚ × ℚ × ℚ)) (m : List ℕ)
    (hq : q.length = n * single.prod) (hi : img.length = n * single.prod) (hm : m.length = n * single.prod) :
    gridPoints (n :: single) img q (some (n :: single, m.map (fun i => decide (i ≠ 0)))) =
      .ok ((List.range (n * single.prod)).filterMap (fun (k : ℕ) =>
        if (m[k]?).getD 0 ≠ 0 then Spec.point q img k else none)) := by
  have := (C45_mask n hn single img q (n :: single) (m.map (fun i => decide (i ≠ 0))) hq hi (by simp [hm])).2 (Or.inl rfl)
  rw [this]
  congr 1
  apply List.filterMap_congr
  intro k hk
  rw [List.mem_range] at hk
  have hne : n :: single ≠ single := fun h => by simpa using congrArg List.length h
  have hk' : k < m.length := by omega
  simp [Spec.kept, hne, hk']

end Verif.Grid
