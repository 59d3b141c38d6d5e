/- C175: what `auto_find_center_rings` returns. -/
import Verif.Roi.Auto

namespace Verif.Roi.Auto
open Verif

theorem mem_outliers {α : Type} (pts : List α) (inl : List Bool) (q : α) :
    q ∈ outliers pts inl ↔ ∃ i : ℕ, pts[i]? = some q ∧ inl[i]? = some false := by
  unfold outliers
  induction pts generalizing inl with
  | nil => simp
  | cons a l ih =>
    cases inl with
    | nil => simp
    | cons b m =>
      have ih' := ih m
      constructor
      · intro h
        cases b with
        | true =>
          simp only [List.zip_cons_cons, List.filterMap_cons, if_true] at h
          obtain ⟨i, h1, h2⟩ := ih'.1 h
          exact ⟨i + 1, by simpa using h1, by simpa using h2⟩
        | false =>
          simp only [List.zip_cons_cons, List.filterMap_cons, Bool.false_eq_true, if_false, List.mem_cons] at h
          rcases h with h | h
          · exact ⟨0, by simp [h], by simp⟩
          · obtain ⟨i, h1, h2⟩ := ih'.1 h
            exact ⟨i + 1, by simpa using h1, by simpa using h2⟩
      · rintro ⟨i, h1, h2⟩
        cases i with
        | zero =>
          simp only [List.getElem?_cons_zero, Option.some.injEq] at h1 h2
          subst h1; subst h2
          simp
        | succ i =>
          rw [List.getElem?_cons_succ] at h1 h2
          have := ih'.2 ⟨i, h1, h2⟩
          cases b <;> simp only [List.zip_cons_cons, List.filterMap_cons, if_true, Bool.false_eq_true, if_false, List.mem_cons]
          · exact Or.inr this
          · exact this

theorem outliers_sublist {α : Type} (pts : List α) (inl : List Bool) : (outliers pts inl).Sublist pts := by
  unfold outliers
  induction pts generalizing inl with
  | nil => simp
  | cons a l ih =>
    cases inl with
    | nil => simp
    | cons b m =>
      cases b <;> simp only [List.zip_cons_cons, List.filterMap_cons, if_true, Bool.false_eq_true, if_false]
      · exact (ih m).cons₂ a
      · exact (ih m).cons a

/-- Ring `k` of a list of fits passes through pixel `p`: the circle of its truncated radius around the truncated centre of the
first fit. -/
def Spec.OnRing (perimeter : ℤ → ℤ → ℤ → List (ℕ × ℕ)) (c : ℤ × ℤ) (fits : List Fit) (k : ℕ) (p : ℕ × ℕ) : Prop :=
  ∃ f, fits[k]? = some f ∧ p ∈ perimeter c.2 c.1 (pyInt f.r)

theorem loop_trace {α : Type} (ransac : ℕ → List α → Py Fit) (perimeter : ℤ → ℤ → ℤ → List (ℕ × ℕ)) (c : ℤ × ℤ) :
    ∀ (todo i : ℕ) (pts : List α) (image : ℕ × ℕ → ℚ) (radii : List ℚ) (c' : Option (ℤ × ℤ)) (img' : ℕ × ℕ → ℚ) (radii' : List ℚ),
      0 < i → loop ransac perimeter todo i pts image radii (some c) = .ok (c', img', radii') →
      c' = some c ∧ ∃ (fits : List Fit) (left : ℕ → List α), fits.length = todo ∧ radii' = radii ++ fits.map (·.r) ∧ left 0 = pts ∧
        (∀ k f, fits[k]? = some f → ransac (i + k) (left k) = .ok f ∧ left (k + 1) = outliers (left k) f.inliers) ∧
        (∀ p, ((∀ k, ¬ Spec.OnRing perimeter c fits k p) → img' p = image p) ∧
          ∀ k, Spec.OnRing perimeter c fits k p → (∀ m, k < m → ¬ Spec.OnRing perimeter c fits m p) → img' p = ((i + k : ℕ) : ℚ) + 1) := by
  intro todo
  induction todo with
  | zero =>
    intro i pts image radii c' img' radii' _ h
    cases h
    refine ⟨rfl, [], fun _ => pts, rfl, by simp, rfl, by simp, fun p => ⟨fun _ => rfl, ?_⟩⟩
    rintro k ⟨f, hf, _⟩
    simp at hf
  | succ todo ih =>
    intro i pts image radii c' img' radii' hi h
    unfold loop at h
    cases hr : ransac i pts with
    | error e => rw [hr] at h; cases h
    | ok f =>
      rw [hr] at h
      simp only [if_neg hi.ne', Option.getD_some] at h
      obtain ⟨h1, fits, left, h2, h3, h4, h5, h6⟩ := ih _ _ _ _ _ _ _ (Nat.succ_pos i) h
      refine ⟨h1, f :: fits, fun k => match k with | 0 => pts | k + 1 => left k, by simp [h2], by simp [h3], rfl, ?_, ?_⟩
      · intro k g hg
        cases k with
        | zero =>
          rw [List.getElem?_cons_zero] at hg
          cases hg
          exact ⟨hr, h4⟩
        | succ k =>
          rw [List.getElem?_cons_succ] at hg
          have := h5 k g hg
          refine ⟨?_, this.2⟩
          rw [show i + (k + 1) = i + 1 + k by omega]
          exact this.1
      · intro p
        have hs : ∀ k, Spec.OnRing perimeter c (f :: fits) (k + 1) p ↔ Spec.OnRing perimeter c fits k p := by
          intro k; unfold Spec.OnRing; rw [List.getElem?_cons_succ]
        have h0 : Spec.OnRing perimeter c (f :: fits) 0 p ↔ p ∈ perimeter c.2 c.1 (pyInt f.r) := by
          unfold Spec.OnRing; simp
        constructor
        · intro hn
          rw [(h6 p).1 (fun k => by rw [← hs]; exact hn _), draw, if_neg (by rw [← h0]; exact hn 0)]
        · intro k hk hlast
          cases k with
          | zero =>
            rw [(h6 p).1 (fun k => by rw [← hs]; exact hlast _ (Nat.succ_pos k)), draw, if_pos (h0.1 hk)]
            simp
          | succ k =>
            rw [(h6 p).2 k ((hs k).1 hk) (fun m hm => by rw [← hs]; exact hlast _ (by omega))]
            congr 2
            omega

/-- C175: a call that returns made `no_rings` circle fits, at least one.  The centre is that of the first fit, cut to
integers; the radii are those of the fits in order; the first fit used all edge points and each later one the points that the
fit before it did not claim; a pixel on a ring carries the number (from 1) of the last ring through it, all rings being drawn
around the first centre, and all other pixels keep their grey value. -/
theorem C175_result {α : Type} (ransac : ℕ → List α → Py Fit) (perimeter : ℤ → ℤ → ℤ → List (ℕ × ℕ)) (edgePts : List α)
    (image : ℕ × ℕ → ℚ) (n : ℕ) (c : ℤ × ℤ) (img' : ℕ × ℕ → ℚ) (radii : List ℚ)
    (h : autoFindCenterRings ransac perimeter edgePts image n = .ok (c, img', radii)) :
    ∃ (fits : List Fit) (left : ℕ → List α), fits.length = n ∧ radii = fits.map (·.r) ∧
      (∃ f, fits[0]? = some f ∧ c = (pyInt f.cx, pyInt f.cy)) ∧ left 0 = edgePts ∧
      (∀ k f, fits[k]? = some f → ransac k (left k) = .ok f ∧ (left (k + 1)).Sublist (left k) ∧
        ∀ q, q ∈ left (k + 1) ↔ ∃ i : ℕ, (left k)[i]? = some q ∧ f.inliers[i]? = some false) ∧
      (∀ p, ((∀ k, ¬ Spec.OnRing perimeter c fits k p) → img' p = image p) ∧
        ∀ k, Spec.OnRing perimeter c fits k p → (∀ m, k < m → ¬ Spec.OnRing perimeter c fits m p) → img' p = (k : ℚ) + 1) := by
  unfold autoFindCenterRings at h
  cases n with
  | zero => simp [loop] at h
  | succ n =>
    unfold loop at h
    cases hr : ransac 0 edgePts with
    | error e => rw [hr] at h; cases h
    | ok f =>
      rw [hr] at h
      simp only [if_true] at h
      generalize hl : loop ransac perimeter n (0 + 1) (outliers edgePts f.inliers)
        (draw image (perimeter (pyInt f.cy) (pyInt f.cx) (pyInt f.r)) (((0 : ℕ) : ℚ) + 1)) ([] ++ [f.r]) (some (pyInt f.cx, pyInt f.cy)) = res at h
      cases res with
      | error e => cases h
      | ok t =>
        obtain ⟨c', img2, rad2⟩ := t
        obtain ⟨h1, fits, left, h2, h3, h4, h5, h6⟩ := loop_trace ransac perimeter _ n (0 + 1) _ _ _ _ _ _ Nat.one_pos hl
        subst h1
        cases h
        refine ⟨f :: fits, fun k => match k with | 0 => edgePts | k + 1 => left k, by simp [h2], by simp [h3], ⟨f, rfl, rfl⟩, rfl, ?_, ?_⟩
        · intro k g hg
          cases k with
          | zero =>
            rw [List.getElem?_cons_zero] at hg
            cases hg
            refine ⟨hr, ?_, fun q => ?_⟩
            · show (left 0).Sublist edgePts
              rw [h4]; exact outliers_sublist _ _
            · show q ∈ left 0 ↔ _
              rw [h4]; exact mem_outliers _ _ _
          | succ k =>
            rw [List.getElem?_cons_succ] at hg
            have := h5 k g hg
            refine ⟨?_, ?_, fun q => ?_⟩
            · show ransac (k + 1) (left k) = _
              rw [show k + 1 = 0 + 1 + k by omega]; exact this.1
            · show (left (k + 1)).Sublist (left k)
              rw [this.2]; exact outliers_sublist _ _
            · show q ∈ left (k + 1) ↔ _
              rw [this.2]; exact mem_outliers _ _ _
        · intro p
          have hs : ∀ k, Spec.OnRing perimeter (pyInt f.cx, pyInt f.cy) (f :: fits) (k + 1) p ↔ Spec.OnRing perimeter (pyInt f.cx, pyInt f.cy) fits k p := by
            intro k; unfold Spec.OnRing; rw [List.getElem?_cons_succ]
          have h0 : Spec.OnRing perimeter (pyInt f.cx, pyInt f.cy) (f :: fits) 0 p ↔ p ∈ perimeter (pyInt f.cy) (pyInt f.cx) (pyInt f.r) := by
            unfold Spec.OnRing; simp
          constructor
          · intro hn
            rw [(h6 p).1 (fun k => by rw [← hs]; exact hn _), draw, if_neg (by rw [← h0]; exact hn 0)]
          · intro k hk hlast
            cases k with
            | zero =>
              rw [(h6 p).1 (fun k => by rw [← hs]; exact hlast _ (Nat.succ_pos k)), draw, if_pos (h0.1 hk)]
            | succ k =>
              rw [(h6 p).2 k ((hs k).1 hk) (fun m hm => by rw [← hs]; exact hlast _ (by omega))]
              congr 2
              omega

/-- C175: no edge point is used for two rings, if ransac reports one flag per point and the points are distinct. -/
theorem C175_points_used_once {α : Type} (ransac : ℕ → List α → Py Fit) (perimeter : ℤ → ℤ → ℤ → List (ℕ × ℕ)) (edgePts : List α)
    (image : ℕ × ℕ → ℚ) (n : ℕ) (c : ℤ × ℤ) (img' : ℕ × ℕ → ℚ) (radii : List ℚ) (hd : edgePts.Nodup)
    (h : autoFindCenterRings ransac perimeter edgePts image n = .ok (c, img', radii)) :
    ∃ (fits : List Fit) (left : ℕ → List α), fits.length = n ∧ left 0 = edgePts ∧
      (∀ k f, fits[k]? = some f → ransac k (left k) = .ok f) ∧
      ∀ k m f, k < m → m ≤ n → fits[k]? = some f → ∀ (i : ℕ) q, (left k)[i]? = some q → f.inliers[i]? = some true → q ∉ left m := by
  obtain ⟨fits, left, h1, _, _, h4, h5, _⟩ := C175_result ransac perimeter edgePts image n c img' radii h
  refine ⟨fits, left, h1, h4, fun k f hf => (h5 k f hf).1, ?_⟩
  have hget : ∀ k, k < n → ∃ f, fits[k]? = some f := fun k hk => ⟨fits[k], List.getElem?_eq_getElem (by omega)⟩
  have hsub : ∀ k m, k ≤ m → m ≤ n → (left m).Sublist (left k) := by
    intro k m hkm
    induction m, hkm using Nat.le_induction with
    | base => intro _; exact List.Sublist.refl _
    | succ m hm ih =>
      intro hn
      obtain ⟨f, hf⟩ := hget m (by omega)
      exact ((h5 m f hf).2.1).trans (ih (by omega))
  intro k m f hkm hmn hf i q hq hi hmem
  have hk1 : q ∈ left (k + 1) := (hsub (k + 1) m hkm hmn).subset hmem
  obtain ⟨j, hj, hj'⟩ := ((h5 k f hf).2.2 q).1 hk1
  have hnd : (left k).Nodup := (hsub 0 k (Nat.zero_le _) (by omega)).nodup (h4 ▸ hd)
  have hil : i < (left k).length := by
    by_contra hc; rw [List.getElem?_eq_none (by omega)] at hq; cases hq
  have hij : i = j := (List.getElem?_inj hil hnd).1 (hq.trans hj.symm)
  subst hij
  rw [hi] at hj'
  cases hj'

/-- C175: without rings there is no centre to return: UnboundLocalError. -/
theorem C175_no_rings {α : Type} (ransac : ℕ → List α → Py Fit) (perimeter : ℤ → ℤ → ℤ → List (ℕ × ℕ)) (edgePts : List α)
    (image : ℕ × ℕ → ℚ) : autoFindCenterRings ransac perimeter edgePts image 0 = .error .unboundLocal := rfl

/-- C175 is false where the returned image is documented to hold the indices of the ring pixels: a pixel on no ring keeps its
grey value, and one of grey value 1 cannot be told from a pixel of ring 1. -/
theorem C175_labels_refuted :
    ∃ (ransac : ℕ → List ℕ → Py Fit) (perimeter : ℤ → ℤ → ℤ → List (ℕ × ℕ)) (image : ℕ × ℕ → ℚ) (c : ℤ × ℤ) (img' : ℕ × ℕ → ℚ) (radii : List ℚ),
      (∀ p, 0 ≤ image p ∧ image p ≤ 1) ∧ autoFindCenterRings ransac perimeter [0] image 1 = .ok (c, img', radii) ∧
      img' (5, 5) = 1 ∧ ∀ r, (5, 5) ∉ perimeter c.2 c.1 r := by
  refine ⟨fun _ _ => .ok ⟨2, 2, 1, [true]⟩, fun _ _ _ => [(1, 2), (2, 1), (2, 3), (3, 2)], fun _ => 1, _, _, _, fun _ => ⟨by norm_num, le_rfl⟩, rfl, ?_, ?_⟩
  · rfl
  · intro r
    show (5, 5) ∉ [(1, 2), (2, 1), (2, 3), (3, 2)]
    decide

/-- What holds: in an image whose grey values lie below 1, the value `k + 1` marks exactly the pixels
whose last ring is ring `k`. -/
theorem C175_labels_partial {α : Type} (ransac : ℕ → List α → Py Fit) (perimeter : ℤ → ℤ → ℤ → List (ℕ × ℕ)) (edgePts : List α)
    (image : ℕ × ℕ → ℚ) (n : ℕ) (c : ℤ × ℤ) (img' : ℕ × ℕ → ℚ) (radii : List ℚ) (hlt : ∀ p, image p < 1)
    (h : autoFindCenterRings ransac perimeter edgePts image n = .ok (c, img', radii)) :
    ∃ fits : List Fit, radii = fits.map (·.r) ∧ ∀ p (k : ℕ), img' p = (k : ℚ) + 1 ↔
      Spec.OnRing perimeter c fits k p ∧ ∀ m, k < m → ¬ Spec.OnRing perimeter c fits m p := by
  obtain ⟨fits, _, h1, h2, _, _, _, h6⟩ := C175_result ransac perimeter edgePts image n c img' radii h
  refine ⟨fits, h2, fun p k => ⟨fun hk => ?_, fun hk => (h6 p).2 k hk.1 hk.2⟩⟩
  by_cases hex : ∃ k, Spec.OnRing perimeter c fits k p
  · have hbd : ∀ k, Spec.OnRing perimeter c fits k p → k ≤ n := by
      rintro k ⟨f, hf, _⟩
      by_contra hc
      rw [List.getElem?_eq_none (by omega)] at hf
      cases hf
    classical
    obtain ⟨k0, hk0⟩ := hex
    have hm := Nat.findGreatest_spec (P := fun k => Spec.OnRing perimeter c fits k p) (hbd k0 hk0) hk0
    have hgt : ∀ m, Nat.findGreatest (fun k => Spec.OnRing perimeter c fits k p) n < m → ¬ Spec.OnRing perimeter c fits m p :=
      fun m hm' hon => Nat.findGreatest_is_greatest hm' (hbd m hon) hon
    have := (h6 p).2 _ hm hgt
    rw [hk] at this
    have hkeq : k = Nat.findGreatest (fun k => Spec.OnRing perimeter c fits k p) n := by
      have h := add_right_cancel this
      exact_mod_cast h
    rw [hkeq]
    exact ⟨hm, hgt⟩
  · have := (h6 p).1 (fun k hk' => hex ⟨k, hk'⟩)
    have h0 := hlt p
    rw [← this, hk] at h0
    have : (0 : ℚ) ≤ k := Nat.cast_nonneg k
    linarith

/-- Two rings, the second crossing the first: the hypotheses are met and the later ring wins. -/
example : ∃ img', autoFindCenterRings (fun i pts => if pts = [] then .error .valueError else if i = 0 then .ok ⟨5/2, 7/2, 1, [true, false, true]⟩ else .ok ⟨9, 9, 2, [true]⟩)
    (fun _ _ r => if r = 1 then [(3, 1), (3, 3)] else [(3, 3), (1, 2)]) [10, 11, 12] (fun _ => 1/2) 2 = .ok ((2, 3), img', [1, 2]) ∧
    img' (3, 1) = 1 ∧ img' (3, 3) = 2 ∧ img' (1, 2) = 2 ∧ img' (0, 0) = 1/2 := by
  have e1 : pyInt (5/2) = 2 := by decide +kernel
  have e2 : pyInt (7/2) = 3 := by decide +kernel
  have e3 : pyInt 1 = 1 := by decide +kernel
  have e4 : pyInt 2 = 2 := by decide +kernel
  refine ⟨draw (draw (fun _ => 1/2) [(3, 1), (3, 3)] 1) [(3, 3), (1, 2)] 2, ?_, by decide +kernel, by decide +kernel, by decide +kernel, by decide +kernel⟩
  simp [autoFindCenterRings, loop, outliers, e1, e2, e3, e4]
  norm_num

end Verif.Roi.Auto
