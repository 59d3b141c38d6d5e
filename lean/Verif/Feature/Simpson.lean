/- Property C208: integrate_ROI with Simpson's rule. -/
import Verif.Feature.SpecProps
import Mathlib.Tactic.FieldSimp

namespace Verif.Feature
open Verif

/-! ### specification -/

/-- Simpson's rule on three points (x, y), not necessarily equally spaced. -/
def Spec.triple (p q r : ℚ × ℚ) : ℚ :=
  (r.1 - p.1) / 6 * (p.2 * (2 - (r.1 - q.1) / (q.1 - p.1)) + q.2 * ((r.1 - p.1) ^ 2 / ((q.1 - p.1) * (r.1 - q.1))) +
    r.2 * (2 - (q.1 - p.1) / (r.1 - q.1)))

/-- The composite rule: consecutive triples of points that share their ends.  Meant for an odd number of points. -/
def Spec.simpson : List (ℚ × ℚ) → ℚ
  | p :: q :: r :: t => Spec.triple p q r + Spec.simpson (r :: t)
  | _ => 0

/-- What is assumed of `scipy.integrate.simps(y, x=x)`: for an odd number of samples it is the composite rule.  Nothing is
assumed for an even number, where SciPy's versions differ. -/
def Spec.IsSimps (simps : List ℚ → List ℚ → ℚ) : Prop :=
  ∀ y x : List ℚ, y.length = x.length → y.length % 2 = 1 → simps y x = Spec.simpson (List.zip x y)

/-- The samples within the limits. -/
def Spec.within (x y : List ℚ) (lo hi : ℚ) : List (ℚ × ℚ) := (List.zip x y).filter (fun p => lo ≤ p.1 ∧ p.1 ≤ hi)

/-! ### Simpson's rule -/

theorem triple_exact (a b c x0 x1 x2 : ℚ) (h1 : x0 < x1) (h2 : x1 < x2) :
    Spec.triple (x0, a + b * x0 + c * x0 ^ 2) (x1, a + b * x1 + c * x1 ^ 2) (x2, a + b * x2 + c * x2 ^ 2) =
      (a * x2 + b * x2 ^ 2 / 2 + c * x2 ^ 3 / 3) - (a * x0 + b * x0 ^ 2 / 2 + c * x0 ^ 3 / 3) := by
  have d1 : x1 - x0 ≠ 0 := by intro h; linarith
  have d2 : x2 - x1 ≠ 0 := by intro h; linarith
  unfold Spec.triple
  simp only
  field_simp
  ring

theorem simpson_exact (a b c : ℚ) : ∀ (n : ℕ) (p : ℚ × ℚ) (l : List (ℚ × ℚ)), l.length = 2 * n →
    (p :: l).Pairwise (fun u v => u.1 < v.1) → (∀ u ∈ p :: l, u.2 = a + b * u.1 + c * u.1 ^ 2) →
    Spec.simpson (p :: l) = (a * ((p :: l).getLast (by simp)).1 + b * ((p :: l).getLast (by simp)).1 ^ 2 / 2 + c * ((p :: l).getLast (by simp)).1 ^ 3 / 3) -
      (a * p.1 + b * p.1 ^ 2 / 2 + c * p.1 ^ 3 / 3) := by
  intro n
  induction n with
  | zero =>
    intro p l hl _ _
    have : l = [] := List.length_eq_zero_iff.1 (by omega)
    subst this
    simp [Spec.simpson]
  | succ n ih =>
    intro p l hl hs hv
    match l, hl with
    | q :: r :: t, hl =>
      have hs2 := List.pairwise_cons.1 hs
      have hs3 := List.pairwise_cons.1 hs2.2
      rw [Spec.simpson, ih r t (by simp at hl; omega) hs3.2 (fun u hu => hv u (by simp at hu ⊢; tauto))]
      have e0 : p = (p.1, a + b * p.1 + c * p.1 ^ 2) := Prod.ext rfl (hv p (by simp))
      have e1 : q = (q.1, a + b * q.1 + c * q.1 ^ 2) := Prod.ext rfl (hv q (by simp))
      have e2 : r = (r.1, a + b * r.1 + c * r.1 ^ 2) := Prod.ext rfl (hv r (by simp))
      have := triple_exact a b c p.1 q.1 r.1 (hs2.1 q (by simp)) (hs3.1 r (by simp))
      rw [← e0, ← e1, ← e2] at this
      rw [this]
      simp only [List.getLast_cons_cons]
      ring

theorem simpson_append : ∀ (n : ℕ) (A : List (ℚ × ℚ)) (m : ℚ × ℚ) (B : List (ℚ × ℚ)), A.length = 2 * n →
    Spec.simpson (A ++ m :: B) = Spec.simpson (A ++ [m]) + Spec.simpson (m :: B) := by
  intro n
  induction n with
  | zero =>
    intro A m B hA
    have : A = [] := List.length_eq_zero_iff.1 (by omega)
    subst this
    simp [Spec.simpson]
  | succ n ih =>
    intro A m B hA
    match A, hA with
    | [p, q], hA =>
      simp only [List.cons_append, List.nil_append, Spec.simpson]
      ring
    | p :: q :: r :: t, hA =>
      simp only [List.cons_append, Spec.simpson]
      have := ih (r :: t) m B (by simp at hA ⊢; omega)
      simp only [List.cons_append] at this
      rw [this]
      ring

/-! ### samples within limits -/

section
variable (x y : List ℚ) (hxy : x.length = y.length) (hx : x.Pairwise (· < ·))
include hxy hx

theorem zip_sorted : (List.zip x y).Pairwise (fun u v => u.1 < v.1) := by
  have e1 : (List.zip x y).map Prod.fst = x := List.map_fst_zip (by omega)
  rw [← e1, List.pairwise_map] at hx
  exact hx

theorem within_split (lo mid hi : ℚ) (h1 : lo ≤ mid) (h2 : mid ≤ hi) (hm : mid ∈ x) :
    ∃ A v B, Spec.within x y lo hi = A ++ (mid, v) :: B ∧ Spec.within x y lo mid = A ++ [(mid, v)] ∧ Spec.within x y mid hi = (mid, v) :: B := by
  have hs := zip_sorted x y hxy hx
  set l := List.zip x y with hl
  -- the sample at mid
  obtain ⟨v, hv⟩ : ∃ v, (mid, v) ∈ l := by
    obtain ⟨k, hk, rfl⟩ := List.mem_iff_getElem.1 hm
    refine ⟨y[k]'(by omega), ?_⟩
    rw [hl, List.mem_iff_getElem]
    exact ⟨k, by simp; omega, by simp⟩
  obtain ⟨L, R, hLR⟩ := List.append_of_mem hv
  rw [hLR, List.pairwise_append] at hs
  obtain ⟨_, hR, hL⟩ := hs
  have hR' := (List.pairwise_cons.1 hR).1
  have hL' : ∀ p ∈ L, p.1 < mid := fun p hp => hL p hp (mid, v) (by simp)
  refine ⟨L.filter (fun p => decide (lo ≤ p.1)), v, R.filter (fun p => decide (p.1 ≤ hi)), ?_, ?_, ?_⟩
  all_goals
    unfold Spec.within
    rw [← hl, hLR, List.filter_append, List.filter_cons_of_pos (by simp [h1, h2])]
  · congr 1
    · apply List.filter_congr; intro p hp
      have := hL' p hp
      simp only [decide_eq_decide]
      exact ⟨fun h => h.1, fun h => ⟨h, by linarith⟩⟩
    · congr 1
      apply List.filter_congr; intro p hp
      have := hR' p hp
      simp only [decide_eq_decide]
      exact ⟨fun h => h.2, fun h => ⟨by simp only at this; linarith, h⟩⟩
  · congr 1
    · apply List.filter_congr; intro p hp
      have := hL' p hp
      simp only [decide_eq_decide]
      exact ⟨fun h => h.1, fun h => ⟨h, by linarith⟩⟩
    · congr 1
      rw [List.filter_eq_nil_iff]
      intro p hp
      have := hR' p hp
      simp only [decide_eq_true_eq, not_and, not_le]
      intro _; exact this
  · have : L.filter (fun p => decide (mid ≤ p.1 ∧ p.1 ≤ hi)) = [] := by
      rw [List.filter_eq_nil_iff]
      intro p hp
      have := hL' p hp
      simp only [decide_eq_true_eq, not_and]
      intro h; linarith
    rw [this, List.nil_append]
    congr 1
    apply List.filter_congr; intro p hp
    have := hR' p hp
    simp only [decide_eq_decide]
    exact ⟨fun h => h.2, fun h => ⟨by simp only at this; linarith, h⟩⟩

theorem within_ends (lo hi : ℚ) (h : lo < hi) (hlo : lo ∈ x) (hhi : hi ∈ x) :
    ∃ v M w, Spec.within x y lo hi = (lo, v) :: M ∧ (Spec.within x y lo hi).getLast? = some (hi, w) := by
  obtain ⟨A, v, B, e1, _, e3⟩ := within_split x y hxy hx lo lo hi le_rfl h.le hlo
  obtain ⟨A', w, B', f1, f2, _⟩ := within_split x y hxy hx lo hi hi h.le le_rfl hhi
  exact ⟨v, B, w, e3, by rw [f2]; simp⟩

/-- The call succeeds and is the sum over the regions of the composite rule on the samples within the limits. -/
theorem integrate_within (simps : List ℚ → List ℚ → ℚ) (hsimps : Spec.IsSimps simps) (h2 : 2 ≤ x.length) (lims : List (ℚ × ℚ)) (hne : lims ≠ [])
    (hlims : ∀ p ∈ lims, p.1 < p.2 ∧ p.1 ∈ x ∧ p.2 ∈ x ∧ (Spec.within x y p.1 p.2).length % 2 = 1) :
    integrateROI simps x y (lims.map Prod.fst) (lims.map Prod.snd) = .ok ((lims.map (fun p => Spec.simpson (Spec.within x y p.1 p.2))).sum) := by
  have hz : List.zip (lims.map Prod.fst) (lims.map Prod.snd) = lims := by
    clear hlims hne
    induction lims <;> simp_all
  have hgood : ¬ Spec.BadROI x y (lims.map Prod.fst) (lims.map Prod.snd) := by
    unfold Spec.BadROI
    rw [hz]
    rintro (h | h | h | ⟨p, hp, h⟩ | ⟨v, hv, h⟩ | ⟨v, hv, h⟩)
    · exact h hxy
    · exact h (Or.inl hx)
    · simp at h
    · have := (hlims p hp).1; linarith
    · obtain ⟨p, hp, rfl⟩ := List.mem_map.1 hv
      exact lt_irrefl _ (h _ (hlims p hp).2.1)
    · obtain ⟨p, hp, rfl⟩ := List.mem_map.1 hv
      exact lt_irrefl _ (h _ (hlims p hp).2.2.1)
  have herr := (C58_errors_partial simps x y (lims.map Prod.fst) (lims.map Prod.snd) h2 (by simpa using hne)).2
  rcases hres : integrateROI simps x y (lims.map Prod.fst) (lims.map Prod.snd) with e | v
  · exact absurd (herr.1 ⟨e, hres⟩) hgood
  · rw [C99_sum_over_regions simps x y _ _ v h2 hx hres, hz]
    congr 2
    apply List.map_congr_left
    intro p hp
    obtain ⟨g1, g2, g3, g4⟩ := hlims p hp
    have hr := C99_region_samples_partial x y hxy hx p.1 p.2 g1 g3
    change _ = Spec.within x y p.1 p.2 at hr
    have hlen : (region x y p.1 p.2).1.length = (region x y p.1 p.2).2.length := by
      unfold region; simp [hxy]
    rw [← hr, List.length_zip, hlen, min_self] at g4
    rw [hsimps _ _ hlen (by rw [hlen]; exact g4), hr]

end

/-! ## C208 -/

/-- C208: a quadratic signal is integrated exactly over regions that begin and end at samples and contain an odd number of
them, whatever the spacing. -/
theorem C208_quadratic_partial (simps : List ℚ → List ℚ → ℚ) (hsimps : Spec.IsSimps simps) (x : List ℚ) (h2 : 2 ≤ x.length) (hx : x.Pairwise (· < ·))
    (a b c : ℚ) (lims : List (ℚ × ℚ)) (hne : lims ≠ [])
    (hlims : ∀ p ∈ lims, p.1 < p.2 ∧ p.1 ∈ x ∧ p.2 ∈ x ∧ (x.filter (fun u => p.1 ≤ u ∧ u ≤ p.2)).length % 2 = 1) :
    integrateROI simps x (x.map (fun u => a + b * u + c * u ^ 2)) (lims.map Prod.fst) (lims.map Prod.snd) =
      .ok ((lims.map (fun p => (a * p.2 + b * p.2 ^ 2 / 2 + c * p.2 ^ 3 / 3) - (a * p.1 + b * p.1 ^ 2 / 2 + c * p.1 ^ 3 / 3))).sum) := by
  set f : ℚ → ℚ := fun u => a + b * u + c * u ^ 2 with hf
  have hzip : List.zip x (x.map f) = x.map (fun u => (u, f u)) := by
    clear hx h2 hlims
    induction x <;> simp_all
  have hw : ∀ lo hi, Spec.within x (x.map f) lo hi = (x.filter (fun u => lo ≤ u ∧ u ≤ hi)).map (fun u => (u, f u)) := by
    intro lo hi
    unfold Spec.within
    rw [hzip, List.filter_map]; rfl
  rw [integrate_within x (x.map f) (by simp) hx simps hsimps h2 lims hne (by
    intro p hp
    obtain ⟨g1, g2, g3, g4⟩ := hlims p hp
    exact ⟨g1, g2, g3, by rw [hw]; simpa using g4⟩)]
  congr 2
  apply List.map_congr_left
  intro p hp
  obtain ⟨g1, g2, g3, g4⟩ := hlims p hp
  obtain ⟨v, M, w, e1, e2⟩ := within_ends x (x.map f) (by simp) hx p.1 p.2 g1 g2 g3
  have hlen : (Spec.within x (x.map f) p.1 p.2).length % 2 = 1 := by rw [hw]; simpa using g4
  have hsort : (Spec.within x (x.map f) p.1 p.2).Pairwise (fun u v => u.1 < v.1) := (zip_sorted x (x.map f) (by simp) hx).filter _
  have hval : ∀ u ∈ Spec.within x (x.map f) p.1 p.2, u.2 = a + b * u.1 + c * u.1 ^ 2 := by
    intro u hu
    rw [hw] at hu
    obtain ⟨t, _, rfl⟩ := List.mem_map.1 hu
    rfl
  rw [e1] at e2 hlen hsort hval ⊢
  rw [simpson_exact a b c (M.length / 2) (p.1, v) M (by simp at hlen; omega) hsort hval]
  rw [List.getLast?_eq_getLast_of_ne_nil (by simp)] at e2
  rw [Option.some.inj e2]

/-- C208: a region may be cut at a sample such that both parts contain an odd number of samples. -/
theorem C208_split_partial (simps : List ℚ → List ℚ → ℚ) (hsimps : Spec.IsSimps simps) (x y : List ℚ) (hxy : x.length = y.length) (h2 : 2 ≤ x.length)
    (hx : x.Pairwise (· < ·)) (lo mid hi : ℚ) (h1 : lo < mid) (h3 : mid < hi) (hlo : lo ∈ x) (hmid : mid ∈ x) (hhi : hi ∈ x)
    (ho1 : (Spec.within x y lo mid).length % 2 = 1) (ho2 : (Spec.within x y mid hi).length % 2 = 1) :
    ∃ v, integrateROI simps x y [lo, mid] [mid, hi] = .ok v ∧ integrateROI simps x y [lo] [hi] = .ok v := by
  obtain ⟨A, v, B, e1, e2, e3⟩ := within_split x y hxy hx lo mid hi h1.le h3.le hmid
  have r1 := integrate_within x y hxy hx simps hsimps h2 [(lo, mid), (mid, hi)] (by simp) (by
    intro p hp
    simp only [List.mem_cons, List.not_mem_nil, or_false] at hp
    rcases hp with rfl | rfl
    · exact ⟨h1, hlo, hmid, ho1⟩
    · exact ⟨h3, hmid, hhi, ho2⟩)
  have r2 := integrate_within x y hxy hx simps hsimps h2 [(lo, hi)] (by simp) (by
    intro p hp
    simp only [List.mem_cons, List.not_mem_nil, or_false] at hp
    subst hp
    refine ⟨h1.trans h3, hlo, hhi, ?_⟩
    rw [e2] at ho1; rw [e3] at ho2; rw [e1]
    simp at ho1 ho2 ⊢; omega)
  refine ⟨_, r1, ?_⟩
  rw [e2] at ho1
  simp only [List.map_cons, List.map_nil, List.sum_cons, List.sum_nil, add_zero] at r1 r2 ⊢
  rw [r2, e1, e2, e3, simpson_append (A.length / 2) A (mid, v) B (by simp at ho1; omega)]

/-- A function with the assumed property, and the theorems' cases. -/
example : Spec.IsSimps (fun y x => Spec.simpson (List.zip x y)) := fun _ _ _ _ => rfl
example : integrateROI (fun y x => Spec.simpson (List.zip x y)) [0, 1, 3, 4, 6] [0, 1, 9, 16, 36] [0, 3] [3, 6] = .ok 72 ∧
    integrateROI (fun y x => Spec.simpson (List.zip x y)) [0, 1, 3, 4, 6] [0, 1, 9, 16, 36] [0] [6] = .ok 72 := by decide +kernel

/-- C208 fails for limits that are not samples: both are moved up to the next sample, so that the constant signal 1 has integral
2 over `[1/2, 3]`, and 4 over `[1, 9/2]`. -/
theorem C208_limits_refuted : ∃ simps, Spec.IsSimps simps ∧
    integrateROI simps [0, 1, 2, 3, 4, 5] [1, 1, 1, 1, 1, 1] [1 / 2] [3] = .ok 2 ∧
    integrateROI simps [0, 1, 2, 3, 4, 5] [1, 1, 1, 1, 1, 1] [1] [9 / 2] = .ok 4 :=
  ⟨fun y x => Spec.simpson (List.zip x y), fun _ _ _ _ => rfl, by decide +kernel⟩

end Verif.Feature
