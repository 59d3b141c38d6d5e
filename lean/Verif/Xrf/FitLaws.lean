/- Property C213: laws of the linear fit. -/
import Verif.Xrf.FitProps

namespace Verif.Xrf
open Finset

/-- The fitted spectrum: channel i of the sum of the columns with the given coefficients. -/
noncomputable def Spec.model (k : ℕ) (A : ℕ → ℕ → ℝ) (x : ℕ → ℝ) (i : ℕ) : ℝ := ∑ j ∈ range k, x j * A i j

/-- The columns can be told apart: no combination of them vanishes in all channels that count. -/
def Spec.Independent (m k : ℕ) (w : ℕ → ℝ) (A : ℕ → ℕ → ℝ) : Prop :=
  ∀ x : ℕ → ℝ, (∀ i < m, 0 < w i → Spec.model k A x i = 0) → ∀ j < k, x j = 0

theorem model_comm (k : ℕ) (A : ℕ → ℕ → ℝ) (x : ℕ → ℝ) (i : ℕ) : ∑ j ∈ range k, A i j * x j = Spec.model k A x i :=
  sum_congr rfl (fun _ _ => mul_comm _ _)

theorem cost_model (m k : ℕ) (w : ℕ → ℝ) (A : ℕ → ℕ → ℝ) (b x : ℕ → ℝ) :
    Spec.cost m k w A b x = ∑ i ∈ range m, w i * (Spec.model k A x i - b i) ^ 2 := by
  unfold Spec.cost
  simp only [model_comm]

theorem model_add (k : ℕ) (A : ℕ → ℕ → ℝ) (x d : ℕ → ℝ) (t : ℝ) (i : ℕ) :
    Spec.model k A (fun j => x j + t * d j) i = Spec.model k A x i + t * Spec.model k A d i := by
  unfold Spec.model
  rw [mul_sum, ← sum_add_distrib]
  exact sum_congr rfl (fun _ _ => by ring)

theorem cost_line (m k : ℕ) (w : ℕ → ℝ) (A : ℕ → ℕ → ℝ) (b x d : ℕ → ℝ) (t : ℝ) :
    Spec.cost m k w A b (fun j => x j + t * d j) = Spec.cost m k w A b x +
      2 * t * (∑ i ∈ range m, w i * Spec.model k A d i * (Spec.model k A x i - b i)) + t ^ 2 * ∑ i ∈ range m, w i * Spec.model k A d i ^ 2 := by
  simp only [cost_model, model_add]
  rw [mul_sum, mul_sum, ← sum_add_distrib, ← sum_add_distrib]
  exact sum_congr rfl (fun _ _ => by ring)

theorem slope_nonneg (p q e : ℝ) (he : 0 < e) (h : ∀ t, 0 ≤ t → t ≤ e → 0 ≤ 2 * t * p + t ^ 2 * q) : 0 ≤ p := by
  by_contra hp
  push Not at hp
  rcases le_or_gt q 0 with hq | hq
  · have := h e he.le le_rfl
    nlinarith [sq_nonneg e]
  · have h1 := h (min e (-p / q)) (le_min he.le (div_nonneg (by linarith) hq.le)) (min_le_left _ _)
    have ht : 0 < min e (-p / q) := lt_min he (div_pos (by linarith) hq)
    have h2 : min e (-p / q) * q ≤ -p := by
      have := min_le_right e (-p / q)
      rwa [le_div_iff₀ hq] at this
    nlinarith

theorem model_single (k : ℕ) (A : ℕ → ℕ → ℝ) (j : ℕ) (hj : j < k) (i : ℕ) : Spec.model k A (fun l => if l = j then 1 else 0) i = A i j := by
  unfold Spec.model
  rw [sum_eq_single j]
  · simp
  · intro l _ hl; simp [hl]
  · intro h; exact absurd (mem_range.2 hj) h

/-- The conditions of optimality. -/
theorem kkt (m k : ℕ) (w : ℕ → ℝ) (A : ℕ → ℕ → ℝ) (b x : ℕ → ℝ) (hx : ∀ j < k, 0 ≤ x j)
    (hmin : ∀ z : ℕ → ℝ, (∀ j < k, 0 ≤ z j) → Spec.cost m k w A b x ≤ Spec.cost m k w A b z) (j : ℕ) (hj : j < k) :
    0 ≤ ∑ i ∈ range m, w i * A i j * (Spec.model k A x i - b i) ∧
    (0 < x j → ∑ i ∈ range m, w i * A i j * (Spec.model k A x i - b i) = 0) := by
  have base : 0 ≤ ∑ i ∈ range m, w i * A i j * (Spec.model k A x i - b i) := by
    apply slope_nonneg _ (∑ i ∈ range m, w i * A i j ^ 2) 1 one_pos
    intro t ht _
    have := hmin (fun l => x l + t * (if l = j then 1 else 0)) (fun l hl => add_nonneg (hx l hl) (mul_nonneg ht (by split <;> norm_num)))
    rw [cost_line] at this
    simp only [model_single k A j hj] at this
    linarith
  refine ⟨base, fun hpos => le_antisymm ?_ base⟩
  have := slope_nonneg (-∑ i ∈ range m, w i * A i j * (Spec.model k A x i - b i)) (∑ i ∈ range m, w i * A i j ^ 2) (x j) hpos (by
    intro t ht ht'
    have := hmin (fun l => x l + (-t) * (if l = j then 1 else 0)) (fun l hl => by
      split_ifs with h
      · subst h; linarith
      · simpa using hx l hl)
    rw [cost_line] at this
    simp only [model_single k A j hj] at this
    nlinarith)
  linarith

theorem grad_model (m k : ℕ) (w : ℕ → ℝ) (A : ℕ → ℕ → ℝ) (r z : ℕ → ℝ) :
    ∑ i ∈ range m, w i * Spec.model k A z i * r i = ∑ j ∈ range k, z j * ∑ i ∈ range m, w i * A i j * r i := by
  unfold Spec.model
  simp only [mul_sum, sum_mul]
  rw [sum_comm]
  exact sum_congr rfl (fun _ _ => sum_congr rfl (fun _ _ => by ring))

theorem grad_self (m k : ℕ) (w : ℕ → ℝ) (A : ℕ → ℕ → ℝ) (b x : ℕ → ℝ) (hx : ∀ j < k, 0 ≤ x j)
    (hmin : ∀ z : ℕ → ℝ, (∀ j < k, 0 ≤ z j) → Spec.cost m k w A b x ≤ Spec.cost m k w A b z) :
    ∑ i ∈ range m, w i * Spec.model k A x i * (Spec.model k A x i - b i) = 0 := by
  rw [grad_model]
  apply sum_eq_zero
  intro j hj
  have hj' := mem_range.1 hj
  rcases (hx j hj').lt_or_eq with h | h
  · rw [(kkt m k w A b x hx hmin j hj').2 h, mul_zero]
  · rw [← h, zero_mul]

/-- Uniqueness. -/
theorem best_unique (m k : ℕ) (w : ℕ → ℝ) (hw : ∀ i < m, 0 ≤ w i) (A : ℕ → ℕ → ℝ) (hA : Spec.Independent m k w A) (b x : ℕ → ℝ) (hx : ∀ j < k, 0 ≤ x j)
    (hmin : ∀ z : ℕ → ℝ, (∀ j < k, 0 ≤ z j) → Spec.cost m k w A b x ≤ Spec.cost m k w A b z) (z : ℕ → ℝ) (hz : ∀ j < k, 0 ≤ z j)
    (hle : Spec.cost m k w A b z ≤ Spec.cost m k w A b x) : ∀ j < k, z j = x j := by
  have hl := cost_line m k w A b x (fun j => z j - x j) 1
  have e : (fun j => x j + 1 * (z j - x j)) = z := by funext j; ring
  rw [e] at hl
  have hd : ∀ i, Spec.model k A (fun j => z j - x j) i = Spec.model k A z i - Spec.model k A x i := by
    intro i; unfold Spec.model; rw [← sum_sub_distrib]; exact sum_congr rfl (fun _ _ => by ring)
  have hg : 0 ≤ ∑ i ∈ range m, w i * Spec.model k A (fun j => z j - x j) i * (Spec.model k A x i - b i) := by
    have h1 := grad_self m k w A b x hx hmin
    have h2 : 0 ≤ ∑ i ∈ range m, w i * Spec.model k A z i * (Spec.model k A x i - b i) := by
      rw [grad_model]
      exact sum_nonneg (fun j hj => mul_nonneg (hz j (mem_range.1 hj)) (kkt m k w A b x hx hmin j (mem_range.1 hj)).1)
    have h3 : ∑ i ∈ range m, w i * Spec.model k A (fun j => z j - x j) i * (Spec.model k A x i - b i) =
        ∑ i ∈ range m, w i * Spec.model k A z i * (Spec.model k A x i - b i) - ∑ i ∈ range m, w i * Spec.model k A x i * (Spec.model k A x i - b i) := by
      rw [← sum_sub_distrib]
      exact sum_congr rfl (fun i _ => by rw [hd]; ring)
    rw [h3, h1]; linarith
  have hq0 : ∀ i ∈ range m, 0 ≤ w i * Spec.model k A (fun j => z j - x j) i ^ 2 := fun i hi => mul_nonneg (hw i (mem_range.1 hi)) (sq_nonneg _)
  have hq : ∑ i ∈ range m, w i * Spec.model k A (fun j => z j - x j) i ^ 2 = 0 := by
    apply le_antisymm _ (sum_nonneg hq0)
    nlinarith
  have := hA (fun j => z j - x j) (fun i hi hwi => by
    have := (sum_eq_zero_iff_of_nonneg hq0).1 hq i (mem_range.2 hi)
    rcases mul_eq_zero.1 this with h | h
    · exact absurd h hwi.ne'
    · exact pow_eq_zero_iff (two_ne_zero) |>.1 h)
  intro j hj
  have := this j hj
  linarith

/-- The residuals are weighed with the given weights, or all with 1. -/
noncomputable def Spec.weight (weights : Option (ℕ → ℝ)) : ℕ → ℝ := weights.getD (fun _ => 1)

/-- A spectrum that is made of the components is taken apart correctly: the coefficients it was made with are returned and
the residual is 0.  In particular components it does not contain get the coefficient 0. -/
theorem C213_composition (nnls : Nnls) (hn : Spec.IsNnls nnls) (m k : ℕ) (A : ℕ → ℕ → ℝ) (b : ℕ → ℝ) (weights : Option (ℕ → ℝ))
    (hw : ∀ w, weights = some w → ∀ i < m, 0 ≤ w i) (hA : Spec.Independent m k (Spec.weight weights) A)
    (x : ℕ → ℝ) (hx : ∀ j < k, 0 ≤ x j) (hb : ∀ i < m, b i = Spec.model k A x i) :
    (∀ j < k, (nnlsFit nnls m k b A weights).1 j = x j) ∧ (nnlsFit nnls m k b A weights).2 = 0 := by
  obtain ⟨h1, h2, h3⟩ := C117_weighted nnls hn m k A b weights hw
  have hw' : ∀ i < m, 0 ≤ Spec.weight weights i := by
    cases weights with
    | none => intro i _; simp [Spec.weight]
    | some w => intro i hi; exact hw w rfl i hi
  have hc0 : Spec.cost m k (Spec.weight weights) A b x = 0 := by
    rw [cost_model]
    exact sum_eq_zero (fun i hi => by rw [hb i (mem_range.1 hi)]; ring)
  have hmin0 : 0 ≤ Spec.cost m k (Spec.weight weights) A b (nnlsFit nnls m k b A weights).1 :=
    sum_nonneg (fun i hi => mul_nonneg (hw' i (mem_range.1 hi)) (sq_nonneg _))
  constructor
  · intro j hj
    exact (best_unique m k _ hw' A hA b _ h1 h2 x hx (by rw [hc0]; exact hmin0) j hj).symm
  · rw [h3]
    have : Spec.cost m k (Spec.weight weights) A b (nnlsFit nnls m k b A weights).1 = 0 := le_antisymm ((h2 x hx).trans hc0.le) hmin0
    rw [show weights.getD (fun _ => 1) = Spec.weight weights from rfl, this, Real.sqrt_zero]

/-- Units: a spectrum in other units (c > 0), columns in other units (s j > 0) and weights in other units (v > 0) give
coefficients in the corresponding units; the residual is in the units of the spectrum and of the root of the weights. -/
theorem C213_units (nnls : Nnls) (hn : Spec.IsNnls nnls) (m k : ℕ) (A : ℕ → ℕ → ℝ) (b : ℕ → ℝ) (w : ℕ → ℝ) (hw : ∀ i < m, 0 ≤ w i)
    (c v : ℝ) (hc : 0 < c) (hv : 0 < v) (s : ℕ → ℝ) (hs : ∀ j < k, 0 < s j) :
    (nnlsFit nnls m k (fun i => c * b i) (fun i j => s j * A i j) (some (fun i => v * w i))).2 = √v * c * (nnlsFit nnls m k b A (some w)).2 ∧
    (Spec.Independent m k w A → ∀ j < k, (nnlsFit nnls m k (fun i => c * b i) (fun i j => s j * A i j) (some (fun i => v * w i))).1 j =
      c / s j * (nnlsFit nnls m k b A (some w)).1 j) := by
  obtain ⟨h1, h2, h3⟩ := C117_weighted nnls hn m k A b (some w) (fun _ h => by cases h; exact hw)
  obtain ⟨g1, g2, g3⟩ := C117_weighted nnls hn m k (fun i j => s j * A i j) (fun i => c * b i) (some (fun i => v * w i))
    (fun _ h => by cases h; intro i hi; exact mul_nonneg hv.le (hw i hi))
  simp only [Option.getD_some] at h2 h3 g2 g3
  set x := (nnlsFit nnls m k b A (some w)).1
  set y := (nnlsFit nnls m k (fun i => c * b i) (fun i j => s j * A i j) (some (fun i => v * w i))).1
  have hm : ∀ (z : ℕ → ℝ) i, Spec.model k (fun i j => s j * A i j) z i = c * Spec.model k A (fun j => s j / c * z j) i := by
    intro z i
    unfold Spec.model
    rw [mul_sum]
    exact sum_congr rfl (fun j _ => by field_simp)
  have hcost : ∀ z : ℕ → ℝ, Spec.cost m k (fun i => v * w i) (fun i j => s j * A i j) (fun i => c * b i) z = v * c ^ 2 * Spec.cost m k w A b (fun j => s j / c * z j) := by
    intro z
    rw [cost_model, cost_model, mul_sum]
    exact sum_congr rfl (fun i _ => by rw [hm]; ring)
  have hvc : 0 < v * c ^ 2 := by positivity
  have hcongr : ∀ p q : ℕ → ℝ, (∀ j < k, p j = q j) → Spec.cost m k w A b p = Spec.cost m k w A b q := by
    intro p q h
    unfold Spec.cost
    apply sum_congr rfl
    intro i _
    congr 3
    exact sum_congr rfl (fun j hj => by rw [h j (mem_range.1 hj)])
  have hy0 : ∀ j < k, 0 ≤ s j / c * y j := fun j hj => mul_nonneg (div_nonneg (hs j hj).le hc.le) (g1 j hj)
  have hx0 : ∀ j < k, 0 ≤ c / s j * x j := fun j hj => mul_nonneg (div_nonneg hc.le (hs j hj).le) (h1 j hj)
  have hback : Spec.cost m k w A b (fun j => s j / c * (c / s j * x j)) = Spec.cost m k w A b x :=
    hcongr _ _ (fun j hj => by have := (hs j hj).ne'; field_simp)
  have hle : Spec.cost m k w A b (fun j => s j / c * y j) ≤ Spec.cost m k w A b x := by
    have := g2 (fun j => c / s j * x j) hx0
    rw [hcost, hcost, hback] at this
    exact le_of_mul_le_mul_left this hvc
  have heq : Spec.cost m k w A b (fun j => s j / c * y j) = Spec.cost m k w A b x := le_antisymm hle (h2 _ hy0)
  constructor
  · rw [g3, h3, hcost, heq, Real.sqrt_mul (by positivity), Real.sqrt_mul hv.le, Real.sqrt_sq hc.le]
  · intro hA j hj
    have := best_unique m k w hw A hA b x h1 h2 (fun j => s j / c * y j) hy0 hle j hj
    have hs' := (hs j hj).ne'
    rw [← this]
    field_simp

/-- Further components can only improve the fit. -/
theorem C213_more_components (nnls : Nnls) (hn : Spec.IsNnls nnls) (m k k' : ℕ) (hk : k ≤ k') (A : ℕ → ℕ → ℝ) (b : ℕ → ℝ) (weights : Option (ℕ → ℝ))
    (hw : ∀ w, weights = some w → ∀ i < m, 0 ≤ w i) : (nnlsFit nnls m k' b A weights).2 ≤ (nnlsFit nnls m k b A weights).2 := by
  obtain ⟨h1, h2, h3⟩ := C117_weighted nnls hn m k A b weights hw
  obtain ⟨g1, g2, g3⟩ := C117_weighted nnls hn m k' A b weights hw
  rw [h3, g3]
  apply Real.sqrt_le_sqrt
  refine (g2 (fun j => if j < k then (nnlsFit nnls m k b A weights).1 j else 0) (fun j _ => by beta_reduce; split_ifs with h; exacts [h1 j h, le_rfl])).trans (le_of_eq ?_)
  unfold Spec.cost
  apply sum_congr rfl
  intro i _
  congr 3
  obtain ⟨d, rfl⟩ := Nat.exists_eq_add_of_le hk
  rw [sum_range_add]
  have z : ∑ x ∈ range d, A i (k + x) * (if k + x < k then (nnlsFit nnls m k b A weights).1 (k + x) else 0) = 0 :=
    sum_eq_zero (fun j _ => by rw [if_neg (by omega), mul_zero])
  rw [z, add_zero]
  exact sum_congr rfl (fun j hj => by beta_reduce; rw [if_pos (mem_range.1 hj)])

/-- What the fit leaves over is uncorrelated with every component that is used, and not positively correlated with the
others.  So the squares add up: (weighted) sum of squares of the spectrum = that of the fitted spectrum + squared residual.
In particular the residual is at most the norm of the spectrum. -/
theorem C213_decomposition (nnls : Nnls) (hn : Spec.IsNnls nnls) (m k : ℕ) (A : ℕ → ℕ → ℝ) (b : ℕ → ℝ) (weights : Option (ℕ → ℝ))
    (hw : ∀ w, weights = some w → ∀ i < m, 0 ≤ w i) :
    let x := (nnlsFit nnls m k b A weights).1
    let res := (nnlsFit nnls m k b A weights).2
    let w := Spec.weight weights
    (∀ j < k, ∑ i ∈ range m, w i * A i j * (b i - Spec.model k A x i) ≤ 0 ∧
      (x j ≠ 0 → ∑ i ∈ range m, w i * A i j * (b i - Spec.model k A x i) = 0)) ∧
    ∑ i ∈ range m, w i * b i ^ 2 = ∑ i ∈ range m, w i * Spec.model k A x i ^ 2 + res ^ 2 ∧
    res ≤ √(∑ i ∈ range m, w i * b i ^ 2) := by
  intro x res w
  obtain ⟨h1, h2, h3⟩ := C117_weighted nnls hn m k A b weights hw
  have hw' : ∀ i < m, 0 ≤ w i := by
    cases weights with
    | none => intro i _; simp [w, Spec.weight]
    | some w => intro i hi; exact hw w rfl i hi
  have neg : ∀ j, ∑ i ∈ range m, w i * A i j * (b i - Spec.model k A x i) = - ∑ i ∈ range m, w i * A i j * (Spec.model k A x i - b i) := by
    intro j; rw [← sum_neg_distrib]; exact sum_congr rfl (fun _ _ => by ring)
  have hc0 : 0 ≤ Spec.cost m k w A b x := sum_nonneg (fun i hi => mul_nonneg (hw' i (mem_range.1 hi)) (sq_nonneg _))
  have hres : res ^ 2 = Spec.cost m k w A b x := by
    show (nnlsFit nnls m k b A weights).2 ^ 2 = _
    rw [h3]; exact Real.sq_sqrt hc0
  have hpy : ∑ i ∈ range m, w i * b i ^ 2 = ∑ i ∈ range m, w i * Spec.model k A x i ^ 2 + res ^ 2 := by
    have hg := grad_self m k w A b x h1 h2
    rw [hres, cost_model]
    have : ∑ i ∈ range m, w i * b i ^ 2 = ∑ i ∈ range m, w i * Spec.model k A x i ^ 2 + ∑ i ∈ range m, w i * (Spec.model k A x i - b i) ^ 2 -
        2 * ∑ i ∈ range m, w i * Spec.model k A x i * (Spec.model k A x i - b i) := by
      rw [mul_sum, ← sum_add_distrib, ← sum_sub_distrib]
      exact sum_congr rfl (fun _ _ => by ring)
    rw [this, hg]; ring
  refine ⟨fun j hj => ?_, hpy, ?_⟩
  · have := kkt m k w A b x h1 h2 j hj
    rw [neg j]
    exact ⟨by linarith [this.1], fun hne => by rw [this.2 (lt_of_le_of_ne (h1 j hj) (Ne.symm hne)), neg_zero]⟩
  · apply Real.le_sqrt_of_sq_le
    rw [hpy]
    have : 0 ≤ ∑ i ∈ range m, w i * Spec.model k A x i ^ 2 := sum_nonneg (fun i hi => mul_nonneg (hw' i (mem_range.1 hi)) (sq_nonneg _))
    linarith

/-- Instance: two overlapping peaks in three channels, the first twice as strong. -/
example (nnls : Nnls) (hn : Spec.IsNnls nnls) :
    (nnlsFit nnls 3 2 (fun i => if i = 0 then 2 else if i = 1 then 3 else 1) (fun i j => if j = 0 then (if i = 2 then 0 else 1) else (if i = 0 then 0 else 1)) none).1 0 = 2 ∧
    (nnlsFit nnls 3 2 (fun i => if i = 0 then 2 else if i = 1 then 3 else 1) (fun i j => if j = 0 then (if i = 2 then 0 else 1) else (if i = 0 then 0 else 1)) none).1 1 = 1 := by
  have := C213_composition nnls hn 3 2 (fun i j => if j = 0 then (if i = 2 then 0 else 1) else (if i = 0 then 0 else 1)) (fun i => if i = 0 then 2 else if i = 1 then 3 else 1) none (by simp)
    (by
      intro x h j hj
      have a := h 0 (by norm_num) (by simp [Spec.weight])
      have b := h 2 (by norm_num) (by simp [Spec.weight])
      simp [Spec.model, sum_range_succ] at a b
      interval_cases j
      · exact a
      · exact b)
    (fun j => if j = 0 then 2 else 1) (fun j _ => by split_ifs <;> norm_num)
    (by
      intro i hi
      interval_cases i <;> simp [Spec.model, sum_range_succ]; norm_num)
  exact ⟨by simpa using this.1 0 (by norm_num), by simpa using this.1 1 (by norm_num)⟩

end Verif.Xrf
