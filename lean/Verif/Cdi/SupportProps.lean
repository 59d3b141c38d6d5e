/- Property C177: the shrink-wrap support. -/
import Verif.Cdi.Support

namespace Verif.Cdi
open Finset Verif

/-! ## Specification -/

/-- The offsets -R..R covered by the Gaussian window of width sigma, cut at four sigma (rounded to whole pixels). -/
noncomputable def Spec.window (sigma : ℝ) : Finset ℤ := Icc (-(⌊4 * sigma + 1 / 2⌋₊ : ℤ)) ⌊4 * sigma + 1 / 2⌋₊

/-- Pixel `i` of an axis continued by mirror images of the n pixels (the edge pixel is repeated): the pixel of the
array seen at position `i` is the unique `p < n` with `i = p` or `i = -1 - p` up to multiples of `2 n`. -/
def Spec.Mirror (n : ℕ) (i : ℤ) (p : ℕ) : Prop :=
  p < n ∧ ∃ m : ℤ, i = p + m * (2 * n) ∨ i = -1 - p + m * (2 * n)

/-- Gaussian-weighted mean, around pixel (i, j), of the magnitudes of the object, the object being continued by mirror
images. -/
noncomputable def Spec.smoothed (sigma : ℝ) (ext : ℤ → ℤ → ℝ) (i j : ℤ) : ℝ :=
  (∑ a ∈ Spec.window sigma, ∑ b ∈ Spec.window sigma,
    Real.exp (-((a : ℝ) ^ 2 + (b : ℝ) ^ 2) / (2 * sigma ^ 2)) * ext (i + a) (j + b))
  / ∑ a ∈ Spec.window sigma, ∑ b ∈ Spec.window sigma, Real.exp (-((a : ℝ) ^ 2 + (b : ℝ) ^ 2) / (2 * sigma ^ 2))

/-! ## Lemmas -/

theorem reflectIdx_mirror (n : ℕ) (hn : 0 < n) (i : ℤ) : Spec.Mirror n i (reflectIdx n i) := by
  have h2 : (0 : ℤ) < 2 * (n : ℤ) := by omega
  have h0 := Int.emod_nonneg i h2.ne'
  have h1 := Int.emod_lt_of_pos i h2
  have hd := Int.mul_ediv_add_emod i (2 * (n : ℤ))
  unfold reflectIdx Spec.Mirror
  simp only []
  set e := i % (2 * (n : ℤ)) with he
  have hm : ((e.toNat : ℕ) : ℤ) = e := Int.toNat_of_nonneg h0
  split
  · rename_i h
    refine ⟨h, i / (2 * n), Or.inl ?_⟩
    rw [hm]; linarith
  · rename_i h
    refine ⟨by omega, i / (2 * n) + 1, Or.inr ?_⟩
    have : ((2 * n - 1 - e.toNat : ℕ) : ℤ) = 2 * n - 1 - e := by omega
    rw [this]; linarith

theorem mirror_unique (n : ℕ) (i : ℤ) (p q : ℕ) (hp : Spec.Mirror n i p) (hq : Spec.Mirror n i q) : p = q := by
  obtain ⟨hpn, m, hp⟩ := hp
  obtain ⟨hqn, k, hq⟩ := hq
  have key : ∀ (d : ℤ) (m k : ℤ), d = (m - k) * (2 * n) → -(2 * (n : ℤ)) < d → d < 2 * n → d = 0 := by
    intro d m k h1 h2 h3
    have : m - k = 0 := by
      by_contra hne
      rcases lt_or_gt_of_ne hne with h | h
      · nlinarith
      · nlinarith
    rw [h1, this, zero_mul]
  rcases hp with hp | hp <;> rcases hq with hq | hq
  · have := key ((q : ℤ) - p) m k (by linarith) (by omega) (by omega); omega
  · have := key (-1 - (q : ℤ) - p) m k (by linarith) (by omega) (by omega); omega
  · have := key ((q : ℤ) + 1 + p) m k (by linarith) (by omega) (by omega); omega
  · have := key ((p : ℤ) - q) m k (by linarith) (by omega) (by omega); omega

theorem sum_window (sigma : ℝ) (f : ℤ → ℝ) :
    ∑ k ∈ range (2 * gaussRadius sigma + 1), f ((k : ℤ) - gaussRadius sigma) = ∑ a ∈ Spec.window sigma, f a := by
  apply sum_bij (fun (k : ℕ) _ => (k : ℤ) - gaussRadius sigma)
  · intro k hk
    rw [mem_range] at hk
    unfold Spec.window
    rw [mem_Icc]
    change -(gaussRadius sigma : ℤ) ≤ _ ∧ _ ≤ (gaussRadius sigma : ℤ)
    omega
  · intro a _ b _ h
    omega
  · intro a ha
    unfold Spec.window at ha
    rw [mem_Icc] at ha
    change -(gaussRadius sigma : ℤ) ≤ _ ∧ _ ≤ (gaussRadius sigma : ℤ) at ha
    refine ⟨(a + gaussRadius sigma).toNat, by rw [mem_range]; omega, by omega⟩
  · intro _ _; rfl

theorem gaussPhi_pos (sigma : ℝ) (x : ℤ) : 0 < gaussPhi sigma x := Real.exp_pos _

theorem phi_sum_pos (sigma : ℝ) : 0 < ∑ a ∈ Spec.window sigma, gaussPhi sigma a := by
  apply sum_pos (fun a _ => gaussPhi_pos sigma a)
  exact ⟨0, by unfold Spec.window; rw [mem_Icc]; omega⟩

theorem filter1_eq (sigma : ℝ) (n : ℕ) (x : ℕ → ℝ) (i : ℕ) :
    filter1 sigma n x i = (∑ a ∈ Spec.window sigma, gaussPhi sigma a * x (reflectIdx n ((i : ℤ) + a)))
      / ∑ a ∈ Spec.window sigma, gaussPhi sigma a := by
  unfold filter1 gaussKernel
  rw [sum_window sigma (gaussPhi sigma)]
  rw [← sum_window sigma (fun a => gaussPhi sigma a * x (reflectIdx n ((i : ℤ) + a))), sum_div]
  apply sum_congr rfl
  intro k _
  rw [show (i : ℤ) + k - gaussRadius sigma = i + ((k : ℤ) - gaussRadius sigma) by ring]
  ring

/-- The filter of the library is the Gaussian-weighted mean of the specification. -/
theorem gaussianFilter_eq (r c : ℕ) (sigma : ℝ) (hs : sigma > 1e-15) (x : ℕ → ℕ → ℝ) (i j : ℕ) :
    gaussianFilter r c sigma x i j
      = Spec.smoothed sigma (fun a b => x (reflectIdx r a) (reflectIdx c b)) i j := by
  have hphi : ∀ a b : ℤ, gaussPhi sigma a * gaussPhi sigma b
      = Real.exp (-((a : ℝ) ^ 2 + (b : ℝ) ^ 2) / (2 * sigma ^ 2)) := by
    intro a b
    unfold gaussPhi
    rw [← Real.exp_add]
    congr 1
    have : sigma ≠ 0 := by intro h; rw [h] at hs; norm_num at hs
    field_simp
    ring
  unfold gaussianFilter Spec.smoothed
  rw [if_pos hs]
  simp only [filter1_eq]
  have hden : (∑ a ∈ Spec.window sigma, ∑ b ∈ Spec.window sigma,
      Real.exp (-((a : ℝ) ^ 2 + (b : ℝ) ^ 2) / (2 * sigma ^ 2)))
      = (∑ a ∈ Spec.window sigma, gaussPhi sigma a) * ∑ a ∈ Spec.window sigma, gaussPhi sigma a := by
    rw [sum_mul_sum]
    exact sum_congr rfl (fun a _ => sum_congr rfl (fun b _ => (hphi a b).symm))
  rw [hden, ← div_div]
  congr 1
  rw [sum_comm, sum_div]
  apply sum_congr rfl
  intro b _
  rw [mul_div_assoc', mul_sum]
  congr 1
  apply sum_congr rfl
  intro a _
  rw [← hphi a b]; ring

theorem filter1_smul (sigma : ℝ) (n : ℕ) (a : ℝ) (x : ℕ → ℝ) (i : ℕ) :
    filter1 sigma n (fun k => a * x k) i = a * filter1 sigma n x i := by
  unfold filter1
  rw [mul_sum]
  exact sum_congr rfl (fun k _ => by ring)

theorem gaussianFilter_smul (r c : ℕ) (sigma a : ℝ) (x : ℕ → ℕ → ℝ) (i j : ℕ) :
    gaussianFilter r c sigma (fun i j => a * x i j) i j = a * gaussianFilter r c sigma x i j := by
  unfold gaussianFilter
  split
  · simp only [filter1_smul]
  · rfl

theorem filter1_between (sigma : ℝ) (n : ℕ) (hn : 0 < n) (x : ℕ → ℝ) (lo hi : ℝ)
    (h : ∀ k < n, lo ≤ x k ∧ x k ≤ hi) (i : ℕ) : lo ≤ filter1 sigma n x i ∧ filter1 sigma n x i ≤ hi := by
  rw [filter1_eq, le_div_iff₀ (phi_sum_pos sigma), div_le_iff₀ (phi_sum_pos sigma), mul_sum, mul_sum]
  constructor
  · apply sum_le_sum
    intro a _
    have := (h _ (reflectIdx_mirror n hn ((i : ℤ) + a)).1).1
    have hp := gaussPhi_pos sigma a
    nlinarith
  · apply sum_le_sum
    intro a _
    have := (h _ (reflectIdx_mirror n hn ((i : ℤ) + a)).1).2
    have hp := gaussPhi_pos sigma a
    nlinarith

theorem gaussianFilter_between (r c : ℕ) (hr : 0 < r) (hc : 0 < c) (sigma : ℝ) (x : ℕ → ℕ → ℝ) (lo hi : ℝ)
    (h : ∀ i < r, ∀ j < c, lo ≤ x i j ∧ x i j ≤ hi) (i j : ℕ) (hi' : i < r) (hj : j < c) :
    lo ≤ gaussianFilter r c sigma x i j ∧ gaussianFilter r c sigma x i j ≤ hi := by
  unfold gaussianFilter
  split
  · apply filter1_between sigma c hc
    intro b hb
    exact filter1_between sigma r hr _ lo hi (fun a ha => h a ha b hb) i
  · exact h i hi' j hj

/-- The smoothed magnitude is positive somewhere unless the object vanishes. -/
theorem filter1_pos (sigma : ℝ) (n : ℕ) (hn : 0 < n) (x : ℕ → ℝ) (h0 : ∀ k < n, 0 ≤ x k) (i : ℕ) (hi : i < n)
    (hx : 0 < x i) : 0 < filter1 sigma n x i := by
  rw [filter1_eq]
  apply div_pos _ (phi_sum_pos sigma)
  apply sum_pos'
  · intro a _
    exact mul_nonneg (gaussPhi_pos sigma a).le (h0 _ (reflectIdx_mirror n hn _).1)
  · refine ⟨0, by unfold Spec.window; rw [mem_Icc]; omega, ?_⟩
    have : reflectIdx n ((i : ℤ) + 0) = i :=
      mirror_unique n _ _ _ (reflectIdx_mirror n hn _) ⟨hi, 0, Or.inl (by ring)⟩
    rw [this]
    exact mul_pos (gaussPhi_pos sigma 0) hx

theorem gaussianFilter_pos (r c : ℕ) (hr : 0 < r) (hc : 0 < c) (sigma : ℝ) (x : ℕ → ℕ → ℝ)
    (h0 : ∀ i < r, ∀ j < c, 0 ≤ x i j) (i j : ℕ) (hi : i < r) (hj : j < c) (hx : 0 < x i j) :
    0 < gaussianFilter r c sigma x i j := by
  unfold gaussianFilter
  split
  · apply filter1_pos sigma c hc _ _ j hj
    · exact filter1_pos sigma r hr _ (fun a ha => h0 a ha j hj) i hi hx
    · intro b hb
      by_cases hall : ∃ hi', ∀ k < r, 0 ≤ x k b ∧ x k b ≤ hi'
      · obtain ⟨hi', hall⟩ := hall
        exact (filter1_between sigma r hr (fun a => x a b) 0 hi' hall i).1
      · exfalso
        apply hall
        refine ⟨∑ k ∈ range r, x k b, fun k hk => ⟨h0 k hk b hb, ?_⟩⟩
        exact single_le_sum (f := fun k => x k b) (fun a ha => h0 a (mem_range.1 ha) b hb) (mem_range.2 hk)
  · exact hx

/-! ## C177 -/

/-- C177 (what is computed): for a positive width, a pixel is in the support exactly if its smoothed magnitude is at
least `threshold` times the largest smoothed magnitude, where the smoothed magnitude is the Gaussian-weighted mean of
the magnitudes over the mirror-continued object. -/
theorem C177_support (r c : ℕ) (hr : 0 < r) (hc : 0 < c) (sigma t : ℝ) (hs : sigma > 1e-15) (x : Arr)
    (ext : ℤ → ℤ → ℝ) (hext : ∀ a b p q, Spec.Mirror r a p → Spec.Mirror c b q → ext a b = ‖x p q‖) :
    ∃ S, findSupport r c sigma t x = .ok S ∧ ∃ top : ℝ,
      (∀ i < r, ∀ j < c, Spec.smoothed sigma ext i j ≤ top) ∧
      (∃ i < r, ∃ j < c, Spec.smoothed sigma ext i j = top) ∧
      ∀ i < r, ∀ j < c, (S i j = true ↔ t * top ≤ Spec.smoothed sigma ext i j) := by
  have hne : (range r ×ˢ range c).Nonempty := ⟨(0, 0), by simp [hr, hc]⟩
  have he : (fun a b => ‖x (reflectIdx r a) (reflectIdx c b)‖) = ext := by
    funext a b
    exact (hext a b _ _ (reflectIdx_mirror r hr a) (reflectIdx_mirror c hc b)).symm
  have hf : ∀ i j : ℕ, gaussianFilter r c sigma (fun i j => ‖x i j‖) i j = Spec.smoothed sigma ext i j := by
    intro i j
    rw [gaussianFilter_eq r c sigma hs, he]
  unfold findSupport
  rw [dif_pos hne]
  refine ⟨_, rfl, (range r ×ˢ range c).sup' hne (fun q => Spec.smoothed sigma ext q.1 q.2), ?_, ?_, ?_⟩
  · intro i hi j hj
    exact le_sup' (fun q : ℕ × ℕ => Spec.smoothed sigma ext q.1 q.2) (b := (i, j)) (by simp [hi, hj])
  · obtain ⟨q, hq, e⟩ := exists_mem_eq_sup' hne (fun q : ℕ × ℕ => Spec.smoothed sigma ext q.1 q.2)
    simp only [mem_product, mem_range] at hq
    exact ⟨q.1, hq.1, q.2, hq.2, e.symm⟩
  · intro i _ j _
    simp only [hf, decide_eq_true_eq]

/-- With width 0 nothing is smoothed: a pixel is in the support exactly if its magnitude is at least `threshold` times
the largest magnitude. -/
theorem C177_no_smoothing (r c : ℕ) (hr : 0 < r) (hc : 0 < c) (t : ℝ) (x : Arr) :
    ∃ S, findSupport r c 0 t x = .ok S ∧ ∃ top : ℝ,
      (∀ i < r, ∀ j < c, ‖x i j‖ ≤ top) ∧ (∃ i < r, ∃ j < c, ‖x i j‖ = top) ∧
      ∀ i < r, ∀ j < c, (S i j = true ↔ t * top ≤ ‖x i j‖) := by
  have hne : (range r ×ˢ range c).Nonempty := ⟨(0, 0), by simp [hr, hc]⟩
  have hf : gaussianFilter r c 0 (fun i j => ‖x i j‖) = fun i j => ‖x i j‖ := by
    unfold gaussianFilter
    rw [if_neg (by norm_num)]
  unfold findSupport
  rw [dif_pos hne, hf]
  refine ⟨_, rfl, (range r ×ˢ range c).sup' hne (fun q => ‖x q.1 q.2‖), ?_, ?_, ?_⟩
  · intro i hi j hj
    exact le_sup' (fun q : ℕ × ℕ => ‖x q.1 q.2‖) (b := (i, j)) (by simp [hi, hj])
  · obtain ⟨q, hq, e⟩ := exists_mem_eq_sup' hne (fun q : ℕ × ℕ => ‖x q.1 q.2‖)
    simp only [mem_product, mem_range] at hq
    exact ⟨q.1, hq.1, q.2, hq.2, e.symm⟩
  · intro i _ j _
    simp only [decide_eq_true_eq]

/-- C177 (no pixels): an object without pixels is refused. -/
theorem C177_empty (r c : ℕ) (h : r = 0 ∨ c = 0) (sigma t : ℝ) (x : Arr) :
    findSupport r c sigma t x = .error .valueError := by
  unfold findSupport
  have hne : ¬ (range r ×ˢ range c).Nonempty := by rcases h with rfl | rfl <;> simp
  rw [dif_neg hne]

/-- C177 (thresholds), every width: a support is never empty for a threshold of at most 1; a larger threshold gives a
subset; a threshold of at most 0 keeps every pixel; a threshold above 1 keeps nothing of an object that does not
vanish; of a vanishing object every pixel is kept, whatever the threshold. -/
theorem C177_thresholds (r c : ℕ) (hr : 0 < r) (hc : 0 < c) (sigma : ℝ) (x : Arr) :
    ∃ S : ℝ → ℕ → ℕ → Bool, (∀ t, findSupport r c sigma t x = .ok (S t)) ∧
      (∀ t ≤ 1, ∃ i < r, ∃ j < c, S t i j = true) ∧
      (∀ t t', t ≤ t' → ∀ i < r, ∀ j < c, S t' i j = true → S t i j = true) ∧
      (∀ t ≤ 0, ∀ i < r, ∀ j < c, S t i j = true) ∧
      (∀ t > 1, (∃ i < r, ∃ j < c, x i j ≠ 0) → ∀ i < r, ∀ j < c, S t i j = false) ∧
      ((∀ i < r, ∀ j < c, x i j = 0) → ∀ t, ∀ i < r, ∀ j < c, S t i j = true) := by
  have hne : (range r ×ˢ range c).Nonempty := ⟨(0, 0), by simp [hr, hc]⟩
  set f := gaussianFilter r c sigma (fun i j => ‖x i j‖) with hf
  set top := (range r ×ˢ range c).sup' hne (fun q => f q.1 q.2) with htop
  have hub : ∀ i < r, ∀ j < c, f i j ≤ top := by
    intro i hi j hj
    exact le_sup' (fun q : ℕ × ℕ => f q.1 q.2) (b := (i, j)) (by simp [hi, hj])
  have hbig : ∃ B, ∀ i < r, ∀ j < c, 0 ≤ ‖x i j‖ ∧ ‖x i j‖ ≤ B :=
    ⟨(range r ×ˢ range c).sup' hne (fun q => ‖x q.1 q.2‖), fun i hi j hj => ⟨norm_nonneg _,
      le_sup' (fun q : ℕ × ℕ => ‖x q.1 q.2‖) (b := (i, j)) (by simp [hi, hj])⟩⟩
  obtain ⟨B, hB⟩ := hbig
  have hpos : ∀ i < r, ∀ j < c, 0 ≤ f i j := fun i hi j hj => (gaussianFilter_between r c hr hc sigma _ 0 B hB i j hi hj).1
  obtain ⟨q, hq, e⟩ := exists_mem_eq_sup' hne (fun q : ℕ × ℕ => f q.1 q.2)
  simp only [mem_product, mem_range] at hq
  have htop0 : 0 ≤ top := le_trans (hpos q.1 hq.1 q.2 hq.2) (hub q.1 hq.1 q.2 hq.2)
  refine ⟨fun t i j => @decide (t * top ≤ f i j) (Classical.propDecidable _), ?_, ?_, ?_, ?_, ?_, ?_⟩
  · intro t
    unfold findSupport
    rw [dif_pos hne]
  · intro t ht
    refine ⟨q.1, hq.1, q.2, hq.2, ?_⟩
    rw [decide_eq_true_eq, ← e]
    nlinarith
  · intro t t' ht i _ j _ h
    rw [decide_eq_true_eq] at h ⊢
    nlinarith
  · intro t ht i hi j hj
    rw [decide_eq_true_eq]
    have := hpos i hi j hj
    nlinarith
  · rintro t ht ⟨a, ha, b, hb, hx⟩ i hi j hj
    rw [decide_eq_false_iff_not, not_le]
    have h1 := gaussianFilter_pos r c hr hc sigma (fun i j => ‖x i j‖) (fun _ _ _ _ => norm_nonneg _) a b ha hb
      (norm_pos_iff.2 hx)
    have h2 := hub a ha b hb
    have h3 := hub i hi j hj
    have : 0 < top := lt_of_lt_of_le h1 h2
    nlinarith
  · intro hz t i hi j hj
    rw [decide_eq_true_eq]
    have hf0 : ∀ i < r, ∀ j < c, f i j = 0 := by
      intro i hi j hj
      have := gaussianFilter_between r c hr hc sigma (fun i j => ‖x i j‖) 0 0
        (fun a ha b hb => by rw [hz a ha b hb, norm_zero]; exact ⟨le_rfl, le_rfl⟩) i j hi hj
      exact le_antisymm this.2 this.1
    have ht0 : top = 0 := by rw [htop, e]; exact hf0 q.1 hq.1 q.2 hq.2
    rw [ht0, hf0 i hi j hj, mul_zero]

/-- C177 (what does not matter), every width and threshold: multiplying the whole object by a nonzero number, or every
pixel by its own phase factor, leaves the support as it is. -/
theorem C177_scale (r c : ℕ) (sigma t : ℝ) (x y : Arr) (a : ℝ) (ha : 0 < a)
    (hy : ∀ i j, ‖y i j‖ = a * ‖x i j‖) : findSupport r c sigma t y = findSupport r c sigma t x := by
  unfold findSupport
  simp only [hy, gaussianFilter_smul]
  split
  · rename_i hne
    have hm : (range r ×ˢ range c).sup' hne
        (fun q => a * gaussianFilter r c sigma (fun i j => ‖x i j‖) q.1 q.2)
        = a * (range r ×ˢ range c).sup' hne (fun q => gaussianFilter r c sigma (fun i j => ‖x i j‖) q.1 q.2) := by
      apply le_antisymm
      · apply sup'_le
        intro q hq
        exact mul_le_mul_of_nonneg_left (le_sup' (fun q : ℕ × ℕ => gaussianFilter r c sigma (fun i j => ‖x i j‖) q.1 q.2) hq) ha.le
      · obtain ⟨q, hq, e⟩ := exists_mem_eq_sup' hne
          (fun q : ℕ × ℕ => gaussianFilter r c sigma (fun i j => ‖x i j‖) q.1 q.2)
        rw [e]
        exact le_sup' (fun q : ℕ × ℕ => a * gaussianFilter r c sigma (fun i j => ‖x i j‖) q.1 q.2) hq
    congr 1
    funext i j
    rw [hm]
    congr 1
    rw [mul_left_comm]
    exact propext (mul_le_mul_iff_right₀ ha)
  · rfl

/-- C177 (uniform objects): of an object of uniform magnitude every pixel is kept, for every width and every threshold
of at most 1: smoothing with mirrored edges does not darken the border. -/
theorem C177_uniform (r c : ℕ) (hr : 0 < r) (hc : 0 < c) (sigma t : ℝ) (ht : t ≤ 1) (x : Arr) (v : ℝ)
    (hx : ∀ i < r, ∀ j < c, ‖x i j‖ = v) :
    ∃ S, findSupport r c sigma t x = .ok S ∧ ∀ i < r, ∀ j < c, S i j = true := by
  have hne : (range r ×ˢ range c).Nonempty := ⟨(0, 0), by simp [hr, hc]⟩
  have hv : 0 ≤ v := by rw [← hx 0 hr 0 hc]; exact norm_nonneg _
  have hf : ∀ i < r, ∀ j < c, gaussianFilter r c sigma (fun i j => ‖x i j‖) i j = v := by
    intro i hi j hj
    have := gaussianFilter_between r c hr hc sigma (fun i j => ‖x i j‖) v v
      (fun a ha b hb => by rw [hx a ha b hb]; exact ⟨le_rfl, le_rfl⟩) i j hi hj
    exact le_antisymm this.2 this.1
  unfold findSupport
  rw [dif_pos hne]
  refine ⟨_, rfl, ?_⟩
  intro i hi j hj
  have hm : (range r ×ˢ range c).sup' hne (fun q => gaussianFilter r c sigma (fun i j => ‖x i j‖) q.1 q.2) = v := by
    obtain ⟨q, hq, e⟩ := exists_mem_eq_sup' hne
      (fun q : ℕ × ℕ => gaussianFilter r c sigma (fun i j => ‖x i j‖) q.1 q.2)
    simp only [mem_product, mem_range] at hq
    rw [e, hf q.1 hq.1 q.2 hq.2]
  rw [decide_eq_true_eq, hm, hf i hi j hj]
  nlinarith

/-- C177 (in a reconstruction): with shrink-wrap by `find_support` at a threshold of at most 1, a reconstruction
started from a support with at least one pixel never ends an iteration with an empty support. -/
theorem C177_reconstruction (p : Params) (sigma t : ℝ) (ht : t ≤ 1) (hr : 0 < p.r) (hc : 0 < p.c)
    (hp : ∀ x, findSupport p.r p.c sigma t x = .ok (p.findSupport x)) (obj : Arr) (sup : ℕ → ℕ → Bool)
    (h0 : ∃ i < p.r, ∃ j < p.c, sup i j = true) (n : ℕ) :
    ∃ i < p.r, ∃ j < p.c, ((List.range n).foldl (step p) (initSt obj sup)).sup i j = true := by
  induction n with
  | zero => exact h0
  | succ n ih =>
    rw [List.range_succ, List.foldl_append]
    simp only [List.foldl_cons, List.foldl_nil]
    generalize (List.range n).foldl (step p) (initSt obj sup) = st at ih ⊢
    unfold step
    simp only []
    split
    · obtain ⟨S, hS, h1, _⟩ := C177_thresholds p.r p.c hr hc sigma (nextObj p st.sup st.obj)
      have hSe := hS t
      rw [hp] at hSe
      injection hSe with hSe
      rw [hSe]
      exact h1 t ht
    · exact ih

/-- Hypotheses met: the mirror continuation exists for every array, and `find_support` itself as a parameter. -/
example (x : Arr) : ∃ ext : ℤ → ℤ → ℝ, ∀ a b p q, Spec.Mirror 3 a p → Spec.Mirror 4 b q → ext a b = ‖x p q‖ :=
  ⟨fun a b => ‖x (reflectIdx 3 a) (reflectIdx 4 b)‖, fun a b p q hp hq => by
    show ‖x (reflectIdx 3 a) (reflectIdx 4 b)‖ = ‖x p q‖
    rw [mirror_unique 3 a _ p (reflectIdx_mirror 3 (by norm_num) a) hp,
      mirror_unique 4 b _ q (reflectIdx_mirror 4 (by norm_num) b) hq]⟩

/-- Hypotheses met: a reconstruction that calls `find_support`. -/
example (p : Params) (hr : 0 < p.r) (hc : 0 < p.c) (sigma t : ℝ) :
    ∃ F, ∀ x, findSupport p.r p.c sigma t x = .ok (({ p with findSupport := F } : Params).findSupport x) := by
  have : ∀ x, ∃ S, findSupport p.r p.c sigma t x = .ok S := fun x => by
    obtain ⟨S, hS, _⟩ := C177_thresholds p.r p.c hr hc sigma x
    exact ⟨S t, hS t⟩
  choose F hF using this
  exact ⟨F, hF⟩

/-- The mirror continuation: positions -1 and 3 of a row of 3 pixels show the pixels 0 and 2. -/
example : (List.range 9).map (fun k => reflectIdx 3 ((k : ℤ) - 3)) = [2, 1, 0, 0, 1, 2, 2, 1, 0] := by decide

end Verif.Cdi
