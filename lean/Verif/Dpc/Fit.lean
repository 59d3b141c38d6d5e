/- Property C197: what the fits of `lazy_dpc` recover when the solver finds a global minimum. -/
import Verif.Dpc.ReconProps
import Mathlib.Analysis.SpecialFunctions.Complex.Log

namespace Verif.Dpc
open Finset Verif

/-! ### Model of the fitting of one frame -/

/-- Lines 437-445 of dpc.py for frames of the reference's shape, without ROI and bad pixels (C62 covers those): the column sums
(`np.sum(im, axis=0)`) and the row sums of frame and reference are transformed, and `dpc_fit` (dpc.py 152-204) minimises the cost of
`_rss_factory` for either; `minim` stands for `scipy.optimize.minimize(...).x`.  Returns ((ax, gx), (ay, gy)). -/
noncomputable def fitFrame (minim : (ℝ × ℝ → ℝ) → ℝ × ℝ) (ref im : Img ℝ) : (ℝ × ℝ) × (ℝ × ℝ) :=
  let tr := fun (l : List ℝ) => lineTransform l.length (fun m => l.getD m 0)
  let refX := colSums ref
  let refY := rowSums ref
  (minim (fun v => rss refX.length v (tr refX) (tr (colSums im))), minim (fun v => rss refY.length v (tr refY) (tr (rowSums im))))

/-! ### Specification -/

namespace Spec

/-- `minim` returns a global minimum of every cost function that has one. -/
def FindsMinimum (minim : (ℝ × ℝ → ℝ) → ℝ × ℝ) : Prop := ∀ f : ℝ × ℝ → ℝ, (∃ v, ∀ u, f v ≤ f u) → ∀ u, f (minim f) ≤ f u

/-- The line is `a` times the reference line moved cyclically by `d` pixels. -/
def Moved (len : ℕ) (ref diff : ℕ → ℝ) (a : ℝ) (d : ℕ) : Prop := ∀ m < len, diff ((m + d) % len) = a * ref m

/-- The line is neither without total intensity nor without its slowest oscillation (one period over the line). -/
def Structured (len : ℕ) (ref : ℕ → ℝ) : Prop :=
  ∑ x ∈ range len, ref x ≠ 0 ∧
    (∑ x ∈ range len, ref x * Real.cos (2 * Real.pi * x / len) ≠ 0 ∨ ∑ x ∈ range len, ref x * Real.sin (2 * Real.pi * x / len) ≠ 0)

/-- The frame is the reference frame, dimmed by `a` and moved cyclically by `dy` rows and `dx` columns. -/
def FrameMoved (ref im : Img ℝ) (a : ℝ) (dy dx : ℕ) : Prop :=
  im.rows = ref.rows ∧ im.cols = ref.cols ∧ ∀ i < ref.rows, ∀ j < ref.cols, im.px ((i + dy) % ref.rows) ((j + dx) % ref.cols) = a * ref.px i j

end Spec

/-! ### Lemmas -/

theorem beta_int (len m : ℕ) (hm : m < len) : beta len m = (((m : ℤ) - (len / 2 : ℕ) : ℤ) : ℝ) := by
  rw [beta_eq len m (by omega) hm]
  push_cast
  rfl

theorem term_nonneg (z : ℂ) : 0 ≤ (z * (starRingEnd ℂ) z).re := by
  rw [Complex.mul_conj]
  simp [Complex.normSq_nonneg]

theorem rss_eq_zero (len : ℕ) (v : ℝ × ℝ) (r s : ℕ → ℂ) :
    rss len v r s = 0 ↔ ∀ m < len, s m = r m * v.1 * Complex.exp (v.2 * (Complex.I * beta len m)) := by
  unfold rss
  rw [sum_eq_zero_iff_of_nonneg (fun m _ => term_nonneg _)]
  constructor
  · intro h m hm
    have := h m (mem_range.2 hm)
    rw [Complex.mul_conj] at this
    simp only [Complex.ofReal_re] at this
    exact sub_eq_zero.1 (Complex.normSq_eq_zero.1 this)
  · intro h m hm
    rw [h m (mem_range.1 hm)]
    simp

/-- The transform of a line at the position of frequency zero is its mean. -/
theorem lineTransform_zero (len : ℕ) (hlen : 0 < len) (line : ℕ → ℝ) :
    lineTransform len line (len / 2) = ((∑ x ∈ range len, line x : ℝ) : ℂ) / len := by
  unfold lineTransform Dft.fftshift
  have : (len / 2 + (len - len / 2)) % len = 0 := by
    rw [show len / 2 + (len - len / 2) = len by omega, Nat.mod_self]
  rw [this]
  unfold Dft.ifft
  congr 1
  push_cast
  apply sum_congr rfl
  intro x _
  simp [Dft.w_zero]

/-- The transform at the position before that one: the slowest oscillation. -/
theorem lineTransform_one (len : ℕ) (hlen : 2 ≤ len) (line : ℕ → ℝ) :
    lineTransform len line (len / 2 - 1) =
      (((∑ x ∈ range len, line x * Real.cos (2 * Real.pi * x / len) : ℝ) : ℂ) -
        Complex.I * ((∑ x ∈ range len, line x * Real.sin (2 * Real.pi * x / len) : ℝ) : ℂ)) / len := by
  unfold lineTransform Dft.fftshift
  have : (len / 2 - 1 + (len - len / 2)) % len = len - 1 := by
    rw [show len / 2 - 1 + (len - len / 2) = len - 1 by omega, Nat.mod_eq_of_lt (by omega)]
  rw [this]
  unfold Dft.ifft
  congr 1
  push_cast
  rw [mul_sum, ← sum_sub_distrib]
  apply sum_congr rfl
  intro x _
  have h1 : Dft.w len (((len - 1 : ℕ) : ℤ) * x) = Dft.w len (-(x : ℤ)) := by
    apply Dft.w_congr len (by omega)
    rw [Nat.cast_sub (by omega)]
    exact ⟨x, by push_cast; ring⟩
  rw [h1]
  unfold Dft.w
  have h2 : (2 * (Real.pi : ℂ) * Complex.I * ((-(x : ℤ) : ℤ) : ℂ) / (len : ℂ)) = (-(2 * Real.pi * x / len) : ℂ) * Complex.I := by
    push_cast
    ring
  rw [h2, Complex.exp_mul_I, Complex.cos_neg, Complex.sin_neg]
  ring

/-! ### C197 -/

/-- Moving a line by `d` pixels and dimming it by `a`: the cost is zero exactly at transmission `a` and a gradient that differs from
2 pi d / length by a multiple of 2 pi, that is at the true displacement up to whole lengths of the line. -/
theorem C197_identified (len : ℕ) (hlen : 2 ≤ len) (ref diff : ℕ → ℝ) (a : ℝ) (ha : a ≠ 0) (d : ℕ) (hd : Spec.Moved len ref diff a d)
    (hs : Spec.Structured len ref) (v : ℝ × ℝ) :
    rss len v (lineTransform len ref) (lineTransform len diff) = 0 ↔ v.1 = a ∧ ∃ k : ℤ, v.2 = 2 * Real.pi * d / len + 2 * Real.pi * k := by
  have hlen0 : 0 < len := by omega
  have hne : (len : ℂ) ≠ 0 := by exact_mod_cast hlen0.ne'
  have h0 := (rss_eq_zero len _ _ _).1 (C104_cost_minimum len hlen0 ref diff a d hd).2
  rw [rss_eq_zero]
  constructor
  · intro h
    -- frequency zero fixes the transmission
    have hb0 : beta len (len / 2) = 0 := by
      rw [beta_eq len _ hlen0 (by omega)]; simp
    have e0 := (h0 (len / 2) (by omega)).symm.trans (h (len / 2) (by omega))
    rw [hb0] at e0
    simp only [Complex.ofReal_zero, mul_zero, Complex.exp_zero, mul_one] at e0
    have hz : lineTransform len ref (len / 2) ≠ 0 := by
      rw [lineTransform_zero len hlen0]
      exact div_ne_zero (by exact_mod_cast hs.1) hne
    have hv1 : v.1 = a := by
      have := mul_left_cancel₀ hz e0
      exact_mod_cast this.symm
    refine ⟨hv1, ?_⟩
    -- the slowest oscillation fixes the gradient
    have hb1 : beta len (len / 2 - 1) = -1 := by
      rw [beta_eq len _ hlen0 (by omega), Nat.cast_sub (by omega)]; simp
    have e1 := (h0 (len / 2 - 1) (by omega)).symm.trans (h (len / 2 - 1) (by omega))
    rw [hb1, hv1] at e1
    have hz1 : lineTransform len ref (len / 2 - 1) ≠ 0 := by
      rw [lineTransform_one len hlen]
      refine div_ne_zero ?_ hne
      intro hc
      have hre := congrArg Complex.re hc
      have him := congrArg Complex.im hc
      simp only [Complex.sub_re, Complex.sub_im, Complex.ofReal_re, Complex.ofReal_im, Complex.mul_re, Complex.mul_im, Complex.I_re, Complex.I_im, Complex.zero_re, Complex.zero_im] at hre him
      rcases hs.2 with h' | h'
      · exact h' (by linarith)
      · exact h' (by linarith)
    have ha' : (a : ℂ) ≠ 0 := by exact_mod_cast ha
    have e2 := mul_left_cancel₀ (mul_ne_zero hz1 ha') e1
    obtain ⟨k, hk⟩ := Complex.exp_eq_exp_iff_exists_int.1 e2
    refine ⟨k, ?_⟩
    have hk' : ((v.2 : ℝ) : ℂ) = ((2 * Real.pi * d / len + 2 * Real.pi * k : ℝ) : ℂ) := by
      have h3 : Complex.I * (((2 * Real.pi * d / len : ℝ) : ℂ) + 2 * Real.pi * k - v.2) = 0 := by
        push_cast at hk ⊢
        linear_combination -hk
      have h4 := (mul_eq_zero.1 h3).resolve_left Complex.I_ne_zero
      push_cast at h4 ⊢
      linear_combination -h4
    exact_mod_cast hk'
  · rintro ⟨h1, k, hk⟩ m hm
    rw [h0 m hm, h1]
    congr 1
    rw [hk, beta_int len m hm]
    apply Complex.exp_eq_exp_iff_exists_int.2
    refine ⟨-(k * ((m : ℤ) - (len / 2 : ℕ))), ?_⟩
    push_cast
    ring

/-- The same as a statement about the minimisation: the global minima of the cost are exactly these parameters. -/
theorem C197_minima (len : ℕ) (hlen : 2 ≤ len) (ref diff : ℕ → ℝ) (a : ℝ) (ha : a ≠ 0) (d : ℕ) (hd : Spec.Moved len ref diff a d)
    (hs : Spec.Structured len ref) (v : ℝ × ℝ) :
    (∀ u, rss len v (lineTransform len ref) (lineTransform len diff) ≤ rss len u (lineTransform len ref) (lineTransform len diff)) ↔
      v.1 = a ∧ ∃ k : ℤ, v.2 = 2 * Real.pi * d / len + 2 * Real.pi * k := by
  obtain ⟨hpos, hz⟩ := C104_cost_minimum len (by omega) ref diff a d hd
  rw [← C197_identified len hlen ref diff a ha d hd hs v]
  constructor
  · intro h
    have := h (a, 2 * Real.pi * d / len)
    rw [hz] at this
    exact le_antisymm this (hpos _ _ _)
  · intro h u
    rw [h]
    exact hpos _ _ _

/-- What cannot be recovered: for a frame without intensity, and for a reference line that is the same in every pixel, the cost does
not depend on the gradient at the true transmission, so that the returned gradient says nothing about the frame. -/
theorem C197_unidentified (len : ℕ) (hlen : 0 < len) (ref diff : ℕ → ℝ) (a : ℝ) (d : ℕ) (hd : Spec.Moved len ref diff a d)
    (h : a = 0 ∨ ∀ m < len, ref m = ref 0) (g : ℝ) : rss len (a, g) (lineTransform len ref) (lineTransform len diff) = 0 := by
  have h0 := (rss_eq_zero len _ _ _).1 (C104_cost_minimum len hlen ref diff a d hd).2
  rw [rss_eq_zero]
  intro m hm
  rw [h0 m hm]
  rcases h with h | h
  · simp [h]
  · by_cases hm2 : m = len / 2
    · have hb0 : beta len m = 0 := by
        rw [hm2, beta_eq len _ hlen (by omega)]; simp
      simp [hb0]
    · have hz : lineTransform len ref m = 0 := by
        unfold lineTransform Dft.fftshift Dft.ifft
        have : ∑ k ∈ range len, ((ref k : ℝ) : ℂ) * Dft.w len ((((m + (len - len / 2)) % len : ℕ) : ℤ) * k) = 0 := by
          rw [sum_congr rfl (fun k hk => by rw [h k (mem_range.1 hk)]), ← mul_sum, Dft.sum_w len hlen, if_neg, mul_zero]
          intro hdvd
          have h1 := Dft.fftshift_freq len m hm
          have h2 := dvd_sub hdvd h1
          rw [sub_sub_cancel] at h2
          exact hm2 ((Dft.dvd_sub_iff len m (len / 2) hm (by omega)).1 h2)
        rw [this, zero_div]
      rw [hz]
      simp

theorem sum_shift (len : ℕ) (hlen : 0 < len) (d : ℕ) (f : ℕ → ℝ) : ∑ i ∈ range len, f i = ∑ i ∈ range len, f ((i + d) % len) := by
  symm
  apply Finset.sum_bij' (fun x _ => (x + d) % len) (fun x _ => (x + (len - d % len)) % len)
  · intro x _; exact mem_range.2 (Nat.mod_lt _ hlen)
  · intro x _; exact mem_range.2 (Nat.mod_lt _ hlen)
  · intro x hx
    have hx' := mem_range.1 hx
    have hdl := Nat.mod_lt d hlen
    rw [Nat.mod_add_mod]
    have h3 : x + d + (len - d % len) = x + len * (d / len + 1) := by
      have := Nat.mod_add_div d len
      rw [Nat.mul_add, Nat.mul_one]
      omega
    rw [h3, Nat.add_mul_mod_self_left, Nat.mod_eq_of_lt hx']
  · intro x hx
    have hx' := mem_range.1 hx
    have hdl := Nat.mod_lt d hlen
    rw [Nat.mod_add_mod]
    have h3 : x + (len - d % len) + d = x + len * (d / len + 1) := by
      have := Nat.mod_add_div d len
      rw [Nat.mul_add, Nat.mul_one]
      omega
    rw [h3, Nat.add_mul_mod_self_left, Nat.mod_eq_of_lt hx']
  · intro x _; rfl

theorem colSums_getD (im : Img ℝ) (j : ℕ) (hj : j < im.cols) : (colSums im).getD j 0 = ∑ i ∈ range im.rows, im.px i j := by
  simp [colSums, List.getD_eq_getElem?_getD, hj]

theorem rowSums_getD (im : Img ℝ) (i : ℕ) (hi : i < im.rows) : (rowSums im).getD i 0 = ∑ j ∈ range im.cols, im.px i j := by
  simp [rowSums, List.getD_eq_getElem?_getD, hi]

theorem lineTransform_congr (len : ℕ) (f g : ℕ → ℝ) (h : ∀ m < len, f m = g m) : lineTransform len f = lineTransform len g := by
  funext m
  unfold lineTransform Dft.fftshift
  exact Dft.ifft_congr len _ _ (fun m hm => by rw [h m hm]) _

/-- A frame that is the reference frame dimmed by `a` and moved by (dy, dx) pixels, fitted with a solver that finds global minima, is
measured as such: both transmissions are `a`, and the gradients are 2 pi dx / columns and 2 pi dy / rows up to multiples of 2 pi. -/
theorem C197_frame (minim : (ℝ × ℝ → ℝ) → ℝ × ℝ) (hmin : Spec.FindsMinimum minim) (ref im : Img ℝ) (hr : 2 ≤ ref.rows) (hc : 2 ≤ ref.cols)
    (hx : Spec.Structured ref.cols (fun j => ∑ i ∈ range ref.rows, ref.px i j)) (hy : Spec.Structured ref.rows (fun i => ∑ j ∈ range ref.cols, ref.px i j))
    (a : ℝ) (ha : a ≠ 0) (dy dx : ℕ) (hm : Spec.FrameMoved ref im a dy dx) :
    (fitFrame minim ref im).1.1 = a ∧ (fitFrame minim ref im).2.1 = a ∧
      (∃ k : ℤ, (fitFrame minim ref im).1.2 = 2 * Real.pi * dx / ref.cols + 2 * Real.pi * k) ∧
      ∃ k : ℤ, (fitFrame minim ref im).2.2 = 2 * Real.pi * dy / ref.rows + 2 * Real.pi * k := by
  obtain ⟨m1, m2, m3⟩ := hm
  have hcl : (colSums ref).length = ref.cols := by simp [colSums]
  have hrl : (rowSums ref).length = ref.rows := by simp [rowSums]
  have hcl' : (colSums im).length = ref.cols := by simp [colSums, m2]
  have hrl' : (rowSums im).length = ref.rows := by simp [rowSums, m1]
  have key : ∀ (len : ℕ) (r s l q : ℕ → ℝ) (d : ℕ), 2 ≤ len → (∀ m < len, r m = s m) → (∀ m < len, l m = q m) → Spec.Moved len s q a d → Spec.Structured len s →
      (minim (fun v => rss len v (lineTransform len r) (lineTransform len l))).1 = a ∧
        ∃ k : ℤ, (minim (fun v => rss len v (lineTransform len r) (lineTransform len l))).2 = 2 * Real.pi * d / len + 2 * Real.pi * k := by
    intro len r s l q d hl h1 h2 h3 h4
    rw [lineTransform_congr len r s h1, lineTransform_congr len l q h2]
    rw [← C197_minima len hl s q a ha d h3 h4]
    apply hmin (fun v => rss len v (lineTransform len s) (lineTransform len q))
    obtain ⟨hpos, hz⟩ := C104_cost_minimum len (by omega) s q a d h3
    exact ⟨(a, 2 * Real.pi * d / len), fun u => by rw [hz]; exact hpos _ _ _⟩
  have kx := key ref.cols (fun m => (colSums ref).getD m 0) (fun j => ∑ i ∈ range ref.rows, ref.px i j) (fun m => (colSums im).getD m 0)
    (fun j => ∑ i ∈ range ref.rows, im.px i j) dx hc (fun m hm => colSums_getD ref m hm)
    (fun m hm => by rw [colSums_getD im m (by omega), m1])
    (fun j hj => by
      simp only
      rw [sum_shift ref.rows (by omega) dy, mul_sum]
      exact sum_congr rfl (fun i hi => m3 i (mem_range.1 hi) j hj)) hx
  have ky := key ref.rows (fun m => (rowSums ref).getD m 0) (fun i => ∑ j ∈ range ref.cols, ref.px i j) (fun m => (rowSums im).getD m 0)
    (fun i => ∑ j ∈ range ref.cols, im.px i j) dy hr (fun m hm => rowSums_getD ref m hm)
    (fun m hm => by rw [rowSums_getD im m (by omega), m2])
    (fun i hi => by
      simp only
      rw [sum_shift ref.cols (by omega) dx, mul_sum]
      exact sum_congr rfl (fun j hj => m3 i hi j (mem_range.1 hj))) hy
  unfold fitFrame
  simp only [hcl, hrl, hcl', hrl']
  exact ⟨kx.1, ky.1, kx.2, ky.2⟩

/-- A whole scan: with frames that are the reference dimmed by their own `a k` and moved, `dpc_runner` returns the map of the
transmissions as its amplitude image, position by position in raster order. -/
theorem C197_amplitude (minim : (ℝ × ℝ → ℝ) → ℝ × ℝ) (hmin : Spec.FindsMinimum minim) (ref : Img ℝ) (hr : 2 ≤ ref.rows) (hc : 2 ≤ ref.cols)
    (hx : Spec.Structured ref.cols (fun j => ∑ i ∈ range ref.rows, ref.px i j)) (hy : Spec.Structured ref.rows (fun i => ∑ j ∈ range ref.cols, ref.px i j))
    (ims : List (Img ℝ)) (a : ℕ → ℝ) (ha : ∀ k, a k ≠ 0) (dy dx : ℕ → ℕ)
    (hm : ∀ (k : ℕ) im, ims[k]? = some im → Spec.FrameMoved ref im (a k) (dy k) (dx k))
    (rows cols : ℕ) (hne : ims ≠ []) (hfit : ims.length ≤ rows * cols)
    (p focus sx sy energy : ℝ) (padding : ℕ) (w : ℝ) (hw : 0 ≤ w ∧ w ≤ 1) (negate scale : Bool) (hp : negate = true ∨ p ≠ 0 ∧ focus ≠ 0) :
    ∃ phase amp, dpcRunner (fitFrame minim ref) ims (p, p) focus rows cols ref.cols ref.rows sx sy energy padding w negate scale = .ok (phase, amp) ∧
      amp.rows = rows ∧ amp.cols = cols ∧ ∀ i j, j < cols → i * cols + j < ims.length → amp.px i j = a (i * cols + j) := by
  obtain ⟨st, ⟨_, hax, hay, _, _⟩, heq⟩ := C106_runner_partial (fitFrame minim ref) ims p focus rows cols ref.cols ref.rows sx sy energy padding w negate scale hne hfit
  rw [heq]
  have hrec : ∀ g h : ℕ → ℕ → ℝ, ∃ im, recon rows cols g h sx sy padding w = .ok im := by
    intro g h
    obtain ⟨im, him, _⟩ := (C63_recon rows cols g h sx sy padding w).2 hw
    exact ⟨im, him⟩
  have hamp : ∀ i j, j < cols → i * cols + j < ims.length → (st.ax i j + st.ay i j) / 2 = a (i * cols + j) := by
    intro i j hj hlt
    have e : ims[i * cols + j]? = some ims[i * cols + j] := List.getElem?_eq_getElem hlt
    obtain ⟨f1, f2, _⟩ := C197_frame minim hmin ref _ hr hc hx hy _ (ha _) _ _ (hm _ _ e)
    rw [(hax i j hj).1 _ e hlt, (hay i j hj).1 _ e hlt]
    simp only [f1, f2]
    ring
  unfold reconstruct
  rw [if_neg (by rintro (h | h) <;> linarith [hw.1, hw.2])]
  have fin : ∀ (o : Option (ℕ → ℕ → ℝ)) (h : ℕ → ℕ → ℝ), o ≠ none → ∃ phase amp : Img ℝ,
      (match o with
        | none => (.error .valueError : Py (Img ℝ × Img ℝ))
        | some g =>
          match recon rows cols g h sx sy padding w with
          | .error e => (.error e : Py (Img ℝ × Img ℝ))
          | .ok phase => .ok (phase, ⟨rows, cols, fun i j => (st.ax i j + st.ay i j) / 2⟩)) = .ok (phase, amp) ∧
      amp.rows = rows ∧ amp.cols = cols ∧ ∀ i j, j < cols → i * cols + j < ims.length → amp.px i j = a (i * cols + j) := by
    intro o h ho
    cases o with
    | none => exact absurd rfl ho
    | some g =>
      obtain ⟨im, him⟩ := hrec g h
      simp only [him]
      exact ⟨_, _, rfl, rfl, rfl, hamp⟩
  apply fin
  rcases hp with hp | hp
  · simp [hp]
  · cases negate <;> simp [hp.1, hp.2]

/-! ### non-vacuity -/

/-- A solver that finds global minima exists (as a function). -/
example : ∃ minim, Spec.FindsMinimum minim := by
  classical
  exact ⟨fun f => if h : ∃ v, ∀ u, f v ≤ f u then h.choose else (0, 0), fun f h u => by simp only [dif_pos h]; exact h.choose_spec u⟩

/-- The reference frame (1 2 / 4 5) is structured in both directions, and (8 10 / 2 4) is that frame doubled and moved by one row. -/
example : Spec.Structured 2 (fun j => ∑ i ∈ range 2, ((3 * i + j + 1 : ℕ) : ℝ)) := by
  refine ⟨by norm_num [sum_range_succ], Or.inl ?_⟩
  simp [sum_range_succ]
  norm_num

example : Spec.Structured 2 (fun i => ∑ j ∈ range 2, ((3 * i + j + 1 : ℕ) : ℝ)) := by
  refine ⟨by norm_num [sum_range_succ], Or.inl ?_⟩
  simp [sum_range_succ]
  norm_num

example : Spec.FrameMoved ⟨2, 2, fun i j => (3 * i + j + 1 : ℕ)⟩ ⟨2, 2, fun i j => 2 * ((3 * ((i + 1) % 2) + j + 1 : ℕ) : ℝ)⟩ 2 1 0 := by
  refine ⟨rfl, rfl, ?_⟩
  intro i hi j hj
  have hi' : i < 2 := hi
  have hj' : j < 2 := hj
  interval_cases i <;> interval_cases j <;> norm_num

end Verif.Dpc
