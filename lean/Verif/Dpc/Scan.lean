/- Property C228: from the frames of a scan to the phase of the sample. -/
import Verif.Dpc.Fit

namespace Verif.Dpc
open Finset Verif

/-! ### Specification -/

namespace Spec

/-- The solver returns a global minimum whenever there is one, and of several the one with the smallest gradient in absolute value
(the fits start at gradient 0, and the minima repeat with period 2 pi). -/
def FindsNearest (minim : (ℝ × ℝ → ℝ) → ℝ × ℝ) : Prop :=
  ∀ f : ℝ × ℝ → ℝ, (∃ v, (∀ u, f v ≤ f u) ∧ ∀ u, (∀ z, f u ≤ f z) → |v.2| ≤ |u.2|) →
    (∀ u, f (minim f) ≤ f u) ∧ ∀ u, (∀ z, f u ≤ f z) → |(minim f).2| ≤ |u.2|

/-- The frame is the reference frame, dimmed by `a` and displaced cyclically by `dy` rows and `dx` columns; displacements have a sign. -/
def Displaced (ref im : Img ℝ) (a : ℝ) (dy dx : ℤ) : Prop :=
  im.rows = ref.rows ∧ im.cols = ref.cols ∧
    ∀ i < ref.rows, ∀ j < ref.cols, ∃ i' j', i' < ref.rows ∧ j' < ref.cols ∧ (i' : ℤ) ≡ i + dy [ZMOD ref.rows] ∧ (j' : ℤ) ≡ j + dx [ZMOD ref.cols] ∧
      im.px i' j' = a * ref.px i j

/-- The wavelength for an energy, in the units of dpc.py. -/
noncomputable def wavelength (energy : ℝ) : ℝ := 12.4e-4 / energy

/-- By geometry a phase with slope g deflects the beam by the angle g * wavelength / (2 pi), which moves it by that angle times the
distance on the detector. -/
noncomputable def shiftOnDetector (g energy focus : ℝ) : ℝ := g * wavelength energy / (2 * Real.pi) * focus

end Spec

/-! ### Lemmas -/

theorem displaced_moved (ref im : Img ℝ) (a : ℝ) (dy dx : ℤ) (hr : 0 < ref.rows) (hc : 0 < ref.cols) (h : Spec.Displaced ref im a dy dx) :
    Spec.FrameMoved ref im a (dy % ref.rows).toNat (dx % ref.cols).toNat := by
  obtain ⟨h1, h2, h3⟩ := h
  refine ⟨h1, h2, ?_⟩
  intro i hi j hj
  obtain ⟨i', j', hi', hj', ei, ej, e⟩ := h3 i hi j hj
  have key : ∀ (n x x' : ℕ) (d : ℤ), 0 < n → x' < n → (x' : ℤ) ≡ x + d [ZMOD n] → (x + (d % n).toNat) % n = x' := by
    intro n x x' d hn hx' he
    have hd : ((d % n).toNat : ℤ) = d % n := Int.toNat_of_nonneg (Int.emod_nonneg _ (by omega))
    have : ((x + (d % n).toNat : ℕ) : ℤ) % n = (x' : ℤ) := by
      push_cast
      rw [hd, Int.add_emod_emod, ← he, Int.emod_eq_of_lt (by omega) (by omega)]
    exact_mod_cast this
  rw [key _ _ _ _ hr hi' ei, key _ _ _ _ hc hj' ej]
  exact e

theorem nearest_unique (len : ℕ) (hlen : 0 < len) (D : ℤ) (hD : 2 * |D| < len) (g : ℝ) (k : ℤ)
    (hg : g = 2 * Real.pi * ((D % len).toNat : ℕ) / len + 2 * Real.pi * k) (hmin : |g| ≤ |2 * Real.pi * D / len|) : g = 2 * Real.pi * D / len := by
  have hl : (0 : ℝ) < len := by exact_mod_cast hlen
  have hd : ((D % len).toNat : ℤ) = D % len := Int.toNat_of_nonneg (Int.emod_nonneg _ (by omega))
  have hde : D % len = D - len * (D / len) := by have := Int.emod_add_mul_ediv D len; omega
  set q : ℤ := k - D / len with hq
  have hg' : g = 2 * Real.pi * ((D + len * q : ℤ) : ℝ) / len := by
    have : (((D % len).toNat : ℕ) : ℝ) = ((D - len * (D / len) : ℤ) : ℝ) := by rw [← hde]; exact_mod_cast congrArg (Int.cast : ℤ → ℝ) hd
    rw [hg, this, hq]
    push_cast
    field_simp
    ring
  have hpi := Real.pi_pos
  have habs : ∀ z : ℤ, |2 * Real.pi * (z : ℝ) / len| = 2 * Real.pi / len * ((|z| : ℤ) : ℝ) := by
    intro z
    rw [abs_div, abs_mul, abs_of_pos (by positivity : (0 : ℝ) < 2 * Real.pi), abs_of_pos hl]
    push_cast
    ring
  rw [hg', habs, habs] at hmin
  have hz : |D + len * q| ≤ |D| := by
    have := le_of_mul_le_mul_left hmin (by positivity)
    exact_mod_cast this
  have hq0 : q = 0 := by
    by_contra hne
    have h1 : (len : ℤ) ≤ |(len : ℤ) * q| := by
      rw [abs_mul, abs_of_nonneg (by omega : (0 : ℤ) ≤ len)]
      exact le_mul_of_one_le_right (by omega) (Int.one_le_abs hne)
    have h2 := abs_sub_abs_le_abs_sub ((len : ℤ) * q) (-D)
    rw [abs_neg, sub_neg_eq_add, add_comm ((len : ℤ) * q) D] at h2
    omega
  rw [hg', hq0]
  simp

/-- The fit of one line. -/
theorem fit_nearest (minim : (ℝ × ℝ → ℝ) → ℝ × ℝ) (hmin : Spec.FindsNearest minim) (len : ℕ) (hl : 2 ≤ len) (s q : ℕ → ℝ) (a : ℝ) (ha : a ≠ 0) (D : ℤ)
    (hD : 2 * |D| < len) (h3 : Spec.Moved len s q a (D % len).toNat) (h4 : Spec.Structured len s) :
    minim (fun v => rss len v (lineTransform len s) (lineTransform len q)) = (a, 2 * Real.pi * D / len) := by
  have hd : ((D % len).toNat : ℤ) = D % len := Int.toNat_of_nonneg (Int.emod_nonneg _ (by omega))
  have hlr : (len : ℝ) ≠ 0 := by have : 0 < len := by omega
                                 exact_mod_cast this.ne'
  have hk : ∃ k : ℤ, 2 * Real.pi * (D : ℝ) / len = 2 * Real.pi * ((D % len).toNat : ℕ) / len + 2 * Real.pi * k := by
    refine ⟨D / len, ?_⟩
    have : (((D % len).toNat : ℕ) : ℝ) = ((D - len * (D / len) : ℤ) : ℝ) := by
      rw [show D - len * (D / len) = D % len by have := Int.emod_add_mul_ediv D len; omega]; exact_mod_cast congrArg (Int.cast : ℤ → ℝ) hd
    rw [this]
    push_cast
    field_simp
    ring
  have hm := C197_minima len hl s q a ha _ h3 h4
  have hex : ∃ v : ℝ × ℝ, (∀ u, rss len v (lineTransform len s) (lineTransform len q) ≤ rss len u (lineTransform len s) (lineTransform len q)) ∧
      ∀ u : ℝ × ℝ, (∀ z, rss len u (lineTransform len s) (lineTransform len q) ≤ rss len z (lineTransform len s) (lineTransform len q)) → |v.2| ≤ |u.2| := by
    refine ⟨(a, 2 * Real.pi * D / len), (hm _).2 ⟨rfl, hk⟩, ?_⟩
    intro u hu
    obtain ⟨_, k, hku⟩ := (hm u).1 hu
    by_contra hlt
    push Not at hlt
    have := nearest_unique len (by omega) D hD u.2 k hku hlt.le
    rw [this] at hlt
    exact lt_irrefl _ hlt
  obtain ⟨g1, g2⟩ := hmin (fun v => rss len v (lineTransform len s) (lineTransform len q)) hex
  obtain ⟨e1, k, e2⟩ := (hm _).1 g1
  have := nearest_unique len (by omega) D hD _ k e2 (g2 (a, 2 * Real.pi * D / len) ((hm _).2 ⟨rfl, hk⟩))
  exact Prod.ext e1 this

/-- One frame. -/
theorem frame_nearest (minim : (ℝ × ℝ → ℝ) → ℝ × ℝ) (hmin : Spec.FindsNearest minim) (ref im : Img ℝ) (hr : 2 ≤ ref.rows) (hc : 2 ≤ ref.cols)
    (hx : Spec.Structured ref.cols (fun j => ∑ i ∈ range ref.rows, ref.px i j)) (hy : Spec.Structured ref.rows (fun i => ∑ j ∈ range ref.cols, ref.px i j))
    (a : ℝ) (ha : a ≠ 0) (dy dx : ℤ) (hDx : 2 * |dx| < ref.cols) (hDy : 2 * |dy| < ref.rows) (hd : Spec.Displaced ref im a dy dx) :
    fitFrame minim ref im = ((a, 2 * Real.pi * dx / ref.cols), (a, 2 * Real.pi * dy / ref.rows)) := by
  obtain ⟨m1, m2, m3⟩ := displaced_moved ref im a dy dx (by omega) (by omega) hd
  have hcl : (colSums ref).length = ref.cols := by simp [colSums]
  have hrl : (rowSums ref).length = ref.rows := by simp [rowSums]
  have hcl' : (colSums im).length = ref.cols := by simp [colSums, m2]
  have hrl' : (rowSums im).length = ref.rows := by simp [rowSums, m1]
  unfold fitFrame
  simp only [hcl, hrl, hcl', hrl']
  rw [lineTransform_congr ref.cols _ _ (fun m hm => colSums_getD ref m hm), lineTransform_congr ref.cols _ _ (fun m hm => colSums_getD im m (by omega)),
    lineTransform_congr ref.rows _ _ (fun m hm => rowSums_getD ref m hm), lineTransform_congr ref.rows _ _ (fun m hm => rowSums_getD im m (by omega))]
  rw [fit_nearest minim hmin ref.cols hc _ (fun j => ∑ i ∈ range im.rows, im.px i j) a ha dx hDx (fun j hj => by
      simp only
      rw [m1, sum_shift ref.rows (by omega) (dy % ref.rows).toNat, mul_sum]
      exact sum_congr rfl (fun i hi => m3 i (mem_range.1 hi) j hj)) hx,
    fit_nearest minim hmin ref.rows hr _ (fun i => ∑ j ∈ range im.cols, im.px i j) a ha dy hDy (fun i hi => by
      simp only
      rw [m2, sum_shift ref.cols (by omega) (dx % ref.cols).toNat, mul_sum]
      exact sum_congr rfl (fun j hj => m3 i hi j (mem_range.1 hj))) hy]

theorem recon_congr (n m : ℕ) (g h g' h' : ℕ → ℕ → ℝ) (hg : ∀ i < n, ∀ j < m, g i j = g' i j) (hh : ∀ i < n, ∀ j < m, h i j = h' i j) (sx sy : ℝ) (padding : ℕ) (w : ℝ) :
    recon n m g h sx sy padding w = recon n m g' h' sx sy padding w := by
  have hp : ∀ a b : ℕ → ℕ → ℝ, (∀ i < n, ∀ j < m, a i j = b i j) → pad padding n m a = pad padding n m b := by
    intro a b hab
    unfold pad
    congr 1
    funext i j
    split
    · rename_i hc
      have : (padding + 1) * n = padding * n + n := by ring
      have : (padding + 1) * m = padding * m + m := by ring
      exact hab _ (by omega) _ (by omega)
    · rfl
  unfold recon
  rw [hp g g' hg, hp h h' hh]

/-! ### C228 -/

/-- C228.  A complete scan in which the sample has the transmission a and the periodic phase phi (a trigonometric polynomial with the
derivatives gx and gy): every frame is the reference frame dimmed by a and displaced as geometry demands, that is by
gx * wavelength * distance / (2 pi) in units of pixels along the columns (against the direction of gx with negate=True, the default)
and likewise for gy along the rows, by whole pixels and less than half a frame.  Then dpc_runner returns the phase of the sample up to
an additive constant, and its transmission. -/
theorem C228_phase (minim : (ℝ × ℝ → ℝ) → ℝ × ℝ) (hmin : Spec.FindsNearest minim) (ref : Img ℝ) (hr : 2 ≤ ref.rows) (hc : 2 ≤ ref.cols)
    (hx : Spec.Structured ref.cols (fun j => ∑ i ∈ range ref.rows, ref.px i j)) (hy : Spec.Structured ref.rows (fun i => ∑ j ∈ range ref.cols, ref.px i j))
    (n m : ℕ) (hn : 0 < n) (hm : 0 < m) (ims : List (Img ℝ)) (hlen : ims.length = n * m)
    (sx sy w p focus energy : ℝ) (hsx : sx ≠ 0) (hsy : sy ≠ 0) (hw0 : 0 < w) (hw1 : w < 1) (hp : p ≠ 0) (hf : focus ≠ 0) (he : energy ≠ 0)
    (c : ℕ → ℕ → ℂ) (phi gx gy : ℕ → ℕ → ℝ) (hphi : ∀ i j, (phi i j : ℂ) = Spec.trig n m c i j)
    (hgx : ∀ i j, (gx i j : ℂ) = Spec.trig n m (fun k l => Complex.I * Spec.waveNumber m sx (Spec.freq m l) * c k l) i j)
    (hgy : ∀ i j, (gy i j : ℂ) = Spec.trig n m (fun k l => Complex.I * Spec.waveNumber n sy (Spec.freq n k) * c k l) i j)
    (a : ℕ → ℕ → ℝ) (ha : ∀ i j, a i j ≠ 0) (dy dx : ℕ → ℕ → ℤ) (negate scale : Bool)
    (hdx : ∀ i < n, ∀ j < m, (if negate then -(dx i j : ℝ) else dx i j) * p = Spec.shiftOnDetector (gx i j) energy focus ∧ 2 * |dx i j| < ref.cols)
    (hdy : ∀ i < n, ∀ j < m, (dy i j : ℝ) * p = Spec.shiftOnDetector (gy i j) energy focus ∧ 2 * |dy i j| < ref.rows)
    (hims : ∀ i < n, ∀ j < m, ∀ im, ims[i * m + j]? = some im → Spec.Displaced ref im (a i j) (dy i j) (dx i j)) :
    ∃ phase amp shift, dpcRunner (fitFrame minim ref) ims (p, p) focus n m ref.cols ref.rows sx sy energy 0 w negate scale = .ok (phase, amp) ∧
      phase.rows = n ∧ phase.cols = m ∧ amp.rows = n ∧ amp.cols = m ∧ ∀ i < n, ∀ j < m, phase.px i j = phi i j - shift ∧ amp.px i j = a i j := by
  have hne : ims ≠ [] := by
    intro h0
    rw [h0, List.length_nil] at hlen
    exact (Nat.mul_pos hn hm).ne hlen
  obtain ⟨st, ⟨_, hax, hay, hgx', hgy'⟩, heq⟩ := C106_runner_partial (fitFrame minim ref) ims p focus n m ref.cols ref.rows sx sy energy 0 w negate scale hne hlen.le
  have hfit : ∀ i < n, ∀ j < m, st.ax i j = a i j ∧ st.ay i j = a i j ∧ st.gx i j = 2 * Real.pi * dx i j / ref.cols ∧ st.gy i j = 2 * Real.pi * dy i j / ref.rows := by
    intro i hi j hj
    have hlt : i * m + j < ims.length := by
      rw [hlen]
      calc i * m + j < i * m + m := by omega
        _ = (i + 1) * m := by ring
        _ ≤ n * m := Nat.mul_le_mul_right _ hi
    have e : ims[i * m + j]? = some ims[i * m + j] := List.getElem?_eq_getElem hlt
    have f := frame_nearest minim hmin ref _ hr hc hx hy _ (ha i j) _ _ (hdx i hi j hj).2 (hdy i hi j hj).2 (hims i hi j hj _ e)
    refine ⟨?_, ?_, ?_, ?_⟩
    · rw [(hax i j hj).1 _ e hlt]; simp only [f]
    · rw [(hay i j hj).1 _ e hlt]; simp only [f]
    · rw [(hgx' i j hj).1 _ e hlt]; simp only [f]
    · rw [(hgy' i j hj).1 _ e hlt]; simp only [f]
  obtain ⟨im, sh, h1, h2, h3, h4⟩ := C102_recon_gradient n m hn hm sx sy w hsx hsy hw0 hw1 c phi gx gy hphi hgx hgy
  have hcr : (ref.cols : ℝ) ≠ 0 := by have : 0 < ref.cols := by omega
                                      exact_mod_cast this.ne'
  have hrr : (ref.rows : ℝ) ≠ 0 := by have : 0 < ref.rows := by omega
                                      exact_mod_cast this.ne'
  have hpi := Real.pi_pos.ne'
  have hlam : (12.4e-4 / energy * focus : ℝ) ≠ 0 := mul_ne_zero (div_ne_zero (by norm_num) he) hf
  have hslope : ∀ (d g : ℝ), d * p = Spec.shiftOnDetector g energy focus → 2 * Real.pi * d * (p / (12.4e-4 / energy * focus)) = g := by
    intro d g hd
    unfold Spec.shiftOnDetector Spec.wavelength at hd
    rw [mul_div_assoc', div_eq_iff hlam, mul_assoc, hd]
    field_simp
  refine ⟨im, ⟨n, m, fun i j => (st.ax i j + st.ay i j) / 2⟩, sh, ?_, h2, h3, rfl, rfl, ?_⟩
  · rw [heq]
    unfold reconstruct
    rw [if_neg (by rintro (h | h) <;> linarith)]
    simp only [Option.getD_some, ne_eq, hp, hf, not_false_eq_true, and_self, if_true]
    have hgxs : ∀ i < n, ∀ j < m, (if negate then (-1 : ℝ) else 1) * (st.gx i j * ref.cols * (p / (12.4e-4 / energy * focus))) = gx i j := by
      intro i hi j hj
      rw [(hfit i hi j hj).2.2.1, div_mul_cancel₀ _ hcr]
      have := hslope _ _ (hdx i hi j hj).1
      rw [← this]
      cases negate
      · simp
      · simp
    have hgys : ∀ i < n, ∀ j < m, st.gy i j * ref.rows * (p / (12.4e-4 / energy * focus)) = gy i j := by
      intro i hi j hj
      rw [(hfit i hi j hj).2.2.2, div_mul_cancel₀ _ hrr]
      exact hslope _ _ (hdy i hi j hj).1
    cases negate
    · simp only [Bool.false_eq_true, if_false, one_mul] at hgxs ⊢
      rw [recon_congr n m _ _ gx gy hgxs hgys, h1]
    · simp only [if_true] at hgxs ⊢
      rw [recon_congr n m _ _ gx gy hgxs hgys, h1]
  · intro i hi j hj
    refine ⟨h4 i hi j hj, ?_⟩
    simp only [(hfit i hi j hj).1, (hfit i hi j hj).2.1]
    ring

/-! ### non-vacuity -/

/-- A solver as required exists (as a function). -/
example : ∃ minim, Spec.FindsNearest minim := by
  classical
  exact ⟨fun f => if h : ∃ v : ℝ × ℝ, (∀ u, f v ≤ f u) ∧ ∀ u : ℝ × ℝ, (∀ z, f u ≤ f z) → |v.2| ≤ |u.2| then h.choose else (0, 0), fun f h => by
    simp only [dif_pos h]; exact h.choose_spec⟩

/-- The cosine of the example of C102 and its derivatives. -/
theorem exCosine (A sx sy : ℝ) (hsx : sx ≠ 0) :
    (∀ i j : ℕ, ((A * Real.cos (Real.pi / 2 * j) : ℝ) : ℂ) = Spec.trig 1 4 (exCoef A) i j) ∧
    (∀ i j : ℕ, ((-(Real.pi / (2 * sx)) * A * Real.sin (Real.pi / 2 * j) : ℝ) : ℂ) =
      Spec.trig 1 4 (fun k l => Complex.I * Spec.waveNumber 4 sx (Spec.freq 4 l) * exCoef A k l) i j) ∧
    ∀ i j : ℕ, (((fun _ _ => 0 : ℕ → ℕ → ℝ) i j : ℝ) : ℂ) = Spec.trig 1 4 (fun k l => Complex.I * Spec.waveNumber 1 sy (Spec.freq 1 k) * exCoef A k l) i j := by
  refine ⟨?_, ?_, ?_⟩
  · intro i j
    have := exTrig (exCoef A 0) i j
    rw [show (fun (_ : ℕ) l => exCoef A 0 l) = exCoef A from rfl] at this
    rw [this]
    simp only [exCoef]
    norm_num
    rw [Complex.cos]
    ring_nf
  · intro i j
    have := exTrig (fun l => Complex.I * Spec.waveNumber 4 sx (Spec.freq 4 l) * exCoef A 0 l) i j
    rw [show (fun (_ : ℕ) l => Complex.I * Spec.waveNumber 4 sx (Spec.freq 4 l) * exCoef A 0 l) = fun k l => Complex.I * Spec.waveNumber 4 sx (Spec.freq 4 l) * exCoef A k l from rfl] at this
    rw [this]
    have f1 : Spec.freq 4 1 = 1 := by decide
    have f3 : Spec.freq 4 3 = -1 := by decide
    have hsx' : (sx : ℂ) ≠ 0 := by exact_mod_cast hsx
    simp only [exCoef, f1, f3, Spec.waveNumber]
    norm_num
    rw [Complex.sin]
    have hI : Complex.I * Complex.I = -1 := Complex.I_mul_I
    field_simp
    ring
  · intro i j
    unfold Spec.trig
    simp only [sum_range_one, Complex.ofReal_zero]
    symm
    apply sum_eq_zero
    intro l _
    have : Spec.freq 1 0 = 0 := by decide
    rw [this]
    simp [Spec.waveNumber]

/-- The reference frame of the example: (4 1 2 1 / 1 0 0 0). -/
def exRef : Img ℝ := ⟨2, 4, fun i j => if i = 0 then (if j = 0 then 4 else if j = 2 then 2 else 1) else if j = 0 then 1 else 0⟩

/-- The frame displaced by d columns and dimmed to a half. -/
noncomputable def exFrame (d : ℤ) : Img ℝ := ⟨2, 4, fun i j => 1 / 2 * exRef.px i (((j : ℤ) - d) % 4).toNat⟩

theorem exFrame_displaced (d : ℤ) : Spec.Displaced exRef (exFrame d) (1 / 2) 0 d := by
  refine ⟨rfl, rfl, ?_⟩
  intro i hi j hj
  have hj' : j < 4 := hj
  refine ⟨i, (((j : ℤ) + d) % 4).toNat, hi, ?_, by simp, ?_, ?_⟩
  · show _ < 4; omega
  · have : (((((j : ℤ) + d) % 4).toNat : ℕ) : ℤ) = ((j : ℤ) + d) % 4 := Int.toNat_of_nonneg (by omega)
    rw [this]
    exact Int.mod_modEq _ _
  · show 1 / 2 * exRef.px i (((((((j : ℤ) + d) % 4).toNat : ℕ) : ℤ) - d) % 4).toNat = 1 / 2 * exRef.px i j
    have : ((((((j : ℤ) + d) % 4).toNat : ℕ) : ℤ) - d) % 4 = j := by omega
    rw [this]
    simp

/-- A scan of one row and four columns over a sample with the phase 4 cos(pi j / 2): the frames are displaced by 0, -1, 0 and 1 columns
with negate=False, and the phase is recovered. -/
example (minim : (ℝ × ℝ → ℝ) → ℝ × ℝ) (hmin : Spec.FindsNearest minim) :
    ∃ phase amp shift, dpcRunner (fitFrame minim exRef) [exFrame 0, exFrame (-1), exFrame 0, exFrame 1] (1, 1) 1 1 4 4 2 1 1 (12.4e-4) 0 (1 / 2) false true = .ok (phase, amp) ∧
      phase.rows = 1 ∧ phase.cols = 4 ∧ amp.rows = 1 ∧ amp.cols = 4 ∧
      ∀ i < 1, ∀ j < 4, phase.px i j = 4 * Real.cos (Real.pi / 2 * j) - shift ∧ amp.px i j = 1 / 2 := by
  obtain ⟨h1, h2, h3⟩ := exCosine 4 1 1 one_ne_zero
  have hs : ∀ j < 4, ((if j = 1 then -1 else if j = 3 then 1 else 0 : ℤ) : ℝ) = -Real.sin (Real.pi / 2 * (j : ℕ)) := by
    intro j hj
    interval_cases j
    · simp
    · simp
    · simp [show Real.pi / 2 * 2 = Real.pi by ring]
    · have : Real.sin (Real.pi / 2 * (3 : ℕ)) = -1 := by
        rw [show Real.pi / 2 * (3 : ℕ) = Real.pi / 2 + Real.pi by push_cast; ring, Real.sin_add_pi, Real.sin_pi_div_two]
      rw [this]; simp
  refine C228_phase minim hmin exRef le_rfl (by decide) ?_ ?_ 1 4 (by norm_num) (by norm_num) _ rfl 1 1 (1 / 2) 1 1 (12.4e-4) one_ne_zero one_ne_zero (by norm_num) (by norm_num)
    one_ne_zero one_ne_zero (by norm_num) (exCoef 4) _ _ _ h1 h2 h3 (fun _ _ => 1 / 2) (fun _ _ => by norm_num) (fun _ _ => 0) (fun _ j => if j = 1 then -1 else if j = 3 then 1 else 0)
    false true ?_ ?_ ?_
  · refine ⟨by norm_num [exRef, sum_range_succ], Or.inl ?_⟩
    have c1 : Real.cos (2 * Real.pi * (1 : ℕ) / (4 : ℕ)) = 0 := by
      rw [show 2 * Real.pi * (1 : ℕ) / (4 : ℕ) = Real.pi / 2 by push_cast; ring, Real.cos_pi_div_two]
    have c2 : Real.cos (2 * Real.pi * (2 : ℕ) / (4 : ℕ)) = -1 := by
      rw [show 2 * Real.pi * (2 : ℕ) / (4 : ℕ) = Real.pi by push_cast; ring, Real.cos_pi]
    have c3 : Real.cos (2 * Real.pi * (3 : ℕ) / (4 : ℕ)) = 0 := by
      rw [show 2 * Real.pi * (3 : ℕ) / (4 : ℕ) = Real.pi / 2 + Real.pi by push_cast; ring, Real.cos_add_pi, Real.cos_pi_div_two, neg_zero]
    show ∑ x ∈ range 4, (∑ i ∈ range 2, exRef.px i x) * Real.cos (2 * Real.pi * (x : ℕ) / (4 : ℕ)) ≠ 0
    rw [sum_range_succ, sum_range_succ, sum_range_succ, sum_range_one, c1, c2, c3]
    norm_num [exRef, sum_range_succ]
  · refine ⟨by norm_num [exRef, sum_range_succ], Or.inl ?_⟩
    have c1 : Real.cos (2 * Real.pi * (1 : ℕ) / (2 : ℕ)) = -1 := by
      rw [show 2 * Real.pi * (1 : ℕ) / (2 : ℕ) = Real.pi by push_cast; ring, Real.cos_pi]
    show ∑ x ∈ range 2, (∑ i ∈ range 4, exRef.px x i) * Real.cos (2 * Real.pi * (x : ℕ) / (2 : ℕ)) ≠ 0
    rw [sum_range_succ, sum_range_one, c1]
    norm_num [exRef, sum_range_succ]
  · intro i _ j hj
    refine ⟨?_, ?_⟩
    · simp only [Bool.false_eq_true, if_false]
      rw [hs j hj]
      unfold Spec.shiftOnDetector Spec.wavelength
      have := Real.pi_pos.ne'
      field_simp
      ring
    · show _ < ((4 : ℕ) : ℤ)
      split
      · decide
      · split <;> decide
  · intro i _ j _
    refine ⟨by simp [Spec.shiftOnDetector], by decide⟩
  · intro i hi j hj im him
    have hi0 : i = 0 := by omega
    subst hi0
    interval_cases j <;> simp at him <;> subst him <;> exact exFrame_displaced _

end Verif.Dpc
