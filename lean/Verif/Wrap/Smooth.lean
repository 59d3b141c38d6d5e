/- C220: the Savitzky-Golay filter on integer images. -/
import Verif.Wrap.Model
import Verif.Smooth.Props

namespace Verif.Wrap
open Verif

/-! ### Model -/

/-- An N × M image of integer type. -/
structure ImgI where
  N : ℕ
  M : ℕ
  px : ℕ → ℕ → ℤ

/-- The same values as exact numbers. -/
def ImgI.exact (im : ImgI) : Smooth.Img := ⟨im.N, im.M, fun r c => im.px r c⟩

/-- `band - np.abs(value - band)` in the type of the image. -/
def belowI (t : IntType) (band value : ℤ) : ℤ := t.wrap (band - t.wrap |t.wrap (value - band)|)
/-- `band + np.abs(value - band)` in the type of the image. -/
def aboveI (t : IntType) (band value : ℤ) : ℤ := t.wrap (band + t.wrap |t.wrap (value - band)|)

/-- The padded image, skbeam/core/smoothing.py:93-134, as `Smooth.pad`.  The four bands and two corners are computed in the
type of the image and stored as floating-point numbers; the corners top right and bottom left (125-134) are computed from
the stored numbers. -/
def padI (t : IntType) (h : ℕ) (im : ImgI) (i j : ℕ) : ℚ :=
  let N := im.N
  let M := im.M
  let img := im.px
  let left (r j : ℕ) : ℚ := belowI t (img r 0) (img r (h - j))
  let right (r j : ℕ) : ℚ := aboveI t (img r (M - 1)) (img r (M - 2 - (j - (M + h))))
  let bottom (i c : ℕ) : ℚ := aboveI t (img (N - 1) c) (img (N - 2 - (i - (N + h))) c)
  if i < h then
    if j < h then belowI t (img 0 0) (img (h - i) (h - j))
    else if j < M + h then belowI t (img 0 (j - h)) (img (h - i) (j - h))
    else Smooth.below (right 0 j) (right (h - i) j)
  else if i < N + h then
    if j < h then left (i - h) j
    else if j < M + h then img (i - h) (j - h)
    else right (i - h) j
  else
    if j < h then Smooth.below (bottom i 0) (bottom i (h - j))
    else if j < M + h then bottom i (j - h)
    else aboveI t (img (N - 1) (M - 1)) (img (N - 2 - (i - (N + h))) (M - 2 - (j - (M + h))))

/-- smoothing.py:137-149. -/
def filteredI (t : IntType) (h : ℕ) (im : ImgI) (k : Fin (2 * h + 1) × Fin (2 * h + 1) → ℚ) : Smooth.Img :=
  ⟨im.N, im.M, Smooth.convValid h (padI t h im) k⟩

/-- smoothing.py:93-149, as `Smooth.run`. -/
def runI (t : IntType) (im : ImgI) (h order : ℕ)
    (pinv : (h order : ℕ) → Matrix (Fin (Smooth.exps order).length) (Fin (2 * h + 1) × Fin (2 * h + 1)) ℚ) (d : Smooth.Deriv) : Py Smooth.Res :=
  if im.N = 0 ∨ im.M = 0 then .error .indexError
  else if h = 0 ∨ im.N ≤ h ∨ im.M ≤ h then .error .valueError
  else match d with
    | .none => do .ok (.one (filteredI t h im (← Smooth.kernelRow h order pinv 0)))
    | .col => do let c ← Smooth.kernelRow h order pinv 1; .ok (.one (filteredI t h im (fun p => - c p)))
    | .row => do let r ← Smooth.kernelRow h order pinv 2; .ok (.one (filteredI t h im (fun p => - r p)))
    | .both => do
      let c ← Smooth.kernelRow h order pinv 1
      let r ← Smooth.kernelRow h order pinv 2
      .ok (.two (filteredI t h im (fun p => - r p)) (filteredI t h im (fun p => - c p)))
    | .other => .ok .nothing

/-- `sgolay2d`, smoothing.py:62-149, for an image of integer type `t`; as `Smooth.sgolay2d`. -/
def sgolay2dI (t : IntType) (im : ImgI) (window order : ℕ)
    (pinv : (h order : ℕ) → Matrix (Fin (Smooth.exps order).length) (Fin (2 * h + 1) × Fin (2 * h + 1)) ℚ) (d : Smooth.Deriv) : Py Smooth.Res :=
  let nterms : ℚ := (order + 1) * (order + 2) / 2
  if window % 2 = 0 then .error .valueError
  else if (window : ℚ) ^ 2 < nterms then .error .valueError
  else runI t im (window / 2) order pinv d

/-! ### Comparing two results -/

/-- Same exception, or same kind and size of result with the same values at the pixels of `R`. -/
def Spec.SameOn (R : ℕ → ℕ → Prop) : Py Smooth.Res → Py Smooth.Res → Prop
  | .error e, .error e' => e = e'
  | .ok (.one a), .ok (.one b) => a.N = b.N ∧ a.M = b.M ∧ ∀ r s, R r s → a.px r s = b.px r s
  | .ok (.two a c), .ok (.two b d) => (a.N = b.N ∧ a.M = b.M ∧ ∀ r s, R r s → a.px r s = b.px r s) ∧
      (c.N = d.N ∧ c.M = d.M ∧ ∀ r s, R r s → c.px r s = d.px r s)
  | .ok .nothing, .ok .nothing => True
  | _, _ => False

theorem same_of_filtered (t : IntType) (im : ImgI) (window order : ℕ) (pinv) (d : Smooth.Deriv) (R : ℕ → ℕ → Prop)
    (hpos : ∀ k, 1 ≤ window / 2 → window / 2 < im.N → window / 2 < im.M → ∀ r s, R r s →
      (filteredI t (window / 2) im k).px r s = (Smooth.filtered (window / 2) im.exact k).px r s) :
    Spec.SameOn R (sgolay2dI t im window order pinv d) (Smooth.sgolay2d im.exact window order pinv d) := by
  unfold sgolay2dI Smooth.sgolay2d
  simp only
  split
  · exact rfl
  split
  · exact rfl
  unfold runI Smooth.run
  have eN : im.exact.N = im.N := rfl
  have eM : im.exact.M = im.M := rfl
  rw [eN, eM]
  split
  · exact rfl
  split
  · exact rfl
  rename_i h1 h2
  have hp := fun k => hpos k (by omega) (by omega) (by omega)
  cases d with
  | none =>
    simp only
    rcases Smooth.kernelRow (window / 2) order pinv 0 with e | k
    · exact rfl
    · exact ⟨rfl, rfl, hp k⟩
  | col =>
    simp only
    rcases Smooth.kernelRow (window / 2) order pinv 1 with e | k
    · exact rfl
    · exact ⟨rfl, rfl, hp _⟩
  | row =>
    simp only
    rcases Smooth.kernelRow (window / 2) order pinv 2 with e | k
    · exact rfl
    · exact ⟨rfl, rfl, hp _⟩
  | both =>
    simp only
    rcases Smooth.kernelRow (window / 2) order pinv 1 with e | k
    · exact rfl
    · rcases Smooth.kernelRow (window / 2) order pinv 2 with e | k'
      · exact rfl
      · exact ⟨⟨rfl, rfl, hp _⟩, ⟨rfl, rfl, hp _⟩⟩
  | other => exact trivial

theorem padI_inside (t : IntType) (h : ℕ) (im : ImgI) (i j : ℕ) (hi : i < im.N) (hj : j < im.M) : padI t h im (i + h) (j + h) = im.px i j := by
  unfold padI
  simp only
  rw [if_neg (by omega), if_pos (by omega), if_neg (by omega), if_pos (by omega)]
  simp

/-! ## C220 -/

/-- C220, away from the border.  For every integer type, image, window, order and kind of derivative: at the pixels whose
whole window lies in the image, filtering the integer image gives what filtering the same values as exact numbers gives
(and exceptions and shapes are the same). -/
theorem C220_interior (t : IntType) (im : ImgI) (window order : ℕ) (pinv) (d : Smooth.Deriv) :
    Spec.SameOn (fun r s => window / 2 ≤ r ∧ r + window / 2 < im.N ∧ window / 2 ≤ s ∧ s + window / 2 < im.M)
      (sgolay2dI t im window order pinv d) (Smooth.sgolay2d im.exact window order pinv d) := by
  apply same_of_filtered
  rintro k - - - r s ⟨h1, h2, h3, h4⟩
  obtain ⟨h, hh⟩ : ∃ h, h = window / 2 := ⟨_, rfl⟩
  rw [← hh] at h1 h2 h3 h4
  revert k
  rw [← hh]
  intro k
  show Smooth.convValid h (padI t h im) k r s = Smooth.convValid h (Smooth.pad h im.exact) k r s
  unfold Smooth.convValid
  apply Finset.sum_congr rfl
  rintro ⟨a, b⟩ -
  congr 1
  have ha : (a : ℕ) ≤ 2 * h := by omega
  have hb : (b : ℕ) ≤ 2 * h := by omega
  have e1 : r + (2 * h - (a : ℕ)) = (r + h - a) + h := by omega
  have e2 : s + (2 * h - (b : ℕ)) = (s + h - b) + h := by omega
  simp only
  rw [e1, e2, padI_inside t h im _ _ (by omega) (by omega), Smooth.pad_inside h im.exact _ _ (by show _ < im.N; omega) (by show _ < im.M; omega)]
  rfl

theorem belowI_exact (t : IntType) (A B b v : ℤ) (h1 : t.lo ≤ A - B) (h2 : B - A ≤ t.hi) (h3 : t.lo ≤ 2 * A - B)
    (h4 : 2 * B - A ≤ t.hi) (hb : A ≤ b ∧ b ≤ B) (hv : A ≤ v ∧ v ≤ B) : belowI t b v = b - |v - b| ∧ aboveI t b v = b + |v - b| := by
  have w1 : t.wrap (v - b) = v - b := wrap_of_holds t _ ⟨by linarith [hb.2, hv.1], by linarith [hb.1, hv.2]⟩
  have hab : |v - b| ≤ B - A := abs_le.2 ⟨by linarith [hb.2, hv.1], by linarith [hb.1, hv.2]⟩
  have hn := abs_nonneg (v - b)
  have w2 : t.wrap |v - b| = |v - b| := wrap_of_holds t _ ⟨by linarith, by linarith⟩
  unfold belowI aboveI
  rw [w1, w2]
  exact ⟨wrap_of_holds t _ ⟨by linarith [hb.1], by linarith [hb.2]⟩, wrap_of_holds t _ ⟨by linarith [hb.1], by linarith [hb.2]⟩⟩

theorem padI_exact (t : IntType) (h : ℕ) (im : ImgI) (hN : h < im.N) (hM : h < im.M) (A B : ℤ)
    (hr : ∀ r c, r < im.N → c < im.M → A ≤ im.px r c ∧ im.px r c ≤ B) (h1 : t.lo ≤ A - B) (h2 : B - A ≤ t.hi) (h3 : t.lo ≤ 2 * A - B)
    (h4 : 2 * B - A ≤ t.hi) (i j : ℕ) (hi : i < im.N + 2 * h) (hj : j < im.M + 2 * h) : padI t h im i j = Smooth.pad h im.exact i j := by
  have key : ∀ r c r' c', r < im.N → c < im.M → r' < im.N → c' < im.M →
      ((belowI t (im.px r c) (im.px r' c') : ℤ) : ℚ) = Smooth.below (im.px r c) (im.px r' c') ∧
      ((aboveI t (im.px r c) (im.px r' c') : ℤ) : ℚ) = Smooth.above (im.px r c) (im.px r' c') := by
    intro r c r' c' a b c d
    obtain ⟨e1, e2⟩ := belowI_exact t A B _ _ h1 h2 h3 h4 (hr r _ a b) (hr r' c' c d)
    rw [e1, e2]
    unfold Smooth.below Smooth.above
    push_cast
    exact ⟨rfl, rfl⟩
  unfold padI Smooth.pad ImgI.exact
  simp only
  split
  · split
    · exact (key _ _ _ _ (by omega) (by omega) (by omega) (by omega)).1
    split
    · exact (key _ _ _ _ (by omega) (by omega) (by omega) (by omega)).1
    · rw [(key 0 (im.M - 1) 0 (im.M - 2 - (j - (im.M + h))) (by omega) (by omega) (by omega) (by omega)).2,
        (key (h - i) (im.M - 1) (h - i) (im.M - 2 - (j - (im.M + h))) (by omega) (by omega) (by omega) (by omega)).2]
  split
  · split
    · exact (key _ _ _ _ (by omega) (by omega) (by omega) (by omega)).1
    split
    · rfl
    · exact (key _ _ _ _ (by omega) (by omega) (by omega) (by omega)).2
  · split
    · rw [(key (im.N - 1) 0 (im.N - 2 - (i - (im.N + h))) 0 (by omega) (by omega) (by omega) (by omega)).2,
        (key (im.N - 1) (h - j) (im.N - 2 - (i - (im.N + h))) (h - j) (by omega) (by omega) (by omega) (by omega)).2]
    split
    · exact (key _ _ _ _ (by omega) (by omega) (by omega) (by omega)).2
    · exact (key _ _ _ _ (by omega) (by omega) (by omega) (by omega)).2

/-- C220, the part that holds at the border: for a signed image (or any type) with pixels between A and B such that the
differences A - B, B - A and the extrapolations 2 A - B, 2 B - A fit into the type, all pixels of the filtered image are those
for exact numbers.  Missing: unsigned images (A - B does not fit unless the image is flat), see `C220_unsigned_refuted`. -/
theorem C220_exact_partial (t : IntType) (im : ImgI) (window order : ℕ) (pinv) (d : Smooth.Deriv) (A B : ℤ)
    (hr : ∀ r c, r < im.N → c < im.M → A ≤ im.px r c ∧ im.px r c ≤ B) (h1 : t.lo ≤ A - B) (h2 : B - A ≤ t.hi) (h3 : t.lo ≤ 2 * A - B)
    (h4 : 2 * B - A ≤ t.hi) :
    Spec.SameOn (fun r s => r < im.N ∧ s < im.M) (sgolay2dI t im window order pinv d) (Smooth.sgolay2d im.exact window order pinv d) := by
  apply same_of_filtered
  rintro k h0 hN hM r s ⟨hr', hs'⟩
  show Smooth.convValid _ (padI t _ im) k r s = Smooth.convValid _ (Smooth.pad _ im.exact) k r s
  unfold Smooth.convValid
  apply Finset.sum_congr rfl
  rintro ⟨a, b⟩ -
  congr 1
  exact padI_exact t _ im hN hM A B hr h1 h2 h3 h4 _ _ (by simp only; omega) (by simp only; omega)

/-- In an unsigned image the borders right and below are filled with the mirrored pixels, those left and above with twice
the border pixel minus the mirrored one, modulo 2^bits. -/
theorem unsigned_bands (b : ℕ) (hb : 0 < b) (band v : ℤ) (hv : 0 ≤ v ∧ v < 2 ^ b) :
    aboveI (uint b hb) band v = v ∧ belowI (uint b hb) band v = (2 * band - v) % 2 ^ b := by
  have hp : (0 : ℤ) < 2 ^ b := by positivity
  have hnn : ∀ z, |(uint b hb).wrap z| = (uint b hb).wrap z := fun z => by rw [wrap_uint]; exact abs_of_nonneg (Int.emod_nonneg _ hp.ne')
  have hww : ∀ z, (uint b hb).wrap ((uint b hb).wrap z) = (uint b hb).wrap z := fun z => wrap_of_holds _ _ (wrap_holds _ _)
  unfold aboveI belowI
  rw [hnn, hww]
  constructor
  · rw [wrap_iff]
    refine ⟨⟨by simpa [uint, IntType.lo] using hv.1, by simp only [uint, IntType.hi]; simp; omega⟩, ?_⟩
    have := (wrap_modEq (uint b hb) (v - band)).symm.add_left band
    simpa using this
  · rw [← wrap_uint b hb]
    apply wrap_congr
    have := (wrap_modEq (uint b hb) (v - band)).sub_left band
    have e : band - (v - band) = 2 * band - v := by ring
    rwa [e] at this

/-- The 3 × 3 image with rows 2 2 2 / 1 1 1 / 2 2 2. -/
def stripes : ImgI := ⟨3, 3, fun r _ => if r = 1 then 1 else 2⟩

theorem mean_kernel (P) (hP : Smooth.IsPinv (Smooth.design 1 0) P) (k : Fin (Smooth.exps 0).length) (p : Fin 3 × Fin 3) : P k p = 1 / 9 := by
  have hk : ∀ k' : Fin (Smooth.exps 0).length, k' = k := by
    have : (Smooth.exps 0).length = 1 := by decide
    intro k'; apply Fin.ext; omega
  have hone : ∀ q, Smooth.design 1 0 q k = 1 := by
    intro q
    have he : (Smooth.exps 0).get k = (0, 0) := by
      rw [← hk ⟨0, by decide⟩]; rfl
    unfold Smooth.design
    rw [he]; simp
  have hAP : ∀ q q', (Smooth.design 1 0 * P) q q' = P k q' := by
    intro q q'
    rw [Matrix.mul_apply, Finset.sum_eq_single k (fun k' _ h => absurd (hk k') h) (fun h => absurd (Finset.mem_univ _) h), hone, one_mul]
  have hsym : ∀ q, P k q = P k p := by
    intro q
    have := congrFun (congrFun hP.sap q) p
    rw [Matrix.transpose_apply, hAP, hAP] at this
    exact this
  have hsum := congrFun (congrFun hP.apa p) k
  rw [Matrix.mul_apply, hone] at hsum
  simp only [hAP, hone, mul_one] at hsum
  simp only [hsym] at hsum
  rw [Finset.sum_const, Finset.card_univ] at hsum
  have hc : Fintype.card (Fin (2 * 1 + 1) × Fin (2 * 1 + 1)) = 9 := by decide
  rw [hc] at hsum
  simp only [nsmul_eq_mul] at hsum
  push_cast at hsum
  linarith

theorem conv_mean (S : ℕ → ℕ → ℚ) (k : Fin (2 * 1 + 1) × Fin (2 * 1 + 1) → ℚ) (hk : ∀ p, k p = 1 / 9) :
    Smooth.convValid 1 S k 0 1 = (S 0 1 + S 0 2 + S 0 3 + S 1 1 + S 1 2 + S 1 3 + S 2 1 + S 2 2 + S 2 3) / 9 := by
  have e : Smooth.convValid 1 S k 0 1 = ∑ p : Fin 3 × Fin 3, S (0 + (2 - p.1)) (1 + (2 - p.2)) * (1 / 9) := by
    unfold Smooth.convValid
    exact Finset.sum_congr rfl (fun p _ => by rw [hk])
  rw [e, Fintype.sum_prod_type]
  simp only [Fin.sum_univ_three]
  simp
  ring

/-- C220 is false for unsigned images, even if no number gets large: for every width of at least two bits, the mean filter
(window 3, order 0) of an image with pixels 1 and 2 has the value 2 in the middle of the first row, while it is 4/3 for
exact numbers. -/
theorem C220_unsigned_refuted (b : ℕ) (hb : 2 ≤ b) (pinv) (hP : Smooth.IsPinv (Smooth.design 1 0) (pinv 1 0)) :
    ∃ f g, sgolay2dI (uint b (by omega)) stripes 3 0 pinv .none = .ok (.one f) ∧
      Smooth.sgolay2d stripes.exact 3 0 pinv .none = .ok (.one g) ∧ f.px 0 1 = 2 ∧ g.px 0 1 = 4 / 3 := by
  have hlen : 0 < (Smooth.exps 0).length := by decide
  refine ⟨filteredI (uint b (by omega)) 1 stripes (pinv 1 0 ⟨0, hlen⟩), Smooth.filtered 1 stripes.exact (pinv 1 0 ⟨0, hlen⟩), ?_, ?_, ?_, ?_⟩
  · have : ¬ ((3 : ℕ) : ℚ) ^ 2 < ((0 : ℕ) + 1) * ((0 : ℕ) + 2) / 2 := by norm_num
    unfold sgolay2dI runI
    rw [if_neg (by decide), if_neg this]
    simp [stripes, Smooth.kernelRow, hlen]
    rfl
  · have : ¬ ((3 : ℕ) : ℚ) ^ 2 < ((0 : ℕ) + 1) * ((0 : ℕ) + 2) / 2 := by norm_num
    unfold Smooth.sgolay2d Smooth.run
    rw [if_neg (by decide), if_neg this]
    simp [stripes, ImgI.exact, Smooth.kernelRow, hlen]
    rfl
  · have hbig : (4 : ℤ) ≤ 2 ^ b := by
      calc (4 : ℤ) = 2 ^ 2 := by norm_num
        _ ≤ 2 ^ b := pow_le_pow_right₀ (by norm_num) hb
    have hbe : belowI (uint b (by omega)) 2 1 = 3 := by
      rw [(unsigned_bands b (by omega) 2 1 ⟨by norm_num, by linarith⟩).2]
      exact Int.emod_eq_of_lt (by norm_num) (by linarith)
    have hp : ∀ j < 3, padI (uint b (by omega)) 1 stripes 0 (j + 1) = 3 ∧ padI (uint b (by omega)) 1 stripes 1 (j + 1) = 2 ∧
        padI (uint b (by omega)) 1 stripes 2 (j + 1) = 1 := by
      intro j hj
      refine ⟨?_, ?_, ?_⟩
      · unfold padI stripes
        simp only
        rw [if_pos (by omega), if_neg (by omega), if_pos (by omega)]
        simp [hbe]
      · have := padI_inside (uint b (by omega)) 1 stripes 0 j (by decide) hj
        simpa [stripes] using this
      · have := padI_inside (uint b (by omega)) 1 stripes 1 j (by decide) hj
        simpa [stripes] using this
    show Smooth.convValid 1 _ _ 0 1 = 2
    rw [conv_mean _ _ (mean_kernel _ hP _)]
    have h0 := hp 0 (by norm_num)
    have h1 := hp 1 (by norm_num)
    have h2 := hp 2 (by norm_num)
    norm_num at h0 h1 h2
    rw [h0.1, h0.2.1, h0.2.2, h1.1, h1.2.1, h1.2.2, h2.1, h2.2.1, h2.2.2]
    norm_num
  · show Smooth.convValid 1 _ _ 0 1 = 4 / 3
    rw [conv_mean _ _ (mean_kernel _ hP _)]
    norm_num [Smooth.pad, ImgI.exact, stripes, Smooth.below]

-- the hypotheses of C220_exact_partial: 16-bit signed images with pixels from 0 to 10000
example : (sint 16).lo ≤ 0 - 10000 ∧ 10000 - 0 ≤ (sint 16).hi ∧ (sint 16).lo ≤ 2 * 0 - 10000 ∧ 2 * 10000 - 0 ≤ (sint 16).hi := by decide

end Verif.Wrap
