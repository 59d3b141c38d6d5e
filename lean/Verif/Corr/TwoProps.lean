/- Properties C51-C53 and C83-C85: two-time correlation. -/
import Verif.Corr.TwoLemmas
import Verif.Corr.Props

namespace Verif.Corr
open Verif Finset

/-! ## Running the generator -/

theorem cascade_err (n : ℕ) (c : Cfg) (lags : List ℕ) (nf fuel l : ℕ) (s : TSt) (h : s.2.err = true) :
    (cascade avg n (process2 c lags nf) fuel l s).2.err = true := by
  induction fuel generalizing l s with
  | zero => exact h
  | succ f ih =>
    obtain ⟨r, a⟩ := s
    simp only [cascade]
    split
    · exact h
    · apply ih; simp only []; rw [process2_err _ _ _ _ _ _ h]; exact h

theorem step2_err (c : Cfg) (lags : List ℕ) (nf : ℕ) (s : TSt) (x : Frame) (h : s.2.err = true) :
    (step2 c lags nf s x).2.err = true := by
  unfold step2 feed
  apply cascade_err
  simp only []
  rw [process2_err _ _ _ _ _ _ h]; exact h

theorem fold2_err (c : Cfg) (lags : List ℕ) (nf : ℕ) (xs : List Frame) (s : TSt) (h : s.2.err = true) :
    (xs.foldl (step2 c lags nf) s).2.err = true := by
  induction xs generalizing s with
  | nil => exact h
  | cons x t ih => exact ih _ (step2_err c lags nf s x h)

theorem lazy2_fold (c : Cfg) (pixels lags : List ℕ) (nf : ℕ) (s : TSt) (ims : List (List (Option ℚ)))
    (h : ∀ im ∈ ims, ∀ q ∈ pixels, q < im.length) (hs : s.2.err = false) :
    let fin := (ims.map (fun im => pixels.map (fun q => (im[q]?).getD none))).foldl (step2 c lags nf) s
    (fin.2.err = false → lazyTwoTime c pixels lags nf s ims = (fin, none)) ∧
    (fin.2.err = true → (lazyTwoTime c pixels lags nf s ims).2 = some .indexError) := by
  induction ims generalizing s with
  | nil =>
    intro fin
    have : fin = s := rfl
    rw [this]
    exact ⟨fun _ => rfl, fun h => by rw [hs] at h; simp at h⟩
  | cons im rest ih =>
    intro fin
    unfold lazyTwoTime
    rw [select_ok pixels im (h im (by simp))]
    simp only []
    by_cases he : (step2 c lags nf s (pixels.map (fun q => (im[q]?).getD none))).2.err = true
    · have hf : fin.2.err = true := by
        show (((im :: rest).map _).foldl (step2 c lags nf) s).2.err = true
        rw [List.map_cons, List.foldl_cons]
        exact fold2_err c lags nf _ _ he
      rw [if_pos he]
      exact ⟨fun h => by rw [hf] at h; simp at h, fun _ => rfl⟩
    · rw [if_neg he]
      have he' : (step2 c lags nf s (pixels.map (fun q => (im[q]?).getD none))).2.err = false := by simpa using he
      exact ih _ (fun im' h' => h im' (by simp [h'])) he'

theorem symAt_lower (x : ℕ → ℕ → Option ℚ) (a b : ℕ) (h : b ≤ a) : symAt x a b = x a b := by
  unfold symAt
  rcases Nat.eq_or_lt_of_le h with h' | h'
  · subst h'
    simp only [le_refl, if_true]
    cases x b b <;> simp
  · rw [if_pos h, if_neg (by omega), if_neg (by omega)]
    cases x a b <;> simp

theorem symAt_upper (x : ℕ → ℕ → Option ℚ) (a b : ℕ) (h : a ≤ b) : symAt x a b = x b a := by
  rcases Nat.eq_or_lt_of_le h with h' | h'
  · subst h'; exact symAt_lower x a a (le_refl _)
  · unfold symAt
    rw [if_neg (by omega), if_pos h, if_neg (by omega)]
    cases x b a <;> simp

/-- C51: the conversion makes every ROI's matrix symmetric, keeps its diagonal and lower triangle, and doing it again
changes nothing. -/
theorem C51_symmetric (c : Cfg) (s : TSt) (r : ℕ) (hr : r < rois c) (a b : ℕ) :
    (toResults c s).2.g2 r a b = (toResults c s).2.g2 r b a ∧
    (b ≤ a → (toResults c s).2.g2 r a b = s.2.g2 r a b) ∧
    toResults c (toResults c s) = toResults c s := by
  have key : ∀ r < rois c, (toResults c s).2.g2 r = symAt (s.2.g2 r) := by
    intro r hr; simp [toResults, hr]
  refine ⟨?_, ?_, ?_⟩
  · rw [key r hr]
    rcases le_total a b with h | h
    · rw [symAt_upper _ _ _ h, symAt_lower _ _ _ h]
    · rw [symAt_lower _ _ _ h, symAt_upper _ _ _ h]
  · intro h; rw [key r hr, symAt_lower _ _ _ h]
  · have : (toResults c (toResults c s)).2.g2 = (toResults c s).2.g2 := by
      funext r a b
      by_cases hr : r < rois c
      · simp only [toResults, hr, if_true]
        rcases le_total a b with h | h
        · rw [symAt_upper _ _ _ h, symAt_lower _ _ _ h, symAt_upper _ _ _ h]
        · rw [symAt_lower _ _ _ h]
      · simp only [toResults, hr, if_false]
    unfold toResults at this ⊢
    simp only [] at this ⊢
    rw [this]

/-- C51/C52, the whole matrix.  For every label image and stream of T ≥ 1 images, T at most the number of frames
announced, `two_time_corr` succeeds, and for every ROI:
* the matrix is symmetric;
* for every level l, every delay i of that level and every pair of level-l frames k-i and k among the first T/2^l of
  them, each of the 2^l cells (k·2^l+j, (k-i)·2^l+j) is `<I1 I2>/(<I1><I2>)` of the two averaged frames;
* every other cell on or below the diagonal is 0. -/
theorem C52_two_time_matrix (n L nf : ℕ) (hn2 : 2 ≤ n) (hL : 1 ≤ L) (labels : List ℤ) (c : Cfg)
    (pixels lags : List ℕ) (hv : validate n L labels = .ok (c, pixels, lags))
    (images : ℕ → List (Option ℚ)) (hsz : ∀ t, labels.length ≤ (images t).length) (T : ℕ) (hT : 1 ≤ T) (hnf : T ≤ nf) :
    let v := pixelHistory images pixels
    let lab := fun p => (c.labels[p]?).getD 0
    ∃ M, twoTimeCorr L n labels ((List.range T).map images) nf = .ok M ∧ ∀ r < rois c,
      (∀ a b, M r a b = M r b a) ∧
      (∀ l i k j, l < L → i < n → (l = 0 ∨ n / 2 ≤ i) → i ≤ k → k < T / 2 ^ l → j < 2 ^ l →
        M r (k * 2 ^ l + j) ((k - i) * 2 ^ l + j) = Spec.twoTime v pixels.length lab l (k - i) k r) ∧
      (∀ a b, b ≤ a → (¬ ∃ l i k j, l < L ∧ i < n ∧ (l = 0 ∨ n / 2 ≤ i) ∧ i ≤ k ∧ k < T / 2 ^ l ∧ j < 2 ^ l ∧
        a = k * 2 ^ l + j ∧ b = (k - i) * 2 ^ l + j) → M r a b = some 0) := by
  intro v lab
  obtain ⟨he, hc, hpx, tot, d, hlag⟩ := validate_ok hv
  obtain ⟨c2, px2, l2, u, h2, hmem, _, _, _, hlen, _⟩ := C50_renumbering labels n L he
  rw [hv] at h2
  simp only [Except.ok.injEq, Prod.mk.injEq] at h2
  obtain ⟨rfl, rfl, rfl⟩ := h2
  have hcn : c.L = L ∧ c.n = n := by rw [hc]; exact ⟨rfl, rfl⟩
  have hclab : c.labels = (List.range pixels.length).map lab := by
    apply List.ext_getElem?
    intro k
    rw [List.getElem?_map]
    by_cases hk : k < pixels.length
    · rw [List.getElem?_range hk]
      have : k < c.labels.length := by omega
      simp [lab, List.getElem?_eq_getElem this]
    · rw [List.getElem?_eq_none (by omega), List.getElem?_eq_none (by simpa using hk)]; rfl
  have hcfg : c = { L := L, n := n, labels := (List.range pixels.length).map lab } := by
    rw [← hclab, ← hcn.1, ← hcn.2]
  have hframes : ((List.range T).map images).map (fun im => pixels.map (fun q => (im[q]?).getD none)) =
      (List.range T).map (frameOf v pixels.length) := by
    rw [List.map_map]
    apply List.map_congr_left
    intro t _
    exact frames_eq images pixels t
  have hrun := run2_ok v pixels.length lab L n nf he hn2 hL lags (fun l i hl hvv => lag_at he hL hlag hl hvv) T
  rw [← hcfg] at hrun
  simp only [] at hrun
  unfold TOk at hrun
  rw [if_pos (by simpa using hnf)] at hrun
  have hfold := (lazy2_fold c pixels lags nf (init2 c) ((List.range T).map images) (by
    intro im him q hq
    obtain ⟨t, _, rfl⟩ := List.mem_map.1 him
    obtain ⟨x, hx, _⟩ := (hmem q).1 hq
    exact lt_of_lt_of_le (List.getElem?_eq_some_iff.1 hx).1 (hsz t)) rfl).1
  rw [hframes] at hfold
  have hfold := hfold hrun.err
  set fin := ((List.range T).map (frameOf v pixels.length)).foldl (step2 c lags nf) (init2 c)
  refine ⟨(toResults c fin).2.g2, ?_, ?_⟩
  · unfold twoTimeCorr
    rw [hv]
    simp only [hfold]
    rw [if_neg]
    intro h
    have := congrArg List.length h
    simp at this
    omega
  · intro r hr
    refine ⟨fun a b => (C51_symmetric c fin r hr a b).1, ?_, ?_⟩
    · intro l i k j hl hi hor hik hk hj
      rw [(C51_symmetric c fin r hr _ _).2.1]
      · apply hrun.cov
        exact ⟨hl, ⟨hi, hor⟩, hik, hk, (mem_cellsN _ _ _ _ _).2 ⟨j, hj, rfl, rfl⟩⟩
      · have : (k - i) * 2 ^ l ≤ k * 2 ^ l := Nat.mul_le_mul_right _ (Nat.sub_le _ _)
        omega
    · intro a b hab hno
      rw [(C51_symmetric c fin r hr _ _).2.1 hab]
      apply hrun.rest
      rintro l i k ⟨hl, ⟨hi, hor⟩, hik, hk, hm⟩
      obtain ⟨j, hj, e1, e2⟩ := (mem_cellsN _ _ _ _ _).1 hm
      exact hno ⟨l, i, k, j, hl, hi, hor, hik, hk, hj, e1, e2⟩

/-- C51: with any number of levels, entry (t1, t2) of two frames less than `num_bufs` apart is the normalised product
of exactly those two frames. -/
theorem C51_entries (n L nf : ℕ) (hn2 : 2 ≤ n) (hL : 1 ≤ L) (labels : List ℤ) (c : Cfg)
    (pixels lags : List ℕ) (hv : validate n L labels = .ok (c, pixels, lags))
    (images : ℕ → List (Option ℚ)) (hsz : ∀ t, labels.length ≤ (images t).length) (T : ℕ) (hT : 1 ≤ T) (hnf : T ≤ nf) :
    ∃ M, twoTimeCorr L n labels ((List.range T).map images) nf = .ok M ∧ ∀ r < rois c, ∀ t1 t2, t1 < T → t2 ≤ t1 →
      t1 - t2 < n →
      M r t1 t2 = Spec.twoTime (pixelHistory images pixels) pixels.length (fun p => (c.labels[p]?).getD 0) 0 t2 t1 r ∧
      M r t2 t1 = M r t1 t2 := by
  obtain ⟨M, hM, h⟩ := C52_two_time_matrix n L nf hn2 hL labels c pixels lags hv images hsz T hT hnf
  refine ⟨M, hM, ?_⟩
  intro r hr t1 t2 h1 h2 h3
  obtain ⟨hs, hc, _⟩ := h r hr
  refine ⟨?_, (hs _ _)⟩
  have := hc 0 (t1 - t2) t1 0 hL h3 (Or.inl rfl) (by omega) (by simpa using h1) (by simp)
  have e : t1 - (t1 - t2) = t2 := by omega
  simpa [e] using this

/-- More images than announced: IndexError. -/
theorem C52_too_many_frames (n L nf : ℕ) (hn2 : 2 ≤ n) (hL : 1 ≤ L) (labels : List ℤ) (c : Cfg)
    (pixels lags : List ℕ) (hv : validate n L labels = .ok (c, pixels, lags))
    (images : ℕ → List (Option ℚ)) (hsz : ∀ t, labels.length ≤ (images t).length) (T : ℕ) (hnf : nf < T) :
    twoTimeCorr L n labels ((List.range T).map images) nf = .error .indexError := by
  obtain ⟨he, hc, hpx, tot, d, hlag⟩ := validate_ok hv
  obtain ⟨c2, px2, l2, u, h2, hmem, _, _, _, hlen, _⟩ := C50_renumbering labels n L he
  rw [hv] at h2
  simp only [Except.ok.injEq, Prod.mk.injEq] at h2
  obtain ⟨rfl, rfl, rfl⟩ := h2
  have hcn : c.L = L ∧ c.n = n := by rw [hc]; exact ⟨rfl, rfl⟩
  set lab := fun p : ℕ => (c.labels[p]?).getD 0 with hlabdef
  set v := pixelHistory images pixels
  have hclab : c.labels = (List.range pixels.length).map lab := by
    apply List.ext_getElem?
    intro k
    rw [List.getElem?_map]
    by_cases hk : k < pixels.length
    · rw [List.getElem?_range hk]
      have : k < c.labels.length := by omega
      simp [lab, List.getElem?_eq_getElem this]
    · rw [List.getElem?_eq_none (by omega), List.getElem?_eq_none (by simpa using hk)]; rfl
  have hcfg : c = { L := L, n := n, labels := (List.range pixels.length).map lab } := by
    rw [← hclab, ← hcn.1, ← hcn.2]
  have hframes : ((List.range T).map images).map (fun im => pixels.map (fun q => (im[q]?).getD none)) =
      (List.range T).map (frameOf v pixels.length) := by
    rw [List.map_map]
    apply List.map_congr_left
    intro t _
    exact frames_eq images pixels t
  have hrun := run2_ok v pixels.length lab L n nf he hn2 hL lags (fun l i hl hvv => lag_at he hL hlag hl hvv) T
  rw [← hcfg] at hrun
  simp only [] at hrun
  unfold TOk at hrun
  rw [if_neg (by simp; omega)] at hrun
  have hfold := (lazy2_fold c pixels lags nf (init2 c) ((List.range T).map images) (by
    intro im him q hq
    obtain ⟨t, _, rfl⟩ := List.mem_map.1 him
    obtain ⟨x, hx, _⟩ := (hmem q).1 hq
    exact lt_of_lt_of_le (List.getElem?_eq_some_iff.1 hx).1 (hsz t)) rfl).2
  rw [hframes] at hfold
  have hfold := hfold hrun
  unfold twoTimeCorr
  rw [hv]
  simp only []
  generalize hgen : lazyTwoTime c pixels lags nf (init2 c) ((List.range T).map images) = o at hfold
  obtain ⟨s, e⟩ := o
  simp only [] at hfold
  subst hfold
  rfl

/-- Non-vacuity and sanity check: 2 levels of 2 buffers, 4 frames of one ROI of two pixels. -/
example : (twoTimeCorr 2 2 [3, 3] [[some 1, some 1], [some 2, some 0], [some 3, some 1], [some 1, some 1]] 4).map
    (fun M => ((List.range 4).map (fun a => (List.range 4).map (fun b => M 0 a b)))) =
    .ok [[some 1, some 1, some (7 / 6), some 0], [some 1, some 2, some (3 / 2), some (7 / 6)],
      [some (7 / 6), some (3 / 2), some (5 / 4), some 1], [some 0, some (7 / 6), some 1, some 1]] := by decide +kernel

/-! ## C83, C84: instalments and peeking -/

/-- C84: feeding `A ++ B` is feeding `A` and then `B` from the state reached. -/
theorem C84_two_time_instalments (c : Cfg) (pixels lags : List ℕ) (nf : ℕ) (s : TSt) (A B : List (List (Option ℚ)))
    (hA : (lazyTwoTime c pixels lags nf s A).2 = none) :
    lazyTwoTime c pixels lags nf s (A ++ B) =
      lazyTwoTime c pixels lags nf (lazyTwoTime c pixels lags nf s A).1 B := by
  induction A generalizing s with
  | nil => rfl
  | cons im rest ih =>
    rw [List.cons_append, lazyTwoTime, lazyTwoTime]
    rw [lazyTwoTime] at hA
    cases hs : select pixels im with
    | error e => rw [hs] at hA; simp at hA
    | ok x =>
      rw [hs] at hA
      simp only [] at hA ⊢
      split
      · next h => rw [if_pos h] at hA; simp at hA
      · next h => rw [if_neg h] at hA; exact ih _ hA

/-- Two accumulators that differ at most above the diagonal of the ROIs' matrices. -/
def SameLower (m : ℕ) (a b : TAcc) : Prop :=
  a.time = b.time ∧ a.timeInd = b.timeInd ∧ a.count = b.count ∧ a.err = b.err ∧
  ∀ r p q, m ≤ r ∨ q ≤ p → a.g2 r p q = b.g2 r p q

theorem SameLower.write {m : ℕ} {a b : TAcc} (h : SameLower m a b) (nf : ℕ) (val : ℕ → Option ℚ) (xy : ℚ × ℚ) :
    SameLower m (writeCell nf val a xy) (writeCell nf val b xy) := by
  obtain ⟨t, ti, co, g, e⟩ := a
  obtain ⟨t', ti', co', g', e'⟩ := b
  obtain ⟨h1, h2, h3, h4, h5⟩ := h
  simp only [] at h1 h2 h3 h4 h5
  subst h1 h2 h3 h4
  unfold writeCell
  simp only []
  split
  · exact ⟨rfl, rfl, rfl, rfl, h5⟩
  · split
    · refine ⟨rfl, rfl, rfl, rfl, ?_⟩
      intro r p q hh
      simp only [put3]
      split
      · rfl
      · exact h5 r p q hh
    · exact ⟨rfl, rfl, rfl, rfl, h5⟩

theorem SameLower.foldl {m : ℕ} {α : Type} (f : TAcc → α → TAcc)
    (hf : ∀ a b x, SameLower m a b → SameLower m (f a x) (f b x)) (xs : List α) {a b : TAcc} (h : SameLower m a b) :
    SameLower m (xs.foldl f a) (xs.foldl f b) := by
  induction xs generalizing a b with
  | nil => exact h
  | cons x t ih => exact ih (hf a b x h)

theorem SameLower.process {m : ℕ} {a b : TAcc} (h : SameLower m a b) (c : Cfg) (lags : List ℕ) (nf : ℕ)
    (r : Ring Frame) (l : ℕ) : SameLower m (process2 c lags nf r l a) (process2 c lags nf r l b) := by
  have hdel : ∀ (time : ℚ) (a b : TAcc) (i : ℕ), SameLower m a b →
      SameLower m (oneDelay2 c lags nf r l time a i) (oneDelay2 c lags nf r l time b i) := by
    intro time a b i h
    unfold oneDelay2
    simp only []
    split
    · obtain ⟨h1, h2, h3, h4, h5⟩ := h; exact ⟨h1, h2, h3, rfl, h5⟩
    · exact h.foldl _ (fun a b x h => h.write nf _ x) _
  obtain ⟨t, ti, co, g, e⟩ := a
  obtain ⟨t', ti', co', g', e'⟩ := b
  obtain ⟨h1, h2, h3, h4, h5⟩ := h
  simp only [] at h1 h2 h3 h4 h5
  subst h1 h2 h3 h4
  unfold process2
  simp only []
  split
  · exact ⟨rfl, rfl, rfl, rfl, h5⟩
  · split
    · next _ hl =>
      subst hl
      have hs : SameLower m ⟨t + 1, ti, put1 co 0 (co 0 + 1), g, e⟩ ⟨t + 1, ti, put1 co 0 (co 0 + 1), g', e⟩ :=
        ⟨rfl, rfl, rfl, rfl, h5⟩
      have := hs.foldl (oneDelay2 c lags nf r 0 ((t + 1 : ℕ) : ℚ)) (fun a b x h => hdel _ a b x h) (delays c.n 0 (r.img 0))
      obtain ⟨g1, g2, g3, g4, g5⟩ := this
      exact ⟨g1, by simp only [g2], g3, g4, g5⟩
    · split
      · apply SameLower.foldl _ (fun a b x h => hdel _ a b x h)
        exact ⟨rfl, rfl, rfl, rfl, h5⟩
      · exact ⟨rfl, rfl, rfl, rfl, h5⟩

theorem SameLower.cascade {m : ℕ} (c : Cfg) (lags : List ℕ) (nf n fuel l : ℕ) (r : Ring Frame) {a b : TAcc}
    (h : SameLower m a b) :
    (cascade avg n (process2 c lags nf) fuel l (r, a)).1 = (Corr.cascade avg n (process2 c lags nf) fuel l (r, b)).1 ∧
    SameLower m (Corr.cascade avg n (process2 c lags nf) fuel l (r, a)).2
      (Corr.cascade avg n (process2 c lags nf) fuel l (r, b)).2 := by
  induction fuel generalizing l r a b with
  | zero => exact ⟨rfl, h⟩
  | succ f ih =>
    simp only [Corr.cascade]
    split
    · exact ⟨rfl, h⟩
    · exact ih _ _ (h.process c lags nf _ _)

theorem SameLower.step {m : ℕ} (c : Cfg) (lags : List ℕ) (nf : ℕ) (s s' : TSt) (x : Frame) (h1 : s.1 = s'.1)
    (h : SameLower m s.2 s'.2) :
    (step2 c lags nf s x).1 = (step2 c lags nf s' x).1 ∧ SameLower m (step2 c lags nf s x).2 (step2 c lags nf s' x).2 := by
  unfold step2 feed
  simp only [h1]
  exact SameLower.cascade c lags nf c.n (c.L - 1) 1 _ (h.process c lags nf _ _)

theorem SameLower.run {m : ℕ} (c : Cfg) (pixels lags : List ℕ) (nf : ℕ) (ims : List (List (Option ℚ))) (s s' : TSt)
    (h1 : s.1 = s'.1) (h : SameLower m s.2 s'.2) :
    (lazyTwoTime c pixels lags nf s ims).2 = (lazyTwoTime c pixels lags nf s' ims).2 ∧
    (lazyTwoTime c pixels lags nf s ims).1.1 = (lazyTwoTime c pixels lags nf s' ims).1.1 ∧
    SameLower m (lazyTwoTime c pixels lags nf s ims).1.2 (lazyTwoTime c pixels lags nf s' ims).1.2 := by
  induction ims generalizing s s' with
  | nil => exact ⟨rfl, h1, h⟩
  | cons im rest ih =>
    rw [lazyTwoTime, lazyTwoTime]
    cases hs : select pixels im with
    | error e => exact ⟨rfl, h1, h⟩
    | ok x =>
      simp only []
      obtain ⟨g1, g2⟩ := SameLower.step c lags nf s s' x h1 h
      rw [g2.2.2.2.1]
      split
      · exact ⟨rfl, g1, g2⟩
      · exact ih _ _ g1 g2

/-- C83: converting the state to results in the middle of a run (which overwrites the state's matrices in place) does
not change the results obtained after the remaining images, nor whether an exception occurs. -/
theorem C83_peeking_is_harmless (c : Cfg) (pixels lags : List ℕ) (nf : ℕ) (s : TSt) (ims : List (List (Option ℚ))) :
    (lazyTwoTime c pixels lags nf (toResults c s) ims).2 = (lazyTwoTime c pixels lags nf s ims).2 ∧
    (toResults c (lazyTwoTime c pixels lags nf (toResults c s) ims).1).2.g2 =
      (toResults c (lazyTwoTime c pixels lags nf s ims).1).2.g2 := by
  have h0 : SameLower (rois c) (toResults c s).2 s.2 := by
    refine ⟨rfl, rfl, rfl, rfl, ?_⟩
    intro r p q h
    by_cases hr : r < rois c
    · have hpq : q ≤ p := by rcases h with h | h <;> omega
      exact (C51_symmetric c s r hr p q).2.1 hpq
    · simp [toResults, hr]
  obtain ⟨g1, g2, g3⟩ := SameLower.run c pixels lags nf ims (toResults c s) s rfl h0
  refine ⟨g1, ?_⟩
  funext r p q
  by_cases hr : r < rois c
  · simp only [toResults, hr, if_true]
    rcases le_total p q with h | h
    · rw [symAt_upper _ _ _ h, symAt_upper _ _ _ h]; exact g3.2.2.2.2 r q p (Or.inr h)
    · rw [symAt_lower _ _ _ h, symAt_lower _ _ _ h]; exact g3.2.2.2.2 r p q (Or.inr h)
  · simp only [toResults, hr, if_false]
    exact g3.2.2.2.2 r p q (Or.inl (by omega))

/-! ## C53: one-time from two-time -/

/-- The positions t with a number at (t, t+j). -/
def Spec.diagGood (m : ℕ) (g : ℕ → ℕ → Option ℚ) (j : ℕ) : Finset ℕ :=
  (range (m - j)).filter (fun t => (g t (t + j)).isSome)

theorem filterMap_range (m : ℕ) (f : ℕ → Option ℚ) :
    (((List.range m).map f).filterMap id).length = ((range m).filter (fun t => (f t).isSome)).card ∧
    (((List.range m).map f).filterMap id).sum = ∑ t ∈ (range m).filter (fun t => (f t).isSome), (f t).getD 0 := by
  induction m with
  | zero => simp
  | succ m ih =>
    rw [List.range_succ, List.map_append, List.filterMap_append, List.length_append, List.sum_append, ih.1, ih.2,
      range_add_one, filter_insert]
    cases h : f m with
    | none => simp [h]
    | some x =>
      simp only [List.map_cons, List.map_nil, h, Option.isSome_some, if_true]
      rw [card_insert_of_notMem (by simp), sum_insert (by simp)]
      simp [h, add_comm]

/-- C53: entry j is the mean of the non-NaN entries at time distance j, NaN when there is none; one entry per time
distance. -/
theorem C53_diagonal_means (m : ℕ) (g : ℕ → ℕ → Option ℚ) :
    (oneTimeFromTwoTime m g).length = m ∧
    ∀ j < m, (oneTimeFromTwoTime m g)[j]? = some (if Spec.diagGood m g j = ∅ then none
      else some ((∑ t ∈ Spec.diagGood m g j, (g t (t + j)).getD 0) / (Spec.diagGood m g j).card)) := by
  refine ⟨by simp [oneTimeFromTwoTime], ?_⟩
  intro j hj
  unfold oneTimeFromTwoTime
  rw [List.getElem?_map, List.getElem?_range hj, Option.map_some]
  congr 1
  unfold nanmean diagK
  obtain ⟨h1, h2⟩ := filterMap_range (m - j) (fun t => g t (t + j))
  simp only [h1, h2]
  by_cases h : Spec.diagGood m g j = ∅
  · rw [if_pos h, if_pos]; exact card_eq_zero.2 h
  · rw [if_neg h, if_neg]
    · rfl
    · intro h'; exact h (card_eq_zero.1 h')

example : oneTimeFromTwoTime 3 (fun a b => if a = 1 ∧ b = 1 then none else some (a + b)) =
    [some 2, some 2, some 2] := by decide +kernel

/-- C85 is false: the cells of a computed lag that the last, incomplete group of frames would cover stay 0 and are
averaged in.  A constant signal, 2 levels of 2 buffers and 5 frames: g2 is exactly 1 at lag 2 for every frame pair, yet
the one-time curve obtained from the two-time matrix is 2/3 there (and 0 at the lags 3, 4 that are never computed). -/
theorem C85_refuted : (twoTimeCorr 2 2 [1] (List.replicate 5 [some 1]) 5).map
    (fun M => oneTimeFromTwoTime 5 (M 0)) = .ok [some 1, some 1, some (2 / 3), some 0, some 0] := by decide +kernel

/-- C85, single level: with one level and no frame further apart than the buffers reach, entry j is the mean over all
frame pairs j apart of the normalised products that are defined. -/
theorem C85_single_level_partial (n : ℕ) (hn2 : 2 ≤ n) (labels : List ℤ) (c : Cfg)
    (pixels lags : List ℕ) (hv : validate n 1 labels = .ok (c, pixels, lags))
    (images : ℕ → List (Option ℚ)) (hsz : ∀ t, labels.length ≤ (images t).length) (T : ℕ) (hT : 1 ≤ T) (hTn : T ≤ n) :
    ∃ M, twoTimeCorr 1 n labels ((List.range T).map images) T = .ok M ∧ ∀ r < rois c,
      let w := fun a b => Spec.twoTime (pixelHistory images pixels) pixels.length (fun p => (c.labels[p]?).getD 0) 0 a b r
      ∀ j < T, (oneTimeFromTwoTime T (M r))[j]? = some (if Spec.diagGood T w j = ∅ then none
        else some ((∑ t ∈ Spec.diagGood T w j, (w t (t + j)).getD 0) / (Spec.diagGood T w j).card)) := by
  obtain ⟨M, hM, h⟩ := C51_entries n 1 T hn2 (le_refl _) labels c pixels lags hv images hsz T hT (le_refl _)
  refine ⟨M, hM, ?_⟩
  intro r hr w j hj
  rw [(C53_diagonal_means T (M r)).2 j hj]
  have hw : ∀ t, t + j < T → M r t (t + j) = w t (t + j) := by
    intro t ht
    obtain ⟨e1, e2⟩ := h r hr (t + j) t ht (by omega) (by omega)
    rw [e2, e1]
  have hd : Spec.diagGood T (M r) j = Spec.diagGood T w j := by
    unfold Spec.diagGood
    apply filter_congr
    intro t ht
    rw [hw t (by simp at ht; omega)]
  rw [hd]
  congr 2
  congr 2
  apply sum_congr rfl
  intro t ht
  rw [hw t (by simp [Spec.diagGood] at ht; omega)]

end Verif.Corr
