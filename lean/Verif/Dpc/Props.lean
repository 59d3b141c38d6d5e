/- Properties C61-C63, C105-C106: DPC scan bookkeeping and image reduction. -/
import Verif.Dpc.Model

namespace Verif.Dpc
open Finset Verif

/-! ## C61 lazy_dpc -/

section scan
variable {α ι : Type} [Zero α] (fit : ι → (α × α) × (α × α)) (rows cols : ℕ)

/-- Position `(i, j)` of the raster holds the result for frame `i * cols + j` when that frame is among the first `n`,
otherwise zero. -/
def Spec.Raster (frames : List ι) (n : ℕ) (f : ι → α) (a : ℕ → ℕ → α) : Prop :=
  ∀ i j, j < cols → (∀ im, frames[i * cols + j]? = some im → i * cols + j < n → a i j = f im) ∧ (n ≤ i * cols + j → a i j = 0)

/-- State after `n` frames of the scan. -/
def Spec.AfterFrames (frames : List ι) (n : ℕ) (st : State α) : Prop :=
  st.index = n ∧ Spec.Raster cols frames n (fun im => (fit im).1.1) st.ax ∧ Spec.Raster cols frames n (fun im => (fit im).2.1) st.ay ∧
  Spec.Raster cols frames n (fun im => (fit im).1.2) st.gx ∧ Spec.Raster cols frames n (fun im => (fit im).2.2) st.gy

theorem raster_put (frames : List ι) (n : ℕ) (f : ι → α) (a : ℕ → ℕ → α) (im : ι) (hc : 0 < cols) (him : frames[n]? = some im)
    (h : Spec.Raster cols frames n f a) : Spec.Raster cols frames (n + 1) f (put a (n / cols) (n % cols) (f im)) := by
  intro i j hj
  have hpos : (i = n / cols ∧ j = n % cols) ↔ i * cols + j = n := by
    constructor
    · rintro ⟨rfl, rfl⟩; exact Nat.div_add_mod' n cols
    · intro h
      refine ⟨?_, ?_⟩
      · rw [← h, Nat.add_comm, Nat.add_mul_div_right _ _ hc, Nat.div_eq_of_lt hj, Nat.zero_add]
      · rw [← h, Nat.add_comm, Nat.add_mul_mod_self_right, Nat.mod_eq_of_lt hj]
  unfold put
  constructor
  · intro im' h1 h2
    by_cases he : i * cols + j = n
    · rw [if_pos (hpos.2 he)]
      rw [he, him] at h1
      injection h1 with h1
      rw [h1]
    · rw [if_neg (fun hh => he (hpos.1 hh))]
      exact (h i j hj).1 im' h1 (by omega)
  · intro h1
    rw [if_neg (fun hh => by have := hpos.1 hh; omega)]
    exact (h i j hj).2 (by omega)

theorem raster_prefix (frames frames' : List ι) (n : ℕ) (f : ι → α) (a : ℕ → ℕ → α) (hp : ∀ k < n, frames[k]? = frames'[k]?)
    (h : Spec.Raster cols frames n f a) : Spec.Raster cols frames' n f a := by
  intro i j hj
  refine ⟨fun im h1 h2 => (h i j hj).1 im ?_ h2, (h i j hj).2⟩
  rw [hp _ h2]; exact h1

theorem step_after (frames : List ι) (n : ℕ) (st : State α) (im : ι) (him : frames[n]? = some im) (hn : n < rows * cols)
    (h : Spec.AfterFrames fit cols frames n st) : ∃ st', step fit rows cols st im = .ok st' ∧ Spec.AfterFrames fit cols frames (n + 1) st' := by
  have hc : 0 < cols := by
    rcases Nat.eq_zero_or_pos cols with h0 | h0
    · subst h0; simp at hn
    · exact h0
  obtain ⟨h0, h1, h2, h3, h4⟩ := h
  unfold step
  rw [if_pos (by omega)]
  refine ⟨_, rfl, ?_⟩
  rw [h0]
  exact ⟨rfl, raster_put cols frames n (fun im => (fit im).1.1) _ im hc him h1, raster_put cols frames n (fun im => (fit im).2.1) _ im hc him h2,
    raster_put cols frames n (fun im => (fit im).1.2) _ im hc him h3, raster_put cols frames n (fun im => (fit im).2.2) _ im hc him h4⟩

theorem lazy_from (frames : List ι) : ∀ (rest : List ι) (n : ℕ) (st : State α), (∀ k, rest[k]? = frames[n + k]?) → n ≤ rows * cols →
    Spec.AfterFrames fit cols frames n st →
    (lazyDpc fit rows cols st rest).1.length = min rest.length (rows * cols - n) ∧
    ((lazyDpc fit rows cols st rest).2 = if rest.length ≤ rows * cols - n then none else some .valueError) ∧
    ∀ k st', (lazyDpc fit rows cols st rest).1[k]? = some st' → Spec.AfterFrames fit cols frames (n + k + 1) st' := by
  intro rest
  induction rest with
  | nil => intro n st _ _ _; simp [lazyDpc]
  | cons im rest ih =>
    intro n st hr hn h
    by_cases hlt : n < rows * cols
    · have him : frames[n]? = some im := by have := hr 0; simpa using this.symm
      obtain ⟨st', hs, hs'⟩ := step_after fit rows cols frames n st im him hlt h
      obtain ⟨i1, i2, i3⟩ := ih (n + 1) st' (fun k => by have := hr (k + 1); rw [List.getElem?_cons_succ] at this; rw [this]; congr 1; omega) (by omega) hs'
      rw [lazyDpc, hs]
      refine ⟨?_, ?_, ?_⟩
      · simp only [List.length_cons, i1]; omega
      · simp only [i2, List.length_cons]
        by_cases hle : rest.length ≤ rows * cols - (n + 1)
        · rw [if_pos hle, if_pos (by omega)]
        · rw [if_neg hle, if_neg (by omega)]
      · intro k sk hk
        cases k with
        | zero => simp at hk; rw [← hk]; exact hs'
        | succ k =>
          rw [List.getElem?_cons_succ] at hk
          have := i3 k sk hk
          rw [show n + (k + 1) + 1 = n + 1 + k + 1 by omega]
          exact this
    · have hst : step fit rows cols st im = .error .valueError := by
        unfold step
        rw [if_neg (by rw [h.1]; exact hlt)]
      rw [lazyDpc, hst]
      refine ⟨?_, ?_, ?_⟩
      · simp; omega
      · simp only [List.length_cons]
        rw [if_neg (by omega)]
      · intro k sk hk; simp at hk

/-- A fresh scan: as many states are yielded as there are frames, up to the number of raster positions; surplus frames
raise ValueError; and the k-th yielded state holds the results of the first k+1 frames at their raster positions, and
zeros elsewhere. -/
theorem C61_raster (frames : List ι) :
    (lazyDpc fit rows cols initState frames).1.length = min frames.length (rows * cols) ∧
    ((lazyDpc fit rows cols initState frames).2 = none ↔ frames.length ≤ rows * cols) ∧
    (rows * cols < frames.length → (lazyDpc fit rows cols initState frames).2 = some .valueError) ∧
    ∀ k st', (lazyDpc fit rows cols initState frames).1[k]? = some st' → Spec.AfterFrames fit cols frames (k + 1) st' := by
  have h0 : Spec.AfterFrames fit cols frames 0 (initState : State α) :=
    ⟨rfl, fun i j _ => ⟨fun _ _ h => absurd h (by omega), fun _ => rfl⟩, fun i j _ => ⟨fun _ _ h => absurd h (by omega), fun _ => rfl⟩,
      fun i j _ => ⟨fun _ _ h => absurd h (by omega), fun _ => rfl⟩, fun i j _ => ⟨fun _ _ h => absurd h (by omega), fun _ => rfl⟩⟩
  obtain ⟨h1, h2, h3⟩ := lazy_from fit rows cols frames frames 0 initState (fun k => by rw [Nat.zero_add]) (Nat.zero_le _) h0
  rw [Nat.sub_zero] at h1 h2
  refine ⟨h1, ?_, ?_, ?_⟩
  · rw [h2]; split_ifs with h <;> simp [h]
  · intro h; rw [h2, if_neg (by omega)]
  · intro k st' hk
    have := h3 k st' hk
    rwa [Nat.zero_add] at this

omit [Zero α] in
/-- Splitting the frames at any point and resuming from the last yielded state gives the same states and outcome. -/
theorem C61_resume (st : State α) (xs ys : List ι) (h : (lazyDpc fit rows cols st xs).2 = none) :
    lazyDpc fit rows cols st (xs ++ ys) = ((lazyDpc fit rows cols st xs).1 ++ (lazyDpc fit rows cols ((lazyDpc fit rows cols st xs).1.getLastD st) ys).1,
      (lazyDpc fit rows cols ((lazyDpc fit rows cols st xs).1.getLastD st) ys).2) := by
  induction xs generalizing st with
  | nil => simp [lazyDpc]
  | cons im xs ih =>
    rw [List.cons_append, lazyDpc, lazyDpc]
    rw [lazyDpc] at h
    cases hs : step fit rows cols st im with
    | error e => rw [hs] at h; simp at h
    | ok st' =>
      rw [hs] at h
      simp only at h ⊢
      rw [ih st' h]
      have : (st' :: (lazyDpc fit rows cols st' xs).1).getLastD st = (lazyDpc fit rows cols st' xs).1.getLastD st' := by
        simp [List.getLast?_cons]
      rw [this]
      simp

/-! ## C105 yielded states are not snapshots -/

/-- Collecting the states of a fresh scan of at least two frames: the first collected one already holds the result of the
last frame. -/
theorem C105_snapshot_refuted (frames : List ι) (h2 : 2 ≤ frames.length) (hn : frames.length ≤ rows * cols) :
    ∃ s0, (collected fit rows cols initState frames)[0]? = some s0 ∧ s0.index = frames.length ∧
      ∃ y0, (lazyDpc fit rows cols initState frames).1[0]? = some y0 ∧ y0.index = 1 := by
  obtain ⟨h1, _, _, h4⟩ := C61_raster fit rows cols frames
  set ys := (lazyDpc fit rows cols initState frames).1 with hys
  have hlen : ys.length = frames.length := by omega
  obtain ⟨y0, hy0⟩ : ∃ y0, ys[0]? = some y0 := ⟨ys[0], List.getElem?_eq_getElem (by omega)⟩
  obtain ⟨yl, hyl⟩ : ∃ yl, ys[ys.length - 1]? = some yl := ⟨_, List.getElem?_eq_getElem (by omega)⟩
  refine ⟨yl, ?_, ?_, y0, hy0, (h4 0 y0 hy0).1⟩
  · unfold collected
    simp only [← hys]
    rw [List.getElem?_map, hy0, Option.map_some, List.getLastD_eq_getLast?, List.getLast?_eq_getElem?, hyl]
    rfl
  · have := (h4 _ yl hyl).1
    omega

omit [Zero α] in
/-- Only the last collected state is what was yielded. -/
theorem C105_last_partial (st : State α) (frames : List ι) :
    (collected fit rows cols st frames).getLast? = (lazyDpc fit rows cols st frames).1.getLast? := by
  unfold collected
  simp only
  cases h : (lazyDpc fit rows cols st frames).1.getLast? with
  | none =>
    rw [List.getLast?_eq_none_iff] at h
    rw [h]; rfl
  | some y =>
    have hne : (lazyDpc fit rows cols st frames).1 ≠ [] := by
      intro h0; rw [h0] at h; simp at h
    rw [List.getLast?_map, h, Option.map_some, List.getLastD_eq_getLast?, h]
    rfl

end scan

/-- Instance: three frames on a 2 x 2 raster. -/
example : ((lazyDpc (fun n : ℕ => ((n, n + 10), (n, n + 20))) 2 2 initState [1, 2, 3]).1.map (fun s => (s.gx 0 0, s.gx 0 1, s.gx 1 0, s.gx 1 1))) =
    [(11, 0, 0, 0), (11, 12, 0, 0), (11, 12, 13, 0)] := by decide +kernel

/-! ## C62 image_reduction -/

section reduction
variable {α : Type} [AddCommMonoid α]

/-- Pixel (i, j) is in the list of bad pixels (negative coordinates count from the end). -/
def Spec.IsBad (rows cols : ℕ) (bad : List (ℤ × ℤ)) (i j : ℕ) : Prop :=
  ∃ p ∈ bad, (p.1 = i ∨ p.1 + rows = i) ∧ (p.2 = j ∨ p.2 + cols = j)

/-- All bad pixels address pixels of the image. -/
def Spec.BadInRange (rows cols : ℕ) (bad : List (ℤ × ℤ)) : Prop :=
  ∀ p ∈ bad, -(rows : ℤ) ≤ p.1 ∧ p.1 < rows ∧ -(cols : ℤ) ≤ p.2 ∧ p.2 < cols

theorem pyIndex_some (n : ℕ) (i : ℤ) (h1 : -(n : ℤ) ≤ i) (h2 : i < n) : ∃ a, pyIndex n i = some a ∧ ∀ k < n, (k = a ↔ i = k ∨ i + n = k) := by
  unfold pyIndex
  by_cases h : 0 ≤ i ∧ i < n
  · rw [if_pos h]
    exact ⟨_, rfl, fun k hk => by omega⟩
  · rw [if_neg h, if_pos (by omega)]
    exact ⟨_, rfl, fun k hk => by omega⟩

open Classical in
theorem zeroPixels_spec (bad : List (ℤ × ℤ)) : ∀ (im : Img α), Spec.BadInRange im.rows im.cols bad →
    ∃ im', zeroPixels im bad = .ok im' ∧ im'.rows = im.rows ∧ im'.cols = im.cols ∧
      ∀ i < im.rows, ∀ j < im.cols, im'.px i j = if Spec.IsBad im.rows im.cols bad i j then 0 else im.px i j := by
  induction bad with
  | nil => intro im _; exact ⟨im, rfl, rfl, rfl, fun i _ j _ => by simp [Spec.IsBad]⟩
  | cons p rest ih =>
    intro im h
    obtain ⟨p1, p2⟩ := p
    have hp := h (p1, p2) (by simp)
    obtain ⟨a, ha, ha'⟩ := pyIndex_some im.rows p1 hp.1 hp.2.1
    obtain ⟨b, hb, hb'⟩ := pyIndex_some im.cols p2 hp.2.2.1 hp.2.2.2
    obtain ⟨im', h1, h2, h3, h4⟩ := ih { im with px := fun i' j' => if i' = a ∧ j' = b then 0 else im.px i' j' } (fun q hq => h q (by simp [hq]))
    refine ⟨im', ?_, h2, h3, ?_⟩
    · rw [zeroPixels, ha, hb]; exact h1
    · intro i hi j hj
      rw [h4 i hi j hj]
      simp only
      have e : Spec.IsBad im.rows im.cols ((p1, p2) :: rest) i j ↔ (i = a ∧ j = b) ∨ Spec.IsBad im.rows im.cols rest i j := by
        unfold Spec.IsBad
        simp only [List.mem_cons, exists_eq_or_imp, ha' i hi, hb' j hj]
      by_cases hr : Spec.IsBad im.rows im.cols rest i j
      · rw [if_pos hr, if_pos (e.2 (Or.inr hr))]
      · rw [if_neg hr]
        by_cases hab : i = a ∧ j = b
        · rw [if_pos hab, if_pos (e.2 (Or.inl hab))]
        · rw [if_neg hab, if_neg (fun h => (e.1 h).elim hab hr)]

/-- Rows r..r+row and columns c..c+col of the image; the whole image without ROI. -/
def Spec.InRoi (roi : RoiArg) (i j : ℕ) : Prop :=
  match roi with
  | .none => True
  | .seq r c row col => r ≤ i ∧ i < r + row ∧ c ≤ j ∧ j < c + col
  | .ndarray r c row col => r ≤ i ∧ i < r + row ∧ c ≤ j ∧ j < c + col

/-- Column j is one of the columns of the ROI. -/
def Spec.InCols (roi : RoiArg) (j : ℕ) : Prop :=
  match roi with
  | .none => True
  | .seq _ c _ col => c ≤ j ∧ j < c + col
  | .ndarray _ c _ col => c ≤ j ∧ j < c + col

/-- Row i is one of the rows of the ROI. -/
def Spec.InRows (roi : RoiArg) (i : ℕ) : Prop :=
  match roi with
  | .none => True
  | .seq r _ row _ => r ≤ i ∧ i < r + row
  | .ndarray r _ row _ => r ≤ i ∧ i < r + row

/-- Offset of the ROI. -/
def Spec.origin (roi : RoiArg) : ℕ × ℕ :=
  match roi with
  | .none => (0, 0)
  | .seq r c _ _ => (r, c)
  | .ndarray r c _ _ => (r, c)

open Classical in
/-- Intensity that counts: inside the image and the ROI and not bad. -/
noncomputable def Spec.good (im : Img α) (roi : RoiArg) (bad : List (ℤ × ℤ)) (i j : ℕ) : α :=
  if Spec.InRoi roi i j ∧ ¬ Spec.IsBad im.rows im.cols bad i j then im.px i j else 0

theorem sum_window (n r k : ℕ) (f : ℕ → α) (hf : ∀ i < n, (i < r ∨ r + k ≤ i) → f i = 0) :
    ∑ i ∈ range n, f i = ∑ i ∈ range (min (r + k) n - r), f (r + i) := by
  rw [← Finset.sum_filter_of_ne (s := range n) (p := fun i => r ≤ i ∧ i < r + k)]
  · apply Finset.sum_bij' (fun i _ => i - r) (fun i _ => r + i)
    · intro i hi; simp only [mem_filter, mem_range] at hi ⊢; omega
    · intro i hi; simp only [mem_filter, mem_range] at hi ⊢; omega
    · intro i hi; simp only [mem_filter, mem_range] at hi; omega
    · intro i hi; omega
    · intro i hi; simp only [mem_filter, mem_range] at hi; rw [show r + (i - r) = i by omega]
  · intro i hi hne
    by_contra hcon
    exact hne (hf i (mem_range.1 hi) (by omega))

theorem list_sum_range (n : ℕ) (f : ℕ → α) : ((List.range n).map f).sum = ∑ i ∈ range n, f i := by
  rw [Finset.sum_range_succ_comm_aux n f]
where
  Finset.sum_range_succ_comm_aux (n : ℕ) (f : ℕ → α) : ((List.range n).map f).sum = ∑ i ∈ range n, f i := by
    induction n with
    | zero => simp
    | succ n ih => rw [List.range_succ, List.map_append, List.sum_append, ih, Finset.sum_range_succ]; simp

/-- For ROIs given as sequences: the x line has one entry per column of the ROI inside the image, and the y line one per row; entry j of the x line is the sum over the rows of the good intensity in column c+j, entry i
of the y line that of row r+i; both lines sum to the total good intensity; the caller's image is unchanged. -/
theorem C62_image_reduction_partial (im : Img α) (roi : RoiArg) (bad : List (ℤ × ℤ)) (hroi : ∀ r c row col, roi ≠ .ndarray r c row col)
    (hb : Spec.BadInRange im.rows im.cols bad) :
    ∃ xl yl, imageReduction im roi bad = .ok (im, xl, yl) ∧
      (∀ j, j < xl.length ↔ (Spec.origin roi).2 + j < im.cols ∧ Spec.InCols roi ((Spec.origin roi).2 + j)) ∧
      (∀ i, i < yl.length ↔ (Spec.origin roi).1 + i < im.rows ∧ Spec.InRows roi ((Spec.origin roi).1 + i)) ∧
      (∀ (j : ℕ) v, xl[j]? = some v → v = ∑ i ∈ range im.rows, Spec.good im roi bad i ((Spec.origin roi).2 + j)) ∧
      (∀ (i : ℕ) v, yl[i]? = some v → v = ∑ j ∈ range im.cols, Spec.good im roi bad ((Spec.origin roi).1 + i) j) ∧
      xl.sum = ∑ i ∈ range im.rows, ∑ j ∈ range im.cols, Spec.good im roi bad i j ∧
      yl.sum = ∑ i ∈ range im.rows, ∑ j ∈ range im.cols, Spec.good im roi bad i j := by
  classical
  obtain ⟨cp, h1, h2, h3, h4⟩ := zeroPixels_spec bad im hb
  unfold imageReduction
  -- treat "no ROI" as the window covering the image
  obtain ⟨r, c, row, col, im', hred, hrows, hcols, hpx, hin, hor, hic, hir⟩ : ∃ r c row col, ∃ im' : Img α,
      reduceImage im roi bad = .ok (im, im') ∧
      im'.rows = min (r + row) im.rows - r ∧ im'.cols = min (c + col) im.cols - c ∧ (∀ i j, im'.px i j = cp.px (r + i) (c + j)) ∧
      (∀ i < im.rows, ∀ j < im.cols, (Spec.InRoi roi i j ↔ r ≤ i ∧ i < r + row ∧ c ≤ j ∧ j < c + col)) ∧ Spec.origin roi = (r, c) ∧
      (∀ j < im.cols, Spec.InCols roi j ↔ c ≤ j ∧ j < c + col) ∧ (∀ i < im.rows, Spec.InRows roi i ↔ r ≤ i ∧ i < r + row) := by
    cases roi with
    | none =>
      refine ⟨0, 0, im.rows, im.cols, cp, by unfold reduceImage; rw [h1], by simp [h2], by simp [h3], fun i j => by simp, ?_, rfl, fun j hj => by simp only [Spec.InCols, true_iff]; omega, fun i hi => by simp only [Spec.InRows, true_iff]; omega⟩
      intro i hi j hj
      simp only [Spec.InRoi, true_iff]
      omega
    | seq r c row col =>
      refine ⟨r, c, row, col, crop cp r c row col, by unfold reduceImage; rw [h1], by simp [crop, h2], by simp [crop, h3], fun i j => rfl, fun i _ j _ => Iff.rfl, rfl, fun _ _ => Iff.rfl, fun _ _ => Iff.rfl⟩
    | ndarray r c row col => exact absurd rfl (hroi r c row col)
  rw [hred]
  simp only [hor]
  have hgood : ∀ i < im.rows, ∀ j < im.cols, Spec.good im roi bad i j = if r ≤ i ∧ i < r + row ∧ c ≤ j ∧ j < c + col then cp.px i j else 0 := by
    intro i hi j hj
    unfold Spec.good
    rw [h4 i hi j hj]
    by_cases hw : r ≤ i ∧ i < r + row ∧ c ≤ j ∧ j < c + col
    · rw [if_pos hw]
      by_cases hbd : Spec.IsBad im.rows im.cols bad i j
      · rw [if_pos hbd, if_neg (fun h => h.2 hbd)]
      · rw [if_neg hbd, if_pos ⟨(hin i hi j hj).2 hw, hbd⟩]
    · rw [if_neg hw, if_neg (fun h => hw ((hin i hi j hj).1 h.1))]
  have hcolsum : ∀ j, c + j < im.cols → j < col → ∑ i ∈ range im'.rows, im'.px i j = ∑ i ∈ range im.rows, Spec.good im roi bad i (c + j) := by
    intro j hj hjc
    rw [sum_window im.rows r row (fun i => Spec.good im roi bad i (c + j)) (by
      intro i hi hio
      rw [hgood i hi (c + j) hj, if_neg (by omega)]), hrows]
    apply Finset.sum_congr rfl
    intro i hi
    rw [mem_range] at hi
    rw [hpx, hgood (r + i) (by omega) (c + j) hj, if_pos (by omega)]
  have hrowsum : ∀ i, r + i < im.rows → i < row → ∑ j ∈ range im'.cols, im'.px i j = ∑ j ∈ range im.cols, Spec.good im roi bad (r + i) j := by
    intro i hi hir
    rw [sum_window im.cols c col (fun j => Spec.good im roi bad (r + i) j) (by
      intro j hj hjo
      rw [hgood (r + i) hi j hj, if_neg (by omega)]), hcols]
    apply Finset.sum_congr rfl
    intro j hj
    rw [mem_range] at hj
    rw [hpx, hgood (r + i) hi (c + j) (by omega), if_pos (by omega)]
  refine ⟨_, _, rfl, ?_, ?_, ?_, ?_, ?_, ?_⟩
  · intro j
    simp only [colSums, List.length_map, List.length_range, hcols]
    constructor
    · intro h; exact ⟨by omega, (hic _ (by omega)).2 (by omega)⟩
    · rintro ⟨h, h'⟩
      have := (hic _ h).1 h'
      omega
  · intro i
    simp only [rowSums, List.length_map, List.length_range, hrows]
    constructor
    · intro h; exact ⟨by omega, (hir _ (by omega)).2 (by omega)⟩
    · rintro ⟨h, h'⟩
      have := (hir _ h).1 h'
      omega
  · intro j v hv
    unfold colSums at hv
    rw [List.getElem?_map] at hv
    by_cases hj : j < im'.cols
    · rw [List.getElem?_range hj] at hv
      simp only [Option.map_some, Option.some.injEq] at hv
      rw [← hv]
      exact hcolsum j (by omega) (by omega)
    · rw [List.getElem?_eq_none (by simpa using hj)] at hv
      simp at hv
  · intro i v hv
    unfold rowSums at hv
    rw [List.getElem?_map] at hv
    by_cases hi : i < im'.rows
    · rw [List.getElem?_range hi] at hv
      simp only [Option.map_some, Option.some.injEq] at hv
      rw [← hv]
      exact hrowsum i (by omega) (by omega)
    · rw [List.getElem?_eq_none (by simpa using hi)] at hv
      simp at hv
  · rw [colSums, list_sum_range, Finset.sum_comm (s := range im.rows), sum_window im.cols c col, ← hcols]
    · apply Finset.sum_congr rfl
      intro j hj
      rw [mem_range] at hj
      exact hcolsum j (by omega) (by omega)
    · intro j hj hjo
      apply Finset.sum_eq_zero
      intro i hi
      rw [mem_range] at hi
      rw [hgood i hi j hj, if_neg (by omega)]
  · rw [rowSums, list_sum_range, sum_window im.rows r row (fun i => ∑ j ∈ range im.cols, Spec.good im roi bad i j), ← hrows]
    · apply Finset.sum_congr rfl
      intro i hi
      rw [mem_range] at hi
      exact hrowsum i (by omega) (by omega)
    · intro i hi hio
      apply Finset.sum_eq_zero
      intro j hj
      rw [mem_range] at hj
      rw [hgood i hi j hj, if_neg (by omega)]

/-- An ROI given as a NumPy array, as the documentation asks, always raises. -/
theorem C62_array_roi_refuted (im : Img α) (bad : List (ℤ × ℤ)) (r c row col : ℕ) :
    ∃ e, imageReduction im (.ndarray r c row col) bad = .error e := by
  unfold imageReduction reduceImage
  cases zeroPixels im bad with
  | error e => exact ⟨e, rfl⟩
  | ok cp => exact ⟨_, rfl⟩

end reduction

example : (imageReduction (⟨2, 3, fun i j => ((i * 3 + j + 1 : ℕ) : ℤ)⟩ : Img ℤ) (.seq 0 1 2 5) [(-1, 2)]).toOption.map (fun r => r.2) = some ([7, 3], [5, 5]) := by
  decide +kernel

/-! ## C63 padding -/

/-- Padding puts the array in the middle of a zero array 2*padding+1 times as large in both directions, and cropping takes
it back out. -/
theorem C63_pad_crop {α : Type} [Zero α] (padding rows cols : ℕ) (g : ℕ → ℕ → α) :
    (pad padding rows cols g).rows = rows * (2 * padding + 1) ∧ (pad padding rows cols g).cols = cols * (2 * padding + 1) ∧
    (∀ i < rows, ∀ j < cols, (pad padding rows cols g).px (padding * rows + i) (padding * cols + j) = g i j) ∧
    (∀ i j, (∀ i' < rows, ∀ j' < cols, ¬ (i = padding * rows + i' ∧ j = padding * cols + j')) → (pad padding rows cols g).px i j = 0) ∧
    (∀ i < rows, ∀ j < cols, cropCentre padding rows cols (pad padding rows cols g).px i j = g i j) := by
  have h3 : ∀ i < rows, ∀ j < cols, (pad padding rows cols g).px (padding * rows + i) (padding * cols + j) = g i j := by
    intro i hi j hj
    simp only [pad]
    rw [if_pos ⟨by omega, by rw [Nat.add_mul]; omega, by omega, by rw [Nat.add_mul]; omega⟩]
    congr 1 <;> omega
  refine ⟨rfl, rfl, h3, ?_, h3⟩
  intro i j h
  simp only [pad]
  rw [if_neg]
  rintro ⟨a1, a2, a3, a4⟩
  rw [Nat.add_mul] at a2 a4
  exact h (i - padding * rows) (by omega) (j - padding * cols) (by omega) ⟨by omega, by omega⟩

/-- The result has the shape of the gradients and is the crop of the solution on the padded gradients; a weighting outside
[0, 1] raises ValueError, any other succeeds. -/
theorem C63_recon (rows cols : ℕ) (gx gy : ℕ → ℕ → ℝ) (sx sy : ℝ) (padding : ℕ) (w : ℝ) :
    (¬ (0 ≤ w ∧ w ≤ 1) → recon rows cols gx gy sx sy padding w = .error .valueError) ∧
    ((0 ≤ w ∧ w ≤ 1) → ∃ im, recon rows cols gx gy sx sy padding w = .ok im ∧ im.rows = rows ∧ im.cols = cols ∧
      ∀ i j, im.px i j = solve (rows * (2 * padding + 1)) (cols * (2 * padding + 1)) sx sy w (pad padding rows cols gx).px
        (pad padding rows cols gy).px (padding * rows + i) (padding * cols + j)) := by
  unfold recon
  constructor
  · intro h
    rw [if_pos]
    by_contra hc
    push Not at hc
    exact h hc
  · intro h
    rw [if_neg (by rintro (h1 | h1) <;> linarith [h.1, h.2])]
    exact ⟨_, rfl, rfl, rfl, fun i j => rfl⟩

end Verif.Dpc
