/- C134-C135: the ring centre (skbeam/core/image.py:52-101). -/
import Verif.Image.Model
import Verif.Image.Spec
import Mathlib.Algebra.BigOperators.Field
import Mathlib.Tactic.IntervalCases
import Mathlib.Tactic.Linarith
import Mathlib.Tactic.Ring
import Mathlib.Tactic.FieldSimp
import Mathlib.Tactic.Positivity

namespace Verif.Image
open Finset

/-! ## argmax -/

theorem argmaxGo_spec (l : List ℚ) : ∀ (best : ℕ) (bv : ℚ) (i : ℕ), best < i →
    (argmaxGo l best bv i = best ∧ ∀ x ∈ l, x ≤ bv) ∨
    (i ≤ argmaxGo l best bv i ∧ ∃ m, l[argmaxGo l best bv i - i]? = some m ∧ bv < m ∧ ∀ x ∈ l, x ≤ m) := by
  induction l with
  | nil => intro b bv i _; left; simp [argmaxGo]
  | cons x t ih =>
    intro b bv i hb
    unfold argmaxGo
    by_cases hx : bv < x
    · rw [if_pos hx]
      right
      rcases ih i x (i + 1) (by omega) with ⟨h1, h2⟩ | ⟨h1, m, h2, h3, h4⟩
      · rw [h1]
        refine ⟨le_refl _, x, by simp, hx, ?_⟩
        intro y hy
        rcases List.mem_cons.1 hy with rfl | hy
        · exact le_refl _
        · exact h2 y hy
      · refine ⟨by omega, m, ?_, lt_trans hx h3, ?_⟩
        · have e : argmaxGo t i x (i + 1) - i = (argmaxGo t i x (i + 1) - (i + 1)) + 1 := by omega
          rw [e, List.getElem?_cons_succ]; exact h2
        · intro y hy
          rcases List.mem_cons.1 hy with rfl | hy
          · exact h3.le
          · exact h4 y hy
    · rw [if_neg hx]
      rcases ih b bv (i + 1) (by omega) with ⟨h1, h2⟩ | ⟨h1, m, h2, h3, h4⟩
      · left
        refine ⟨h1, ?_⟩
        intro y hy
        rcases List.mem_cons.1 hy with rfl | hy
        · exact not_lt.1 hx
        · exact h2 y hy
      · right
        refine ⟨by omega, m, ?_, h3, ?_⟩
        · have e : argmaxGo t b bv (i + 1) - i = (argmaxGo t b bv (i + 1) - (i + 1)) + 1 := by omega
          rw [e, List.getElem?_cons_succ]; exact h2
        · intro y hy
          rcases List.mem_cons.1 hy with rfl | hy
          · exact le_trans (not_lt.1 hx) h3.le
          · exact h4 y hy

theorem argmax_spec (l : List ℚ) (h : l ≠ []) : ∃ m, l[argmax l]? = some m ∧ ∀ x ∈ l, x ≤ m := by
  cases l with
  | nil => exact absurd rfl h
  | cons x t =>
    change ∃ m, (x :: t)[argmaxGo t 0 x 1]? = some m ∧ ∀ y ∈ x :: t, y ≤ m
    rcases argmaxGo_spec t 0 x 1 (by omega) with ⟨h1, h2⟩ | ⟨h1, m, h2, h3, h4⟩
    · rw [h1]
      refine ⟨x, by simp, ?_⟩
      intro y hy
      rcases List.mem_cons.1 hy with rfl | hy
      · exact le_refl _
      · exact h2 y hy
    · refine ⟨m, ?_, ?_⟩
      · have e : argmaxGo t 0 x 1 = (argmaxGo t 0 x 1 - 1) + 1 := by omega
        rw [e, List.getElem?_cons_succ]; exact h2
      · intro y hy
        rcases List.mem_cons.1 hy with rfl | hy
        · exact h3.le
        · exact h4 y hy

theorem argmax_lt (l : List ℚ) (h : l ≠ []) : argmax l < l.length := by
  obtain ⟨m, hm, _⟩ := argmax_spec l h
  exact (List.getElem?_eq_some_iff.1 hm).1

/-- A strict maximum is what argmax finds. -/
theorem argmax_unique (f : ℕ → ℚ) (n k : ℕ) (hk : k < n) (h : ∀ j, j < n → j ≠ k → f j < f k) :
    argmax ((List.range n).map f) = k := by
  have hne : (List.range n).map f ≠ [] := by
    intro e
    have := congrArg List.length e
    simp at this; omega
  obtain ⟨m, hm, hmax⟩ := argmax_spec _ hne
  have hlt := argmax_lt _ hne
  simp only [List.length_map, List.length_range] at hlt
  rw [List.getElem?_map, List.getElem?_range hlt] at hm
  simp only [Option.map_some, Option.some.injEq] at hm
  by_contra hc
  have h1 := h _ hlt hc
  have h2 := hmax (f k) (List.mem_map.2 ⟨k, List.mem_range.2 hk, rfl⟩)
  rw [← hm] at h2
  exact absurd h2 (not_le.2 h1)

theorem argmaxGo_scale (k : ℚ) (hk : 0 < k) (l : List ℚ) : ∀ b bv i,
    argmaxGo (l.map (k * ·)) b (k * bv) i = argmaxGo l b bv i := by
  induction l with
  | nil => intro b bv i; rfl
  | cons x t ih =>
    intro b bv i
    simp only [List.map_cons, argmaxGo]
    by_cases hx : bv < x
    · rw [if_pos hx, if_pos (mul_lt_mul_of_pos_left hx hk)]; exact ih _ _ _
    · rw [if_neg hx, if_neg (by intro h; exact hx (lt_of_mul_lt_mul_left h hk.le))]; exact ih _ _ _

theorem argmax_scale (k : ℚ) (hk : 0 < k) (l : List ℚ) : argmax (l.map (k * ·)) = argmax l := by
  cases l with
  | nil => rfl
  | cons x t => exact argmaxGo_scale k hk t 0 x 1

/-! ## Scores -/

/-- A row as a function of the column. -/
def rowFn (v : List ℚ) (p : ℕ) : ℚ := (v[p]?).getD 0

theorem list_sum_range (f : ℕ → ℚ) (n : ℕ) : ((List.range n).map f).sum = ∑ i ∈ range n, f i := by
  induction n with
  | zero => simp
  | succ n ih => rw [List.range_succ, List.map_append, List.sum_append, ih, sum_range_succ]; simp

theorem correlate_general (a b : ℕ → ℚ) (N j : ℕ) :
    (∑ n ∈ range N, if N - 1 ≤ n + j ∧ n + j - (N - 1) < N then a (n + j - (N - 1)) * b (N - 1 - n) else 0) =
      ∑ p ∈ Spec.overlap N j, a p * b (j - p) := by
  rw [← sum_filter]
  refine sum_nbij' (fun n => n + j - (N - 1)) (fun p => N - 1 - (j - p)) ?_ ?_ ?_ ?_ ?_
  · intro n hn
    simp only [mem_filter, mem_range, Spec.overlap] at hn ⊢
    omega
  · intro p hp
    simp only [mem_filter, mem_range, Spec.overlap] at hp ⊢
    omega
  · intro n hn
    simp only [mem_filter, mem_range] at hn
    omega
  · intro p hp
    simp only [mem_filter, mem_range, Spec.overlap] at hp
    omega
  · intro n hn
    simp only [mem_filter, mem_range] at hn
    have : j - (n + j - (N - 1)) = N - 1 - n := by omega
    rw [this]

theorem correlate_rev (v : List ℚ) (N j : ℕ) (hv : v.length = N) :
    correlateFullAt v v.reverse N j = ∑ p ∈ Spec.overlap N j, rowFn v p * rowFn v (j - p) := by
  rw [← correlate_general]
  unfold correlateFullAt
  rw [list_sum_range]
  apply sum_congr rfl
  intro n hn
  have hn' := mem_range.1 hn
  have : (v.reverse[n]?).getD 0 = rowFn v (N - 1 - n) := by
    rw [List.getElem?_reverse (by omega), hv]; rfl
  rw [this]; rfl

theorem correlate_ones (N j : ℕ) :
    correlateFullAt (List.replicate N 1) (List.replicate N 1) N j = (Spec.overlap N j).card := by
  have h := correlate_general (fun _ => 1) (fun _ => 1) N j
  simp only [mul_one, sum_const, nsmul_eq_mul] at h
  rw [← h]
  unfold correlateFullAt
  rw [list_sum_range]
  apply sum_congr rfl
  intro n hn
  have hn' := mem_range.1 hn
  by_cases hc : N - 1 ≤ n + j ∧ n + j - (N - 1) < N
  · rw [if_pos hc, if_pos hc, List.getElem?_replicate_of_lt hc.2, List.getElem?_replicate_of_lt hn']; simp
  · rw [if_neg hc, if_neg hc]

theorem rowPeak_eq (N : ℕ) (v : List ℚ) (hv : v.length = N) :
    rowPeak N v = argmax ((List.range (2 * N - 1)).map (Spec.mirrorScore (rowFn v) N)) := by
  unfold rowPeak correlateFull
  congr 1
  rw [List.zipWith_map, List.zipWith_self]
  apply List.map_congr_left
  intro j _
  rw [correlate_rev v N j hv, correlate_ones]; rfl

theorem rowPeak_lt (N : ℕ) (hN : 1 ≤ N) (v : List ℚ) (hv : v.length = N) : rowPeak N v < 2 * N - 1 := by
  rw [rowPeak_eq N v hv]
  have := argmax_lt ((List.range (2 * N - 1)).map (Spec.mirrorScore (rowFn v) N)) (by
    intro e; have := congrArg List.length e; simp at this; omega)
  simpa using this

/-- A row that mirrors best about j/2 is assigned j. -/
theorem rowPeak_best (N : ℕ) (v : List ℚ) (hv : v.length = N) (j : ℕ) (h : Spec.BestMirror (rowFn v) N j) :
    rowPeak N v = j := by
  rw [rowPeak_eq N v hv]
  exact argmax_unique _ _ _ h.1 h.2

/-! ## Votes -/

theorem vote_at (dim b k : ℕ) (hk : k < 2 * dim - 1) :
    ((decide ((b : ℚ) ≤ (k : ℚ) / 2)) && (decide ((k : ℚ) / 2 < b + 1) ||
      (decide (b + 1 = dim) && decide ((k : ℚ) / 2 = b + 1)))) = decide (k / 2 = b) := by
  have e1 : (b : ℚ) ≤ (k : ℚ) / 2 ↔ 2 * b ≤ k := by
    rw [le_div_iff₀ (by norm_num)]
    constructor
    · intro h; have : ((b * 2 : ℕ) : ℚ) ≤ (k : ℚ) := by push_cast; exact h
      have := Nat.cast_le.1 this; omega
    · intro h; have : ((2 * b : ℕ) : ℚ) ≤ (k : ℚ) := Nat.cast_le.2 h
      push_cast at this; linarith
  have e2 : (k : ℚ) / 2 < b + 1 ↔ k < 2 * (b + 1) := by
    rw [div_lt_iff₀ (by norm_num)]
    constructor
    · intro h; have : (k : ℚ) < ((2 * (b + 1) : ℕ) : ℚ) := by push_cast; linarith
      exact Nat.cast_lt.1 this
    · intro h; have : (k : ℚ) < ((2 * (b + 1) : ℕ) : ℚ) := Nat.cast_lt.2 h
      push_cast at this; linarith
  have e3 : (k : ℚ) / 2 = b + 1 ↔ k = 2 * (b + 1) := by
    rw [div_eq_iff (by norm_num)]
    constructor
    · intro h; have : (k : ℚ) = ((2 * (b + 1) : ℕ) : ℚ) := by push_cast; linarith
      exact Nat.cast_inj.1 this
    · intro h; rw [h]; push_cast; ring
  rw [Bool.eq_iff_iff]
  simp only [Bool.and_eq_true, Bool.or_eq_true, decide_eq_true_eq, e1, e2, e3]
  omega

theorem votes_eq (dim : ℕ) (rows : List (List ℚ)) (hd : 1 ≤ dim) (hr : ∀ v ∈ rows, v.length = dim) :
    votes dim (rows.map (fun v => (rowPeak dim v : ℚ) / 2)) =
      (List.range dim).map (fun b => ((rows.countP (fun v => decide (rowPeak dim v / 2 = b)) : ℕ) : ℚ)) := by
  unfold votes
  apply List.map_congr_left
  intro b _
  congr 1
  rw [List.countP_map]
  apply List.countP_congr
  intro v hv
  simp only [Function.comp]
  rw [vote_at dim b (rowPeak dim v) (rowPeak_lt dim hd v (hr v hv))]

theorem countP_or_le {α : Type} (l : List α) (p q : α → Bool) (h : ∀ x ∈ l, p x = true → q x = false) :
    l.countP p + l.countP q ≤ l.length := by
  induction l with
  | nil => simp
  | cons x t ih =>
    have := ih (fun y hy => h y (by simp [hy]))
    rw [List.countP_cons, List.countP_cons, List.length_cons]
    by_cases hp : p x = true
    · have := h x (by simp) hp
      simp [hp, this]; omega
    · have hp' : p x = false := by simpa using hp
      have : (if q x = true then 1 else 0) ≤ 1 := by split <;> omega
      simp only [hp', Bool.false_eq_true, if_false]; omega

/-- If more than half of the rows have their best mirror position in pixel c, the axis is reported at c. -/
theorem mirrorAxis_majority (dim : ℕ) (rows : List (List ℚ)) (c : ℕ) (hc : c < dim)
    (hr : ∀ v ∈ rows, v.length = dim)
    (hm : rows.length < 2 * rows.countP (fun v => decide (rowPeak dim v / 2 = c))) : mirrorAxis dim rows = c := by
  unfold mirrorAxis
  rw [votes_eq dim rows (by omega) hr]
  apply argmax_unique _ _ _ hc
  intro b _ hb
  have := countP_or_le rows (fun v => decide (rowPeak dim v / 2 = c)) (fun v => decide (rowPeak dim v / 2 = b)) (by
    intro v _ h1
    simp only [decide_eq_true_eq, decide_eq_false_iff_not] at h1 ⊢
    rw [h1]; exact fun h => hb h.symm)
  exact_mod_cast (by omega :
    rows.countP (fun v => decide (rowPeak dim v / 2 = b)) < rows.countP (fun v => decide (rowPeak dim v / 2 = c)))

theorem mirrorAxis_lt (dim : ℕ) (rows : List (List ℚ)) (hd : 1 ≤ dim) : mirrorAxis dim rows < dim := by
  unfold mirrorAxis
  have := argmax_lt (votes dim (rows.map (fun v => (rowPeak dim v : ℚ) / 2))) (by
    intro e; have := congrArg List.length e; simp [votes] at this; omega)
  simpa [votes] using this

/-! ## Images -/

/-- A rectangular image of m rows and n columns. -/
def IsImage (m n : ℕ) (img : List (List ℚ)) : Prop := img.length = m ∧ ∀ row ∈ img, row.length = n

theorem headD_length {m n : ℕ} {img : List (List ℚ)} (h : IsImage m n img) (hm : 1 ≤ m) :
    (img.headD []).length = n := by
  obtain ⟨h1, h2⟩ := h
  cases img with
  | nil => simp at h1; omega
  | cons r t => exact h2 r (by simp)

theorem transpose_isImage {m n : ℕ} {img : List (List ℚ)} (h : IsImage m n img) : IsImage n m (transpose n img) := by
  refine ⟨by simp [transpose], ?_⟩
  intro row hrow
  obtain ⟨c, _, rfl⟩ := List.mem_map.1 hrow
  simp [h.1]

theorem transpose_transpose {m n : ℕ} {img : List (List ℚ)} (h : IsImage m n img) :
    transpose m (transpose n img) = img := by
  apply List.ext_getElem?
  intro r
  by_cases hr : r < m
  · have hr' : r < img.length := by rw [h.1]; exact hr
    unfold transpose
    rw [List.getElem?_map, List.getElem?_range hr, List.getElem?_eq_getElem hr']
    simp only [Option.map_some, Option.some.injEq]
    have hl : img[r].length = n := h.2 _ (List.getElem_mem hr')
    apply List.ext_getElem?
    intro c
    by_cases hc : c < n
    · rw [List.getElem?_map, List.getElem?_map, List.getElem?_range hc, List.getElem?_eq_getElem (by omega)]
      simp [hr', List.getElem?_eq_getElem (show c < img[r].length by omega)]
    · rw [List.getElem?_eq_none (by simpa using hc), List.getElem?_eq_none (by omega)]
  · rw [List.getElem?_eq_none (by simpa [transpose] using hr), List.getElem?_eq_none (by rw [h.1]; omega)]

/-- Pixel (r, c) of an image. -/
def pix (img : List (List ℚ)) (r c : ℕ) : ℚ := ((img[r]?).getD []).getD c 0

/-- C134, the part that holds.  For every image with at least one pixel: if more than half of the rows mirror best about
position j/2 (mean product of mirrored pixels), and more than half of the columns mirror best about i/2, the reported
centre is the pixel (i/2, j/2), for integer and half-integer centres alike.  Row and column data are read off the image
by pixel.  Missing: exact mirror symmetry alone is not enough, see `C134_ring_refuted` and `C134_peak_refuted`. -/
theorem C134_best_mirror_partial (m n : ℕ) (hm : 1 ≤ m) (hn : 1 ≤ n) (img : List (List ℚ)) (h : IsImage m n img)
    (i j : ℕ) (R C : Finset ℕ)
    (hR : ∀ r ∈ R, r < m ∧ Spec.BestMirror (fun c => pix img r c) n j) (hRm : m < 2 * R.card)
    (hC : ∀ c ∈ C, c < n ∧ Spec.BestMirror (fun r => pix img r c) m i) (hCm : n < 2 * C.card) :
    findRingCenter img = (i / 2, j / 2) := by
  have key : ∀ (m n : ℕ) (img : List (List ℚ)), IsImage m n img → ∀ j, ∀ R : Finset ℕ,
      (∀ r ∈ R, r < m ∧ Spec.BestMirror (rowFn ((img[r]?).getD [])) n j) → m < 2 * R.card →
      mirrorAxis n img = j / 2 := by
    intro m n img h j R hR hRm
    have hj : j < 2 * n - 1 := by
      obtain ⟨r, hr⟩ := card_pos.1 (show 0 < R.card by omega)
      exact (hR r hr).2.1
    apply mirrorAxis_majority n img (j / 2) (by omega) h.2
    have : R.card ≤ img.countP (fun v => decide (rowPeak n v / 2 = j / 2)) := by
      have hsub : R ⊆ (range m).filter (fun r => rowPeak n ((img[r]?).getD []) / 2 = j / 2) := by
        intro r hr
        obtain ⟨h1, h2⟩ := hR r hr
        rw [mem_filter, mem_range]
        refine ⟨h1, ?_⟩
        have hlen : ((img[r]?).getD []).length = n := by
          rw [List.getElem?_eq_getElem (by rw [h.1]; exact h1)]
          exact h.2 _ (List.getElem_mem _)
        rw [rowPeak_best n _ hlen j h2]
      refine le_trans (card_le_card hsub) ?_
      have hcount : ∀ (l : List (List ℚ)) (p : List ℚ → Prop) [DecidablePred p],
          ((range l.length).filter (fun r => p ((l[r]?).getD []))).card = l.countP (fun v => decide (p v)) := by
        intro l p _
        induction l using List.reverseRecOn with
        | nil => simp
        | append_singleton t x ih =>
          rw [List.length_append, List.length_singleton, range_add_one, filter_insert, List.countP_append, ← ih]
          have e : (range t.length).filter (fun r => p (((t ++ [x])[r]?).getD [])) =
              (range t.length).filter (fun r => p ((t[r]?).getD [])) := by
            apply filter_congr
            intro r hr
            rw [List.getElem?_append_left (mem_range.1 hr)]
          rw [e]
          have e2 : ((t ++ [x])[t.length]?).getD [] = x := by simp
          rw [e2]
          by_cases hp : p x
          · rw [if_pos hp, card_insert_of_notMem (by simp)]; simp [hp]
          · rw [if_neg hp]; simp [hp]
      rw [← h.1, hcount img (fun v => rowPeak n v / 2 = j / 2)]
    rw [h.1]; omega
  unfold findRingCenter
  simp only []
  rw [headD_length h hm, h.1]
  have hT := transpose_isImage h
  rw [key m n img h j R (fun r hr => hR r hr) hRm, key n m (transpose n img) hT i C ?_ hCm]
  intro c hc
  obtain ⟨h1, h2⟩ := hC c hc
  have e : rowFn (((transpose n img)[c]?).getD []) = fun r => pix img r c := by
    funext r
    unfold transpose rowFn pix
    rw [List.getElem?_map, List.getElem?_range h1]
    simp only [Option.map_some, Option.getD_some, List.getElem?_map]
    cases img[r]? <;> simp
  rw [e]
  exact ⟨h1, h2⟩

theorem mirrorScore_scale (k : ℚ) (v : ℕ → ℚ) (N j : ℕ) :
    Spec.mirrorScore (fun p => k * v p) N j = (k ^ 2) * Spec.mirrorScore v N j := by
  unfold Spec.mirrorScore
  rw [mul_div_assoc', mul_sum]
  congr 1
  apply sum_congr rfl
  intro p _; ring

theorem rowPeak_scale (k : ℚ) (hk : 0 < k) (N : ℕ) (v : List ℚ) (hv : v.length = N) :
    rowPeak N (v.map (k * ·)) = rowPeak N v := by
  rw [rowPeak_eq N v hv, rowPeak_eq N _ (by simpa using hv), ← argmax_scale (k ^ 2) (by positivity) (List.map (Spec.mirrorScore (rowFn v) N) _),
    List.map_map]
  congr 1
  apply List.map_congr_left
  intro j _
  have : rowFn (v.map (k * ·)) = fun p => k * rowFn v p := by
    funext p; unfold rowFn; rw [List.getElem?_map]; cases v[p]? <;> simp
  simp only [Function.comp]
  rw [this, mirrorScore_scale]

theorem mirrorAxis_scale (k : ℚ) (hk : 0 < k) (dim : ℕ) (rows : List (List ℚ)) (hr : ∀ v ∈ rows, v.length = dim) :
    mirrorAxis dim (rows.map (fun v => v.map (k * ·))) = mirrorAxis dim rows := by
  unfold mirrorAxis
  rw [List.map_map]
  congr 2
  apply List.map_congr_left
  intro v hv
  simp only [Function.comp]
  rw [rowPeak_scale k hk dim v (hr v hv)]

/-- C135: for every image with at least one pixel the reported centre is a pixel of the image; transposing the image
swaps the two coordinates; multiplying all pixels by a positive number does not move it. -/
theorem C135_center_in_image (m n : ℕ) (hm : 1 ≤ m) (hn : 1 ≤ n) (img : List (List ℚ)) (h : IsImage m n img) :
    (findRingCenter img).1 < m ∧ (findRingCenter img).2 < n ∧
    findRingCenter (transpose n img) = ((findRingCenter img).2, (findRingCenter img).1) ∧
    ∀ k : ℚ, 0 < k → findRingCenter (img.map (fun row => row.map (k * ·))) = findRingCenter img := by
  have hT := transpose_isImage h
  have e1 : findRingCenter img = (mirrorAxis m (transpose n img), mirrorAxis n img) := by
    unfold findRingCenter; simp only []; rw [headD_length h hm, h.1]
  have e2 : findRingCenter (transpose n img) = (mirrorAxis n img, mirrorAxis m (transpose n img)) := by
    unfold findRingCenter; simp only []; rw [headD_length hT hn, hT.1, transpose_transpose h]
  refine ⟨?_, ?_, ?_, ?_⟩
  · rw [e1]; exact mirrorAxis_lt m _ hm
  · rw [e1]; exact mirrorAxis_lt n _ hn
  · rw [e1, e2]
  · intro k hk
    have hk' : IsImage m n (img.map (fun row => row.map (k * ·))) := by
      refine ⟨by simpa using h.1, ?_⟩
      intro row hrow
      obtain ⟨r, hr, rfl⟩ := List.mem_map.1 hrow
      simpa using h.2 r hr
    have e3 : findRingCenter (img.map (fun row => row.map (k * ·))) =
        (mirrorAxis m (transpose n (img.map (fun row => row.map (k * ·)))),
          mirrorAxis n (img.map (fun row => row.map (k * ·)))) := by
      unfold findRingCenter; simp only []; rw [headD_length hk' hm, hk'.1]
    have e4 : transpose n (img.map (fun row => row.map (k * ·))) =
        (transpose n img).map (fun row => row.map (k * ·)) := by
      unfold transpose
      rw [List.map_map]
      apply List.map_congr_left
      intro c _
      simp only [Function.comp, List.map_map]
      apply List.map_congr_left
      intro row _
      simp only [Function.comp, List.getElem?_map]
      cases row[c]? <;> simp
    rw [e3, e1, e4, mirrorAxis_scale k hk m _ hT.2, mirrorAxis_scale k hk n _ h.2]

/-- Non-vacuity of `C134_best_mirror_partial`: all rows and columns of this image mirror best about pixel 1. -/
example : (∀ r ∈ ({0, 1, 2} : Finset ℕ), r < 3 ∧
      Spec.BestMirror (fun c => pix [[1, 5, 1], [5, 25, 5], [1, 5, 1]] r c) 3 2) ∧
    (∀ c ∈ ({0, 1, 2} : Finset ℕ), c < 3 ∧
      Spec.BestMirror (fun r => pix [[1, 5, 1], [5, 25, 5], [1, 5, 1]] r c) 3 2) ∧
    findRingCenter [[1, 5, 1], [5, 25, 5], [1, 5, 1]] = (1, 1) := by
  refine ⟨?_, ?_, by decide +kernel⟩ <;>
  · intro r hr
    simp only [mem_insert, mem_singleton] at hr
    refine ⟨by omega, by norm_num, ?_⟩
    intro k hk hk2
    rcases hr with rfl | rfl | rfl <;> interval_cases k <;> first | omega | decide +kernel

/-- C134 as documented fails: a 5 x 5 image that mirrors exactly in both directions about pixel (2, 2), a bright ring
around a dimmer middle, is reported centred on pixel (0, 0). -/
theorem C134_ring_refuted : ∃ img : List (List ℚ), IsImage 5 5 img ∧
    (∀ r, r < 5 → Spec.Symmetric (fun c => pix img r c) 5 4) ∧ (∀ c, c < 5 → Spec.Symmetric (fun r => pix img r c) 5 4) ∧
    findRingCenter img = (0, 0) := by
  refine ⟨[[3, 3, 3, 3, 3], [3, 1, 1, 1, 3], [3, 1, 1, 1, 3], [3, 1, 1, 1, 3], [3, 3, 3, 3, 3]], ?_, ?_, ?_, ?_⟩
  · refine ⟨rfl, ?_⟩; simp
  · intro r hr p q hp hq hpq
    obtain rfl : q = 4 - p := by omega
    interval_cases r <;> interval_cases p <;> decide +kernel
  · intro r hr p q hp hq hpq
    obtain rfl : q = 4 - p := by omega
    interval_cases r <;> interval_cases p <;> decide +kernel
  · decide +kernel

/-- C134 as documented fails even for a single smooth peak: a 3 x 3 image that mirrors exactly about its brightest pixel
(1, 1) is reported centred on pixel (0, 0). -/
theorem C134_peak_refuted : ∃ img : List (List ℚ), IsImage 3 3 img ∧
    (∀ r, r < 3 → Spec.Symmetric (fun c => pix img r c) 3 2) ∧ (∀ c, c < 3 → Spec.Symmetric (fun r => pix img r c) 3 2) ∧
    (∀ r c, r < 3 → c < 3 → (r, c) ≠ (1, 1) → pix img r c < pix img 1 1) ∧ findRingCenter img = (0, 0) := by
  refine ⟨[[10, 11, 10], [11, 12, 11], [10, 11, 10]], ?_, ?_, ?_, ?_, ?_⟩
  · refine ⟨rfl, ?_⟩; simp
  · intro r hr p q hp hq hpq
    obtain rfl : q = 2 - p := by omega
    interval_cases r <;> interval_cases p <;> decide +kernel
  · intro r hr p q hp hq hpq
    obtain rfl : q = 2 - p := by omega
    interval_cases r <;> interval_cases p <;> decide +kernel
  · intro r c hr hc hne
    interval_cases r <;> interval_cases c <;> first | (exact absurd rfl hne) | decide +kernel
  · decide +kernel

end Verif.Image
