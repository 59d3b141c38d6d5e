/- C219: the ring centre of integer images. -/
import Verif.Wrap.Model
import Verif.Image.RingProps

namespace Verif.Wrap
open Finset Verif

/-! ### Model -/

/-- `np.correlate(a, b, mode="full")[j]` for integer arrays: products and sums in the type of the image
(skbeam/core/image.py:100); as `Image.correlateFullAt`. -/
def correlateFullAtI (t : IntType) (a b : List ℤ) (N j : ℕ) : ℤ :=
  t.wrap ((List.range N).map (fun n => if N - 1 ≤ n + j ∧ n + j - (N - 1) < N
    then (a[n + j - (N - 1)]?).getD 0 * (b[n]?).getD 0 else 0)).sum

/-- image.py:96-100 for one row of an integer image; `m_ones` (97) and the division are floating point. -/
def rowPeakI (t : IntType) (N : ℕ) (v : List ℤ) : ℕ :=
  Image.argmax (List.zipWith (· / ·) ((List.range (2 * N - 1)).map (fun j => (correlateFullAtI t v v.reverse N j : ℚ)))
    (Image.correlateFull (List.replicate N 1) (List.replicate N 1) N))

/-- image.py:73, 76-101 for one axis. -/
def mirrorAxisI (t : IntType) (dim : ℕ) (rows : List (List ℤ)) : ℕ :=
  Image.argmax (Image.votes dim (rows.map (fun v => (rowPeakI t dim v : ℚ) / 2)))

/-- `input_image.T`. -/
def transposeI (ncols : ℕ) (img : List (List ℤ)) : List (List ℤ) :=
  (List.range ncols).map (fun c => img.map (fun row => (row[c]?).getD 0))

/-- `find_ring_center_acorr_1D`, skbeam/core/image.py:52-73, for an integer image of type `t`. -/
def findRingCenterI (t : IntType) (img : List (List ℤ)) : ℕ × ℕ :=
  let ncols := (img.headD []).length
  (mirrorAxisI t img.length (transposeI ncols img), mirrorAxisI t ncols img)

/-! ### Lemmas -/

/-- The values of an integer row as exact numbers. -/
def castRow (v : List ℤ) : List ℚ := v.map (fun z : ℤ => (z : ℚ))

/-- The exact sum. -/
def corrZ (a b : List ℤ) (N j : ℕ) : ℤ :=
  ((List.range N).map (fun n => if N - 1 ≤ n + j ∧ n + j - (N - 1) < N
    then (a[n + j - (N - 1)]?).getD 0 * (b[n]?).getD 0 else 0)).sum

theorem castRow_get (v : List ℤ) (i : ℕ) : ((castRow v)[i]?).getD 0 = (((v[i]?).getD 0 : ℤ) : ℚ) := by
  unfold castRow; rw [List.getElem?_map]; cases v[i]? <;> simp

theorem corrZ_cast (a b : List ℤ) (N j : ℕ) : Image.correlateFullAt (castRow a) (castRow b) N j = (corrZ a b N j : ℚ) := by
  unfold Image.correlateFullAt corrZ
  have : ∀ l : List ℕ, (l.map (fun n => if N - 1 ≤ n + j ∧ n + j - (N - 1) < N
      then ((castRow a)[n + j - (N - 1)]?).getD 0 * ((castRow b)[n]?).getD 0 else 0)).sum =
      (((l.map (fun n => if N - 1 ≤ n + j ∧ n + j - (N - 1) < N then (a[n + j - (N - 1)]?).getD 0 * (b[n]?).getD 0 else 0)).sum : ℤ) : ℚ) := by
    intro l
    induction l with
    | nil => simp
    | cons n l ih =>
      simp only [List.map_cons, List.sum_cons]
      rw [ih, castRow_get, castRow_get]
      split <;> push_cast <;> ring
  exact this _

theorem rowPeakI_exact (t : IntType) (N : ℕ) (v : List ℤ) (h : ∀ j < 2 * N - 1, t.Holds (corrZ v v.reverse N j)) :
    rowPeakI t N v = Image.rowPeak N (castRow v) := by
  unfold rowPeakI Image.rowPeak
  have hr : (castRow v).reverse = castRow v.reverse := by unfold castRow; rw [List.map_reverse]
  congr 2
  unfold Image.correlateFull
  apply List.map_congr_left
  intro j hj
  rw [hr, corrZ_cast]
  have := wrap_of_holds t _ (h j (List.mem_range.1 hj))
  have e : correlateFullAtI t v v.reverse N j = t.wrap (corrZ v v.reverse N j) := rfl
  rw [e, this]

theorem squares_cast (v : List ℤ) : ∑ p ∈ range v.length, Image.rowFn (castRow v) p ^ 2 = (((v.map (· ^ 2)).sum : ℤ) : ℚ) := by
  induction v with
  | nil => simp
  | cons a v ih =>
    rw [List.length_cons, sum_range_succ', List.map_cons, List.sum_cons, Int.cast_add, ← ih]
    have h0 : Image.rowFn (castRow (a :: v)) 0 = a := rfl
    have hs : ∀ p, Image.rowFn (castRow (a :: v)) (p + 1) = Image.rowFn (castRow v) p := fun p => rfl
    simp only [h0, hs]
    push_cast; ring

/-- Sums of products with the mirrored row are bounded by the sum of squares. -/
theorem corr_bound (v : ℕ → ℚ) (N j : ℕ) : |∑ p ∈ Image.Spec.overlap N j, v p * v (j - p)| ≤ ∑ p ∈ range N, v p ^ 2 := by
  have hsub : Image.Spec.overlap N j ⊆ range N := filter_subset _ _
  have h1 : ∑ p ∈ Image.Spec.overlap N j, v p ^ 2 ≤ ∑ p ∈ range N, v p ^ 2 :=
    sum_le_sum_of_subset_of_nonneg hsub (fun _ _ _ => sq_nonneg _)
  have h2 : ∑ p ∈ Image.Spec.overlap N j, v (j - p) ^ 2 ≤ ∑ p ∈ range N, v p ^ 2 := by
    have e : ∑ p ∈ Image.Spec.overlap N j, v (j - p) ^ 2 = ∑ p ∈ Image.Spec.overlap N j, v p ^ 2 := by
      refine sum_nbij' (fun p => j - p) (fun p => j - p) ?_ ?_ ?_ ?_ ?_
      · intro p hp; simp only [Image.Spec.overlap, mem_filter, mem_range] at hp ⊢; omega
      · intro p hp; simp only [Image.Spec.overlap, mem_filter, mem_range] at hp ⊢; omega
      · intro p hp; simp only [Image.Spec.overlap, mem_filter, mem_range] at hp; omega
      · intro p hp; simp only [Image.Spec.overlap, mem_filter, mem_range] at hp; omega
      · intro p hp; rfl
    rw [e]; exact h1
  have h3 : ∑ p ∈ Image.Spec.overlap N j, |v p * v (j - p)| ≤ ∑ p ∈ Image.Spec.overlap N j, (v p ^ 2 / 2 + v (j - p) ^ 2 / 2) := by
    apply sum_le_sum
    intro p _
    rw [abs_le]
    constructor
    · have := sq_nonneg (v p + v (j - p)); linarith
    · have := sq_nonneg (v p - v (j - p)); linarith
  rw [sum_add_distrib, ← sum_div, ← sum_div] at h3
  have h4 := abs_sum_le_sum_abs (fun p => v p * v (j - p)) (Image.Spec.overlap N j)
  linarith

theorem corrZ_holds (t : IntType) (v : List ℤ) (hv : ∀ z ∈ v, t.Holds z) (hs : (v.map (· ^ 2)).sum ≤ t.hi) (j : ℕ) :
    t.Holds (corrZ v v.reverse v.length j) := by
  have e := corrZ_cast v v.reverse v.length j
  have hr : castRow v.reverse = (castRow v).reverse := by unfold castRow; rw [List.map_reverse]
  rw [hr, Image.correlate_rev (castRow v) v.length j (by simp [castRow])] at e
  have hb := corr_bound (Image.rowFn (castRow v)) v.length j
  rw [e, squares_cast] at hb
  have hb' : |corrZ v v.reverse v.length j| ≤ (v.map (· ^ 2)).sum := by exact_mod_cast hb
  have hb2 := abs_le.1 hb'
  refine ⟨?_, by linarith⟩
  obtain ⟨s, b, pos⟩ := t
  cases s
  · have : (0 : ℚ) ≤ (corrZ v v.reverse v.length j : ℚ) := by
      rw [← e]
      apply sum_nonneg
      have hnn : ∀ p, 0 ≤ Image.rowFn (castRow v) p := by
        intro p
        unfold Image.rowFn
        rw [castRow_get]
        rcases hp : v[p]? with _ | z
        · simp
        · have := (hv z (List.mem_of_getElem? hp)).1
          simp only [IntType.lo] at this
          simpa using this
      intro p _
      exact mul_nonneg (hnn _) (hnn _)
    simp only [IntType.lo]
    exact_mod_cast this
  · simp only [IntType.lo, IntType.hi, if_true] at hs ⊢
    linarith [hb2.1]

/-- The integer image as exact numbers. -/
def castImg (img : List (List ℤ)) : List (List ℚ) := img.map castRow

theorem transpose_cast (n : ℕ) (img : List (List ℤ)) : castImg (transposeI n img) = Image.transpose n (castImg img) := by
  unfold castImg transposeI Image.transpose
  rw [List.map_map]
  apply List.map_congr_left
  intro c _
  simp only [Function.comp]
  unfold castRow
  rw [List.map_map, List.map_map]
  apply List.map_congr_left
  intro row _
  exact (castRow_get row c).symm

theorem mirrorAxisI_exact (t : IntType) (n : ℕ) (rows : List (List ℤ)) (hl : ∀ v ∈ rows, v.length = n) (hh : ∀ v ∈ rows, ∀ z ∈ v, t.Holds z)
    (hs : ∀ v ∈ rows, (v.map (· ^ 2)).sum ≤ t.hi) : mirrorAxisI t n rows = Image.mirrorAxis n (castImg rows) := by
  unfold mirrorAxisI Image.mirrorAxis castImg
  rw [List.map_map]
  congr 2
  apply List.map_congr_left
  intro v hv
  simp only [Function.comp]
  rw [rowPeakI_exact t n v]
  intro j _
  have := corrZ_holds t v (hh v hv) (hs v hv) j
  rwa [hl v hv] at this

/-! ## C219 -/

/-- Column c of an image given by its rows. -/
def Spec.column (img : List (List ℤ)) (c : ℕ) : List ℤ := img.map (fun row => (row[c]?).getD 0)

/-- C219, the part that holds.  For every integer type and every image of that type with at least one pixel: when the sum
of the squares of the pixels of every row and of every column fits into the type, the reported centre is the one for exact
numbers.  Missing: brighter images, see `C219_multiples_refuted`. -/
theorem C219_exact_partial (t : IntType) (m n : ℕ) (hm : 1 ≤ m) (img : List (List ℤ)) (hlen : img.length = m) (hrow : ∀ row ∈ img, row.length = n)
    (hh : ∀ row ∈ img, ∀ z ∈ row, t.lo ≤ z ∧ z ≤ t.hi)
    (hr : ∀ row ∈ img, (row.map (· ^ 2)).sum ≤ t.hi) (hc : ∀ c < n, ((Spec.column img c).map (· ^ 2)).sum ≤ t.hi) :
    findRingCenterI t img = Image.findRingCenter (img.map (fun row => row.map (fun z : ℤ => (z : ℚ)))) := by
  have hhead : (img.headD []).length = n := by
    cases img with
    | nil => simp at hlen; omega
    | cons r _ => exact hrow r (by simp)
  have e : img.map (fun row => row.map (fun z : ℤ => (z : ℚ))) = castImg img := rfl
  have hhead' : ((castImg img).headD []).length = n := by
    cases img with
    | nil => simp at hlen; omega
    | cons r _ => simp [castImg, castRow, hrow r (by simp)]
  rw [e]
  unfold findRingCenterI Image.findRingCenter
  simp only
  rw [hhead, hhead', show (castImg img).length = m by simp [castImg, hlen], hlen,
    mirrorAxisI_exact t n img hrow hh hr, mirrorAxisI_exact t m (transposeI n img), transpose_cast]
  · intro v hv
    obtain ⟨c, _, rfl⟩ := List.mem_map.1 hv
    simpa using hlen
  · intro v hv z hz
    obtain ⟨c, hcn, rfl⟩ := List.mem_map.1 hv
    obtain ⟨row, hrow', rfl⟩ := List.mem_map.1 hz
    have hl := hrow row hrow'
    have : c < row.length := by rw [hl]; exact List.mem_range.1 hcn
    rw [List.getElem?_eq_getElem this]
    exact hh row hrow' _ (List.getElem_mem _)
  · intro v hv
    obtain ⟨c, hcn, rfl⟩ := List.mem_map.1 hv
    exact hc c (List.mem_range.1 hcn)

theorem argmax_const (f : ℕ → ℚ) (n : ℕ) (h : ∀ j, 1 ≤ j → j < n → f j ≤ f 0) : Image.argmax ((List.range n).map f) = 0 := by
  cases n with
  | zero => rfl
  | succ n =>
    rw [List.range_succ_eq_map, List.map_cons]
    rcases Image.argmaxGo_spec ((List.map Nat.succ (List.range n)).map f) 0 (f 0) 1 (by omega) with ⟨h1, _⟩ | ⟨_, m, h2, h3, _⟩
    · exact h1
    · exfalso
      have hm := List.mem_of_getElem? h2
      rw [List.map_map] at hm
      obtain ⟨j, hj, rfl⟩ := List.mem_map.1 hm
      have := h (j + 1) (by omega) (by have := List.mem_range.1 hj; omega)
      simp only [Function.comp] at h3
      exact absurd this (not_le.2 h3)

theorem rowPeakI_zero (t : IntType) (N : ℕ) (v : List ℤ) (k : ℤ) (hk : (2 : ℤ) ^ t.bits ∣ k ^ 2) (h0 : t.lo ≤ 0 ∧ 0 ≤ t.hi)
    (hv : ∀ z ∈ v, k ∣ z) : rowPeakI t N v = 0 := by
  have hz : ∀ j, correlateFullAtI t v v.reverse N j = 0 := by
    intro j
    have hget : ∀ (l : List ℤ), (∀ z ∈ l, k ∣ z) → ∀ i : ℕ, k ∣ (l[i]?).getD 0 := by
      intro l hl i
      rcases hi : l[i]? with _ | z
      · simp
      · simpa using hl z (List.mem_of_getElem? hi)
    have hd : (2 : ℤ) ^ t.bits ∣ corrZ v v.reverse N j := by
      unfold corrZ
      apply List.dvd_sum
      intro x hx
      obtain ⟨n, _, rfl⟩ := List.mem_map.1 hx
      split
      · refine dvd_trans hk ?_
        rw [pow_two]
        exact mul_dvd_mul (hget v hv _) (hget v.reverse (fun z hz => hv z (List.mem_reverse.1 hz)) _)
      · exact dvd_zero _
    show t.wrap (corrZ v v.reverse N j) = 0
    rw [wrap_iff]
    exact ⟨h0, (Int.modEq_zero_iff_dvd.2 hd).symm⟩
  unfold rowPeakI Image.correlateFull
  simp only [hz]
  rw [List.zipWith_map, List.zipWith_self]
  apply argmax_const
  intro j _ _
  simp

theorem mirrorAxisI_zero (t : IntType) (N : ℕ) (rows : List (List ℤ)) (k : ℤ) (hk : (2 : ℤ) ^ t.bits ∣ k ^ 2) (h0 : t.lo ≤ 0 ∧ 0 ≤ t.hi)
    (hv : ∀ v ∈ rows, ∀ z ∈ v, k ∣ z) : mirrorAxisI t N rows = 0 := by
  unfold mirrorAxisI
  have e : rows.map (fun v => (rowPeakI t N v : ℚ) / 2) = List.replicate rows.length 0 := by
    apply List.eq_replicate_iff.2
    refine ⟨by simp, ?_⟩
    intro b hb
    obtain ⟨v, hv', rfl⟩ := List.mem_map.1 hb
    rw [rowPeakI_zero t N v k hk h0 (hv v hv')]; simp
  rw [e]
  unfold Image.votes
  apply argmax_const
  intro j hj _
  have : ((List.replicate rows.length (0 : ℚ)).countP (fun e => decide ((j : ℚ) ≤ e) &&
      (decide (e < j + 1) || (decide (j + 1 = N) && decide (e = j + 1))))) = 0 := by
    rw [List.countP_eq_zero]
    intro a ha
    have ha0 : a = 0 := (List.mem_replicate.1 ha).2
    subst ha0
    have : ¬ ((j : ℚ) ≤ 0) := by
      have : (1 : ℚ) ≤ j := by exact_mod_cast hj
      linarith
    simp [this]
  rw [this]
  positivity

/-- C219 is false: for every integer type, whatever the image shows and wherever its centre is, if all pixels are multiples
of a number whose square is a multiple of 2^bits (16 for 8-bit images, 256 for 16-bit images) the reported centre is (0, 0). -/
theorem C219_multiples_refuted (t : IntType) (k : ℤ) (hk : (2 : ℤ) ^ t.bits ∣ k ^ 2) (img : List (List ℤ)) (hv : ∀ row ∈ img, ∀ z ∈ row, k ∣ z) :
    findRingCenterI t img = (0, 0) := by
  have h0 : t.lo ≤ 0 ∧ 0 ≤ t.hi := by
    have hp : (1 : ℤ) ≤ 2 ^ (t.bits - 1) := one_le_pow₀ (by norm_num)
    have hp2 : (1 : ℤ) ≤ 2 ^ t.bits := one_le_pow₀ (by norm_num)
    unfold IntType.lo IntType.hi
    constructor <;> split <;> linarith
  unfold findRingCenterI
  simp only
  rw [mirrorAxisI_zero t _ _ k hk h0 hv, mirrorAxisI_zero t _ _ k hk h0]
  intro v hv' z hz
  obtain ⟨c, _, rfl⟩ := List.mem_map.1 hv'
  obtain ⟨row, hr, rfl⟩ := List.mem_map.1 hz
  rcases hi : row[c]? with _ | z
  · simp
  · simpa using hv row hr z (List.mem_of_getElem? hi)

/-- The same image, centred at (1, 1): found with exact numbers, reported at (0, 0) for an 8-bit image. -/
theorem C219_center_refuted :
    Image.findRingCenter [[16, 64, 16], [64, 128, 64], [16, 64, 16]] = (1, 1) ∧
    findRingCenterI (uint 8) [[16, 64, 16], [64, 128, 64], [16, 64, 16]] = (0, 0) ∧
    findRingCenterI (uint 16) [[16, 64, 16], [64, 128, 64], [16, 64, 16]] = (1, 1) := by
  refine ⟨by decide +kernel, C219_multiples_refuted (uint 8) 16 (by decide) _ (by decide), by decide +kernel⟩

-- the hypotheses of C219_exact_partial, for 8-bit pixels
example : ∀ row ∈ [[1, 4, 1], [4, 8, 4], [1, 4, 1]], ((row.map (· ^ 2)).sum : ℤ) ≤ (uint 8).hi := by decide
example : findRingCenterI (uint 8) [[1, 4, 1], [4, 8, 4], [1, 4, 1]] = (1, 1) := by decide +kernel

end Verif.Wrap
