/- Properties C71, C73, C117-C120: ranges, least squares, per-pixel fits, areas. -/
import Verif.Xrf.Fit
import Verif.Xrf.Props
import Verif.Line.Props
import Mathlib.Analysis.InnerProductSpace.Projection.Minimal
import Mathlib.Analysis.InnerProductSpace.PiL2
import Mathlib.Tactic.Linarith

namespace Verif.Xrf
open Verif Finset

/-! ## C71 per-pixel fits -/

/-- All tasks succeed: for every schedule that finishes every task (in any order, any number of workers, repeats allowed)
the results come in the order of the rows. -/
theorem finish_at {ι α : Type} (task : ι → Py α) (rows : List ι) (n : ℕ) (r : ι) (hr : rows[n]? = some r) (p : Pool α) (b : ℕ) :
    finish task rows p b n = if n = b then some (task r) else p n := by
  unfold finish
  by_cases h : n = b
  · rw [← h, hr]
  · rw [if_neg h]
    cases rows[b]? with
    | none => rfl
    | some r' => simp [h]

theorem collect_ok {ι α : Type} (task : ι → Py α) (rows : List ι) (schedule : List ℕ) (hall : ∀ n < rows.length, n ∈ schedule) (n : ℕ) (r : ι) (hr : rows[n]? = some r) :
    schedule.foldl (finish task rows) (fun _ => none) n = some (task r) := by
  have gen2 : ∀ (l : List ℕ) (p : Pool α), l.foldl (finish task rows) p n = if n ∈ l then some (task r) else p n := by
    intro l
    induction l with
    | nil => intro p; simp
    | cons b l ihl =>
      intro p
      rw [List.foldl_cons, ihl, finish_at task rows n r hr]
      by_cases h1 : n ∈ l <;> by_cases h2 : n = b <;> simp [h1, h2]
  rw [gen2, if_pos]
  apply hall
  by_contra hlt
  rw [List.getElem?_eq_none (by omega)] at hr
  cases hr

/-- What sequential processing gives: the first failure, or all results in order. -/
def Spec.inOrder {ι α : Type} (task : ι → Py α) : List ι → Py (List α)
  | [] => .ok []
  | r :: rest => match task r with
    | .error e => .error e
    | .ok v => match Spec.inOrder task rest with
      | .error e => .error e
      | .ok vs => .ok (v :: vs)

theorem collect_range {ι α : Type} (task : ι → Py α) (rows : List ι) (p : Pool α) (k : ℕ)
    (h : ∀ n r, rows[n]? = some r → p (k + n) = some (task r)) :
    collect p ((List.range rows.length).map (k + ·)) = some (Spec.inOrder task rows) := by
  induction rows generalizing k with
  | nil => rfl
  | cons r rest ih =>
    have h0 : p k = some (task r) := by simpa using h 0 r rfl
    have hrest := ih (k + 1) (fun n r' hr => by have := h (n + 1) r' (by simpa using hr); rw [show k + 1 + n = k + (n + 1) by omega]; exact this)
    rw [List.length_cons, List.range_succ_eq_map, List.map_cons, List.map_map, Nat.add_zero]
    rw [collect, h0]
    have e : (List.range rest.length).map ((k + ·) ∘ Nat.succ) = (List.range rest.length).map (k + 1 + ·) := by
      apply List.map_congr_left
      intro a _
      simp only [Function.comp]
      omega
    rw [e, hrest]
    unfold Spec.inOrder
    cases task r with
    | error e => rfl
    | ok v =>
      cases hh : Spec.inOrder task rest with
      | error e => rw [Spec.inOrder.eq_def] at hh; simp only [hh]
      | ok vs => rw [Spec.inOrder.eq_def] at hh; simp only [hh]

/-- Whatever order the pixels finish in, if all of them finish, the collected results are those of fitting one row after the other.
Missing: fitting without background removal, see `C71_no_snip_refuted`. -/
theorem C71_schedule_partial {ι α : Type} (task : ι → Py α) (rows : List ι) (schedule : List ℕ) (hall : ∀ n < rows.length, n ∈ schedule) :
    fitPixels task rows schedule = some (Spec.inOrder task rows) := by
  unfold fitPixels
  have := collect_range task rows (schedule.foldl (finish task rows) (fun _ => none)) 0 (fun n r hr => by
    rw [Nat.zero_add]; exact collect_ok task rows schedule hall n r hr)
  simpa using this

theorem inOrder_ok {ι α : Type} (task : ι → Py α) (g : ι → α) (rows : List ι) (h : ∀ r ∈ rows, task r = .ok (g r)) : Spec.inOrder task rows = .ok (rows.map g) := by
  induction rows with
  | nil => rfl
  | cons r rest ih =>
    rw [Spec.inOrder, h r (by simp)]
    simp only
    rw [ih (fun r' h' => h r' (by simp [h']))]
    rfl

/-- With background removal: one result per pixel, at the pixel's place, each a function of that pixel's spectrum only,
for every schedule. -/
theorem C71_snip_partial (nnls : Nnls) (snip : (ℕ → ℝ) → ℕ → ℝ) (m k : ℕ) (A : ℕ → ℕ → ℝ) :
    ∃ g : (ℕ → ℝ) → PixelFit, ∀ (rows : List (List (ℕ → ℝ))) (schedule : List ℕ), (∀ n < rows.length, n ∈ schedule) →
      fitPixels (fitRow nnls snip m k A true) rows schedule = some (.ok (rows.map (fun row => row.map g))) := by
  classical
  refine ⟨fun y => ⟨(nnlsFit nnls m k (fun i => y i - snip y i) A none).1, ∑ i ∈ range m, snip y i,
    if ∑ i ∈ range m, (y i - (∑ i ∈ range m, y i) / m) ^ 2 = 0 then none else
      some (1 - (nnlsFit nnls m k (fun i => y i - snip y i) A none).2 / ∑ i ∈ range m, (y i - (∑ i ∈ range m, y i) / m) ^ 2)⟩, ?_⟩
  intro rows schedule hall
  rw [C71_schedule_partial _ rows schedule hall]
  rw [inOrder_ok _ _ rows]
  have gen : ∀ row : List (ℕ → ℝ), fitRow nnls snip m k A true row = .ok (row.map (fun y => ⟨(nnlsFit nnls m k (fun i => y i - snip y i) A none).1, ∑ i ∈ range m, snip y i,
    if ∑ i ∈ range m, (y i - (∑ i ∈ range m, y i) / m) ^ 2 = 0 then none else
      some (1 - (nnlsFit nnls m k (fun i => y i - snip y i) A none).2 / ∑ i ∈ range m, (y i - (∑ i ∈ range m, y i) / m) ^ 2)⟩)) := by
    intro row
    induction row with
    | nil => rfl
    | cons y rest ih =>
      rw [fitRow, if_pos rfl, ih, List.map_cons]
      simp only [bind, Except.bind]
  intro row _
  exact gen row

/-- Without background removal, the default, any row with a pixel makes the call fail with UnboundLocalError. -/
theorem C71_no_snip_refuted (nnls : Nnls) (snip : (ℕ → ℝ) → ℕ → ℝ) (m k : ℕ) (A : ℕ → ℕ → ℝ) (y : ℕ → ℝ) (row : List (ℕ → ℝ)) (rows : List (List (ℕ → ℝ))) (schedule : List ℕ)
    (hall : ∀ n < ((y :: row) :: rows).length, n ∈ schedule) :
    fitPixels (fitRow nnls snip m k A false) ((y :: row) :: rows) schedule = some (.error .unboundLocal) := by
  rw [C71_schedule_partial _ _ schedule hall, Spec.inOrder, fitRow]
  rfl

example : fitPixels (fun r : ℕ => (.ok (r * r) : Py ℕ)) [3, 4, 5] [2, 0, 2, 1] = some (.ok [9, 16, 25]) := by decide +kernel
example : fitPixels (fun r : ℕ => if r = 4 then (.error .valueError : Py ℕ) else .ok r) [3, 4, 5] [2, 0, 1] = some (.error .valueError) := by decide +kernel

/-! ## C73 trim and define_range -/

/-- trim keeps exactly the points in the closed interval, in order, x and y aligned. -/
theorem C73_trim {α : Type} (x : List ℚ) (y : List α) (low high : ℚ) (hl : x.length = y.length) :
    ∃ xs ys, trim x y low high = .ok (xs, ys) ∧ xs.length = ys.length ∧ xs.zip ys = (x.zip y).filter (fun p => decide (low ≤ p.1 ∧ p.1 ≤ high)) ∧
      xs = x.filter (fun q => decide (low ≤ q ∧ q ≤ high)) := by
  unfold trim
  rw [if_neg (by simpa using hl)]
  refine ⟨_, _, rfl, by simp, ?_, ?_⟩
  · rw [List.zip_map', List.map_congr_left (g := id) (by rintro ⟨a, b⟩ _; rfl), List.map_id]
  · clear * - hl
    induction x generalizing y with
    | nil => rfl
    | cons a x ih =>
      cases y with
      | nil => simp at hl
      | cons b y =>
        have := ih y (by simpa using hl)
        simp only [List.zip_cons_cons, List.filter_cons]
        split_ifs
        · rw [List.map_cons, this]
        · exact this

theorem roundEven_le (q : ℚ) (n : ℤ) (h : q ≤ n) : roundEven q ≤ n := by
  unfold roundEven
  have h1 : (⌊q⌋ : ℚ) ≤ q := Int.floor_le q
  have h2 : ⌊q⌋ ≤ n := by exact_mod_cast le_trans h1 h
  split_ifs with h3 h4 h5
  · exact h2
  · have : (⌊q⌋ : ℚ) < n := by linarith
    have : ⌊q⌋ < n := by exact_mod_cast this
    omega
  · exact h2
  · have : (⌊q⌋ : ℚ) < n := by push Not at h3; linarith
    have : ⌊q⌋ < n := by exact_mod_cast this
    omega

theorem le_roundEven (q : ℚ) (n : ℤ) (h : (n : ℚ) ≤ q) : n ≤ roundEven q := by
  have h2 : n ≤ ⌊q⌋ := Int.le_floor.2 h
  unfold roundEven
  split_ifs <;> omega

theorem roundEven_near (q : ℚ) : (roundEven q : ℚ) - q ≤ 1 / 2 ∧ q - roundEven q ≤ 1 / 2 := by
  unfold roundEven
  have h1 : (⌊q⌋ : ℚ) ≤ q := Int.floor_le q
  have h2 : q < ⌊q⌋ + 1 := Int.lt_floor_add_one q
  split_ifs with h3 h4 h5
  · constructor <;> linarith
  · push_cast; constructor <;> linarith
  · push Not at h3 h4; constructor <;> linarith
  · push Not at h3 h4; push_cast; constructor <;> linarith

/-- define_range with a positive slope returns channels in increasing order with their data; it keeps every channel whose
energy a0 + a1*channel lies in [low, high], and only channels whose energy lies there to half a channel. -/
theorem C73_define_range {α : Type} (data : List α) (low high a0 a1 : ℚ) (ha : 0 < a1) :
    ∃ xs ys, defineRange data low high a0 a1 = .ok (xs, ys) ∧ xs.length = ys.length ∧ xs.Pairwise (· < ·) ∧
      (∀ p ∈ xs.zip ys, ∃ ch : ℕ, p.1 = ch ∧ data[ch]? = some p.2 ∧ low - a1 / 2 ≤ a0 + a1 * ch ∧ a0 + a1 * ch ≤ high + a1 / 2) ∧
      (∀ ch < data.length, low ≤ a0 + a1 * (ch : ℚ) → a0 + a1 * (ch : ℚ) ≤ high → (ch : ℚ) ∈ xs) := by
  unfold defineRange
  rw [if_neg ha.ne']
  obtain ⟨xs, ys, h1, h2, h3, h4⟩ := C73_trim ((List.range data.length).map (fun (k : ℕ) => (k : ℚ))) data (roundEven ((low - a0) / a1)) (roundEven ((high - a0) / a1)) (by simp)
  refine ⟨xs, ys, h1, h2, ?_, ?_, ?_⟩
  · rw [h4]
    apply List.Pairwise.filter
    rw [List.pairwise_map]
    exact List.pairwise_lt_range.imp (fun h => by exact_mod_cast h)
  · intro p hp
    rw [h3] at hp
    obtain ⟨hp1, hp2⟩ := List.mem_filter.1 hp
    obtain ⟨i, hi⟩ := List.mem_iff_getElem?.1 hp1
    rw [List.getElem?_zip_eq_some] at hi
    obtain ⟨hi1, hi2⟩ := hi
    rw [List.getElem?_map] at hi1
    have hlt : i < data.length := by
      by_contra hc
      rw [List.getElem?_eq_none (by omega)] at hi2
      cases hi2
    rw [List.getElem?_range hlt] at hi1
    have e1 : p.1 = i := by injection hi1 with h; exact h.symm
    refine ⟨i, e1, hi2, ?_, ?_⟩
    · have h5 : ((roundEven ((low - a0) / a1) : ℤ) : ℚ) ≤ i := by rw [← e1]; exact (of_decide_eq_true hp2).1
      have h6 := (roundEven_near ((low - a0) / a1)).2
      have h7 : (low - a0) / a1 ≤ i + 1 / 2 := by linarith
      rw [div_le_iff₀ ha] at h7
      linarith
    · have h5 : (i : ℚ) ≤ ((roundEven ((high - a0) / a1) : ℤ) : ℚ) := by rw [← e1]; exact (of_decide_eq_true hp2).2
      have h6 := (roundEven_near ((high - a0) / a1)).1
      have h7 : (i : ℚ) - 1 / 2 ≤ (high - a0) / a1 := by linarith
      rw [le_div_iff₀ ha] at h7
      linarith
  · intro ch hch hlo hhi
    rw [h4, List.mem_filter]
    refine ⟨List.mem_map.2 ⟨ch, List.mem_range.2 hch, rfl⟩, ?_⟩
    apply decide_eq_true
    constructor
    · have : roundEven ((low - a0) / a1) ≤ (ch : ℤ) := roundEven_le _ _ (by rw [div_le_iff₀ ha]; push_cast; linarith)
      exact_mod_cast this
    · have : (ch : ℤ) ≤ roundEven ((high - a0) / a1) := le_roundEven _ _ (by rw [le_div_iff₀ ha]; push_cast; linarith)
      exact_mod_cast this

example : defineRange [10, 11, 12, 13, 14] (1 : ℚ) 3 0 1 = .ok ([1, 2, 3], [11, 12, 13]) := by decide +kernel

/-! ## C117 weighted least squares -/

/-- Sum of weighted squared residuals. -/
noncomputable def Spec.cost (m k : ℕ) (w : ℕ → ℝ) (A : ℕ → ℕ → ℝ) (b x : ℕ → ℝ) : ℝ := ∑ i ∈ range m, w i * (∑ j ∈ range k, A i j * x j - b i) ^ 2

/-- scipy's nnls: a non-negative minimiser of the squared residuals and their root. -/
def Spec.IsNnls (nnls : Nnls) : Prop := ∀ m k A b,
  (∀ j < k, 0 ≤ (nnls m k A b).1 j) ∧ (∀ z : ℕ → ℝ, (∀ j < k, 0 ≤ z j) → Spec.cost m k (fun _ => 1) A b (nnls m k A b).1 ≤ Spec.cost m k (fun _ => 1) A b z) ∧
  (nnls m k A b).2 = √(Spec.cost m k (fun _ => 1) A b (nnls m k A b).1)

/-- The best coefficients without sign constraint, supported on S. -/
theorem exists_lsq (m : ℕ) (A : ℕ → ℕ → ℝ) (b : ℕ → ℝ) (k : ℕ) (S : Finset ℕ) :
    ∃ z : ℕ → ℝ, (∀ j ∉ S, z j = 0) ∧ ∀ x : ℕ → ℝ, (∀ j ∉ S, x j = 0) → Spec.cost m k (fun _ => 1) A b z ≤ Spec.cost m k (fun _ => 1) A b x := by
  classical
  let emb : (S → ℝ) →ₗ[ℝ] (ℕ → ℝ) :=
    { toFun := fun x j => if h : j ∈ S then x ⟨j, h⟩ else 0
      map_add' := by
        intro x y
        ext j
        by_cases h : j ∈ S <;> simp [h]
      map_smul' := by
        intro c x
        ext j
        by_cases h : j ∈ S <;> simp [h] }
  let F : (S → ℝ) →ₗ[ℝ] EuclideanSpace ℝ (Fin m) :=
    { toFun := fun x => WithLp.toLp 2 (fun i : Fin m => ∑ j ∈ range k, A i j * emb x j)
      map_add' := by
        intro x y
        ext i
        rw [map_add]
        show ∑ j ∈ range k, A i j * (emb x j + emb y j) = ∑ j ∈ range k, A i j * emb x j + ∑ j ∈ range k, A i j * emb y j
        rw [← sum_add_distrib]
        exact sum_congr rfl (fun j _ => by ring)
      map_smul' := by
        intro c x
        ext i
        rw [map_smul]
        show ∑ j ∈ range k, A i j * (c * emb x j) = c * ∑ j ∈ range k, A i j * emb x j
        rw [mul_sum]
        exact sum_congr rfl (fun j _ => by ring) }
  let K : Submodule ℝ (EuclideanSpace ℝ (Fin m)) := LinearMap.range F
  let bb : EuclideanSpace ℝ (Fin m) := WithLp.toLp 2 (fun i : Fin m => b i)
  obtain ⟨v, hv, hmin⟩ := K.exists_norm_eq_iInf_of_complete_subspace (Submodule.complete_of_finiteDimensional K) bb
  obtain ⟨z, rfl⟩ := hv
  have hcost : ∀ x : S → ℝ, Spec.cost m k (fun _ => 1) A b (emb x) = ‖bb - F x‖ ^ 2 := by
    intro x
    rw [EuclideanSpace.norm_eq, Real.sq_sqrt (sum_nonneg (fun i _ => sq_nonneg _))]
    unfold Spec.cost
    rw [Finset.sum_range]
    apply sum_congr rfl
    intro i _
    simp only [F, bb, PiLp.sub_apply, LinearMap.coe_mk, AddHom.coe_mk, one_mul, Real.norm_eq_abs, sq_abs]
    ring
  refine ⟨emb z, fun j hj => by simp [emb, hj], fun x hx => ?_⟩
  have hxe : x = emb (fun j => x j) := by
    ext j
    by_cases h : j ∈ S
    · simp [emb, h]
    · simp [emb, h, hx j h]
  rw [hxe, hcost, hcost]
  apply pow_le_pow_left₀ (norm_nonneg _)
  rw [hmin]
  exact ciInf_le ⟨0, by rintro _ ⟨w, rfl⟩; exact norm_nonneg _⟩ (⟨F (fun j => x j), LinearMap.mem_range_self F _⟩ : K)

/-- The cost is convex. -/
theorem cost_convex (m k : ℕ) (A : ℕ → ℕ → ℝ) (b x z : ℕ → ℝ) (t : ℝ) (h0 : 0 ≤ t) (h1 : t ≤ 1) :
    Spec.cost m k (fun _ => 1) A b (fun j => (1 - t) * x j + t * z j) ≤ (1 - t) * Spec.cost m k (fun _ => 1) A b x + t * Spec.cost m k (fun _ => 1) A b z := by
  unfold Spec.cost
  rw [mul_sum, mul_sum, ← sum_add_distrib]
  apply sum_le_sum
  intro i _
  have : ∑ j ∈ range k, A i j * ((1 - t) * x j + t * z j) = (1 - t) * ∑ j ∈ range k, A i j * x j + t * ∑ j ∈ range k, A i j * z j := by
    rw [mul_sum, mul_sum, ← sum_add_distrib]
    exact sum_congr rfl (fun j _ => by ring)
  rw [this]
  generalize ∑ j ∈ range k, A i j * x j = p
  generalize ∑ j ∈ range k, A i j * z j = q
  nlinarith [mul_nonneg (mul_nonneg h0 (sub_nonneg.2 h1)) (sq_nonneg (p - q))]

/-- A non-negative least-squares solution supported on S exists. -/
theorem exists_nnls_on (m : ℕ) (A : ℕ → ℕ → ℝ) (b : ℕ → ℝ) (k : ℕ) (S : Finset ℕ) :
    ∃ z : ℕ → ℝ, (∀ j, 0 ≤ z j) ∧ (∀ j ∉ S, z j = 0) ∧ ∀ x : ℕ → ℝ, (∀ j, 0 ≤ x j) → (∀ j ∉ S, x j = 0) → Spec.cost m k (fun _ => 1) A b z ≤ Spec.cost m k (fun _ => 1) A b x := by
  classical
  induction S using Finset.strongInduction with
  | H S ih =>
    obtain ⟨z, hz, hmin⟩ := exists_lsq m A b k S
    by_cases hpos : ∀ j, 0 ≤ z j
    · exact ⟨z, hpos, hz, fun x _ hx => hmin x hx⟩
    · -- faces
      push Not at hpos
      obtain ⟨j0, hj0⟩ := hpos
      have hj0S : j0 ∈ S := by by_contra h; rw [hz j0 h] at hj0; exact lt_irrefl _ hj0
      have face : ∀ j ∈ S, ∃ y : ℕ → ℝ, (∀ i, 0 ≤ y i) ∧ (∀ i ∉ S.erase j, y i = 0) ∧ ∀ x : ℕ → ℝ, (∀ i, 0 ≤ x i) → (∀ i ∉ S.erase j, x i = 0) → Spec.cost m k (fun _ => 1) A b y ≤ Spec.cost m k (fun _ => 1) A b x :=
        fun j hj => ih (S.erase j) (Finset.erase_ssubset hj)
      choose! y hy1 hy2 hy3 using face
      obtain ⟨jb, hjb, hbest⟩ := Finset.exists_min_image S (fun j => Spec.cost m k (fun _ => 1) A b (y j)) ⟨j0, hj0S⟩
      refine ⟨y jb, hy1 jb hjb, fun j hj => hy2 jb hjb j (fun h => hj (Finset.mem_of_mem_erase h)), fun x hx0 hxS => ?_⟩
      -- move from x towards z until the first coordinate vanishes
      obtain ⟨jt, hjt, htmin⟩ := Finset.exists_min_image (S.filter (fun j => z j < 0)) (fun j => x j / (x j - z j)) ⟨j0, by simp [hj0S, hj0]⟩
      obtain ⟨hjtS, hjtn⟩ := Finset.mem_filter.1 hjt
      have hden : 0 < x jt - z jt := by have := hx0 jt; linarith
      set t := x jt / (x jt - z jt) with ht
      have ht0 : 0 ≤ t := div_nonneg (hx0 jt) hden.le
      have ht1 : t ≤ 1 := by rw [ht, div_le_one hden]; linarith
      let w : ℕ → ℝ := fun j => (1 - t) * x j + t * z j
      have hw0 : ∀ j, 0 ≤ w j := by
        intro j
        by_cases hj : z j < 0
        · have hjS : j ∈ S := by by_contra h; rw [hz j h] at hj; exact lt_irrefl _ hj
          have h1 := htmin j (Finset.mem_filter.2 ⟨hjS, hj⟩)
          have hd : 0 < x j - z j := by have := hx0 j; linarith
          rw [le_div_iff₀ hd] at h1
          show 0 ≤ (1 - t) * x j + t * z j
          linarith
        · push Not at hj
          exact add_nonneg (mul_nonneg (by linarith) (hx0 j)) (mul_nonneg ht0 hj)
      have hwt : w jt = 0 := by
        show (1 - t) * x jt + t * z jt = 0
        have : t * (x jt - z jt) = x jt := by rw [ht, div_mul_cancel₀ _ hden.ne']
        linarith
      have hwS : ∀ i ∉ S.erase jt, w i = 0 := by
        intro i hi
        by_cases h : i = jt
        · rw [h, hwt]
        · have : i ∉ S := fun h' => hi (Finset.mem_erase.2 ⟨h, h'⟩)
          show (1 - t) * x i + t * z i = 0
          rw [hxS i this, hz i this]; ring
      calc Spec.cost m k (fun _ => 1) A b (y jb) ≤ Spec.cost m k (fun _ => 1) A b (y jt) := hbest jt hjtS
        _ ≤ Spec.cost m k (fun _ => 1) A b w := hy3 jt hjtS w hw0 hwS
        _ ≤ (1 - t) * Spec.cost m k (fun _ => 1) A b x + t * Spec.cost m k (fun _ => 1) A b z := cost_convex m k A b x z t ht0 ht1
        _ ≤ Spec.cost m k (fun _ => 1) A b x := by
          have := mul_le_mul_of_nonneg_left (hmin x hxS) ht0
          linarith

/-- The contract of nnls can be met for every matrix and spectrum. -/
theorem exists_nnls : ∃ nnls : Nnls, Spec.IsNnls nnls := by
  choose z h1 h2 h3 using fun (m k : ℕ) (A : ℕ → ℕ → ℝ) (b : ℕ → ℝ) => exists_nnls_on m A b k (range k)
  refine ⟨fun m k A b => (z m k A b, √(Spec.cost m k (fun _ => 1) A b (z m k A b))), fun m k A b => ⟨fun j _ => h1 m k A b j, fun x hx => ?_, rfl⟩⟩
  classical
  have := h3 m k A b (fun j => if j < k then x j else 0) (fun j => by beta_reduce; split_ifs with h; exacts [hx j h, le_rfl]) (fun j hj => by beta_reduce; rw [if_neg (by simpa using hj)])
  refine this.trans (le_of_eq ?_)
  unfold Spec.cost
  apply sum_congr rfl
  intro i _
  congr 3
  exact sum_congr rfl (fun j hj => by beta_reduce; rw [if_pos (mem_range.1 hj)])

theorem cost_weight (m k : ℕ) (w : ℕ → ℝ) (hw : ∀ i < m, 0 ≤ w i) (A : ℕ → ℕ → ℝ) (b x : ℕ → ℝ) :
    Spec.cost m k (fun _ => 1) (fun i j => A i j * √(w i)) (fun i => b i * √(w i)) x = Spec.cost m k w A b x := by
  unfold Spec.cost
  apply sum_congr rfl
  intro i hi
  have h1 : ∑ j ∈ range k, A i j * √(w i) * x j = (∑ j ∈ range k, A i j * x j) * √(w i) := by
    rw [sum_mul]
    exact sum_congr rfl (fun j _ => by ring)
  rw [h1, ← sub_mul, mul_pow, Real.sq_sqrt (hw i (mem_range.1 hi))]
  ring

/-- nnls_fit with non-negative weights returns non-negative coefficients that minimise the weighted sum of squared
residuals, and its root; without weights the unweighted one. -/
theorem C117_weighted (nnls : Nnls) (hn : Spec.IsNnls nnls) (m k : ℕ) (A : ℕ → ℕ → ℝ) (b : ℕ → ℝ) (weights : Option (ℕ → ℝ)) (hw : ∀ w, weights = some w → ∀ i < m, 0 ≤ w i) :
    (∀ j < k, 0 ≤ (nnlsFit nnls m k b A weights).1 j) ∧
    (∀ z : ℕ → ℝ, (∀ j < k, 0 ≤ z j) → Spec.cost m k (weights.getD (fun _ => 1)) A b (nnlsFit nnls m k b A weights).1 ≤ Spec.cost m k (weights.getD (fun _ => 1)) A b z) ∧
    (nnlsFit nnls m k b A weights).2 = √(Spec.cost m k (weights.getD (fun _ => 1)) A b (nnlsFit nnls m k b A weights).1) := by
  cases weights with
  | none => exact hn m k A b
  | some w =>
    obtain ⟨h1, h2, h3⟩ := hn m k (fun i j => A i j * √(w i)) (fun i => b i * √(w i))
    have hw' := hw w rfl
    refine ⟨h1, fun z hz => ?_, ?_⟩
    · have := h2 z hz
      rw [cost_weight m k w hw', cost_weight m k w hw'] at this
      exact this
    · rw [cost_weight m k w hw'] at h3
      exact h3

/-! ## C118 r_squared -/

/-- The returned r_squared is at most 1, and 1 exactly for a perfect fit. -/
theorem C118_r_squared_partial (nnls : Nnls) (hn : Spec.IsNnls nnls) (snip : (ℕ → ℝ) → ℕ → ℝ) (m k : ℕ) (A : ℕ → ℕ → ℝ) (y : ℕ → ℝ) (f : PixelFit) (v : ℝ)
    (hf : fitRow nnls snip m k A true [y] = .ok [f]) (hv : f.r2 = some v) :
    v ≤ 1 ∧ (v = 1 ↔ Spec.cost m k (fun _ => 1) A (fun i => y i - snip y i) f.coef = 0) := by
  rw [fitRow, if_pos rfl] at hf
  injection hf with hf
  injection hf with hf _
  subst hf
  simp only at hv ⊢
  split_ifs at hv with hs
  injection hv with hv
  have h3 := (hn m k A (fun i => y i - snip y i)).2.2
  have hs0 : 0 < ∑ i ∈ range m, (y i - (∑ i ∈ range m, y i) / m) ^ 2 := lt_of_le_of_ne (sum_nonneg (fun i _ => sq_nonneg _)) (Ne.symm hs)
  have hc0 : 0 ≤ Spec.cost m k (fun _ => 1) A (fun i => y i - snip y i) (nnlsFit nnls m k (fun i => y i - snip y i) A none).1 :=
    sum_nonneg (fun i _ => by rw [one_mul]; exact sq_nonneg _)
  have e : (nnlsFit nnls m k (fun i => y i - snip y i) A none).2 = √(Spec.cost m k (fun _ => 1) A (fun i => y i - snip y i) (nnlsFit nnls m k (fun i => y i - snip y i) A none).1) := h3
  rw [e] at hv
  constructor
  · rw [← hv]
    have := div_nonneg (Real.sqrt_nonneg (Spec.cost m k (fun _ => 1) A (fun i => y i - snip y i) (nnlsFit nnls m k (fun i => y i - snip y i) A none).1)) hs0.le
    linarith
  · rw [← hv, sub_eq_self, div_eq_zero_iff, or_iff_left hs0.ne', Real.sqrt_eq_zero hc0]

/-- It is not the coefficient of determination 1 - SS_res/SS_tot: the two agree only if SS_res is 0 or 1, since the
residual norm is not squared. -/
theorem C118_r_squared_refuted (nnls : Nnls) (hn : Spec.IsNnls nnls) (snip : (ℕ → ℝ) → ℕ → ℝ) (m k : ℕ) (A : ℕ → ℕ → ℝ) (y : ℕ → ℝ) (f : PixelFit) (v : ℝ)
    (hf : fitRow nnls snip m k A true [y] = .ok [f]) (hv : f.r2 = some v) :
    v = 1 - Spec.cost m k (fun _ => 1) A (fun i => y i - snip y i) f.coef / (∑ i ∈ range m, (y i - (∑ i ∈ range m, y i) / m) ^ 2) ↔
      Spec.cost m k (fun _ => 1) A (fun i => y i - snip y i) f.coef = 0 ∨ Spec.cost m k (fun _ => 1) A (fun i => y i - snip y i) f.coef = 1 := by
  rw [fitRow, if_pos rfl] at hf
  injection hf with hf
  injection hf with hf _
  subst hf
  simp only at hv ⊢
  split_ifs at hv with hs
  injection hv with hv
  have h3 := (hn m k A (fun i => y i - snip y i)).2.2
  have hc0 : 0 ≤ Spec.cost m k (fun _ => 1) A (fun i => y i - snip y i) (nnlsFit nnls m k (fun i => y i - snip y i) A none).1 :=
    sum_nonneg (fun i _ => by rw [one_mul]; exact sq_nonneg _)
  have e : (nnlsFit nnls m k (fun i => y i - snip y i) A none).2 = √(Spec.cost m k (fun _ => 1) A (fun i => y i - snip y i) (nnlsFit nnls m k (fun i => y i - snip y i) A none).1) := h3
  rw [e] at hv
  rw [← hv]
  generalize Spec.cost m k (fun _ => 1) A (fun i => y i - snip y i) (nnlsFit nnls m k (fun i => y i - snip y i) A none).1 = C at hc0 ⊢
  constructor
  · intro h
    have h1 : √C = C := by
      field_simp at h
      linarith
    have h2 := Real.sq_sqrt hc0
    rw [h1] at h2
    have h4 : C * (C - 1) = 0 := by linarith [h2, sq C]
    rcases mul_eq_zero.1 h4 with h | h
    · exact Or.inl h
    · exact Or.inr (by linarith)
  · rintro (h | h)
    · rw [h, Real.sqrt_zero]
    · rw [h, Real.sqrt_one]

/-! ## C119 areas -/

/-- The integral over the energy of an element peak is area * ratio * ratio_adjust (the summand of sum_area), whatever the
position, position shift and width. -/
theorem C119_peak_area (area center deltaCenter deltaSigma ratio ratioAdjust fwhmOffset fwhmFanoprime epsilon : ℝ)
    (hs : 0 < deltaSigma + √((fwhmOffset / (2 * √(2 * Real.log 2))) ^ 2 + (center + deltaCenter) * epsilon * fwhmFanoprime)) :
    ∫ e, elementPeakE e area center deltaCenter deltaSigma ratio ratioAdjust fwhmOffset fwhmFanoprime epsilon = area * ratio * ratioAdjust := by
  unfold elementPeakE
  simp only
  rw [MeasureTheory.integral_mul_const, MeasureTheory.integral_mul_const, Line.C67_gaussian _ _ _ hs]

/-- A map of calculate_area is the number of counts in that fitted component. -/
theorem C119_area_map (m : ℕ) (A : ℕ → ℕ → ℝ) (coef : ℕ → ℝ) (i : ℕ) : areaMap m A coef i = ∑ ch ∈ range m, coef i * A ch i := by
  unfold areaMap
  rw [mul_sum]

/-- With first_peak_area the map, multiplied by get_relative_cs_ratio, is the number of counts in the first line of the
component, when the column is the sum of the excited lines' peaks with their branching ratios and all line profiles have
the same number of counts within the channels. -/
theorem C119_first_peak (cs : Cs) (name sym line : String) (ts : List String) (hsplit : split '_' name = [sym, line]) (hts : transitionsOf (String.ofList (line.toList.map Char.toUpper)) = .ok ts)
    (hne : ts ≠ []) (hpos : ∀ t ∈ ts, 0 ≤ cs sym t) (hfirst : 0 < cs sym (ts.headD ""))
    (m : ℕ) (coef : ℝ) (peak : String → ℕ → ℝ) (g : ℝ) (hg : ∀ t ∈ ts, ∑ ch ∈ range m, peak t ch = g) :
    ∃ r : ℚ, relativeRatio cs name = .ok r ∧ 0 < r ∧ r ≤ 1 ∧
      areaMap m (fun ch _ => (ts.map (fun t => ((cs sym t / cs sym (ts.headD "") : ℚ) : ℝ) * peak t ch)).sum) (fun _ => coef) 0 * r = ∑ ch ∈ range m, coef * peak (ts.headD "") ch := by
  have hmem : ts.headD "" ∈ ts := by
    cases ts with
    | nil => exact absurd rfl hne
    | cons a t => simp
  have hle : cs sym (ts.headD "") ≤ (ts.map (cs sym)).sum := by
    apply List.single_le_sum
    · intro v hv
      obtain ⟨t, ht, rfl⟩ := List.mem_map.1 hv
      exact hpos t ht
    · exact List.mem_map.2 ⟨_, hmem, rfl⟩
  have hsum : 0 < (ts.map (cs sym)).sum := lt_of_lt_of_le hfirst hle
  refine ⟨cs sym (ts.headD "") / (ts.map (cs sym)).sum, ?_, div_pos hfirst hsum, (div_le_one hsum).2 hle, ?_⟩
  · unfold relativeRatio
    rw [hsplit]
    simp only
    rw [hts]
    show (if _ then _ else _) = _
    rw [if_neg hsum.ne']
  · have swap : ∀ l : List String, (∀ t ∈ l, ∑ ch ∈ range m, peak t ch = g) → ∑ ch ∈ range m, (l.map (fun t => ((cs sym t / cs sym (ts.headD "") : ℚ) : ℝ) * peak t ch)).sum = ((l.map (cs sym)).sum : ℚ) / cs sym (ts.headD "") * g := by
      intro l
      induction l with
      | nil => intro _; simp
      | cons a l ih =>
        intro h
        simp only [List.map_cons, List.sum_cons]
        rw [sum_add_distrib, ih (fun t ht => h t (by simp [ht])), ← mul_sum, h a (by simp)]
        push_cast
        ring
    unfold areaMap
    rw [swap ts hg, ← mul_sum, hg _ hmem]
    have h1 : ((cs sym (ts.headD "") : ℚ) : ℝ) ≠ 0 := by exact_mod_cast hfirst.ne'
    have h2 : (((ts.map (cs sym)).sum : ℚ) : ℝ) ≠ 0 := by exact_mod_cast hsum.ne'
    rw [Rat.cast_div]
    field_simp

example : relativeRatio (fun _ t => if t = "ka1" then 3 else if t = "kb1" then 1 else 0) "Fe_K" = .ok (3 / 4) := by decide +kernel

/-! ## C120 components add up -/

theorem setKey_new {α : Type} (k : String) (v : α) (d : Dict α) (h : k ∉ d.map Prod.fst) : setKey k v d = d ++ [(k, v)] := by
  induction d with
  | nil => rfl
  | cons a d ih =>
    obtain ⟨k', v'⟩ := a
    rw [setKey, if_neg (by rintro rfl; simp at h), ih (fun h' => h (by simp at h' ⊢; exact Or.inr h'))]
    rfl

open Classical in
theorem resultDict_sum (m : ℕ) (A : ℕ → ℕ → ℝ) (out : ℕ → ℝ) (hA : ∀ ch i, 0 ≤ A ch i) (ho : ∀ i, 0 ≤ out i) (ch : ℕ) (hch : ch < m) (l : List (String × ℕ)) :
    ∀ d : Dict (ℕ → ℝ), (d.map Prod.fst ++ l.map Prod.fst).Nodup →
      ((l.foldl (fun d ni => let y := fun ch => out ni.2 * A ch ni.2; if ∑ ch ∈ range m, y ch = 0 then d else setKey ni.1 y d) d).map (fun kv => kv.2 ch)).sum =
        (d.map (fun kv => kv.2 ch)).sum + (l.map (fun ni => out ni.2 * A ch ni.2)).sum := by
  induction l with
  | nil => intro d _; simp
  | cons a l ih =>
    intro d hnd
    rw [List.foldl_cons]
    simp only
    by_cases h0 : ∑ ch ∈ range m, out a.2 * A ch a.2 = 0
    · rw [if_pos h0, ih d]
      · have hz : out a.2 * A ch a.2 = 0 := (sum_eq_zero_iff_of_nonneg (fun c _ => mul_nonneg (ho _) (hA _ _))).1 h0 ch (mem_range.2 hch)
        rw [List.map_cons, List.sum_cons, hz, zero_add]
      · rw [List.map_cons] at hnd
        exact (List.nodup_append.1 hnd).elim (fun h1 h2 => List.nodup_append.2 ⟨h1, (List.nodup_cons.1 h2.1).2, fun x hx y hy => h2.2 x hx y (List.mem_cons_of_mem _ hy)⟩)
    · rw [if_neg h0]
      have hk : a.1 ∉ d.map Prod.fst := by
        intro hmem
        rw [List.map_cons] at hnd
        exact (List.nodup_append.1 hnd).2.2 a.1 hmem a.1 List.mem_cons_self rfl
      rw [setKey_new _ _ _ hk, ih]
      · simp only [List.map_append, List.map_cons, List.map_nil, List.sum_append, List.sum_cons, List.sum_nil, add_zero]
        ring
      · simp only [List.map_append, List.map_cons, List.map_nil, List.append_assoc, List.singleton_append]
        simpa using hnd

/-- For distinct component names, non-negative profiles and coefficients, the components of result_dict add up in every
channel to the fitted spectrum. -/
theorem C120_components_sum (m : ℕ) (A : ℕ → ℕ → ℝ) (out : ℕ → ℝ) (hA : ∀ ch i, 0 ≤ A ch i) (ho : ∀ i, 0 ≤ out i) (names : List String) (hnd : names.Nodup) (ch : ℕ) (hch : ch < m) :
    ((resultDict m A out names).map (fun kv => kv.2 ch)).sum = ∑ i ∈ range names.length, A ch i * out i := by
  unfold resultDict
  rw [resultDict_sum m A out hA ho ch hch names.zipIdx [] (by simpa using hnd)]
  rw [List.map_nil, List.sum_nil, zero_add]
  have : names.zipIdx.map (fun ni => out ni.2 * A ch ni.2) = (List.range names.length).map (fun i => out i * A ch i) := by
    have h : names.zipIdx.map Prod.snd = List.range names.length := by
      rw [List.zipIdx_map_snd, List.range_eq_range']
    rw [← h, List.map_map]
    rfl
  rw [this, Finset.sum_range, ← List.sum_ofFn, List.ofFn_eq_map]
  congr 1
  rw [← List.map_coe_finRange_eq_range, List.map_map]
  apply List.map_congr_left
  intro i _
  simp only [Function.comp]
  ring

end Verif.Xrf
