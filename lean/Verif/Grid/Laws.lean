/- C234: laws of grid3d. -/
import Verif.Grid.Props

namespace Verif.Grid
open Verif

/-! ## specification side -/

/-- The point with other coordinates and the same intensity. -/
def Spec.moved (fx fy fz : ℚ → ℚ) (p : Pt) : Pt := ⟨fx p.x, fy p.y, fz p.z, p.v⟩

/-- The point with another intensity (NaN stays NaN). -/
def Spec.relit (f : ℚ → ℚ) (p : Pt) : Pt := ⟨p.x, p.y, p.z, p.v.map f⟩

/-- The axis in other units: coordinate x becomes s·x + t. -/
def Spec.units (s t : ℚ) (a : Axis) : Axis := ⟨s * a.lo + t, s * a.hi + t, a.n⟩

/-- The axis seen from the other side: coordinate x becomes -x. -/
def Spec.flipped (a : Axis) : Axis := ⟨-a.hi, -a.lo, a.n⟩

/-- The part of the axis made of the w bins from bin u on. -/
def Spec.part (u w : ℕ) (a : Axis) : Axis :=
  ⟨a.lo + u * ((a.hi - a.lo) / a.n), a.lo + (u + w) * ((a.hi - a.lo) / a.n), w⟩

/-- x is not a boundary between bins of the axis (nor one of its limits). -/
def Spec.OffEdges (a : Axis) (x : ℚ) : Prop := ∀ i : ℕ, x ≠ a.lo + i * ((a.hi - a.lo) / a.n)

/-! ## lemmas -/

theorem values_append (g : Grid) (i j k : ℕ) (d e : List Pt) :
    Spec.values g i j k (d ++ e) = Spec.values g i j k d ++ Spec.values g i j k e := List.filterMap_append ..

theorem values_perm (g : Grid) (i j k : ℕ) {d e : List Pt} (h : d.Perm e) :
    (Spec.values g i j k d).Perm (Spec.values g i j k e) := h.filterMap _

theorem values_moved (g g' : Grid) (i j k i' j' k' : ℕ) (f : Pt → Pt) (d : List Pt) (hv : ∀ p ∈ d, (f p).v = p.v)
    (h : ∀ p ∈ d, Spec.inVoxel g' i' j' k' (f p) ↔ Spec.inVoxel g i j k p) :
    Spec.values g' i' j' k' (d.map f) = Spec.values g i j k d := by
  unfold Spec.values
  rw [List.filterMap_map]
  apply List.filterMap_congr
  intro p hp
  simp only [Function.comp]
  rw [hv p hp]
  by_cases hh : Spec.inVoxel g i j k p
  · rw [if_pos hh, if_pos ((h p hp).2 hh)]
  · rw [if_neg hh, if_neg (fun h' => hh ((h p hp).1 h'))]

theorem values_relit (g : Grid) (i j k : ℕ) (f : ℚ → ℚ) (d : List Pt) :
    Spec.values g i j k (d.map (Spec.relit f)) = (Spec.values g i j k d).map f := by
  unfold Spec.values
  rw [List.filterMap_map, List.map_filterMap]
  apply List.filterMap_congr
  intro p _
  simp only [Function.comp]
  by_cases hh : Spec.inVoxel g i j k p
  · rw [if_pos hh, if_pos (show Spec.inVoxel g i j k (Spec.relit f p) from hh)]; rfl
  · rw [if_neg hh, if_neg (show ¬ Spec.inVoxel g i j k (Spec.relit f p) from hh)]; rfl

theorem inBin_units (a : Axis) (s t : ℚ) (hs : 0 < s) (i : ℕ) (x : ℚ) :
    Spec.inBin (Spec.units s t a) i (s * x + t) ↔ Spec.inBin a i x := by
  unfold Spec.inBin Spec.units
  have e : ∀ r : ℚ, s * a.lo + t + r * ((s * a.hi + t - (s * a.lo + t)) / a.n) =
      s * (a.lo + r * ((a.hi - a.lo) / a.n)) + t := by intro r; ring
  simp only [e]
  constructor
  · rintro ⟨h1, h2⟩
    exact ⟨le_of_mul_le_mul_left (by linarith) hs, lt_of_mul_lt_mul_left (by linarith) hs.le⟩
  · rintro ⟨h1, h2⟩
    exact ⟨by linarith [mul_le_mul_of_nonneg_left h1 hs.le], by linarith [mul_lt_mul_of_pos_left h2 hs]⟩

theorem inBin_part (a : Axis) (u w : ℕ) (hw : 0 < w) (i : ℕ) (x : ℚ) :
    Spec.inBin (Spec.part u w a) i x ↔ Spec.inBin a (u + i) x := by
  unfold Spec.inBin Spec.part
  have hw' : (w : ℚ) ≠ 0 := by positivity
  have e : (a.lo + (u + w) * ((a.hi - a.lo) / a.n) - (a.lo + u * ((a.hi - a.lo) / a.n))) / (w : ℚ) =
      (a.hi - a.lo) / a.n := by
    rw [div_eq_iff hw']; ring
  simp only [e]
  push_cast
  constructor <;> rintro ⟨h1, h2⟩ <;> exact ⟨by linarith, by linarith⟩

theorem inBin_flipped (a : Axis) (ha : 0 < a.n) (i : ℕ) (hi : i < a.n) (x : ℚ) (hx : Spec.OffEdges a x) :
    Spec.inBin (Spec.flipped a) (a.n - 1 - i) (-x) ↔ Spec.inBin a i x := by
  unfold Spec.inBin Spec.flipped
  have hn : (a.n : ℚ) ≠ 0 := by positivity
  have e : (-a.lo - -a.hi) / (a.n : ℚ) = (a.hi - a.lo) / a.n := by ring
  have hm : ((a.n - 1 - i : ℕ) : ℚ) = a.n - 1 - i := by
    rw [Nat.cast_sub (by omega), Nat.cast_sub (by omega)]; simp
  simp only [e, hm]
  have hd : a.hi = a.lo + a.n * ((a.hi - a.lo) / a.n) := by field_simp; ring
  have h1 := hx i
  have h2 := hx (i + 1)
  push_cast at h2
  generalize (a.hi - a.lo) / (a.n : ℚ) = d at *
  constructor
  · rintro ⟨b1, b2⟩
    refine ⟨by linarith, lt_of_le_of_ne (by linarith) h2⟩
  · rintro ⟨b1, b2⟩
    have := lt_of_le_of_ne b1 (Ne.symm h1)
    exact ⟨by linarith, by linarith⟩

/-- The accumulators determined by the values of a voxel. -/
def accOf (vs : List ℚ) : Acc := ⟨vs.length, vs.sum, (vs.map (fun v => v * v)).sum⟩

theorem accOf_perm {vs ws : List ℚ} (h : vs.Perm ws) : accOf vs = accOf ws := by
  unfold accOf
  rw [h.length_eq, h.sum_eq, (h.map _).sum_eq]

theorem moved_spec (fx fy fz : ℚ → ℚ) (p : Pt) : (Spec.moved fx fy fz p).v = p.v := rfl

/-! ## C234 -/

/-- C234, order: neither the order of the points nor the number of threads nor the schedule matters (exact arithmetic). -/
theorem C234_order (g : Grid) (hg : Spec.Proper g) (T T' : ℕ) (hT : 1 ≤ T) (hT' : 1 ≤ T') (data data' : List Pt)
    (hd : data.Perm data') (ev ev' : List (ℕ × Pt)) (hev : Spec.Schedules T data ev) (hev' : Spec.Schedules T' data' ev')
    (i j k : ℕ) (hi : i < g.x.n) (hj : j < g.y.n) (hk : k < g.z.n) :
    out id g T zeroed ev (flat g i j k) = out id g T' zeroed ev' (flat g i j k) := by
  rw [C41_voxel_sums g hg T hT data ev hev i j k hi hj hk, C41_voxel_sums g hg T' hT' data' ev' hev' i j k hi hj hk]
  exact accOf_perm (values_perm g i j k hd)

/-- n² times the square of the standard error is n times the sum of squares minus the square of the sum, over n. -/
theorem err_sq (vs : List ℚ) (h : vs ≠ []) (e : ℝ) (he : stdErr id (accOf vs) = some e) :
    (vs.length : ℝ) ^ 2 * e ^ 2 = ((vs.map (fun v => v * v)).sum : ℚ) - ((vs.sum : ℚ) : ℝ) ^ 2 / vs.length := by
  have hl : vs.length ≠ 0 := by simpa using h
  have hn : (vs.length : ℝ) ≠ 0 := by exact_mod_cast hl
  have hpos : (0 : ℝ) < vs.length := by positivity
  unfold stdErr at he
  rw [if_neg (show (accOf vs).n ≠ 0 from hl)] at he
  split at he
  · simp at he
  · rename_i hv
    push Not at hv
    have hv' : (0 : ℝ) ≤ (variance id (accOf vs) : ℚ) := by exact_mod_cast hv
    simp only [Option.some.injEq] at he
    rw [← he, div_pow, Real.sq_sqrt hv', Real.sq_sqrt (by positivity)]
    unfold variance accOf
    simp only [id]
    push_cast
    field_simp

/-- C234, joining two data sets: occupancy, sum and sum of squares of every voxel are those of the two parts added up. So
results of separate calls on the same grid can be combined: the mean is the mean of the two means weighted with the
occupancies, and the standard error e of n = n₁ + n₂ points follows from n²e² = n₁²e₁² + n₂²e₂² + (m₁-m₂)²n₁n₂/n. -/
theorem C234_joined (g : Grid) (hg : Spec.Proper g) (T T₁ T₂ : ℕ) (hT : 1 ≤ T) (hT₁ : 1 ≤ T₁) (hT₂ : 1 ≤ T₂)
    (d₁ d₂ : List Pt) (ev ev₁ ev₂ : List (ℕ × Pt)) (hev : Spec.Schedules T (d₁ ++ d₂) ev)
    (hev₁ : Spec.Schedules T₁ d₁ ev₁) (hev₂ : Spec.Schedules T₂ d₂ ev₂)
    (i j k : ℕ) (hi : i < g.x.n) (hj : j < g.y.n) (hk : k < g.z.n) :
    let a := out id g T zeroed ev (flat g i j k)
    let a₁ := out id g T₁ zeroed ev₁ (flat g i j k)
    let a₂ := out id g T₂ zeroed ev₂ (flat g i j k)
    (a.n = a₁.n + a₂.n ∧ a.s = a₁.s + a₂.s ∧ a.s2 = a₁.s2 + a₂.s2) ∧
    (a₂.n = 0 → mean a = mean a₁ ∧ stdErr id a = stdErr id a₁) ∧
    (a₁.n = 0 → mean a = mean a₂ ∧ stdErr id a = stdErr id a₂) ∧
    ∀ m₁ m₂, mean a₁ = some m₁ → mean a₂ = some m₂ →
      mean a = some ((a₁.n * m₁ + a₂.n * m₂) / (a₁.n + a₂.n)) ∧
      ∃ e e₁ e₂ : ℝ, stdErr id a = some e ∧ stdErr id a₁ = some e₁ ∧ stdErr id a₂ = some e₂ ∧
        0 ≤ e ∧ (a.n : ℝ) ^ 2 * e ^ 2 = (a₁.n : ℝ) ^ 2 * e₁ ^ 2 + (a₂.n : ℝ) ^ 2 * e₂ ^ 2 +
          ((m₁ : ℝ) - m₂) ^ 2 * a₁.n * a₂.n / (a₁.n + a₂.n) := by
  intro a a₁ a₂
  have ha : a = accOf (Spec.values g i j k d₁ ++ Spec.values g i j k d₂) := by
    have := C41_voxel_sums g hg T hT _ ev hev i j k hi hj hk
    rw [values_append] at this
    exact this
  have ha₁ : a₁ = accOf (Spec.values g i j k d₁) := C41_voxel_sums g hg T₁ hT₁ _ ev₁ hev₁ i j k hi hj hk
  have ha₂ : a₂ = accOf (Spec.values g i j k d₂) := C41_voxel_sums g hg T₂ hT₂ _ ev₂ hev₂ i j k hi hj hk
  have b := (C43_mean_and_error_partial g hg T hT _ ev hev i j k hi hj hk).2
  have b₁ := (C43_mean_and_error_partial g hg T₁ hT₁ _ ev₁ hev₁ i j k hi hj hk).2
  have b₂ := (C43_mean_and_error_partial g hg T₂ hT₂ _ ev₂ hev₂ i j k hi hj hk).2
  change _ → mean a = _ ∧ _ ∧ stdErr id a = _ at b
  change _ → mean a₁ = _ ∧ _ ∧ stdErr id a₁ = _ at b₁
  change _ → mean a₂ = _ ∧ _ ∧ stdErr id a₂ = _ at b₂
  rw [values_append] at b
  clear_value a a₁ a₂
  generalize Spec.values g i j k d₁ = v at *
  generalize Spec.values g i j k d₂ = w at *
  clear hev hev₁ hev₂
  refine ⟨?_, ?_, ?_, ?_⟩
  · subst ha ha₁ ha₂; simp [accOf]
  · intro h
    have : w = [] := by subst ha₂; simpa [accOf] using h
    subst this
    rw [List.append_nil] at ha
    subst ha ha₁; exact ⟨rfl, rfl⟩
  · intro h
    have : v = [] := by subst ha₁; simpa [accOf] using h
    subst this
    rw [List.nil_append] at ha
    subst ha ha₂; exact ⟨rfl, rfl⟩
  · intro m₁ m₂ h₁ h₂
    have hv : v ≠ [] := by rintro rfl; rw [ha₁] at h₁; simp [mean, accOf] at h₁
    have hw : w ≠ [] := by rintro rfl; rw [ha₂] at h₂; simp [mean, accOf] at h₂
    have hvw : v ++ w ≠ [] := by simp [hv]
    obtain ⟨c1, -, c3⟩ := b hvw
    obtain ⟨c4, -, c6⟩ := b₁ hv
    obtain ⟨c7, -, c9⟩ := b₂ hw
    have hvl : (v.length : ℚ) ≠ 0 := by simpa using hv
    have hwl : (w.length : ℚ) ≠ 0 := by simpa using hw
    have e1 : m₁ = v.sum / v.length := by rw [c4] at h₁; simpa [Spec.mu, eq_comm] using h₁
    have e2 : m₂ = w.sum / w.length := by rw [c7] at h₂; simpa [Spec.mu, eq_comm] using h₂
    have n0 : a.n = v.length + w.length := by rw [ha]; simp [accOf]
    have n1 : a₁.n = v.length := by rw [ha₁]; rfl
    have n2 : a₂.n = w.length := by rw [ha₂]; rfl
    constructor
    · rw [c1, n1, n2, e1, e2]
      simp only [Spec.mu, List.sum_append, List.length_append, Nat.cast_add]
      rw [mul_div_cancel₀ _ hvl, mul_div_cancel₀ _ hwl]
    · refine ⟨_, _, _, c3, c6, c9, by positivity, ?_⟩
      have f0 := err_sq _ hvw _ (by rw [← ha]; exact c3)
      have f1 := err_sq _ hv _ (by rw [← ha₁]; exact c6)
      have f2 := err_sq _ hw _ (by rw [← ha₂]; exact c9)
      rw [n1, n2]
      rw [show (a.n : ℝ) = ((v ++ w).length : ℕ) by rw [n0]; simp]
      rw [f0, f1, f2, e1, e2]
      have hvl' : (v.length : ℝ) ≠ 0 := by exact_mod_cast hvl
      have hwl' : (w.length : ℝ) ≠ 0 := by exact_mod_cast hwl
      have hs : (v.length : ℝ) + w.length ≠ 0 := by positivity
      simp only [List.map_append, List.sum_append, List.length_append, Nat.cast_add]
      push_cast
      field_simp
      ring

/-- C234, intensities: multiplying all intensities by c and adding b leaves the occupancies, multiplies the means by c and
adds b, and multiplies the standard errors by |c|. -/
theorem C234_intensities (g : Grid) (hg : Spec.Proper g) (T T' : ℕ) (hT : 1 ≤ T) (hT' : 1 ≤ T') (data : List Pt) (c b : ℚ)
    (ev ev' : List (ℕ × Pt)) (hev : Spec.Schedules T data ev)
    (hev' : Spec.Schedules T' (data.map (Spec.relit (fun v => c * v + b))) ev')
    (i j k : ℕ) (hi : i < g.x.n) (hj : j < g.y.n) (hk : k < g.z.n) :
    let a := out id g T zeroed ev (flat g i j k)
    let a' := out id g T' zeroed ev' (flat g i j k)
    a'.n = a.n ∧ mean a' = (mean a).map (fun m => c * m + b) ∧
    stdErr id a' = (stdErr id a).map (fun e => |(c : ℝ)| * e) := by
  intro a a'
  have ha : a = accOf (Spec.values g i j k data) := C41_voxel_sums g hg T hT _ ev hev i j k hi hj hk
  have ha' : a' = accOf ((Spec.values g i j k data).map (fun v => c * v + b)) := by
    have := C41_voxel_sums g hg T' hT' _ ev' hev' i j k hi hj hk
    rw [values_relit] at this
    exact this
  have q := C43_mean_and_error_partial g hg T hT _ ev hev i j k hi hj hk
  have q' := C43_mean_and_error_partial g hg T' hT' _ ev' hev' i j k hi hj hk
  change (_ → mean a = _ ∧ stdErr id a = _) ∧ (_ → mean a = _ ∧ _ ∧ stdErr id a = _) at q
  change (_ → mean a' = _ ∧ stdErr id a' = _) ∧ (_ → mean a' = _ ∧ _ ∧ stdErr id a' = _) at q'
  rw [values_relit] at q'
  clear_value a a'
  clear hev hev'
  generalize Spec.values g i j k data = v at *
  refine ⟨by rw [ha, ha']; simp [accOf], ?_⟩
  by_cases hv : v = []
  · rw [(q.1 hv).1, (q.1 hv).2, (q'.1 (by rw [hv]; rfl)).1, (q'.1 (by rw [hv]; rfl)).2]
    simp
  · have hv' : v.map (fun v => c * v + b) ≠ [] := by simpa using hv
    rw [(q.2 hv).1, (q.2 hv).2.2, (q'.2 hv').1, (q'.2 hv').2.2]
    have hl : (v.length : ℚ) ≠ 0 := by simpa using hv
    have hsum : ∀ l : List ℚ, (l.map (fun v => c * v + b)).sum = c * l.sum + l.length * b := by
      intro l; induction l with
      | nil => simp
      | cons x l ih => simp [ih]; ring
    have hmu : Spec.mu (v.map (fun v => c * v + b)) = c * Spec.mu v + b := by
      unfold Spec.mu
      rw [hsum, List.length_map]
      field_simp
    have hvar : Spec.var (v.map (fun v => c * v + b)) = c ^ 2 * Spec.var v := by
      unfold Spec.var
      rw [hmu, List.map_map, List.length_map]
      have : ∀ (m : ℚ) (l : List ℚ), (l.map ((fun w => (w - (c * m + b)) ^ 2) ∘ fun v => c * v + b)).sum =
          c ^ 2 * (l.map (fun v => (v - m) ^ 2)).sum := by
        intro m l; induction l with
        | nil => simp
        | cons x l ih => simp only [List.map_cons, List.sum_cons, ih, Function.comp]; ring
      rw [this]; ring
    refine ⟨by rw [hmu]; rfl, ?_⟩
    rw [hvar, List.length_map, Option.map_some, Rat.cast_mul, Rat.cast_pow, Real.sqrt_mul (by positivity), Real.sqrt_sq_eq_abs,
      mul_div_assoc]

/-- C234, units: expressing coordinates and limits of each axis in other units (factor s > 0, offset t) changes nothing. -/
theorem C234_units (g : Grid) (hg : Spec.Proper g) (T T' : ℕ) (hT : 1 ≤ T) (hT' : 1 ≤ T') (data : List Pt)
    (sx tx sy ty sz tz : ℚ) (hx : 0 < sx) (hy : 0 < sy) (hz : 0 < sz)
    (ev ev' : List (ℕ × Pt)) (hev : Spec.Schedules T data ev)
    (hev' : Spec.Schedules T' (data.map (Spec.moved (fun x => sx * x + tx) (fun y => sy * y + ty) (fun z => sz * z + tz))) ev')
    (i j k : ℕ) (hi : i < g.x.n) (hj : j < g.y.n) (hk : k < g.z.n) :
    let g' : Grid := ⟨Spec.units sx tx g.x, Spec.units sy ty g.y, Spec.units sz tz g.z⟩
    out id g' T' zeroed ev' (flat g' i j k) = out id g T zeroed ev (flat g i j k) := by
  intro g'
  have hg' : Spec.Proper g' := by
    obtain ⟨⟨a1, a2⟩, ⟨a3, a4⟩, a5, a6⟩ := hg
    refine ⟨⟨?_, a2⟩, ⟨?_, a4⟩, ?_, a6⟩
    · have := mul_lt_mul_of_pos_left a1 hx; show sx * _ + _ < sx * _ + _; linarith
    · have := mul_lt_mul_of_pos_left a3 hy; show sy * _ + _ < sy * _ + _; linarith
    · have := mul_lt_mul_of_pos_left a5 hz; show sz * _ + _ < sz * _ + _; linarith
  rw [C41_voxel_sums g hg T hT data ev hev i j k hi hj hk, C41_voxel_sums g' hg' T' hT' _ ev' hev' i j k hi hj hk,
    values_moved g g' i j k i j k
      (Spec.moved (fun x => sx * x + tx) (fun y => sy * y + ty) (fun z => sz * z + tz)) data (fun p _ => rfl)]
  intro p _
  unfold Spec.inVoxel
  exact and_congr (inBin_units _ _ _ hx _ _) (and_congr (inBin_units _ _ _ hy _ _) (inBin_units _ _ _ hz _ _))

/-- C234, part of a grid: gridding on w bins from bin u on (per axis), with the limits of those bins, gives the block of
the whole grid; what is outside is left out, what is inside does not change. -/
theorem C234_part (g : Grid) (hg : Spec.Proper g) (T T' : ℕ) (hT : 1 ≤ T) (hT' : 1 ≤ T') (data : List Pt)
    (ux wx uy wy uz wz : ℕ) (hx : ux + wx ≤ g.x.n) (hy : uy + wy ≤ g.y.n) (hz : uz + wz ≤ g.z.n)
    (ev ev' : List (ℕ × Pt)) (hev : Spec.Schedules T data ev) (hev' : Spec.Schedules T' data ev')
    (i j k : ℕ) (hi : i < wx) (hj : j < wy) (hk : k < wz) :
    let g' : Grid := ⟨Spec.part ux wx g.x, Spec.part uy wy g.y, Spec.part uz wz g.z⟩
    out id g' T' zeroed ev' (flat g' i j k) = out id g T zeroed ev (flat g (ux + i) (uy + j) (uz + k)) := by
  intro g'
  have key : ∀ (a : Axis) (u w : ℕ), a.lo < a.hi ∧ 0 < a.n → 0 < w → (Spec.part u w a).lo < (Spec.part u w a).hi ∧
      0 < (Spec.part u w a).n := by
    intro a u w h hw
    refine ⟨?_, hw⟩
    show a.lo + u * _ < a.lo + (u + w) * _
    have : 0 < (a.hi - a.lo) / a.n := div_pos (by linarith [h.1]) (by exact_mod_cast h.2)
    have : (0 : ℚ) < w * ((a.hi - a.lo) / a.n) := mul_pos (by exact_mod_cast hw) this
    linarith
  have hg' : Spec.Proper g' := ⟨key _ _ _ hg.1 (by omega), key _ _ _ hg.2.1 (by omega), key _ _ _ hg.2.2 (by omega)⟩
  rw [C41_voxel_sums g hg T hT data ev hev _ _ _ (by omega) (by omega) (by omega),
    C41_voxel_sums g' hg' T' hT' _ ev' hev' i j k hi hj hk]
  have := values_moved g g' (ux + i) (uy + j) (uz + k) i j k id data (fun p _ => rfl) (by
    intro p _
    unfold Spec.inVoxel
    exact and_congr (inBin_part _ _ _ (by omega) _ _) (and_congr (inBin_part _ _ _ (by omega) _ _) (inBin_part _ _ _ (by omega) _ _)))
  rw [List.map_id] at this
  rw [this]

/-- C234, axes: exchanging two coordinates of all points and the two axes transposes the result (shown for the two pairs
(x, y) and (y, z), which generate all rearrangements). -/
theorem C234_axes (g : Grid) (hg : Spec.Proper g) (T T' T'' : ℕ) (hT : 1 ≤ T) (hT' : 1 ≤ T') (hT'' : 1 ≤ T'') (data : List Pt)
    (ev ev' ev'' : List (ℕ × Pt)) (hev : Spec.Schedules T data ev)
    (hev' : Spec.Schedules T' (data.map (fun p => ⟨p.y, p.x, p.z, p.v⟩)) ev')
    (hev'' : Spec.Schedules T'' (data.map (fun p => ⟨p.x, p.z, p.y, p.v⟩)) ev'')
    (i j k : ℕ) (hi : i < g.x.n) (hj : j < g.y.n) (hk : k < g.z.n) :
    let a := out id g T zeroed ev (flat g i j k)
    out id ⟨g.y, g.x, g.z⟩ T' zeroed ev' (flat ⟨g.y, g.x, g.z⟩ j i k) = a ∧
    out id ⟨g.x, g.z, g.y⟩ T'' zeroed ev'' (flat ⟨g.x, g.z, g.y⟩ i k j) = a := by
  intro a
  have ha : a = _ := C41_voxel_sums g hg T hT data ev hev i j k hi hj hk
  rw [ha]
  constructor
  · rw [C41_voxel_sums ⟨g.y, g.x, g.z⟩ ⟨hg.2.1, hg.1, hg.2.2⟩ T' hT' _ ev' hev' j i k hj hi hk,
      values_moved g ⟨g.y, g.x, g.z⟩ i j k j i k (fun p => ⟨p.y, p.x, p.z, p.v⟩) data (fun p _ => rfl)]
    intro p _
    unfold Spec.inVoxel
    tauto
  · rw [C41_voxel_sums ⟨g.x, g.z, g.y⟩ ⟨hg.1, hg.2.2, hg.2.1⟩ T'' hT'' _ ev'' hev'' i k j hi hk hj,
      values_moved g ⟨g.x, g.z, g.y⟩ i j k i k j (fun p => ⟨p.x, p.z, p.y, p.v⟩) data (fun p _ => rfl)]
    intro p _
    unfold Spec.inVoxel
    tauto

/-- C234, mirror image: with the sign of one coordinate and its limits reversed the result is reversed along that axis,
if no point lies exactly on a boundary between bins or on a limit. -/
theorem C234_mirror_partial (g : Grid) (hg : Spec.Proper g) (T T' : ℕ) (hT : 1 ≤ T) (hT' : 1 ≤ T') (data : List Pt)
    (hd : ∀ p ∈ data, Spec.OffEdges g.x p.x) (ev ev' : List (ℕ × Pt)) (hev : Spec.Schedules T data ev)
    (hev' : Spec.Schedules T' (data.map (Spec.moved (fun x => -x) id id)) ev')
    (i j k : ℕ) (hi : i < g.x.n) (hj : j < g.y.n) (hk : k < g.z.n) :
    let g' : Grid := ⟨Spec.flipped g.x, g.y, g.z⟩
    out id g' T' zeroed ev' (flat g' (g.x.n - 1 - i) j k) = out id g T zeroed ev (flat g i j k) := by
  intro g'
  have hg' : Spec.Proper g' := ⟨⟨by show -_ < -_; linarith [hg.1.1], hg.1.2⟩, hg.2⟩
  rw [C41_voxel_sums g hg T hT data ev hev i j k hi hj hk,
    C41_voxel_sums g' hg' T' hT' _ ev' hev' (g.x.n - 1 - i) j k (by show _ < g.x.n; omega) hj hk,
    values_moved g g' i j k (g.x.n - 1 - i) j k (Spec.moved (fun x => -x) id id) data (fun p _ => rfl)]
  intro p hp
  unfold Spec.inVoxel
  exact and_congr (inBin_flipped g.x hg.1.2 i hi p.x (hd p hp)) Iff.rfl

/-- C234 is false for the mirror image of points on a boundary: a point in the middle of two bins is in the upper bin, and
so is its mirror image; one at the lower limit is lost in the mirror image. -/
theorem C234_mirror_refuted (v : ℚ) :
    let g : Grid := ⟨⟨-1, 1, 2⟩, ⟨-1, 1, 1⟩, ⟨-1, 1, 1⟩⟩
    let p : Pt := ⟨0, 0, 0, some v⟩
    let q : Pt := ⟨-1, 0, 0, some v⟩
    let m := Spec.moved (fun x => -x) id id
    (⟨Spec.flipped g.x, g.y, g.z⟩ : Grid) = g ∧
    (out id g 1 zeroed [(0, p)] (flat g 1 0 0)).n = 1 ∧ (out id g 1 zeroed [(0, m p)] (flat g 1 0 0)).n = 1 ∧
    (out id g 1 zeroed [(0, m p)] (flat g 0 0 0)).n = 0 ∧
    (out id g 1 zeroed [(0, q)] (flat g 0 0 0)).n = 1 ∧ ∀ c, (out id g 1 zeroed [(0, m q)] c).n = 0 := by
  have h0 : cell id (⟨-1, 1, 2⟩ : Axis) 0 = some 1 := by decide +kernel
  have h1 : cell id (⟨-1, 1, 1⟩ : Axis) 0 = some 0 := by decide +kernel
  have h2 : cell id (⟨-1, 1, 2⟩ : Axis) (-1) = some 0 := by decide +kernel
  have h3 : cell id (⟨-1, 1, 2⟩ : Axis) 1 = none := by decide +kernel
  refine ⟨by simp [Spec.flipped], ?_, ?_, ?_, ?_, ?_⟩ <;>
    simp [out, gather, accumulate, handle, voxel, Spec.moved, h0, h1, h2, h3, flat, Acc.merge, Acc.add, zeroed]

/-- A grid and a list of points that meet the hypotheses, with different contents in different voxels. -/
example : let g : Grid := ⟨⟨0, 4, 4⟩, ⟨0, 2, 1⟩, ⟨0, 2, 1⟩⟩
    let d : List Pt := [⟨1 / 2, 1, 1, some 3⟩, ⟨1 / 4, 0, 1, some 5⟩, ⟨5 / 2, 1, 0, some 7⟩, ⟨5 / 2, 1, 0, none⟩]
    Spec.Proper g ∧ Spec.Schedules 2 d (d.map (fun p => (1, p))) ∧ (∀ p ∈ d, Spec.OffEdges g.x p.x) ∧
    Spec.values g 0 0 0 d = [3, 5] ∧ Spec.values g 2 0 0 d = [7] ∧ Spec.values g 1 0 0 d = [] := by
  refine ⟨by unfold Spec.Proper; norm_num, ⟨by simp, by simp⟩, ?_, by decide +kernel, by decide +kernel, by decide +kernel⟩
  have key : ∀ (x : ℚ) (m : ℤ), x * 4 = m → m % 4 ≠ 0 → Spec.OffEdges ⟨0, 4, 4⟩ x := by
    intro x m hx hm i hi
    have : ((4 * i : ℕ) : ℚ) = m := by rw [← hx, hi]; push_cast; ring
    have : ((4 * i : ℕ) : ℤ) = m := by exact_mod_cast this
    omega
  intro p hp
  simp only [List.mem_cons, List.not_mem_nil, or_false] at hp
  rcases hp with rfl | rfl | rfl | rfl
  · exact key _ 2 (by norm_num) (by decide)
  · exact key _ 1 (by norm_num) (by decide)
  · exact key _ 10 (by norm_num) (by decide)
  · exact key _ 10 (by norm_num) (by decide)

end Verif.Grid
