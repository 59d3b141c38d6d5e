/- Property C229: reciprocal-space maps, process_to_q followed by grid3d. -/
import Verif.Recip.Props
import Verif.Grid.Props

namespace Verif.Recip
open Verif Matrix

/-! ### Specification -/

namespace Spec

/-- The pixels of a stack of N images with Y rows and X columns as (image, row, column), in the order of `np.ravel`. -/
def pixels (N Y X : ℕ) : List (ℕ × ℕ × ℕ) :=
  (List.range N).flatMap (fun n => (List.range Y).flatMap (fun j => (List.range X).map (fun i => (n, j, i))))

/-- The pixel is not masked; the mask has the shape of one image. -/
def unmasked (mask : Option (ℕ → ℕ → Bool)) (j i : ℕ) : Bool :=
  match mask with
  | none => true
  | some m => m j i

/-- The point in reciprocal space of a pixel, as stored (`store` gives the stored value of a number) and with its intensity. -/
noncomputable def pointOf (store : ℝ → ℚ) (c : Ccd) (lam : ℝ) (ub : Matrix (Fin 3) (Fin 3) ℝ) (mode : ℕ) (r : List ℝ) (j i : ℕ) (v : Option ℚ) : Grid.Pt :=
  let q := inFrame c lam ub mode (Angles.ofDegrees r) j i
  ⟨store (q 0), store (q 1), store (q 2), v⟩

/-- The intensities of the unmasked pixels, not NaN, whose scattering vector lies in voxel (a, b, k). -/
noncomputable def voxelValues (store : ℝ → ℚ) (c : Ccd) (lam : ℝ) (ub : Matrix (Fin 3) (Fin 3) ℝ) (mode : ℕ) (angles : List (List ℝ))
    (stack : ℕ → ℕ → ℕ → Option ℚ) (mask : Option (ℕ → ℕ → Bool)) (g : Grid.Grid) (a b k : ℕ) : List ℚ :=
  (pixels angles.length c.ySize c.xSize).filterMap (fun p =>
    if unmasked mask p.2.1 p.2.2 = true ∧ Grid.Spec.inVoxel g a b k (pointOf store c lam ub mode (angles.getD p.1 []) p.2.1 p.2.2 (stack p.1 p.2.1 p.2.2))
    then stack p.1 p.2.1 p.2.2 else none)

end Spec

/-! ### Lemmas -/

theorem range_mul (a b : ℕ) : List.range (a * b) = (List.range a).flatMap (fun i => (List.range b).map (fun j => i * b + j)) := by
  induction a with
  | zero => simp
  | succ a ih => rw [Nat.add_mul, Nat.one_mul, List.range_add, ih, List.range_succ, List.flatMap_append, List.flatMap_singleton]

theorem range_pixels (N Y X : ℕ) : List.range (N * (Y * X)) = (Spec.pixels N Y X).map (fun p => p.1 * (Y * X) + (p.2.1 * X + p.2.2)) := by
  rw [range_mul, range_mul Y X]
  unfold Spec.pixels
  simp only [List.map_flatMap, List.map_map]
  rfl

theorem mem_pixels (N Y X : ℕ) (p : ℕ × ℕ × ℕ) : p ∈ Spec.pixels N Y X ↔ p.1 < N ∧ p.2.1 < Y ∧ p.2.2 < X := by
  obtain ⟨n, j, i⟩ := p
  unfold Spec.pixels
  simp only [List.mem_flatMap, List.mem_map, List.mem_range, Prod.mk.injEq]
  constructor
  · rintro ⟨_, hn, _, hj, _, hi, rfl, rfl, rfl⟩; exact ⟨hn, hj, hi⟩
  · rintro ⟨hn, hj, hi⟩; exact ⟨n, hn, j, hj, i, hi, rfl, rfl, rfl⟩

theorem length_pixels (N Y X : ℕ) : (Spec.pixels N Y X).length = N * (Y * X) := by
  have := congrArg List.length (range_pixels N Y X)
  simpa using this.symm

theorem flat_lt (N Y X n j i : ℕ) (hn : n < N) (hj : j < Y) (hi : i < X) : n * (Y * X) + (j * X + i) < N * (Y * X) := by
  have h1 : (j + 1) * X ≤ Y * X := Nat.mul_le_mul_right _ hj
  have h2 : (n + 1) * (Y * X) ≤ N * (Y * X) := Nat.mul_le_mul_right _ hn
  rw [Nat.add_mul] at h1 h2
  omega

theorem get_pixels {α : Type} (N Y X : ℕ) (f : ℕ × ℕ × ℕ → α) (n j i : ℕ) (hn : n < N) (hj : j < Y) (hi : i < X) :
    ((Spec.pixels N Y X).map f)[n * (Y * X) + (j * X + i)]? = some (f (n, j, i)) := by
  have hlt := flat_lt N Y X n j i hn hj hi
  have h1 : (Spec.pixels N Y X)[n * (Y * X) + (j * X + i)]? = some (n, j, i) := by
    have hl : n * (Y * X) + (j * X + i) < (Spec.pixels N Y X).length := by rw [length_pixels]; exact hlt
    rw [List.getElem?_eq_getElem hl]
    congr 1
    have h2 := congrArg (fun l : List ℕ => l[n * (Y * X) + (j * X + i)]?) (range_pixels N Y X)
    simp only [List.getElem?_map, List.getElem?_range hlt, List.getElem?_eq_getElem hl, Option.map_some, Option.some.injEq] at h2
    have hm := (mem_pixels N Y X _).1 (List.getElem_mem hl)
    set p := (Spec.pixels N Y X)[n * (Y * X) + (j * X + i)] with hp
    obtain ⟨n', j', i'⟩ := p
    simp only at h2 hm
    have k1 : j * X + i < Y * X := by
      have h1 : (j + 1) * X ≤ Y * X := Nat.mul_le_mul_right _ hj
      rw [Nat.add_mul] at h1; omega
    have k2 : j' * X + i' < Y * X := by
      have h1 : (j' + 1) * X ≤ Y * X := Nat.mul_le_mul_right _ hm.2.1
      rw [Nat.add_mul] at h1; omega
    have e1 : n' = n := by
      have := congrArg (· / (Y * X)) h2
      beta_reduce at this
      rw [Nat.mul_comm n, Nat.mul_comm n', Nat.mul_add_div (by omega), Nat.mul_add_div (by omega), Nat.div_eq_of_lt k1, Nat.div_eq_of_lt k2] at this
      omega
    subst e1
    have h3 : j * X + i = j' * X + i' := by omega
    have e2 : j' = j := by
      have := congrArg (· / X) h3
      beta_reduce at this
      rw [Nat.mul_comm j, Nat.mul_comm j', Nat.mul_add_div (by omega), Nat.mul_add_div (by omega), Nat.div_eq_of_lt hi, Nat.div_eq_of_lt hm.2.2] at this
      omega
    subst e2
    rw [show i' = i by omega]
  rw [List.getElem?_map, h1]
  rfl

theorem zipWith_points (q : List (ℚ × ℚ × ℚ)) (img : List (Option ℚ)) (h : q.length = img.length) :
    List.zipWith (fun (p : ℚ × ℚ × ℚ) v => (⟨p.1, p.2.1, p.2.2, v⟩ : Grid.Pt)) q img = (List.range img.length).filterMap (Grid.Spec.point q img) := by
  induction q generalizing img with
  | nil => cases img with
    | nil => rfl
    | cons => simp at h
  | cons p t ih =>
    cases img with
    | nil => simp at h
    | cons v s =>
      rw [List.zipWith_cons_cons, List.length_cons, List.range_succ_eq_map, List.filterMap_cons, List.filterMap_map, ih s (by simpa using h)]
      rfl

/-- Flat pixel k is kept by the mask. -/
def keptAt (Y X : ℕ) : Option (ℕ → ℕ → Bool) → ℕ → Bool
  | none, _ => true
  | some m, k => decide (Grid.Spec.kept (Y * X) true ((Spec.pixels 1 Y X).map (fun p => m p.2.1 p.2.2)) k)

/-! ### C229 -/

/-- C229.  For valid arguments, a stack of images of the detector's shape and, if given, a mask of one image's shape: the rows returned by
process_to_q (for any schedule of its threads) have the length grid3d needs, and with any distribution of the points over the threads of
the gridder and any order of events, starting from cleared accumulators, the occupancy of every voxel is the number of unmasked pixels
without NaN whose scattering vector lies in the voxel, sum and sum of squares are those of their intensities, and the value of
the voxel is their mean (empty without such a pixel). -/
theorem C229_map (angles : List (List ℝ)) (h6 : ∀ r ∈ angles, r.length = 6) (hne : angles ≠ []) (c : Ccd) (lam : ℝ)
    (ub : Matrix (Fin 3) (Fin 3) ℝ) (hub : ub.det ≠ 0) (frame : Option String) (mode : ℕ)
    (hf : Spec.modeOf frame = some mode) (s : St) (sched : List (List Instr) → List (ℕ × Instr))
    (hs : ∀ turns, IsExecution turns (sched turns)) (store : ℝ → ℚ) (stack : ℕ → ℕ → ℕ → Option ℚ) (mask : Option (ℕ → ℕ → Bool))
    (g : Grid.Grid) (hg : Grid.Spec.Proper g) (T : ℕ) (hT : 1 ≤ T) :
    ∃ rows pts, processToQ angles c lam ub frame s sched = .ok rows ∧
      Grid.gridPoints [angles.length, c.ySize, c.xSize] ((Spec.pixels angles.length c.ySize c.xSize).map (fun p => stack p.1 p.2.1 p.2.2))
        (rows.map (fun r => (store r.1, store r.2.1, store r.2.2)))
        (mask.map (fun m => ([c.ySize, c.xSize], (Spec.pixels 1 c.ySize c.xSize).map (fun p => m p.2.1 p.2.2)))) = .ok pts ∧
      ∀ ev, Grid.Spec.Schedules T pts ev → ∀ a b k, a < g.x.n → b < g.y.n → k < g.z.n →
        let vs := Spec.voxelValues store c lam ub mode angles stack mask g a b k
        Grid.out id g T Grid.zeroed ev (Grid.flat g a b k) = ⟨vs.length, vs.sum, (vs.map (fun v => v * v)).sum⟩ ∧
        Grid.mean (Grid.out id g T Grid.zeroed ev (Grid.flat g a b k)) = if vs = [] then none else some (vs.sum / vs.length) := by
  obtain ⟨rows, hrows, hlen, hget⟩ := C126_every_schedule angles h6 c lam ub hub frame mode hf s sched hs
  set N := angles.length with hN
  set Y := c.ySize with hY
  set X := c.xSize with hX
  rw [Nat.mul_comm X Y] at hlen hget
  set q := rows.map (fun r => (store r.1, store r.2.1, store r.2.2)) with hq
  set img := (Spec.pixels N Y X).map (fun p => stack p.1 p.2.1 p.2.2) with himg
  have hql : q.length = N * (Y * X) := by rw [hq, List.length_map, hlen]
  have hil : img.length = N * (Y * X) := by rw [himg, List.length_map, length_pixels]
  have hNpos : 0 < N := List.length_pos_iff.2 hne
  -- the gridded points
  have hpts : Grid.gridPoints [N, Y, X] img q (mask.map (fun m => ([Y, X], (Spec.pixels 1 Y X).map (fun p => m p.2.1 p.2.2)))) =
      .ok ((List.range (N * (Y * X))).filterMap (fun k => if keptAt Y X mask k = true then Grid.Spec.point q img k else none)) := by
    cases mask with
    | none =>
      rw [Option.map_none, Grid.C45_no_mask _ _ _ (by rw [hql, hil]), zipWith_points _ _ (by rw [hql, hil]), hil]
      simp [keptAt]
    | some m =>
      rw [Option.map_some]
      have := (Grid.C45_mask N hNpos [Y, X] img q [Y, X] ((Spec.pixels 1 Y X).map (fun p => m p.2.1 p.2.2)) (by simpa using hql) (by simpa using hil)
        (by rw [List.length_map, length_pixels]; simp)).2 (Or.inr rfl)
      rw [this]
      simp [keptAt]
  refine ⟨rows, _, hrows, hpts, ?_⟩
  intro ev hev a b k ha hb hk
  have h41 := Grid.C41_voxel_sums g hg T hT _ ev hev a b k ha hb hk
  have hvals : Grid.Spec.values g a b k ((List.range (N * (Y * X))).filterMap (fun k => if keptAt Y X mask k = true then Grid.Spec.point q img k else none)) =
      Spec.voxelValues store c lam ub mode angles stack mask g a b k := by
    unfold Grid.Spec.values Spec.voxelValues
    rw [List.filterMap_filterMap, range_pixels, List.filterMap_map]
    apply List.filterMap_congr
    rintro ⟨n, j, i⟩ hp
    obtain ⟨hn, hj, hi⟩ := (mem_pixels N Y X _).1 hp
    simp only at hn hj hi
    have hrn : angles[n]? = some angles[n] := List.getElem?_eq_getElem hn
    have hrow := hget n j i _ hrn hj hi
    obtain ⟨row, hr1, hr2⟩ := Option.map_eq_some_iff.1 hrow
    have hpoint : Grid.Spec.point q img (n * (Y * X) + (j * X + i)) = some (Spec.pointOf store c lam ub mode (angles.getD n []) j i (stack n j i)) := by
      unfold Grid.Spec.point
      rw [himg, get_pixels N Y X _ n j i hn hj hi, hq, List.getElem?_map, hr1]
      simp only [Option.map_some]
      unfold Spec.pointOf
      rw [List.getD_eq_getElem?_getD, hrn, Option.getD_some, ← hr2]
      rfl
    have hmask : keptAt Y X mask (n * (Y * X) + (j * X + i)) = Spec.unmasked mask j i := by
      cases mask with
      | none => rfl
      | some m =>
        simp only [Spec.unmasked, keptAt, Grid.Spec.kept, if_true]
        have hji : j * X + i < Y * X := by
          have := flat_lt 1 Y X 0 j i (by omega) hj hi
          simpa using this
        rw [Nat.mul_comm n, Nat.mul_add_mod, Nat.mod_eq_of_lt hji]
        have := get_pixels 1 Y X (fun p => m p.2.1 p.2.2) 0 j i (by omega) hj hi
        rw [Nat.zero_mul, Nat.zero_add] at this
        rw [this]
        simp
    simp only [Function.comp]
    rw [hmask, hpoint]
    by_cases hu : Spec.unmasked mask j i = true
    · simp only [hu, if_true, true_and, Option.bind_some]
      rfl
    · simp [hu]
  rw [hvals] at h41
  refine ⟨h41, ?_⟩
  rw [h41]
  unfold Grid.mean
  simp only [List.length_eq_zero_iff]

/-- A detector of one pixel on the axis: at angles 0 the scattering vector is 0. -/
example : ∃ rows pts, processToQ [[0, 0, 0, 0, 0, 0]] ⟨1, 1, 1, 1, 0, 0, 100⟩ 1 1 none ⟨fun _ => 5, fun _ => 5, fun _ _ => 5⟩ Spec.oneThread = .ok rows ∧
    Grid.gridPoints [1, 1, 1] [some 7] (rows.map (fun r => ((⌊r.1⌋ : ℚ), (⌊r.2.1⌋ : ℚ), (⌊r.2.2⌋ : ℚ)))) none = .ok pts ∧
    ∀ ev, Grid.Spec.Schedules 2 pts ev → Grid.mean (Grid.out id ⟨⟨-1, 1, 1⟩, ⟨-1, 1, 1⟩, ⟨-1, 1, 1⟩⟩ 2 Grid.zeroed ev 0) = some 7 := by
  obtain ⟨rows, pts, h1, h2, h3⟩ := C229_map [[0, 0, 0, 0, 0, 0]] (by simp) (by simp) ⟨1, 1, 1, 1, 0, 0, 100⟩ 1 1 (by simp) none 4 rfl ⟨fun _ => 5, fun _ => 5, fun _ _ => 5⟩ Spec.oneThread
    oneThread_isExecution (fun x => (⌊x⌋ : ℚ)) (fun _ _ _ => some 7) none ⟨⟨-1, 1, 1⟩, ⟨-1, 1, 1⟩, ⟨-1, 1, 1⟩⟩ (by unfold Grid.Spec.Proper; norm_num) 2 (by norm_num)
  refine ⟨rows, pts, h1, h2, ?_⟩
  intro ev hev
  have := (h3 ev hev 0 0 0 (by norm_num) (by norm_num) (by norm_num)).2
  have hv : Spec.voxelValues (fun x => (⌊x⌋ : ℚ)) ⟨1, 1, 1, 1, 0, 0, 100⟩ 1 1 4 [[0, 0, 0, 0, 0, 0]] (fun _ _ _ => some 7) none ⟨⟨-1, 1, 1⟩, ⟨-1, 1, 1⟩, ⟨-1, 1, 1⟩⟩ 0 0 0 = [7] := by
    have hz : Spec.inFrame ⟨1, 1, 1, 1, 0, 0, 100⟩ 1 1 4 (Spec.Angles.ofDegrees [0, 0, 0, 0, 0, 0]) 0 0 = 0 := by
      have : Spec.kOut 0 0 = Spec.kIn 0 := by simp [Spec.kOut, Spec.kIn]
      simp [Spec.inFrame, Spec.Angles.ofDegrees, Spec.delta, Spec.gamma, Spec.qPhi, Spec.qTheta, this]
      ext k
      fin_cases k <;> simp [Spec.axes]
    have hp : Spec.pixels 1 1 1 = [(0, 0, 0)] := by decide
    have hpt : ∀ v, Spec.pointOf (fun x => (⌊x⌋ : ℚ)) ⟨1, 1, 1, 1, 0, 0, 100⟩ 1 1 4 [0, 0, 0, 0, 0, 0] 0 0 v = ⟨0, 0, 0, v⟩ := by
      intro v
      unfold Spec.pointOf
      rw [hz]
      simp
    unfold Spec.voxelValues
    show (Spec.pixels 1 1 1).filterMap _ = _
    rw [hp, List.filterMap_cons, if_pos]
    · rfl
    · refine ⟨rfl, ?_⟩
      show Grid.Spec.inVoxel _ _ _ _ (Spec.pointOf _ _ _ _ _ [0, 0, 0, 0, 0, 0] 0 0 _)
      rw [hpt]
      norm_num [Grid.Spec.inVoxel, Grid.Spec.inBin]
  rw [hv] at this
  simpa [Grid.flat] using this

end Verif.Recip
