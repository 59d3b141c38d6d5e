/- Property C241: how the scattering vectors reported by process_to_q for related calls are related. -/
import Verif.Recip.Map

namespace Verif.Recip
open Verif Real Matrix

/-! ## Specification -/

/-- Another unit of length for pixel sizes and distance. -/
def Spec.rescaled (k : ℝ) (c : Ccd) : Ccd := { c with xPix := k * c.xPix, yPix := k * c.yPix, dist := k * c.dist }

/-- The part of a detector with `w` columns from column u on and `h` rows from row v on, described with the same beam centre. -/
def Spec.cutOut (u v w h : ℕ) (c : Ccd) : Ccd := { c with xSize := w, ySize := h, xCen := c.xCen - u, yCen := c.yCen - v }

/-- Rotation of the axes of the UB matrix about the third one. -/
noncomputable def Spec.rotZ (t : ℝ) : Matrix (Fin 3) (Fin 3) ℝ := !![cos t, -sin t, 0; sin t, cos t, 0; 0, 0, 1]

/-- A table of angles in which the angle phi (column 3) of every image is larger by t degrees. -/
noncomputable def Spec.turned (t : ℝ) (angles : List (List ℝ)) : List (List ℝ) := angles.map (fun r => r.set 3 (r.getD 3 0 + t))

/-- The angles of the two tables differ by full turns. -/
def Spec.FullTurns (angles angles' : List (List ℝ)) : Prop :=
  List.Forall₂ (fun r r' => List.Forall₂ (fun (x x' : ℝ) => ∃ z : ℤ, x' = x + z * 360) r r') angles angles'

/-! ## Proofs -/

/-- A vector as a row. -/
def toRow (v : Fin 3 → ℝ) : ℝ × ℝ × ℝ := (v 0, v 1, v 2)

theorem toRow_ofRow (r : ℝ × ℝ × ℝ) : toRow (Spec.ofRow r) = r := rfl

theorem ofRow_toRow (v : Fin 3 → ℝ) : Spec.ofRow (toRow v) = v := by
  funext k; fin_cases k <;> rfl

/-- The rows to be returned. -/
noncomputable def rowsOf (angles : List (List ℝ)) (c : Ccd) (lam : ℝ) (ub : Matrix (Fin 3) (Fin 3) ℝ) (mode : ℕ) : List (ℝ × ℝ × ℝ) :=
  (Spec.pixels angles.length c.ySize c.xSize).map (fun p => toRow (Spec.inFrame c lam ub mode (Spec.Angles.ofDegrees (angles.getD p.1 [])) p.2.1 p.2.2))

/-- All rows of a call. -/
theorem processToQ_eq (angles : List (List ℝ)) (h6 : ∀ r ∈ angles, r.length = 6) (c : Ccd) (lam : ℝ)
    (ub : Matrix (Fin 3) (Fin 3) ℝ) (hub : ub.det ≠ 0) (frame : Option String) (mode : ℕ)
    (hf : Spec.modeOf frame = some mode) (s : St) (sched : List (List Instr) → List (ℕ × Instr))
    (hs : ∀ turns, IsExecution turns (sched turns)) :
    processToQ angles c lam ub frame s sched = .ok (rowsOf angles c lam ub mode) := by
  unfold rowsOf
  obtain ⟨rows, h1, h2, h3⟩ := C126_every_schedule angles h6 c lam ub hub frame mode hf s sched hs
  rw [h1]
  congr 1
  have e : rows = (List.range (angles.length * (c.ySize * c.xSize))).map (fun k => (rows[k]?).getD (0, 0, 0)) := by
    apply List.ext_getElem
    · simp [h2, Nat.mul_comm]
    · intro k k1 k2; simp [k1]
  rw [e, range_pixels, List.map_map]
  apply List.map_congr_left
  rintro ⟨n, j, i⟩ hp
  obtain ⟨hn, hj, hi⟩ := (mem_pixels _ _ _ _).1 hp
  have h4 := h3 n j i _ (List.getElem?_eq_getElem hn) hj hi
  rw [Nat.mul_comm c.xSize] at h4
  have hg : angles.getD n [] = angles[n] := by simp [List.getD_eq_getElem?_getD, hn]
  simp only [Function.comp_apply, hg]
  cases hx : rows[n * (c.ySize * c.xSize) + (j * c.xSize + i)]? with
  | none => rw [hx] at h4; cases h4
  | some r =>
    rw [hx] at h4
    simp only [Option.map_some, Option.some.injEq] at h4
    rw [Option.getD_some, ← h4, toRow_ofRow]

theorem pixels_add (N M Y X : ℕ) : Spec.pixels (N + M) Y X = Spec.pixels N Y X ++ (Spec.pixels M Y X).map (fun p => (N + p.1, p.2.1, p.2.2)) := by
  unfold Spec.pixels
  rw [List.range_add, List.flatMap_append, List.flatMap_map]
  simp [List.map_flatMap, Function.comp_def]

/-! ## C241 -/

/-- The rows of a stack of images are those of its first part followed by those of the rest, for any schedules of the three calls. -/
theorem C241_stack (a₁ a₂ : List (List ℝ)) (h6 : ∀ r ∈ a₁ ++ a₂, r.length = 6) (c : Ccd) (lam : ℝ)
    (ub : Matrix (Fin 3) (Fin 3) ℝ) (hub : ub.det ≠ 0) (frame : Option String) (hf : (Spec.modeOf frame).isSome)
    (s s₁ s₂ : St) (sched sched₁ sched₂ : List (List Instr) → List (ℕ × Instr))
    (hs : ∀ turns, IsExecution turns (sched turns)) (hs₁ : ∀ turns, IsExecution turns (sched₁ turns)) (hs₂ : ∀ turns, IsExecution turns (sched₂ turns)) :
    ∃ rows₁ rows₂, processToQ a₁ c lam ub frame s₁ sched₁ = .ok rows₁ ∧ processToQ a₂ c lam ub frame s₂ sched₂ = .ok rows₂ ∧
      processToQ (a₁ ++ a₂) c lam ub frame s sched = .ok (rows₁ ++ rows₂) := by
  obtain ⟨mode, hf⟩ := Option.isSome_iff_exists.1 hf
  refine ⟨rowsOf a₁ c lam ub mode, rowsOf a₂ c lam ub mode, processToQ_eq a₁ (fun r h => h6 r (by simp [h])) c lam ub hub frame mode hf s₁ sched₁ hs₁,
    processToQ_eq a₂ (fun r h => h6 r (by simp [h])) c lam ub hub frame mode hf s₂ sched₂ hs₂, ?_⟩
  rw [processToQ_eq _ h6 c lam ub hub frame mode hf s sched hs]
  unfold rowsOf
  rw [List.length_append, pixels_add, List.map_append, List.map_map]
  refine congrArg Except.ok (congrArg₂ (· ++ ·) ?_ ?_)
  · apply List.map_congr_left
    intro p hp
    have := ((mem_pixels _ _ _ _).1 hp).1
    simp [List.getD_eq_getElem?_getD, List.getElem?_append_left this]
  · apply List.map_congr_left
    intro p hp
    simp [List.getD_eq_getElem?_getD, List.getElem?_append_right]

section
variable (angles : List (List ℝ)) (h6 : ∀ r ∈ angles, r.length = 6) (c : Ccd) (lam : ℝ)
    (ub : Matrix (Fin 3) (Fin 3) ℝ) (hub : ub.det ≠ 0) (frame : Option String) (hf : (Spec.modeOf frame).isSome)
    (s s' : St) (sched sched' : List (List Instr) → List (ℕ × Instr))
    (hs : ∀ turns, IsExecution turns (sched turns)) (hs' : ∀ turns, IsExecution turns (sched' turns))
include h6 hub hf hs hs'

/-- With a wavelength k times as long all components are k times smaller. -/
theorem C241_wavelength (k : ℝ) :
    ∃ rows, processToQ angles c lam ub frame s sched = .ok rows ∧
      processToQ angles c (k * lam) ub frame s' sched' = .ok (rows.map (fun r => (r.1 / k, r.2.1 / k, r.2.2 / k))) := by
  obtain ⟨mode, hf⟩ := Option.isSome_iff_exists.1 hf
  refine ⟨rowsOf angles c lam ub mode, processToQ_eq angles h6 c lam ub hub frame mode hf s sched hs, ?_⟩
  rw [processToQ_eq angles h6 c (k * lam) ub hub frame mode hf s' sched' hs']
  unfold rowsOf
  rw [List.map_map]
  refine congrArg Except.ok ?_
  apply List.map_congr_left
  intro p _
  have key : Spec.inFrame c (k * lam) ub mode (Spec.Angles.ofDegrees (angles.getD p.1 [])) p.2.1 p.2.2 =
      k⁻¹ • Spec.inFrame c lam ub mode (Spec.Angles.ofDegrees (angles.getD p.1 [])) p.2.1 p.2.2 := by
    have h1 : ∀ a d g, Spec.qTheta (k * lam) a d g = k⁻¹ • Spec.qTheta lam a d g := by
      intro a d g
      unfold Spec.qTheta
      rw [smul_smul]
      congr 1
      rw [div_eq_mul_inv, mul_inv, div_eq_mul_inv]; ring
    have h2 : ∀ a d g, Spec.qPhi (k * lam) a d g = k⁻¹ • Spec.qPhi lam a d g := by
      intro a d g
      unfold Spec.qPhi
      rw [h1, Matrix.mulVec_smul, Matrix.mulVec_smul]
    have h3 : ∀ v : Fin 3 → ℝ, Spec.axes (k⁻¹ • v) = k⁻¹ • Spec.axes v := by
      intro v; funext l; fin_cases l <;> simp [Spec.axes]
    unfold Spec.inFrame
    split_ifs
    · exact h1 _ _ _
    · rw [h2, h3, Matrix.mulVec_smul]
    · exact h2 _ _ _
  simp only [Function.comp_apply, key]
  simp [toRow, div_eq_inv_mul]

/-- The unit in which pixel sizes and the distance are given does not matter. -/
theorem C241_length_units (k : ℝ) (hk : k ≠ 0) :
    ∃ rows, processToQ angles c lam ub frame s sched = .ok rows ∧ processToQ angles (Spec.rescaled k c) lam ub frame s' sched' = .ok rows := by
  obtain ⟨mode, hf⟩ := Option.isSome_iff_exists.1 hf
  refine ⟨rowsOf angles c lam ub mode, processToQ_eq angles h6 c lam ub hub frame mode hf s sched hs, ?_⟩
  rw [processToQ_eq angles h6 (Spec.rescaled k c) lam ub hub frame mode hf s' sched' hs']
  unfold rowsOf
  have h1 : ∀ a j, Spec.delta (Spec.rescaled k c) a j = Spec.delta c a j := by
    intro a j
    unfold Spec.delta Spec.rescaled
    simp only
    rw [show ((j : ℝ) - c.yCen) * (k * c.yPix) = k * (((j : ℝ) - c.yCen) * c.yPix) by ring, mul_div_mul_left _ _ hk]
  have h2 : ∀ a j, Spec.gamma (Spec.rescaled k c) a j = Spec.gamma c a j := by
    intro a j
    unfold Spec.gamma Spec.rescaled
    simp only
    rw [show ((j : ℝ) - c.xCen) * (k * c.xPix) = k * (((j : ℝ) - c.xCen) * c.xPix) by ring, mul_div_mul_left _ _ hk]
  refine congrArg Except.ok ?_
  apply List.map_congr_left
  intro p _
  unfold Spec.inFrame
  simp only [h1, h2]

/-- A part of the detector gets the vectors it has as a part of the whole. -/
theorem C241_part (u v w h : ℕ) (hw : u + w ≤ c.xSize) (hh : v + h ≤ c.ySize) :
    ∃ rows rows', processToQ angles c lam ub frame s sched = .ok rows ∧ processToQ angles (Spec.cutOut u v w h c) lam ub frame s' sched' = .ok rows' ∧
      rows'.length = angles.length * (h * w) ∧
      ∀ n j i, n < angles.length → j < h → i < w →
        rows'[n * (h * w) + (j * w + i)]? = rows[n * (c.ySize * c.xSize) + ((v + j) * c.xSize + (u + i))]? := by
  obtain ⟨mode, hf⟩ := Option.isSome_iff_exists.1 hf
  refine ⟨rowsOf angles c lam ub mode, rowsOf angles (Spec.cutOut u v w h c) lam ub mode, processToQ_eq angles h6 c lam ub hub frame mode hf s sched hs,
    processToQ_eq angles h6 (Spec.cutOut u v w h c) lam ub hub frame mode hf s' sched' hs', by simp [rowsOf, length_pixels, Spec.cutOut], ?_⟩
  intro n j i hn hj hi
  unfold rowsOf
  have e1 := get_pixels angles.length h w (fun p => toRow (Spec.inFrame (Spec.cutOut u v w h c) lam ub mode (Spec.Angles.ofDegrees (angles.getD p.1 [])) p.2.1 p.2.2)) n j i hn hj hi
  have e2 := get_pixels angles.length c.ySize c.xSize (fun p => toRow (Spec.inFrame c lam ub mode (Spec.Angles.ofDegrees (angles.getD p.1 [])) p.2.1 p.2.2)) n (v + j) (u + i) hn (by omega) (by omega)
  rw [e2]
  refine e1.trans ?_
  have h1 : ∀ a, Spec.delta (Spec.cutOut u v w h c) a j = Spec.delta c a (v + j) := by
    intro a; unfold Spec.delta Spec.cutOut; simp only; push_cast; rw [show ((j : ℝ) - (c.yCen - v)) = (v : ℝ) + j - c.yCen by ring]
  have h2 : ∀ a, Spec.gamma (Spec.cutOut u v w h c) a i = Spec.gamma c a (u + i) := by
    intro a; unfold Spec.gamma Spec.cutOut; simp only; push_cast; rw [show ((i : ℝ) - (c.xCen - u)) = (u : ℝ) + i - c.xCen by ring]
  simp only [Spec.inFrame, h1, h2]

omit hf in
/-- Another choice of the unit cell: with UB replaced by UB M the vector of Miller indices is the one that M takes to the old one. -/
theorem C241_cell (hframe : frame = none ∨ frame = some "hkl") (M : Matrix (Fin 3) (Fin 3) ℝ) (hM : M.det ≠ 0) :
    ∃ rows rows', processToQ angles c lam ub frame s sched = .ok rows ∧ processToQ angles c lam (ub * M) frame s' sched' = .ok rows' ∧
      List.Forall₂ (fun r r' => M *ᵥ Spec.ofRow r' = Spec.ofRow r) rows rows' := by
  have hf : Spec.modeOf frame = some 4 := by rcases hframe with rfl | rfl <;> rfl
  refine ⟨rowsOf angles c lam ub 4, rowsOf angles c lam (ub * M) 4, processToQ_eq angles h6 c lam ub hub frame 4 hf s sched hs,
    processToQ_eq angles h6 c lam (ub * M) (by rw [Matrix.det_mul]; exact mul_ne_zero hub hM) frame 4 hf s' sched' hs', ?_⟩
  unfold rowsOf
  rw [List.forall₂_map_left_iff, List.forall₂_map_right_iff, List.forall₂_same]
  intro p _
  rw [ofRow_toRow, ofRow_toRow]
  simp only [Spec.inFrame, show (4 : ℕ) ≠ 1 by decide, if_false, if_true]
  rw [Matrix.mul_inv_rev, ← Matrix.mulVec_mulVec, Matrix.mulVec_mulVec, Matrix.mul_nonsing_inv _ (isUnit_iff_ne_zero.2 hM), Matrix.one_mulVec]

omit hf in
/-- Turning the sample by the angle phi: the vectors in the phi frame turn with it, those in the theta frame stay. -/
theorem C241_sample_turn (t : ℝ) :
    (∃ rows, processToQ angles c lam ub (some "theta") s sched = .ok rows ∧ processToQ (Spec.turned t angles) c lam ub (some "theta") s' sched' = .ok rows) ∧
    (∀ f, f = "phi" ∨ f = "cart" → ∃ rows rows', processToQ angles c lam ub (some f) s sched = .ok rows ∧
      processToQ (Spec.turned t angles) c lam ub (some f) s' sched' = .ok rows' ∧
      List.Forall₂ (fun r r' => Spec.ofRow r' = Spec.rotX (t * π / 180) *ᵥ Spec.ofRow r) rows rows') ∧
    ∃ rows, processToQ angles c lam ub (some "hkl") s sched = .ok rows ∧
      processToQ (Spec.turned t angles) c lam (Spec.rotZ (t * π / 180) * ub) (some "hkl") s' sched' = .ok rows := by
  have h6' : ∀ r ∈ Spec.turned t angles, r.length = 6 := by
    intro r hr
    obtain ⟨r0, h0, rfl⟩ := List.mem_map.1 hr
    rw [List.length_set]; exact h6 r0 h0
  have hlen : (Spec.turned t angles).length = angles.length := by simp [Spec.turned]
  have hget : ∀ n < angles.length, (Spec.turned t angles).getD n [] = (angles.getD n []).set 3 ((angles.getD n []).getD 3 0 + t) := by
    intro n hn
    simp [Spec.turned, List.getD_eq_getElem?_getD, hn]
  have hang : ∀ n < angles.length, Spec.Angles.ofDegrees ((Spec.turned t angles).getD n []) =
      { Spec.Angles.ofDegrees (angles.getD n []) with phi := (Spec.Angles.ofDegrees (angles.getD n [])).phi + t * π / 180 } := by
    intro n hn
    rw [hget n hn]
    have hl : (angles.getD n []).length = 6 := by
      have : angles.getD n [] = angles[n] := by simp [List.getD_eq_getElem?_getD, hn]
      rw [this]; exact h6 _ (List.getElem_mem hn)
    generalize angles.getD n [] = r at hl
    match r, hl with
    | [x0, x1, x2, x3, x4, x5], _ =>
      simp only [Spec.Angles.ofDegrees, List.set, List.getD_cons_zero, List.getD_cons_succ]
      rw [show (x3 + t) * π / 180 = x3 * π / 180 + t * π / 180 by ring]
  have hrot : ∀ (a : Spec.Angles) (x : ℝ) d g, Spec.qPhi lam { a with phi := a.phi + x } d g = Spec.rotX x *ᵥ Spec.qPhi lam a d g := by
    intro a x d g
    unfold Spec.qPhi
    rw [Matrix.mulVec_mulVec (M := Spec.rotX x)]
    congr 1
    simp only [Spec.rotX]
    ext i j
    fin_cases i <;> fin_cases j <;> simp [Matrix.mul_apply, Fin.sum_univ_three, cos_add, sin_add] <;> ring
  have hd : ∀ (a : Spec.Angles) x j, Spec.delta c { a with phi := x } j = Spec.delta c a j := fun _ _ _ => rfl
  have hq : ∀ (a : Spec.Angles) x d g, Spec.qTheta lam { a with phi := x } d g = Spec.qTheta lam a d g := fun _ _ _ _ => rfl
  have hg : ∀ (a : Spec.Angles) x j, Spec.gamma c { a with phi := x } j = Spec.gamma c a j := fun _ _ _ => rfl
  refine ⟨?_, ?_, ?_⟩
  · refine ⟨rowsOf angles c lam ub 1, processToQ_eq angles h6 c lam ub hub _ 1 rfl s sched hs, ?_⟩
    rw [processToQ_eq _ h6' c lam ub hub _ 1 rfl s' sched' hs']
    unfold rowsOf
    rw [hlen]
    refine congrArg Except.ok ?_
    apply List.map_congr_left
    intro p hp
    rw [hang _ ((mem_pixels _ _ _ _).1 hp).1]
    simp only [Spec.inFrame, if_true, hd, hg, hq]
  · intro f hf
    obtain ⟨m, hm, hm1, hm4⟩ : ∃ m, Spec.modeOf (some f) = some m ∧ m ≠ 1 ∧ m ≠ 4 := by
      rcases hf with rfl | rfl
      · exact ⟨2, rfl, by decide, by decide⟩
      · exact ⟨3, rfl, by decide, by decide⟩
    refine ⟨rowsOf angles c lam ub m, rowsOf (Spec.turned t angles) c lam ub m, processToQ_eq angles h6 c lam ub hub _ m hm s sched hs,
      processToQ_eq _ h6' c lam ub hub _ m hm s' sched' hs', ?_⟩
    unfold rowsOf
    rw [hlen, List.forall₂_map_left_iff, List.forall₂_map_right_iff, List.forall₂_same]
    intro p hp
    rw [ofRow_toRow, ofRow_toRow, hang _ ((mem_pixels _ _ _ _).1 hp).1]
    simp only [Spec.inFrame, if_neg hm1, if_neg hm4, hd, hg, hrot]
  · have hZ : (Spec.rotZ (t * π / 180)).det = 1 := by
      simp [Spec.rotZ, Matrix.det_fin_three]
      linarith [Real.cos_sq_add_sin_sq (t * π / 180)]
    have hZu : IsUnit (Spec.rotZ (t * π / 180)).det := by rw [hZ]; exact isUnit_one
    refine ⟨rowsOf angles c lam ub 4, processToQ_eq angles h6 c lam ub hub _ 4 rfl s sched hs, ?_⟩
    rw [processToQ_eq _ h6' c lam (Spec.rotZ (t * π / 180) * ub) (by rw [Matrix.det_mul, hZ, one_mul]; exact hub) _ 4 rfl s' sched' hs']
    unfold rowsOf
    rw [hlen]
    refine congrArg Except.ok ?_
    apply List.map_congr_left
    intro p hp
    rw [hang _ ((mem_pixels _ _ _ _).1 hp).1]
    simp only [Spec.inFrame, show (4 : ℕ) ≠ 1 by decide, if_false, if_true, hd, hg, hrot]
    have hax : ∀ v, Spec.axes (Spec.rotX (t * π / 180) *ᵥ v) = Spec.rotZ (t * π / 180) *ᵥ Spec.axes v := by
      intro v
      funext l
      fin_cases l <;> simp [Spec.axes, Spec.rotX, Spec.rotZ, Matrix.mulVec, dotProduct, Fin.sum_univ_three] <;> ring
    rw [hax, Matrix.mul_inv_rev, ← Matrix.mulVec_mulVec, Matrix.mulVec_mulVec _ _ (Spec.rotZ (t * π / 180)), Matrix.nonsing_inv_mul _ hZu, Matrix.one_mulVec]

/-- Full turns of any of the six circles change nothing. -/
theorem C241_full_turns (angles' : List (List ℝ)) (ht : Spec.FullTurns angles angles') :
    ∃ rows, processToQ angles c lam ub frame s sched = .ok rows ∧ processToQ angles' c lam ub frame s' sched' = .ok rows := by
  obtain ⟨mode, hf⟩ := Option.isSome_iff_exists.1 hf
  have hlen := List.Forall₂.length_eq ht
  have h6' : ∀ r ∈ angles', r.length = 6 := by
    intro r hr
    obtain ⟨n, hn, rfl⟩ := List.getElem_of_mem hr
    have := List.Forall₂.get ht (i := n) (by omega) hn
    simp only [List.get_eq_getElem] at this
    rw [← List.Forall₂.length_eq this]
    exact h6 _ (List.getElem_mem _)
  refine ⟨rowsOf angles c lam ub mode, processToQ_eq angles h6 c lam ub hub frame mode hf s sched hs, ?_⟩
  rw [processToQ_eq angles' h6' c lam ub hub frame mode hf s' sched' hs']
  unfold rowsOf
  rw [← hlen]
  refine congrArg Except.ok ?_
  apply List.map_congr_left
  intro p hp
  have hn := ((mem_pixels _ _ _ _).1 hp).1
  have hr := List.Forall₂.get ht (i := p.1) hn (by omega)
  simp only [List.get_eq_getElem] at hr
  have e1 : angles.getD p.1 [] = angles[p.1] := by simp [List.getD_eq_getElem?_getD, hn]
  have e2 : angles'.getD p.1 [] = angles'[p.1]'(by omega) := by
    have : p.1 < angles'.length := by omega
    simp [List.getD_eq_getElem?_getD, this]
  rw [e1, e2]
  have hl := h6 _ (List.getElem_mem hn)
  have hl' := h6' _ (List.getElem_mem (show p.1 < angles'.length by omega))
  generalize angles[p.1] = r at hr hl
  generalize angles'[p.1]'(by omega) = r' at hr hl'
  match r, r', hl, hl', hr with
  | [x0, x1, x2, x3, x4, x5], [y0, y1, y2, y3, y4, y5], _, _, hr =>
    simp only [List.forall₂_cons] at hr
    obtain ⟨⟨z0, rfl⟩, ⟨z1, rfl⟩, ⟨z2, rfl⟩, ⟨z3, rfl⟩, ⟨z4, rfl⟩, ⟨z5, rfl⟩, -⟩ := hr
    have conv : ∀ (x : ℝ) (z : ℤ), (x + z * 360) * π / 180 = x * π / 180 + z * (2 * π) := by intro x z; ring
    have sub1 : ∀ (x y : ℝ) (z : ℤ), x + z * (2 * π) - y = (x - y) + z * (2 * π) := by intro x y z; ring
    simp only [Spec.Angles.ofDegrees, List.getD_cons_zero, List.getD_cons_succ, conv, Spec.inFrame, Spec.qPhi, Spec.qTheta, Spec.rotX, Spec.rotY, Spec.kIn, Spec.kOut,
      Spec.delta, Spec.gamma, sub1, Real.cos_add_int_mul_two_pi, Real.sin_add_int_mul_two_pi]

end

/-- The hypotheses are met: a small detector, two images, angles that differ by full turns. -/
theorem laws_example (s : St) : ∃ rows, processToQ [[10, 5, 0, 0, 0, 0], [10, 5, 90, 30, 0, 2]] ⟨3, 2, 1 / 10, 1 / 10, 1, 1, 500⟩ 1 1 (some "hkl") s Spec.oneThread = .ok rows ∧
    processToQ [[370, 5, 0, -360, 0, 0], [10, 5, 90, 30, 720, 2]] ⟨3, 2, 1 / 10, 1 / 10, 1, 1, 500⟩ 1 1 (some "hkl") s Spec.oneThread = .ok rows := by
  refine C241_full_turns _ (by simp) _ _ _ (by simp) _ (by decide) s s _ _ oneThread_isExecution oneThread_isExecution _ ?_
  refine .cons ?_ (.cons ?_ .nil)
  · refine .cons ⟨1, by norm_num⟩ (.cons ⟨0, by norm_num⟩ (.cons ⟨0, by norm_num⟩ (.cons ⟨-1, by norm_num⟩ (.cons ⟨0, by norm_num⟩ (.cons ⟨0, by norm_num⟩ .nil)))))
  · refine .cons ⟨0, by norm_num⟩ (.cons ⟨0, by norm_num⟩ (.cons ⟨0, by norm_num⟩ (.cons ⟨0, by norm_num⟩ (.cons ⟨2, by norm_num⟩ (.cons ⟨0, by norm_num⟩ .nil)))))

end Verif.Recip
