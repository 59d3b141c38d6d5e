import Verif.Recip.Props

namespace Verif.Recip
open Verif Real Matrix

/-! ## C129: frames and argument checks -/

/-- C129 (part that holds): the call succeeds exactly when every row has six angles, the frame is one of the documented
names (or none) and UB is invertible; otherwise it raises KeyError (unknown frame) or ValueError.  Missing for the full
property: "cart" is not a frame of its own (`C129_cart_is_phi_refuted`). -/
theorem C129_accepts_iff_partial (angles : List (List ℝ)) (c : Ccd) (lam : ℝ) (ub : Matrix (Fin 3) (Fin 3) ℝ)
    (frame : Option String) (s : St) (sched : List (List Instr) → List (ℕ × Instr)) :
    ((∃ rows, processToQ angles c lam ub frame s sched = .ok rows) ↔
      (frame = none ∨ frame = some "theta" ∨ frame = some "phi" ∨ frame = some "cart" ∨ frame = some "hkl") ∧
      (∀ r ∈ angles, r.length = 6) ∧ ub.det ≠ 0) ∧
    ((¬ (frame = none ∨ frame = some "theta" ∨ frame = some "phi" ∨ frame = some "cart" ∨ frame = some "hkl")) →
      processToQ angles c lam ub frame s sched = .error .keyError) ∧
    ((frame = none ∨ frame = some "theta" ∨ frame = some "phi" ∨ frame = some "cart" ∨ frame = some "hkl") →
      ¬ ((∀ r ∈ angles, r.length = 6) ∧ ub.det ≠ 0) →
      processToQ angles c lam ub frame s sched = .error .valueError) := by
  have hmode : (∃ m, Spec.modeOf frame = some m) ↔
      (frame = none ∨ frame = some "theta" ∨ frame = some "phi" ∨ frame = some "cart" ∨ frame = some "hkl") := by
    cases frame with
    | none => simp [Spec.modeOf]
    | some f =>
      simp only [Spec.modeOf, Option.some.injEq, reduceCtorEq, false_or]
      by_cases h1 : f = "theta"
      · simp [h1]
      by_cases h2 : f = "phi"
      · simp [h2]
      by_cases h3 : f = "cart"
      · simp [h3]
      by_cases h4 : f = "hkl"
      · simp [h4]
      simp [h1, h2, h3, h4]
  rw [← hmode]
  unfold processToQ
  rw [frameMode_eq]
  cases hf : Spec.modeOf frame with
  | none => simp [bind, Except.bind]
  | some m =>
    by_cases h6 : ∀ r ∈ angles, r.length = 6
    · by_cases hub : ub.det = 0
      · simp [bind, Except.bind, checkAngles, if_pos h6, hub]
      · simp only [bind, Except.bind, checkAngles, if_pos h6, hub, if_false]
        exact ⟨⟨fun _ => ⟨⟨m, rfl⟩, h6, hub⟩, fun _ => ⟨_, rfl⟩⟩, fun h => absurd ⟨m, rfl⟩ h, fun _ h => absurd ⟨h6, hub⟩ h⟩
    · simp [bind, Except.bind, checkAngles, if_neg h6, h6]

/-- C129 is false for "cart": for all arguments the "crystal cartesian frame" is the phi frame; the orientation matrix is not
used. -/
theorem C129_cart_is_phi_refuted (angles : List (List ℝ)) (c : Ccd) (lam : ℝ) (ub ub' : Matrix (Fin 3) (Fin 3) ℝ)
    (hub : ub.det ≠ 0) (hub' : ub'.det ≠ 0) (s : St) (sched : List (List Instr) → List (ℕ × Instr)) :
    processToQ angles c lam ub (some "cart") s sched = processToQ angles c lam ub' (some "phi") s sched := by
  unfold processToQ
  simp only [frameMode, bind, Except.bind]
  cases checkAngles angles with
  | error e => rfl
  | ok an => simp [hub, hub', turn]

/-! ## C130: flat detector -/

/-- Direction from the sample to the point of a flat detector, perpendicular to the direct beam at distance 1, that lies x to
the right and y below the direct beam (not normalised), in the axes of `Spec.kOut`. -/
def Spec.ray (x y : ℝ) : Fin 3 → ℝ := ![x, 1, -y]

theorem kOut_on_axis (c : Ccd) (a : Spec.Angles) (hd : a.delta = 0) (hg : a.gamma = 0) (j i : ℕ)
    (h : (j : ℝ) = c.yCen ∨ (i : ℝ) = c.xCen) :
    ∃ t : ℝ, 0 < t ∧ Spec.kOut (Spec.delta c a j) (Spec.gamma c a i) =
      t • Spec.ray (((i : ℝ) - c.xCen) * c.xPix / c.dist) (((j : ℝ) - c.yCen) * c.yPix / c.dist) := by
  simp only [Spec.delta, Spec.gamma, hd, hg, zero_sub]
  set x := ((i : ℝ) - c.xCen) * c.xPix / c.dist with hx
  set y := ((j : ℝ) - c.yCen) * c.yPix / c.dist with hy
  have key : ∀ z, sin (arctan z) = cos (arctan z) * z := by
    intro z
    have h1 := tan_arctan z
    rw [tan_eq_sin_div_cos, div_eq_iff (cos_arctan_pos z).ne'] at h1
    linarith
  rcases h with h | h
  · have h0 : y = 0 := by rw [hy, h]; simp
    refine ⟨cos (arctan x), cos_arctan_pos x, ?_⟩
    rw [h0]
    funext k
    fin_cases k <;> simp [Spec.kOut, Spec.ray, key x]
  · have h0 : x = 0 := by rw [hx, h]; simp
    refine ⟨cos (arctan y), cos_arctan_pos y, ?_⟩
    rw [h0]
    funext k
    fin_cases k <;> simp [Spec.kOut, Spec.ray, key y]

theorem kOut_off_axis (c : Ccd) (hp : 0 < c.xPix) (hq : 0 < c.yPix) (hdist : 0 < c.dist) (a : Spec.Angles)
    (hd : a.delta = 0) (hg : a.gamma = 0) (j i : ℕ) (hj : (j : ℝ) ≠ c.yCen) (hi : (i : ℝ) ≠ c.xCen) (t : ℝ) :
    Spec.kOut (Spec.delta c a j) (Spec.gamma c a i) ≠
      t • Spec.ray (((i : ℝ) - c.xCen) * c.xPix / c.dist) (((j : ℝ) - c.yCen) * c.yPix / c.dist) := by
  simp only [Spec.delta, Spec.gamma, hd, hg, zero_sub]
  have hx : ((i : ℝ) - c.xCen) * c.xPix / c.dist ≠ 0 := by
    have := sub_ne_zero.2 hi; positivity
  have hy : ((j : ℝ) - c.yCen) * c.yPix / c.dist ≠ 0 := by
    have := sub_ne_zero.2 hj; positivity
  generalize ((i : ℝ) - c.xCen) * c.xPix / c.dist = x at hx
  generalize ((j : ℝ) - c.yCen) * c.yPix / c.dist = y at hy
  intro h
  have h0 := congrFun h 0
  have h1 := congrFun h 1
  simp [Spec.kOut, Spec.ray] at h0 h1
  have key : sin (arctan x) = cos (arctan x) * x := by
    have h1 := tan_arctan x
    rw [tan_eq_sin_div_cos, div_eq_iff (cos_arctan_pos x).ne'] at h1
    linarith
  rw [key, ← h1] at h0
  have hc : cos (arctan x) * x ≠ 0 := mul_ne_zero (cos_arctan_pos x).ne' hx
  have hcos : cos (arctan y) = 1 := by
    apply mul_right_cancel₀ hc
    linarith
  have : cos (arctan y) < 1 := by
    rw [cos_arctan, div_lt_one (by positivity)]
    have : 0 < y ^ 2 := by positivity
    rw [lt_sqrt (by norm_num)]
    linarith
  linarith

theorem rotX_injective (t : ℝ) (v w : Fin 3 → ℝ) (h : Spec.rotX t *ᵥ v = Spec.rotX t *ᵥ w) : v = w := by
  have h0 := congrFun h 0
  have h1 := congrFun h 1
  have h2 := congrFun h 2
  simp [Spec.rotX, Matrix.mulVec, dotProduct, Fin.sum_univ_three] at h0 h1 h2
  have hc := sin_sq_add_cos_sq t
  funext k
  fin_cases k
  · exact h0
  · show v 1 = w 1
    linear_combination cos t * h1 - sin t * h2 + (w 1 - v 1) * hc
  · show v 2 = w 2
    linear_combination sin t * h1 + cos t * h2 + (w 2 - v 2) * hc

theorem kOut_unit (d g : ℝ) : Spec.sq (Spec.kOut d g) = 1 := by
  simp only [Spec.sq, Spec.kOut, Matrix.cons_val]
  linear_combination sin_sq_add_cos_sq g + cos g ^ 2 * sin_sq_add_cos_sq d

/-- C130 (part that holds): with the detector perpendicular to the direct beam, for pixels in the column or in the row of
the direct beam, the row returned in the theta frame is (2 pi / lambda)(k_out - k_in), turned by theta, with k_out the unit
vector along the ray from the sample to the pixel.  Missing: all other pixels (`C130_off_axis_refuted`). -/
theorem C130_on_axis_partial (angles : List (List ℝ)) (h6 : ∀ r ∈ angles, r.length = 6) (c : Ccd) (lam : ℝ)
    (ub : Matrix (Fin 3) (Fin 3) ℝ) (hub : ub.det ≠ 0) (s : St) (sched : List (List Instr) → List (ℕ × Instr))
    (hs : ∀ turns, IsExecution turns (sched turns)) :
    ∃ rows, processToQ angles c lam ub (some "theta") s sched = .ok rows ∧
      ∀ (n j i : ℕ) (r : List ℝ), angles[n]? = some r → j < c.ySize → i < c.xSize →
        (Spec.Angles.ofDegrees r).delta = 0 → (Spec.Angles.ofDegrees r).gamma = 0 →
        ((j : ℝ) = c.yCen ∨ (i : ℝ) = c.xCen) →
        ∃ t : ℝ, 0 < t ∧
          Spec.sq (t • Spec.ray (((i : ℝ) - c.xCen) * c.xPix / c.dist) (((j : ℝ) - c.yCen) * c.yPix / c.dist)) = 1 ∧
          (rows[n * (c.xSize * c.ySize) + (j * c.xSize + i)]?).map Spec.ofRow = some ((2 * π / lam) •
            (Spec.rotX (Spec.Angles.ofDegrees r).theta *ᵥ
              (t • Spec.ray (((i : ℝ) - c.xCen) * c.xPix / c.dist) (((j : ℝ) - c.yCen) * c.yPix / c.dist) -
                Spec.kIn (Spec.Angles.ofDegrees r).mu))) := by
  obtain ⟨rows, hok, _, hrow⟩ := C126_every_schedule angles h6 c lam ub hub (some "theta") _ rfl s sched hs
  refine ⟨rows, hok, fun n j i r hr hj hi hd hg hax => ?_⟩
  obtain ⟨t, ht, hk⟩ := kOut_on_axis c (Spec.Angles.ofDegrees r) hd hg j i hax
  refine ⟨t, ht, by rw [← hk, kOut_unit], ?_⟩
  rw [hrow n j i r hr hj hi, ← hk]
  rfl

/-- C130 is false: for every pixel that is neither in the row nor in the column of the direct beam, the row returned in the
theta frame is not that of any vector along the ray from the sample to the pixel. -/
theorem C130_off_axis_refuted (angles : List (List ℝ)) (h6 : ∀ r ∈ angles, r.length = 6) (c : Ccd) (hp : 0 < c.xPix)
    (hq : 0 < c.yPix) (hdist : 0 < c.dist) (lam : ℝ) (hlam : 0 < lam)
    (ub : Matrix (Fin 3) (Fin 3) ℝ) (hub : ub.det ≠ 0) (s : St) (sched : List (List Instr) → List (ℕ × Instr))
    (hs : ∀ turns, IsExecution turns (sched turns)) :
    ∃ rows, processToQ angles c lam ub (some "theta") s sched = .ok rows ∧
      ∀ (n j i : ℕ) (r : List ℝ), angles[n]? = some r → j < c.ySize → i < c.xSize →
        (Spec.Angles.ofDegrees r).delta = 0 → (Spec.Angles.ofDegrees r).gamma = 0 →
        (j : ℝ) ≠ c.yCen → (i : ℝ) ≠ c.xCen → ∀ t : ℝ,
          (rows[n * (c.xSize * c.ySize) + (j * c.xSize + i)]?).map Spec.ofRow ≠ some ((2 * π / lam) •
            (Spec.rotX (Spec.Angles.ofDegrees r).theta *ᵥ
              (t • Spec.ray (((i : ℝ) - c.xCen) * c.xPix / c.dist) (((j : ℝ) - c.yCen) * c.yPix / c.dist) -
                Spec.kIn (Spec.Angles.ofDegrees r).mu))) := by
  obtain ⟨rows, hok, _, hrow⟩ := C126_every_schedule angles h6 c lam ub hub (some "theta") _ rfl s sched hs
  refine ⟨rows, hok, fun n j i r hr hj hi hd hg hjc hic t h => ?_⟩
  rw [hrow n j i r hr hj hi, Option.some_inj] at h
  have hne : (2 * π / lam) ≠ 0 := by positivity
  have h2 := rotX_injective _ _ _ (smul_right_injective (Fin 3 → ℝ) hne h)
  exact kOut_off_axis c hp hq hdist (Spec.Angles.ofDegrees r) hd hg j i hjc hic t (sub_left_injective h2)

/-- Non-vacuity: pixel (0, 0) of a detector centred at (5, 5). -/
example : ((0 : ℕ) : ℝ) ≠ (⟨10, 10, 1, 1, 5, 5, 100⟩ : Ccd).yCen := by norm_num

/-! ## C131: grazing incidence, the specular beam -/

theorem arctan2_zero_pos (x : ℝ) (hx : 0 < x) : Geom.arctan2 0 x = 0 := by
  have : (⟨x, 0⟩ : ℂ) = ((x : ℝ) : ℂ) := rfl
  rw [Geom.arctan2, this, Complex.arg_ofReal_of_nonneg hx.le]

theorem arctan2_pos (y x : ℝ) (hx : 0 < x) (hy : 0 < y) : 0 < Geom.arctan2 y x ∧ Geom.arctan2 y x < π / 2 := by
  unfold Geom.arctan2
  have hne : (⟨x, y⟩ : ℂ) ≠ 0 := by
    intro h; have := congrArg Complex.re h; simp at this; linarith
  have h1 : 0 ≤ Complex.arg ⟨x, y⟩ := Complex.arg_nonneg_iff.2 hy.le
  have h2 : |Complex.arg ⟨x, y⟩| < π / 2 := Complex.abs_arg_lt_pi_div_two_iff.2 (Or.inl hx)
  refine ⟨lt_of_le_of_ne h1 ?_, (abs_lt.1 h2).2⟩
  intro h
  have h3 := Complex.arg_eq_zero_iff.1 h.symm
  have := h3.2
  simp at this
  linarith

/-- At the row of the reflected beam the exit angle is the incident angle. -/
theorem alphaF_reflected (g : GisaxsArgs) : g.alphaF g.reflY = g.alphaI := by
  simp [GisaxsArgs.alphaF, GisaxsArgs.alphaI]; ring

/-- C131 (part that holds): at the pixel of the reflected beam the exit angle equals the incident angle; if the sample is not
tilted (reflected beam straight above the direct beam) and the beam is in plane, then q_x = q_y = q_r = 0 there and
q_z = (4 pi / lambda) sin(alpha_i).  Missing: tilted samples (`C131_tilted_refuted`). -/
theorem C131_specular_partial (g : GisaxsArgs) (hx : g.reflX = g.incX) (hy : g.incY < g.reflY) (hp : 0 < g.pix.2)
    (hd : 0 < g.dist) (ht : g.thetaI = 0) :
    g.alphaF g.reflY = g.alphaI ∧ g.qx g.reflY g.reflX = 0 ∧ g.qy g.reflY g.reflX = 0 ∧ g.qr g.reflY g.reflX = 0 ∧
      g.qz g.reflY g.reflX = 4 * π / g.lam * sin g.alphaI := by
  have hpy : 0 < g.py := by unfold GisaxsArgs.py; positivity
  have htilt : g.tilt = 0 := by
    unfold GisaxsArgs.tilt
    rw [hx, sub_self, zero_mul]
    exact arctan2_zero_pos _ (mul_pos (by linarith) hpy)
  have hth : g.thetaF g.reflX = 0 := by
    unfold GisaxsArgs.thetaF
    rw [hx, sub_self, zero_mul, arctan2_zero_pos _ hd, ht]; simp
  have ha := alphaF_reflected g
  have qx0 : g.qx g.reflY g.reflX = 0 := by
    simp [GisaxsArgs.qx, ha, hth, ht]
  have qy0 : g.qy g.reflY g.reflX = 0 := by
    simp [GisaxsArgs.qy, GisaxsArgs.qy_, ha, hth, ht, htilt]
  refine ⟨ha, qx0, qy0, ?_, ?_⟩
  · simp [GisaxsArgs.qr, qx0, qy0]
  · simp [GisaxsArgs.qz, GisaxsArgs.qz_, GisaxsArgs.qy_, ha, hth, ht, htilt, GisaxsArgs.k]; ring

/-- C131 is false for every tilted sample (reflected beam up and to the right of the direct beam): the in-plane component
q_y is positive at the reflected beam itself; the correction by the tilt angle is applied in the wrong sense. -/
theorem C131_tilted_refuted (g : GisaxsArgs) (hx : g.incX < g.reflX) (hy : g.incY < g.reflY) (hp1 : 0 < g.pix.1)
    (hp2 : 0 < g.pix.2) (hd : 0 < g.dist) (hl : 0 < g.lam) (ht : g.thetaI = 0) :
    0 < g.qy g.reflY g.reflX ∧ 0 < g.qr g.reflY g.reflX := by
  have hpx : 0 < g.px := by unfold GisaxsArgs.px; positivity
  have hpy : 0 < g.py := by unfold GisaxsArgs.py; positivity
  have hX : 0 < (g.reflX - g.incX) * g.px := mul_pos (by linarith) hpx
  have hY : 0 < (g.reflY - g.incY) * g.py := mul_pos (by linarith) hpy
  obtain ⟨t1, t2⟩ := arctan2_pos _ _ hY hX
  obtain ⟨a1, a2⟩ := arctan2_pos _ _ hd hY
  obtain ⟨b1, b2⟩ := arctan2_pos _ _ hd hX
  have hpi := pi_pos
  have hai : 0 < g.alphaI ∧ g.alphaI < π / 2 := by unfold GisaxsArgs.alphaI; constructor <;> linarith
  have hth : 2 * g.thetaF g.reflX = Geom.arctan2 ((g.reflX - g.incX) * g.px) g.dist := by
    unfold GisaxsArgs.thetaF; rw [ht]; ring
  have hti : 0 < g.tilt ∧ g.tilt < π / 2 := ⟨t1, t2⟩
  have hk : 0 < g.k := by unfold GisaxsArgs.k; positivity
  have s1 : 0 < sin g.alphaI := sin_pos_of_pos_of_lt_pi hai.1 (by linarith)
  have s2 : 0 < sin g.tilt := sin_pos_of_pos_of_lt_pi hti.1 (by linarith)
  have c1 : 0 < cos g.alphaI := cos_pos_of_mem_Ioo ⟨by linarith, hai.2⟩
  have c2 : 0 < cos g.tilt := cos_pos_of_mem_Ioo ⟨by linarith, hti.2⟩
  have s3 : 0 < sin (2 * g.thetaF g.reflX) := by rw [hth]; exact sin_pos_of_pos_of_lt_pi b1 (by linarith)
  have hqy : 0 < g.qy g.reflY g.reflX := by
    unfold GisaxsArgs.qy GisaxsArgs.qz_ GisaxsArgs.qy_
    rw [alphaF_reflected, ht]
    simp only [mul_zero, sin_zero, sub_zero]
    positivity
  refine ⟨hqy, ?_⟩
  unfold GisaxsArgs.qr
  apply sqrt_pos.2
  positivity

/-- Non-vacuity: reflected beam 10 pixels to the right and 100 above the direct beam. -/
example : ∃ g : GisaxsArgs, g.incX < g.reflX ∧ g.incY < g.reflY ∧ 0 < g.pix.1 ∧ 0 < g.pix.2 ∧ 0 < g.dist ∧ 0 < g.lam ∧
    g.thetaI = 0 := ⟨⟨50, 50, 60, 150, (172, 172), 2, 1, 0⟩, by norm_num, by norm_num, by norm_num, by norm_num, by norm_num,
      by norm_num, rfl⟩

/-! ## C132: grazing incidence, lengths -/

/-- Unit vector at polar angle `alpha` above the surface and azimuth `psi`. -/
noncomputable def Spec.dir (alpha psi : ℝ) : Fin 3 → ℝ := ![cos alpha * cos psi, cos alpha * sin psi, sin alpha]

/-- C132: for every pixel and all arguments, (q_x, q_y, q_z) has the length of (2 pi / lambda)(k_f - k_i), where k_f has
exit angle alpha_f and azimuth 2 theta_f and k_i comes down at alpha_i with azimuth 2 theta_i; it does not depend on the tilt
and is at most 4 pi / lambda; and q_r² + q_z² is its square. -/
theorem C132_length (g : GisaxsArgs) (hl : 0 < g.lam) (y x : ℝ) :
    g.qx y x ^ 2 + g.qy y x ^ 2 + g.qz y x ^ 2 =
      Spec.sq ((2 * π / g.lam) • (Spec.dir (g.alphaF y) (2 * g.thetaF x) - Spec.dir (-g.alphaI) (2 * g.thetaI))) ∧
    g.qr y x ^ 2 + g.qz y x ^ 2 = g.qx y x ^ 2 + g.qy y x ^ 2 + g.qz y x ^ 2 ∧
    sqrt (g.qx y x ^ 2 + g.qy y x ^ 2 + g.qz y x ^ 2) ≤ 4 * π / g.lam := by
  have h1 : g.qx y x ^ 2 + g.qy y x ^ 2 + g.qz y x ^ 2 =
      Spec.sq ((2 * π / g.lam) • (Spec.dir (g.alphaF y) (2 * g.thetaF x) - Spec.dir (-g.alphaI) (2 * g.thetaI))) := by
    rw [sq_smul]
    simp only [Spec.sq, Spec.dir, Pi.sub_apply, Matrix.cons_val_zero, Matrix.cons_val_one, Matrix.cons_val, cos_neg, sin_neg]
    simp only [GisaxsArgs.qx, GisaxsArgs.qy, GisaxsArgs.qz, GisaxsArgs.qy_, GisaxsArgs.qz_, GisaxsArgs.k]
    linear_combination (2 * π / g.lam) ^ 2 * ((sin (g.alphaF y) + sin g.alphaI) ^ 2 +
      (cos (g.alphaF y) * sin (2 * g.thetaF x) - cos g.alphaI * sin (2 * g.thetaI)) ^ 2) * sin_sq_add_cos_sq g.tilt
  have hd : ∀ a p, Spec.sq (Spec.dir a p) = 1 := by
    intro a p
    simp [Spec.sq, Spec.dir]
    linear_combination (cos a ^ 2) * sin_sq_add_cos_sq p + sin_sq_add_cos_sq a
  refine ⟨h1, ?_, ?_⟩
  · rw [GisaxsArgs.qr, sq_sqrt (by positivity)]
  · rw [h1, sq_smul]
    have hb := (dot_bound _ _ (hd (g.alphaF y) (2 * g.thetaF x)) (hd (-g.alphaI) (2 * g.thetaI))).1
    have hpi := pi_pos
    rw [sqrt_le_left (by positivity), sq_sub, hd, hd]
    have hk : 0 ≤ (2 * π / g.lam) ^ 2 := by positivity
    have : (4 * π / g.lam) ^ 2 = (2 * π / g.lam) ^ 2 * 4 := by ring
    rw [this]
    exact mul_le_mul_of_nonneg_left (by linarith) hk

/-! ## C133: grazing incidence, the pixels of the arrays -/

/-- C133 (part that holds): for a square detector entry (y, x) of every returned array is the value at pixel (x, y), and
every pixel has an entry.  Missing: detectors that are not square (`C133_not_square_refuted`). -/
theorem C133_square_partial (n : ℕ) (f : ℝ → ℝ → ℝ) (x y : ℕ) (hx : x < n) (hy : y < n) :
    ((gisaxsArray (n, n) f)[y]?).bind (fun row => row[x]?) = some (f y x) := by
  simp [gisaxsArray, List.getElem?_range, hx, hy]

theorem arctan2_eq_arctan (y x : ℝ) (hx : 0 < x) : Geom.arctan2 y x = arctan (y / x) := by
  rw [Geom.arctan2, Complex.arg, if_pos (by exact hx.le)]
  rw [arctan_eq_arcsin]
  congr 1
  have hn : ‖(⟨x, y⟩ : ℂ)‖ = sqrt (x ^ 2 + y ^ 2) := by
    rw [Complex.norm_def, Complex.normSq_mk]; congr 1; ring
  rw [hn]
  have h1 : sqrt (x ^ 2 + y ^ 2) = x * sqrt (1 + (y / x) ^ 2) := by
    rw [← sqrt_sq hx.le, ← sqrt_mul (by positivity), sqrt_sq hx.le]
    congr 1; field_simp
  rw [h1, div_div]

/-- C133 is false when the detector is larger in Y than in X (detector_size = (nx, ny) with nx < ny): the exit angle of the
pixels in the last row, y = ny - 1, is nowhere in the returned array; the sizes of the two directions are exchanged. -/
theorem C133_not_square_refuted (g : GisaxsArgs) (hp : 0 < g.pix.2) (hd : 0 < g.dist) (nx ny : ℕ) (h : nx < ny)
    (row : List ℝ) (hrow : row ∈ gisaxsArray (nx, ny) (fun y _ => g.alphaF y)) : g.alphaF ((ny - 1 : ℕ) : ℝ) ∉ row := by
  have hpy : 0 < g.py := by unfold GisaxsArgs.py; positivity
  simp only [gisaxsArray, List.mem_map, List.mem_range] at hrow
  obtain ⟨a, ha, rfl⟩ := hrow
  intro hm
  simp only [List.mem_map, List.mem_range] at hm
  obtain ⟨b, _, hb⟩ := hm
  unfold GisaxsArgs.alphaF at hb
  rw [arctan2_eq_arctan _ _ hd, arctan2_eq_arctan _ _ hd] at hb
  have h1 := arctan_injective (by linarith : arctan (((a : ℝ) - g.incY) * g.py / g.dist) = arctan ((((ny - 1 : ℕ) : ℝ) - g.incY) * g.py / g.dist))
  rw [div_left_inj' hd.ne', mul_left_inj' hpy.ne'] at h1
  have h2 : (a : ℝ) = ((ny - 1 : ℕ) : ℝ) := by linarith
  have := Nat.cast_injective h2
  omega

example : (2 : ℕ) < 3 := by norm_num

end Verif.Recip
