import Verif.Recip.Lemmas
import Verif.Recip.Spec
import Mathlib.Tactic.LinearCombination
import Mathlib.Tactic.NormNum
import Mathlib.Tactic.Positivity

namespace Verif.Recip
open Verif Real Matrix

theorem turn_inB (c : Ccd) (lam : ℝ) (mode : ℕ) (ubinv : Fin 3 → Fin 3 → ℝ) (an : Fin 6 → ℝ) :
    ∀ I ∈ turn c lam mode ubinv an, InB c.size I := by
  intro I hI
  simp only [turn, List.mem_append] at hI
  rcases hI with ((h | h) | h) | h
  · exact calcDeltaGamma_inB _ _ _ I h
  · exact calcQTheta_inB _ _ _ _ I h
  · split at h
    · exact matmulti_inB _ _ I h
    · simp at h
  · split at h
    · exact matmulti_inB _ _ I h
    · simp at h

/-- Detector angle delta of pixel row j. -/
noncomputable def pixDelta (c : Ccd) (an : Fin 6 → ℝ) (j : ℕ) : ℝ := an 0 - arctan (((j : ℝ) - c.yCen) * (c.yPix / c.dist))
/-- Detector angle gamma of pixel column i. -/
noncomputable def pixGamma (c : Ccd) (an : Fin 6 → ℝ) (i : ℕ) : ℝ := an 5 - arctan (((i : ℝ) - c.xCen) * (c.xPix / c.dist))

/-- The two matrix stages. -/
noncomputable def frameVec (mode : ℕ) (P U : Fin 3 → Fin 3 → ℝ) (v1 : Fin 3 → ℝ) : Fin 3 → ℝ :=
  let v2 : Fin 3 → ℝ := if mode > 1 then fun k => ∑ l, P k l * v1 l else v1
  if mode = 4 then fun k => ∑ l, U k l * v2 l else v2

/-- The result of a turn for pixel (j, i). -/
noncomputable def turnVec (c : Ccd) (lam : ℝ) (mode : ℕ) (ubinv : Fin 3 → Fin 3 → ℝ) (an : Fin 6 → ℝ) (j i : ℕ) : Fin 3 → ℝ :=
  frameVec mode (phiMatrix (an 2) (an 3)) (permuteUB ubinv)
    (fun k => qThetaFun (an 1) (an 4) lam k (pixDelta c an j) (pixGamma c an i))

theorem turn_run (c : Ccd) (lam : ℝ) (mode : ℕ) (ubinv : Fin 3 → Fin 3 → ℝ) (an : Fin 6 → ℝ) (l : Loc) (j i : ℕ)
    (hj : j < c.ySize) (hi : i < c.xSize) :
    vec ((turn c lam mode ubinv an).foldl lexec l).q (j * c.xSize + i) = turnVec c lam mode ubinv an j i := by
  have hp := pixel_lt c j i hj hi
  unfold turn
  rw [List.foldl_append, List.foldl_append, List.foldl_append]
  obtain ⟨d1, d2⟩ := calcDeltaGamma_run c (an 0) (an 5) l j i hj hi
  generalize (calcDeltaGamma c (an 0) (an 5)).foldl lexec l = l1 at d1 d2
  have t := (calcQTheta_run c.size (an 1) (an 4) lam l1).2 _ hp
  rw [d1, d2] at t
  generalize (calcQTheta c.size (an 1) (an 4) lam).foldl lexec l1 = l2 at t
  have m2 : vec (List.foldl lexec l2 (if mode > 1 then matmulti c.size (phiMatrix (an 2) (an 3)) else [])).q
      (j * c.xSize + i) = if mode > 1 then
        fun k => ∑ l, phiMatrix (an 2) (an 3) k l * qThetaFun (an 1) (an 4) lam l (pixDelta c an j) (pixGamma c an i)
        else fun k => qThetaFun (an 1) (an 4) lam k (pixDelta c an j) (pixGamma c an i) := by
    split
    · funext k
      rw [(matmulti_run c.size (phiMatrix (an 2) (an 3)) l2).1 _ hp k]
      simp only [t]; rfl
    · funext k
      exact t k
  generalize List.foldl lexec l2 (if mode > 1 then _ else _) = l3 at m2
  unfold turnVec frameVec
  simp only
  split
  · funext k
    rw [(matmulti_run c.size (permuteUB ubinv) l3).1 _ hp k, m2]
  · exact m2

/-! ## the result of process_to_q -/

/-- The scattering vector of pixel (row j, column i) in an image taken at the angles `r` (degrees). -/
noncomputable def Spec.delta (c : Ccd) (a : Spec.Angles) (j : ℕ) : ℝ := a.delta - arctan (((j : ℝ) - c.yCen) * c.yPix / c.dist)
/-- see `Spec.delta` -/
noncomputable def Spec.gamma (c : Ccd) (a : Spec.Angles) (i : ℕ) : ℝ := a.gamma - arctan (((i : ℝ) - c.xCen) * c.xPix / c.dist)

/-- The vector to be returned in each frame. -/
noncomputable def Spec.inFrame (c : Ccd) (lam : ℝ) (ub : Matrix (Fin 3) (Fin 3) ℝ) (mode : ℕ) (a : Spec.Angles) (j i : ℕ) :
    Fin 3 → ℝ :=
  if mode = 1 then Spec.qTheta lam a (Spec.delta c a j) (Spec.gamma c a i)
  else if mode = 4 then ub⁻¹ *ᵥ Spec.axes (Spec.qPhi lam a (Spec.delta c a j) (Spec.gamma c a i))
  else Spec.qPhi lam a (Spec.delta c a j) (Spec.gamma c a i)

theorem qThetaFun_eq (lam : ℝ) (a : Spec.Angles) (d g : ℝ) :
    (fun k => qThetaFun a.theta a.mu lam k d g) = Spec.qTheta lam a d g := by
  funext k
  fin_cases k <;>
    simp [qThetaFun, Spec.qTheta, Spec.rotX, Spec.kOut, Spec.kIn, Matrix.mulVec, dotProduct, Fin.sum_univ_three,
      cos_sub, sin_sub] <;> ring

theorem phiMatrix_eq (chi phi : ℝ) (v : Fin 3 → ℝ) :
    (fun k => ∑ l, phiMatrix chi phi k l * v l) = Spec.rotX phi *ᵥ (Spec.rotY chi *ᵥ v) := by
  funext k
  fin_cases k <;>
    simp [phiMatrix, Spec.rotX, Spec.rotY, Matrix.mulVec, dotProduct, Fin.sum_univ_three] <;> ring

theorem permuteUB_eq (M : Matrix (Fin 3) (Fin 3) ℝ) (v : Fin 3 → ℝ) :
    (fun k => ∑ l, permuteUB (fun i j => M i j) k l * v l) = M *ᵥ Spec.axes v := by
  funext k
  simp [permuteUB, Spec.axes, Matrix.mulVec, dotProduct, Fin.sum_univ_three]
  ring

theorem turnVec_eq (c : Ccd) (lam : ℝ) (mode : ℕ) (hm : mode = 1 ∨ mode = 2 ∨ mode = 3 ∨ mode = 4)
    (ub : Matrix (Fin 3) (Fin 3) ℝ) (r : List ℝ) (j i : ℕ) :
    turnVec c lam mode (fun i j => ub⁻¹ i j) (fun k => (fun k : Fin 6 => r.getD k 0) k * π / 180) j i =
      Spec.inFrame c lam ub mode (Spec.Angles.ofDegrees r) j i := by
  have hd : pixDelta c (fun k => (fun k : Fin 6 => r.getD k 0) k * π / 180) j = Spec.delta c (Spec.Angles.ofDegrees r) j := by
    simp [pixDelta, Spec.delta, Spec.Angles.ofDegrees, mul_div_assoc]
  have hg : pixGamma c (fun k => (fun k : Fin 6 => r.getD k 0) k * π / 180) i = Spec.gamma c (Spec.Angles.ofDegrees r) i := by
    simp [pixGamma, Spec.gamma, Spec.Angles.ofDegrees, mul_div_assoc]
  unfold turnVec
  rw [hd, hg]
  set a := Spec.Angles.ofDegrees r with ha
  have h1 : (fun k => qThetaFun (r.getD (1 : Fin 6) 0 * π / 180) (r.getD (4 : Fin 6) 0 * π / 180) lam k
      (Spec.delta c a j) (Spec.gamma c a i)) = Spec.qTheta lam a (Spec.delta c a j) (Spec.gamma c a i) :=
    qThetaFun_eq lam a _ _
  have h2 := phiMatrix_eq (r.getD (2 : Fin 6) 0 * π / 180) (r.getD (3 : Fin 6) 0 * π / 180)
    (Spec.qTheta lam a (Spec.delta c a j) (Spec.gamma c a i))
  have h3 := permuteUB_eq ub⁻¹ (Spec.qPhi lam a (Spec.delta c a j) (Spec.gamma c a i))
  beta_reduce
  rw [h1]
  have h2' : (fun k => ∑ l, phiMatrix (r.getD (2 : Fin 6) 0 * π / 180) (r.getD (3 : Fin 6) 0 * π / 180) k l *
      Spec.qTheta lam a (Spec.delta c a j) (Spec.gamma c a i) l) = Spec.qPhi lam a (Spec.delta c a j) (Spec.gamma c a i) := h2
  rcases hm with rfl | rfl | rfl | rfl
  · simp [frameVec, Spec.inFrame]
  · simpa [frameVec, Spec.inFrame] using h2'
  · simpa [frameVec, Spec.inFrame] using h2'
  · have e : frameVec 4 (phiMatrix (r.getD (2 : Fin 6) 0 * π / 180) (r.getD (3 : Fin 6) 0 * π / 180))
        (permuteUB (fun i j => ub⁻¹ i j)) (Spec.qTheta lam a (Spec.delta c a j) (Spec.gamma c a i)) =
        fun k => ∑ l, permuteUB (fun i j => ub⁻¹ i j) k l * (fun k => ∑ l, phiMatrix (r.getD (2 : Fin 6) 0 * π / 180)
          (r.getD (3 : Fin 6) 0 * π / 180) k l * Spec.qTheta lam a (Spec.delta c a j) (Spec.gamma c a i) l) l := rfl
    rw [e, h2', h3]
    simp [Spec.inFrame]

/-- The number of the frame, as documented. -/
def Spec.modeOf : Option String → Option ℕ
  | none => some 4
  | some f => if f = "theta" then some 1 else if f = "phi" then some 2 else if f = "cart" then some 3
    else if f = "hkl" then some 4 else none

theorem frameMode_eq (f : Option String) : frameMode f = match Spec.modeOf f with | some m => .ok m | none => .error .keyError := by
  unfold frameMode
  split
  · rfl
  · rfl
  · rfl
  · rfl
  · rfl
  · rename_i f h1 h2 h3 h4
    simp only [Spec.modeOf]
    rw [if_neg h1, if_neg h2, if_neg h3, if_neg h4]

theorem modeOf_cases (f : Option String) (m : ℕ) (h : Spec.modeOf f = some m) : m = 1 ∨ m = 2 ∨ m = 3 ∨ m = 4 := by
  unfold Spec.modeOf at h
  split at h
  · simp at h; omega
  · split at h
    · simp at h; omega
    split at h
    · simp at h; omega
    split at h
    · simp at h; omega
    split at h
    · simp at h; omega
    · simp at h

/-- C126: for every call with valid arguments, every number of threads, every schedule of their memory operations and
whatever the freshly allocated memory held, the row of the result at n nx ny + j nx + i is the scattering vector of the
pixel in column i, row j of image n, in the requested frame; there is one row for every pixel of every image. -/
theorem C126_every_schedule (angles : List (List ℝ)) (h6 : ∀ r ∈ angles, r.length = 6) (c : Ccd) (lam : ℝ)
    (ub : Matrix (Fin 3) (Fin 3) ℝ) (hub : ub.det ≠ 0) (frame : Option String) (mode : ℕ)
    (hf : Spec.modeOf frame = some mode) (s : St) (sched : List (List Instr) → List (ℕ × Instr))
    (hs : ∀ turns, IsExecution turns (sched turns)) :
    ∃ rows, processToQ angles c lam ub frame s sched = .ok rows ∧
      rows.length = angles.length * (c.xSize * c.ySize) ∧
      ∀ (n j i : ℕ) (r : List ℝ), angles[n]? = some r → j < c.ySize → i < c.xSize →
        (rows[n * (c.xSize * c.ySize) + (j * c.xSize + i)]?).map Spec.ofRow =
          some (Spec.inFrame c lam ub mode (Spec.Angles.ofDegrees r) j i) := by
  have hm := modeOf_cases frame mode hf
  unfold processToQ
  rw [frameMode_eq, hf]
  simp only [checkAngles, if_pos h6, bind, Except.bind, hub, if_false]
  refine ⟨_, rfl, ?_, ?_⟩
  · simp [readRows, Ccd.size]
  · intro n j i r hn hj hi
    set turns := (angles.map (fun r (k : Fin 6) => r.getD k 0)).map
      (fun a => turn c lam mode (fun i j => ub⁻¹ i j) (fun k => a k * π / 180)) with hturns
    have hlen : turns.length = angles.length := by simp [hturns]
    have hnl : n < angles.length := (List.getElem?_eq_some_iff.1 hn).1
    have hp := pixel_lt c j i hj hi
    obtain ⟨e1, e2⟩ := hs turns
    have hturn : turns.getD n [] = turn c lam mode (fun i j => ub⁻¹ i j) (fun k => (fun k : Fin 6 => r.getD k 0) k * π / 180) := by
      rw [List.getD_eq_getElem?_getD, hturns]
      simp [hn]
    have hin : ∀ e ∈ sched turns, InB c.size e.2 := by
      intro e he
      have h1 := e1 e he
      have h2 := e2 e.1 h1
      have h3 : e.2 ∈ turns.getD e.1 [] := by
        rw [← h2]
        exact List.mem_map.2 ⟨e, List.mem_filter.2 ⟨he, by simp⟩, rfl⟩
      rw [List.getD_eq_getElem?_getD, List.getElem?_eq_getElem h1, Option.getD_some] at h3
      have h4 : turns[e.1] ∈ turns := List.getElem_mem h1
      have hall : ∀ t ∈ turns, ∀ I ∈ t, InB c.size I := by
        intro t ht
        rw [hturns] at ht
        obtain ⟨a, _, rfl⟩ := List.mem_map.1 ht
        exact turn_inB _ _ _ _ _
      exact hall _ h4 _ h3
    have hrow : n * (c.xSize * c.ySize) + (j * c.xSize + i) < angles.length * c.size := by
      have : (n + 1) * c.size ≤ angles.length * c.size := Nat.mul_le_mul_right _ hnl
      rw [Nat.add_mul] at this
      simp only [Ccd.size] at this hp ⊢
      omega
    have hrun := locOf_run c.size n (sched turns) hin s
    rw [e2 n (by omega), hturn] at hrun
    have hv := turn_run c lam mode (fun i j => ub⁻¹ i j) (fun k => (fun k : Fin 6 => r.getD k 0) k * π / 180)
      (locOf c.size n s) j i hj hi
    rw [← hrun, turnVec_eq c lam mode hm ub r j i] at hv
    rw [← hv]
    have hq : ∀ k : Fin 3, vec (locOf c.size n (run c.size s (sched turns))).q (j * c.xSize + i) k =
        (run c.size s (sched turns)).q (3 * (n * (c.xSize * c.ySize) + (j * c.xSize + i)) + k) := by
      intro k
      have hk := k.isLt
      simp only [vec, locOf]
      rw [if_pos (by omega)]
      congr 1
      simp only [Ccd.size]; ring
    simp only [readRows, List.getElem?_map, List.length_map]
    rw [List.getElem?_range hrow]
    simp only [Option.map_some]
    congr 1
    funext k
    rw [hq k]
    fin_cases k <;> rfl

/-- The sequential schedule (one thread). -/
def Spec.oneThread (turns : List (List Instr)) : List (ℕ × Instr) :=
  (List.range turns.length).flatMap (fun i => (turns.getD i []).map (fun I => (i, I)))

theorem filter_oneThread (g : ℕ → List Instr) (n i : ℕ) :
    ((((List.range n).flatMap (fun k => (g k).map (fun I => (k, I)))).filter (fun e => decide (e.1 = i))).map Prod.snd) =
      if i < n then g i else [] := by
  induction n with
  | zero => simp
  | succ n ih =>
    rw [List.range_succ, List.flatMap_append, List.filter_append, List.map_append, ih]
    simp only [List.flatMap_cons, List.flatMap_nil, List.append_nil]
    by_cases h : n = i
    · subst h
      have : (List.map (fun I => (n, I)) (g n)).filter (fun e => decide (e.1 = n)) = List.map (fun I => (n, I)) (g n) := by
        rw [List.filter_eq_self]; intro e he; obtain ⟨I, _, rfl⟩ := List.mem_map.1 he; simp
      rw [this]; simp
    · have : (List.map (fun I => (n, I)) (g n)).filter (fun e => decide (e.1 = i)) = [] := by
        rw [List.filter_eq_nil_iff]; intro e he; obtain ⟨I, _, rfl⟩ := List.mem_map.1 he; simpa using h
      rw [this]
      by_cases h2 : i < n
      · simp [h2, show i < n + 1 by omega]
      · simp [h2, show ¬ i < n + 1 by omega]

/-- The hypothesis on schedules is met, e.g. by a single thread. -/
theorem oneThread_isExecution (turns : List (List Instr)) : IsExecution turns (Spec.oneThread turns) := by
  constructor
  · intro e he
    obtain ⟨i, hi, h⟩ := List.mem_flatMap.1 he
    obtain ⟨I, _, rfl⟩ := List.mem_map.1 h
    exact List.mem_range.1 hi
  · intro i hi
    rw [Spec.oneThread, filter_oneThread, if_pos hi]

/-- Non-vacuity: two images of 2 x 1 pixels, two threads in strict alternation is also an execution of their turns. -/
example (a b : Instr) : IsExecution [[a, b], [b, a]] [(0, a), (1, b), (0, b), (1, a)] := by
  constructor
  · intro e he; simp at he; rcases he with rfl | rfl | rfl | rfl <;> simp
  · intro i hi
    simp at hi
    match i, hi with
    | 0, _ => simp
    | 1, _ => simp

/-! ## C127: lengths -/

theorem sq_rotX (t : ℝ) (v : Fin 3 → ℝ) : Spec.sq (Spec.rotX t *ᵥ v) = Spec.sq v := by
  simp [Spec.sq, Spec.rotX, Matrix.mulVec, dotProduct, Fin.sum_univ_three]
  linear_combination (v 1 ^ 2 + v 2 ^ 2) * sin_sq_add_cos_sq t
theorem sq_rotY (t : ℝ) (v : Fin 3 → ℝ) : Spec.sq (Spec.rotY t *ᵥ v) = Spec.sq v := by
  simp [Spec.sq, Spec.rotY, Matrix.mulVec, dotProduct, Fin.sum_univ_three]
  linear_combination (v 0 ^ 2 + v 2 ^ 2) * sin_sq_add_cos_sq t
theorem sq_smul (a : ℝ) (v : Fin 3 → ℝ) : Spec.sq (a • v) = a ^ 2 * Spec.sq v := by
  simp [Spec.sq]; ring
theorem sq_axes (v : Fin 3 → ℝ) : Spec.sq (Spec.axes v) = Spec.sq v := by
  simp [Spec.sq, Spec.axes]; ring
theorem sq_kOut (d g : ℝ) : Spec.sq (Spec.kOut d g) = 1 := by
  simp [Spec.sq, Spec.kOut]
  linear_combination (cos g ^ 2) * sin_sq_add_cos_sq d + sin_sq_add_cos_sq g
theorem sq_kIn (m : ℝ) : Spec.sq (Spec.kIn m) = 1 := by
  simp [Spec.sq, Spec.kIn, sin_sq_add_cos_sq]

theorem dot_eq (v w : Fin 3 → ℝ) : v ⬝ᵥ w = v 0 * w 0 + v 1 * w 1 + v 2 * w 2 := by
  simp [dotProduct, Fin.sum_univ_three]

theorem sq_sub (v w : Fin 3 → ℝ) : Spec.sq (v - w) = Spec.sq v + Spec.sq w - 2 * (v ⬝ᵥ w) := by
  rw [dot_eq]; simp [Spec.sq]; ring

theorem dot_bound (v w : Fin 3 → ℝ) (hv : Spec.sq v = 1) (hw : Spec.sq w = 1) : -1 ≤ v ⬝ᵥ w ∧ v ⬝ᵥ w ≤ 1 := by
  have h1 := sq_sub v w
  have h2 : Spec.sq (v + w) = Spec.sq v + Spec.sq w + 2 * (v ⬝ᵥ w) := by rw [dot_eq]; simp [Spec.sq]; ring
  have p1 : 0 ≤ Spec.sq (v - w) := by simp only [Spec.sq]; positivity
  have p2 : 0 ≤ Spec.sq (v + w) := by simp only [Spec.sq]; positivity
  constructor <;> linarith

theorem sq_k (m d g : ℝ) : Spec.sq (Spec.kOut d g - Spec.kIn m) = 4 * sin (Spec.twoTheta m d g / 2) ^ 2 := by
  have hb := dot_bound _ _ (sq_kOut d g) (sq_kIn m)
  rw [sq_sub, sq_kOut, sq_kIn]
  have : cos (Spec.twoTheta m d g) = Spec.kOut d g ⬝ᵥ Spec.kIn m := cos_arccos hb.1 hb.2
  have h2 := cos_two_mul (Spec.twoTheta m d g / 2)
  have h3 := sin_sq_add_cos_sq (Spec.twoTheta m d g / 2)
  rw [mul_div_cancel₀ _ (two_ne_zero), this] at h2
  linarith

theorem sq_qTheta (lam : ℝ) (a : Spec.Angles) (d g : ℝ) :
    Spec.sq (Spec.qTheta lam a d g) = (4 * π / lam * sin (Spec.twoTheta a.mu d g / 2)) ^ 2 := by
  rw [Spec.qTheta, sq_smul, sq_rotX, sq_k]; ring

theorem sq_qPhi (lam : ℝ) (a : Spec.Angles) (d g : ℝ) :
    Spec.sq (Spec.qPhi lam a d g) = (4 * π / lam * sin (Spec.twoTheta a.mu d g / 2)) ^ 2 := by
  rw [Spec.qPhi, sq_rotX, sq_rotY, sq_qTheta]

theorem hklToQ_get (rows : List (ℝ × ℝ × ℝ)) (k : ℕ) (v : Fin 3 → ℝ) (h : (rows[k]?).map Spec.ofRow = some v) :
    (hklToQ rows)[k]? = some (sqrt (Spec.sq v)) := by
  rw [hklToQ, List.getElem?_map]
  cases hr : rows[k]? with
  | none => rw [hr] at h; simp at h
  | some x =>
    rw [hr] at h
    simp only [Option.map_some, Option.some.injEq] at h
    subst h
    simp [Spec.sq, Spec.ofRow]

/-- C127: in the theta, phi and cart frames, for every pixel, image and sample orientation, `hkl_to_q` of the result is
(4 pi / lambda) sin(Theta), where 2 Theta is the angle between the incident beam and the beam scattered to the pixel: it does
not depend on theta, chi and phi, and is at most 4 pi / lambda. -/
theorem C127_bragg (angles : List (List ℝ)) (h6 : ∀ r ∈ angles, r.length = 6) (c : Ccd) (lam : ℝ) (hlam : 0 < lam)
    (ub : Matrix (Fin 3) (Fin 3) ℝ) (hub : ub.det ≠ 0) (frame : String) (hf : frame = "theta" ∨ frame = "phi" ∨ frame = "cart")
    (s : St) (sched : List (List Instr) → List (ℕ × Instr)) (hs : ∀ turns, IsExecution turns (sched turns)) :
    ∃ rows, processToQ angles c lam ub (some frame) s sched = .ok rows ∧
      ∀ (n j i : ℕ) (r : List ℝ), angles[n]? = some r → j < c.ySize → i < c.xSize →
        (hklToQ rows)[n * (c.xSize * c.ySize) + (j * c.xSize + i)]? =
          some (4 * π / lam * sin (Spec.twoTheta (Spec.Angles.ofDegrees r).mu (Spec.delta c (Spec.Angles.ofDegrees r) j)
            (Spec.gamma c (Spec.Angles.ofDegrees r) i) / 2)) ∧
        4 * π / lam * sin (Spec.twoTheta (Spec.Angles.ofDegrees r).mu (Spec.delta c (Spec.Angles.ofDegrees r) j)
            (Spec.gamma c (Spec.Angles.ofDegrees r) i) / 2) ≤ 4 * π / lam := by
  have hm : ∃ m, Spec.modeOf (some frame) = some m ∧ m ≠ 4 := by
    rcases hf with rfl | rfl | rfl
    · exact ⟨1, by decide, by decide⟩
    · exact ⟨2, by decide, by decide⟩
    · exact ⟨3, by decide, by decide⟩
  obtain ⟨m, hm, hm4⟩ := hm
  obtain ⟨rows, h1, h2, h3⟩ := C126_every_schedule angles h6 c lam ub hub (some frame) m hm s sched hs
  refine ⟨rows, h1, ?_⟩
  intro n j i r hn hj hi
  have hr := h3 n j i r hn hj hi
  rw [hklToQ_get _ _ _ hr]
  set a := Spec.Angles.ofDegrees r
  have hsq : Spec.sq (Spec.inFrame c lam ub m a j i) =
      (4 * π / lam * sin (Spec.twoTheta a.mu (Spec.delta c a j) (Spec.gamma c a i) / 2)) ^ 2 := by
    unfold Spec.inFrame
    rw [if_neg hm4]
    split
    · exact sq_qTheta _ _ _ _
    · exact sq_qPhi _ _ _ _
  have h0 : 0 ≤ sin (Spec.twoTheta a.mu (Spec.delta c a j) (Spec.gamma c a i) / 2) := by
    apply sin_nonneg_of_nonneg_of_le_pi
    · have := arccos_nonneg (Spec.kOut (Spec.delta c a j) (Spec.gamma c a i) ⬝ᵥ Spec.kIn a.mu)
      unfold Spec.twoTheta; linarith
    · have := arccos_le_pi (Spec.kOut (Spec.delta c a j) (Spec.gamma c a i) ⬝ᵥ Spec.kIn a.mu)
      have := pi_pos
      unfold Spec.twoTheta; linarith
  have hk : 0 < 4 * π / lam := by have := pi_pos; positivity
  rw [hsq, sqrt_sq (mul_nonneg hk.le h0)]
  refine ⟨rfl, ?_⟩
  have := sin_le_one (Spec.twoTheta a.mu (Spec.delta c a j) (Spec.gamma c a i) / 2)
  nlinarith

/-- Non-vacuity: with all angles zero the pixel at the centre has q = 0, and a pixel at 45 degrees below it
q = (4 pi / lambda) sin(22.5 degrees). -/
example : Spec.twoTheta 0 0 0 = 0 := by
  simp [Spec.twoTheta, Spec.kOut, Spec.kIn, dotProduct, Fin.sum_univ_three]
example : Spec.twoTheta 0 (-(π / 4)) 0 = π / 4 := by
  have : Spec.kOut (-(π / 4)) 0 ⬝ᵥ Spec.kIn 0 = cos (π / 4) := by
    simp only [Spec.kOut, Spec.kIn, dotProduct, Fin.sum_univ_three]
    simp [-cos_pi_div_four]
  rw [Spec.twoTheta, this, arccos_cos] <;> linarith [pi_pos]

/-! ## C128: reciprocal lattice units -/

/-- C128 (part that holds): the rows returned in the hkl frame are the Miller indices: multiplied by UB they give the
scattering vector (in the axis convention of UB), whose length is (4 pi / lambda) sin(Theta).  Missing for the full
property: `hkl_to_q` applied to them does not give that length (`C128_hkl_norm_refuted`). -/
theorem C128_hkl_partial (angles : List (List ℝ)) (h6 : ∀ r ∈ angles, r.length = 6) (c : Ccd) (lam : ℝ)
    (ub : Matrix (Fin 3) (Fin 3) ℝ) (hub : ub.det ≠ 0) (frame : Option String) (hf : frame = none ∨ frame = some "hkl") (s : St)
    (sched : List (List Instr) → List (ℕ × Instr)) (hs : ∀ turns, IsExecution turns (sched turns)) :
    ∃ rows, processToQ angles c lam ub frame s sched = .ok rows ∧
      ∀ (n j i : ℕ) (r : List ℝ), angles[n]? = some r → j < c.ySize → i < c.xSize →
        ∃ hkl, rows[n * (c.xSize * c.ySize) + (j * c.xSize + i)]? = some hkl ∧
          ub *ᵥ Spec.ofRow hkl = Spec.axes (Spec.qPhi lam (Spec.Angles.ofDegrees r)
            (Spec.delta c (Spec.Angles.ofDegrees r) j) (Spec.gamma c (Spec.Angles.ofDegrees r) i)) ∧
          Spec.sq (ub *ᵥ Spec.ofRow hkl) = (4 * π / lam * sin (Spec.twoTheta (Spec.Angles.ofDegrees r).mu
            (Spec.delta c (Spec.Angles.ofDegrees r) j) (Spec.gamma c (Spec.Angles.ofDegrees r) i) / 2)) ^ 2 := by
  have hm : Spec.modeOf frame = some 4 := by rcases hf with rfl | rfl <;> decide
  obtain ⟨rows, h1, h2, h3⟩ := C126_every_schedule angles h6 c lam ub hub frame 4 hm s sched hs
  refine ⟨rows, h1, ?_⟩
  intro n j i r hn hj hi
  have hr := h3 n j i r hn hj hi
  cases hx : rows[n * (c.xSize * c.ySize) + (j * c.xSize + i)]? with
  | none => rw [hx] at hr; simp at hr
  | some x =>
    rw [hx] at hr
    simp only [Option.map_some, Option.some.injEq] at hr
    have key : ub *ᵥ Spec.ofRow x = Spec.axes (Spec.qPhi lam (Spec.Angles.ofDegrees r)
            (Spec.delta c (Spec.Angles.ofDegrees r) j) (Spec.gamma c (Spec.Angles.ofDegrees r) i)) := by
      rw [hr]
      simp only [Spec.inFrame]
      norm_num
      rw [Matrix.mul_nonsing_inv _ (Ne.isUnit hub), Matrix.one_mulVec]
    refine ⟨x, rfl, key, ?_⟩
    rw [key, sq_axes, sq_qPhi]

theorem sq_eq_one_iff_of_ne (a : ℝ) (h : a ^ 2 = 1) : a = 1 ∨ a = -1 := by
  have : (a - 1) * (a + 1) = 0 := by ring_nf; linarith
  rcases mul_eq_zero.1 this with h | h
  · left; linarith
  · right; linarith

/-- C128 is false: for a cubic crystal with UB = a · 1, a ≠ 1, and every pixel that does not see the direct beam,
`hkl_to_q` of the hkl array is not the length of the scattering vector (it is that length divided by a). -/
theorem C128_hkl_norm_refuted (a : ℝ) (ha : 0 < a) (ha1 : a ≠ 1) (angles : List (List ℝ)) (h6 : ∀ r ∈ angles, r.length = 6)
    (c : Ccd) (lam : ℝ) (hlam : 0 < lam) (s : St) (sched : List (List Instr) → List (ℕ × Instr))
    (hs : ∀ turns, IsExecution turns (sched turns)) :
    ∃ rows, processToQ angles c lam (a • (1 : Matrix (Fin 3) (Fin 3) ℝ)) (some "hkl") s sched = .ok rows ∧
      ∀ (n j i : ℕ) (r : List ℝ), angles[n]? = some r → j < c.ySize → i < c.xSize →
        sin (Spec.twoTheta (Spec.Angles.ofDegrees r).mu (Spec.delta c (Spec.Angles.ofDegrees r) j)
            (Spec.gamma c (Spec.Angles.ofDegrees r) i) / 2) ≠ 0 →
        ∀ q, (hklToQ rows)[n * (c.xSize * c.ySize) + (j * c.xSize + i)]? = some q →
          |q| ≠ |4 * π / lam * sin (Spec.twoTheta (Spec.Angles.ofDegrees r).mu (Spec.delta c (Spec.Angles.ofDegrees r) j)
            (Spec.gamma c (Spec.Angles.ofDegrees r) i) / 2)| := by
  have hub : (a • (1 : Matrix (Fin 3) (Fin 3) ℝ)).det ≠ 0 := by
    rw [Matrix.det_smul]; simp; exact ha.ne'
  obtain ⟨rows, h1, h2⟩ := C128_hkl_partial angles h6 c lam _ hub (some "hkl") (Or.inr rfl) s sched hs
  refine ⟨rows, h1, ?_⟩
  intro n j i r hn hj hi hsin q hq
  obtain ⟨x, hx, _, hsq⟩ := h2 n j i r hn hj hi
  have hq2 := hklToQ_get rows _ (Spec.ofRow x) (by rw [hx]; rfl)
  rw [hq] at hq2
  have hq3 : q = sqrt (Spec.sq (Spec.ofRow x)) := Option.some.inj hq2
  have hnn : 0 ≤ Spec.sq (Spec.ofRow x) := by simp only [Spec.sq]; positivity
  have hq4 : q ^ 2 = Spec.sq (Spec.ofRow x) := by rw [hq3, sq_sqrt hnn]
  rw [Matrix.smul_mulVec, Matrix.one_mulVec, sq_smul, ← hq4] at hsq
  intro habs
  have h5 : q ^ 2 = (4 * π / lam * sin (Spec.twoTheta (Spec.Angles.ofDegrees r).mu (Spec.delta c (Spec.Angles.ofDegrees r) j)
            (Spec.gamma c (Spec.Angles.ofDegrees r) i) / 2)) ^ 2 := by
    rw [← sq_abs q, habs, sq_abs]
  rw [← h5] at hsq
  have hk : 0 < 4 * π / lam := by have := pi_pos; positivity
  have hq0 : q ^ 2 ≠ 0 := by
    rw [h5]; exact pow_ne_zero _ (mul_ne_zero hk.ne' hsin)
  have : a ^ 2 = 1 := mul_right_cancel₀ hq0 (by linarith)
  rcases (sq_eq_one_iff_of_ne a this) with h | h <;> first | exact ha1 h | linarith

end Verif.Recip
