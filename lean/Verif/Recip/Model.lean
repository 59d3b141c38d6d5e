/- Model of skbeam/core/recip.py and of the part of src/ctrans.c it calls (ccdToQ), over the real numbers. -/
import Verif.Np
import Verif.Geom.Model
import Mathlib.LinearAlgebra.Matrix.NonsingularInverse
import Mathlib.Data.List.FinRange

namespace Verif.Recip
open Verif Real

/-! ### the C code, ctrans.c:163-299 -/

/-- `CCD`, ctrans.h:47-56: sizes, pixel sizes, centre and distance. -/
structure Ccd where
  xSize : ℕ
  ySize : ℕ
  xPix : ℝ
  yPix : ℝ
  xCen : ℝ
  yCen : ℝ
  dist : ℝ

/-- `ccd.size`, ctrans.c:103. -/
def Ccd.size (c : Ccd) : ℕ := c.xSize * c.ySize

/-- Memory: the arrays `delgam` and `qOut` shared by all threads, and the local `qp[3]` of the loop turn for each image. -/
structure St where
  dg : ℕ → ℝ
  q : ℕ → ℝ
  qp : ℕ → Fin 3 → ℝ

/-- The memory operations of one turn (one image) of the parallel loop.  Addresses are relative to the pointers
`_delgam`, `_qOutp` of the turn, ctrans.c:184-186. -/
inductive Instr
  /-- `*(delgamp++) = v`, ctrans.c:214-215 -/
  | dg (a : ℕ) (v : ℝ)
  /-- `*qt = f(del, gam)` where del, gam are loaded from `delgam`; component k of pixel p, ctrans.c:239-249 -/
  | qt (p : ℕ) (k : Fin 3) (f : ℝ → ℝ → ℝ)
  /-- `qp[k] = 0.0`, ctrans.c:287 -/
  | zero (k : Fin 3)
  /-- `qp[k] += m * v[j]`, ctrans.c:289 -/
  | acc (k : Fin 3) (m : ℝ) (p : ℕ) (j : Fin 3)
  /-- `v[k] = qp[k]`, ctrans.c:293 -/
  | put (p : ℕ) (k : Fin 3)

/-- One operation of the turn for image `i`. -/
def exec (size i : ℕ) (s : St) : Instr → St
  | .dg a v => { s with dg := Function.update s.dg (i * size * 2 + a) v }
  | .qt p k f => { s with q := Function.update s.q (i * size * 3 + (3 * p + k))
                                (f (s.dg (i * size * 2 + 2 * p)) (s.dg (i * size * 2 + (2 * p + 1)))) }
  | .zero k => { s with qp := Function.update s.qp i (Function.update (s.qp i) k 0) }
  | .acc k m p j => { s with qp := Function.update s.qp i
                              (Function.update (s.qp i) k (s.qp i k + m * s.q (i * size * 3 + (3 * p + j)))) }
  | .put p k => { s with q := Function.update s.q (i * size * 3 + (3 * p + k)) (s.qp i k) }

/-- `calcDeltaGamma`, ctrans.c:203-220 (the running pointer is at 2 (j xSize + i) in turn (j, i)). -/
noncomputable def calcDeltaGamma (c : Ccd) (delCen gamCen : ℝ) : List Instr :=
  (List.range c.ySize).flatMap (fun j => (List.range c.xSize).flatMap (fun i =>
    [.dg (2 * (j * c.xSize + i)) (delCen - arctan (((j : ℝ) - c.yCen) * (c.yPix / c.dist))),
     .dg (2 * (j * c.xSize + i) + 1) (gamCen - arctan (((i : ℝ) - c.xCen) * (c.xPix / c.dist)))]))

/-- The three assignments of `calcQTheta`, ctrans.c:241, 244, 247. -/
noncomputable def qThetaFun (theta mu lam : ℝ) : Fin 3 → ℝ → ℝ → ℝ
  | 0 => fun _ gam => (-1 * sin gam * (2 * π / lam)) - (sin mu * (2 * π / lam))
  | 1 => fun del gam => (cos (del - theta) * cos gam * (2 * π / lam)) - (cos theta * cos mu * (2 * π / lam))
  | 2 => fun del gam => (sin (del - theta) * cos gam * (2 * π / lam)) + (sin theta * cos mu * (2 * π / lam))

/-- `calcQTheta`, ctrans.c:222-253. -/
noncomputable def calcQTheta (n : ℕ) (theta mu lam : ℝ) : List Instr :=
  (List.range n).flatMap (fun p => [.qt p 0 (qThetaFun theta mu lam 0), .qt p 1 (qThetaFun theta mu lam 1),
    .qt p 2 (qThetaFun theta mu lam 2)])

/-- `matmulti`, ctrans.c:278-299. -/
def matmulti (n : ℕ) (mat : Fin 3 → Fin 3 → ℝ) : List Instr :=
  (List.range n).flatMap (fun p =>
    (List.finRange 3).flatMap (fun k => .zero k :: (List.finRange 3).map (fun j => .acc k (mat k j) p j))
      ++ (List.finRange 3).map (fun k => .put p k))

/-- The matrix of `calcQPhiFromQTheta`, ctrans.c:258-266. -/
noncomputable def phiMatrix (chi phi : ℝ) : Fin 3 → Fin 3 → ℝ :=
  ![![cos chi, 0, -1 * sin chi],
    ![sin phi * sin chi, cos phi, sin phi * cos chi],
    ![cos phi * sin chi, -1 * sin phi, cos phi * cos chi]]

/-- `UBI`, ctrans.c:173-178. -/
noncomputable def permuteUB (ubinv : Fin 3 → Fin 3 → ℝ) : Fin 3 → Fin 3 → ℝ :=
  fun i => ![-1 * ubinv i 2, ubinv i 1, ubinv i 0]

/-- The turn for one image, ctrans.c:189-197.  `an` are its six angles in radians. -/
noncomputable def turn (c : Ccd) (lam : ℝ) (mode : ℕ) (ubinv : Fin 3 → Fin 3 → ℝ) (an : Fin 6 → ℝ) : List Instr :=
  calcDeltaGamma c (an 0) (an 5) ++ calcQTheta c.size (an 1) (an 4) lam
    ++ (if mode > 1 then matmulti c.size (phiMatrix (an 2) (an 3)) else [])
    ++ (if mode = 4 then matmulti c.size (permuteUB ubinv) else [])

/-- An execution of the parallel loop: operations of the turns in the order in which they happen. -/
def run (size : ℕ) (s : St) (ev : List (ℕ × Instr)) : St := ev.foldl (fun s e => exec size e.1 s e.2) s

/-- `ev` is a possible execution: the operations of each image's turn in program order, interleaved with those of the
other images in any way (any number of threads, any schedule). -/
def IsExecution (turns : List (List Instr)) (ev : List (ℕ × Instr)) : Prop :=
  (∀ e ∈ ev, e.1 < turns.length) ∧
  ∀ i, i < turns.length → (ev.filter (fun e => decide (e.1 = i))).map Prod.snd = turns.getD i []

/-- `ccdToQ`, ctrans.c:66-161: the rows of the returned (nimages * size) x 3 array.  `s` is the memory as allocated
(uninitialised), `ev` the execution. -/
def readRows (nimages size : ℕ) (s : St) : List (ℝ × ℝ × ℝ) :=
  (List.range (nimages * size)).map (fun r => (s.q (3 * r), s.q (3 * r + 1), s.q (3 * r + 2)))

/-! ### recip.py -/

/-- `process_to_q.frame_mode`, recip.py:193, and the mapping of recip.py:143-147 (`verbosedict` raises KeyError). -/
def frameMode : Option String → Py ℕ
  | none => .ok 4
  | some "theta" => .ok 1
  | some "phi" => .ok 2
  | some "cart" => .ok 3
  | some "hkl" => .ok 4
  | some _ => .error .keyError

/-- recip.py:151-164: a 2-D array of setting angles with six columns, in degrees; each row as a function. -/
def checkAngles (rows : List (List ℝ)) : Py (List (Fin 6 → ℝ)) :=
  if ∀ r ∈ rows, r.length = 6 then .ok (rows.map (fun r k => r.getD k 0)) else .error .valueError

open Classical in
/-- `process_to_q`, recip.py:131-188, for an execution chosen by `sched` and memory `s` as allocated.
`np.linalg.inv` raises (LinAlgError, here valueError) for a singular matrix; simplification: exactly singular only. -/
noncomputable def processToQ (angles : List (List ℝ)) (c : Ccd) (lam : ℝ) (ub : Matrix (Fin 3) (Fin 3) ℝ)
    (frame : Option String) (s : St) (sched : List (List Instr) → List (ℕ × Instr)) : Py (List (ℝ × ℝ × ℝ)) := do
  let mode ← frameMode frame
  let an ← checkAngles angles
  if ub.det = 0 then .error .valueError
  else
    let turns := an.map (fun a => turn c lam mode (fun i j => ub⁻¹ i j) (fun k => a k * π / 180))
    .ok (readRows an.length c.size (run c.size s (sched turns)))

/-- `hkl_to_q`, recip.py:196-214. -/
noncomputable def hklToQ (rows : List (ℝ × ℝ × ℝ)) : List ℝ := rows.map (fun v => sqrt (v.1 ^ 2 + v.2.1 ^ 2 + v.2.2 ^ 2))

/-- Arguments of `gisaxs`. -/
structure GisaxsArgs where
  incX : ℝ
  incY : ℝ
  reflX : ℝ
  reflY : ℝ
  pix : ℝ × ℝ
  dist : ℝ
  lam : ℝ
  thetaI : ℝ

/-- recip.py:315. -/
noncomputable def GisaxsArgs.px (g : GisaxsArgs) : ℝ := g.pix.1 * (1 / 10 ^ 6)
/-- recip.py:315. -/
noncomputable def GisaxsArgs.py (g : GisaxsArgs) : ℝ := g.pix.2 * (1 / 10 ^ 6)

/-- recip.py:318. -/
noncomputable def GisaxsArgs.tilt (g : GisaxsArgs) : ℝ := Geom.arctan2 ((g.reflX - g.incX) * g.px) ((g.reflY - g.incY) * g.py)
/-- recip.py:320. -/
noncomputable def GisaxsArgs.alphaI (g : GisaxsArgs) : ℝ := Geom.arctan2 ((g.reflY - g.incY) * g.py) g.dist / 2
/-- recip.py:324. -/
noncomputable def GisaxsArgs.alphaF (g : GisaxsArgs) (y : ℝ) : ℝ := Geom.arctan2 ((y - g.incY) * g.py) g.dist - g.alphaI
/-- recip.py:326-327. -/
noncomputable def GisaxsArgs.thetaF (g : GisaxsArgs) (x : ℝ) : ℝ := Geom.arctan2 ((x - g.incX) * g.px) g.dist / 2 - g.thetaI
/-- recip.py:329. -/
noncomputable def GisaxsArgs.k (g : GisaxsArgs) : ℝ := 2 * π / g.lam
/-- recip.py:332. -/
noncomputable def GisaxsArgs.qx (g : GisaxsArgs) (y x : ℝ) : ℝ :=
  (cos (g.alphaF y) * cos (2 * g.thetaF x) - cos g.alphaI * cos (2 * g.thetaI)) * g.k
/-- recip.py:336. -/
noncomputable def GisaxsArgs.qy_ (g : GisaxsArgs) (y x : ℝ) : ℝ :=
  cos (g.alphaF y) * sin (2 * g.thetaF x) - cos g.alphaI * sin (2 * g.thetaI)
/-- recip.py:337. -/
noncomputable def GisaxsArgs.qz_ (g : GisaxsArgs) (y : ℝ) : ℝ := sin (g.alphaF y) + sin g.alphaI
/-- recip.py:338. -/
noncomputable def GisaxsArgs.qy (g : GisaxsArgs) (y x : ℝ) : ℝ := (g.qz_ y * sin g.tilt + g.qy_ y x * cos g.tilt) * g.k
/-- recip.py:341. -/
noncomputable def GisaxsArgs.qz (g : GisaxsArgs) (y x : ℝ) : ℝ := (g.qz_ y * cos g.tilt - g.qy_ y x * sin g.tilt) * g.k
/-- recip.py:344. -/
noncomputable def GisaxsArgs.qr (g : GisaxsArgs) (y x : ℝ) : ℝ := sqrt (g.qx y x ^ 2 + g.qy y x ^ 2)

/-- The array fields of `gisaxs(...)`: entry (a, b) of `f(y, x)` with `y, x = np.indices(detector_size)`, recip.py:322. -/
noncomputable def gisaxsArray (detectorSize : ℕ × ℕ) (f : ℝ → ℝ → ℝ) : List (List ℝ) :=
  (List.range detectorSize.1).map (fun (a : ℕ) => (List.range detectorSize.2).map (fun (b : ℕ) => f a b))

end Verif.Recip
