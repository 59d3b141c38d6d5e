/- Model of grid3d: skbeam/core/utils.py:796-953 and src/ctrans.c:302-553. -/
import Verif.Np
import Verif.Fl
import Mathlib.Analysis.Real.Sqrt

namespace Verif.Grid
open Verif

/-- One row of the Nx4 array handed to the C code: position and intensity (`none` = NaN). -/
structure Pt where
  x : ℚ
  y : ℚ
  z : ℚ
  v : Option ℚ
  deriving DecidableEq

/-- `grid_start`, `grid_stop`, `n_grid` of one axis. -/
structure Axis where
  lo : ℚ
  hi : ℚ
  n : ℕ
  deriving DecidableEq

/-- The three axes. -/
structure Grid where
  x : Axis
  y : Axis
  z : Axis

/-- `grid_size`, ctrans.c:420. -/
def Grid.size (g : Grid) : ℕ := g.x.n * g.y.n * g.z.n

/-- Position along one axis: ctrans.c:421-423, 474-485 (`(int)(pos * n)`).  `rnd` rounds the result of each
floating-point operation (`id` for exact arithmetic).  Division by a zero length gives inf/NaN, which fails the range
test.  Simplification: the value is assumed to fit a C int. -/
def cell (rnd : ℚ → ℚ) (a : Axis) (x : ℚ) : Option ℕ :=
  let len := rnd (a.hi - a.lo)
  if len = 0 then none
  else
    let p := rnd (rnd (x - a.lo) / len)
    if 0 ≤ p ∧ p < 1 then some (pyInt (rnd (p * a.n))).toNat else none

/-- Flat voxel index, ctrans.c:487-489. -/
def flat (g : Grid) (i j k : ℕ) : ℕ := i * (g.y.n * g.z.n) + j * g.z.n + k

/-- The voxel a point is added to, if any: ctrans.c:470-489 with `ignore_nan = 0` (the value the Python code uses). -/
def voxel (rnd : ℚ → ℚ) (g : Grid) (p : Pt) : Option (ℕ × ℚ) :=
  match p.v, cell rnd g.x p.x, cell rnd g.y p.y, cell rnd g.z p.z with
  | some v, some i, some j, some k => some (flat g i j k, v)
  | _, _, _, _ => none

/-- Accumulators of one voxel: `nout`, `dout`, `d2out`. -/
structure Acc where
  n : ℕ
  s : ℚ
  s2 : ℚ
  deriving DecidableEq

/-- `_nout[pos]++` etc., ctrans.c:492-494. -/
def Acc.add (rnd : ℚ → ℚ) (a : Acc) (v : ℚ) : Acc := ⟨a.n + 1, rnd (a.s + v), rnd (a.s2 + rnd (v * v))⟩

/-- Adding two accumulators, ctrans.c:516-518, 525-527. -/
def Acc.merge (rnd : ℚ → ℚ) (a b : Acc) : Acc := ⟨a.n + b.n, rnd (a.s + b.s), rnd (a.s2 + b.s2)⟩

/-- The threads' private accumulator arrays: thread → voxel → value. -/
abbrev Priv := ℕ → ℕ → Acc

/-- Thread `t` handles one point, ctrans.c:462-497. -/
def handle (rnd : ℚ → ℚ) (g : Grid) (m : Priv) (t : ℕ) (p : Pt) : Priv :=
  match voxel rnd g p with
  | none => m
  | some (c, v) => fun t' c' => if t' = t ∧ c' = c then (m t c).add rnd v else m t' c'

/-- The parallel loop under a schedule: the list of (thread, point) in the order in which they happen. -/
def accumulate (rnd : ℚ → ℚ) (g : Grid) (m : Priv) (ev : List (ℕ × Pt)) : Priv :=
  ev.foldl (fun m e => handle rnd g m e.1 e.2) m

/-- Gathering of the threads' results into thread 0's arrays, ctrans.c:514-520. -/
def gather (rnd : ℚ → ℚ) (T : ℕ) (m : Priv) (c : ℕ) : Acc :=
  (List.range' 1 (T - 1)).foldl (fun a t => a.merge rnd (m t c)) (m 0 c)

/-- Outputs `nout`, `dout`, `d2out` (the output arrays start at zero), ctrans.c:524-528. -/
def out (rnd : ℚ → ℚ) (g : Grid) (T : ℕ) (m : Priv) (ev : List (ℕ × Pt)) (c : ℕ) : Acc :=
  (Acc.mk 0 0 0).merge rnd (gather rnd T (accumulate rnd g m ev) c)

/-- The variance whose root is taken, ctrans.c:536. -/
def variance (rnd : ℚ → ℚ) (a : Acc) : ℚ := rnd (rnd (a.s2 - rnd (rnd (a.s * a.s) / a.n)) / a.n)

/-- `stderror[j]`, ctrans.c:532-539; `none` = NaN (the root of a negative number). -/
noncomputable def stdErr (rnd : ℚ → ℚ) (a : Acc) : Option ℝ :=
  if a.n = 0 then some 0
  else if variance rnd a < 0 then none
  else some (Real.sqrt (variance rnd a) / Real.sqrt a.n)

/-- `mean = total / occupancy`, utils.py:939 (0/0 is NaN). -/
def mean (a : Acc) : Option ℚ := if a.n = 0 then none else some (a.s / a.n)

/-! ### the clearing loop, ctrans.c:455-459

`j` is declared outside the parallel region (ctrans.c:412) and is not private, so all threads share it. -/

/-- Program counter of one thread in `for(j=0;j<grid_size;j++){ _dout[j]=0; _d2out[j]=0; _nout[j]=0; }`.  Every access
to the shared `j` is a step of its own. -/
inductive Pc
  | init | test | w0 | w1 | w2 | inc | incw (r : ℕ) | done
  deriving DecidableEq

/-- Shared `j`, the program counters, the private arrays (thread → which array → cell) as left by `malloc`, and whether
a store went outside the allocated cells. -/
structure Clr where
  j : ℕ
  pc : ℕ → Pc
  mem : ℕ → ℕ → ℕ → ℚ
  oob : Bool

/-- Store zero in array `k` of thread `t` at cell `j`. -/
def Clr.store (size : ℕ) (s : Clr) (t k : ℕ) (next : Pc) : Clr :=
  { s with
    mem := if s.j < size then fun t' k' c' => if t' = t ∧ k' = k ∧ c' = s.j then 0 else s.mem t' k' c' else s.mem
    oob := s.oob || decide (size ≤ s.j)
    pc := fun t' => if t' = t then next else s.pc t' }

/-- One step of thread `t`. -/
def Clr.step (size : ℕ) (s : Clr) (t : ℕ) : Clr :=
  match s.pc t with
  | .init => { s with j := 0, pc := fun t' => if t' = t then .test else s.pc t' }
  | .test => { s with pc := fun t' => if t' = t then (if s.j < size then .w0 else .done) else s.pc t' }
  | .w0 => s.store size t 0 .w1
  | .w1 => s.store size t 1 .w2
  | .w2 => s.store size t 2 .inc
  | .inc => { s with pc := fun t' => if t' = t then .incw s.j else s.pc t' }
  | .incw r => { s with j := r + 1, pc := fun t' => if t' = t then .test else s.pc t' }
  | .done => s

/-- Execution under a schedule (which thread moves next). -/
def Clr.run (size : ℕ) (s : Clr) (sched : List ℕ) : Clr := sched.foldl (Clr.step size) s

/-- Before the loop: `j` unset, the arrays hold whatever `malloc` returned. -/
def Clr.start (j : ℕ) (mem : ℕ → ℕ → ℕ → ℚ) : Clr := ⟨j, fun _ => .init, mem, false⟩

/-! ### thread bookkeeping, ctrans.c:40-50, 425-442, 499-501 -/

/-- Number of entries allocated for `threadData` (ctrans.c:425-428): `omp_get_max_threads()`, which the replacement
macro for builds without OpenMP defines as 0 (ctrans.c:46-49). -/
def threadSlots (openmp : Bool) (maxThreads : ℕ) : ℕ := if openmp then maxThreads else 0

/-- The entry thread `t` writes (ctrans.c:441, 499-501); without OpenMP there is one thread, number 0. -/
def threadIndex (openmp : Bool) (t : ℕ) : ℕ := if openmp then t else 0

/-! ### the Python wrapper, utils.py:872-939 -/

/-- The mask after the shape check, flattened (utils.py:877-894, 929-930): `none` = no mask. -/
def checkMask (shape : List ℕ) : Option (List ℕ × List Bool) → Py (Option (List Bool))
  | none => .ok none
  | some (ms, m) =>
    if ms = shape then .ok (some m)
    else match shape with
      | [] => .error .indexError
      | 0 :: _ => .error .indexError
      | n :: single => if ms = single then .ok (some ((List.replicate n m).flatten)) else .error .valueError

/-- `np.insert(q, 3, np.ravel(img_stack), axis=1)`, utils.py:928 (a single value is broadcast). -/
def insertIntensity (q : List (ℚ × ℚ × ℚ)) (img : List (Option ℚ)) : Py (List Pt) :=
  match img with
  | [v] => .ok (q.map (fun p => ⟨p.1, p.2.1, p.2.2, v⟩))
  | _ => if q.length = img.length then .ok (List.zipWith (fun p v => ⟨p.1, p.2.1, p.2.2, v⟩) q img)
    else .error .valueError

/-- `q[np.ravel(binary_mask)]` with a boolean mask, utils.py:929-930. -/
def applyMask (pts : List Pt) : Option (List Bool) → Py (List Pt)
  | none => .ok pts
  | some m => if m.length = pts.length then .ok ((pts.zip m).filterMap (fun e => if e.2 then some e.1 else none))
    else .error .indexError

/-- The points given to the C code. -/
def gridPoints (shape : List ℕ) (img : List (Option ℚ)) (q : List (ℚ × ℚ × ℚ)) (mask : Option (List ℕ × List Bool)) :
    Py (List Pt) :=
  match checkMask shape mask with
  | .error e => .error e
  | .ok m =>
    match insertIntensity q img with
    | .error e => .error e
    | .ok pts => applyMask pts m

/-- One axis with defaults, utils.py:909-921: minimum and padded maximum of all q values (masked or not) and 100 bins,
each replaced by the caller's value when given. -/
def axisOf (rnd spacing : ℚ → ℚ) (qs : List ℚ) (lo hi : Option ℚ) (n : Option ℕ) : Py Axis :=
  match qs.min?, qs.max? with
  | some mn, some mx => .ok ⟨lo.getD mn, hi.getD (rnd (mx + spacing mx)), n.getD 100⟩
  | _, _ => .error .valueError

/-- `np.spacing`: distance to the next double *away from zero*, negative for negative arguments. -/
def npSpacing (x : ℚ) : ℚ :=
  if x = 0 then Fl.pow2 (-1074)
  else
    let e0 : ℤ := (Nat.log2 x.num.natAbs : ℤ) - (Nat.log2 x.den : ℤ)
    let e : ℤ := if |x| < Fl.pow2 e0 then e0 - 1 else e0
    if 0 < x then Fl.pow2 (e - 52) else - Fl.pow2 (e - 52)

example : npSpacing 1 = 1 / 2 ^ 52 := by decide +kernel
example : npSpacing (-1) = -1 / 2 ^ 52 := by decide +kernel
example : npSpacing (7 / 2) = 2 / 2 ^ 52 := by decide +kernel
example : npSpacing (3 / 4) = 1 / 2 ^ 53 := by decide +kernel

end Verif.Grid
