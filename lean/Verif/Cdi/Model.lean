/- Model of skbeam/core/cdi.py, over the real and complex numbers. -/
import Verif.Dft
import Verif.Np

namespace Verif.Cdi
open Finset Verif

/-! ### N-dimensional helpers; an array of shape `dims` is a function of the multi-index -/

/-- All multi-indices of an array of shape `dims`, in C order. -/
def allIdx : List ℕ → List (List ℕ)
  | [] => [[]]
  | d :: rest => (List.range d).flatMap (fun i => (allIdx rest).map (i :: ·))

/-- The squared distance accumulated by `_dist`; cdi.py 68-74. -/
def distSq (dims idx : List ℕ) : ℤ := (List.zipWith (fun (d i : ℕ) => ((i : ℤ) - (d / 2 : ℕ)) ^ 2) dims idx).sum

/-- `_dist`; cdi.py 51-76. -/
noncomputable def dist (dims idx : List ℕ) : ℝ := √(distSq dims idx : ℝ)

/-- `gauss`; cdi.py 79-97. -/
noncomputable def gauss (dims : List ℕ) (sigma : ℝ) (idx : List ℕ) : ℝ :=
  Real.exp (-((dist dims idx / sigma) ^ 2) / 2) / ((allIdx dims).map (fun i => Real.exp (-((dist dims i / sigma) ^ 2) / 2))).sum

/-- Position i of an axis of length s is in the slice `a:b` (negative bounds count from the end). -/
def inSlice (s : ℕ) (a b : ℤ) (i : ℕ) : Bool :=
  let norm := fun (x : ℤ) => if x < 0 then max 0 (x + s) else min x s
  decide (norm a ≤ i) && decide ((i : ℤ) < norm b)

/-- The support radius: an integer, or a float as the documentation says. -/
inductive Radius where
  | int (r : ℤ)
  | float (r : ℚ)

/-- `generate_box_support`; cdi.py 188-207: the value at a multi-index.  Slicing with floats raises TypeError. -/
def boxSupport (radius : Radius) (shape idx : List ℕ) : Py ℕ :=
  match radius with
  | .float _ => .error .typeError
  | .int r => .ok (if (List.zipWith (fun (s i : ℕ) => inSlice s ((s / 2 : ℕ) - r) ((s / 2 : ℕ) + r) i) shape idx).all id then 1 else 0)

open Classical in
/-- `generate_disk_support`; cdi.py 210-229. -/
noncomputable def diskSupport (radius : ℝ) (shape idx : List ℕ) : ℕ := if dist shape idx < radius then 1 else 0

/-! ### reconstruction (2-D arrays of shape r x c) -/

/-- A complex 2-D array. -/
abbrev Arr := ℕ → ℕ → ℂ

open Classical in
/-- `pi_modulus`; cdi.py 100-122. -/
noncomputable def piModulus (r c : ℕ) (offset : ℝ) (d : ℕ → ℕ → ℝ) (x : Arr) : Arr := fun i j =>
  Dft.ifft2 r c (fun k l =>
    let t := Dft.fft2 r c x k l / √((r * c : ℕ) : ℝ)
    if 0 < d k l then d k l * t / ((‖t‖ : ℝ) + offset : ℝ) else t) i j * √((r * c : ℕ) : ℝ)

/-- `np.linalg.norm` of a 2-D array (Frobenius). -/
noncomputable def norm2 (r c : ℕ) (x : Arr) : ℝ := √(∑ i ∈ range r, ∑ j ∈ range c, ‖x i j‖ ^ 2)

open Classical in
/-- A quotient of two norms; `none` when the denominator is 0 (NumPy gives nan or inf). -/
noncomputable def relative (a b : ℝ) : Option ℝ := if b = 0 then none else some (a / b)

/-- `cal_diff_error`; cdi.py 149-166. -/
noncomputable def calDiffError (r c : ℕ) (x : Arr) (d : ℕ → ℕ → ℝ) : Option ℝ :=
  relative (norm2 r c (fun k l => ((‖Dft.fft2 r c x k l‖ / √((r * c : ℕ) : ℝ) - d k l : ℝ) : ℂ))) (norm2 r c (fun k l => (d k l : ℂ)))

/-- `generate_random_phase_field`; cdi.py 169-185; `pha` are the random phases. -/
noncomputable def randomPhaseField (r c : ℕ) (d pha : ℕ → ℕ → ℝ) : Arr := fun i j =>
  Dft.ifft2 r c (fun k l => d k l * Complex.exp (Complex.I * pha k l)) i j * √((r * c : ℕ) : ℝ)

/-- Parameters of `cdi_recon`. -/
structure Params where
  r : ℕ
  c : ℕ
  /-- the (shifted) diffraction pattern, cdi.py 320 -/
  d : ℕ → ℕ → ℝ
  offset : ℝ
  beta : ℝ
  real : Bool
  startAvg : ℚ
  swFlag : Bool
  /-- `find_support` with its parameters, cdi.py 125-146: an arbitrary function here, modelled in Cdi/Support.lean -/
  findSupport : Arr → ℕ → ℕ → Bool
  swStart : ℚ
  swEnd : ℚ
  swStep : ℕ
  n : ℕ
  /-- a callback was given -/
  cb : Bool
  cbStep : ℕ

/-- Loop state. -/
structure St where
  /-- `sample_obj`: the array passed by the caller -/
  obj : Arr
  /-- inside the support (`~outside_sup_index`) -/
  sup : ℕ → ℕ → Bool
  supOld : ℕ → ℕ → Bool
  /-- `sup_error[0..n]` -/
  supErr : List ℕ
  /-- `obj_error[0..n]` and `diff_error[0..n]` -/
  objErr : List (Option ℝ)
  diffErr : List (Option ℝ)
  /-- number of calls of the callback -/
  calls : ℕ
  avg : Arr
  avgN : ℕ

/-- `obj[outside_sup_index] = 0`. -/
def restrict (sup : ℕ → ℕ → Bool) (x : Arr) : Arr := fun i j => if sup i j then x i j else 0

/-- `np.sum(sup)` for a 0/1 array. -/
def supSize (r c : ℕ) (sup : ℕ → ℕ → Bool) : ℕ := ∑ i ∈ range r, ∑ j ∈ range c, if sup i j then 1 else 0

/-- pi_modulus followed by np.abs in the real case; cdi.py 350-352, 361-363. -/
noncomputable def project (p : Params) (x : Arr) : Arr :=
  if p.real then fun i j => ((‖piModulus p.r p.c p.offset p.d x i j‖ : ℝ) : ℂ) else piModulus p.r p.c p.offset p.d x

/-- The new object; cdi.py 348-365. -/
noncomputable def nextObj (p : Params) (sup : ℕ → ℕ → Bool) (x : Arr) : Arr :=
  let gamma1 : ℂ := -1 / p.beta
  let gamma2 : ℂ := 1 / p.beta
  let a := restrict sup (fun i j => (1 + gamma2) * project p x i j - gamma2 * x i j)
  let b := project p (fun i j => (1 + gamma1) * restrict sup x i j - gamma1 * x i j)
  fun i j => x i j + p.beta * (a i j - b i j)

/-- Shrink-wrap happens in iteration n; cdi.py 371-373 (sw_step >= 1). -/
def shrinks (p : Params) (n : ℕ) : Bool :=
  p.swFlag && decide (p.swStart * p.n ≤ n) && decide ((n : ℚ) ≤ p.swEnd * p.n) && decide (n % p.swStep = 0)

/-- One iteration; cdi.py 347-389 (logging left out). -/
noncomputable def step (p : Params) (st : St) (n : ℕ) : St :=
  let obj := nextObj p st.sup st.obj
  let shr := shrinks p n
  let sup := if shr then p.findSupport obj else st.sup
  let avgNow := decide (p.startAvg * p.n < (n : ℚ))
  { obj := obj
    sup := sup
    supErr := st.supErr ++ [if shr then supSize p.r p.c st.supOld else 0]
    objErr := st.objErr ++ [relative (norm2 p.r p.c (fun i j => obj i j - st.obj i j)) (norm2 p.r p.c st.obj)]
    diffErr := st.diffErr ++ [calDiffError p.r p.c obj p.d]
    supOld := if shr then sup else st.supOld
    calls := if p.cb && decide (p.n % p.cbStep = 0) then st.calls + 1 else st.calls
    avg := if avgNow then fun i j => st.avg i j + obj i j else st.avg
    avgN := if avgNow then st.avgN + 1 else st.avgN }

/-- What a call of cdi_recon leaves behind. -/
structure Result where
  /-- `obj_avg`; none when every entry is 0/0 = NaN -/
  avg : Option Arr
  supErr : List ℕ
  objErr : List (Option ℝ)
  diffErr : List (Option ℝ)
  calls : ℕ
  /-- the caller's `sample_obj` array afterwards (updated in place, cdi.py 365) -/
  caller : Arr

/-- State before the loop; cdi.py 334-344. -/
def initSt (obj : Arr) (sup : ℕ → ℕ → Bool) : St := ⟨obj, sup, fun _ _ => false, [], [], [], 0, fun _ _ => 0, 0⟩

/-- `cdi_recon` for a valid pi_modulus_flag; cdi.py 331-400. -/
noncomputable def run (p : Params) (obj : Arr) (sup : ℕ → ℕ → Bool) : Result :=
  let st := (List.range p.n).foldl (step p) (initSt obj sup)
  ⟨if st.avgN = 0 then none else some (fun i j => st.avg i j / st.avgN), st.supErr, st.objErr, st.diffErr, st.calls, st.obj⟩

/-- `cdi_recon`; cdi.py 319-400 with the check of pi_modulus_flag. -/
noncomputable def cdiRecon (p : Params) (flag : String) (obj : Arr) (sup : ℕ → ℕ → Bool) : Py Result :=
  let f := flag.toLower
  if f = "real" then .ok (run { p with real := true } obj sup)
  else if f = "complex" then .ok (run { p with real := false } obj sup)
  else .error .valueError

end Verif.Cdi
