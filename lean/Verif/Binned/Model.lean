/- Model of BinnedStatisticDD, skbeam/core/accumulators/binned_statistic.py:46-349. -/
import Verif.Np
import Verif.Fl
import Mathlib.Analysis.Real.Sqrt
import Mathlib.Data.Nat.Log
import Mathlib.Data.List.Sort

namespace Verif.Binned
open Verif

/-- `10^e` for an integer exponent. -/
def pow10 (e : ℤ) : ℚ := if 0 ≤ e then (10 : ℚ) ^ e.toNat else 1 / (10 : ℚ) ^ (-e).toNat

/-- `dedges[i].min()`, binned_statistic.py:149, 170. -/
def minWidth (edges : List ℚ) : ℚ := (Np.diff edges).min?.getD 0

/-- `int(-np.log10(w))` for w > 0. -/
def truncNegLog10 (w : ℚ) : ℤ := if w ≤ 1 then (Nat.log 10 ⌊1 / w⌋.toNat : ℤ) else - (Nat.log 10 ⌊w⌋.toNat : ℤ)

/-- `decimal`, binned_statistic.py:170. -/
def decimals (edges : List ℚ) : ℤ := truncNegLog10 (minWidth edges) + 6

/-- `np.around(x, decimal) == np.around(y, decimal)`, binned_statistic.py:172. -/
def sameRounded (d : ℤ) (x y : ℚ) : Prop := Fl.roundHalfEven (x * pow10 d) = Fl.roundHalfEven (y * pow10 d)

instance (d : ℤ) (x y : ℚ) : Decidable (sameRounded d x y) := by unfold sameRounded; infer_instance

/-- Bin number of one coordinate (0 = below, number of bins + 1 = above): digitize, then one less for the samples that
round to the right edge; binned_statistic.py:161-174.  Simplifications: edges are strictly increasing with at least two
entries (the code raises otherwise); the decrement never reaches below zero (`digitize_pos`), so natural numbers are
used. -/
def binNo (edges : List ℚ) (x : ℚ) : ℕ :=
  let n := Np.digitize edges x
  if sameRounded (decimals edges) x (edges.getLast?.getD 0) then n - 1 else n

/-- `self.nbin`, binned_statistic.py:141-151. -/
def nbin (edges : List (List ℚ)) : List ℕ := edges.map (fun e => e.length + 1)

/-- Positional number: `(digit, radix)` pairs, most significant first. -/
def mixed : List (ℕ × ℕ) → ℕ
  | [] => 0
  | (c, _) :: t => c * (t.map Prod.snd).prod + mixed t

/-- `self.xy` of one sample from its bin numbers, binned_statistic.py:177-181.  `ni` is `nbin.argsort()`. -/
def xyOf (nb ni counts : List ℕ) : ℕ := mixed (ni.map (fun d => (counts.getD d 0, nb.getD d 0)))

/-- `ni` is a possible value of `nbin.argsort()`: numpy does not specify the order of equal elements, so any
permutation that sorts is allowed. -/
def IsArgsort (nb ni : List ℕ) : Prop := ni.Perm (List.range nb.length) ∧ (ni.map (fun d => nb.getD d 0)).Pairwise (· ≤ ·)

/-- Bin numbers of one sample in all dimensions. -/
def counts (edges : List (List ℚ)) (s : List ℚ) : List ℕ := List.zipWith binNo edges s

/-- `self.xy`. -/
def xy (edges : List (List ℚ)) (ni : List ℕ) (samples : List (List ℚ)) : List ℕ :=
  samples.map (fun s => xyOf (nbin edges) ni (counts edges s))

/-- Length of a bincount: the largest key + 1. -/
def keyBound (keys : List ℕ) : ℕ := match keys.max? with | some m => m + 1 | none => 0

/-- `np.bincount(keys, weights)`: length is the largest key + 1. -/
def bincount (keys : List ℕ) (w : List ℚ) : List ℚ :=
  (List.range (keyBound keys)).map
    (fun c => (((keys.zip w).filter (fun e => decide (e.1 = c))).map Prod.snd).sum)

/-- `flatcount`, binned_statistic.py:214-219. -/
def flatcount (keys : List ℕ) : List ℕ :=
  (List.range (keyBound keys)).map (fun c => keys.count c)

/-- 'count', binned_statistic.py:302-305 (`fill` then assign the first entries). -/
def resCount (keys : List ℕ) (c : ℕ) : ℚ := (((flatcount keys)[c]?).map (fun k => (k : ℚ))).getD 0

/-- 'sum', binned_statistic.py:306-310. -/
def resSum (keys : List ℕ) (vals : List ℚ) (c : ℕ) : ℚ := ((bincount keys vals)[c]?).getD 0

/-- 'mean', binned_statistic.py:291-295; `none` = NaN. -/
def resMean (keys : List ℕ) (vals : List ℚ) (c : ℕ) : Option ℚ :=
  match (flatcount keys)[c]?, (bincount keys vals)[c]? with
  | some k, some s => if k = 0 then none else some (s / k)
  | _, _ => none

/-- The quantity under the root of 'std', binned_statistic.py:296-301 (empty bins: 0). -/
def resVar (keys : List ℕ) (vals : List ℚ) (c : ℕ) : ℚ :=
  match (flatcount keys)[c]?, (bincount keys vals)[c]?, (bincount keys (vals.map (fun v => v ^ 2)))[c]? with
  | some k, some s, some s2 => if k = 0 then 0 else s2 / k - (s / k) ^ 2
  | _, _, _ => 0

/-- 'std'. -/
noncomputable def resStd (keys : List ℕ) (vals : List ℚ) (c : ℕ) : ℝ := Real.sqrt (resVar keys vals c)

/-- `perm` is a possible value of `xy.argsort()` (equal keys in any order). -/
def IsKeySort (keys : List ℕ) (perm : List ℕ) : Prop :=
  perm.Perm (List.range keys.length) ∧ (perm.map (fun i => keys.getD i 0)).Pairwise (· ≤ ·)

/-- 'median' or a user function: `f` applied to the slice of the sorted values, `null` for empty bins;
binned_statistic.py:311-332. -/
def resFun {β : Type} (keys : List ℕ) (perm : List ℕ) (vals : List ℚ) (f : List ℚ → β) (null : β) (c : ℕ) : β :=
  match (flatcount keys)[c]? with
  | none => null
  | some k =>
    if k = 0 then null
    else
      let vfs := perm.map (fun i => vals.getD i 0)
      f ((vfs.drop ((flatcount keys).take c).sum).take k)

/-- An N-dimensional array: shape and entries. -/
structure Nd (α : Type) where
  shape : List ℕ
  get : List ℕ → α

/-- Exchange entries i and j of a list. -/
def swapAt (l : List ℕ) (i j : ℕ) : List ℕ := (l.set i (l.getD j 0)).set j (l.getD i 0)

/-- `ndarray.swapaxes`. -/
def Nd.swapaxes {α : Type} (A : Nd α) (i j : ℕ) : Nd α := ⟨swapAt A.shape i j, fun idx => A.get (swapAt idx i j)⟩

/-- `flat.reshape(shape)` (row-major). -/
def reshape {α : Type} (flat : ℕ → α) (shape : List ℕ) : Nd α := ⟨shape, fun idx => flat (mixed (idx.zip shape))⟩

/-- One turn of the axis-restoring loop, binned_statistic.py:337-340.  `ni` is a permutation of 0..D-1, whose argsort at
i is the position of i. -/
def restoreStep {α : Type} (st : Nd α × List ℕ) (i : ℕ) : Nd α × List ℕ :=
  let j := st.2.idxOf i
  (st.1.swapaxes i j, swapAt st.2 i j)

/-- binned_statistic.py:335-344: reshape, restore the axes, drop the outlier bins. -/
def shaped {α : Type} (nb ni : List ℕ) (flat : ℕ → α) : Nd α :=
  let A := ((List.range nb.length).foldl restoreStep (reshape flat (nb.insertionSort (· ≤ ·)), ni)).1
  ⟨A.shape.map (fun n => n - 2), fun idx => A.get (idx.map (fun i => i + 1))⟩

/-- binned_statistic.py:346-349: the shape check (RuntimeError is reported as valueError here). -/
def call {α : Type} (nb ni : List ℕ) (flat : ℕ → α) : Py (Nd α) :=
  let A := shaped nb ni flat
  if A.shape ≠ nb.map (fun n => n - 2) then .error .valueError else .ok A

/-- `binmap` of one sample: row d for d = 0..D-1, binned_statistic.py:187-211.  `dens` is the running denominator. -/
def binmap (nb ni : List ℕ) (x : ℕ) : List ℕ :=
  let D := ni.length
  let n (k : ℕ) := nb.getD (ni.getD k 0) 0
  (List.range D).map (fun ind =>
    -- i = D - 1 - ind iterations came before: denominator is the product of nbin[ni[k]] for k > ind
    let q := x / ((List.range' (ind + 1) (D - 1 - ind)).map n).prod
    if D - 1 - ind < D - 1 then q % n (ind - 1) else q)

/-! ### masking, binned_statistic.py:103-109, 155-161 -/

/-- How the samples were passed. -/
inductive Arg
  /-- an (N, D) array of floats owned by the caller: columns are views -/
  | floatArray
  /-- an (N, D) array of integers owned by the caller -/
  | intArray
  /-- a sequence of D sequences of floats: a fresh float array is made -/
  | sequence
  /-- a sequence of D sequences of integers: a fresh integer array is made -/
  | intSequence
  deriving DecidableEq

/-- Storing into an integer array truncates. -/
def storeAs (a : Arg) (x : ℚ) : ℚ := if a = .intArray ∨ a = .intSequence then (pyInt x : ℚ) else x

/-- The value that masked samples are given in a dimension, line 160. -/
def maskedValue (a : Arg) (edges : List ℚ) : ℚ :=
  let e0 := edges.headD 0
  storeAs a (e0 - 1 / 100 * (1 + |e0|))

/-- The sample array after masking (row by row). -/
def maskSamples (a : Arg) (edges : List (List ℚ)) (mask : List Bool) (samples : List (List ℚ)) : List (List ℚ) :=
  List.zipWith (fun m s => if m then s else List.zipWith (fun e _ => maskedValue a e) edges s) mask samples

/-- The constructor with a mask: (the caller's array afterwards, the samples used for binning). -/
def construct (a : Arg) (edges : List (List ℚ)) (mask : List Bool) (samples : List (List ℚ)) : List (List ℚ) × List (List ℚ) :=
  let s := maskSamples a edges mask samples
  (if a = .sequence ∨ a = .intSequence then samples else s, s)

end Verif.Binned
