/- Model of the constructors of the binned-statistic classes, binned_statistic.py:103-161, 412-424, 500-511, 554-621,
655-774. -/
import Verif.Binned.Model

namespace Verif.Binned
open Verif

/-- One element of a `bins` sequence: a number of bins, or an array of edges. -/
inductive BinItem
  | num (q : ℚ)
  | arr (e : List ℚ)
  deriving DecidableEq

/-- The `bins` argument: a number, or a sequence. -/
inductive BinArg
  | scalar (n : ℚ)
  | seq (l : List BinItem)
  deriving DecidableEq

/-- The D specifications, binned_statistic.py:117-122. -/
def items (D : ℕ) : BinArg → Py (List BinItem)
  | .scalar n => .ok (List.replicate D (.num n))
  | .seq l => if l.length = D then .ok l else .error .attributeError

/-- `smin`, `smax` before widening, binned_statistic.py:126-133.  The minima and maxima are taken of all samples, masked
or not; `sample.min(0)` of an empty array raises. -/
def limits (D : ℕ) (range : Option (List (ℚ × ℚ))) (samples : List (List ℚ)) : Py (List (ℚ × ℚ)) :=
  match range with
  | none =>
    if samples = [] then .error .valueError
    else .ok ((List.range D).map (fun d =>
      let col := samples.map (fun s => s.getD d 0)
      (col.min?.getD 0, col.max?.getD 0)))
  | some r => if r.length < D then .error .indexError else .ok (r.take D)

/-- Equal limits are moved apart, binned_statistic.py:136-139. -/
def widen (p : ℚ × ℚ) : ℚ × ℚ := if p.1 = p.2 then (p.1 - 1 / 2, p.2 + 1 / 2) else p

/-- Edges of one dimension, binned_statistic.py:142-148: `nbin` is stored in an integer array, which truncates. -/
def itemEdges (p : ℚ × ℚ) : BinItem → Py (List ℚ)
  | .num q =>
    let nb := pyInt (q + 2)
    if nb - 1 < 0 then .error .valueError else .ok (Np.linspace p.1 p.2 (nb - 1).toNat)
  | .arr e => .ok e

/-- What digitize and `int(-np.log10(dedges.min()))` accept, binned_statistic.py:161, 170: edges that go down or are fewer
than two raise ValueError, repeated edges OverflowError (reported as `exception`).  Simplification: with a mask and no
edge at all the code raises IndexError instead of ValueError. -/
def checkEdges (e : List ℚ) : Py (List ℚ) :=
  if e.length < 2 then .error .valueError
  else if e.Pairwise (· < ·) then .ok e
  else if e.Pairwise (· ≤ ·) then .error .exception
  else .error .valueError

/-- One dimension. -/
def dimEdges (x : (ℚ × ℚ) × BinItem) : Py (List ℚ) := do checkEdges (← itemEdges (widen x.1) x.2)

/-- Dimension by dimension, stopping at the first error. -/
def allEdges : List ((ℚ × ℚ) × BinItem) → Py (List (List ℚ))
  | [] => .ok []
  | x :: t => do
    let e ← dimEdges x
    let es ← allEdges t
    .ok (e :: es)

/-- `self.edges` of `BinnedStatisticDD(sample, bins=, range=)`, binned_statistic.py:103-170. -/
def edgesDD (D : ℕ) (bins : BinArg) (range : Option (List (ℚ × ℚ))) (samples : List (List ℚ)) : Py (List (List ℚ)) := do
  let it ← items D bins
  let lim ← limits D range samples
  allEdges (lim.zip it)

/-- `np.asarray(bins, float)` of a sequence: numbers only. -/
def floats : List BinItem → Py (List ℚ)
  | [] => .ok []
  | .num q :: t => do .ok (q :: (← floats t))
  | .arr _ :: _ => .error .valueError

/-- `bins` of `BinnedStatistic1D`, binned_statistic.py:413-420. -/
def bins1D : BinArg → Py BinArg
  | .scalar n => .ok (.scalar n)
  | .seq l => if l.length ≠ 1 then do .ok (.seq [.arr (← floats l)]) else .ok (.seq l)

/-- `bins` of `BinnedStatistic2D`, binned_statistic.py:502-509. -/
def bins2D : BinArg → Py BinArg
  | .scalar n => .ok (.scalar n)
  | .seq l => if l.length ≠ 1 ∧ l.length ≠ 2 then do let e ← floats l; .ok (.seq [.arr e, .arr e]) else .ok (.seq l)

/-- A constructed object: the edges and the samples as used for binning. -/
structure Obj where
  edges : List (List ℚ)
  used : List (List ℚ)
  deriving DecidableEq

/-- `BinnedStatisticDD.__init__`, binned_statistic.py:103-174.  A mask of another length raises IndexError (boolean
indexing; at least one dimension is assumed). -/
def ctorDD (D : ℕ) (a : Arg) (bins : BinArg) (range : Option (List (ℚ × ℚ))) (mask : Option (List Bool))
    (samples : List (List ℚ)) : Py Obj := do
  let es ← edgesDD D bins range samples
  match mask with
  | none => .ok ⟨es, samples⟩
  | some m => if m.length ≠ samples.length then .error .indexError else .ok ⟨es, (construct a es m samples).2⟩

/-- `BinnedStatistic1D.__init__`, binned_statistic.py:413-425.  The range is a pair (the form `[(lo, hi)]` gives the same);
`x` is packed in a list, so the samples are a fresh array. -/
def ctor1D (bins : BinArg) (range : Option (ℚ × ℚ)) (mask : Option (List Bool)) (x : List ℚ) : Py Obj := do
  let b ← bins1D bins
  ctorDD 1 .sequence b (range.map (fun p => [p])) mask (x.map (fun v => [v]))

/-- `BinnedStatistic2D.__init__`, binned_statistic.py:500-511; `np.atleast_2d([x, y])` needs equal lengths. -/
def ctor2D (bins : BinArg) (range : Option (List (ℚ × ℚ))) (mask : Option (List Bool)) (x y : List ℚ) : Py Obj := do
  let b ← bins2D bins
  if x.length ≠ y.length then .error .valueError
  else ctorDD 2 .sequence b range mask (List.zipWith (fun u v => [u, v]) x y)

/-- `arr.shape == (H, W)`. -/
def HasShape {α : Type} (H W : ℕ) (img : List (List α)) : Prop := img.length = H ∧ ∀ row ∈ img, row.length = W

instance {α : Type} (H W : ℕ) (img : List (List α)) : Decidable (HasShape H W img) := by unfold HasShape; infer_instance

/-- The mask check of the image classes, binned_statistic.py:611-617, 724-730. -/
def imageMask (H W : ℕ) (mask : Option (List (List Bool))) : Py (Option (List Bool)) :=
  match mask with
  | none => .ok none
  | some m => if HasShape H W m then .ok (some m.flatten) else .error .valueError

/-- `RadialBinnedStatistic.__init__`, binned_statistic.py:717-734.  `rmap` is the array of pixel radii, given or computed
by `radial_grid`: any array of rational numbers (floating-point numbers are rational). -/
def radial (H W : ℕ) (bins : BinArg) (range : Option (ℚ × ℚ)) (mask : Option (List (List Bool))) (rmap : List (List ℚ)) : Py Obj := do
  let m ← imageMask H W mask
  ctor1D bins range m rmap.flatten

/-- `RPhiBinnedStatistic.__init__`, binned_statistic.py:602-621.  `phimap` is what `angle_grid` computes. -/
def rphi (H W : ℕ) (bins : BinArg) (range : Option (List (ℚ × ℚ))) (mask : Option (List (List Bool))) (rmap phimap : List (List ℚ)) :
    Py Obj := do
  let m ← imageMask H W mask
  ctor2D bins range m rmap.flatten phimap.flatten

/-- `__call__` of the image classes, binned_statistic.py:656-661, 769-774: the shape of the values is checked, then the
flattened values are binned.  `stat` is the statistic (`resSum`, `resMean`, ...), `ni` the argsort of `nbin`. -/
def imageCall {α : Type} (H W : ℕ) (o : Obj) (ni : List ℕ) (stat : List ℕ → List ℚ → ℕ → α) (values : List (List ℚ)) : Py (Nd α) :=
  if HasShape H W values then call (nbin o.edges) ni (stat (xy o.edges ni o.used) values.flatten) else .error .valueError

end Verif.Binned
