/- Model of a binned-statistic object in use: the `statistic` attribute, the cached arrays and `__call__`;
skbeam/core/accumulators/binned_statistic.py:46-47, 182-184, 213-254, 287-349. -/
import Verif.Binned.Ctor
import Verif.Utils.Model

namespace Verif.Binned
open Verif

/-- Values of the `statistic` argument: a name, or a callable (which may raise; `none` is NaN). -/
inductive Stat
  | mean
  | std
  | count
  | sum
  | median
  | fn (f : List ℚ → Py (Option ℝ))
  /-- a name that is not in `std_`, binned_statistic.py:47 -/
  | other (name : String)

/-- `np.median`: NaN for no values. -/
noncomputable def npMedian (l : List ℚ) : Option ℝ :=
  let s := l.insertionSort (· ≤ ·)
  if l = [] then none
  else if l.length % 2 = 1 then some ((s.getD (l.length / 2) 0 : ℚ) : ℝ)
  else some (((s.getD (l.length / 2 - 1) 0 + s.getD (l.length / 2) 0) / 2 : ℚ) : ℝ)

/-- The object between calls: `nbin`, `ni`, `xy`, the two caches (`none` is None) and the default statistic;
binned_statistic.py:151, 177-184. -/
structure Sess where
  nb : List ℕ
  ni : List ℕ
  keys : List ℕ
  flat : Option (List ℕ)
  order : Option (List ℕ)
  stat : Stat

/-- `self.statistic = new`, binned_statistic.py:249-254. -/
def Sess.setStat (s : Sess) (new : Stat) : Py Unit × Sess :=
  match new with
  | .other _ => (.error .valueError, s)
  | st => (.ok (), { s with stat := st })

/-- The end of the constructor, binned_statistic.py:176-184. -/
def newSess (nb ni keys : List ℕ) (stat : Stat) : Py Sess :=
  match stat with
  | .other _ => .error .valueError
  | st => .ok ⟨nb, ni, keys, none, none, st⟩

/-- The property `flatcount`, binned_statistic.py:213-219: its value, and the object afterwards. -/
def Sess.flatcount (s : Sess) : List ℕ × Sess :=
  match s.flat with
  | some f => (f, s)
  | none => (Binned.flatcount s.keys, { s with flat := some (Binned.flatcount s.keys) })

/-- The property `argsort_index`, binned_statistic.py:221-227; `argsort` is `ndarray.argsort`. -/
def Sess.argsortIndex (argsort : List ℕ → List ℕ) (s : Sess) : List ℕ × Sess :=
  match s.order with
  | some o => (o, s)
  | none => (argsort s.keys, { s with order := some (argsort s.keys) })

/-- 'mean' from the counts and the sums, binned_statistic.py:292-295. -/
noncomputable def meanFrom (fc : List ℕ) (fs : List ℚ) (c : ℕ) : Option ℝ :=
  match fc[c]?, fs[c]? with
  | some k, some s => if k = 0 then none else some ((s / k : ℚ) : ℝ)
  | _, _ => none

/-- 'std', binned_statistic.py:297-301 (exact arithmetic, so that nothing negative is under the root). -/
noncomputable def stdFrom (fc : List ℕ) (fs fs2 : List ℚ) (c : ℕ) : Option ℝ :=
  match fc[c]?, fs[c]?, fs2[c]? with
  | some k, some s, some s2 => if k = 0 then some 0 else some (Real.sqrt ((s2 / k - (s / k) ^ 2 : ℚ) : ℝ))
  | _, _, _ => some 0

/-- The loop of binned_statistic.py:328-332 on the counts and the rest of the sorted values: an exception of the function
propagates. -/
def fnLoop (f : List ℚ → Py (Option ℝ)) (null : Option ℝ) : List ℕ → List ℚ → Py (List (Option ℝ))
  | [], _ => .ok []
  | k :: ks, v => do
    let r ← if 0 < k then f (v.take k) else .ok null
    let rs ← fnLoop f null ks (v.drop k)
    .ok (r :: rs)

/-- `null`, binned_statistic.py:320-323. -/
def nullOf (f : List ℚ → Py (Option ℝ)) : Option ℝ :=
  match f [] with
  | .ok v => v
  | .error _ => none

/-- binned_statistic.py:311-332.  `values[self.argsort_index]` raises IndexError when an index is out of bounds. -/
def callFn (argsort : List ℕ → List ℕ) (f : List ℚ → Py (Option ℝ)) (s : Sess) (vals : List ℚ) : Py (ℕ → Option ℝ) × Sess :=
  let (perm, s1) := s.argsortIndex argsort
  if perm.any (fun i => decide (vals.length ≤ i)) then (.error .indexError, s1)
  else
    let (fc, s2) := s1.flatcount
    match fnLoop f (nullOf f) fc (perm.map (fun i => vals.getD i 0)) with
    | .error e => (.error e, s2)
    | .ok rs => (.ok (fun c => (rs[c]?).getD (nullOf f)), s2)

/-- The flat result, binned_statistic.py:287-332.  `mem` is what `np.empty` returns: no branch is taken for a name that is
none of the five, so that the array is returned as allocated.  `np.bincount` raises ValueError for values that are not
as many as the samples. -/
noncomputable def callFlat (mem : ℕ → Option ℝ) (argsort : List ℕ → List ℕ) (s : Sess) (vals : List ℚ) (arg : Option Stat) :
    Py (ℕ → Option ℝ) × Sess :=
  match arg.getD s.stat with
  | .mean =>
    if vals.length ≠ s.keys.length then (.error .valueError, s)
    else (.ok (meanFrom s.flatcount.1 (bincount s.keys vals)), s.flatcount.2)
  | .std =>
    if vals.length ≠ s.keys.length then (.error .valueError, s)
    else (.ok (stdFrom s.flatcount.1 (bincount s.keys vals) (bincount s.keys (vals.map (fun v => v ^ 2)))), s.flatcount.2)
  | .count => (.ok (fun c => some ((((s.flatcount.1)[c]?).getD 0 : ℕ) : ℝ)), s.flatcount.2)
  | .sum =>
    if vals.length ≠ s.keys.length then (.error .valueError, s)
    else (.ok (fun c => some ((((bincount s.keys vals)[c]?).getD 0 : ℚ) : ℝ)), s)
  | .median => callFn argsort (fun l => .ok (npMedian l)) s vals
  | .fn f => callFn argsort f s vals
  | .other _ => (.ok mem, s)

/-- `obj(values, statistic=None)`, binned_statistic.py:287-349 (values are one-dimensional float arrays). -/
noncomputable def Sess.call (mem : ℕ → Option ℝ) (argsort : List ℕ → List ℕ) (s : Sess) (vals : List ℚ) (arg : Option Stat) :
    Py (Nd (Option ℝ)) × Sess :=
  match callFlat mem argsort s vals arg with
  | (.error e, s') => (.error e, s')
  | (.ok flat, s') => (Binned.call s.nb s.ni flat, s')

/-- What a user may do with the object. -/
inductive Op
  | setStat (st : Stat)
  | call (mem : ℕ → Option ℝ) (vals : List ℚ) (arg : Option Stat)

/-- The object after one operation (whether it raised or not). -/
noncomputable def Sess.step (argsort : List ℕ → List ℕ) (s : Sess) : Op → Sess
  | .setStat st => (s.setStat st).2
  | .call mem vals arg => (s.call mem argsort vals arg).2

/-- The object after a history. -/
noncomputable def Sess.after (argsort : List ℕ → List ℕ) (s : Sess) (ops : List Op) : Sess := ops.foldl (Sess.step argsort) s

/-- `BinnedStatistic1D.bin_edges`, binned_statistic.py:427-433. -/
def Obj.binEdges1 (o : Obj) : Py (List ℚ) :=
  match o.edges with
  | [] => .error .indexError
  | e :: _ => .ok e

/-- `BinnedStatistic1D.bin_centers`, binned_statistic.py:435-441: `bin_edges_to_centers` of the edges, computed
by the constructor at line 148. -/
def Obj.binCenters1 (o : Obj) : Py (List ℚ) :=
  match o.edges with
  | [] => .error .indexError
  | e :: _ => .ok (Utils.binEdgesToCenters e)

end Verif.Binned
