/- Model of multi_tau_auto_corr (skbeam/core/correlation.py) in floating-point arithmetic: every arithmetic operation of
`Verif/Corr/Model.lean` on pixel values is followed by a rounding function.  Integer operations (counters, indices, the
normalisation count) are exact.  No overflow or underflow. -/
import Verif.Corr.Model

namespace Verif.Corr.Rnd
open Verif
variable (fl : ℚ → ℚ)

/-- `(a + b) / 2` elementwise with NaN propagation (correlation.py:371-373). -/
def avg (a b : Frame) : Frame :=
  List.zipWith (fun x y => match x, y with | some x, some y => some (fl (fl (x + y) / 2)) | _, _ => none) a b

/-- `np.bincount(label_array, weights=w)[1:][r]`, correlation.py:155: bincount adds the weights to their bins one by one, in
the order of the array. -/
def binned (labels : List ℕ) (w : List ℚ) (r : ℕ) : ℚ :=
  (labels.zip w).foldl (fun acc p => if p.1 = r + 1 then fl (acc + p.2) else acc) 0

/-- `arr[t] += (binned / num_pixels - arr[t]) / normalize` for one ROI, correlation.py:155-156. -/
def upd (labels : List ℕ) (arr : ℕ → ℕ → ℚ) (t : ℕ) (w : List ℚ) (normalize : ℚ) : ℕ → ℕ → ℚ :=
  fun a r => if a = t then fl (arr t r + fl (fl (fl (binned fl labels w r / numPixels labels r) - arr t r) / normalize)) else arr a r

/-- The body of the loop over delays, correlation.py:133-156. -/
def oneDelay (c : Cfg) (r : Ring Frame) (level : ℕ) (a : Acc) (i : ℕ) : Acc :=
  let t := level * c.n / 2 + i
  let bufNo := slot c.n (r.cur level)
  let delayNo := (((bufNo : ℤ) - i) % c.n).toNat
  let pastImg := r.buf level delayNo
  let futImg := r.buf level bufNo
  let ind := t - levBefore c.n level
  let normalize : ℚ := (r.img level : ℚ) - i - a.norm level ind
  match good pastImg, good futImg with
  | some p, some f =>
    { a with
      G := upd fl c.labels a.G t (List.zipWith (fun x y => fl (x * y)) p f) normalize
      past := upd fl c.labels a.past t p normalize
      fut := upd fl c.labels a.fut t f normalize }
  | _, _ => { a with norm := put2 a.norm level ind (a.norm level ind + 1) }

/-- `_one_time_process`, correlation.py:128-157. -/
def process (c : Cfg) (r : Ring Frame) (level : ℕ) (a : Acc) : Acc :=
  (delays c.n level (r.img level)).foldl (oneDelay fl c r level) a

/-- One pass of the frame loop, correlation.py:329-399. -/
def step (c : Cfg) (s : St) (x : Frame) : St := feed (avg fl) c.L c.n (process fl c) s x

/-- One element of the `g2` table, correlation.py:409: the product of the intensities, then the quotient. -/
def g2At (a : Acc) (t r : ℕ) : Option ℚ :=
  if fl (a.past t r * a.fut t r) = 0 then none else some (fl (a.G t r / fl (a.past t r * a.fut t r)))

/-- correlation.py:404-410. -/
def result (c : Cfg) (lags : List ℕ) (s : St) : Res :=
  { g2 := (List.range (gMax c s.2)).map (fun t => (List.range (rois c)).map (fun r => g2At fl s.2 t r))
    lags := lags.take (gMax c s.2) }

/-- The generator, correlation.py:329-410. -/
def lazyOneTime (c : Cfg) (pixels lags : List ℕ) : St → List (List (Option ℚ)) → List Res × St × Option PyErr
  | s, [] => ([], s, none)
  | s, im :: rest =>
    match select pixels im with
    | .error e => ([], s, some e)
    | .ok x =>
      let s' := step fl c s x
      let r := lazyOneTime c pixels lags s' rest
      (result fl c lags s' :: r.1, r.2)

/-- `multi_tau_auto_corr`, correlation.py:426-429. -/
def multiTauAutoCorr (numLevels numBufs : ℕ) (labels : List ℤ) (images : List (List (Option ℚ))) : Py Res := do
  let (c, pixels, lags) ← validate numBufs numLevels labels
  let out := lazyOneTime fl c pixels lags (init c) images
  match out.2.2 with
  | some e => .error e
  | none => match out.1.getLast? with
    | none => .error .unboundLocal
    | some r => .ok r

/-! ### Without rounding this is the exact model -/

theorem avg_id : avg id = Corr.avg := rfl

theorem foldl_add (l : List (ℕ × ℚ)) (r : ℕ) (acc : ℚ) :
    l.foldl (fun acc p => if p.1 = r + 1 then id (acc + p.2) else acc) acc = acc + (l.map (fun p => if p.1 = r + 1 then p.2 else 0)).sum := by
  induction l generalizing acc with
  | nil => simp
  | cons p t ih =>
    rw [List.foldl_cons, ih, List.map_cons, List.sum_cons]
    split <;> simp [add_assoc]

theorem binned_id : binned id = Corr.binned := by
  funext labels w r
  unfold binned Corr.binned
  rw [foldl_add, zero_add, List.zip, List.map_zipWith]

theorem upd_id : upd id = Corr.upd := by
  funext labels arr t w m a r
  unfold upd Corr.upd
  rw [binned_id]; rfl

theorem oneDelay_id : oneDelay id = Corr.oneDelay := by
  funext c r l a i
  unfold oneDelay Corr.oneDelay
  rw [upd_id]; rfl

theorem step_id : step id = Corr.step := by
  funext c s x
  unfold step Corr.step process
  rw [oneDelay_id]; rfl

theorem lazyOneTime_id (c : Cfg) (pixels lags : List ℕ) (s : St) (ims : List (List (Option ℚ))) :
    lazyOneTime id c pixels lags s ims = Corr.lazyOneTime c pixels lags s ims := by
  induction ims generalizing s with
  | nil => rfl
  | cons im rest ih =>
    unfold lazyOneTime Corr.lazyOneTime
    cases select pixels im with
    | error e => rfl
    | ok x =>
      simp only []
      rw [step_id, ih]; rfl

/-- With the identity as rounding function the model is that of `Verif/Corr/Model.lean`. -/
theorem multiTauAutoCorr_id : multiTauAutoCorr id = Corr.multiTauAutoCorr := by
  funext L n labels images
  unfold multiTauAutoCorr Corr.multiTauAutoCorr
  simp only [lazyOneTime_id]
  rfl

end Verif.Corr.Rnd
