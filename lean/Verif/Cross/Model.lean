/- Model of CrossCorrelator and _cross_corr, skbeam/core/correlation.py:948-1267. -/
import Verif.Np
import Verif.Corr.Model
import Mathlib.Algebra.BigOperators.Group.List.Basic

namespace Verif.Cross
open Verif

/-- A 2-D image given by its entries; the shape is passed separately.  1-D curves are images with one row
(correlation.py:1018-1019, 1169-1170, 1183-1184). -/
abbrev Img := ℕ → ℕ → ℚ

/-- All positions of an h × w array in row-major order. -/
def positions (h w : ℕ) : List (ℕ × ℕ) := (List.range h).flatMap (fun p => (List.range w).map (fun q => (p, q)))

/-- `fftconvolve(x, y, mode="full")` for two h × w arrays: entry (m1, m2) of the (2h-1) × (2w-1) result.  The FFT is
replaced by the linear convolution it computes. -/
def convFull (h w : ℕ) (x y : Img) (m1 m2 : ℕ) : ℚ :=
  ((positions h w).map (fun p =>
    if p.1 ≤ m1 ∧ m1 - p.1 < h ∧ p.2 ≤ m2 ∧ m2 - p.2 < w then x p.1 p.2 * y (m1 - p.1) (m2 - p.2) else 0)).sum

/-- `img2[::-1, ::-1]`, correlation.py:1264-1265. -/
def rev (h w : ℕ) (y : Img) : Img := fun i j => y (h - 1 - i) (w - 1 - j)

/-- `_cross_corr`, correlation.py:1251-1267 (both images have the same shape here). -/
def crossCorr (h w : ℕ) (x y : Img) : Img := convFull h w x (rev h w y)

/-- The pixels of one region, in image coordinates: `np.where(mask != 0)` sorted and split by id
(correlation.py:1037-1052).  Simplification: the sort-and-split is replaced by selecting the id directly; `Cross/Init.lean`
(C263) models it as it is and proves that this makes no difference. -/
def region (H W : ℕ) (mask : ℕ → ℕ → ℤ) (id : ℤ) : List (ℕ × ℕ) :=
  (positions H W).filter (fun p => decide (mask p.1 p.2 = id))

/-- The ids of the regions in increasing order (0 is background), correlation.py:1037-1055.  The ids are taken to be
non-negative integers, as documented (`astype(np.uint32)` would wrap negative ones); a mask without any id makes the
constructor raise ValueError, see `Cross/Init.lean`. -/
def ids (H W : ℕ) (mask : ℕ → ℕ → ℤ) : List ℤ :=
  Corr.unique (((positions H W).map (fun p => mask p.1 p.2)).filter (fun x => decide (x ≠ 0)))

/-- First and last row / column of a region, correlation.py:1057-1065. -/
structure Box where
  r0 : ℕ
  r1 : ℕ
  c0 : ℕ
  c1 : ℕ

/-- correlation.py:1057-1065. -/
def boxOf (S : List (ℕ × ℕ)) : Box :=
  { r0 := (S.map Prod.fst).min?.getD 0, r1 := (S.map Prod.fst).max?.getD 0
    c0 := (S.map Prod.snd).min?.getD 0, c1 := (S.map Prod.snd).max?.getD 0 }

/-- Shape of the sub-image, correlation.py:1084. -/
def Box.h (b : Box) : ℕ := 1 + (b.r1 - b.r0)
/-- correlation.py:1084. -/
def Box.w (b : Box) : ℕ := 1 + (b.c1 - b.c0)

/-- The sub-image: zeros except at the region's pixels, correlation.py:1195-1201 (1104-1109 for the mask). -/
def sub (S : List (ℕ × ℕ)) (img : Img) : Img :=
  fun i j => if (i + (boxOf S).r0, j + (boxOf S).c0) ∈ S then img (i + (boxOf S).r0) (j + (boxOf S).c0) else 0

/-- `maskcorr` with NaN where it is zero, correlation.py:1111-1118. -/
def maskcorr (S : List (ℕ × ℕ)) (m1 m2 : ℕ) : Option ℚ :=
  let v := crossCorr (boxOf S).h (boxOf S).w (sub S (fun _ _ => 1)) (sub S (fun _ _ => 1)) m1 m2
  let v := if v > 1 / 2 then v else 0
  if v = 0 then none else some v

/-- `np.average(tmpimg[ppiis, ppjjs])`, correlation.py:1222, 1225. -/
def average (S : List (ℕ × ℕ)) (img : Img) : ℚ := (S.map (fun p => img p.1 p.2)).sum / S.length

/-- The available normalisations. -/
structure Norm where
  symavg : Bool
  regular : Bool

/-- NaN/inf-aware division. -/
def odiv (x y : Option ℚ) : Option ℚ :=
  match x, y with
  | some x, some y => if y = 0 then none else some (x / y)
  | _, _ => none

/-- One region of `CrossCorrelator.__call__`, correlation.py:1190-1229.  For the self-correlation b = a. -/
def correlateRegion (nrm : Norm) (S : List (ℕ × ℕ)) (a b : Img) (m1 m2 : ℕ) : Option ℚ :=
  let h := (boxOf S).h
  let w := (boxOf S).w
  let one : Img := sub S (fun _ _ => 1)
  let c0 : Option ℚ := some (crossCorr h w (sub S a) (sub S b) m1 m2)
  let c1 := if nrm.symavg then
      let icorr := crossCorr h w (fun i j => sub S a i j * one i j) one m1 m2
      let icorr2 := crossCorr h w one (fun i j => sub S b i j * one i j) m1 m2
      Option.map₂ (· * ·) c0 (odiv (odiv (maskcorr S m1 m2) (some icorr)) (some icorr2))
    else c0
  if nrm.regular then
    odiv c1 ((maskcorr S m1 m2).map (fun m => m * average S a * average S b))
  else c1

/-- `CrossCorrelator(shape, mask)(img1, img2)`: one correlation image per region. -/
def correlate (nrm : Norm) (H W : ℕ) (mask : ℕ → ℕ → ℤ) (a b : Img) : List (ℕ → ℕ → Option ℚ) :=
  (ids H W mask).map (fun id => correlateRegion nrm (region H W mask id) a b)

/-- `positions` of the axes: displacement of entry m, correlation.py:1119-1130 (`center = shape // 2`). -/
def axisPos (h m : ℕ) : ℤ := (m : ℤ) - ((2 * h - 1) / 2 : ℕ)

end Verif.Cross
