/- C261: fit_quad_to_peak and refine_quadratic with integer abscissae (skbeam/core/fitting/funcs.py 6-44, feature.py 142-178). -/
import Verif.Wrap.Model
import Verif.Feature.Props
import Mathlib.Tactic.NormNum
import Mathlib.Analysis.InnerProductSpace.PiL2
import Mathlib.Topology.Algebra.Module.FiniteDimension
import Mathlib.Topology.MetricSpace.HausdorffDistance

namespace Verif.Wrap
open Verif Verif.Feature

/-- The first two columns of `np.vstack((x**2, x, np.ones(lenx))).T`, funcs.py 35, for x of integer type `t`: `x**2` is computed in the type. -/
def designI (t : IntType) (x : List ℤ) : List (ℝ × ℝ) := x.map (fun u => (((t.wrap (u ^ 2) : ℤ) : ℝ), (u : ℝ)))

/-- Sum of squared residuals of `X b` with the design matrix X of rows (s, u, 1). -/
noncomputable def sseD (X : List (ℝ × ℝ)) (y : List ℝ) (b : ℝ × ℝ × ℝ) : ℝ :=
  (List.zipWith (fun r v => (b.1 * r.1 + b.2.1 * r.2 + b.2.2 - v) ^ 2) X y).sum

/-- What is used of `np.linalg.lstsq(X, y)`: the result minimises the sum of squared residuals. -/
def IsLstsqD (lstsq : List (ℝ × ℝ) → List ℝ → ℝ × ℝ × ℝ) : Prop := ∀ X y b, sseD X y (lstsq X y) ≤ sseD X y b

/-- `fit_quad_to_peak`, funcs.py 6-44, for x of integer type `t`; otherwise as `Feature.fitQuadToPeak` (`np.polyval` with the float coefficients
is computed in floating point, so the residuals behind R^2 are those at the abscissae themselves). -/
noncomputable def fitQuadI (t : IntType) (lstsq : List (ℝ × ℝ) → List ℝ → ℝ × ℝ × ℝ) (x : List ℤ) (y : List ℝ) : Py ((ℝ × ℝ × ℝ) × ℝ) :=
  if x.length < 3 then .error .exception
  else
    let beta := lstsq (designI t x) y
    let mean := y.sum / y.length
    .ok ((beta.1, -beta.2.1 / (2 * beta.1), beta.2.2 - beta.1 * (beta.2.1 / (2 * beta.1)) ^ 2),
      1 - Feature.sse (x.map (fun u : ℤ => (u : ℝ))) y beta / (y.map (fun v => (v - mean) ^ 2)).sum)

open Classical in
/-- `refine_quadratic`, feature.py 142-178, for x of integer type `t`. -/
noncomputable def refineQuadraticI (t : IntType) (lstsq : List (ℝ × ℝ) → List ℝ → ℝ × ℝ × ℝ) (rval : Option ℝ) (x : List ℤ) (y : List ℝ) :
    Py (Option (ℝ × ℝ)) :=
  match fitQuadI t lstsq x y with
  | .error e => .error e
  | .ok (beta, r2) => .ok (match rval with
    | none => some (beta.2.1, beta.2.2)
    | some t => if r2 < t then none else some (beta.2.1, beta.2.2))

/-- The solver as it is called for abscissae in floating point. -/
noncomputable def onFloats (lstsq : List (ℝ × ℝ) → List ℝ → ℝ × ℝ × ℝ) : List ℝ → List ℝ → ℝ × ℝ × ℝ :=
  fun x y => lstsq (x.map (fun u => (u ^ 2, u))) y

theorem onFloats_isLstsq (lstsq : List (ℝ × ℝ) → List ℝ → ℝ × ℝ × ℝ) (h : IsLstsqD lstsq) : IsLstsq (onFloats lstsq) := by
  intro x y b
  have e : ∀ b : ℝ × ℝ × ℝ, sseD (x.map (fun u => (u ^ 2, u))) y b = Feature.sse x y b := by
    intro b
    unfold sseD Feature.sse
    rw [List.zipWith_map_left]
  have := h (x.map (fun u => (u ^ 2, u))) y b
  rwa [e, e] at this

theorem designI_of_holds (t : IntType) (x : List ℤ) (h : ∀ u ∈ x, t.Holds (u ^ 2)) :
    designI t x = (x.map (fun u : ℤ => (u : ℝ))).map (fun u => (u ^ 2, u)) := by
  unfold designI
  rw [List.map_map]
  apply List.map_congr_left
  intro u hu
  simp [wrap_of_holds t _ (h u hu)]

/-! ## C261 -/

/-- C261: while the squares of the abscissae fit the type, integers do what the same numbers do as floats. -/
theorem C261_exact_partial (t : IntType) (lstsq : List (ℝ × ℝ) → List ℝ → ℝ × ℝ × ℝ) (rval : Option ℝ) (x : List ℤ) (y : List ℝ)
    (h : ∀ u ∈ x, t.Holds (u ^ 2)) :
    fitQuadI t lstsq x y = fitQuadToPeak (onFloats lstsq) (x.map (fun u : ℤ => (u : ℝ))) y ∧
    refineQuadraticI t lstsq rval x y = refineQuadratic (onFloats lstsq) rval (x.map (fun u : ℤ => (u : ℝ))) y := by
  have e : fitQuadI t lstsq x y = fitQuadToPeak (onFloats lstsq) (x.map (fun u : ℤ => (u : ℝ))) y := by
    unfold fitQuadI fitQuadToPeak onFloats
    rw [designI_of_holds t x h, List.length_map]
  refine ⟨e, ?_⟩
  unfold refineQuadraticI refineQuadratic
  rw [e]
  rcases fitQuadToPeak (onFloats lstsq) (x.map (fun u : ℤ => (u : ℝ))) y with _ | ⟨b, r⟩ <;> cases rval <;> rfl

/-- C261: samples of a parabola at three or more channels below 2^31 in absolute value, of type int64, give its vertex. -/
theorem C261_int64_partial (lstsq : List (ℝ × ℝ) → List ℝ → ℝ × ℝ × ℝ) (hl : IsLstsqD lstsq) (x : List ℤ)
    (hx : ∀ u ∈ x, |u| < 2 ^ 31) (h3 : Feature.Spec.ThreePoints (x.map (fun u : ℤ => (u : ℝ)))) (a c h : ℝ) (ha : a ≠ 0) :
    refineQuadraticI (sint 64 (by norm_num)) lstsq none x (x.map (fun u : ℤ => a * ((u : ℝ) - c) ^ 2 + h)) = .ok (some (c, h)) := by
  rw [(C261_exact_partial _ _ _ _ _ ?_).2]
  · have := C96_quadratic (onFloats lstsq) (onFloats_isLstsq lstsq hl) (x.map (fun u : ℤ => (u : ℝ))) h3 a c h ha none (by simp)
    rw [List.map_map] at this
    exact this
  · intro u hu
    have h1 := hx u hu
    have h2 : u ^ 2 < (2 ^ 31) ^ 2 := sq_lt_sq' (by have := (abs_lt.1 h1).1; linarith) (abs_lt.1 h1).2
    have h3 : 0 ≤ u ^ 2 := sq_nonneg u
    simp only [IntType.Holds, IntType.lo, IntType.hi, sint]
    norm_num at h2 ⊢
    constructor <;> linarith

/-- C261, where the claim fails: one count at channel 16 and none at 15 and 17.  As uint8 the channels give a peak at -48 of height 30.8
(16^2 wraps to 0), with every correct solver; as floats 16 and 1. -/
theorem C261_square_refuted (lstsq : List (ℝ × ℝ) → List ℝ → ℝ × ℝ × ℝ) (hl : IsLstsqD lstsq) :
    refineQuadraticI (uint 8 (by norm_num)) lstsq none [15, 16, 17] [0, 1, 0] = .ok (some (-48, 1323 / 43)) ∧
    refineQuadratic (onFloats lstsq) none [15, 16, 17] [0, 1, 0] = .ok (some (16, 1)) := by
  constructor
  · have hd : designI (uint 8 (by norm_num)) [15, 16, 17] = [(225, 15), (0, 16), (33, 17)] := by
      simp [designI, wrap_uint]
    have h0 := hl [(225, 15), (0, 16), (33, 17)] [0, 1, 0] (-1 / 129, -96 / 129, 1665 / 129)
    obtain ⟨b0, b1, b2, hb⟩ : ∃ b0 b1 b2, lstsq [(225, 15), (0, 16), (33, 17)] [0, 1, 0] = (b0, b1, b2) := ⟨_, _, _, rfl⟩
    rw [hb] at h0
    norm_num [sseD] at h0
    have s1 := sq_nonneg (b0 * 225 + b1 * 15 + b2)
    have s2 := sq_nonneg (b1 * 16 + b2 - 1)
    have s3 := sq_nonneg (b0 * 33 + b1 * 17 + b2)
    have e1 : b0 * 225 + b1 * 15 + b2 = 0 := pow_eq_zero_iff (two_ne_zero) |>.1 (by linarith)
    have e2 : b1 * 16 + b2 - 1 = 0 := pow_eq_zero_iff (two_ne_zero) |>.1 (by linarith)
    have e3 : b0 * 33 + b1 * 17 + b2 = 0 := pow_eq_zero_iff (two_ne_zero) |>.1 (by linarith)
    have f0 : b0 = -1 / 129 := by linarith
    have f1 : b1 = -96 / 129 := by linarith
    have f2 : b2 = 1665 / 129 := by linarith
    unfold refineQuadraticI fitQuadI
    rw [hd, hb]
    simp only [List.length_cons, List.length_nil, f0, f1, f2]
    norm_num
  · have := C96_quadratic (onFloats lstsq) (onFloats_isLstsq lstsq hl) [15, 16, 17] ⟨15, by simp, 16, by simp, 17, by simp, by norm_num, by norm_num, by norm_num⟩ (-1) 16 1 (by norm_num) none (by simp)
    norm_num at this
    exact this

example : ∀ u ∈ ([0, 7, 15] : List ℤ), (uint 8 (by norm_num)).Holds (u ^ 2) := by
  simp [IntType.Holds, IntType.lo, IntType.hi, uint]

example : (∀ u ∈ ([-40000, 16, 70000] : List ℤ), |u| < 2 ^ 31) ∧ Feature.Spec.ThreePoints (([-40000, 16, 70000] : List ℤ).map (fun u : ℤ => (u : ℝ))) :=
  ⟨by simp, -40000, by simp, 16, by simp, 70000, by simp, by norm_num, by norm_num, by norm_num⟩

theorem sseD_fin (X : List (ℝ × ℝ)) (y : List ℝ) (b : ℝ × ℝ × ℝ) :
    sseD X y b = ∑ i : Fin (min X.length y.length),
      (b.1 * (X[i.1]'(by omega)).1 + b.2.1 * (X[i.1]'(by omega)).2 + b.2.2 - y[i.1]'(by omega)) ^ 2 := by
  unfold sseD
  rw [← Fin.sum_univ_getElem]
  apply Fintype.sum_equiv (finCongr List.length_zipWith)
  intro i
  simp

/-- A least-squares solver exists: the hypothesis on `lstsq` can be met. -/
theorem lstsqD_exists : ∃ lstsq, IsLstsqD lstsq := by
  have key : ∀ (X : List (ℝ × ℝ)) (y : List ℝ), ∃ a, ∀ b, sseD X y a ≤ sseD X y b := by
    intro x y
    set n := min x.length y.length with hn
    let A : (ℝ × ℝ × ℝ) →ₗ[ℝ] EuclideanSpace ℝ (Fin n) :=
      { toFun := fun b => WithLp.toLp 2 (fun i => b.1 * (x[i.1]'(by omega)).1 + b.2.1 * (x[i.1]'(by omega)).2 + b.2.2)
        map_add' := by intro a b; ext i; simp; ring
        map_smul' := by intro a b; ext i; simp; ring }
    let Y : EuclideanSpace ℝ (Fin n) := WithLp.toLp 2 (fun i => y[i.1]'(by omega))
    have hc : IsClosed ((LinearMap.range A : Submodule ℝ (EuclideanSpace ℝ (Fin n))) : Set (EuclideanSpace ℝ (Fin n))) :=
      Submodule.closed_of_finiteDimensional _
    obtain ⟨z, ⟨a, rfl⟩, hz⟩ := hc.exists_infDist_eq_dist ⟨0, Submodule.zero_mem _⟩ Y
    have hd : ∀ b, sseD x y b = dist Y (A b) ^ 2 := by
      intro b
      rw [sseD_fin, dist_comm, EuclideanSpace.dist_sq_eq]
      apply Finset.sum_congr rfl
      intro i _
      simp [A, Y, Real.dist_eq]
    refine ⟨a, fun b => ?_⟩
    rw [hd, hd]
    have : dist Y (A a) ≤ dist Y (A b) := by
      rw [← hz]
      exact Metric.infDist_le_dist_of_mem ⟨b, rfl⟩
    gcongr
  choose f hf using key
  exact ⟨f, hf⟩

end Verif.Wrap
