/- The least-squares solver that C96-C98 and C186 assume exists. -/
import Verif.Feature.Props
import Mathlib.Analysis.InnerProductSpace.PiL2
import Mathlib.Topology.Algebra.Module.FiniteDimension
import Mathlib.Topology.MetricSpace.HausdorffDistance

namespace Verif.Feature
open Verif

theorem sse_fin (x y : List ℝ) (b : ℝ × ℝ × ℝ) :
    sse x y b = ∑ i : Fin (min x.length y.length), (b.1 * (x[i.1]'(by omega)) ^ 2 + b.2.1 * (x[i.1]'(by omega)) + b.2.2 - y[i.1]'(by omega)) ^ 2 := by
  unfold sse
  rw [← Fin.sum_univ_getElem]
  apply Fintype.sum_equiv (finCongr List.length_zipWith)
  intro i
  simp

/-- A least-squares solver exists: the hypothesis on `lstsq` can be met. -/
theorem lstsq_exists : ∃ lstsq, IsLstsq lstsq := by
  have key : ∀ x y : List ℝ, ∃ a, ∀ b, sse x y a ≤ sse x y b := by
    intro x y
    set n := min x.length y.length with hn
    let A : (ℝ × ℝ × ℝ) →ₗ[ℝ] EuclideanSpace ℝ (Fin n) :=
      { toFun := fun b => WithLp.toLp 2 (fun i => b.1 * (x[i.1]'(by omega)) ^ 2 + b.2.1 * (x[i.1]'(by omega)) + b.2.2)
        map_add' := by intro a b; ext i; simp; ring
        map_smul' := by intro a b; ext i; simp; ring }
    let Y : EuclideanSpace ℝ (Fin n) := WithLp.toLp 2 (fun i => y[i.1]'(by omega))
    have hc : IsClosed ((LinearMap.range A : Submodule ℝ (EuclideanSpace ℝ (Fin n))) : Set (EuclideanSpace ℝ (Fin n))) :=
      Submodule.closed_of_finiteDimensional _
    obtain ⟨z, ⟨a, rfl⟩, hz⟩ := hc.exists_infDist_eq_dist ⟨0, Submodule.zero_mem _⟩ Y
    have hd : ∀ b, sse x y b = dist Y (A b) ^ 2 := by
      intro b
      rw [sse_fin, dist_comm, EuclideanSpace.dist_sq_eq]
      apply Finset.sum_congr rfl
      intro i _
      simp [A, Y, Real.dist_eq]
    refine ⟨a, fun b => ?_⟩
    rw [hd, hd]
    have : dist Y (A a) ≤ dist Y (A b) := by
      rw [← hz]
      exact Metric.infDist_le_dist_of_mem ⟨b, rfl⟩
    gcongr
  choose f hf using key
  exact ⟨f, hf⟩

end Verif.Feature
