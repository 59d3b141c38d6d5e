/- Model of `auto_corr_scat_factor` of skbeam/core/correlation.py and its properties (C173). -/
import Mathlib.Analysis.SpecialFunctions.Exp
import Mathlib.Analysis.SpecialFunctions.Log.Basic

namespace Verif.Corr
open Real Filter Topology

/-- `auto_corr_scat_factor` at one lag; correlation.py:432-480.  The default of `baseline` is 1. -/
noncomputable def autoCorrScatFactor (lag beta rate : ℝ) (baseline : ℝ := 1) : ℝ := beta * exp (-2 * rate * lag) + baseline

/-- C173: the model is the Siegert relation `beta |g1|^2 + baseline` with `g1 = exp(-rate lag)`. -/
theorem C173_siegert (lag beta rate baseline : ℝ) :
    autoCorrScatFactor lag beta rate baseline = beta * |exp (-(rate * lag))| ^ 2 + baseline := by
  unfold autoCorrScatFactor
  rw [abs_of_pos (exp_pos _), ← exp_nat_mul]
  congr 3
  push_cast
  ring

/-- C173: for a positive contrast and rate the curve starts at `beta + baseline`, decreases strictly, stays above the
baseline and approaches it. -/
theorem C173_decay (beta rate baseline : ℝ) (hb : 0 < beta) (hr : 0 < rate) :
    autoCorrScatFactor 0 beta rate baseline = beta + baseline ∧
    (∀ s t, s < t → autoCorrScatFactor t beta rate baseline < autoCorrScatFactor s beta rate baseline) ∧
    (∀ t, baseline < autoCorrScatFactor t beta rate baseline) ∧
    Tendsto (fun t => autoCorrScatFactor t beta rate baseline) atTop (𝓝 baseline) := by
  unfold autoCorrScatFactor
  refine ⟨by simp, fun s t h => ?_, fun t => ?_, ?_⟩
  · have : exp (-2 * rate * t) < exp (-2 * rate * s) := exp_lt_exp.2 (by nlinarith)
    nlinarith
  · have := mul_pos hb (exp_pos (-2 * rate * t))
    linarith
  · have h1 : Tendsto (fun t : ℝ => exp (-2 * rate * t)) atTop (𝓝 0) := by
      refine tendsto_exp_atBot.comp ?_
      exact tendsto_id.const_mul_atTop_of_neg (by linarith)
    have := (h1.const_mul beta).add_const baseline
    simpa using this

/-- C173: contrast, rate and baseline can be read off the curve, so no two parameter sets with positive contrast and rate
give the same curve. -/
theorem C173_identifiable (b r c b' r' c' : ℝ) (hb : 0 < b) (hr : 0 < r) (hb' : 0 < b') (hr' : 0 < r')
    (h : ∀ t, 0 ≤ t → autoCorrScatFactor t b r c = autoCorrScatFactor t b' r' c') : b = b' ∧ r = r' ∧ c = c' := by
  have hc : c = c' := by
    have h1 := (C173_decay b r c hb hr).2.2.2
    have h2 := (C173_decay b' r' c' hb' hr').2.2.2
    refine tendsto_nhds_unique (h1.congr' ?_) h2
    filter_upwards [eventually_ge_atTop 0] with t ht using h t ht
  subst hc
  have h0 := h 0 le_rfl
  have h1 := h 1 zero_le_one
  unfold autoCorrScatFactor at h0 h1
  have hbb : b = b' := by simpa using h0
  subst hbb
  have : exp (-2 * r * 1) = exp (-2 * r' * 1) := by
    have : b * exp (-2 * r * 1) = b * exp (-2 * r' * 1) := by linarith
    exact mul_left_cancel₀ hb.ne' this
  rw [exp_eq_exp] at this
  exact ⟨rfl, by linarith, rfl⟩

example : autoCorrScatFactor 0 (1 / 2) 3 = 3 / 2 := by
  rw [(C173_decay (1 / 2) 3 1 (by norm_num) (by norm_num)).1]; norm_num

end Verif.Corr
