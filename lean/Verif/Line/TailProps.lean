/- Property C91: the area of gaussian_tail. -/
import Verif.Line.Props

namespace Verif.Line
open Real MeasureTheory Filter Topology

theorem integrable_g : Integrable (fun t : ℝ => exp (-t ^ 2)) := by
  simpa using integrable_exp_neg_mul_sq (b := 1) one_pos

theorem integral_Ioi_eq (x : ℝ) : ∫ t in Set.Ioi x, exp (-t ^ 2) = (∫ t in Set.Ioi 0, exp (-t ^ 2)) - ∫ t in (0:ℝ)..x, exp (-t ^ 2) := by
  rw [← intervalIntegral.integral_Ioi_sub_Ioi' integrable_g.integrableOn integrable_g.integrableOn]
  ring

theorem integral_Ioi_zero : ∫ t in Set.Ioi (0:ℝ), exp (-t ^ 2) = √π / 2 := by
  have := integral_gaussian_Ioi 1
  simpa using this

theorem hasDerivAt_erfc (x : ℝ) : HasDerivAt erfc (-(2 / √π) * exp (-x ^ 2)) x := by
  have h : HasDerivAt (fun x => ∫ t in (0:ℝ)..x, exp (-t ^ 2)) (exp (-x ^ 2)) x := by
    apply intervalIntegral.integral_hasDerivAt_right
    · exact integrable_g.intervalIntegrable
    · exact Continuous.stronglyMeasurableAtFilter (by fun_prop) _ _
    · exact Continuous.continuousAt (by fun_prop)
  have h2 := (h.const_sub (∫ t in Set.Ioi (0:ℝ), exp (-t ^ 2))).const_mul (2 / √π)
  have e : erfc = fun x => 2 / √π * ((∫ t in Set.Ioi (0:ℝ), exp (-t ^ 2)) - ∫ t in (0:ℝ)..x, exp (-t ^ 2)) := by
    funext y
    unfold erfc
    rw [integral_Ioi_eq]
  rw [e, show -(2 / √π) * exp (-x ^ 2) = 2 / √π * -exp (-x ^ 2) by ring]
  exact h2

theorem erfc_nonneg (x : ℝ) : 0 ≤ erfc x := by
  unfold erfc
  exact mul_nonneg (by positivity) (setIntegral_nonneg measurableSet_Ioi (fun t _ => (exp_pos _).le))

theorem erfc_pos (x : ℝ) : 0 < erfc x := by
  unfold erfc
  apply mul_pos (by positivity)
  rw [setIntegral_pos_iff_support_of_nonneg_ae (Eventually.of_forall (fun t => (exp_pos _).le)) integrable_g.integrableOn]
  have : Function.support (fun t : ℝ => exp (-t ^ 2)) = Set.univ := by
    ext t; simp [(exp_pos _).ne']
  rw [this, Set.univ_inter]
  simp

theorem erfc_le_two (x : ℝ) : erfc x ≤ 2 := by
  unfold erfc
  have h1 : ∫ t in Set.Ioi x, exp (-t ^ 2) ≤ ∫ t, exp (-t ^ 2) :=
    setIntegral_le_integral integrable_g (Eventually.of_forall (fun t => (exp_pos _).le))
  have h2 : ∫ t : ℝ, exp (-t ^ 2) = √π := by simpa using integral_gaussian 1
  rw [h2] at h1
  have : 0 < √π := sqrt_pos.2 pi_pos
  calc 2 / √π * ∫ t in Set.Ioi x, exp (-t ^ 2) ≤ 2 / √π * √π := mul_le_mul_of_nonneg_left h1 (by positivity)
    _ = 2 := by field_simp

theorem erfc_le_exp (x : ℝ) (hx : 0 ≤ x) : erfc x ≤ exp (-x ^ 2) := by
  unfold erfc
  have h1 : ∫ t in Set.Ioi x, exp (-t ^ 2) ≤ exp (-x ^ 2) * (√π / 2) := by
    rw [← integral_Ioi_zero]
    have e : ∫ t in Set.Ioi x, exp (-t ^ 2) = ∫ s in Set.Ioi (0:ℝ), exp (-(s + x) ^ 2) := by
      have := (measurePreserving_add_right volume x).setIntegral_preimage_emb (measurableEmbedding_addRight x)
        (fun t => exp (-t ^ 2)) (Set.Ioi x)
      rw [← this]
      congr 2
      ext s
      simp
    rw [e, ← integral_const_mul]
    apply setIntegral_mono_on
    · exact (integrable_g.comp_add_right x).integrableOn
    · exact (integrable_g.const_mul _).integrableOn
    · exact measurableSet_Ioi
    · intro s hs
      rw [← exp_add]
      apply exp_le_exp.2
      have : 0 < s := hs
      nlinarith [mul_nonneg this.le hx]
  have : 0 < √π := sqrt_pos.2 pi_pos
  calc 2 / √π * ∫ t in Set.Ioi x, exp (-t ^ 2) ≤ 2 / √π * (exp (-x ^ 2) * (√π / 2)) := mul_le_mul_of_nonneg_left h1 (by positivity)
    _ = exp (-x ^ 2) := by field_simp

theorem tendsto_erfc_atTop : Tendsto erfc atTop (𝓝 0) := by
  have h : Tendsto (fun x : ℝ => exp (-x ^ 2)) atTop (𝓝 0) :=
    tendsto_exp_neg_atTop_nhds_zero.comp (tendsto_pow_atTop (by norm_num))
  exact tendsto_of_tendsto_of_tendsto_of_le_of_le' tendsto_const_nhds h (Eventually.of_forall erfc_nonneg)
    ((eventually_ge_atTop 0).mono (fun x hx => erfc_le_exp x hx))

theorem erfc_neg (x : ℝ) : erfc (-x) = 2 - erfc x := by
  have h2 : ∫ t : ℝ, exp (-t ^ 2) = √π := by simpa using integral_gaussian 1
  have e1 : ∫ t in Set.Ioi (-x), exp (-t ^ 2) = ∫ t in Set.Iic x, exp (-t ^ 2) := by
    have := integral_comp_neg_Iic x (fun t => exp (-t ^ 2))
    simpa using this.symm
  have e2 : (∫ t in Set.Iic x, exp (-t ^ 2)) + ∫ t in Set.Ioi x, exp (-t ^ 2) = √π := by
    rw [← h2]
    exact intervalIntegral.integral_Iic_add_Ioi integrable_g.integrableOn integrable_g.integrableOn
  have : 0 < √π := sqrt_pos.2 pi_pos
  unfold erfc
  rw [e1, eq_sub_of_add_eq e2]
  field_simp

theorem tendsto_erfc_atBot : Tendsto erfc atBot (𝓝 2) := by
  have h : Tendsto (fun x => 2 - erfc (-x)) atBot (𝓝 (2 - 0)) :=
    tendsto_const_nhds.sub (tendsto_erfc_atTop.comp tendsto_neg_atBot_atTop)
  rw [sub_zero] at h
  refine h.congr (fun x => ?_)
  have := erfc_neg (-x)
  rw [neg_neg] at this
  exact this.symm

/-- The unclipped tail, in units of the width: e^(u/g) erfc((u + 1/g)/sqrt 2). -/
noncomputable def tailU (g u : ℝ) : ℝ := exp (u / g) * erfc (u / √2 + 1 / (g * √2))

theorem sq_arg (g u : ℝ) (hg : 0 < g) : u / g - (u / √2 + 1 / (g * √2)) ^ 2 = -(u ^ 2 / 2) - 1 / (2 * g ^ 2) := by
  have h2 : (√2 : ℝ) ^ 2 = 2 := sq_sqrt (by norm_num)
  have h0 : (√2 : ℝ) ≠ 0 := by positivity
  have : (u / √2 + 1 / (g * √2)) ^ 2 = (u + 1 / g) ^ 2 / 2 := by
    rw [show u / √2 + 1 / (g * √2) = (u + 1 / g) / √2 by field_simp, div_pow, h2]
  rw [this]
  field_simp
  ring

theorem hasDerivAt_prim (g : ℝ) (hg : 0 < g) (u : ℝ) :
    HasDerivAt (fun u => g * (exp (u / g) * erfc (u / √2 + 1 / (g * √2))) - g * exp (-(1 / (2 * g ^ 2))) * erfc (u / √2)) (tailU g u) u := by
  have h0 : (√2 : ℝ) ≠ 0 := by positivity
  have d1 : HasDerivAt (fun u : ℝ => exp (u / g)) (exp (u / g) * (1 / g)) u := ((hasDerivAt_id u).div_const g).exp
  have d2 : HasDerivAt (fun u : ℝ => erfc (u / √2 + 1 / (g * √2))) (-(2 / √π) * exp (-(u / √2 + 1 / (g * √2)) ^ 2) * (1 / √2)) u :=
    (hasDerivAt_erfc _).comp u (((hasDerivAt_id u).div_const √2).add_const _)
  have d3 : HasDerivAt (fun u : ℝ => erfc (u / √2)) (-(2 / √π) * exp (-(u / √2) ^ 2) * (1 / √2)) u :=
    (hasDerivAt_erfc _).comp u ((hasDerivAt_id u).div_const √2)
  have := ((d1.mul d2).const_mul g).sub (d3.const_mul (g * exp (-(1 / (2 * g ^ 2)))))
  refine this.congr_deriv ?_
  unfold tailU
  have e1 : exp (u / g) * exp (-(u / √2 + 1 / (g * √2)) ^ 2) = exp (-(1 / (2 * g ^ 2))) * exp (-(u / √2) ^ 2) := by
    rw [← exp_add, ← exp_add]
    congr 1
    have := sq_arg g u hg
    have h2 : (√2 : ℝ) ^ 2 = 2 := sq_sqrt (by norm_num)
    rw [div_pow, h2]
    linarith
  have e2 : g * (1 / g) = 1 := by field_simp
  linear_combination -(g * (2 / √π) * (1 / √2)) * e1 + exp (u / g) * erfc (u / √2 + 1 / (g * √2)) * e2

theorem tail_bound (g : ℝ) (hg : 0 < g) (u : ℝ) (hu : 0 ≤ u) : tailU g u ≤ exp (-(u ^ 2 / 2)) := by
  unfold tailU
  have h1 := erfc_le_exp (u / √2 + 1 / (g * √2)) (by positivity)
  calc exp (u / g) * erfc (u / √2 + 1 / (g * √2)) ≤ exp (u / g) * exp (-(u / √2 + 1 / (g * √2)) ^ 2) :=
        mul_le_mul_of_nonneg_left h1 (exp_pos _).le
    _ = exp (-(u ^ 2 / 2) - 1 / (2 * g ^ 2)) := by rw [← exp_add, ← sq_arg g u hg]; congr 1
    _ ≤ exp (-(u ^ 2 / 2)) := exp_le_exp.2 (by have : 0 < 1 / (2 * g ^ 2) := by positivity
                                               linarith)

theorem tail_nonneg (g u : ℝ) : 0 ≤ tailU g u := mul_nonneg (exp_pos _).le (erfc_nonneg _)

theorem tail_top (g : ℝ) (hg : 0 < g) : Tendsto (tailU g) atTop (𝓝 0) := by
  have h : Tendsto (fun x : ℝ => exp (-(x ^ 2 / 2))) atTop (𝓝 0) :=
    tendsto_exp_neg_atTop_nhds_zero.comp ((tendsto_pow_atTop (by norm_num)).atTop_div_const (by norm_num))
  exact tendsto_of_tendsto_of_tendsto_of_le_of_le' tendsto_const_nhds h (Eventually.of_forall (tail_nonneg g))
    ((eventually_ge_atTop 0).mono (fun x hx => tail_bound g hg x hx))

theorem tail_bot (g : ℝ) (hg : 0 < g) : Tendsto (tailU g) atBot (𝓝 0) := by
  have h : Tendsto (fun x : ℝ => exp (x / g) * 2) atBot (𝓝 (0 * 2)) :=
    (tendsto_exp_atBot.comp (tendsto_id.atBot_div_const hg)).mul_const 2
  rw [zero_mul] at h
  exact tendsto_of_tendsto_of_tendsto_of_le_of_le tendsto_const_nhds h (tail_nonneg g)
    (fun x => mul_le_mul_of_nonneg_left (erfc_le_two _) (exp_pos _).le)

theorem continuous_erfc : Continuous erfc := continuous_iff_continuousAt.2 (fun x => (hasDerivAt_erfc x).continuousAt)

theorem integrable_tail (g : ℝ) (hg : 0 < g) : Integrable (tailU g) := by
  have hc : Continuous (tailU g) := by
    unfold tailU
    have := continuous_erfc
    fun_prop
  rw [← integrableOn_univ, ← Set.Iic_union_Ioi (a := (0:ℝ))]
  apply IntegrableOn.union
  · have hi : IntegrableOn (fun u : ℝ => exp (1 / g * u) * 2) (Set.Iic 0) :=
      (integrableOn_exp_mul_Iic (by positivity) 0).mul_const 2
    apply hi.mono' hc.aestronglyMeasurable
    refine Eventually.of_forall (fun u => ?_)
    rw [norm_of_nonneg (tail_nonneg g u)]
    unfold tailU
    rw [show 1 / g * u = u / g by ring]
    exact mul_le_mul_of_nonneg_left (erfc_le_two _) (exp_pos _).le
  · have hi : IntegrableOn (fun u : ℝ => exp (-(1 / 2) * u ^ 2)) (Set.Ioi 0) :=
      (integrable_exp_neg_mul_sq (b := 1 / 2) (by norm_num)).integrableOn
    apply hi.mono' hc.aestronglyMeasurable
    refine (ae_restrict_iff' measurableSet_Ioi).2 (Eventually.of_forall (fun u hu => ?_))
    rw [norm_of_nonneg (tail_nonneg g u)]
    have := tail_bound g hg u (le_of_lt hu)
    rwa [show -(1 / 2) * u ^ 2 = -(u ^ 2 / 2) by ring]

theorem integral_tailU (g : ℝ) (hg : 0 < g) : ∫ u, tailU g u = 2 * g * exp (-(1 / (2 * g ^ 2))) := by
  have s2 : (0:ℝ) < √2 := by positivity
  have ht := ((tail_top g hg).const_mul g).sub ((tendsto_erfc_atTop.comp (tendsto_id.atTop_div_const s2)).const_mul (g * exp (-(1 / (2 * g ^ 2)))))
  have hb := ((tail_bot g hg).const_mul g).sub ((tendsto_erfc_atBot.comp (tendsto_id.atBot_div_const s2)).const_mul (g * exp (-(1 / (2 * g ^ 2)))))
  rw [integral_of_hasDerivAt_of_tendsto (hasDerivAt_prim g hg) (integrable_tail g hg) hb ht]
  ring

/-- The clipped tail. -/
noncomputable def tailC (g u : ℝ) : ℝ := exp ((if u > 0 then 0 else u) / g) * erfc (u / √2 + 1 / (g * √2))

theorem tailC_le (g : ℝ) (hg : 0 < g) (u : ℝ) : tailC g u ≤ tailU g u := by
  unfold tailC tailU
  apply mul_le_mul_of_nonneg_right _ (erfc_nonneg _)
  apply exp_le_exp.2
  apply div_le_div_of_nonneg_right _ hg.le
  split
  · linarith
  · exact le_rfl

theorem tailC_lt (g : ℝ) (hg : 0 < g) (u : ℝ) (hu : 0 < u) : tailC g u < tailU g u := by
  unfold tailC tailU
  apply mul_lt_mul_of_pos_right _ (erfc_pos _)
  apply exp_lt_exp.2
  rw [if_pos hu]
  apply div_lt_div_of_pos_right hu hg

theorem integrable_tailC (g : ℝ) (hg : 0 < g) : Integrable (tailC g) := by
  apply (integrable_tail g hg).mono'
  · apply Continuous.aestronglyMeasurable
    have e : tailC g = fun u => exp (min u 0 / g) * erfc (u / √2 + 1 / (g * √2)) := by
      funext u
      unfold tailC
      congr 3
      by_cases h : u > 0
      · rw [if_pos h, min_eq_right h.le]
      · rw [if_neg h, min_eq_left (not_lt.1 h)]
    rw [e]
    have := continuous_erfc
    fun_prop
  · refine Eventually.of_forall (fun u => ?_)
    have h0 : 0 ≤ tailC g u := mul_nonneg (exp_pos _).le (erfc_nonneg _)
    rw [norm_of_nonneg h0]
    exact tailC_le g hg u

theorem integral_tailC_lt (g : ℝ) (hg : 0 < g) : ∫ u, tailC g u < 2 * g * exp (-(1 / (2 * g ^ 2))) := by
  rw [← integral_tailU g hg, ← sub_pos, ← integral_sub (integrable_tail g hg) (integrable_tailC g hg)]
  rw [integral_pos_iff_support_of_nonneg (fun u => sub_nonneg.2 (tailC_le g hg u)) ((integrable_tail g hg).sub (integrable_tailC g hg))]
  refine lt_of_lt_of_le (b := volume (Set.Ioi (0:ℝ))) (by simp) (measure_mono (fun u hu => ?_))
  rw [Function.mem_support]
  exact (sub_pos.2 (tailC_lt g hg u hu)).ne'

theorem gaussianTail_eq (x area c s g : ℝ) (hs : 0 < s) (hg : 0 < g) :
    gaussianTail x area c s g = area / (2 * g * s * exp (-(1 / (2 * g ^ 2)))) * tailC g ((x - c) / s) := by
  unfold gaussianTail tailC
  have e1 : (if x - c > 0 then 0 else x - c) / (g * s) = (if (x - c) / s > 0 then 0 else (x - c) / s) / g := by
    by_cases h : x - c > 0
    · rw [if_pos h, if_pos (div_pos h hs)]; simp
    · rw [if_neg h, if_neg (by rw [gt_iff_lt, not_lt]; exact div_nonpos_of_nonpos_of_nonneg (not_lt.1 h) hs.le)]
      field_simp
  have e2 : (x - c) / (√2 * s) = (x - c) / s / √2 := by rw [div_div, mul_comm]
  have e3 : -(1 / 2 : ℝ) / g ^ 2 = -(1 / (2 * g ^ 2)) := by field_simp
  simp only [e1, e2, e3]
  ring

/-- C91 is false: whatever the width and the tail parameter, the integral of gaussian_tail is strictly smaller than the
area parameter. -/
theorem C91_tail_area_refuted (area center sigma gamma : ℝ) (ha : 0 < area) (hs : 0 < sigma) (hg : 0 < gamma) :
    ∫ x, gaussianTail x area center sigma gamma < area := by
  simp only [fun x => gaussianTail_eq x area center sigma gamma hs hg]
  rw [integral_const_mul, integral_affine (tailC gamma) center sigma hs]
  have h := integral_tailC_lt gamma hg
  have hp : 0 < 2 * gamma * sigma * exp (-(1 / (2 * gamma ^ 2))) := by positivity
  rw [div_mul_eq_mul_div, div_lt_iff₀ hp]
  have : sigma * ∫ u, tailC gamma u < sigma * (2 * gamma * exp (-(1 / (2 * gamma ^ 2)))) := mul_lt_mul_of_pos_left h hs
  calc area * (sigma * ∫ u, tailC gamma u) < area * (sigma * (2 * gamma * exp (-(1 / (2 * gamma ^ 2))))) := mul_lt_mul_of_pos_left this ha
    _ = area * (2 * gamma * sigma * exp (-(1 / (2 * gamma ^ 2)))) := by ring

/-- What holds: the part below the peak centre is that of a profile of the stated area, i.e. the profile
area/(2 gamma sigma e^(-1/(2 gamma^2))) e^((x-c)/(gamma sigma)) erfc(...) without the clipping integrates to the area and
agrees with gaussian_tail for x at or below the centre. -/
theorem C91_below_centre_partial (area center sigma gamma : ℝ) (hs : 0 < sigma) (hg : 0 < gamma) :
    ∃ f : ℝ → ℝ, (∀ x ≤ center, f x = gaussianTail x area center sigma gamma) ∧
      (∀ x, f x = area / (2 * gamma * sigma * exp (-(1 / (2 * gamma ^ 2)))) *
        (exp ((x - center) / sigma / gamma) * erfc ((x - center) / sigma / √2 + 1 / (gamma * √2)))) ∧
      ∫ x, f x = area := by
  refine ⟨fun x => area / (2 * gamma * sigma * exp (-(1 / (2 * gamma ^ 2)))) * tailU gamma ((x - center) / sigma), ?_, fun x => rfl, ?_⟩
  · intro x hx
    rw [gaussianTail_eq x area center sigma gamma hs hg]
    congr 1
    unfold tailC tailU
    rw [if_neg (by rw [gt_iff_lt, not_lt]; exact div_nonpos_of_nonpos_of_nonneg (by linarith) hs.le)]
  · rw [integral_const_mul, integral_affine (tailU gamma) center sigma hs, integral_tailU gamma hg]
    have : exp (-(1 / (2 * gamma ^ 2))) ≠ 0 := (exp_pos _).ne'
    field_simp

end Verif.Line
