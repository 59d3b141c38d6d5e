import Verif.Line.Voigt
import Verif.Line.Props
import Mathlib.Analysis.Convolution

namespace Verif.Line
open Real MeasureTheory

theorem re_wofz (a b : ℝ) (hb : 0 < b) :
    (wofz (a + Complex.I * b)).re = 1 / π * ∫ t : ℝ, exp (-t ^ 2) * (b / ((a - t) ^ 2 + b ^ 2)) := by
  have him : ((a : ℂ) + Complex.I * b).im = b := by simp
  have hne : ∀ t : ℝ, ((a : ℂ) + Complex.I * b - t) ≠ 0 := fun t h => by
    have := congrArg Complex.im h
    simp at this
    exact hb.ne' this
  have hint : Integrable (fun t : ℝ => Complex.exp (-(t : ℂ) ^ 2) / ((a : ℂ) + Complex.I * b - t)) := by
    have h1 : Integrable (fun t : ℝ => Complex.exp (-(t : ℂ) ^ 2)) := by
      have := integrable_cexp_neg_mul_sq (b := 1) (by simp)
      simpa using this
    have h2 : Integrable (fun t : ℝ => Complex.exp (-(t : ℂ) ^ 2) * ((a : ℂ) + Complex.I * b - t)⁻¹) := by
      refine h1.mul_bdd (c := b⁻¹) ?_ ?_
      · refine Continuous.aestronglyMeasurable ?_
        exact Continuous.inv₀ (by fun_prop) hne
      · refine Filter.Eventually.of_forall (fun t => ?_)
        rw [norm_inv]
        refine inv_anti₀ hb ?_
        have := Complex.abs_im_le_norm ((a : ℂ) + Complex.I * b - t)
        simp only [Complex.sub_im, him, Complex.ofReal_im, sub_zero] at this
        exact (le_abs_self b).trans this
    simpa only [div_eq_mul_inv] using h2
  unfold wofz
  rw [if_pos (by rw [him]; exact hb)]
  rw [← integral_const_mul, ← integral_const_mul]
  have := Complex.reCLM.integral_comp_comm (hint.const_mul (Complex.I / π))
  simp only [Complex.reCLM_apply] at this
  rw [← this]
  refine integral_congr_ae (Filter.Eventually.of_forall (fun t => ?_))
  have he : Complex.exp (-(t : ℂ) ^ 2) = ((exp (-t ^ 2) : ℝ) : ℂ) := by push_cast; rfl
  have hz : ((a : ℂ) + Complex.I * b - t) = ⟨a - t, b⟩ := by apply Complex.ext <;> simp
  simp only [he, hz]
  have hn : (a - t) * (a - t) + b * b ≠ 0 := by nlinarith [mul_self_nonneg (a - t), mul_pos hb hb]
  rw [show Complex.I / (π : ℂ) * (((exp (-t ^ 2) : ℝ) : ℂ) / (⟨a - t, b⟩ : ℂ)) = ((exp (-t ^ 2) / π : ℝ) : ℂ) * (Complex.I / ⟨a - t, b⟩) from by
    push_cast; ring]
  rw [Complex.re_ofReal_mul, Complex.div_re]
  simp only [Complex.I_re, Complex.I_im, Complex.normSq_mk]
  field_simp
  ring

/-- C170: for a positive Gaussian and Lorentzian width the peak is the convolution of the normalised Gaussian of width
`sigma` with the Lorentzian of the given area and half width `gamma`, as documented. -/
theorem C170_convolution (x area center sigma gamma : ℝ) (hs : 0 < sigma) (hg : 0 < gamma) :
    voigt x area center sigma (some gamma) = ∫ t, gaussian t 1 0 sigma * lorentzian (x - t) area center gamma := by
  unfold voigt
  simp only [Option.getD_some]
  have h2 : (0:ℝ) < √2 := by positivity
  have hk : 0 < sigma * √2 := by positivity
  have hz : ((x : ℂ) - center + Complex.I * gamma) / (sigma * (√2 : ℝ)) =
      (((x - center) / (sigma * √2) : ℝ) : ℂ) + Complex.I * ((gamma / (sigma * √2) : ℝ) : ℂ) := by
    push_cast; ring
  rw [hz, re_wofz _ _ (by positivity)]
  have hsub := integral_affine (fun t => exp (-t ^ 2) *
    (gamma / (sigma * √2) / (((x - center) / (sigma * √2) - t) ^ 2 + (gamma / (sigma * √2)) ^ 2))) 0 (sigma * √2) hk
  have he : (∫ t : ℝ, exp (-t ^ 2) * (gamma / (sigma * √2) / (((x - center) / (sigma * √2) - t) ^ 2 + (gamma / (sigma * √2)) ^ 2)))
      = (sigma * √2)⁻¹ * ∫ u : ℝ, exp (-((u - 0) / (sigma * √2)) ^ 2) *
        (gamma / (sigma * √2) / (((x - center) / (sigma * √2) - (u - 0) / (sigma * √2)) ^ 2 + (gamma / (sigma * √2)) ^ 2)) := by
    rw [hsub, inv_mul_cancel_left₀ hk.ne']
  rw [he, ← integral_const_mul, ← integral_const_mul, ← integral_const_mul, ← integral_div]
  refine integral_congr_ae (Filter.Eventually.of_forall (fun u => ?_))
  have hsq : (√2 : ℝ) ^ 2 = 2 := by norm_num
  have hexp : exp (-((u - 0) / (sigma * √2)) ^ 2) = exp (-1 * (1 * u - 0) ^ 2 / (2 * sigma ^ 2)) := by
    congr 1
    rw [div_pow, mul_pow, hsq]
    ring
  simp only [gaussian, lorentzian, hexp]
  have hd1 : (x - u - center) ^ 2 + gamma ^ 2 ≠ 0 := by positivity
  have hd2 : ((x - center) / (sigma * √2) - (u - 0) / (sigma * √2)) ^ 2 + (gamma / (sigma * √2)) ^ 2
      = ((x - u - center) ^ 2 + gamma ^ 2) / (sigma * √2) ^ 2 := by
    field_simp; ring
  have hd3 : 1 + ((1 * (x - u) - center) / gamma) ^ 2 = ((x - u - center) ^ 2 + gamma ^ 2) / gamma ^ 2 := by
    field_simp; ring
  rw [hd2, hd3]
  have hs2 := s2pi_pos
  have hpi := pi_pos
  field_simp

/-- C170: the integral of the peak over all `x` is its `area`; without `gamma` the Lorentzian width is `sigma`. -/
theorem C170_area (area center sigma : ℝ) (gamma : Option ℝ) (hs : 0 < sigma) (hg : ∀ g, gamma = some g → 0 < g) :
    Integrable (fun x => voigt x area center sigma gamma) ∧ ∫ x, voigt x area center sigma gamma = area := by
  have key : ∀ g : ℝ, 0 < g → Integrable (fun x => voigt x area center sigma (some g)) ∧
      ∫ x, voigt x area center sigma (some g) = area := by
    intro g hg
    have hc : (fun x => voigt x area center sigma (some g)) =
        convolution (fun t => gaussian t 1 0 sigma) (fun t => lorentzian t area center g) (ContinuousLinearMap.mul ℝ ℝ) volume := by
      funext x
      rw [C170_convolution x area center sigma g hs hg]
      rfl
    rw [hc]
    refine ⟨(integrable_gaussian 1 0 sigma hs).integrable_convolution _ (integrable_lorentzian area center g hg), ?_⟩
    rw [integral_convolution _ (integrable_gaussian 1 0 sigma hs) (integrable_lorentzian area center g hg)]
    simp [C67_gaussian 1 0 sigma hs, C67_lorentzian area center g hg]
  cases gamma with
  | none => exact key sigma hs
  | some g => exact key g (hg g rfl)

/-- C170: with `gamma = 0` the peak is the Gaussian. -/
theorem C170_gaussian_limit (x area center sigma : ℝ) (hs : 0 < sigma) :
    voigt x area center sigma (some 0) = gaussian x area center sigma := by
  unfold voigt
  have hz : ((x : ℂ) - center + Complex.I * ((some (0:ℝ)).getD sigma : ℝ)) / (sigma * (√2 : ℝ)) = (((x - center) / (sigma * √2) : ℝ) : ℂ) := by
    push_cast; simp
  simp only [hz]
  unfold wofz
  rw [if_neg (by rw [Complex.ofReal_im]; exact lt_irrefl _), if_pos (Complex.ofReal_im _)]
  rw [Complex.re_ofReal_mul]
  simp only [Complex.add_re, Complex.one_re, Complex.mul_re, Complex.I_re, Complex.I_im, Complex.ofReal_re, Complex.ofReal_im]
  unfold gaussian
  have hsq : (√2 : ℝ) ^ 2 = 2 := by norm_num
  have : -((x - center) / (sigma * √2)) ^ 2 = -1 * (1 * x - center) ^ 2 / (2 * sigma ^ 2) := by
    rw [div_pow, mul_pow, hsq]; ring
  rw [this]
  ring

/-- C170: the peak is symmetric about `center` and positive where `area` is. -/
theorem C170_shape (d area center sigma gamma : ℝ) (hs : 0 < sigma) (hg : 0 < gamma) :
    voigt (center + d) area center sigma (some gamma) = voigt (center - d) area center sigma (some gamma) ∧
    (0 ≤ area → 0 ≤ voigt (center + d) area center sigma (some gamma)) := by
  rw [C170_convolution _ _ _ _ _ hs hg, C170_convolution _ _ _ _ _ hs hg]
  constructor
  · rw [← integral_neg_eq_self (fun t => gaussian t 1 0 sigma * lorentzian (center + d - t) area center gamma)]
    refine integral_congr_ae (Filter.Eventually.of_forall (fun t => ?_))
    simp only [gaussian, lorentzian]
    rw [show (1 * -t - 0 : ℝ) ^ 2 = (1 * t - 0) ^ 2 by ring,
      show ((1 * (center + d - -t) - center) / gamma) ^ 2 = ((1 * (center - d - t) - center) / gamma) ^ 2 by ring]
  · intro ha
    refine integral_nonneg (fun t => ?_)
    unfold gaussian lorentzian
    have := s2pi_pos
    have := pi_pos
    positivity

example : ∫ x, voigt x 5 2 1 none = 5 := (C170_area 5 2 1 none (by norm_num) (by simp)).2
example : ∫ x, voigt x 5 2 1 (some 3) = 5 := (C170_area 5 2 1 (some 3) (by norm_num) (by intro g h; cases h; norm_num)).2

end Verif.Line
