/- Property C194: what `center` and `sigma` of the peak functions mean (skbeam/core/fitting/lineshapes.py).  All
definitions are those of Line/Model.lean and Line/Voigt.lean. -/
import Verif.Line.TailProps
import Verif.Line.VoigtProps
import Mathlib.Analysis.Complex.ExponentialBounds

namespace Verif.Line
open Real MeasureTheory Filter Topology

/-! ## Specification -/

/-- A peak with its maximum at `c`, the same on both sides and falling off strictly on each. -/
def Spec.PeakAt (c : ℝ) (f : ℝ → ℝ) : Prop :=
  (∀ d, f (c + d) = f (c - d)) ∧ ∀ x y, |x - c| < |y - c| → f y < f x

/-- `sigma` is the standard deviation of the peak: mean `c`, mean squared deviation `sigma ^ 2`. -/
def Spec.StdDev (c sigma : ℝ) (f : ℝ → ℝ) : Prop :=
  Integrable (fun x => (x - c) ^ 2 * f x) ∧ ∫ x, (x - c) * f x = 0 ∧ ∫ x, (x - c) ^ 2 * f x = sigma ^ 2 * ∫ x, f x

/-- `h` is the half width at half maximum: the peak has half its central value exactly at distance `h`. -/
def Spec.HalfWidth (c h : ℝ) (f : ℝ → ℝ) : Prop := ∀ x, f x = f c / 2 ↔ |x - c| = h

/-! ## Maximum and symmetry -/

theorem sq_lt_of_abs {x y c s : ℝ} (hs : 0 < s) (h : |x - c| < |y - c|) : ((x - c) / s) ^ 2 < ((y - c) / s) ^ 2 := by
  rw [div_pow, div_pow]
  exact div_lt_div_of_pos_right (sq_lt_sq.2 h) (by positivity)

theorem peak_gaussian (area center sigma : ℝ) (ha : 0 < area) (hs : 0 < sigma) :
    Spec.PeakAt center (fun x => gaussian x area center sigma) := by
  have := s2pi_pos
  constructor
  · intro d
    simp only [gaussian_eq]
    congr 2
    ring
  · intro x y h
    simp only [gaussian_eq]
    have := sq_lt_of_abs hs h
    exact mul_lt_mul_of_pos_left (exp_lt_exp.2 (by linarith)) (by positivity)

theorem peak_lorentzian (area center sigma : ℝ) (ha : 0 < area) (hs : 0 < sigma) :
    Spec.PeakAt center (fun x => lorentzian x area center sigma) := by
  have := pi_pos
  constructor
  · intro d
    simp only [lorentzian_eq]
    congr 3
    ring
  · intro x y h
    simp only [lorentzian_eq]
    have := sq_lt_of_abs hs h
    exact mul_lt_mul_of_pos_left (inv_strictAnti₀ (by positivity) (by linarith)) (by positivity)

theorem lorentzian2_eq (x area center sigma : ℝ) :
    lorentzian2 x area center sigma = area / (π * sigma) * ((1 + ((x - center) / sigma) ^ 2) ^ 2)⁻¹ := by
  unfold lorentzian2
  rw [div_div, div_mul_eq_div_div, ← div_eq_mul_inv, div_div, div_div]
  ring

theorem peak_lorentzian2 (area center sigma : ℝ) (ha : 0 < area) (hs : 0 < sigma) :
    Spec.PeakAt center (fun x => lorentzian2 x area center sigma) := by
  have := pi_pos
  constructor
  · intro d
    simp only [lorentzian2_eq]
    congr 4
    ring
  · intro x y h
    simp only [lorentzian2_eq]
    have := sq_lt_of_abs hs h
    exact mul_lt_mul_of_pos_left (inv_strictAnti₀ (by positivity) (pow_lt_pow_left₀ (by linarith) (by positivity) two_ne_zero))
      (by positivity)

theorem peak_pvoigt (area center sigma fraction : ℝ) (ha : 0 < area) (hs : 0 < sigma) (h0 : 0 ≤ fraction) (h1 : fraction ≤ 1) :
    Spec.PeakAt center (fun x => pvoigt x area center sigma fraction) := by
  obtain ⟨g1, g2⟩ := peak_gaussian area center sigma ha hs
  obtain ⟨l1, l2⟩ := peak_lorentzian area center sigma ha hs
  simp only at g1 g2 l1 l2
  constructor
  · intro d
    simp only [pvoigt, g1, l1]
  · intro x y h
    simp only [pvoigt]
    have a := g2 x y h
    have b := l2 x y h
    rcases h0.eq_or_lt with h | h
    · rw [← h]; simpa using a
    · have := mul_lt_mul_of_pos_left b h
      have := mul_le_mul_of_nonneg_left a.le (sub_nonneg.2 h1)
      linarith

/-- Convolution of two symmetric falling peaks, at the points `x < y` right of the centre. -/
theorem conv_lt (φ L : ℝ → ℝ) (hφ : Spec.PeakAt 0 φ) (hL : Spec.PeakAt 0 L) (hi : ∀ x, Integrable (fun t => φ t * L (x - t)))
    (hr : ∀ m x, Integrable (fun t => φ (m - t) * L (x - t))) (x y : ℝ) (hx : 0 ≤ x) (hxy : x < y) :
    ∫ t, φ t * L (y - t) < ∫ t, φ t * L (x - t) := by
  have symφ : ∀ t, φ t = φ (-t) := fun t => by simpa using hφ.1 t
  have symL : ∀ t, L t = L (-t) := fun t => by simpa using hL.1 t
  have hlt : ∀ f : ℝ → ℝ, Spec.PeakAt 0 f → ∀ a b, |a| < |b| → f b < f a := fun f hf a b h => hf.2 a b (by simpa using h)
  have e1 : ∀ z w, z + w = x + y → ∫ t, φ (x + y - t) * L (z - t) = ∫ t, φ t * L (w - t) := by
    intro z w hzw
    rw [← integral_sub_left_eq_self (fun t => φ t * L (w - t)) volume (x + y)]
    refine integral_congr_ae (Eventually.of_forall (fun t => ?_))
    simp only
    rw [symL (z - t)]
    congr 2
    linarith
  have key : ∫ t, (φ t - φ (x + y - t)) * (L (x - t) - L (y - t)) =
      2 * (∫ t, φ t * L (x - t)) - 2 * ∫ t, φ t * L (y - t) := by
    have : ∀ t, (φ t - φ (x + y - t)) * (L (x - t) - L (y - t)) =
        (φ t * L (x - t) - φ t * L (y - t)) - (φ (x + y - t) * L (x - t) - φ (x + y - t) * L (y - t)) := fun t => by ring
    simp only [this]
    have i1 : Integrable (fun t => φ t * L (x - t) - φ t * L (y - t)) := (hi x).sub (hi y)
    have i2 : Integrable (fun t => φ (x + y - t) * L (x - t) - φ (x + y - t) * L (y - t)) := (hr _ x).sub (hr _ y)
    rw [integral_sub i1 i2, integral_sub (hi x) (hi y), integral_sub (hr _ x) (hr _ y), e1 x y rfl, e1 y x (add_comm _ _)]
    ring
  have hint : Integrable (fun t => (φ t - φ (x + y - t)) * (L (x - t) - L (y - t))) := by
    have := ((hi x).sub (hi y)).sub ((hr (x + y) x).sub (hr (x + y) y))
    refine this.congr (Eventually.of_forall (fun t => ?_))
    simp only [Pi.sub_apply]
    ring
  have hposn : ∀ t, t ≠ (x + y) / 2 → 0 < (φ t - φ (x + y - t)) * (L (x - t) - L (y - t)) := by
    intro t ht
    rcases lt_or_gt_of_ne ht with h | h
    · apply mul_pos
      · apply sub_pos.2
        apply hlt φ hφ
        rw [← sq_lt_sq]; nlinarith
      · apply sub_pos.2
        apply hlt L hL
        rw [← sq_lt_sq]; nlinarith
    · apply mul_pos_of_neg_of_neg
      · apply sub_neg.2
        apply hlt φ hφ
        rw [← sq_lt_sq]; nlinarith
      · apply sub_neg.2
        apply hlt L hL
        rw [← sq_lt_sq]; nlinarith
  have hpos : 0 < ∫ t, (φ t - φ (x + y - t)) * (L (x - t) - L (y - t)) := by
    rw [integral_pos_iff_support_of_nonneg_ae _ hint]
    · have hsub : ({(x + y) / 2}ᶜ : Set ℝ) ⊆ Function.support (fun t => (φ t - φ (x + y - t)) * (L (x - t) - L (y - t))) :=
        fun t ht => (hposn t ht).ne'
      refine lt_of_lt_of_le ?_ (measure_mono hsub)
      rw [measure_compl (measurableSet_singleton _) (by simp)]
      simp
    · refine Eventually.of_forall (fun t => ?_)
      by_cases ht : t = (x + y) / 2
      · subst ht
        show (0:ℝ) ≤ (φ ((x + y) / 2) - φ (x + y - (x + y) / 2)) * _
        rw [show x + y - (x + y) / 2 = (x + y) / 2 by ring]; simp
      · exact (hposn t ht).le
  rw [key] at hpos
  linarith

theorem integrable_prod (a c s g m x : ℝ) (hs : 0 < s) (hg : 0 < g) (ε : ℝ) :
    Integrable (fun t => gaussian (m + ε * t) 1 0 s * lorentzian (x - t) a c g) := by
  have hL : Integrable (fun t => lorentzian (x - t) a c g) := (integrable_lorentzian a c g hg).comp_sub_left x
  refine hL.bdd_mul (c := 1 / (s2pi * s)) ?_ ?_
  · apply Continuous.aestronglyMeasurable
    unfold gaussian
    fun_prop
  · refine Eventually.of_forall (fun t => ?_)
    have := s2pi_pos
    rw [gaussian_eq, norm_mul, norm_of_nonneg (by positivity), norm_of_nonneg (exp_pos _).le]
    apply mul_le_of_le_one_right (by positivity)
    rw [exp_le_one_iff]
    nlinarith [sq_nonneg ((m + ε * t - 0) / s)]

theorem peak_voigt (area center sigma gamma : ℝ) (ha : 0 < area) (hs : 0 < sigma) (hg : 0 < gamma) :
    Spec.PeakAt center (fun x => voigt x area center sigma (some gamma)) := by
  refine ⟨fun d => (C170_shape d area center sigma gamma hs hg).1, ?_⟩
  have hshift : ∀ x, voigt x area center sigma (some gamma) = ∫ t, gaussian t 1 0 sigma * lorentzian (x - center - t) area 0 gamma := by
    intro x
    rw [C170_convolution x area center sigma gamma hs hg]
    refine integral_congr_ae (Eventually.of_forall (fun t => ?_))
    simp only [lorentzian_eq]
    congr 5
    ring
  have hright : ∀ a b, 0 ≤ a → a < b → voigt (center + b) area center sigma (some gamma) < voigt (center + a) area center sigma (some gamma) := by
    intro a b h0 hab
    rw [hshift, hshift, add_sub_cancel_left, add_sub_cancel_left]
    refine conv_lt (fun t => gaussian t 1 0 sigma) (fun t => lorentzian t area 0 gamma) (peak_gaussian 1 0 sigma one_pos hs)
      (peak_lorentzian area 0 gamma ha hg) ?_ ?_ a b h0 hab
    · intro x
      simpa using integrable_prod area 0 sigma gamma 0 x hs hg 1
    · intro m x
      simpa [sub_eq_add_neg] using integrable_prod area 0 sigma gamma m x hs hg (-1)
  have habs : ∀ x, voigt x area center sigma (some gamma) = voigt (center + |x - center|) area center sigma (some gamma) := by
    intro x
    rcases abs_cases (x - center) with ⟨h, _⟩ | ⟨h, _⟩
    · rw [h]; congr 1; ring
    · rw [h, (C170_shape (-(x - center)) area center sigma gamma hs hg).1]; congr 1; ring
  intro x y h
  simp only
  rw [habs x, habs y]
  exact hright _ _ (abs_nonneg _) h

/-- C194: `center` is where each of the peak functions has its maximum; the peak is symmetric about it and falls off
strictly with the distance from it. -/
theorem C194_centre (area center sigma fraction gamma : ℝ) (ha : 0 < area) (hs : 0 < sigma) (h0 : 0 ≤ fraction) (h1 : fraction ≤ 1)
    (hg : 0 < gamma) :
    Spec.PeakAt center (fun x => gaussian x area center sigma) ∧ Spec.PeakAt center (fun x => lorentzian x area center sigma) ∧
    Spec.PeakAt center (fun x => lorentzian2 x area center sigma) ∧ Spec.PeakAt center (fun x => pvoigt x area center sigma fraction) ∧
    Spec.PeakAt center (fun x => voigt x area center sigma (some gamma)) ∧
    Spec.PeakAt center (fun x => voigt x area center sigma none) :=
  ⟨peak_gaussian _ _ _ ha hs, peak_lorentzian _ _ _ ha hs, peak_lorentzian2 _ _ _ ha hs, peak_pvoigt _ _ _ _ ha hs h0 h1,
    peak_voigt _ _ _ _ ha hs hg, peak_voigt area center sigma sigma ha hs hs⟩

/-! ## Width -/

theorem odd_integral (c : ℝ) (f : ℝ → ℝ) (h : ∀ d, f (c + d) = f (c - d)) : ∫ x, (x - c) * f x = 0 := by
  have h1 := integral_sub_left_eq_self (fun x => (x - c) * f x) volume (2 * c)
  have h2 : ∀ x, (2 * c - x - c) * f (2 * c - x) = -((x - c) * f x) := by
    intro x
    have := h (x - c)
    rw [show c + (x - c) = x by ring, show c - (x - c) = 2 * c - x by ring] at this
    rw [← this]; ring
  simp only [h2] at h1
  rw [integral_neg] at h1
  linarith

theorem integrable_sq_gauss : Integrable (fun u : ℝ => u ^ 2 * exp (-(1 / 2) * u ^ 2)) := by
  have := integrable_rpow_mul_exp_neg_mul_sq (b := 1 / 2) (by norm_num) (s := 2) (by norm_num)
  refine this.congr (Eventually.of_forall (fun u => ?_))
  simp

theorem integral_sq_gauss : ∫ u : ℝ, u ^ 2 * exp (-(1 / 2) * u ^ 2) = s2pi := by
  have hg : Integrable (fun u : ℝ => exp (-(1 / 2) * u ^ 2)) := integrable_exp_neg_mul_sq (by norm_num)
  have hd : ∀ u : ℝ, HasDerivAt (fun u => u * exp (-(1 / 2) * u ^ 2)) (exp (-(1 / 2) * u ^ 2) - u ^ 2 * exp (-(1 / 2) * u ^ 2)) u := by
    intro u
    have h1 : HasDerivAt (fun u : ℝ => -(1 / 2) * u ^ 2) (-u) u := by
      have := ((hasDerivAt_id u).pow 2).const_mul (-(1 / 2) : ℝ)
      refine this.congr_deriv ?_
      simp
    refine ((hasDerivAt_id u).mul h1.exp).congr_deriv ?_
    simp only [id]; ring
  have hf : Integrable (fun u : ℝ => u * exp (-(1 / 2) * u ^ 2)) := integrable_mul_exp_neg_mul_sq (by norm_num)
  have h0 := integral_eq_zero_of_hasDerivAt_of_integrable hd (hg.sub integrable_sq_gauss) hf
  rw [integral_sub hg integrable_sq_gauss, integral_gaussian] at h0
  have : √(π / (1 / 2)) = s2pi := by unfold s2pi; congr 1; ring
  rw [this] at h0
  linarith

theorem std_gaussian (area center sigma : ℝ) (hs : 0 < sigma) : Spec.StdDev center sigma (fun x => gaussian x area center sigma) := by
  have hp := s2pi_pos
  have e : ∀ x, (x - center) ^ 2 * gaussian x area center sigma =
      area * sigma / s2pi * (((x - center) / sigma) ^ 2 * exp (-(1 / 2) * ((x - center) / sigma) ^ 2)) := by
    intro x
    rw [gaussian_eq]
    field_simp
  refine ⟨?_, odd_integral _ _ (fun d => ?_), ?_⟩
  · simp only [e]
    exact (integrable_affine _ integrable_sq_gauss center sigma hs).const_mul _
  · simp only [gaussian_eq]; congr 2; ring
  · simp only [e]
    rw [integral_const_mul, integral_affine (fun u => u ^ 2 * exp (-(1 / 2) * u ^ 2)) center sigma hs, integral_sq_gauss, C67_gaussian _ _ _ hs]
    field_simp

theorem lor_split (u : ℝ) : u ^ 2 * ((1 + u ^ 2) ^ 2)⁻¹ = (1 + u ^ 2)⁻¹ - ((1 + u ^ 2) ^ 2)⁻¹ := by
  have : (1 + u ^ 2) ≠ 0 := by positivity
  field_simp
  ring

theorem std_lorentzian2 (area center sigma : ℝ) (hs : 0 < sigma) : Spec.StdDev center sigma (fun x => lorentzian2 x area center sigma) := by
  have hp := pi_pos
  have e : ∀ x, (x - center) ^ 2 * lorentzian2 x area center sigma =
      area * sigma / π * (((x - center) / sigma) ^ 2 * ((1 + ((x - center) / sigma) ^ 2) ^ 2)⁻¹) := by
    intro x
    rw [lorentzian2_eq]
    field_simp
  have hi : Integrable (fun u : ℝ => u ^ 2 * ((1 + u ^ 2) ^ 2)⁻¹) := by
    simp only [lor_split]
    exact integrable_inv_one_add_sq.sub integrable_sq_lor
  refine ⟨?_, odd_integral _ _ (fun d => ?_), ?_⟩
  · simp only [e]
    exact (integrable_affine _ hi center sigma hs).const_mul _
  · simp only [lorentzian2_eq]; congr 4; ring
  · simp only [e]
    rw [integral_const_mul, integral_affine (fun u => u ^ 2 * ((1 + u ^ 2) ^ 2)⁻¹) center sigma hs, C67_lorentzian2_refuted _ _ _ hs]
    simp only [lor_split]
    rw [integral_sub integrable_inv_one_add_sq integrable_sq_lor, integral_univ_inv_one_add_sq, integral_sq_lor]
    field_simp
    ring

/-- C194, the part that holds: `sigma` is the standard deviation of `gaussian` and `lorentzian2`, as documented. -/
theorem C194_std_partial (area center sigma : ℝ) (hs : 0 < sigma) :
    Spec.StdDev center sigma (fun x => gaussian x area center sigma) ∧
    Spec.StdDev center sigma (fun x => lorentzian2 x area center sigma) :=
  ⟨std_gaussian _ _ _ hs, std_lorentzian2 _ _ _ hs⟩

theorem not_integrable_lorentzian (area center sigma : ℝ) (ha : area ≠ 0) (hs : 0 < sigma) :
    ¬ Integrable (fun x => (x - center) ^ 2 * lorentzian x area center sigma) := by
  intro h
  have hp := pi_pos
  have e : ∀ x, (x - center) ^ 2 * lorentzian x area center sigma + sigma ^ 2 * lorentzian x area center sigma = area * sigma / π := by
    intro x
    rw [lorentzian_eq]
    have : (sigma ^ 2 + (x - center) ^ 2) ≠ 0 := by positivity
    have h1 : 1 + ((x - center) / sigma) ^ 2 = (sigma ^ 2 + (x - center) ^ 2) / sigma ^ 2 := by field_simp
    rw [h1]
    field_simp
    ring
  have h2 := h.add ((integrable_lorentzian area center sigma hs).const_mul (sigma ^ 2))
  have h3 : Integrable (fun _ : ℝ => area * sigma / π) := h2.congr (Eventually.of_forall e)
  rw [integrable_const_iff] at h3
  rcases h3 with h3 | h3
  · exact (div_ne_zero (mul_ne_zero ha hs.ne') hp.ne') h3
  · have := h3.measure_univ_lt_top
    simp at this

/-- C194 refuted for `lorentzian` and `pvoigt`: they have no standard deviation at all, whatever `sigma`. -/
theorem C194_std_refuted (area center sigma fraction : ℝ) (ha : area ≠ 0) (hs : 0 < sigma) (hf : fraction ≠ 0) (s : ℝ) :
    ¬ Spec.StdDev center s (fun x => lorentzian x area center sigma) ∧
    ¬ Spec.StdDev center s (fun x => pvoigt x area center sigma fraction) := by
  refine ⟨fun h => not_integrable_lorentzian area center sigma ha hs h.1, fun h => ?_⟩
  have h1 := h.1.sub ((std_gaussian area center sigma hs).1.const_mul (1 - fraction))
  have h2 : Integrable (fun x => fraction * ((x - center) ^ 2 * lorentzian x area center sigma)) := by
    refine h1.congr (Eventually.of_forall (fun x => ?_))
    simp only [pvoigt, Pi.sub_apply]; ring
  have h3 := h2.const_mul fraction⁻¹
  refine not_integrable_lorentzian area center sigma ha hs (h3.congr (Eventually.of_forall (fun x => ?_)))
  simp only
  rw [inv_mul_cancel_left₀ hf]

/-- C194: what `sigma` means instead: the half width at half maximum of `lorentzian`; that of `gaussian` is
`sqrt (2 log 2)` times `sigma`, so the two parts of `pvoigt` do not have the same width. -/
theorem C194_half_width (area center sigma : ℝ) (ha : 0 < area) (hs : 0 < sigma) :
    Spec.HalfWidth center sigma (fun x => lorentzian x area center sigma) ∧
    Spec.HalfWidth center (√(2 * log 2) * sigma) (fun x => gaussian x area center sigma) ∧
    Spec.HalfWidth center (√(√2 - 1) * sigma) (fun x => lorentzian2 x area center sigma) ∧ 1 < √(2 * log 2) := by
  have hp := pi_pos
  have hp2 := s2pi_pos
  have hl : 0 < log 2 := log_pos (by norm_num)
  have hq : ∀ x k : ℝ, 0 ≤ k → (((x - center) / sigma) ^ 2 = k ↔ |x - center| = √k * sigma) := by
    intro x k hk
    rw [← abs_of_pos hs, ← abs_of_nonneg (Real.sqrt_nonneg k), ← abs_mul, ← sq_eq_sq_iff_abs_eq_abs, mul_pow, sq_sqrt hk, abs_of_pos hs, div_pow,
      div_eq_iff (by positivity)]
  refine ⟨fun x => ?_, fun x => ?_, fun x => ?_, ?_⟩
  · simp only [lorentzian_eq]
    rw [sub_self, zero_div, zero_pow two_ne_zero, add_zero, inv_one, mul_one, div_eq_mul_inv _ (2:ℝ),
      mul_right_inj' (by positivity), inv_inj]
    have := hq x 1 zero_le_one
    rw [sqrt_one, one_mul] at this
    rw [← this]
    constructor <;> intro h <;> linarith
  · simp only [gaussian_eq]
    rw [sub_self, zero_div, zero_pow two_ne_zero, mul_zero, exp_zero, mul_one, div_eq_mul_inv (area / (s2pi * sigma)) (2:ℝ),
      mul_right_inj' (by positivity), ← hq x _ (by positivity), ← exp_log (show (0:ℝ) < 2⁻¹ by norm_num), exp_eq_exp, log_inv]
    constructor <;> intro h <;> linarith
  · simp only [lorentzian2_eq]
    have h2 : (1:ℝ) < √2 := by rw [lt_sqrt zero_le_one]; norm_num
    rw [sub_self, zero_div, zero_pow two_ne_zero, add_zero, one_pow, inv_one, mul_one, div_eq_mul_inv _ (2:ℝ),
      mul_right_inj' (by positivity), inv_inj, ← hq x _ (by linarith)]
    constructor
    · intro h
      have := Real.sqrt_sq (show 0 ≤ 1 + ((x - center) / sigma) ^ 2 by positivity)
      rw [h] at this
      linarith
    · intro h
      rw [h]
      have := Real.sq_sqrt (show (0:ℝ) ≤ 2 by norm_num)
      linear_combination this
  · rw [lt_sqrt zero_le_one]
    have := log_two_gt_d9
    linarith

/-! ## The step -/

/-- C194: `gausssian_step` falls from `area / peak_e` far below the centre to 0 far above it, strictly everywhere, and has
half its height at the centre. -/
theorem C194_step (area center sigma peakE : ℝ) (ha : 0 < area) (hs : 0 < sigma) (he : 0 < peakE) :
    StrictAnti (fun x => gaussianStep x area center sigma peakE) ∧ gaussianStep center area center sigma peakE = area / peakE / 2 ∧
    Tendsto (fun x => gaussianStep x area center sigma peakE) atBot (𝓝 (area / peakE)) ∧
    Tendsto (fun x => gaussianStep x area center sigma peakE) atTop (𝓝 0) := by
  have hk : 0 < √2 * sigma := by positivity
  have hanti : StrictAnti erfc := by
    apply strictAnti_of_deriv_neg
    intro x
    rw [(hasDerivAt_erfc x).deriv]
    have : 0 < 2 / √π * exp (-x ^ 2) := by have := pi_pos; positivity
    linarith
  have e0 : erfc 0 = 1 := by
    have := erfc_neg 0
    rw [neg_zero] at this
    linarith
  have hlim : ∀ (l : Filter ℝ) (v : ℝ), Tendsto (fun x => erfc ((x - center) / (√2 * sigma))) l (𝓝 v) →
      Tendsto (fun x => gaussianStep x area center sigma peakE) l (𝓝 (area * v / (2 * peakE))) := by
    intro l v h
    exact (h.const_mul area).div_const _
  refine ⟨?_, ?_, ?_, ?_⟩
  · intro x y h
    have h1 : (x - center) / (√2 * sigma) < (y - center) / (√2 * sigma) := div_lt_div_of_pos_right (by linarith) hk
    have := hanti h1
    unfold gaussianStep
    exact div_lt_div_of_pos_right (mul_lt_mul_of_pos_left this ha) (by positivity)
  · unfold gaussianStep
    rw [sub_self, zero_div, e0]
    field_simp
  · have := hlim atBot 2 (tendsto_erfc_atBot.comp ((tendsto_atBot_add_const_right _ (-center) tendsto_id).atBot_div_const hk))
    rwa [mul_comm area 2, mul_div_mul_left _ _ two_ne_zero] at this
  · have := hlim atTop 0 (tendsto_erfc_atTop.comp ((tendsto_atTop_add_const_right _ (-center) tendsto_id).atTop_div_const hk))
    simpa using this

/-! Non-vacuity -/

example : Spec.PeakAt 3 (fun x => voigt x 2 3 1 none) :=
  (C194_centre 2 3 1 (1 / 2) 1 (by norm_num) (by norm_num) (by norm_num) (by norm_num) (by norm_num)).2.2.2.2.2
example : ¬ Spec.StdDev 0 1 (fun x => lorentzian x 1 0 1) :=
  (C194_std_refuted 1 0 1 1 (by norm_num) (by norm_num) (by norm_num) 1).1

end Verif.Line
