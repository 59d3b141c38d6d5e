/- Properties C100, C101: calibration. -/
import Verif.Calib.Model
import Mathlib.Tactic.NormNum
import Mathlib.Tactic.IntervalCases
import Mathlib.Analysis.Real.Pi.Bounds

namespace Verif.Calib
open Finset Verif

theorem phiCenter_eq (n k : ℕ) (hn : 0 < n) : phiCenter n k = -Real.pi + Real.pi / n + 2 * Real.pi * k / n := by
  unfold phiCenter phiStep
  have : (n : ℝ) ≠ 0 := by exact_mod_cast hn.ne'
  push_cast
  field_simp
  ring

theorem delta_eq (n : ℕ) (hn : 2 ≤ n) : delta n = 2 * Real.pi / n := by
  unfold delta
  have h1 : ∀ k ∈ range (n - 1), phiCenter n (k + 1) - phiCenter n k = 2 * Real.pi / n := by
    intro k _
    rw [phiCenter_eq n _ (by omega), phiCenter_eq n _ (by omega)]
    push_cast
    ring
  rw [sum_congr rfl h1, sum_const, card_range, nsmul_eq_mul]
  have : ((n - 1 : ℕ) : ℝ) ≠ 0 := by
    have : 0 < n - 1 := by omega
    exact_mod_cast this.ne'
  field_simp

/-- Harmonics m that are no multiple of the number of sectors sum to zero over the sectors. -/
theorem harmonic_sums (n m : ℕ) (hn : 0 < n) (hm : ¬ n ∣ m) :
    ∑ s ∈ range n, Real.cos (m * phiCenter n s) = 0 ∧ ∑ s ∈ range n, Real.sin (m * phiCenter n s) = 0 := by
  have hz := Dft.sum_w n hn m
  rw [if_neg (by exact_mod_cast hm)] at hz
  have hE : ∀ s ∈ range n, Complex.exp (((m * phiCenter n s : ℝ) : ℂ) * Complex.I) =
      Complex.exp (((m * (-Real.pi + Real.pi / n) : ℝ) : ℂ) * Complex.I) * Dft.w n (m * s) := by
    intro s _
    unfold Dft.w
    rw [← Complex.exp_add, phiCenter_eq n s hn]
    congr 1
    push_cast
    ring
  have hsum : ∑ s ∈ range n, Complex.exp (((m * phiCenter n s : ℝ) : ℂ) * Complex.I) = 0 := by
    rw [sum_congr rfl hE, ← mul_sum]
    have : ∑ i ∈ range n, Dft.w n ((m : ℤ) * i) = 0 := hz
    rw [this, mul_zero]
  constructor
  · have := congrArg Complex.re hsum
    rw [Complex.re_sum] at this
    simp only [Complex.exp_ofReal_mul_I_re, Complex.zero_re] at this
    exact this
  · have := congrArg Complex.im hsum
    rw [Complex.im_sum] at this
    simp only [Complex.exp_ofReal_mul_I_im, Complex.zero_im] at this
    exact this

theorem trig_sums (n : ℕ) (hn : 3 ≤ n) :
    ∑ s ∈ range n, Real.cos (phiCenter n s) = 0 ∧ ∑ s ∈ range n, Real.sin (phiCenter n s) = 0 ∧
    ∑ s ∈ range n, Real.cos (phiCenter n s) ^ 2 = n / 2 ∧ ∑ s ∈ range n, Real.sin (phiCenter n s) ^ 2 = n / 2 ∧
    ∑ s ∈ range n, Real.sin (phiCenter n s) * Real.cos (phiCenter n s) = 0 := by
  have h1 := harmonic_sums n 1 (by omega) (fun h => by have := Nat.le_of_dvd (by norm_num) h; omega)
  have h2 := harmonic_sums n 2 (by omega) (fun h => by have := Nat.le_of_dvd (by norm_num) h; omega)
  simp only [Nat.cast_one, one_mul, Nat.cast_ofNat] at h1 h2
  refine ⟨h1.1, h1.2, ?_, ?_, ?_⟩
  · have e : ∀ s ∈ range n, Real.cos (phiCenter n s) ^ 2 = 1 / 2 + Real.cos (2 * phiCenter n s) / 2 := fun s _ => Real.cos_sq _
    rw [sum_congr rfl e, sum_add_distrib, ← sum_div (f := fun s => Real.cos (2 * phiCenter n s)), h2.1]
    simp
    ring
  · have e : ∀ s ∈ range n, Real.sin (phiCenter n s) ^ 2 = 1 / 2 - Real.cos (2 * phiCenter n s) / 2 := fun s _ => Real.sin_sq_eq_half_sub _
    rw [sum_congr rfl e, sum_sub_distrib, ← sum_div (f := fun s => Real.cos (2 * phiCenter n s)), h2.1]
    simp
    ring
  · have e : ∀ s ∈ range n, Real.sin (phiCenter n s) * Real.cos (phiCenter n s) = Real.sin (2 * phiCenter n s) / 2 := by
      intro s _
      rw [Real.sin_two_mul]; ring
    rw [sum_congr rfl e, ← sum_div, h2.2, zero_div]

theorem foldl_min_le (l : List ℕ) : ∀ a, l.foldl min a ≤ a ∧ ∀ v ∈ l, l.foldl min a ≤ v := by
  induction l with
  | nil => intro a; simp
  | cons b t ih =>
    intro a
    obtain ⟨h1, h2⟩ := ih (min a b)
    simp only [List.foldl_cons]
    refine ⟨le_trans h1 (min_le_left _ _), ?_⟩
    intro v hv
    rcases List.mem_cons.1 hv with rfl | hv
    · exact le_trans h1 (min_le_right _ _)
    · exact h2 v hv

theorem foldl_min_const (l : List ℕ) (a m : ℕ) (ha : m ≤ a) (hl : ∀ v ∈ l, m ≤ v) : m ≤ l.foldl min a := by
  induction l generalizing a with
  | nil => simpa
  | cons b t ih => exact ih (min a b) (le_min ha (hl b (by simp))) (fun v hv => hl v (by simp [hv]))

/-- When every trace is a mean radius plus `u cos phi + v sin phi` plus terms without first harmonic, the sums of the code
pick out v in the sine sum and u in the cosine sum. -/
theorem shifts_of_traces (traces : List (List ℝ)) (hn : 3 ≤ traces.length) (hmm : 0 < minLen traces) (u v : ℝ) (g : ℕ → ℕ → ℝ)
    (htr : ∀ k < minLen traces, ∀ s < traces.length, entry traces k s = u * Real.cos (phiCenter traces.length s) + v * Real.sin (phiCenter traces.length s) + g k s)
    (hgs : ∀ k < minLen traces, ∑ s ∈ range traces.length, Real.sin (phiCenter traces.length s) * g k s = 0)
    (hgc : ∀ k < minLen traces, ∑ s ∈ range traces.length, Real.cos (phiCenter traces.length s) * g k s = 0) :
    ∑ s ∈ range traces.length, Real.sin (phiCenter traces.length s) * meanDr traces s = v * (traces.length / 2) ∧
    ∑ s ∈ range traces.length, Real.cos (phiCenter traces.length s) * meanDr traces s = u * (traces.length / 2) := by
  obtain ⟨c1, s1, cc, ss, sc⟩ := trig_sums traces.length hn
  set n := traces.length with hndef
  have hM : (minLen traces : ℝ) ≠ 0 := by exact_mod_cast hmm.ne'
  have key : ∀ f : ℕ → ℝ, (∑ s ∈ range n, f s = 0) → (∀ k < minLen traces, ∑ s ∈ range n, f s * g k s = 0) →
      ∑ s ∈ range n, f s * meanDr traces s = u * (∑ s ∈ range n, f s * Real.cos (phiCenter n s)) + v * (∑ s ∈ range n, f s * Real.sin (phiCenter n s)) := by
    intro f hf hg
    have e1 : ∀ s ∈ range n, f s * meanDr traces s = ∑ k ∈ range (minLen traces), (f s * entry traces k s - f s * ((∑ t ∈ range n, entry traces k t) / n)) / minLen traces := by
      intro s _
      unfold meanDr
      rw [mul_div_assoc', mul_sum, sum_div]
      exact sum_congr rfl (fun k _ => by rw [mul_sub])
    rw [sum_congr rfl e1, sum_comm]
    have e2 : ∀ k ∈ range (minLen traces), ∑ s ∈ range n, (f s * entry traces k s - f s * ((∑ t ∈ range n, entry traces k t) / n)) / (minLen traces : ℝ) =
        (u * (∑ s ∈ range n, f s * Real.cos (phiCenter n s)) + v * (∑ s ∈ range n, f s * Real.sin (phiCenter n s))) / minLen traces := by
      intro k hk
      have hk' := mem_range.1 hk
      rw [← sum_div, sum_sub_distrib, ← sum_mul, hf, zero_mul, sub_zero]
      congr 1
      have e3 : ∀ s ∈ range n, f s * entry traces k s = u * (f s * Real.cos (phiCenter n s)) + v * (f s * Real.sin (phiCenter n s)) + f s * g k s := by
        intro s hs
        rw [htr k hk' s (mem_range.1 hs)]; ring
      rw [sum_congr rfl e3, sum_add_distrib, sum_add_distrib, ← mul_sum, ← mul_sum, hg k hk', add_zero]
    rw [sum_congr rfl e2, sum_const, card_range, nsmul_eq_mul]
    field_simp
  constructor
  · rw [key _ s1 hgs, sc]
    have : ∑ s ∈ range n, Real.sin (phiCenter n s) * Real.sin (phiCenter n s) = n / 2 := by
      rw [← ss]; exact sum_congr rfl (fun s _ => (pow_two _).symm)
    rw [this]; ring
  · rw [key _ c1 hgc]
    have e1 : ∑ s ∈ range n, Real.cos (phiCenter n s) * Real.cos (phiCenter n s) = n / 2 := by
      rw [← cc]; exact sum_congr rfl (fun s _ => (pow_two _).symm)
    have e2 : ∑ s ∈ range n, Real.cos (phiCenter n s) * Real.sin (phiCenter n s) = 0 := by
      rw [← sc]; exact sum_congr rfl (fun s _ => mul_comm _ _)
    rw [e1, e2]; ring

/-! ## C100 refine_center -/

/-- A point at angle phi (measured from the column axis towards the row axis, as in angle_grid) and distance rho from the
estimated centre lies on the circle of radius R about the true centre, which is `u` away along the columns and `v` along
the rows (in mm). -/
def Spec.OnRing (u v R phi rho : ℝ) : Prop :=
  0 < rho ∧ (rho * Real.cos phi - u) ^ 2 + (rho * Real.sin phi - v) ^ 2 = R ^ 2

theorem ring_radius (u v R phi rho : ℝ) (hR : 0 < R) (huv : u ^ 2 + v ^ 2 < R ^ 2) (h : Spec.OnRing u v R phi rho) :
    rho = u * Real.cos phi + v * Real.sin phi + √(R ^ 2 - (v * Real.cos phi - u * Real.sin phi) ^ 2) := by
  obtain ⟨hpos, heq⟩ := h
  set c := Real.cos phi
  set s := Real.sin phi
  have hcs : c ^ 2 + s ^ 2 = 1 := Real.cos_sq_add_sin_sq phi
  have hsq : (rho - (u * c + v * s)) ^ 2 = R ^ 2 - (v * c - u * s) ^ 2 := by
    have h1 : (u * c + v * s) ^ 2 + (v * c - u * s) ^ 2 = u ^ 2 + v ^ 2 := by
      have : (u * c + v * s) ^ 2 + (v * c - u * s) ^ 2 = (u ^ 2 + v ^ 2) * (c ^ 2 + s ^ 2) := by ring
      rw [this, hcs, mul_one]
    have h2 : rho ^ 2 * (c ^ 2 + s ^ 2) - 2 * rho * (u * c + v * s) + (u ^ 2 + v ^ 2) = R ^ 2 := by linarith
    rw [hcs] at h2
    linarith
  have hnn : 0 ≤ rho - (u * c + v * s) := by
    by_contra hneg
    push Not at hneg
    have h1 : (u * c + v * s) ^ 2 + (v * c - u * s) ^ 2 = u ^ 2 + v ^ 2 := by
      have : (u * c + v * s) ^ 2 + (v * c - u * s) ^ 2 = (u ^ 2 + v ^ 2) * (c ^ 2 + s ^ 2) := by ring
      rw [this, hcs, mul_one]
    have h3 : (rho - (u * c + v * s)) ^ 2 < (u * c + v * s) ^ 2 := by nlinarith
    linarith
  rw [← hsq, Real.sqrt_sq hnn]
  ring

theorem phiCenter_half (M s : ℕ) (hM : 0 < M) : phiCenter (2 * M) (M + s) = phiCenter (2 * M) s + Real.pi := by
  rw [phiCenter_eq _ _ (by omega), phiCenter_eq _ _ (by omega)]
  have : (M : ℝ) ≠ 0 := by exact_mod_cast hM.ne'
  push_cast
  field_simp
  ring

/-- Functions with period pi have no first harmonic over an even number of sectors. -/
theorem even_harmonic (M : ℕ) (hM : 0 < M) (f g : ℝ → ℝ) (hf : ∀ p, f (p + Real.pi) = -f p) (hg : ∀ p, g (p + Real.pi) = g p) :
    ∑ s ∈ range (2 * M), f (phiCenter (2 * M) s) * g (phiCenter (2 * M) s) = 0 := by
  rw [show 2 * M = M + M by ring, sum_range_add, show M + M = 2 * M by ring, ← sum_add_distrib]
  apply sum_eq_zero
  intro s _
  rw [phiCenter_half M s hM, hf, hg]
  ring

/-- Exact rings, an even number of sectors: the column error of the estimated centre is added to the row and the row error
to the column. -/
theorem C100_refine_center_refuted (M : ℕ) (hM : 2 ≤ M) (traces : List (List ℝ)) (hlen : traces.length = 2 * M) (hmm : 0 < minLen traces)
    (ps : ℝ × ℝ) (hp1 : 0 < ps.1) (hp2 : 0 < ps.2) (center : ℝ × ℝ) (drow dcol : ℝ) (R : ℕ → ℝ)
    (hR : ∀ k < minLen traces, 0 < R k ∧ (dcol * ps.2) ^ 2 + (drow * ps.1) ^ 2 < R k ^ 2)
    (hring : ∀ k < minLen traces, ∀ s < 2 * M, Spec.OnRing (dcol * ps.2) (drow * ps.1) (R k) (phiCenter (2 * M) s) (entry traces k s)) :
    refineFromTraces traces center ps = .ok (center.1 + dcol * (ps.2 / ps.1), center.2 + drow * (ps.1 / ps.2)) := by
  set u := dcol * ps.2 with hu
  set v := drow * ps.1 with hv
  have hper : ∀ k p, √(R k ^ 2 - (v * Real.cos (p + Real.pi) - u * Real.sin (p + Real.pi)) ^ 2) = √(R k ^ 2 - (v * Real.cos p - u * Real.sin p) ^ 2) := by
    intro k p
    rw [Real.cos_add_pi, Real.sin_add_pi]
    congr 2
    ring
  obtain ⟨hsin, hcos⟩ := shifts_of_traces traces (by omega) hmm u v
    (fun k s => √(R k ^ 2 - (v * Real.cos (phiCenter (2 * M) s) - u * Real.sin (phiCenter (2 * M) s)) ^ 2))
    (by
      intro k hk s hs
      rw [hlen] at hs ⊢
      exact ring_radius u v (R k) _ _ (hR k hk).1 (hR k hk).2 (hring k hk s hs))
    (by
      intro k hk
      rw [hlen]
      exact even_harmonic M (by omega) Real.sin (fun p => √(R k ^ 2 - (v * Real.cos p - u * Real.sin p) ^ 2)) Real.sin_add_pi (hper k))
    (by
      intro k hk
      rw [hlen]
      exact even_harmonic M (by omega) Real.cos (fun p => √(R k ^ 2 - (v * Real.cos p - u * Real.sin p) ^ 2)) Real.cos_add_pi (hper k))
  unfold refineFromTraces
  rw [if_neg (by rintro rfl; simp at hlen; omega)]
  simp only [hsin, hcos, delta_eq traces.length (by omega)]
  have hn0 : (traces.length : ℝ) ≠ 0 := by
    have : traces.length ≠ 0 := by omega
    exact_mod_cast this
  have hpi := Real.pi_ne_zero
  congr 2
  · rw [hu]; field_simp
  · rw [hv]; field_simp

/-- The refined centre is right when the two errors are equal and the pixels square. -/
theorem C100_equal_errors_partial (M : ℕ) (hM : 2 ≤ M) (traces : List (List ℝ)) (hlen : traces.length = 2 * M) (hmm : 0 < minLen traces)
    (p : ℝ) (hp : 0 < p) (center : ℝ × ℝ) (d : ℝ) (R : ℕ → ℝ)
    (hR : ∀ k < minLen traces, 0 < R k ∧ (d * p) ^ 2 + (d * p) ^ 2 < R k ^ 2)
    (hring : ∀ k < minLen traces, ∀ s < 2 * M, Spec.OnRing (d * p) (d * p) (R k) (phiCenter (2 * M) s) (entry traces k s)) :
    refineFromTraces traces center (p, p) = .ok (center.1 + d, center.2 + d) := by
  rw [C100_refine_center_refuted M hM traces hlen hmm (p, p) hp hp center d d R hR hring]
  congr 2
  · show center.1 + d * (p / p) = _
    rw [div_self hp.ne', mul_one]
  · show center.2 + d * (p / p) = _
    rw [div_self hp.ne', mul_one]

/-- Instance: four sectors, one ring of radius 10, true centre one pixel to the right: the traces exist and the code moves
the centre down instead. -/
example : ∃ traces : List (List ℝ), refineFromTraces traces (5, 5) (1, 1) = .ok (6, 5) := by
  set tr : ℕ → ℝ := fun s => Real.cos (phiCenter 4 s) + √(10 ^ 2 - (Real.sin (phiCenter 4 s)) ^ 2) with htr
  have hring : ∀ s, Spec.OnRing 1 0 10 (phiCenter 4 s) (tr s) := by
    intro s
    have hs : Real.sin (phiCenter 4 s) ^ 2 ≤ 1 := Real.sin_sq_le_one _
    have hc : -1 ≤ Real.cos (phiCenter 4 s) := Real.neg_one_le_cos _
    have h2 : (2 : ℝ) ≤ √(10 ^ 2 - (Real.sin (phiCenter 4 s)) ^ 2) := Real.le_sqrt_of_sq_le (by nlinarith)
    refine ⟨by simp only [htr]; linarith, ?_⟩
    have hsq : √(10 ^ 2 - (Real.sin (phiCenter 4 s)) ^ 2) ^ 2 = 10 ^ 2 - (Real.sin (phiCenter 4 s)) ^ 2 := Real.sq_sqrt (by nlinarith)
    have hcs := Real.cos_sq_add_sin_sq (phiCenter 4 s)
    simp only [htr]
    set c := Real.cos (phiCenter 4 s)
    set w := Real.sin (phiCenter 4 s)
    set q := √(10 ^ 2 - w ^ 2)
    have : ((c + q) * c - 1) ^ 2 + ((c + q) * w - 0) ^ 2 = (c + q) ^ 2 * (c ^ 2 + w ^ 2) - 2 * (c + q) * c + 1 := by ring
    rw [this, hcs]
    have : c ^ 2 = 1 - w ^ 2 := by linarith
    nlinarith
  refine ⟨[[tr 0], [tr 1], [tr 2], [tr 3]], ?_⟩
  have := C100_refine_center_refuted 2 (by norm_num) [[tr 0], [tr 1], [tr 2], [tr 3]] rfl (by decide) (1, 1) (by norm_num) (by norm_num) (5, 5) 0 1
    (fun _ => 10) (by intro k _; norm_num) (by
      intro k hk s hs
      have hk0 : k = 0 := by
        have : minLen [[tr 0], [tr 1], [tr 2], [tr 3]] = 1 := by simp [minLen]
        omega
      subst hk0
      have e : entry [[tr 0], [tr 1], [tr 2], [tr 3]] 0 s = tr s := by
        interval_cases s <;> rfl
      rw [e]
      simpa using hring s)
  rw [this]
  norm_num

/-! ## C101 estimate_d_blind -/

/-- Peaks at the radii `D tan(2 theta)` of the standard give exactly the distance D with no spread, however many of the
peaks were found and whatever the limit (at least one). -/
theorem C101_distance (D : ℝ) (peaks twoTheta : List ℝ) (maxPeaks : ℕ) (h1 : 0 < peaks.length) (h2 : 0 < twoTheta.length) (h3 : 0 < maxPeaks)
    (ht : ∀ t ∈ twoTheta, Real.tan t ≠ 0) (hp : ∀ (i : ℕ) p t, peaks[i]? = some p → twoTheta[i]? = some t → p = D * Real.tan t) :
    estimateFromPeaks peaks twoTheta maxPeaks = (D, 0) := by
  set n := min (min twoTheta.length peaks.length) maxPeaks with hn
  have hd : List.zipWith (fun p t => p / Real.tan t) (peaks.take n) (twoTheta.take n) = List.replicate n D := by
    apply List.ext_getElem?
    intro i
    rw [List.getElem?_zipWith, List.getElem?_take, List.getElem?_take, List.getElem?_replicate]
    by_cases hi : i < n
    · rw [if_pos hi, if_pos hi, if_pos hi, List.getElem?_eq_getElem (by omega), List.getElem?_eq_getElem (by omega)]
      simp only [Option.some.injEq]
      rw [hp i _ _ (List.getElem?_eq_getElem (by omega)) (List.getElem?_eq_getElem (by omega))]
      have := ht _ (List.getElem_mem (by omega : i < twoTheta.length))
      field_simp
    · rw [if_neg hi, if_neg hi, if_neg hi]
  unfold estimateFromPeaks
  simp only [← hn, hd]
  have hn0 : (n : ℝ) ≠ 0 := by
    have : n ≠ 0 := by omega
    exact_mod_cast this
  have hm : (List.replicate n D).sum / ((List.replicate n D).length : ℝ) = D := by
    rw [List.sum_replicate, List.length_replicate, nsmul_eq_mul]
    field_simp
  rw [hm]
  simp

/-- C101, whatever the peaks are: the first number is the mean of the distances `radius / tan(2 theta)` of the first n
pairs, the second their root mean square deviation from that mean, where n is the smallest of the number of expected
angles, the number of peaks found and the limit. -/
theorem C101_mean_and_spread (peaks twoTheta : List ℝ) (maxPeaks n : ℕ) (hn : n = min (min twoTheta.length peaks.length) maxPeaks) (_h0 : 0 < n) (m : ℝ)
    (hm : m = (∑ i ∈ Finset.range n, peaks.getD i 0 / Real.tan (twoTheta.getD i 0)) / n) :
    estimateFromPeaks peaks twoTheta maxPeaks =
      (m, √((∑ i ∈ Finset.range n, (peaks.getD i 0 / Real.tan (twoTheta.getD i 0) - m) ^ 2) / n)) := by
  have hd : List.zipWith (fun p t => p / Real.tan t) (peaks.take n) (twoTheta.take n) =
      (List.range n).map (fun i => peaks.getD i 0 / Real.tan (twoTheta.getD i 0)) := by
    apply List.ext_getElem?
    intro i
    rw [List.getElem?_zipWith, List.getElem?_take, List.getElem?_take, List.getElem?_map]
    by_cases hi : i < n
    · rw [if_pos hi, if_pos hi, List.getElem?_eq_getElem (by omega), List.getElem?_eq_getElem (by omega), List.getElem?_range hi]
      simp only [Option.map_some, List.getD_eq_getElem?_getD]
      rw [List.getElem?_eq_getElem (by omega), List.getElem?_eq_getElem (by omega)]
      rfl
    · rw [if_neg hi, if_neg hi, List.getElem?_eq_none (by simpa using hi)]
      rfl
  unfold estimateFromPeaks
  simp only [← hn, hd, List.length_map, List.length_range, List.map_map]
  subst hm
  rfl

example : estimateFromPeaks [2 * Real.tan 1, 2 * Real.tan (1 / 2)] [1, 1 / 2, 1 / 3] 5 = (2, 0) := by
  have hpos : ∀ t : ℝ, 0 < t → t < Real.pi / 2 → Real.tan t ≠ 0 := fun t h1 h2 => (Real.tan_pos_of_pos_of_lt_pi_div_two h1 h2).ne'
  have hpi := Real.pi_gt_three
  apply C101_distance 2 _ _ 5 (by simp) (by simp) (by norm_num)
  · intro t ht
    simp only [List.mem_cons, List.not_mem_nil, or_false] at ht
    rcases ht with rfl | rfl | rfl <;> exact hpos _ (by norm_num) (by linarith)
  · intro i p t h1 h2
    match i with
    | 0 => simp at h1 h2; rw [← h1, ← h2]
    | 1 => simp at h1 h2; rw [← h1, ← h2]
    | (k + 2) => simp at h1

end Verif.Calib
