/- Property C204: accuracy of multi_tau_auto_corr in floating-point arithmetic. -/
import Verif.Corr.Props
import Verif.Corr.RoundModel
import Verif.FlProps

namespace Verif.Corr
open Verif Finset Fl

/-! ### arithmetic -/

theorem mean_arith (u η e B k A d q t m' : ℚ) (hu : 0 ≤ u) (hη : 0 ≤ η) (hB : 0 ≤ B) (hk : 1 ≤ k)
    (hs : η + (k + 6) * u ≤ 1 / 8) (he : e ≤ (η + (k - 1 + 6) * u) * B) (hd : d ≤ 2 * B + η * B + e)
    (hA : A * k ≤ (k - 1) * e + η * B + q) (hq : q ≤ ((1 + u) ^ 2 - 1) * d) (ht : t ≤ A + B) (hm : m' ≤ A + u * t) :
    m' ≤ (η + (k + 6) * u) * B := by
  -- m' k ≤ (1+u) A k + u B k
  have h1 : m' * k ≤ (1 + u) * (A * k) + u * B * k := by
    have : m' ≤ A + u * (A + B) := hm.trans (by have := mul_le_mul_of_nonneg_left ht hu; linarith)
    have := mul_le_mul_of_nonneg_right this (by linarith : 0 ≤ k)
    linarith
  have hu8 : 7 * u ≤ 1 / 8 := by
    have : 7 * u ≤ (k + 6) * u := mul_le_mul_of_nonneg_right (by linarith) hu
    linarith
  have heB : e ≤ 1 / 8 * B := by
    refine he.trans (mul_le_mul_of_nonneg_right ?_ hB)
    have : (k - 1 + 6) * u ≤ (k + 6) * u := mul_le_mul_of_nonneg_right (by linarith) hu
    linarith
  have hη8 : η ≤ 1 / 8 := by
    have : 0 ≤ (k + 6) * u := mul_nonneg (by linarith) hu
    linarith
  have hηB : η * B ≤ 1 / 8 * B := mul_le_mul_of_nonneg_right hη8 hB
  have hd' : d ≤ 9 / 4 * B := by linarith
  have huB : 0 ≤ u * B := mul_nonneg hu hB
  have huu : u * u ≤ 1 / 56 * u := mul_le_mul_of_nonneg_right (by linarith) hu
  have huuB : u * u * B ≤ 1 / 56 * (u * B) := by have := mul_le_mul_of_nonneg_right huu hB; linarith
  have hq' : q ≤ (2 * u + u * u) * (9 / 4 * B) := by
    refine hq.trans ?_
    have : (1 + u) ^ 2 - 1 = 2 * u + u * u := by ring
    rw [this]
    exact mul_le_mul_of_nonneg_left hd' (by have := mul_nonneg hu hu; linarith)
  have hq'' : q ≤ 19 / 4 * (u * B) := by linarith
  -- (k-1) e
  have hke : (k - 1) * e ≤ (k - 1) * ((η + (k - 1 + 6) * u) * B) := mul_le_mul_of_nonneg_left he (by linarith)
  have hke' : (k - 1) * e ≤ (k - 1) * (1 / 8 * B) := mul_le_mul_of_nonneg_left heB (by linarith)
  have hAk : A * k ≤ (k - 1) * (1 / 8 * B) + 1 / 8 * B + 19 / 4 * (u * B) := by linarith
  have hAk' : u * (A * k) ≤ 1 / 8 * (u * B) * k + 19 / 4 * (u * u * B) := by
    have := mul_le_mul_of_nonneg_left hAk hu
    linarith
  have huBk : u * B ≤ u * B * k := by have := mul_le_mul_of_nonneg_left hk huB; linarith
  have hfin : m' * k ≤ (η + (k + 6) * u) * B * k := by
    have e1 : (k - 1) * ((η + (k - 1 + 6) * u) * B) = η * B * k - η * B + (u * B * k) * k + 4 * (u * B * k) - 5 * (u * B) := by ring
    have e2 : (η + (k + 6) * u) * B * k = η * B * k + (u * B * k) * k + 6 * (u * B * k) := by ring
    rw [e1] at hke
    rw [e2]
    linarith
  exact le_of_mul_le_mul_right hfin (by linarith)

theorem mean_step (u η B k m μ x Xv : ℚ) (rnd : ℚ → ℚ) (hr : Spec.Rel u rnd) (hη : 0 ≤ η) (hk : 1 ≤ k) (hs : η + (k + 6) * u ≤ 1 / 8)
    (hμ : |μ| ≤ B) (hX : |Xv| ≤ B) (hx : |x - Xv| ≤ η * B) (hm : |m - μ| ≤ (η + (k - 1 + 6) * u) * B) :
    |rnd (m + rnd (rnd (x - m) / k)) - (μ + (Xv - μ) / k)| ≤ (η + (k + 6) * u) * B := by
  obtain ⟨hu, hr⟩ := hr
  have hB : 0 ≤ B := (abs_nonneg _).trans hμ
  have hk0 : 0 < k := by linarith
  set d := x - m with hd
  set s := rnd d with hsd
  set q := rnd (s / k) with hqd
  have h1 := hr d
  rw [← hsd] at h1
  have h2 := hr (s / k)
  rw [← hqd, abs_div, abs_of_pos hk0] at h2
  have h3 := hr (m + q)
  have hs' : |s| ≤ (1 + u) * |d| := by
    have := abs_add_le (s - d) d
    rw [sub_add_cancel] at this; linarith
  have hq : |q * k - d| ≤ ((1 + u) ^ 2 - 1) * |d| := by
    have e : q * k - d = (q - s / k) * k + (s - d) := by field_simp; ring
    have e2 : |(q - s / k) * k| ≤ u * |s| := by
      rw [abs_mul, abs_of_pos hk0]
      have := mul_le_mul_of_nonneg_right h2 hk0.le
      have e3 : u * (|s| / k) * k = u * |s| := by field_simp
      linarith
    rw [e]
    have := abs_add_le ((q - s / k) * k) (s - d)
    have := mul_le_mul_of_nonneg_left hs' hu
    nlinarith
  apply mean_arith u η |m - μ| B k |m + q - (μ + (Xv - μ) / k)| |d| |q * k - d| |m + q| _ hu hη hB hk hs hm ?_ ?_ hq ?_ ?_
  · have e : d = (x - Xv) + (Xv - μ) - (m - μ) := by rw [hd]; ring
    rw [e]
    have a1 := abs_sub ((x - Xv) + (Xv - μ)) (m - μ)
    have a2 := abs_add_le (x - Xv) (Xv - μ)
    have a3 := abs_sub Xv μ
    linarith
  · have e : |m + q - (μ + (Xv - μ) / k)| * k = |(k - 1) * (m - μ) + (x - Xv) + (q * k - d)| := by
      rw [← abs_of_pos hk0, ← abs_mul, abs_of_pos hk0]
      congr 1
      rw [hd]; field_simp; ring
    rw [e]
    have a1 := abs_add_le ((k - 1) * (m - μ) + (x - Xv)) (q * k - d)
    have a2 := abs_add_le ((k - 1) * (m - μ)) (x - Xv)
    rw [abs_mul, abs_of_nonneg (by linarith : 0 ≤ k - 1)] at a2
    linarith
  · have e : m + q = (m + q - (μ + (Xv - μ) / k)) + (μ + (Xv - μ) / k) := by ring
    have hc : |μ + (Xv - μ) / k| ≤ B := by
      have e2 : μ + (Xv - μ) / k = ((k - 1) * μ + Xv) / k := by field_simp; ring
      rw [e2, abs_div, abs_of_pos hk0, div_le_iff₀ hk0]
      have a2 := abs_add_le ((k - 1) * μ) Xv
      rw [abs_mul, abs_of_nonneg (by linarith : 0 ≤ k - 1)] at a2
      have := mul_le_mul_of_nonneg_left hμ (by linarith : 0 ≤ k - 1)
      linarith
    have := abs_add_le (m + q - (μ + (Xv - μ) / k)) (μ + (Xv - μ) / k)
    rw [← e] at this
    linarith
  · have := abs_add_le (rnd (m + q) - (m + q)) (m + q - (μ + (Xv - μ) / k))
    have e : rnd (m + q) - (m + q) + (m + q - (μ + (Xv - μ) / k)) = rnd (m + q) - (μ + (Xv - μ) / k) := by ring
    rw [e] at this
    linarith

theorem near_mul {u : ℚ} {k k' : ℕ} {a A B b A' B' : ℚ} (hu : 0 ≤ u) (h : Near u k a A B) (h' : Near u k' b A' B') : Near u (k + k') (a * b) (A * A') (B * B') := by
  have hB : 0 ≤ B := (abs_nonneg _).trans h.2
  have hB' : 0 ≤ B' := (abs_nonneg _).trans h'.2
  have p1 : 1 ≤ (1 + u) ^ k := one_le_pow₀ (by linarith)
  have p2 : 1 ≤ (1 + u) ^ k' := one_le_pow₀ (by linarith)
  refine ⟨?_, by rw [abs_mul]; exact mul_le_mul h.2 h'.2 (abs_nonneg _) hB⟩
  have e : a * b - A * A' = (a - A) * (b - A') + (a - A) * A' + A * (b - A') := by ring
  rw [e, pow_add]
  have a1 := abs_add_le ((a - A) * (b - A') + (a - A) * A') (A * (b - A'))
  have a2 := abs_add_le ((a - A) * (b - A')) ((a - A) * A')
  rw [abs_mul, abs_mul] at a2
  rw [abs_mul A] at a1
  have m1 := mul_le_mul h.1 h'.1 (abs_nonneg _) (mul_nonneg (by linarith) hB)
  have m2 := mul_le_mul h.1 h'.2 (abs_nonneg _) (mul_nonneg (by linarith) hB)
  have m3 := mul_le_mul h.2 h'.1 (abs_nonneg _) hB
  calc _ ≤ ((1 + u) ^ k - 1) * B * (((1 + u) ^ k' - 1) * B') + ((1 + u) ^ k - 1) * B * B' + B * (((1 + u) ^ k' - 1) * B') := by linarith
    _ = _ := by ring

theorem near_div {u : ℚ} {k : ℕ} {a A B c : ℚ} (hc : 0 ≤ c) (h : Near u k a A B) : Near u k (a / c) (A / c) (B / c) := by
  refine ⟨?_, by rw [abs_div, abs_of_nonneg hc]; exact div_le_div_of_nonneg_right h.2 hc⟩
  rw [← sub_div, abs_div, abs_of_nonneg hc, ← mul_div_assoc]
  exact div_le_div_of_nonneg_right h.1 hc

theorem near_bound {u : ℚ} {k : ℕ} {a A B B' : ℚ} (hu : 0 ≤ u) (hB : B ≤ B') (h : Near u k a A B) : Near u k a A B' := by
  have p1 : 1 ≤ (1 + u) ^ k := one_le_pow₀ (by linarith)
  exact ⟨h.1.trans (mul_le_mul_of_nonneg_left hB (by linarith)), h.2.trans hB⟩

theorem ratio_err (u ε ρ M G G' p p' f f' D x : ℚ) (hM : 0 < M) (hρ : 0 < ρ) (hρ1 : ρ ≤ 1) (hε : ε ≤ ρ / 8) (hu : 0 ≤ u) (hue : 7 * u ≤ ε)
    (hG : |G' - G| ≤ ε * (M * M)) (hp : |p' - p| ≤ ε * M) (hf : |f' - f| ≤ ε * M) (hpM : ρ * M ≤ p) (hfM : ρ * M ≤ f)
    (hD : |D - p' * f'| ≤ u * |p' * f'|) (hx : |x - G' / D| ≤ u * |G' / D|) :
    0 < p' ∧ 0 < D ∧ |x - G / (p * f)| ≤ 2 * (ε / ρ ^ 2) + 4 * |G / (p * f)| * (ε / ρ) := by
  have hε0 : 0 ≤ ε := by linarith
  have hρM : 0 < ρ * M := mul_pos hρ hM
  have hεM : ε * M ≤ ρ * M / 8 := by have := mul_le_mul_of_nonneg_right hε hM.le; linarith
  have hp0 : 0 < p := by linarith
  have hf0 : 0 < f := by linarith
  obtain ⟨hp1, hp2⟩ := abs_le.1 hp
  obtain ⟨hf1, hf2⟩ := abs_le.1 hf
  have hpp : 7 / 8 * p ≤ p' := by linarith
  have hff : 7 / 8 * f ≤ f' := by linarith
  have hp'0 : 0 < p' := by linarith
  have hf'0 : 0 < f' := by linarith
  have hpf' : 0 < p' * f' := mul_pos hp'0 hf'0
  have hpf : 0 < p * f := mul_pos hp0 hf0
  rw [abs_of_pos hpf'] at hD
  have hu1 : u ≤ 1 / 56 := by linarith
  have hD1 : 55 / 56 * (p' * f') ≤ D := by
    have := (abs_le.1 hD).1
    have := mul_le_mul_of_nonneg_right hu1 hpf'.le
    linarith
  have hD0 : 0 < D := by linarith
  refine ⟨hp'0, hD0, ?_⟩
  set g := G / (p * f) with hg
  set h := G' / (p' * f') with hh
  -- step 1
  have s1 : |h - g| ≤ 4 / 3 * (ε / ρ ^ 2) + 5 / 2 * |g| * (ε / ρ) := by
    have e : h - g = (G' - G) / (p' * f') + g * ((p * f - p' * f') / (p' * f')) := by
      rw [hh, hg]; field_simp; ring
    have b1 : |(G' - G) / (p' * f')| ≤ 4 / 3 * (ε / ρ ^ 2) := by
      rw [abs_div, abs_of_pos hpf', div_le_iff₀ hpf']
      have : 49 / 64 * (ρ * M * (ρ * M)) ≤ p' * f' := by
        have := mul_le_mul (by linarith : 7 / 8 * (ρ * M) ≤ p') (by linarith : 7 / 8 * (ρ * M) ≤ f') (by positivity) hp'0.le
        linarith
      have c := mul_le_mul_of_nonneg_left this (by positivity : 0 ≤ 4 / 3 * (ε / ρ ^ 2))
      have e2 : 4 / 3 * (ε / ρ ^ 2) * (49 / 64 * (ρ * M * (ρ * M))) = 49 / 48 * (ε * (M * M)) := by field_simp; ring
      rw [e2] at c
      have : 0 ≤ ε * (M * M) := by positivity
      linarith
    have b2 : |(p * f - p' * f') / (p' * f')| ≤ 5 / 2 * (ε / ρ) := by
      rw [abs_div, abs_of_pos hpf', div_le_iff₀ hpf']
      have e2 : p * f - p' * f' = -((p' - p) * f) - p' * (f' - f) := by ring
      have a1 := abs_sub (-((p' - p) * f)) (p' * (f' - f))
      rw [abs_neg, abs_mul, abs_mul, abs_of_pos hf0, abs_of_pos hp'0] at a1
      rw [e2]
      have m1 := mul_le_mul_of_nonneg_right hp hf0.le
      have m2 := mul_le_mul_of_nonneg_left hf hp'0.le
      have m3 : ε * M * f ≤ 64 / 49 * (ε / ρ) * (p' * f') := by
        have c1 : M ≤ 8 / 7 * p' / ρ := by rw [le_div_iff₀ hρ]; linarith
        have c2 : f ≤ 8 / 7 * f' := by linarith
        have := mul_le_mul c1 c2 hf0.le (by positivity)
        have := mul_le_mul_of_nonneg_left this hε0
        have e3 : ε * (8 / 7 * p' / ρ * (8 / 7 * f')) = 64 / 49 * (ε / ρ) * (p' * f') := by field_simp; ring
        linarith
      have m4 : p' * (ε * M) ≤ 8 / 7 * (ε / ρ) * (p' * f') := by
        have c1 : M ≤ 8 / 7 * f' / ρ := by rw [le_div_iff₀ hρ]; linarith
        have := mul_le_mul_of_nonneg_left c1 (mul_nonneg hp'0.le hε0)
        have e3 : p' * ε * (8 / 7 * f' / ρ) = 8 / 7 * (ε / ρ) * (p' * f') := by field_simp
        linarith
      have : 0 ≤ (ε / ρ) * (p' * f') := by positivity
      linarith
    rw [e]
    have a1 := abs_add_le ((G' - G) / (p' * f')) (g * ((p * f - p' * f') / (p' * f')))
    rw [abs_mul] at a1
    have := mul_le_mul_of_nonneg_left b2 (abs_nonneg g)
    linarith
  -- step 2
  have s2 : |x - h| ≤ 3 * u * |h| := by
    have b1 : |G' / D - h| ≤ 56 / 55 * u * |h| := by
      have e : G' / D - h = h * ((p' * f' - D) / D) := by rw [hh]; field_simp
      rw [e, abs_mul, abs_div (p' * f' - D), abs_of_pos hD0, abs_sub_comm]
      have : |D - p' * f'| / D ≤ 56 / 55 * u := by
        rw [div_le_iff₀ hD0]
        have := mul_le_mul_of_nonneg_left hD1 (by positivity : 0 ≤ 56 / 55 * u)
        linarith
      have := mul_le_mul_of_nonneg_left this (abs_nonneg h)
      linarith
    have b2 : |G' / D| ≤ 2 * |h| - |h| * (1 / 2) := by
      have := abs_add_le (G' / D - h) h
      rw [sub_add_cancel] at this
      have := mul_le_mul_of_nonneg_right hu1 (abs_nonneg h)
      linarith [abs_nonneg h]
    have a1 := abs_add_le (x - G' / D) (G' / D - h)
    rw [sub_add_sub_cancel] at a1
    have := mul_le_mul_of_nonneg_left b2 hu
    have : 0 ≤ u * |h| := mul_nonneg hu (abs_nonneg _)
    linarith
  have hhg : |h| ≤ |g| + |h - g| := by
    have := abs_add_le (h - g) g
    rw [sub_add_cancel] at this; linarith
  have a1 := abs_add_le (x - h) (h - g)
  rw [sub_add_sub_cancel] at a1
  have hερ : ε ≤ ε / ρ := by rw [le_div_iff₀ hρ]; have := mul_le_mul_of_nonneg_left hρ1 hε0; linarith
  have hg0 := abs_nonneg g
  have t1 : u * |h| ≤ u * (|g| + |h - g|) := mul_le_mul_of_nonneg_left hhg hu
  have t2 : 7 * (u * |g|) ≤ |g| * (ε / ρ) := by
    have := mul_le_mul_of_nonneg_left (hue.trans hερ) hg0
    linarith
  have t3 : u * |h - g| ≤ 1 / 56 * |h - g| := mul_le_mul_of_nonneg_right hu1 (abs_nonneg _)
  have : 0 ≤ ε / ρ ^ 2 := by positivity
  have : 0 ≤ |g| * (ε / ρ) := by positivity
  linarith

namespace Rnd
variable {u : ℚ} {fl : ℚ → ℚ}

/-! ### frames -/

/-- Pixel p of the k-th level-l frame, as computed. -/
def lvl (fl : ℚ → ℚ) (v : ℕ → ℕ → Option ℚ) : ℕ → ℕ → ℕ → Option ℚ
  | 0, k, p => v k p
  | l + 1, k, p => match lvl fl v l (2 * k) p, lvl fl v l (2 * k + 1) p with | some x, some y => some (fl (fl (x + y) / 2)) | _, _ => none

theorem avg_map (P : ℕ) (g h : ℕ → Option ℚ) : avg fl ((List.range P).map g) ((List.range P).map h) =
    (List.range P).map (fun p => match g p, h p with | some x, some y => some (fl (fl (x + y) / 2)) | _, _ => none) := by
  unfold avg
  rw [List.zipWith_map, List.zipWith_self]
  apply List.map_congr_left
  intro p _
  cases g p <;> cases h p <;> rfl

theorem X_eq (v : ℕ → ℕ → Option ℚ) (P l k : ℕ) : X (avg fl) (frameOf v P) l k = (List.range P).map (lvl fl v l k) := by
  induction l generalizing k with
  | zero => rfl
  | succ l ih =>
    show avg fl (X (avg fl) (frameOf v P) l (2 * k)) (X (avg fl) (frameOf v P) l (2 * k + 1)) = _
    rw [ih, ih, avg_map]; rfl

/-- Computed and exact averages of frames: NaN at the same places, otherwise close. -/
theorem lvl_near (hr : Fl.Spec.Rel u fl) (v : ℕ → ℕ → Option ℚ) (M : ℚ) (hM : ∀ t p x, v t p = some x → |x| ≤ M) (l k p : ℕ) :
    match Corr.lvl v l k p, lvl fl v l k p with
    | none, none => True
    | some A, some a => Near u (2 * l) a A M
    | _, _ => False := by
  induction l generalizing k with
  | zero =>
    rw [lvl_zero]
    show match v k p, v k p with
    | none, none => True
    | some A, some a => Near u (2 * 0) a A M
    | _, _ => False
    cases h : v k p with
    | none => trivial
    | some x => exact near_bound hr.1 (hM k p x h) (Near.exact u 0 hr.1 x)
  | succ l ih =>
    rw [lvl_succ]
    have h1 := ih (2 * k)
    have h2 := ih (2 * k + 1)
    simp only [lvl]
    revert h1 h2
    cases Corr.lvl v l (2 * k) p <;> cases lvl fl v l (2 * k) p <;> cases Corr.lvl v l (2 * k + 1) p <;> cases lvl fl v l (2 * k + 1) p <;>
      simp only [false_imp_iff, imp_true_iff, imp_self]
    intro h1 h2
    have := (near_div (c := 2) (by norm_num) (h1.rnd_add hr h2)).round hr
    rw [show (M + M) / 2 = M by ring] at this
    exact this

theorem lvl_none (hr : Fl.Spec.Rel u fl) (v : ℕ → ℕ → Option ℚ) (M : ℚ) (hM : ∀ t p x, v t p = some x → |x| ≤ M) (l k p : ℕ) :
    lvl fl v l k p = none ↔ PixBad v l k p := by
  have h := lvl_near hr v M hM l k p
  have h2 : Corr.lvl v l k p = none ↔ PixBad v l k p := by unfold Corr.lvl; split <;> simp_all
  rw [← h2]
  revert h
  cases Corr.lvl v l k p <;> cases lvl fl v l k p <;> simp

theorem blockBad_iff (v : ℕ → ℕ → Option ℚ) (P l k : ℕ) : (∃ p ∈ List.range P, PixBad v l k p) ↔ Spec.BlockBad v P l k := by
  constructor
  · rintro ⟨p, hp, j, hj, e⟩; exact ⟨j, hj, p, by simpa using hp, e⟩
  · rintro ⟨j, hj, p, hp, e⟩; exact ⟨p, by simpa using hp, j, hj, e⟩

theorem good_X (hr : Fl.Spec.Rel u fl) (v : ℕ → ℕ → Option ℚ) (M : ℚ) (hM : ∀ t p x, v t p = some x → |x| ≤ M) (P l k : ℕ) :
    good (X (avg fl) (frameOf v P) l k) = if Spec.BlockBad v P l k then none else some ((List.range P).map (fun p => (lvl fl v l k p).getD 0)) := by
  rw [X_eq, good_map]
  have : (∃ p ∈ List.range P, lvl fl v l k p = none) ↔ Spec.BlockBad v P l k := by
    rw [← blockBad_iff]; simp only [lvl_none hr v M hM]
  simp only [this]

theorem pix_near (hr : Fl.Spec.Rel u fl) (v : ℕ → ℕ → Option ℚ) (M : ℚ) (hM : ∀ t p x, v t p = some x → |x| ≤ M) (P l k p : ℕ) (hp : p < P)
    (hg : ¬ Spec.BlockBad v P l k) : Near u (2 * l) ((lvl fl v l k p).getD 0) (Spec.blockAvg v l k p) M := by
  have h := lvl_near hr v M hM l k p
  have hb : ¬ PixBad v l k p := by
    rintro ⟨j, hj, e⟩; exact hg ⟨j, hj, p, by simpa using hp, e⟩
  unfold Corr.lvl at h
  rw [if_neg hb] at h
  revert h
  cases lvl fl v l k p <;> simp

/-! ### sums over a region -/

theorem binned_near (hr : Fl.Spec.Rel u fl) (P : ℕ) (lab : ℕ → ℕ) (w W : ℕ → ℚ) (B : ℚ) (j r : ℕ) (h : ∀ p < P, Near u j (w p) (W p) B) :
    Near u (j + ((range P).filter (fun p => lab p = r + 1)).card) (binned fl ((List.range P).map lab) ((List.range P).map w) r)
      (∑ p ∈ (range P).filter (fun p => lab p = r + 1), W p) (((range P).filter (fun p => lab p = r + 1)).card * B) := by
  unfold binned
  rw [List.zip_map']
  induction P with
  | zero =>
    simp only [List.range_zero, List.map_nil, List.foldl_nil, range_zero, filter_empty, card_empty, sum_empty, Nat.cast_zero, zero_mul]
    exact (Near.zero u).mono hr.1 (Nat.zero_le _)
  | succ P ih =>
    have ih := ih (fun p hp => h p (by omega))
    rw [List.range_succ, List.map_append, List.foldl_append, range_add_one, filter_insert]
    simp only [List.map_cons, List.map_nil, List.foldl_cons, List.foldl_nil]
    split
    · rename_i hl
      rw [card_insert_of_notMem (by simp), sum_insert (by simp)]
      have h1 := (h P (by omega)).mono hr.1 (show j ≤ j + ((range P).filter (fun p => lab p = r + 1)).card by omega)
      have := ih.rnd_add hr h1
      rw [add_comm (W P)]
      push_cast
      rw [add_mul, one_mul]
      exact this
    · exact ih

theorem roi_near (hr : Fl.Spec.Rel u fl) (P : ℕ) (lab : ℕ → ℕ) (w W : ℕ → ℚ) (B : ℚ) (hB : 0 ≤ B) (j J r : ℕ) (h : ∀ p < P, Near u j (w p) (W p) B) (hJ : j + P + 1 ≤ J) :
    Near u J (fl (binned fl ((List.range P).map lab) ((List.range P).map w) r / numPixels ((List.range P).map lab) r)) (Corr.Spec.roiMean P lab r W) B := by
  have h1 := ((near_div (c := (((range P).filter (fun p => lab p = r + 1)).card : ℚ)) (by positivity) (binned_near hr P lab w W B j r h)).round hr)
  rw [numPixels_map]
  have hc : ((range P).filter (fun p => lab p = r + 1)).card ≤ P := (card_filter_le _ _).trans (by simp)
  refine near_bound hr.1 ?_ (h1.mono hr.1 (by omega))
  by_cases h0 : (((range P).filter (fun p => lab p = r + 1)).card : ℚ) = 0
  · rw [h0]; simpa using hB
  · rw [mul_div_right_comm, div_self h0, one_mul]

/-! ### cells -/

/-- The running-mean update of one cell, as computed. -/
def cellStep (fl : ℚ → ℚ) (labels : List ℕ) (p f : Frame) (m : ℚ) (x : Cell) : Cell :=
  match good p, good f with
  | some p, some f =>
    let up (arr : ℕ → ℚ) (w : List ℚ) : ℕ → ℚ :=
      fun r => fl (arr r + fl (fl (fl (binned fl labels w r / numPixels labels r) - arr r) / (m - x.bad)))
    ⟨up x.G (List.zipWith (fun x y => fl (x * y)) p f), up x.past p, up x.fut f, x.bad⟩
  | _, _ => ⟨x.G, x.past, x.fut, x.bad + 1⟩

theorem upd_same (labels : List ℕ) (arr : ℕ → ℕ → ℚ) (t : ℕ) (w : List ℚ) (m : ℚ) :
    upd fl labels arr t w m t = fun r => fl (arr t r + fl (fl (fl (binned fl labels w r / numPixels labels r) - arr t r) / m)) := by
  funext r; simp [upd]

theorem upd_other (labels : List ℕ) (arr : ℕ → ℕ → ℚ) (t t' : ℕ) (h : t' ≠ t) (w : List ℚ) (m : ℚ) :
    upd fl labels arr t w m t' = arr t' := by
  funext r; simp [upd, h]

theorem oneDelay_same (c : Cfg) (r : Ring Frame) (l : ℕ) (a : Acc) (i : ℕ) :
    cell c.n (oneDelay fl c r l a i) l i =
      cellStep fl c.labels (r.buf l ((((slot c.n (r.cur l) : ℕ) : ℤ) - i) % c.n).toNat) (r.buf l (slot c.n (r.cur l)))
        ((r.img l : ℚ) - i) (cell c.n a l i) := by
  unfold oneDelay cellStep
  simp only []
  cases h1 : good (r.buf l ((((slot c.n (r.cur l) : ℕ) : ℤ) - i) % c.n).toNat) with
  | none => simp [cell, put2, indOf]
  | some p =>
    cases h2 : good (r.buf l (slot c.n (r.cur l))) with
    | none => simp [cell, put2, indOf]
    | some f => simp [cell, upd_same, indOf]

theorem oneDelay_other (c : Cfg) (hn : c.n % 2 = 0) (r : Ring Frame) (l : ℕ) (a : Acc) (i l' i' : ℕ)
    (hv : Valid c.n l i) (hv' : Valid c.n l' i') (hne : ¬ (l' = l ∧ i' = i)) :
    cell c.n (oneDelay fl c r l a i) l' i' = cell c.n a l' i' := by
  have hrow : l' * c.n / 2 + i' ≠ l * c.n / 2 + i := fun e => hne (row_inj hn hv' hv e)
  have hind : ¬ (l' = l ∧ indOf c.n l' i' = l * c.n / 2 + i - levBefore c.n l) := by
    rintro ⟨rfl, e⟩
    exact hne ⟨rfl, ind_inj hn hv' hv e⟩
  unfold oneDelay
  simp only []
  split
  · simp [cell, upd_other _ _ _ _ hrow]
  · simp only [cell, put2, hind, if_false]

theorem fold_delays (c : Cfg) (hn : c.n % 2 = 0) (r : Ring Frame) (l : ℕ) (ds : List ℕ) (hnd : ds.Nodup)
    (hv : ∀ i ∈ ds, Valid c.n l i) (a : Acc) (l' i' : ℕ) (hv' : Valid c.n l' i') :
    cell c.n (ds.foldl (oneDelay fl c r l) a) l' i' =
      if l' = l ∧ i' ∈ ds then cell c.n (oneDelay fl c r l a i') l i' else cell c.n a l' i' := by
  induction ds generalizing a with
  | nil => simp
  | cons d t ih =>
    rw [List.foldl_cons, ih (List.nodup_cons.1 hnd).2 (fun i hi => hv i (by simp [hi]))]
    have hd := (List.nodup_cons.1 hnd).1
    by_cases h1 : l' = l ∧ i' ∈ t
    · have hne : i' ≠ d := fun e => hd (e ▸ h1.2)
      rw [if_pos h1, if_pos ⟨h1.1, by simp [h1.2]⟩]
      have hvl : Valid c.n l i' := h1.1 ▸ hv'
      rw [oneDelay_same, oneDelay_same, oneDelay_other c hn r l a d l i' (hv d (by simp)) hvl (by simp [hne])]
    · rw [if_neg h1]
      by_cases h2 : l' = l ∧ i' = d
      · obtain ⟨rfl, rfl⟩ := h2
        rw [if_pos ⟨rfl, by simp⟩]
      · have h3 : ¬ (l' = l ∧ i' ∈ d :: t) := by
          rintro ⟨e, hm⟩
          rcases List.mem_cons.1 hm with e2 | hm
          · exact h2 ⟨e, e2⟩
          · exact h1 ⟨e, hm⟩
        rw [if_neg h3, oneDelay_other c hn r l a d l' i' (hv d (by simp)) hv' h2]

/-- Cell `x` is the exact cell `y` up to the errors of K updates. -/
def CellNear (u η M : ℚ) (K : ℕ) (x y : Cell) : Prop :=
  (∀ r, |x.G r - y.G r| ≤ (η + (K + 6) * u) * (M * M)) ∧ (∀ r, |x.past r - y.past r| ≤ (η + (K + 6) * u) * M) ∧
    (∀ r, |x.fut r - y.fut r| ≤ (η + (K + 6) * u) * M) ∧ x.bad = y.bad

theorem pairMean_bound (v : ℕ → ℕ → Option ℚ) (P l i N : ℕ) (q : ℕ → ℚ) (B : ℚ) (hB : 0 ≤ B) (h : ∀ k ∈ Corr.Spec.pairs v P l i N, |q k| ≤ B) :
    |Corr.Spec.pairMean v P l i N q| ≤ B := by
  unfold Corr.Spec.pairMean
  split
  · simpa using hB
  · rename_i h0
    have hc : (0 : ℚ) < (Corr.Spec.pairs v P l i N).card := by exact_mod_cast Nat.pos_of_ne_zero h0
    rw [abs_div, abs_of_pos hc, div_le_iff₀ hc]
    refine (abs_sum_le_sum_abs _ _).trans ((sum_le_sum h).trans ?_)
    rw [sum_const, nsmul_eq_mul, mul_comm]

theorem step_near (hr : Fl.Spec.Rel u fl) (v : ℕ → ℕ → Option ℚ) (M : ℚ) (hM0 : 0 ≤ M) (hM : ∀ t p x, v t p = some x → |x| ≤ M) (P : ℕ) (lab : ℕ → ℕ)
    (L l i N : ℕ) (hl : l < L) (h : i ≤ N) (x : Cell) (hs : (1 + u) ^ (4 * L + P + 2) - 1 + ((N + 1 : ℕ) + 6) * u ≤ 1 / 8)
    (hx : CellNear u ((1 + u) ^ (4 * L + P + 2) - 1) M (Corr.Spec.pairs v P l i N).card x (specCell v P lab l i N)) :
    CellNear u ((1 + u) ^ (4 * L + P + 2) - 1) M (Corr.Spec.pairs v P l i (N + 1)).card
      (cellStep fl ((List.range P).map lab) (X (avg fl) (frameOf v P) l (N - i)) (X (avg fl) (frameOf v P) l N) (((N + 1 : ℕ) : ℚ) - i) x)
      (specCell v P lab l i (N + 1)) := by
  have hu := hr.1
  set η := (1 + u) ^ (4 * L + P + 2) - 1 with hη
  have hη0 : 0 ≤ η := by
    have : 1 ≤ (1 + u) ^ (4 * L + P + 2) := one_le_pow₀ (by linarith)
    linarith
  have hle := pairs_card_le v P l i N
  obtain ⟨hG, hp, hf, hb⟩ := hx
  have hN : N - i + i = N := by omega
  unfold cellStep
  rw [good_X hr v M hM, good_X hr v M hM]
  by_cases hg : ¬ Corr.Spec.BlockBad v P l (N - i) ∧ ¬ Corr.Spec.BlockBad v P l N
  · rw [if_neg hg.1, if_neg hg.2]
    have hm : (((N + 1 : ℕ) : ℚ) - i - x.bad) = (Corr.Spec.pairs v P l i N).card + 1 := by
      rw [hb]
      simp only [specCell]
      rw [Nat.cast_sub hle, Nat.cast_sub h]; push_cast; ring
    have hcard : (Corr.Spec.pairs v P l i (N + 1)).card = (Corr.Spec.pairs v P l i N).card + 1 := by
      rw [pairs_succ v P l i N h, if_pos hg, card_insert_of_notMem (notMem_pairs v P l i N)]
    have hbad : N + 1 - i - (Corr.Spec.pairs v P l i (N + 1)).card = N - i - (Corr.Spec.pairs v P l i N).card := by
      rw [hcard]; omega
    simp only [hm]
    rw [List.zipWith_map, List.zipWith_self]
    rw [hcard]
    set K := (Corr.Spec.pairs v P l i N).card with hK
    have hKN : (K : ℚ) ≤ N := by exact_mod_cast (show K ≤ N by omega)
    have hs' : η + ((K : ℚ) + 1 + 6) * u ≤ 1 / 8 := by
      have : ((K : ℚ) + 1 + 6) * u ≤ ((N + 1 : ℕ) + 6) * u := mul_le_mul_of_nonneg_right (by push_cast; linarith) hu
      linarith
    have px := fun k hk p hp' => pix_near hr v M hM P l k p hp' hk
    have upd_ok : ∀ (w : ℕ → ℚ) (q : ℕ → ℕ → ℚ) (B m : ℚ) (j r : ℕ), 0 ≤ B → (∀ p < P, Near u j (w p) (q (N - i) p) B) → j + P + 1 ≤ 4 * L + P + 2 →
        (∀ k ∈ Corr.Spec.pairs v P l i N, |Corr.Spec.roiMean P lab r (q k)| ≤ B) →
        |m - Corr.Spec.pairMean v P l i N (fun k => Corr.Spec.roiMean P lab r (q k))| ≤ (η + (K + 6) * u) * B →
        |fl (m + fl (fl (fl (binned fl ((List.range P).map lab) ((List.range P).map w) r / numPixels ((List.range P).map lab) r) - m) / ((K : ℚ) + 1))) -
          Corr.Spec.pairMean v P l i (N + 1) (fun k => Corr.Spec.roiMean P lab r (q k))| ≤ (η + (((K + 1 : ℕ) : ℚ) + 6) * u) * B := by
      intro w q B m j r hB hw hj hq hm'
      have hroi := roi_near hr P lab w (q (N - i)) B hB j _ r hw hj
      rw [pairMean_insert v P l i N h _ hg]
      have := mean_step u η B (K + 1) m (Corr.Spec.pairMean v P l i N (fun k => Corr.Spec.roiMean P lab r (q k))) _ _ fl hr hη0
        (by have : (0 : ℚ) ≤ K := by positivity
            linarith) hs' (pairMean_bound v P l i N _ B hB hq) hroi.2 hroi.1 (by rw [add_sub_cancel_right]; exact hm')
      push_cast
      exact this
    have hpairs : ∀ k ∈ Corr.Spec.pairs v P l i N, ¬ Corr.Spec.BlockBad v P l k ∧ ¬ Corr.Spec.BlockBad v P l (k + i) := by
      intro k hk; exact (mem_filter.1 hk).2
    have hroiB : ∀ (W : ℕ → ℚ) (B : ℚ) (r : ℕ), 0 ≤ B → (∀ p < P, |W p| ≤ B) → |Corr.Spec.roiMean P lab r W| ≤ B := by
      intro W B r hB hW
      exact (roi_near hr P lab W W B hB 0 _ r (fun p hp' => near_bound hu (hW p hp') (Near.exact u 0 hu (W p))) le_rfl).2
    refine ⟨?_, ?_, ?_, ?_⟩
    · intro r
      apply upd_ok _ (fun k p => Corr.Spec.blockAvg v l k p * Corr.Spec.blockAvg v l (k + i) p) (M * M) (x.G r) (2 * l + 2 * l + 1) r (mul_nonneg hM0 hM0) ?_ (by omega) ?_ (hG r)
      · intro p hp'
        rw [hN]
        exact (near_mul hu (px _ hg.1 p hp') (px _ hg.2 p hp')).round hr
      · intro k hk
        apply hroiB _ _ _ (mul_nonneg hM0 hM0)
        intro p hp'
        exact (near_mul hu (px _ (hpairs k hk).1 p hp') (px _ (hpairs k hk).2 p hp')).2
    · intro r
      apply upd_ok _ (fun k p => Corr.Spec.blockAvg v l k p) M (x.past r) (2 * l) r hM0 (px _ hg.1) (by omega) ?_ (hp r)
      intro k hk
      exact hroiB _ _ _ hM0 (fun p hp' => (px _ (hpairs k hk).1 p hp').2)
    · intro r
      apply upd_ok _ (fun k p => Corr.Spec.blockAvg v l (k + i) p) M (x.fut r) (2 * l) r hM0 ?_ (by omega) ?_ (hf r)
      · intro p hp'
        rw [hN]; exact px _ hg.2 p hp'
      · intro k hk
        exact hroiB _ _ _ hM0 (fun p hp' => (px _ (hpairs k hk).2 p hp').2)
    · rw [hb]; unfold specCell; rw [hbad]
  · have hpairs : Corr.Spec.pairs v P l i (N + 1) = Corr.Spec.pairs v P l i N := by
      rw [pairs_succ v P l i N h, if_neg hg]
    have hres : CellNear u η M (Corr.Spec.pairs v P l i (N + 1)).card ⟨x.G, x.past, x.fut, x.bad + 1⟩ (specCell v P lab l i (N + 1)) := by
      rw [hpairs]
      have e : ∀ q, Corr.Spec.pairMean v P l i (N + 1) q = Corr.Spec.pairMean v P l i N q := by
        intro q; unfold Corr.Spec.pairMean; rw [hpairs]
      refine ⟨?_, ?_, ?_, ?_⟩
      · intro r; have := hG r; simp only [specCell, Corr.Spec.G] at this ⊢; rw [e]; exact this
      · intro r; have := hp r; simp only [specCell, Corr.Spec.past] at this ⊢; rw [e]; exact this
      · intro r; have := hf r; simp only [specCell, Corr.Spec.future] at this ⊢; rw [e]; exact this
      · rw [hb]; simp only [specCell]; rw [hpairs]; omega
    by_cases h1 : Corr.Spec.BlockBad v P l (N - i)
    · rw [if_pos h1]; exact hres
    · by_cases h2 : Corr.Spec.BlockBad v P l N
      · rw [if_pos h2, if_neg h1]; exact hres
      · exact absurd ⟨h1, h2⟩ hg

/-- The computed accumulator is close to the specification, for levels that have seen at most T frames. -/
def AccNear (u M : ℚ) (v : ℕ → ℕ → Option ℚ) (P : ℕ) (lab : ℕ → ℕ) (L n T : ℕ) (N : ℕ → ℕ) (a : Acc) : Prop :=
  ∀ l i, l < L → Valid n l i → N l ≤ T →
    CellNear u ((1 + u) ^ (4 * L + P + 2) - 1) M (Corr.Spec.pairs v P l i (N l)).card (cell n a l i) (specCell v P lab l i (N l))

theorem process_near (hr : Fl.Spec.Rel u fl) (v : ℕ → ℕ → Option ℚ) (M : ℚ) (hM0 : 0 ≤ M) (hM : ∀ t p x, v t p = some x → |x| ≤ M) (P : ℕ) (lab : ℕ → ℕ)
    (L n T : ℕ) (hs : (1 + u) ^ (4 * L + P + 2) - 1 + (T + 6) * u ≤ 1 / 8) (hn : n % 2 = 0) (hn2 : 2 ≤ n)
    (N : ℕ → ℕ) (r : Ring Frame) (l : ℕ) (a : Acc) (hl : l < L)
    (hlev : LevOk n (X (avg fl) (frameOf v P) l) (N l + 1) r l) (ha : AccNear u M v P lab L n T N a) :
    AccNear u M v P lab L n T (fun j => if j = l then N l + 1 else N j)
      (process fl { L := L, n := n, labels := (List.range P).map lab } r l a) := by
  intro l' i' hl' hv' hT
  obtain ⟨h1, h2, h3, h4⟩ := hlev
  have hn0 : 0 < n := by omega
  unfold process
  simp only []
  rw [fold_delays { L := L, n := n, labels := (List.range P).map lab } hn r l _ (delays_nodup _ _ _) (fun i hi => ((mem_delays _ _ _ _).1 hi).2) a l' i' hv']
  by_cases he : l' = l
  · subst he
    have hT : N l' + 1 ≤ T := by simpa using hT
    rw [if_pos (rfl : l' = l') (c := l' = l')]
    by_cases hi : i' < r.img l'
    · rw [if_pos ⟨rfl, (mem_delays _ _ _ _).2 ⟨hi, hv'⟩⟩]
      have hsame := oneDelay_same (fl := fl) { L := L, n := n, labels := (List.range P).map lab } r l' a i'
      simp only [] at hsame ⊢
      rw [hsame]
      rw [slot_eq hn0 h2 h3, delay_eq hn0 (by omega), h1]
      have hb1 : r.buf l' ((N l' + 1) % n) = X (avg fl) (frameOf v P) l' (N l') := h4 (N l') (by omega) (by omega)
      have hb2 : r.buf l' ((N l' + 1 - i') % n) = X (avg fl) (frameOf v P) l' (N l' - i') := by
        have := h4 (N l' - i') (by omega) (by have := hv'.1; omega)
        rw [← this]; congr 2; omega
      rw [hb1, hb2]
      refine step_near hr v M hM0 hM P lab L l' i' (N l') hl' (by omega) _ ?_ (ha l' i' hl' hv' (by omega))
      have : ((N l' + 1 : ℕ) : ℚ) ≤ T := by exact_mod_cast hT
      have := mul_le_mul_of_nonneg_right (add_le_add_left this 6) hr.1
      linarith
    · rw [if_neg (fun h => hi ((mem_delays _ _ _ _).1 h.2).1), specCell_stay v P lab l' i' (N l') (by omega)]
      have e : Corr.Spec.pairs v P l' i' (N l' + 1) = Corr.Spec.pairs v P l' i' (N l') := by
        unfold Corr.Spec.pairs
        rw [show N l' + 1 - i' = 0 by omega, show N l' - i' = 0 by omega]
      rw [e]
      exact ha l' i' hl' hv' (by omega)
  · have hT : N l' ≤ T := by simpa [he] using hT
    simp only [he, if_false, false_and]
    exact ha l' i' hl' hv' hT

theorem run_near (hr : Fl.Spec.Rel u fl) (v : ℕ → ℕ → Option ℚ) (M : ℚ) (hM0 : 0 ≤ M) (hM : ∀ t p x, v t p = some x → |x| ≤ M) (P : ℕ) (lab : ℕ → ℕ)
    (L n T : ℕ) (hs : (1 + u) ^ (4 * L + P + 2) - 1 + (T + 6) * u ≤ 1 / 8) (hn : n % 2 = 0) (hn2 : 2 ≤ n) (hL : 1 ≤ L) :
    let c : Cfg := { L := L, n := n, labels := (List.range P).map lab }
    AccNear u M v P lab L n T (fun l => T / 2 ^ l) (((List.range T).map (frameOf v P)).foldl (step fl c) (init c)).2 := by
  intro c
  refine (feeds_ok hn2 hL _ (process fl c) (AccNear u M v P lab L n T)
    (fun N r l a hl _ hlev ha => process_near hr v M hM0 hM P lab L n T hs hn hn2 N r l a hl hlev ha)
    (fun N N' a h ha l i hl hv hT => by rw [← h l hl]; exact ha l i hl hv (by rw [h l hl]; exact hT))
    _ ?_ T).2
  intro l i hl hv _
  rw [← init_ok v P lab L n l i hl hv]
  have h0 : 0 ≤ (1 + u) ^ (4 * L + P + 2) - 1 + ((Corr.Spec.pairs v P l i 0).card + 6) * u := by
    have : 1 ≤ (1 + u) ^ (4 * L + P + 2) := one_le_pow₀ (by linarith [hr.1])
    have : 0 ≤ ((Corr.Spec.pairs v P l i 0).card + 6 : ℚ) * u := mul_nonneg (by positivity) hr.1
    linarith
  refine ⟨fun r => ?_, fun r => ?_, fun r => ?_, rfl⟩ <;> rw [sub_self, abs_zero] <;> positivity

theorem lazy_fold (c : Cfg) (pixels lags : List ℕ) (s : St) (ims : List (List (Option ℚ))) (h : ∀ im ∈ ims, ∀ q ∈ pixels, q < im.length) :
    (lazyOneTime fl c pixels lags s ims).2 = ((ims.map (fun im => pixels.map (fun q => (im[q]?).getD none))).foldl (step fl c) s, none) := by
  induction ims generalizing s with
  | nil => rfl
  | cons im rest ih =>
    unfold lazyOneTime
    rw [select_ok pixels im (h im (by simp))]
    simp only []
    rw [ih _ (fun im' h' => h im' (by simp [h']))]
    rfl

theorem lazy_getLast (c : Cfg) (pixels lags : List ℕ) (ims : List (List (Option ℚ))) :
    ∀ s, (lazyOneTime fl c pixels lags s ims).2.2 = none → ims ≠ [] →
      (lazyOneTime fl c pixels lags s ims).1.getLast? = some (result fl c lags (lazyOneTime fl c pixels lags s ims).2.1) := by
  induction ims with
  | nil => intro s _ h; exact absurd rfl h
  | cons im rest ih =>
    intro s h _
    unfold lazyOneTime at h ⊢
    cases hs : select pixels im with
    | error e => rw [hs] at h; simp at h
    | ok x =>
      rw [hs] at h
      simp only [] at h ⊢
      by_cases hr : rest = []
      · subst hr; simp [lazyOneTime]
      · rw [List.getLast?_cons, ih _ h hr]; rfl

end Rnd

/-! ## C204 -/

/-- The accuracy of the averages, relative to the largest intensity: T images, L levels, P selected pixels, unit roundoff u. -/
def Spec.eps (u : ℚ) (L P T : ℕ) : ℚ := (1 + u) ^ (4 * L + P + 2) - 1 + (T + 6) * u

/-- C204: in floating-point arithmetic the rows kept by the generator are the pair means of C46 up to an error of at most
ε M (ε M² for the products), M being the largest intensity. -/
theorem C204_rows (u : ℚ) (fl : ℚ → ℚ) (hr : Fl.Spec.Rel u fl) (n L : ℕ) (hn2 : 2 ≤ n) (hL : 1 ≤ L) (labels : List ℤ) (c : Cfg)
    (pixels lags : List ℕ) (hv : validate n L labels = .ok (c, pixels, lags))
    (images : ℕ → List (Option ℚ)) (hsz : ∀ t, labels.length ≤ (images t).length) (M : ℚ) (hM0 : 0 ≤ M)
    (hM : ∀ t (q : ℕ) x, (images t)[q]? = some (some x) → |x| ≤ M) (T : ℕ) (hs : Spec.eps u L pixels.length T ≤ 1 / 8) :
    let out := Rnd.lazyOneTime fl c pixels lags (init c) ((List.range T).map images)
    let v := pixelHistory images pixels
    let lab := fun p => (c.labels[p]?).getD 0
    out.2.2 = none ∧
    ∀ l i r, l < L → i < n → (l = 0 ∨ n / 2 ≤ i) →
      |out.2.1.2.G (l * n / 2 + i) r - Spec.G v pixels.length lab l i (T / 2 ^ l) r| ≤ Spec.eps u L pixels.length T * (M * M) ∧
      |out.2.1.2.past (l * n / 2 + i) r - Spec.past v pixels.length lab l i (T / 2 ^ l) r| ≤ Spec.eps u L pixels.length T * M ∧
      |out.2.1.2.fut (l * n / 2 + i) r - Spec.future v pixels.length lab l i (T / 2 ^ l) r| ≤ Spec.eps u L pixels.length T * M := by
  intro out v lab
  have he : n % 2 = 0 := (validate_ok hv).1
  obtain ⟨c2, px2, l2, u', h2, hmem, _, _, _, hlen, _⟩ := C50_renumbering labels n L he
  have hc : c.L = L ∧ c.n = n := by rw [(validate_ok hv).2.1]; exact ⟨rfl, rfl⟩
  rw [hv] at h2
  simp only [Except.ok.injEq, Prod.mk.injEq] at h2
  obtain ⟨rfl, rfl, rfl⟩ := h2
  have hout : out.2 = _ := Rnd.lazy_fold (fl := fl) c pixels lags (init c) ((List.range T).map images) (by
    intro im him q hq
    obtain ⟨t, _, rfl⟩ := List.mem_map.1 him
    obtain ⟨x, hx, _⟩ := (hmem q).1 hq
    exact lt_of_lt_of_le (List.getElem?_eq_some_iff.1 hx).1 (hsz t))
  rw [hout]
  refine ⟨rfl, ?_⟩
  intro l i r hl hi hor
  have hclab : c.labels = (List.range pixels.length).map lab := by
    apply List.ext_getElem?
    intro k
    rw [List.getElem?_map]
    by_cases hk : k < pixels.length
    · rw [List.getElem?_range hk]
      have : k < c.labels.length := by omega
      simp [lab, List.getElem?_eq_getElem this]
    · rw [List.getElem?_eq_none (by omega), List.getElem?_eq_none (by simpa using hk)]; rfl
  have hcfg : c = { L := L, n := n, labels := (List.range pixels.length).map lab } := by
    rw [← hclab, ← hc.1, ← hc.2]
  have hframes : ((List.range T).map images).map (fun im => pixels.map (fun q => (im[q]?).getD none)) =
      (List.range T).map (frameOf v pixels.length) := by
    rw [List.map_map]
    apply List.map_congr_left
    intro t _
    exact frames_eq images pixels t
  rw [hframes]
  have hMv : ∀ t p x, v t p = some x → |x| ≤ M := by
    intro t p x hx
    simp only [v, pixelHistory] at hx
    split at hx
    · rename_i q hq
      cases hi : (images t)[q]? with
      | none => rw [hi] at hx; simp at hx
      | some y => rw [hi] at hx; simp only [Option.getD_some] at hx; exact hM t q x (by rw [hi, hx])
    · simp at hx
  have hrun := Rnd.run_near hr v M hM0 hMv pixels.length lab L n T hs he hn2 hL
  rw [← hcfg] at hrun
  obtain ⟨h1, h2, h3, -⟩ := hrun l i hl ⟨hi, hor⟩ (Nat.div_le_self _ _)
  have hK : (1 + u) ^ (4 * L + pixels.length + 2) - 1 + ((Spec.pairs v pixels.length l i (T / 2 ^ l)).card + 6) * u ≤ Spec.eps u L pixels.length T := by
    unfold Spec.eps
    have : (Spec.pairs v pixels.length l i (T / 2 ^ l)).card ≤ T := (pairs_card_le _ _ _ _ _).trans ((Nat.sub_le _ _).trans (Nat.div_le_self _ _))
    have : ((Spec.pairs v pixels.length l i (T / 2 ^ l)).card : ℚ) ≤ T := by exact_mod_cast this
    have := mul_le_mul_of_nonneg_right (add_le_add_left this 6) hr.1
    linarith
  exact ⟨(h1 r).trans (mul_le_mul_of_nonneg_right hK (mul_nonneg hM0 hM0)), (h2 r).trans (mul_le_mul_of_nonneg_right hK hM0),
    (h3 r).trans (mul_le_mul_of_nonneg_right hK hM0)⟩

/-- C204 for what `multi_tau_auto_corr` reports: if in the first t+1 rows the mean intensities of every region are at least
the fraction ρ of the largest intensity M, and ε ≤ ρ/8, then row t is reported and its entries differ from the exact values g
by at most 2 ε/ρ² + 4 |g| ε/ρ. -/
theorem C204_g2 (u : ℚ) (fl : ℚ → ℚ) (hr : Fl.Spec.Rel u fl) (n L : ℕ) (hn2 : 2 ≤ n) (hL : 1 ≤ L) (labels : List ℤ) (c : Cfg)
    (pixels lags : List ℕ) (hv : validate n L labels = .ok (c, pixels, lags))
    (images : ℕ → List (Option ℚ)) (hsz : ∀ t, labels.length ≤ (images t).length) (M : ℚ) (hM0 : 0 < M)
    (hM : ∀ t (q : ℕ) x, (images t)[q]? = some (some x) → |x| ≤ M) (T : ℕ) (hT : 1 ≤ T) (ρ : ℚ) (hρ : 0 < ρ) (hρ1 : ρ ≤ 1)
    (hs : Spec.eps u L pixels.length T ≤ ρ / 8) (l i : ℕ) (hl : l < L) (hi : i < n) (hor : l = 0 ∨ n / 2 ≤ i)
    (hint : ∀ l' i' r, l' < L → i' < n → (l' = 0 ∨ n / 2 ≤ i') → l' * n / 2 + i' ≤ l * n / 2 + i → r < rois c →
      ρ * M ≤ Spec.past (pixelHistory images pixels) pixels.length (fun p => (c.labels[p]?).getD 0) l' i' (T / 2 ^ l') r ∧
      ρ * M ≤ Spec.future (pixelHistory images pixels) pixels.length (fun p => (c.labels[p]?).getD 0) l' i' (T / 2 ^ l') r) :
    let v := pixelHistory images pixels
    let lab := fun p => (c.labels[p]?).getD 0
    ∃ res row, Rnd.multiTauAutoCorr fl L n labels ((List.range T).map images) = .ok res ∧ res.g2[l * n / 2 + i]? = some row ∧
      ∀ r < rois c, ∃ x, row[r]? = some (some x) ∧
        let g := Spec.G v pixels.length lab l i (T / 2 ^ l) r /
          (Spec.past v pixels.length lab l i (T / 2 ^ l) r * Spec.future v pixels.length lab l i (T / 2 ^ l) r)
        |x - g| ≤ 2 * (Spec.eps u L pixels.length T / ρ ^ 2) + 4 * |g| * (Spec.eps u L pixels.length T / ρ) := by
  intro v lab
  set ε := Spec.eps u L pixels.length T with hε
  have he := (validate_ok hv).1
  have hu := hr.1
  have hue : 7 * u ≤ ε := by
    have h1 : 1 ≤ (1 + u) ^ (4 * L + pixels.length + 2) := one_le_pow₀ (by linarith)
    have h2 : (1 : ℚ) ≤ T := by exact_mod_cast hT
    have := mul_le_mul_of_nonneg_right (add_le_add_left h2 6) hu
    rw [hε]; unfold Spec.eps; linarith
  obtain ⟨hno, hrow⟩ := C204_rows u fl hr n L hn2 hL labels c pixels lags hv images hsz M hM0.le hM T (by linarith)
  have hlast := Rnd.lazy_getLast (fl := fl) c pixels lags ((List.range T).map images) (init c) hno (by simp; omega)
  set s := (Rnd.lazyOneTime fl c pixels lags (init c) ((List.range T).map images)).2.1 with hsdef
  have hrn : rows c = (L + 1) * n / 2 := by rw [(validate_ok hv).2.1]; rfl
  have key : ∀ l' i' r, l' < L → i' < n → (l' = 0 ∨ n / 2 ≤ i') → l' * n / 2 + i' ≤ l * n / 2 + i → r < rois c →
      0 < s.2.past (l' * n / 2 + i') r ∧ ∃ x, Rnd.g2At fl s.2 (l' * n / 2 + i') r = some x ∧
        let g := Spec.G v pixels.length lab l' i' (T / 2 ^ l') r /
          (Spec.past v pixels.length lab l' i' (T / 2 ^ l') r * Spec.future v pixels.length lab l' i' (T / 2 ^ l') r)
        |x - g| ≤ 2 * (ε / ρ ^ 2) + 4 * |g| * (ε / ρ) := by
    intro l' i' r h1 h2 h3 h4 h5
    obtain ⟨a1, a2, a3⟩ := hrow l' i' r h1 h2 h3
    obtain ⟨b1, b2⟩ := hint l' i' r h1 h2 h3 h4 h5
    obtain ⟨c1, c2, c3⟩ := ratio_err u ε ρ M _ _ _ _ _ _ (fl (s.2.past (l' * n / 2 + i') r * s.2.fut (l' * n / 2 + i') r))
      (fl (s.2.G (l' * n / 2 + i') r / fl (s.2.past (l' * n / 2 + i') r * s.2.fut (l' * n / 2 + i') r))) hM0 hρ hρ1 hs hu hue a1 a2 a3 b1 b2
      (hr.2 _) (hr.2 _)
    refine ⟨c1, _, ?_, c3⟩
    unfold Rnd.g2At
    rw [if_neg c2.ne']
  have htl : l * n / 2 + i < rows c := by
    rw [hrn]
    obtain ⟨m, rfl⟩ : ∃ m, n = 2 * m := ⟨n / 2, by omega⟩
    have e1 : l * (2 * m) / 2 = l * m := by rw [mul_left_comm]; exact Nat.mul_div_cancel_left _ (by norm_num)
    have e2 : (L + 1) * (2 * m) / 2 = (L + 1) * m := by rw [mul_left_comm]; exact Nat.mul_div_cancel_left _ (by norm_num)
    rw [e1, e2]
    have : (l + 1) * m ≤ L * m := Nat.mul_le_mul_right m hl
    have e3 : (l + 1) * m = l * m + m := by ring
    have e4 : (L + 1) * m = L * m + m := by ring
    omega
  have hg : l * n / 2 + i < gMax c s.2 := by
    unfold gMax
    apply List.lt_findIdx_of_not (by simpa using htl)
    intro j hj
    rw [List.getElem_range]
    simp only [List.any_eq_true, List.mem_range, decide_eq_true_eq, not_exists, not_and]
    intro r hr' h0
    obtain ⟨l', i', hl', ⟨hi', hor'⟩, rfl⟩ := row_decomp he hn2 hL (hrn ▸ lt_of_le_of_lt hj htl)
    exact (key l' i' r hl' hi' hor' hj hr').1.ne' h0
  refine ⟨Rnd.result fl c lags s, (List.range (rois c)).map (fun r => Rnd.g2At fl s.2 (l * n / 2 + i) r), ?_, ?_, ?_⟩
  · unfold Rnd.multiTauAutoCorr
    rw [hv]
    simp only [bind, Except.bind]
    rw [hno, hlast]
  · simp only [Rnd.result, List.getElem?_map, List.getElem?_range hg, Option.map_some]
  · intro r hr'
    obtain ⟨-, x, hx, hb⟩ := key l i r hl hi hor le_rfl hr'
    exact ⟨x, by rw [List.getElem?_map, List.getElem?_range hr', Option.map_some, hx], hb⟩

/-- How large ε is: a few units roundoff for every image and pixel. -/
theorem C204_eps (u : ℚ) (hu : 0 ≤ u) (L P T : ℕ) (h : 2 * ((4 * L + P + 2 : ℕ) : ℚ) * u ≤ 1) : Spec.eps u L P T ≤ (8 * L + 2 * P + T + 10) * u := by
  have key : ∀ k : ℕ, 2 * (k : ℚ) * u ≤ 1 → (1 + u) ^ k ≤ 1 + 2 * k * u := by
    intro k
    induction k with
    | zero => intro _; simp
    | succ k ih =>
      intro hk
      push_cast at hk ⊢
      have h1 : 2 * (k : ℚ) * u ≤ 1 := by linarith
      have h2 := mul_le_mul_of_nonneg_right (ih h1) (show 0 ≤ 1 + u by linarith)
      have h3 := mul_le_mul_of_nonneg_right h1 hu
      rw [pow_succ]
      linarith
  have := key _ h
  unfold Spec.eps
  push_cast at this
  linarith

/-- In double precision, with a million pixels and a million images on eight levels, ε is below 4·10⁻¹⁰. -/
example : Spec.eps (1 / 2 ^ 53) 8 1000000 1000000 ≤ 4 / 10 ^ 10 :=
  (C204_eps _ (by norm_num) _ _ _ (by norm_num)).trans (by norm_num)

/-- The intensities of the hypotheses: pixel values 1, 3, 2, so M = 3, and every mean of the first two rows is at least M/3. -/
example : let v := pixelHistory (fun t => [[some 1], [some 3], [some 2]].getD t [some 2]) [0]
    ∀ i < 2, 1 / 3 * 3 ≤ Spec.past v 1 (fun _ => 1) 0 i (3 / 2 ^ 0) 0 ∧ 1 / 3 * 3 ≤ Spec.future v 1 (fun _ => 1) 0 i (3 / 2 ^ 0) 0 := by
  decide +kernel

/-- What is computed in double precision for them, against the exact 7/6 and 9/10. -/
example : (Rnd.multiTauAutoCorr round53 1 4 [1] [[some 1], [some 3], [some 2]]).map (fun r => r.g2.map (fun row => row.map (fun x => x.map (fun x =>
    decide (|x - 7 / 6| ≤ 1 / 2 ^ 50 ∨ |x - 9 / 10| ≤ 1 / 2 ^ 50 ∨ x = 1))))) = .ok [[some true], [some true], [some true]] := by decide +kernel

end Verif.Corr
