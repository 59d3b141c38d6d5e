/- Laws of `binned_outlier` (C244; skbeam/core/mask.py 137-187): units, order of the pixels, alpha, and how many pixels can be dropped. -/
import Verif.Mask.Props
import Mathlib.Data.List.Perm.Basic
import Mathlib.Algebra.Order.BigOperators.Group.List

namespace Verif.Mask

/-- The image in another intensity unit and with another offset. -/
def Spec.relevel (a b : ℝ) (p : Px) : Px := { p with v := a * p.v + b }

/-- The positions in another unit and with another zero. -/
def Spec.reposition (c s : ℝ) (p : Px) : Px := { p with r := c * p.r + s }

theorem keep_eq (bins : List ℝ) (alpha : Alpha) (px : List Px) (p : Px) :
    outlierKeep bins alpha px p = true ↔ p.good = true ∧ binVals bins px (wrapIndex (bins.length - 1) (intR bins p.r)) ≠ [] ∧
      |p.v - Spec.mean (binVals bins px (wrapIndex (bins.length - 1) (intR bins p.r)))| <
        alpha.at (bins.length - 1) (wrapIndex (bins.length - 1) (intR bins p.r)) * Spec.std (binVals bins px (wrapIndex (bins.length - 1) (intR bins p.r))) := by
  unfold outlierKeep
  dsimp only
  generalize wrapIndex (bins.length - 1) (intR bins p.r) = k
  generalize binVals bins px k = vs
  by_cases h : vs.length = 0
  · have : vs = [] := List.length_eq_zero_iff.1 h
    simp [binMean, this]
  · have : vs ≠ [] := fun e => h (by rw [e]; rfl)
    rw [binMean, binStd, if_neg h, if_neg h]
    simp only [Bool.and_eq_true, decide_eq_true_eq, Spec.mean, Spec.std, abs_lt]
    constructor
    · rintro ⟨⟨h1, h2⟩, h3⟩
      exact ⟨h1, this, by linarith, by linarith⟩
    · rintro ⟨h1, _, h2, h3⟩
      exact ⟨⟨h1, by linarith⟩, by linarith⟩

theorem mean_affine (a b : ℝ) (vs : List ℝ) (h : vs ≠ []) : Spec.mean (vs.map (fun v => a * v + b)) = a * Spec.mean vs + b := by
  have hs : (vs.map (fun v => a * v + b)).sum = a * vs.sum + vs.length * b := by
    clear h
    induction vs with
    | nil => simp
    | cons v vs ih => simp only [List.map_cons, List.sum_cons, ih, List.length_cons]; push_cast; ring
  have hn : (vs.length : ℝ) ≠ 0 := by exact_mod_cast fun e => h (List.length_eq_zero_iff.1 e)
  unfold Spec.mean
  rw [hs, List.length_map]
  field_simp

theorem std_affine (a b : ℝ) (vs : List ℝ) (h : vs ≠ []) : Spec.std (vs.map (fun v => a * v + b)) = |a| * Spec.std vs := by
  unfold Spec.std
  rw [mean_affine a b vs h, List.map_map, List.length_map]
  have e : (fun v => (v - (a * Spec.mean vs + b)) ^ 2) ∘ (fun v => a * v + b) = fun v => a ^ 2 * (v - Spec.mean vs) ^ 2 := by
    funext v
    simp only [Function.comp]
    ring
  rw [e, List.sum_map_mul_left, mul_div_assoc, Real.sqrt_mul (sq_nonneg a), Real.sqrt_sq_eq_abs]

theorem vals_affine (bins : List ℝ) (a b : ℝ) (px : List Px) (k : ℕ) : binVals bins (px.map (Spec.relevel a b)) k = (binVals bins px k).map (fun v => a * v + b) := by
  unfold binVals
  rw [List.filter_map, List.map_map, List.map_map]
  rfl

/-- C244: the mask does not depend on the unit nor on the offset of the intensities (nor on their sign). -/
theorem C244_intensity_unit (bins : List ℝ) (alpha : Alpha) (px : List Px) (a b : ℝ) (ha : a ≠ 0) :
    binnedOutlier bins alpha (px.map (Spec.relevel a b)) = binnedOutlier bins alpha px := by
  unfold binnedOutlier
  rw [List.map_map]
  refine List.map_congr_left fun p _ => ?_
  rw [Bool.eq_iff_iff]
  simp only [Function.comp]
  rw [keep_eq, keep_eq]
  have hr : (Spec.relevel a b p).r = p.r := rfl
  have hg : (Spec.relevel a b p).good = p.good := rfl
  have hv : (Spec.relevel a b p).v = a * p.v + b := rfl
  rw [hr, hg, hv, vals_affine]
  generalize wrapIndex (bins.length - 1) (intR bins p.r) = k
  generalize binVals bins px k = vs
  by_cases h : vs = []
  · simp [h]
  · have h' : vs.map (fun v => a * v + b) ≠ [] := by simpa using h
    rw [mean_affine a b vs h, std_affine a b vs h, show a * p.v + b - (a * Spec.mean vs + b) = a * (p.v - Spec.mean vs) by ring, abs_mul,
      mul_left_comm, mul_lt_mul_iff_right₀ (abs_pos.2 ha)]
    simp [h, h']

/-- C244: the mask does not depend on the order in which the pixels are stored. -/
theorem C244_order (bins : List ℝ) (alpha : Alpha) (px px' : List Px) (h : px.Perm px') (p : Px) : outlierKeep bins alpha px' p = outlierKeep bins alpha px p := by
  rw [Bool.eq_iff_iff, keep_eq, keep_eq]
  generalize wrapIndex (bins.length - 1) (intR bins p.r) = k
  have hp : (binVals bins px k).Perm (binVals bins px' k) := (h.filter _).map _
  have hm : Spec.mean (binVals bins px' k) = Spec.mean (binVals bins px k) := by
    unfold Spec.mean
    rw [hp.sum_eq, hp.length_eq]
  have hs : Spec.std (binVals bins px' k) = Spec.std (binVals bins px k) := by
    unfold Spec.std
    rw [hm, (hp.map _).sum_eq, hp.length_eq]
  have hn : binVals bins px' k ≠ [] ↔ binVals bins px k ≠ [] := not_congr ⟨fun e => List.Perm.eq_nil (e ▸ hp), fun e => List.Perm.eq_nil (e ▸ hp.symm)⟩
  rw [hm, hs, hn]

theorem getD_affine (c s : ℝ) (bins : List ℝ) (k : ℕ) (hk : k < bins.length) : (bins.map (fun e => c * e + s)).getD k 0 = c * bins.getD k 0 + s := by
  simp [List.getD, hk]

theorem wrap_lt (bins : List ℝ) (x : ℝ) (h : 2 ≤ bins.length) : wrapIndex (bins.length - 1) (intR bins x) + 1 < bins.length := by
  unfold wrapIndex intR
  have := List.countP_le_length (p := fun e => @decide (e < x) (Classical.propDecidable _)) (l := bins.dropLast)
  rw [List.length_dropLast] at this
  split_ifs <;> omega

/-- C244: nor does it depend on the unit and the zero of the positions and bin edges. -/
theorem C244_position_unit (bins : List ℝ) (h2 : 2 ≤ bins.length) (alpha : Alpha) (px : List Px) (c s : ℝ) (hc : 0 < c) :
    binnedOutlier (bins.map (fun e => c * e + s)) alpha (px.map (Spec.reposition c s)) = binnedOutlier bins alpha px := by
  classical
  unfold binnedOutlier
  rw [List.map_map]
  refine List.map_congr_left fun p _ => ?_
  rw [Bool.eq_iff_iff]
  simp only [Function.comp]
  rw [keep_eq, keep_eq]
  have hr : (Spec.reposition c s p).r = c * p.r + s := rfl
  have hg : (Spec.reposition c s p).good = p.good := rfl
  have hv : (Spec.reposition c s p).v = p.v := rfl
  have hi : intR (bins.map (fun e => c * e + s)) (c * p.r + s) = intR bins p.r := by
    unfold intR
    rw [← List.map_dropLast, List.countP_map]
    have e : ((fun e => decide (e < c * p.r + s)) ∘ fun e => c * e + s) = fun e => decide (e < p.r) := by
      funext e
      simp only [Function.comp, add_lt_add_iff_right, mul_lt_mul_iff_right₀ hc]
    rw [e]
  have hk := wrap_lt bins p.r h2
  rw [hr, hg, hv, hi, List.length_map]
  generalize wrapIndex (bins.length - 1) (intR bins p.r) = k at hk ⊢
  have hb : binVals (bins.map (fun e => c * e + s)) (px.map (Spec.reposition c s)) k = binVals bins px k := by
    unfold binVals
    rw [List.filter_map, List.map_map]
    have e : ∀ q : Px, inStatBin (bins.map (fun e => c * e + s)) k (c * q.r + s) = inStatBin bins k q.r := by
      intro q
      unfold inStatBin
      rw [getD_affine c s bins k (by omega), getD_affine c s bins (k + 1) hk, List.length_map]
      congr 1
      rw [add_le_add_iff_right, mul_le_mul_iff_right₀ hc, add_lt_add_iff_right, mul_lt_mul_iff_right₀ hc, add_left_inj, mul_right_inj' hc.ne']
    have e' : ((fun q : Px => q.good && inStatBin (bins.map (fun e => c * e + s)) k q.r) ∘ Spec.reposition c s) = fun q => q.good && inStatBin bins k q.r := by
      funext q
      simp only [Function.comp]
      rw [show (Spec.reposition c s q).r = c * q.r + s from rfl, e]
      rfl
    rw [e']
    rfl
  rw [hb]

/-- C244: a larger alpha keeps at least the same pixels. -/
theorem C244_alpha (bins : List ℝ) (a a' : Alpha) (ha : ∀ k, a.at (bins.length - 1) k ≤ a'.at (bins.length - 1) k) (px : List Px) (p : Px)
    (h : outlierKeep bins a px p = true) : outlierKeep bins a' px p = true := by
  rw [keep_eq] at h ⊢
  refine ⟨h.1, h.2.1, h.2.2.trans_le ?_⟩
  exact mul_le_mul_of_nonneg_right (ha _) (Real.sqrt_nonneg _)

/-- The pixels the starting mask keeps whose position is strictly inside bin k and that `binned_outlier` drops. -/
noncomputable def Spec.dropped (bins : List ℝ) (alpha : Alpha) (px : List Px) (k : ℕ) : List Px :=
  open Classical in px.filter (fun p => p.good && decide (bins.getD k 0 < p.r ∧ p.r < bins.getD (k + 1) 0) && !outlierKeep bins alpha px p)

theorem count_le (f : Px → ℝ) (c : ℝ) (A B : Px → Bool) (hf : ∀ p, 0 ≤ f p) (l : List Px) (hAB : ∀ p ∈ l, B p = true → A p = true ∧ c ≤ f p) :
    ((l.filter B).length : ℝ) * c ≤ ((l.filter A).map f).sum := by
  induction l with
  | nil => simp
  | cons p l ih =>
    have ih' := ih fun q hq => hAB q (List.mem_cons_of_mem _ hq)
    by_cases hB : B p = true
    · obtain ⟨hA, hc⟩ := hAB p List.mem_cons_self hB
      rw [List.filter_cons_of_pos hB, List.filter_cons_of_pos hA]
      simp only [List.length_cons, List.map_cons, List.sum_cons]
      push_cast
      linarith
    · rw [List.filter_cons_of_neg hB]
      by_cases hA : A p = true
      · rw [List.filter_cons_of_pos hA]
        simp only [List.map_cons, List.sum_cons]
        linarith [hf p]
      · rw [List.filter_cons_of_neg hA]
        exact ih'

/-- C244: however the intensities are distributed, with alpha deviations allowed at most a share 1 / alpha² of the good pixels of a
bin is dropped, unless all of them have the same intensity (then all are dropped, `C39_uniform_bin_refuted`). -/
theorem C244_share (bins : List ℝ) (hasc : bins.Pairwise (· ≤ ·)) (alpha : Alpha) (px : List Px) (k : ℕ) (hk : k + 1 < bins.length)
    (ha : 0 < Spec.allowed alpha (bins.length - 1) k) (hs : 0 < Spec.std (Spec.binValues bins px k)) :
    ((Spec.dropped bins alpha px k).length : ℝ) ≤ (Spec.binValues bins px k).length / Spec.allowed alpha (bins.length - 1) k ^ 2 := by
  classical
  obtain ⟨α, hα⟩ : ∃ α, α = Spec.allowed alpha (bins.length - 1) k := ⟨_, rfl⟩
  obtain ⟨σ, hσ⟩ : ∃ σ, σ = Spec.std (Spec.binValues bins px k) := ⟨_, rfl⟩
  obtain ⟨μ, hμ⟩ : ∃ μ, μ = Spec.mean (Spec.binValues bins px k) := ⟨_, rfl⟩
  rw [← hα] at ha ⊢
  rw [← hσ] at hs
  have hcount := count_le (fun p => (p.v - μ) ^ 2) (α ^ 2 * σ ^ 2) (fun p => p.good && inStatBin bins k p.r)
    (fun p => p.good && decide (bins.getD k 0 < p.r ∧ p.r < bins.getD (k + 1) 0) && !outlierKeep bins alpha px p) (fun p => sq_nonneg _) px (by
      intro p hp hB
      simp only [Bool.and_eq_true, decide_eq_true_eq, Bool.not_eq_true'] at hB
      obtain ⟨⟨hg, h1, h2⟩, hd⟩ := hB
      refine ⟨by simp only [Bool.and_eq_true]; exact ⟨hg, by unfold inStatBin; simp only [decide_eq_true_eq]; exact ⟨h1.le, Or.inl h2⟩⟩, ?_⟩
      have hk' := mt (C39_outlier_partial bins hasc alpha px p hp k hk h1 (Or.inl h2)).2 (by rw [hd]; simp)
      rw [not_and, not_lt, ← hα, ← hσ, ← hμ] at hk'
      have := hk' hg
      rw [← mul_pow, ← sq_abs (p.v - μ)]
      exact pow_le_pow_left₀ (by positivity) this 2)
  have hvals : Spec.binValues bins px k = (px.filter (fun p => p.good && inStatBin bins k p.r)).map (fun p => p.v) := rfl
  have hsum : ((px.filter (fun p => p.good && inStatBin bins k p.r)).map (fun p => (p.v - μ) ^ 2)).sum = (Spec.binValues bins px k).length * σ ^ 2 := by
    have hne : ((Spec.binValues bins px k).length : ℝ) ≠ 0 := by
      intro h0
      rw [hσ, Spec.std, h0] at hs
      simp at hs
    have hnn : (0 : ℝ) ≤ ((Spec.binValues bins px k).map (fun v => (v - μ) ^ 2)).sum / (Spec.binValues bins px k).length :=
      div_nonneg (List.sum_nonneg (by simp only [List.mem_map]; rintro _ ⟨v, _, rfl⟩; exact sq_nonneg _)) (Nat.cast_nonneg _)
    have e : σ ^ 2 = ((Spec.binValues bins px k).map (fun v => (v - μ) ^ 2)).sum / (Spec.binValues bins px k).length := by
      rw [hσ, Spec.std, ← hμ, Real.sq_sqrt hnn]
    rw [e, mul_div_cancel₀ _ hne, hvals, List.map_map]
    rfl
  rw [hsum] at hcount
  have hσ2 : 0 < σ ^ 2 := by positivity
  rw [le_div_iff₀ (by positivity)]
  refine le_of_mul_le_mul_right ?_ hσ2
  calc _ = ((Spec.dropped bins alpha px k).length : ℝ) * (α ^ 2 * σ ^ 2) := by ring
    _ ≤ _ := hcount

/-- Instance of `C244_share`: of the values 1, 1, 1, 1, 11 in one bin with alpha = 2 at most 5 / 4, that is one, can go; in fact 11 goes (|11 - 3| = 2 * 4). -/
example : (Spec.dropped [0, 1] (.num 2) [⟨1, 1/2, true⟩, ⟨1, 1/2, true⟩, ⟨1, 1/2, true⟩, ⟨1, 1/2, true⟩, ⟨11, 1/2, true⟩] 0).length ≤ 1 := by
  have hv : Spec.binValues [0, 1] [⟨1, 1/2, true⟩, ⟨1, 1/2, true⟩, ⟨1, 1/2, true⟩, ⟨1, 1/2, true⟩, ⟨11, 1/2, true⟩] 0 = [1, 1, 1, 1, 11] := by
    unfold Spec.binValues
    norm_num [List.filter_cons]
  have hs : Spec.std [1, 1, 1, 1, 11] = 4 := by
    unfold Spec.std Spec.mean
    norm_num
    rw [show (16 : ℝ) = 4 ^ 2 by norm_num]
    exact Real.sqrt_sq (by norm_num)
  have h := C244_share [0, 1] (by simp) (.num 2) [⟨1, 1/2, true⟩, ⟨1, 1/2, true⟩, ⟨1, 1/2, true⟩, ⟨1, 1/2, true⟩, ⟨11, 1/2, true⟩] 0 (by simp)
    (by norm_num [Spec.allowed]) (by rw [hv, hs]; norm_num)
  rw [hv] at h
  have h' : ((Spec.dropped [0, 1] (.num 2) [⟨1, 1/2, true⟩, ⟨1, 1/2, true⟩, ⟨1, 1/2, true⟩, ⟨1, 1/2, true⟩, ⟨11, 1/2, true⟩] 0).length : ℝ) < 2 :=
    h.trans_lt (by norm_num [Spec.allowed])
  exact Nat.lt_succ_iff.1 (by exact_mod_cast h')

end Verif.Mask
