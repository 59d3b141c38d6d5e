/- C236: the Savitzky-Golay filter is the local least-squares fit, and what follows from it. -/
import Verif.Smooth.Props

namespace Verif.Smooth
open Verif

/-! ## specification side -/

/-- Sum of squared differences, over the window of half width h around pixel (r, s), between the image and the polynomial
of total degree n with coefficients c in the offsets from the pixel. -/
def Spec.misfit (im : Img) (h n : ℕ) (c : ℕ → ℕ → ℚ) (r s : ℕ) : ℚ :=
  ∑ i ∈ Finset.Icc (r - h) (r + h), ∑ j ∈ Finset.Icc (s - h) (s + h), (im.px i j - Spec.poly n c ((i : ℚ) - r) ((j : ℚ) - s)) ^ 2

/-- c are the coefficients of the best polynomial of degree n in the window: none fits better, and every other one that
fits equally well has the same coefficients. -/
def Spec.Best (im : Img) (h n : ℕ) (c : ℕ → ℕ → ℚ) (r s : ℕ) : Prop :=
  ∀ c', Spec.misfit im h n c r s ≤ Spec.misfit im h n c' r s ∧
    (Spec.misfit im h n c' r s = Spec.misfit im h n c r s → ∀ e f, e + f ≤ n → c' e f = c e f)

/-- The window of half width h around the pixel lies in the image. -/
def Spec.Inner (im : Img) (h r s : ℕ) : Prop := (h ≤ r ∧ r + h < im.N) ∧ (h ≤ s ∧ s + h < im.M)

/-- The image upside down. -/
def Spec.flipRows (im : Img) : Img := ⟨im.N, im.M, fun i j => im.px (im.N - 1 - i) j⟩
/-- The image with rows and columns exchanged. -/
def Spec.transposed (im : Img) : Img := ⟨im.M, im.N, fun i j => im.px j i⟩
/-- a times the first image plus b times the second (of the same size). -/
def Spec.combine (a b : ℚ) (im im' : Img) : Img := ⟨im.N, im.M, fun i j => a * im.px i j + b * im'.px i j⟩

/-! ## lemmas -/

theorem poly_exps (n : ℕ) (c : ℕ → ℕ → ℚ) (x y : ℚ) :
    Spec.poly n c x y = ∑ k : Fin (exps n).length, c ((exps n).get k).1 ((exps n).get k).2 *
      (x ^ ((exps n).get k).1 * y ^ ((exps n).get k).2) := by
  have e1 : ∑ k : Fin (exps n).length, c ((exps n).get k).1 ((exps n).get k).2 *
      (x ^ ((exps n).get k).1 * y ^ ((exps n).get k).2) = ((exps n).map (fun p => c p.1 p.2 * (x ^ p.1 * y ^ p.2))).sum := by
    rw [← List.sum_ofFn]
    congr 1
    apply List.ext_getElem
    · simp
    · intro i h1 h2; simp
  rw [e1, ← List.sum_toFinset _ (nodup_exps n)]
  have e2 : (exps n).toFinset = (Finset.range (n + 1) ×ˢ Finset.range (n + 1)).filter (fun p => p.1 + p.2 ≤ n) := by
    ext p
    rw [List.mem_toFinset, mem_exps, Finset.mem_filter, Finset.mem_product, Finset.mem_range, Finset.mem_range]
    constructor
    · intro hp; exact ⟨⟨by omega, by omega⟩, hp⟩
    · exact fun hp => hp.2
  rw [e2, Finset.sum_filter, Finset.sum_product]
  unfold Spec.poly
  apply Finset.sum_congr rfl
  intro e he
  rw [Finset.mem_range] at he
  rw [← Finset.sum_filter]
  apply Finset.sum_congr
  · ext f; simp only [Finset.mem_range, Finset.mem_filter]; omega
  · intro f _; rfl

/-- Least squares from the Moore-Penrose conditions. -/
theorem lsq {m n : Type} [Fintype m] [Fintype n] [DecidableEq m] (A : Matrix m n ℚ) (P : Matrix n m ℚ) (hP : IsPinv A P)
    (b : m → ℚ) (y : n → ℚ) :
    ∑ p, (A.mulVec y p - b p) ^ 2 = ∑ p, (A.mulVec (P.mulVec b) p - b p) ^ 2 + ∑ p, (A.mulVec (y - P.mulVec b) p) ^ 2 := by
  set x := P.mulVec b with hx
  have horth : ∀ z : n → ℚ, ∑ p, A.mulVec z p * (A.mulVec x p - b p) = 0 := by
    intro z
    have h1 : ∑ p, A.mulVec z p * A.mulVec x p = dotProduct (A.mulVec z) ((A * P).mulVec b) := by
      rw [hx, Matrix.mulVec_mulVec]; rfl
    have h2 : dotProduct (A.mulVec z) ((A * P).mulVec b) = dotProduct (A.mulVec z) b := by
      rw [Matrix.dotProduct_mulVec, ← Matrix.mulVec_transpose, hP.sap, Matrix.mulVec_mulVec, hP.apa]
    simp only [mul_sub, Finset.sum_sub_distrib]
    rw [h1, h2]; unfold dotProduct; ring
  have e : ∀ p, (A.mulVec y p - b p) ^ 2 = (A.mulVec x p - b p) ^ 2 + (A.mulVec (y - x) p) ^ 2 +
      2 * (A.mulVec (y - x) p * (A.mulVec x p - b p)) := by
    intro p
    rw [Matrix.mulVec_sub]
    simp only [Pi.sub_apply]
    ring
  simp only [e, Finset.sum_add_distrib, ← Finset.mul_sum]
  rw [horth]; ring

/-- The image around the pixel in the order of the kernel. -/
def around (h : ℕ) (im : Img) (r s : ℕ) (p : Fin (2 * h + 1) × Fin (2 * h + 1)) : ℚ := im.px (r + h - p.1) (s + h - p.2)

theorem misfit_eq (im : Img) (h n : ℕ) (c : ℕ → ℕ → ℚ) (r s : ℕ) (hr : h ≤ r) (hs : h ≤ s) :
    Spec.misfit im h n c r s =
      ∑ p : Fin (2 * h + 1) × Fin (2 * h + 1), (around h im r s p - Spec.poly n c (-ind h p.1) (-ind h p.2)) ^ 2 := by
  unfold Spec.misfit
  rw [← Finset.sum_product']
  symm
  refine Finset.sum_bij' (fun (p : Fin (2 * h + 1) × Fin (2 * h + 1)) _ => (r + h - (p.1 : ℕ), s + h - (p.2 : ℕ)))
    (fun q _ => (⟨(r + h - q.1) % (2 * h + 1), Nat.mod_lt _ (by omega)⟩, ⟨(s + h - q.2) % (2 * h + 1), Nat.mod_lt _ (by omega)⟩))
    ?_ ?_ ?_ ?_ ?_
  · intro p _
    have h1 := p.1.isLt
    have h2 := p.2.isLt
    simp only [Finset.mem_product, Finset.mem_Icc]; omega
  · intro q _; simp
  · intro p _
    have h1 := p.1.isLt
    have h2 := p.2.isLt
    apply Prod.ext <;> apply Fin.ext <;> simp only
    · rw [Nat.mod_eq_of_lt (by omega)]; omega
    · rw [Nat.mod_eq_of_lt (by omega)]; omega
  · intro q hq
    simp only [Finset.mem_product, Finset.mem_Icc] at hq
    apply Prod.ext <;> simp only
    · rw [Nat.mod_eq_of_lt (by omega)]; omega
    · rw [Nat.mod_eq_of_lt (by omega)]; omega
  · intro p _
    have h1 := p.1.isLt
    have h2 := p.2.isLt
    simp only [around]
    have e1 : ((r + h - (p.1 : ℕ) : ℕ) : ℚ) - r = - ind h p.1 := by
      rw [Nat.cast_sub (by omega)]; unfold ind; push_cast; ring
    have e2 : ((s + h - (p.2 : ℕ) : ℕ) : ℚ) - s = - ind h p.2 := by
      rw [Nat.cast_sub (by omega)]; unfold ind; push_cast; ring
    rw [e1, e2]

theorem conv_around (h : ℕ) (im : Img) (r s : ℕ) (hin : Spec.Inner im h r s) (k : Fin (2 * h + 1) × Fin (2 * h + 1) → ℚ) :
    convValid h (pad h im) k r s = ∑ p, k p * around h im r s p := by
  unfold convValid
  apply Finset.sum_congr rfl
  intro p _
  have h1 := p.1.isLt
  have h2 := p.2.isLt
  obtain ⟨⟨a1, a2⟩, a3, a4⟩ := hin
  have e := pad_inside h im (r + h - p.1) (s + h - p.2) (by omega) (by omega)
  rw [show r + h - (p.1 : ℕ) + h = r + (2 * h - p.1) by omega, show s + h - (p.2 : ℕ) + h = s + (2 * h - p.2) by omega] at e
  rw [e]; unfold around; ring

/-- Coefficients in the offsets from the vector of the kernel (whose offsets have the opposite sign). -/
def coef (n : ℕ) (x : Fin (exps n).length → ℚ) (e f : ℕ) : ℚ :=
  (-1) ^ (e + f) * ∑ k, if (exps n).get k = (e, f) then x k else 0

theorem coef_get (n : ℕ) (x : Fin (exps n).length → ℚ) (k : Fin (exps n).length) :
    coef n x ((exps n).get k).1 ((exps n).get k).2 = (-1) ^ (((exps n).get k).1 + ((exps n).get k).2) * x k := by
  unfold coef
  congr 1
  rw [Finset.sum_eq_single k]
  · rw [if_pos rfl]
  · intro j _ hj
    rw [if_neg]
    intro hh
    exact hj ((List.nodup_iff_injective_get.1 (nodup_exps n)) (by rw [hh]))
  · simp

theorem poly_design (h n : ℕ) (c : ℕ → ℕ → ℚ) (p : Fin (2 * h + 1) × Fin (2 * h + 1)) :
    Spec.poly n c (-ind h p.1) (-ind h p.2) =
      (design h n).mulVec (fun k => (-1) ^ (((exps n).get k).1 + ((exps n).get k).2) * c ((exps n).get k).1 ((exps n).get k).2) p := by
  rw [poly_exps]
  unfold Matrix.mulVec dotProduct design
  apply Finset.sum_congr rfl
  intro k _
  simp only
  rw [neg_pow, neg_pow (ind h p.2), pow_add]; ring

/-! ## C236 -/

/-- The best polynomial of the window, by the matrix. -/
theorem best_coef (im : Img) (h order : ℕ) (ho : order ≤ 2 * h) (P) (hP : IsPinv (design h order) P) (r s : ℕ)
    (hr : h ≤ r) (hs : h ≤ s) : Spec.Best im h order (coef order (P.mulVec (around h im r s))) r s := by
  set b := around h im r s with hb
  set x := P.mulVec b with hx
  have hm : ∀ c', Spec.misfit im h order c' r s = ∑ p, ((design h order).mulVec x p - b p) ^ 2 +
      ∑ p, ((design h order).mulVec ((fun k => (-1) ^ (((exps order).get k).1 + ((exps order).get k).2) *
        c' ((exps order).get k).1 ((exps order).get k).2) - x) p) ^ 2 := by
    intro c'
    rw [misfit_eq im h order c' r s hr hs, ← lsq (design h order) P hP b]
    apply Finset.sum_congr rfl
    intro p _
    rw [poly_design, ← hb]; ring
  have hx' : (fun k => (-1) ^ (((exps order).get k).1 + ((exps order).get k).2) *
        coef order x ((exps order).get k).1 ((exps order).get k).2) = x := by
    funext k
    rw [coef_get, ← mul_assoc, ← pow_add, ← two_mul, pow_mul]; norm_num
  have h0 := hm (coef order x)
  rw [hx', sub_self, Matrix.mulVec_zero] at h0
  simp only [Pi.zero_apply, ne_eq, OfNat.ofNat_ne_zero, not_false_eq_true, zero_pow, Finset.sum_const_zero, add_zero] at h0
  intro c'
  rw [hm c', h0]
  constructor
  · have : 0 ≤ ∑ p, ((design h order).mulVec ((fun k => (-1) ^ (((exps order).get k).1 + ((exps order).get k).2) *
        c' ((exps order).get k).1 ((exps order).get k).2) - x) p) ^ 2 := Finset.sum_nonneg (fun p _ => sq_nonneg _)
    linarith
  · intro heq e f hef
    have hz := (Finset.sum_eq_zero_iff_of_nonneg (fun p _ => sq_nonneg _)).1 (show ∑ p, ((design h order).mulVec
      ((fun k => (-1) ^ (((exps order).get k).1 + ((exps order).get k).2) *
        c' ((exps order).get k).1 ((exps order).get k).2) - x) p) ^ 2 = 0 by linarith)
    have hz' : (design h order).mulVec ((fun k => (-1) ^ (((exps order).get k).1 + ((exps order).get k).2) *
        c' ((exps order).get k).1 ((exps order).get k).2) - x) = 0 := by
      funext p
      exact pow_eq_zero_iff (two_ne_zero) |>.1 (hz p (Finset.mem_univ p))
    have := design_injective h order ho _ hz'
    obtain ⟨k, hk⟩ := List.mem_iff_get.1 ((mem_exps order (e, f)).2 hef)
    have h1 := congrFun this k
    simp only [Pi.sub_apply, Pi.zero_apply] at h1
    have h2 := coef_get order x k
    rw [hk] at h1 h2
    simp only at h1 h2
    rw [h2, ← sub_eq_zero.1 h1, ← mul_assoc, ← pow_add, ← two_mul, pow_mul]; norm_num

/-- C236: at every pixel whose window lies in the image, for every image, sgolay2d returns the value at the pixel of the
polynomial of the given degree that fits the window best in the sense of least squares; 'col' and 'row' return its
derivatives at the pixel along the first and second index, 'both' returns (row, col). -/
theorem C236_least_squares (im : Img) (h order : ℕ) (hv : Spec.Valid im h order) (pinv)
    (hP : IsPinv (design h order) (pinv h order)) (r s : ℕ) (hin : Spec.Inner im h r s) :
    ∃ c, Spec.Best im h order c r s ∧ Spec.valueAt (sgolay2d im (2 * h + 1) order pinv .none) r s (c 0 0) ∧
      (1 ≤ order → Spec.valueAt (sgolay2d im (2 * h + 1) order pinv .col) r s (c 1 0) ∧
        Spec.valueAt (sgolay2d im (2 * h + 1) order pinv .row) r s (c 0 1) ∧
        ∃ a b, sgolay2d im (2 * h + 1) order pinv .both = .ok (.two a b) ∧ a.px r s = c 0 1 ∧ b.px r s = c 1 0) := by
  refine ⟨_, best_coef im h order hv.ord _ hP r s hin.1.1 hin.2.1, ?_, ?_⟩
  · obtain ⟨hi, e, hrun⟩ := smooth_eq im h order hv pinv
    refine ⟨_, hrun, ?_⟩
    have h2 := coef_get order ((pinv h order).mulVec (around h im r s)) ⟨0, hi⟩
    rw [e] at h2
    simp only [add_zero, pow_zero, one_mul] at h2
    rw [h2]
    exact conv_around h im r s hin _
  · intro ho
    obtain ⟨i1, i2, e1, e2, hcol, hrow, hboth⟩ := deriv_eq im h order hv ho pinv
    have g1 := coef_get order ((pinv h order).mulVec (around h im r s)) ⟨1, i1⟩
    have g2 := coef_get order ((pinv h order).mulVec (around h im r s)) ⟨2, i2⟩
    rw [e1] at g1
    rw [e2] at g2
    simp only [add_zero, zero_add, pow_one, neg_mul, one_mul] at g1 g2
    have k1 : (filtered h im (fun p => - pinv h order ⟨1, i1⟩ p)).px r s = coef order ((pinv h order).mulVec (around h im r s)) 1 0 := by
      rw [g1]; show convValid _ _ _ _ _ = _
      rw [conv_neg, conv_around h im r s hin]; rfl
    have k2 : (filtered h im (fun p => - pinv h order ⟨2, i2⟩ p)).px r s = coef order ((pinv h order).mulVec (around h im r s)) 0 1 := by
      rw [g2]; show convValid _ _ _ _ _ = _
      rw [conv_neg, conv_around h im r s hin]; rfl
    exact ⟨⟨_, hcol, k1⟩, ⟨_, hrow, k2⟩, _, _, hboth, k2, k1⟩

/-- C236, superposition: away from the borders the result for a combination of two images is the combination of the
results. -/
theorem C236_linear_partial (im im' : Img) (hN : im'.N = im.N) (hM : im'.M = im.M) (a b : ℚ) (h order : ℕ)
    (hv : Spec.Valid im h order) (pinv) (r s : ℕ) (hin : Spec.Inner im h r s) :
    ∃ o o' u, sgolay2d im (2 * h + 1) order pinv .none = .ok (.one o) ∧ sgolay2d im' (2 * h + 1) order pinv .none = .ok (.one o') ∧
      sgolay2d (Spec.combine a b im im') (2 * h + 1) order pinv .none = .ok (.one u) ∧ u.px r s = a * o.px r s + b * o'.px r s := by
  have hv' : Spec.Valid im' h order := ⟨hv.half, hv.ord, by rw [hN]; exact hv.rows, by rw [hM]; exact hv.cols⟩
  have hin' : Spec.Inner im' h r s := by unfold Spec.Inner; rw [hN, hM]; exact hin
  obtain ⟨hi, -, h1⟩ := smooth_eq im h order hv pinv
  obtain ⟨_, -, h2⟩ := smooth_eq im' h order hv' pinv
  obtain ⟨_, -, h3⟩ := smooth_eq (Spec.combine a b im im') h order ⟨hv.half, hv.ord, hv.rows, hv.cols⟩ pinv
  refine ⟨_, _, _, h1, h2, h3, ?_⟩
  show convValid _ _ _ _ _ = a * convValid _ _ _ _ _ + b * convValid _ _ _ _ _
  rw [conv_around h im r s hin, conv_around h im' r s hin', conv_around h (Spec.combine a b im im') r s hin, Finset.mul_sum,
    Finset.mul_sum, ← Finset.sum_add_distrib]
  apply Finset.sum_congr rfl
  intro p _
  simp only [around, Spec.combine]; ring

theorem Best_unique (im : Img) (h n r s : ℕ) (c c' : ℕ → ℕ → ℚ) (hc : Spec.Best im h n c r s) (hc' : Spec.Best im h n c' r s)
    (e f : ℕ) (hef : e + f ≤ n) : c' e f = c e f :=
  (hc c').2 (le_antisymm (hc' c).1 (hc c').1) e f hef

theorem poly_flip (n : ℕ) (c : ℕ → ℕ → ℚ) (x y : ℚ) : Spec.poly n (fun e f => (-1) ^ e * c e f) x y = Spec.poly n c (-x) y := by
  unfold Spec.poly
  refine Finset.sum_congr rfl fun e _ => Finset.sum_congr rfl fun f _ => ?_
  rw [neg_pow]; ring

theorem poly_transpose (n : ℕ) (c : ℕ → ℕ → ℚ) (x y : ℚ) : Spec.poly n (fun e f => c f e) x y = Spec.poly n c y x := by
  unfold Spec.poly
  rw [Finset.sum_sigma', Finset.sum_sigma']
  apply Finset.sum_bij' (fun (p : (_ : ℕ) × ℕ) _ => (⟨p.2, p.1⟩ : (_ : ℕ) × ℕ)) (fun p _ => ⟨p.2, p.1⟩)
  · intro p hp; simp only [Finset.mem_sigma, Finset.mem_range] at hp ⊢; omega
  · intro p hp; simp only [Finset.mem_sigma, Finset.mem_range] at hp ⊢; omega
  · intro p _; rfl
  · intro p _; rfl
  · intro p _; simp only; ring

theorem misfit_flip (im : Img) (h n r s : ℕ) (c : ℕ → ℕ → ℚ) (hr : h ≤ r ∧ r + h < im.N) :
    Spec.misfit (Spec.flipRows im) h n (fun e f => (-1) ^ e * c e f) (im.N - 1 - r) s = Spec.misfit im h n c r s := by
  unfold Spec.misfit
  apply Finset.sum_bij' (fun i _ => im.N - 1 - i) (fun i _ => im.N - 1 - i)
  · intro i hi; simp only [Finset.mem_Icc] at hi ⊢; omega
  · intro i hi; simp only [Finset.mem_Icc] at hi ⊢; omega
  · intro i hi; simp only [Finset.mem_Icc] at hi ⊢; omega
  · intro i hi; simp only [Finset.mem_Icc] at hi ⊢; omega
  · intro i hi
    simp only [Finset.mem_Icc] at hi
    apply Finset.sum_congr rfl
    intro j _
    rw [poly_flip]
    have e : -((i : ℚ) - ((im.N - 1 - r : ℕ) : ℚ)) = ((im.N - 1 - i : ℕ) : ℚ) - r := by
      have h1 : ((im.N - 1 - r : ℕ) : ℚ) = (im.N : ℚ) - 1 - r := by
        rw [Nat.cast_sub (by omega), Nat.cast_sub (by omega)]; simp
      have h2 : ((im.N - 1 - i : ℕ) : ℚ) = (im.N : ℚ) - 1 - i := by
        rw [Nat.cast_sub (by omega), Nat.cast_sub (by omega)]; simp
      rw [h1, h2]; ring
    rw [e]; rfl

theorem misfit_transpose (im : Img) (h n r s : ℕ) (c : ℕ → ℕ → ℚ) :
    Spec.misfit (Spec.transposed im) h n (fun e f => c f e) s r = Spec.misfit im h n c r s := by
  unfold Spec.misfit
  rw [Finset.sum_comm]
  refine Finset.sum_congr rfl fun i _ => Finset.sum_congr rfl fun j _ => ?_
  rw [poly_transpose]; rfl

theorem best_flip (im : Img) (h n r s : ℕ) (c : ℕ → ℕ → ℚ) (hr : h ≤ r ∧ r + h < im.N) (hc : Spec.Best im h n c r s) :
    Spec.Best (Spec.flipRows im) h n (fun e f => (-1) ^ e * c e f) (im.N - 1 - r) s := by
  intro c'
  have e : c' = fun e f => (-1 : ℚ) ^ e * ((-1) ^ e * c' e f) := by
    funext e f; rw [← mul_assoc, ← pow_add, ← two_mul, pow_mul]; norm_num
  have h1 := misfit_flip im h n r s (fun e f => (-1) ^ e * c' e f) hr
  rw [← e] at h1
  rw [misfit_flip im h n r s c hr, h1]
  refine ⟨(hc _).1, fun hh a b hab => ?_⟩
  have := (hc _).2 hh a b hab
  simp only
  rw [← this, ← mul_assoc, ← pow_add, ← two_mul, pow_mul]; norm_num

theorem best_transpose (im : Img) (h n r s : ℕ) (c : ℕ → ℕ → ℚ) (hc : Spec.Best im h n c r s) :
    Spec.Best (Spec.transposed im) h n (fun e f => c f e) s r := by
  intro c'
  have h1 := misfit_transpose im h n r s (fun e f => c' f e)
  rw [misfit_transpose im h n r s c, show Spec.misfit (Spec.transposed im) h n c' s r = _ from h1]
  refine ⟨(hc _).1, fun hh a b hab => ?_⟩
  exact (hc _).2 hh b a (by omega)

/-- C236, symmetry: away from the borders, turning the image upside down turns the smoothed image upside down, keeps the
'row' derivative and reverses the sign of 'col'; exchanging rows and columns exchanges them in the smoothed image and
exchanges 'col' and 'row'. -/
theorem C236_symmetry_partial (im : Img) (h order : ℕ) (hv : Spec.Valid im h order) (pinv)
    (hP : IsPinv (design h order) (pinv h order)) (r s : ℕ) (hin : Spec.Inner im h r s) :
    ∃ c : ℕ → ℕ → ℚ,
      (Spec.valueAt (sgolay2d im (2 * h + 1) order pinv .none) r s (c 0 0) ∧
        Spec.valueAt (sgolay2d (Spec.flipRows im) (2 * h + 1) order pinv .none) (im.N - 1 - r) s (c 0 0) ∧
        Spec.valueAt (sgolay2d (Spec.transposed im) (2 * h + 1) order pinv .none) s r (c 0 0)) ∧
      (1 ≤ order →
        Spec.valueAt (sgolay2d im (2 * h + 1) order pinv .col) r s (c 1 0) ∧
        Spec.valueAt (sgolay2d (Spec.flipRows im) (2 * h + 1) order pinv .col) (im.N - 1 - r) s (- c 1 0) ∧
        Spec.valueAt (sgolay2d (Spec.transposed im) (2 * h + 1) order pinv .row) s r (c 1 0) ∧
        Spec.valueAt (sgolay2d im (2 * h + 1) order pinv .row) r s (c 0 1) ∧
        Spec.valueAt (sgolay2d (Spec.flipRows im) (2 * h + 1) order pinv .row) (im.N - 1 - r) s (c 0 1) ∧
        Spec.valueAt (sgolay2d (Spec.transposed im) (2 * h + 1) order pinv .col) s r (c 0 1)) := by
  have hinf : Spec.Inner (Spec.flipRows im) h (im.N - 1 - r) s :=
    ⟨⟨by have := hin.1; omega, by have := hin.1; show _ < im.N; omega⟩, hin.2⟩
  have hint : Spec.Inner (Spec.transposed im) h s r := ⟨hin.2, hin.1⟩
  obtain ⟨c, b1, v1, d1⟩ := C236_least_squares im h order hv pinv hP r s hin
  obtain ⟨c2, b2, v2, d2⟩ := C236_least_squares (Spec.flipRows im) h order ⟨hv.half, hv.ord, hv.rows, hv.cols⟩ pinv hP _ _ hinf
  obtain ⟨c3, b3, v3, d3⟩ := C236_least_squares (Spec.transposed im) h order ⟨hv.half, hv.ord, hv.cols, hv.rows⟩ pinv hP _ _ hint
  have u2 := Best_unique _ _ _ _ _ _ _ (best_flip im h order r s c hin.1 b1) b2
  have u3 := Best_unique _ _ _ _ _ _ _ (best_transpose im h order r s c b1) b3
  refine ⟨c, ⟨v1, ?_, ?_⟩, fun ho => ?_⟩
  · rw [u2 0 0 (by omega)] at v2; simpa using v2
  · rw [u3 0 0 (by omega)] at v3; exact v3
  · obtain ⟨p1, p2, -⟩ := d1 ho
    obtain ⟨q1, q2, -⟩ := d2 ho
    obtain ⟨r1, r2, -⟩ := d3 ho
    rw [u2 1 0 (by omega)] at q1
    rw [u2 0 1 (by omega)] at q2
    rw [u3 1 0 (by omega)] at r1
    rw [u3 0 1 (by omega)] at r2
    exact ⟨p1, by simpa using q1, r2, p2, by simpa using q2, r1⟩

/-- C236 is false at the borders: the image r and its negative plus 4, i.e. the same image upside down, are treated
differently, so there is neither superposition nor mirror symmetry. -/
theorem C236_borders_refuted (pinv) (hP : IsPinv (design 1 1) (pinv 1 1)) :
    let im : Img := ⟨5, 5, fun r _ => r⟩
    let one : Img := ⟨5, 5, fun _ _ => 1⟩
    Spec.valueAt (sgolay2d im 3 1 pinv .none) 0 2 0 ∧ Spec.valueAt (sgolay2d im 3 1 pinv .none) 4 2 4 ∧
    Spec.valueAt (sgolay2d one 3 1 pinv .none) 0 2 1 ∧
    Spec.valueAt (sgolay2d (Spec.combine (-1) 4 im one) 3 1 pinv .none) 0 2 (10 / 3) ∧
    Spec.valueAt (sgolay2d (Spec.flipRows im) 3 1 pinv .none) 0 2 (10 / 3) := by
  intro im one
  have hv : ∀ f : ℕ → ℕ → ℚ, Spec.Valid ⟨5, 5, f⟩ 1 1 := fun f => ⟨by omega, by omega, by simp, by simp⟩
  have h1 := C148_rising_plane_partial 5 5 1 1 0 1 0 (by norm_num) (by norm_num) (by norm_num) (hv _) pinv hP 0 2 (by norm_num) (by norm_num)
  have h2 := C148_rising_plane_partial 5 5 1 1 0 1 0 (by norm_num) (by norm_num) (by norm_num) (hv _) pinv hP 4 2 (by norm_num) (by norm_num)
  have h3 := C148_rising_plane_partial 5 5 1 1 1 0 0 (by norm_num) (by norm_num) (by norm_num) (hv _) pinv hP 0 2 (by norm_num) (by norm_num)
  have h4 := C148_falling_ramp_refuted pinv hP
  have e1 : (⟨5, 5, fun r c => 0 + 1 * (r : ℚ) + 0 * (c : ℚ)⟩ : Img) = im := by
    show _ = (⟨5, 5, fun r _ => (r : ℚ)⟩ : Img)
    congr 1; funext r c; ring
  have e2 : (⟨5, 5, fun r c => 1 + 0 * (r : ℚ) + 0 * (c : ℚ)⟩ : Img) = one := by
    show _ = (⟨5, 5, fun _ _ => 1⟩ : Img)
    congr 1; funext r c; ring
  have e3 : Spec.combine (-1) 4 im one = ⟨5, 5, fun r _ => 4 - (r : ℚ)⟩ := by
    unfold Spec.combine
    congr 1; funext r c; simp only [im, one]; ring
  rw [e1] at h1 h2
  rw [e2] at h3
  refine ⟨by simpa using h1, by simpa using h2, by simpa using h3, by rw [e3]; exact h4, ?_⟩
  obtain ⟨o, ho, hval⟩ := h4
  have hpad : ∀ i j, j ≤ 6 → i ≤ 2 → pad 1 (Spec.flipRows im) i j = pad 1 ⟨5, 5, fun r _ => 4 - (r : ℚ)⟩ i j := by
    intro i j hj hi
    interval_cases i <;> interval_cases j <;> norm_num [pad, Spec.flipRows, below, above, im]
  obtain ⟨hi, -, hr1⟩ := smooth_eq ⟨5, 5, fun r _ => 4 - (r : ℚ)⟩ 1 1 (hv _) pinv
  obtain ⟨_, -, hr2⟩ := smooth_eq (Spec.flipRows im) 1 1 (hv _) pinv
  refine ⟨_, hr2, ?_⟩
  rw [← hval]
  have : o = filtered 1 ⟨5, 5, fun r _ => 4 - (r : ℚ)⟩ (pinv 1 1 ⟨0, hi⟩) := by
    have := ho.symm.trans hr1
    injection this with this
    injection this
  rw [this]
  unfold filtered convValid
  simp only
  apply Finset.sum_congr rfl
  intro p _
  rw [hpad _ _ (by omega) (by omega)]

/-- The hypotheses are met by a 7 × 7 image, a window of 5 and order 2, at the middle pixel. -/
example : Spec.Valid ⟨7, 7, fun i j => i ^ 3 - j⟩ 2 2 ∧ Spec.Inner ⟨7, 7, fun i j => i ^ 3 - j⟩ 2 3 3 ∧
    ∃ P, IsPinv (design 2 2) P := ⟨⟨by omega, by omega, by simp, by simp⟩, by simp [Spec.Inner], pinv_exists 2 2 (by omega)⟩

end Verif.Smooth
