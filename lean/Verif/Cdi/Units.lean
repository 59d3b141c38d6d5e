/- C248: axes and units of `cdi_recon` (skbeam/core/cdi.py 100-166, 319-400): relations between two calls. -/
import Verif.Cdi.Support
import Mathlib.Tactic.NormNum

namespace Verif.Cdi.Units
open Finset Verif Verif.Cdi

/-! ### Specification -/

/-- Rows and columns exchanged. -/
def Spec.swap {α : Type} (x : ℕ → ℕ → α) : ℕ → ℕ → α := fun i j => x j i

/-- An array in another unit: every value k times as large. -/
noncomputable def Spec.times (k : ℝ) (x : Arr) : Arr := fun i j => (k : ℂ) * x i j

/-- The outcome of a call, with another object and everything else (recorded errors, number of callbacks) equal. -/
def Spec.mapResult (f : Arr → Arr) (R : Result) : Result := { R with avg := R.avg.map f, caller := f R.caller }

/-- The same call with exchanged axes: shape and pattern. -/
def Spec.swapParams (p : Params) (fs : Arr → ℕ → ℕ → Bool) : Params := { p with r := p.c, c := p.r, d := Spec.swap p.d, findSupport := fs }

/-- The same call with the amplitudes of the pattern and the offset of `pi_modulus` k times as large. -/
noncomputable def Spec.scaleParams (k : ℝ) (p : Params) : Params := { p with d := fun i j => k * p.d i j, offset := k * p.offset }

/-! ### Transposition -/

theorem fft2_swap (r c : ℕ) (x : ℕ → ℕ → ℂ) (k l : ℕ) : Dft.fft2 c r (Spec.swap x) l k = Dft.fft2 r c x k l := by
  unfold Dft.fft2 Dft.fft Spec.swap
  simp only [Finset.sum_mul]
  rw [Finset.sum_comm]
  refine Finset.sum_congr rfl fun i _ => Finset.sum_congr rfl fun j _ => ?_
  ring

theorem ifft2_swap (r c : ℕ) (x : ℕ → ℕ → ℂ) (k l : ℕ) : Dft.ifft2 c r (Spec.swap x) l k = Dft.ifft2 r c x k l := by
  unfold Dft.ifft2 Dft.ifft Spec.swap
  simp only [Finset.sum_mul, Finset.sum_div, div_mul_eq_mul_div]
  rw [Finset.sum_comm]
  refine Finset.sum_congr rfl fun i _ => Finset.sum_congr rfl fun j _ => ?_
  rw [div_div, div_div, mul_comm (r : ℂ)]
  congr 1
  ring

theorem modulus_swap (r c : ℕ) (o : ℝ) (d : ℕ → ℕ → ℝ) (x : Arr) :
    piModulus c r o (Spec.swap d) (Spec.swap x) = Spec.swap (piModulus r c o d x) := by
  funext i j
  unfold piModulus
  rw [mul_comm c r]
  simp only [fft2_swap]
  unfold Spec.swap
  rw [← ifft2_swap]
  rfl

theorem norm2_swap (r c : ℕ) (x : Arr) : norm2 c r (Spec.swap x) = norm2 r c x := by
  unfold norm2 Spec.swap
  rw [Finset.sum_comm]

theorem diffError_swap (r c : ℕ) (x : Arr) (d : ℕ → ℕ → ℝ) : calDiffError c r (Spec.swap x) (Spec.swap d) = calDiffError r c x d := by
  unfold calDiffError
  rw [← norm2_swap r c, ← norm2_swap r c, mul_comm c r]
  simp only [fft2_swap]
  unfold Spec.swap
  simp only [← fft2_swap r c x]
  try rfl

theorem project_swap (p : Params) (fs) (x : Arr) : project (Spec.swapParams p fs) (Spec.swap x) = Spec.swap (project p x) := by
  unfold project Spec.swapParams
  simp only
  rw [modulus_swap]
  cases p.real <;> rfl

theorem next_swap (p : Params) (fs) (sup : ℕ → ℕ → Bool) (x : Arr) :
    nextObj (Spec.swapParams p fs) (Spec.swap sup) (Spec.swap x) = Spec.swap (nextObj p sup x) := by
  have h1 := project_swap p fs x
  have h2 := project_swap p fs (fun i j => (1 + (-1 / (p.beta : ℂ))) * restrict sup x i j - (-1 / (p.beta : ℂ)) * x i j)
  unfold nextObj
  rw [h1]
  have e : (fun i j => (1 + (-1 / ((Spec.swapParams p fs).beta : ℂ))) * restrict (Spec.swap sup) (Spec.swap x) i j - (-1 / ((Spec.swapParams p fs).beta : ℂ)) * Spec.swap x i j) =
    Spec.swap (fun i j => (1 + (-1 / (p.beta : ℂ))) * restrict sup x i j - (-1 / (p.beta : ℂ)) * x i j) := rfl
  simp only [e, h2]
  rfl

theorem size_swap (r c : ℕ) (s : ℕ → ℕ → Bool) : supSize c r (Spec.swap s) = supSize r c s := by
  unfold supSize Spec.swap
  rw [Finset.sum_comm]

/-- The state of the loop with another object. -/
def mapSt (f : Arr → Arr) (g : (ℕ → ℕ → Bool) → ℕ → ℕ → Bool) (st : St) : St := { st with obj := f st.obj, sup := g st.sup, supOld := g st.supOld, avg := f st.avg }

/-- The average at the end of the loop. -/
theorem avg_map (f : Arr → Arr) (g) (hf : ∀ (x : Arr) (m : ℕ), (fun i j => f x i j / (m : ℂ)) = f (fun i j => x i j / (m : ℂ))) (s : St) :
    (if (mapSt f g s).avgN = 0 then none else some (fun i j => (mapSt f g s).avg i j / ((mapSt f g s).avgN : ℂ))) =
      (if s.avgN = 0 then none else some (fun i j => s.avg i j / (s.avgN : ℂ))).map f := by
  obtain ⟨a1, a2, a3, a4, a5, a6, a7, a8, m⟩ := s
  simp only [mapSt]
  cases m with
  | zero => simp
  | succ m =>
    have := hf a8 (m + 1)
    push_cast at this
    simp [this]

theorem step_swap (p : Params) (fs) (hfs : p.swFlag = true → ∀ x, fs (Spec.swap x) = Spec.swap (p.findSupport x)) (st : St) (n : ℕ) :
    step (Spec.swapParams p fs) (mapSt Spec.swap Spec.swap st) n = mapSt Spec.swap Spec.swap (step p st n) := by
  have hsh : shrinks (Spec.swapParams p fs) n = shrinks p n := rfl
  have hn := next_swap p fs st.sup st.obj
  obtain ⟨o, ho⟩ : ∃ o, o = nextObj p st.sup st.obj := ⟨_, rfl⟩
  have e1 : norm2 p.c p.r (fun i j => Spec.swap o i j - Spec.swap st.obj i j) = norm2 p.r p.c (fun i j => o i j - st.obj i j) :=
    norm2_swap p.r p.c (fun i j => o i j - st.obj i j)
  have e2 : norm2 p.c p.r (Spec.swap st.obj) = norm2 p.r p.c st.obj := norm2_swap _ _ _
  have e3 : calDiffError p.c p.r (Spec.swap o) (Spec.swap p.d) = calDiffError p.r p.c o p.d := diffError_swap _ _ _ _
  have e4 : supSize p.c p.r (Spec.swap st.supOld) = supSize p.r p.c st.supOld := size_swap _ _ _
  have hsup : (if shrinks p n then fs (Spec.swap o) else Spec.swap st.sup) = Spec.swap (if shrinks p n then p.findSupport o else st.sup) := by
    by_cases h : shrinks p n = true
    · rw [if_pos h, if_pos h]
      apply hfs
      unfold shrinks at h
      simp only [Bool.and_eq_true] at h
      exact h.1.1.1
    · rw [if_neg h, if_neg h]
  have hold : (if shrinks p n then (if shrinks p n then fs (Spec.swap o) else Spec.swap st.sup) else Spec.swap st.supOld) =
      Spec.swap (if shrinks p n then (if shrinks p n then p.findSupport o else st.sup) else st.supOld) := by
    rw [hsup]
    split_ifs <;> rfl
  unfold step mapSt
  simp only [hsh]
  rw [hn, ← ho]
  simp only [Spec.swapParams]
  rw [e1, e2, e3, e4, hsup]
  rw [St.mk.injEq]
  have havg : ∀ (b : Bool) (a o : Arr), (if b = true then (fun i j => Spec.swap a i j + Spec.swap o i j) else Spec.swap a) =
      Spec.swap (if b = true then (fun i j => a i j + o i j) else a) := by
    intro b a o
    cases b <;> rfl
  refine ⟨rfl, rfl, by split_ifs <;> rfl, rfl, rfl, rfl, rfl, havg _ _ _, rfl⟩

theorem loop_swap (p : Params) (fs) (hfs : p.swFlag = true → ∀ x, fs (Spec.swap x) = Spec.swap (p.findSupport x)) (l : List ℕ) : ∀ st : St,
    l.foldl (step (Spec.swapParams p fs)) (mapSt Spec.swap Spec.swap st) = mapSt Spec.swap Spec.swap (l.foldl (step p) st) := by
  induction l with
  | nil => exact fun _ => rfl
  | cons n t ih =>
    intro st
    rw [List.foldl_cons, List.foldl_cons, step_swap p fs hfs, ih]

theorem run_swap (p : Params) (fs) (hfs : p.swFlag = true → ∀ x, fs (Spec.swap x) = Spec.swap (p.findSupport x)) (x : Arr) (sup : ℕ → ℕ → Bool) :
    run (Spec.swapParams p fs) (Spec.swap x) (Spec.swap sup) = Spec.mapResult Spec.swap (run p x sup) := by
  have h := loop_swap p fs hfs (List.range p.n) (initSt x sup)
  have e : mapSt Spec.swap Spec.swap (initSt x sup) = initSt (Spec.swap x) (Spec.swap sup) := rfl
  rw [e] at h
  have hn : (Spec.swapParams p fs).n = p.n := rfl
  unfold run Spec.mapResult
  simp only []
  rw [hn, h]
  rw [Result.mk.injEq]
  refine ⟨?_, rfl, rfl, rfl, rfl, rfl⟩
  exact avg_map Spec.swap Spec.swap (fun _ _ => rfl) _

theorem filter_swap (r c : ℕ) (sigma : ℝ) (x : ℕ → ℕ → ℝ) : gaussianFilter c r sigma (Spec.swap x) = Spec.swap (gaussianFilter r c sigma x) := by
  funext i j
  unfold gaussianFilter Spec.swap
  split_ifs
  · unfold filter1
    simp only [Finset.mul_sum]
    rw [Finset.sum_comm]
    refine Finset.sum_congr rfl fun a _ => Finset.sum_congr rfl fun b _ => ?_
    ring
  · rfl

theorem support_swap (r c : ℕ) (sigma t : ℝ) (x : Arr) (S S' : ℕ → ℕ → Bool) (h : findSupport r c sigma t x = .ok S)
    (h' : findSupport c r sigma t (Spec.swap x) = .ok S') : S' = Spec.swap S := by
  unfold findSupport at h h'
  have hf : gaussianFilter c r sigma (fun i j => ‖Spec.swap x i j‖) = Spec.swap (gaussianFilter r c sigma (fun i j => ‖x i j‖)) := filter_swap r c sigma _
  simp only [hf] at h'
  by_cases hne : (range r ×ˢ range c).Nonempty
  · have hne' : (range c ×ˢ range r).Nonempty := by
      obtain ⟨⟨a, b⟩, hab⟩ := hne
      rw [mem_product] at hab
      exact ⟨(b, a), mem_product.2 ⟨hab.2, hab.1⟩⟩
    rw [dif_pos hne] at h
    rw [dif_pos hne'] at h'
    rw [← Except.ok.inj h, ← Except.ok.inj h']
    have hsup : (range c ×ˢ range r).sup' hne' (fun q => Spec.swap (gaussianFilter r c sigma (fun i j => ‖x i j‖)) q.1 q.2) =
        (range r ×ˢ range c).sup' hne (fun q => gaussianFilter r c sigma (fun i j => ‖x i j‖) q.1 q.2) := by
      apply le_antisymm
      · apply Finset.sup'_le
        rintro ⟨a, b⟩ hab
        rw [mem_product] at hab
        exact Finset.le_sup' (fun q : ℕ × ℕ => gaussianFilter r c sigma (fun i j => ‖x i j‖) q.1 q.2) (show (b, a) ∈ _ from mem_product.2 ⟨hab.2, hab.1⟩)
      · apply Finset.sup'_le
        rintro ⟨a, b⟩ hab
        rw [mem_product] at hab
        exact Finset.le_sup' (fun q : ℕ × ℕ => Spec.swap (gaussianFilter r c sigma (fun i j => ‖x i j‖)) q.1 q.2) (show (b, a) ∈ _ from mem_product.2 ⟨hab.2, hab.1⟩)
    rw [hsup]
    rfl
  · rw [dif_neg hne] at h
    exact absurd h (by simp)

/-- C248, axes: exchanging the axes of pattern, start and support exchanges the axes of the reconstruction (also those of the array the caller passed as
start); all recorded errors are the same.  Both flags, with or without shrink-wrap. -/
theorem C248_axes (p : Params) (flag : String) (hflag : flag.toLower = "complex" ∨ flag.toLower = "real") (sigma t : ℝ) (fs : Arr → ℕ → ℕ → Bool)
    (hp : p.swFlag = true → ∀ x, findSupport p.r p.c sigma t x = .ok (p.findSupport x))
    (hp' : p.swFlag = true → ∀ x, findSupport p.c p.r sigma t x = .ok (fs x)) (x : Arr) (sup : ℕ → ℕ → Bool) :
    ∃ R, cdiRecon p flag x sup = .ok R ∧ cdiRecon (Spec.swapParams p fs) flag (Spec.swap x) (Spec.swap sup) = .ok (Spec.mapResult Spec.swap R) := by
  have hfs : p.swFlag = true → ∀ x, fs (Spec.swap x) = Spec.swap (p.findSupport x) := fun hw x => support_swap p.r p.c sigma t x _ _ (hp hw x) (hp' hw _)
  have key : ∀ b : Bool, run { Spec.swapParams p fs with real := b } (Spec.swap x) (Spec.swap sup) = Spec.mapResult Spec.swap (run { p with real := b } x sup) :=
    fun b => run_swap { p with real := b } fs hfs x sup
  unfold cdiRecon
  rcases hflag with h | h
  · simp only [h, if_neg (show ¬ ("complex" : String) = "real" by decide), if_true]
    exact ⟨_, rfl, congrArg Except.ok (key false)⟩
  · simp only [h, if_true]
    exact ⟨_, rfl, congrArg Except.ok (key true)⟩

/-! ### Units -/

theorem fft2_times (r c : ℕ) (k : ℝ) (x : Arr) (a b : ℕ) : Dft.fft2 r c (Spec.times k x) a b = k * Dft.fft2 r c x a b := by
  unfold Dft.fft2 Dft.fft Spec.times
  simp only [Finset.sum_mul, Finset.mul_sum]
  refine Finset.sum_congr rfl fun i _ => Finset.sum_congr rfl fun j _ => ?_
  ring

theorem ifft2_times (r c : ℕ) (k : ℝ) (x : Arr) (a b : ℕ) : Dft.ifft2 r c (Spec.times k x) a b = k * Dft.ifft2 r c x a b := by
  unfold Dft.ifft2 Dft.ifft Spec.times
  simp only [Finset.sum_mul, Finset.mul_sum, Finset.sum_div]
  refine Finset.sum_congr rfl fun i _ => Finset.sum_congr rfl fun j _ => ?_
  ring

theorem modulus_times (r c : ℕ) (o k : ℝ) (hk : 0 < k) (d : ℕ → ℕ → ℝ) (x : Arr) :
    piModulus r c (k * o) (fun i j => k * d i j) (Spec.times k x) = Spec.times k (piModulus r c o d x) := by
  funext i j
  have hk' : (k : ℂ) ≠ 0 := by exact_mod_cast hk.ne'
  unfold piModulus
  simp only [fft2_times, mul_pos_iff_of_pos_left hk]
  have e : (fun a b => if 0 < d a b then
        ((k * d a b : ℝ) : ℂ) * ((k : ℂ) * Dft.fft2 r c x a b / (√((r * c : ℕ) : ℝ) : ℂ)) / ((‖(k : ℂ) * Dft.fft2 r c x a b / (√((r * c : ℕ) : ℝ) : ℂ)‖ : ℝ) + k * o : ℝ)
      else (k : ℂ) * Dft.fft2 r c x a b / (√((r * c : ℕ) : ℝ) : ℂ)) =
      Spec.times k (fun a b => if 0 < d a b then
        (d a b : ℂ) * (Dft.fft2 r c x a b / (√((r * c : ℕ) : ℝ) : ℂ)) / ((‖Dft.fft2 r c x a b / (√((r * c : ℕ) : ℝ) : ℂ)‖ : ℝ) + o : ℝ)
      else Dft.fft2 r c x a b / (√((r * c : ℕ) : ℝ) : ℂ)) := by
    funext a b
    unfold Spec.times
    by_cases hd : 0 < d a b
    · simp only [if_pos hd]
      rw [mul_div_assoc (k : ℂ), norm_mul, Complex.norm_real, Real.norm_eq_abs, abs_of_pos hk, ← mul_add]
      push_cast
      rw [show (k : ℂ) * d a b * (k * (Dft.fft2 r c x a b / √((r : ℝ) * c))) = k * (k * (d a b * (Dft.fft2 r c x a b / √((r : ℝ) * c)))) by ring]
      rw [mul_div_mul_left _ _ hk', mul_div_assoc]
    · simp only [if_neg hd]
      rw [mul_div_assoc]
  rw [e, ifft2_times]
  unfold Spec.times
  ring

theorem norm2_times (r c : ℕ) (k : ℝ) (hk : 0 < k) (x : Arr) : norm2 r c (Spec.times k x) = k * norm2 r c x := by
  unfold norm2 Spec.times
  simp only [norm_mul, Complex.norm_real, Real.norm_eq_abs, abs_of_pos hk, mul_pow, ← Finset.mul_sum]
  rw [Real.sqrt_mul (sq_nonneg k), Real.sqrt_sq hk.le]

theorem relative_times (k a b : ℝ) (hk : 0 < k) : relative (k * a) (k * b) = relative a b := by
  unfold relative
  simp only [mul_eq_zero, hk.ne', false_or, mul_div_mul_left a b hk.ne']

theorem diffError_times (r c : ℕ) (k : ℝ) (hk : 0 < k) (x : Arr) (d : ℕ → ℕ → ℝ) :
    calDiffError r c (Spec.times k x) (fun i j => k * d i j) = calDiffError r c x d := by
  unfold calDiffError
  refine Eq.trans ?_ (relative_times k _ _ hk)
  rw [← norm2_times r c k hk, ← norm2_times r c k hk]
  simp only [fft2_times]
  congr 2
  · funext a b
    unfold Spec.times
    simp only [norm_mul, Complex.norm_real, Real.norm_eq_abs, abs_of_pos hk]
    push_cast
    ring
  · funext a b
    unfold Spec.times
    push_cast
    ring

theorem project_times (p : Params) (k : ℝ) (hk : 0 < k) (x : Arr) : project (Spec.scaleParams k p) (Spec.times k x) = Spec.times k (project p x) := by
  unfold project Spec.scaleParams
  simp only
  rw [modulus_times _ _ _ _ hk]
  cases p.real
  · rfl
  · funext i j
    simp only [if_true]
    unfold Spec.times
    rw [norm_mul, Complex.norm_real, Real.norm_eq_abs, abs_of_pos hk]
    push_cast
    ring

theorem next_times (p : Params) (k : ℝ) (hk : 0 < k) (sup : ℕ → ℕ → Bool) (x : Arr) :
    nextObj (Spec.scaleParams k p) sup (Spec.times k x) = Spec.times k (nextObj p sup x) := by
  have h1 := project_times p k hk x
  have h2 := project_times p k hk (fun i j => (1 + (-1 / (p.beta : ℂ))) * restrict sup x i j - (-1 / (p.beta : ℂ)) * x i j)
  unfold nextObj
  have hb : (Spec.scaleParams k p).beta = p.beta := rfl
  have hr : ∀ (y : Arr) i j, restrict sup (fun i j => (k : ℂ) * y i j) i j = k * restrict sup y i j := by
    intro y i j
    unfold restrict
    split_ifs <;> simp
  have e : (fun i j => (1 + (-1 / (p.beta : ℂ))) * restrict sup (Spec.times k x) i j - (-1 / (p.beta : ℂ)) * Spec.times k x i j) =
      Spec.times k (fun i j => (1 + (-1 / (p.beta : ℂ))) * restrict sup x i j - (-1 / (p.beta : ℂ)) * x i j) := by
    funext i j
    have := hr x i j
    unfold Spec.times
    rw [this]
    ring
  simp only [hb, h1, e, h2]
  funext i j
  have e2 : restrict sup (fun i j => (1 + (1 / (p.beta : ℂ))) * Spec.times k (project p x) i j - (1 / (p.beta : ℂ)) * Spec.times k x i j) i j =
      k * restrict sup (fun i j => (1 + (1 / (p.beta : ℂ))) * project p x i j - (1 / (p.beta : ℂ)) * x i j) i j := by
    rw [← hr]
    unfold Spec.times restrict
    split_ifs
    · ring
    · rfl
  rw [e2]
  unfold Spec.times
  ring

theorem step_times (p : Params) (k : ℝ) (hk : 0 < k) (hfs : p.swFlag = true → ∀ x, p.findSupport (Spec.times k x) = p.findSupport x) (st : St) (n : ℕ) :
    step (Spec.scaleParams k p) (mapSt (Spec.times k) id st) n = mapSt (Spec.times k) id (step p st n) := by
  have hsh : shrinks (Spec.scaleParams k p) n = shrinks p n := rfl
  have hn := next_times p k hk st.sup st.obj
  obtain ⟨o, ho⟩ : ∃ o, o = nextObj p st.sup st.obj := ⟨_, rfl⟩
  have e1 : norm2 p.r p.c (fun i j => Spec.times k o i j - Spec.times k st.obj i j) = k * norm2 p.r p.c (fun i j => o i j - st.obj i j) := by
    rw [← norm2_times p.r p.c k hk]
    congr 1
    funext i j
    unfold Spec.times
    ring
  have e2 : norm2 p.r p.c (Spec.times k st.obj) = k * norm2 p.r p.c st.obj := norm2_times _ _ _ hk _
  have e3 : calDiffError p.r p.c (Spec.times k o) (fun i j => k * p.d i j) = calDiffError p.r p.c o p.d := diffError_times _ _ _ hk _ _
  have hsup : (if shrinks p n then p.findSupport (Spec.times k o) else st.sup) = (if shrinks p n then p.findSupport o else st.sup) := by
    by_cases h : shrinks p n = true
    · rw [if_pos h, if_pos h]
      apply hfs
      unfold shrinks at h
      simp only [Bool.and_eq_true] at h
      exact h.1.1.1
    · rw [if_neg h, if_neg h]
  unfold step mapSt
  simp only [hsh, id]
  rw [hn, ← ho]
  simp only [Spec.scaleParams]
  rw [e1, e2, e3, hsup, relative_times k _ _ hk]
  rw [St.mk.injEq]
  have havg : ∀ (b : Bool) (a o : Arr), (if b = true then (fun i j => Spec.times k a i j + Spec.times k o i j) else Spec.times k a) =
      Spec.times k (if b = true then (fun i j => a i j + o i j) else a) := by
    intro b a o
    cases b
    · rfl
    · funext i j
      exact (mul_add (k : ℂ) (a i j) (o i j)).symm
  exact ⟨rfl, rfl, rfl, rfl, rfl, rfl, rfl, havg _ _ _, rfl⟩

theorem loop_times (p : Params) (k : ℝ) (hk : 0 < k) (hfs : p.swFlag = true → ∀ x, p.findSupport (Spec.times k x) = p.findSupport x) (l : List ℕ) : ∀ st : St,
    l.foldl (step (Spec.scaleParams k p)) (mapSt (Spec.times k) id st) = mapSt (Spec.times k) id (l.foldl (step p) st) := by
  induction l with
  | nil => exact fun _ => rfl
  | cons n t ih =>
    intro st
    rw [List.foldl_cons, List.foldl_cons, step_times p k hk hfs, ih]

theorem run_times (p : Params) (k : ℝ) (hk : 0 < k) (hfs : p.swFlag = true → ∀ x, p.findSupport (Spec.times k x) = p.findSupport x) (x : Arr) (sup : ℕ → ℕ → Bool) :
    run (Spec.scaleParams k p) (Spec.times k x) sup = Spec.mapResult (Spec.times k) (run p x sup) := by
  have h := loop_times p k hk hfs (List.range p.n) (initSt x sup)
  have e : mapSt (Spec.times k) id (initSt x sup) = initSt (Spec.times k x) sup := by
    unfold mapSt initSt Spec.times
    simp
  rw [e] at h
  have hn : (Spec.scaleParams k p).n = p.n := rfl
  unfold run Spec.mapResult
  simp only []
  rw [hn, h]
  rw [Result.mk.injEq]
  refine ⟨?_, rfl, rfl, rfl, rfl, rfl⟩
  exact avg_map (Spec.times k) id (fun x m => by funext i j; unfold Spec.times; ring) _

theorem filter_times (r c : ℕ) (sigma k : ℝ) (x : ℕ → ℕ → ℝ) (i j : ℕ) :
    gaussianFilter r c sigma (fun i j => k * x i j) i j = k * gaussianFilter r c sigma x i j := by
  unfold gaussianFilter
  split_ifs
  · unfold filter1
    simp only [Finset.mul_sum]
    refine Finset.sum_congr rfl fun a _ => Finset.sum_congr rfl fun b _ => ?_
    ring
  · rfl

theorem support_times (r c : ℕ) (sigma t k : ℝ) (hk : 0 < k) (x : Arr) (S S' : ℕ → ℕ → Bool) (h : findSupport r c sigma t x = .ok S)
    (h' : findSupport r c sigma t (Spec.times k x) = .ok S') : S' = S := by
  unfold findSupport at h h'
  have hf : gaussianFilter r c sigma (fun i j => ‖Spec.times k x i j‖) = fun i j => k * gaussianFilter r c sigma (fun i j => ‖x i j‖) i j := by
    funext i j
    rw [← filter_times]
    congr 1
    funext i j
    unfold Spec.times
    rw [norm_mul, Complex.norm_real, Real.norm_eq_abs, abs_of_pos hk]
  simp only [hf] at h'
  by_cases hne : (range r ×ˢ range c).Nonempty
  · rw [dif_pos hne] at h h'
    rw [← Except.ok.inj h, ← Except.ok.inj h']
    have hsup : (range r ×ˢ range c).sup' hne (fun q => k * gaussianFilter r c sigma (fun i j => ‖x i j‖) q.1 q.2) =
        k * (range r ×ˢ range c).sup' hne (fun q => gaussianFilter r c sigma (fun i j => ‖x i j‖) q.1 q.2) :=
      (Finset.mul₀_sup' hk.le _ _ hne).symm
    rw [hsup]
    funext i j
    rw [mul_left_comm]
    simp only [mul_le_mul_iff_right₀ hk]
  · rw [dif_neg hne] at h
    exact absurd h (by simp)

/-- C248, units, part that holds: a pattern and a start in another unit (amplitudes k times as large), with the offset of `pi_modulus` in that unit too, give
the reconstruction in that unit; all recorded errors and supports are the same.  Both flags, with or without shrink-wrap.
Missing: `cdi_recon` keeps the offset at 1e-12, `C248_units_refuted`. -/
theorem C248_units_partial (p : Params) (flag : String) (hflag : flag.toLower = "complex" ∨ flag.toLower = "real") (sigma t : ℝ)
    (hp : p.swFlag = true → ∀ x, findSupport p.r p.c sigma t x = .ok (p.findSupport x)) (k : ℝ) (hk : 0 < k) (x : Arr) (sup : ℕ → ℕ → Bool) :
    ∃ R, cdiRecon p flag x sup = .ok R ∧ cdiRecon (Spec.scaleParams k p) flag (Spec.times k x) sup = .ok (Spec.mapResult (Spec.times k) R) := by
  have hfs : p.swFlag = true → ∀ x, p.findSupport (Spec.times k x) = p.findSupport x := fun hw x => support_times p.r p.c sigma t k hk x _ _ (hp hw x) (hp hw _)
  have key : ∀ b : Bool, run { Spec.scaleParams k p with real := b } (Spec.times k x) sup = Spec.mapResult (Spec.times k) (run { p with real := b } x sup) :=
    fun b => run_times { p with real := b } k hk hfs x sup
  unfold cdiRecon
  rcases hflag with h | h
  · simp only [h, if_neg (show ¬ ("complex" : String) = "real" by decide), if_true]
    exact ⟨_, rfl, congrArg Except.ok (key false)⟩
  · simp only [h, if_true]
    exact ⟨_, rfl, congrArg Except.ok (key true)⟩

theorem modulus_one (o d : ℝ) (hd : 0 < d) (x : ℝ) (hx : 0 ≤ x) : piModulus 1 1 o (fun _ _ => d) (fun _ _ => (x : ℂ)) 0 0 = ((d * x / (x + o) : ℝ) : ℂ) := by
  have hw : Dft.w 1 0 = 1 := Dft.w_zero 1
  unfold piModulus Dft.ifft2 Dft.ifft Dft.fft2 Dft.fft
  simp [hd, hw, abs_of_nonneg hx]

/-- C248, units, refuted in full: with a fixed positive offset, as the 1e-12 of the code, already one application of `pi_modulus` to a single pixel in another
unit is not the result in that unit. -/
theorem C248_units_refuted (o : ℝ) (ho : 0 < o) (k d x : ℝ) (hk : 0 < k) (hk1 : k ≠ 1) (hd : 0 < d) (hx : 0 < x) :
    piModulus 1 1 o (fun _ _ => k * d) (Spec.times k (fun _ _ => (x : ℂ))) 0 0 ≠ Spec.times k (piModulus 1 1 o (fun _ _ => d) (fun _ _ => (x : ℂ))) 0 0 := by
  have e : Spec.times k (fun _ _ => (x : ℂ)) = fun _ _ => ((k * x : ℝ) : ℂ) := by
    funext i j
    simp [Spec.times]
  rw [e, modulus_one o (k * d) (by positivity) (k * x) (by positivity)]
  unfold Spec.times
  rw [modulus_one o d hd x hx.le, ← Complex.ofReal_mul]
  intro h
  have h := Complex.ofReal_injective h
  have h1 : 0 < k * x + o := by positivity
  have h2 : 0 < x + o := by positivity
  rw [← mul_div_assoc, div_eq_div_iff h1.ne' h2.ne'] at h
  have : k * d * x * o * (k - 1) = 0 := by linear_combination h
  have hpos : 0 < k * d * x * o := by positivity
  rcases mul_eq_zero.1 this with h | h
  · exact hpos.ne' h
  · exact hk1 (by linarith)

/-! ### The hypotheses are met -/

/-- Parameters with shrink-wrap and a non-square pattern. -/
noncomputable def demo : Params where
  r := 2
  c := 3
  d := fun i j => i + 2 * j
  offset := 1e-12
  beta := 1.15
  real := false
  startAvg := 8 / 10
  swFlag := true
  findSupport := fun x => match findSupport 2 3 (1 / 2) (1 / 10) x with | .ok S => S | .error _ => fun _ _ => false
  swStart := 2 / 10
  swEnd := 8 / 10
  swStep := 2
  n := 10
  cb := false
  cbStep := 10

theorem demo_ok (r c : ℕ) (hr : 0 < r) (hc : 0 < c) (s t : ℝ) (x : Arr) : findSupport r c s t x = .ok (match findSupport r c s t x with | .ok S => S | .error _ => fun _ _ => false) := by
  unfold findSupport
  rw [dif_pos ⟨(0, 0), by simp [hr, hc]⟩]

example (x : Arr) (sup : ℕ → ℕ → Bool) :=
  C248_axes demo "Complex" (Or.inl (by decide +kernel)) (1 / 2) (1 / 10) _ (fun _ x => demo_ok 2 3 (by norm_num) (by norm_num) _ _ x) (fun _ x => demo_ok 3 2 (by norm_num) (by norm_num) _ _ x) x sup
example (x : Arr) (sup : ℕ → ℕ → Bool) :=
  C248_units_partial demo "Complex" (Or.inl (by decide +kernel)) (1 / 2) (1 / 10) (fun _ x => demo_ok 2 3 (by norm_num) (by norm_num) _ _ x) 1000 (by norm_num) x sup

example := C248_units_refuted (1 / 10 ^ 12) (by norm_num) 1000 1 1 (by norm_num) (by norm_num) one_pos one_pos

end Verif.Cdi.Units
