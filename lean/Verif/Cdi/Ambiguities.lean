/- C238: reconstructions that start from equivalent objects. -/
import Verif.Cdi.SupportProps
import Verif.Cdi.Nearest
import Mathlib.Analysis.Complex.ExponentialBounds

namespace Verif.Cdi
open Finset Verif

/-! ## specification side -/

/-- The first object is the second one multiplied by `z`. -/
def Spec.Phase (r c : ℕ) (z : ℂ) (x' x : Arr) : Prop := ∀ i < r, ∀ j < c, x' i j = z * x i j

/-- The first array is the second one moved by (u, v) around the array (`np.roll` by (-u, -v)). -/
def Spec.Rolled {α : Type} (r c u v : ℕ) (x' x : ℕ → ℕ → α) : Prop :=
  ∀ i < r, ∀ j < c, x' i j = x ((i + u) % r) ((j + v) % c)

/-- The first array is the second one turned by 180 degrees (`x[::-1, ::-1]`). -/
def Spec.Turned {α : Type} (r c : ℕ) (x' x : ℕ → ℕ → α) : Prop := ∀ i < r, ∀ j < c, x' i j = x (r - 1 - i) (c - 1 - j)

/-- The twin image: turned by 180 degrees and complex conjugate. -/
def Spec.Twin (r c : ℕ) (x' x : Arr) : Prop := ∀ i < r, ∀ j < c, x' i j = (starRingEnd ℂ) (x (r - 1 - i) (c - 1 - j))

/-- Two results with the same error lists and callbacks whose objects (average and last iterate) are related. -/
def Spec.Equivalent (rel : Arr → Arr → Prop) (R' R : Result) : Prop :=
  R'.supErr = R.supErr ∧ R'.objErr = R.objErr ∧ R'.diffErr = R.diffErr ∧ R'.calls = R.calls ∧ rel R'.caller R.caller ∧
  (R'.avg = none ↔ R.avg = none) ∧ ∀ a' a, R'.avg = some a' → R.avg = some a → rel a' a

/-! ## sums over permuted axes, Fourier transforms of moved and turned sequences -/

/-- `f` permutes the positions of an axis of length n. -/
structure PermOn (n : ℕ) (f : ℕ → ℕ) : Prop where
  lt : ∀ i < n, f i < n
  inj : ∀ i < n, ∀ j < n, f i = f j → i = j
  surj : ∀ i < n, ∃ j < n, f j = i

theorem PermOn.sum {n : ℕ} {f : ℕ → ℕ} (h : PermOn n f) {M : Type} [AddCommMonoid M] (F : ℕ → M) :
    ∑ i ∈ range n, F (f i) = ∑ i ∈ range n, F i := by
  refine Finset.sum_nbij f ?_ ?_ ?_ ?_
  · intro i hi; rw [mem_range] at hi ⊢; exact h.lt i hi
  · intro i hi j hj e
    rw [mem_coe, mem_range] at hi hj
    exact h.inj i hi j hj e
  · intro i hi
    rw [mem_coe, mem_range] at hi
    obtain ⟨j, hj, e⟩ := h.surj i hi
    exact ⟨j, by rw [mem_coe, mem_range]; exact hj, e⟩
  · intro i _; rfl

theorem perm_id (n : ℕ) : PermOn n (fun i => i) := ⟨fun _ h => h, fun _ _ _ _ h => h, fun i h => ⟨i, h, rfl⟩⟩

theorem perm_roll (n u : ℕ) (hn : 0 < n) : PermOn n (fun i => (i + u) % n) := by
  refine ⟨fun i _ => Nat.mod_lt _ hn, ?_, ?_⟩
  · intro i hi j hj e
    have h : (i + u) ≡ (j + u) [MOD n] := e
    have h2 : i ≡ j [MOD n] := Nat.ModEq.add_right_cancel' u h
    exact Nat.ModEq.eq_of_lt_of_lt h2 hi hj
  · intro i hi
    refine ⟨(i + (n - u % n)) % n, Nat.mod_lt _ hn, ?_⟩
    have hu := Nat.mod_lt u hn
    rw [Nat.mod_add_mod, Nat.add_assoc, Nat.add_mod]
    have : (n - u % n + u) % n = 0 := by
      rw [← Nat.add_mod_mod, Nat.sub_add_cancel hu.le, Nat.mod_self]
    rw [this, Nat.add_zero, Nat.mod_mod, Nat.mod_eq_of_lt hi]

theorem perm_turn (n : ℕ) : PermOn n (fun i => n - 1 - i) := by
  refine ⟨fun i h => by omega, fun i hi j hj e => by omega, fun i hi => ⟨n - 1 - i, by omega, by omega⟩⟩

theorem fft_roll (n u : ℕ) (hn : 0 < n) (a : ℕ → ℂ) (k : ℕ) :
    Dft.fft n (fun m => a ((m + u) % n)) k = Dft.w n (u * k : ℤ) * Dft.fft n a k := by
  unfold Dft.fft
  rw [← (perm_roll n u hn).sum (fun m => a m * Dft.w n (-(m * k : ℤ))), mul_sum]
  apply sum_congr rfl
  intro m _
  rw [mul_left_comm, ← Dft.w_add]
  congr 1
  apply Dft.w_congr n hn
  refine ⟨-(((m + u) / n : ℕ) * k : ℤ), ?_⟩
  have h : ((n * ((m + u) / n) + (m + u) % n : ℕ) : ℤ) = (m + u : ℕ) := by exact_mod_cast Nat.div_add_mod (m + u) n
  push_cast at h ⊢
  linear_combination (k : ℤ) * h

theorem ifft_roll (n u : ℕ) (hn : 0 < n) (a : ℕ → ℂ) (i : ℕ) :
    Dft.ifft n (fun k => Dft.w n (u * k : ℤ) * a k) i = Dft.ifft n a ((i + u) % n) := by
  unfold Dft.ifft
  congr 1
  apply sum_congr rfl
  intro k _
  rw [mul_right_comm, mul_comm, ← Dft.w_add]
  congr 1
  apply Dft.w_congr n hn
  refine ⟨(((i + u) / n : ℕ) * k : ℤ), ?_⟩
  have h : ((n * ((i + u) / n) + (i + u) % n : ℕ) : ℤ) = (i + u : ℕ) := by exact_mod_cast Nat.div_add_mod (i + u) n
  push_cast at h ⊢
  linear_combination (-(k : ℤ)) * h

theorem fft_turn (n : ℕ) (hn : 0 < n) (a : ℕ → ℂ) (k : ℕ) :
    Dft.fft n (fun m => (starRingEnd ℂ) (a (n - 1 - m))) k = Dft.w n (k : ℤ) * (starRingEnd ℂ) (Dft.fft n a k) := by
  unfold Dft.fft
  rw [← (perm_turn n).sum (fun m => a m * Dft.w n (-(m * k : ℤ))), map_sum, mul_sum]
  apply sum_congr rfl
  intro m hm
  rw [mem_range] at hm
  rw [map_mul, conj_w, mul_left_comm, ← Dft.w_add]
  congr 1
  apply Dft.w_congr n hn
  refine ⟨-(k : ℤ), ?_⟩
  have h : ((n - 1 - m : ℕ) : ℤ) = n - 1 - m := by omega
  rw [h]
  ring

theorem ifft_turn (n : ℕ) (a : ℕ → ℂ) (i : ℕ) (hi : i < n) :
    Dft.ifft n (fun k => Dft.w n (k : ℤ) * (starRingEnd ℂ) (a k)) i = (starRingEnd ℂ) (Dft.ifft n a (n - 1 - i)) := by
  unfold Dft.ifft
  rw [map_div₀, map_sum, Complex.conj_natCast]
  congr 1
  apply sum_congr rfl
  intro k _
  rw [map_mul, conj_w, mul_right_comm, mul_comm, ← Dft.w_add]
  congr 1
  apply Dft.w_congr n (by omega)
  refine ⟨(k : ℤ), ?_⟩
  have h : ((n - 1 - i : ℕ) : ℤ) = n - 1 - i := by omega
  rw [h]
  ring

theorem fft_mul (n : ℕ) (z : ℂ) (a : ℕ → ℂ) (k : ℕ) : Dft.fft n (fun m => z * a m) k = z * Dft.fft n a k := by
  unfold Dft.fft
  rw [mul_sum]
  exact sum_congr rfl fun m _ => by ring

theorem ifft_mul (n : ℕ) (z : ℂ) (a : ℕ → ℂ) (k : ℕ) : Dft.ifft n (fun m => z * a m) k = z * Dft.ifft n a k := by
  unfold Dft.ifft
  rw [mul_div_assoc', mul_sum]
  congr 1
  exact sum_congr rfl fun m _ => by ring

/-! ## a symmetry of the reconstruction -/

/-- A map of objects: rows and columns are permuted, values are mapped by a real-linear isometry, and Fourier coefficients
are mapped one by one by real-linear isometries. -/
structure Symm (r c : ℕ) where
  φ : ℂ → ℂ
  f : ℕ → ℕ
  g : ℕ → ℕ
  ψ : ℕ → ℕ → ℂ → ℂ
  hf : PermOn r f
  hg : PermOn c g
  φ_add : ∀ a b, φ (a + b) = φ a + φ b
  φ_mul : ∀ (s : ℝ) a, φ (s * a) = s * φ a
  φ_norm : ∀ a, ‖φ a‖ = ‖a‖
  ψ_mul : ∀ k l (s : ℝ) a, ψ k l (s * a) = s * ψ k l a
  ψ_norm : ∀ k l a, ‖ψ k l a‖ = ‖a‖
  four : ∀ x k l, Dft.fft2 r c (fun i j => φ (x (f i) (g j))) k l = ψ k l (Dft.fft2 r c x k l)
  back : ∀ y i j, i < r → j < c → Dft.ifft2 r c (fun k l => ψ k l (y k l)) i j = φ (Dft.ifft2 r c y (f i) (g j))

namespace Symm
variable {r c : ℕ} (S : Symm r c)

/-- The objects correspond. -/
def Rel (x' x : Arr) : Prop := ∀ i < r, ∀ j < c, x' i j = S.φ (x (S.f i) (S.g j))

/-- The supports correspond. -/
def RelS (s' s : ℕ → ℕ → Bool) : Prop := ∀ i < r, ∀ j < c, s' i j = s (S.f i) (S.g j)

theorem φ_zero : S.φ 0 = 0 := by have := S.φ_mul 0 0; simpa using this

theorem φ_sub (a b : ℂ) : S.φ (a - b) = S.φ a - S.φ b := by
  have h := S.φ_mul (-1) b
  rw [sub_eq_add_neg, S.φ_add]
  have e : ((-1 : ℝ) : ℂ) * b = -b := by push_cast; ring
  rw [e] at h
  rw [h]
  push_cast
  ring

theorem fft_rel {x' x : Arr} (h : S.Rel x' x) (k l : ℕ) : Dft.fft2 r c x' k l = S.ψ k l (Dft.fft2 r c x k l) := by
  rw [← S.four, fft2_congr r c x' _ h]

theorem mod_rel (offset : ℝ) (d : ℕ → ℕ → ℝ) {x' x : Arr} (h : S.Rel x' x) :
    S.Rel (piModulus r c offset d x') (piModulus r c offset d x) := by
  intro i hi j hj
  unfold piModulus
  simp only []
  rw [mul_comm _ ((√((r * c : ℕ) : ℝ) : ℝ) : ℂ), mul_comm _ ((√((r * c : ℕ) : ℝ) : ℝ) : ℂ), S.φ_mul, ← S.back _ i j hi hj]
  congr 1
  apply ifft2_congr
  intro k _ l _
  have e : Dft.fft2 r c x' k l / (√((r * c : ℕ) : ℝ) : ℝ) = S.ψ k l (Dft.fft2 r c x k l / (√((r * c : ℕ) : ℝ) : ℝ)) := by
    rw [S.fft_rel h, div_eq_inv_mul, div_eq_inv_mul, ← Complex.ofReal_inv, S.ψ_mul]
  simp only [e, S.ψ_norm]
  split
  · generalize Dft.fft2 r c x k l / (√((r * c : ℕ) : ℝ) : ℝ) = t
    rw [show (d k l : ℂ) * S.ψ k l t / ((‖t‖ + offset : ℝ) : ℂ) = ((d k l / (‖t‖ + offset) : ℝ) : ℂ) * S.ψ k l t by
      push_cast; ring, ← S.ψ_mul]
    congr 1
    push_cast
    ring
  · rfl

theorem restrict_rel {s' s : ℕ → ℕ → Bool} {x' x : Arr} (hs : S.RelS s' s) (h : S.Rel x' x) :
    S.Rel (restrict s' x') (restrict s x) := by
  intro i hi j hj
  unfold restrict
  rw [hs i hi j hj, h i hi j hj]
  split
  · rfl
  · rw [S.φ_zero]

theorem project_rel (p : Params) (hr : p.r = r) (hc : p.c = c) (hreal : p.real = true → ∀ t : ℝ, S.φ t = t) {x' x : Arr}
    (h : S.Rel x' x) : S.Rel (project p x') (project p x) := by
  have hm := S.mod_rel p.offset p.d h
  unfold project
  rw [hr, hc]
  split
  · rename_i hre
    intro i hi j hj
    simp only
    rw [hm i hi j hj, S.φ_norm, hreal hre]
  · exact hm

theorem next_rel (p : Params) (hr : p.r = r) (hc : p.c = c) (hreal : p.real = true → ∀ t : ℝ, S.φ t = t)
    {s' s : ℕ → ℕ → Bool} (hs : S.RelS s' s) {x' x : Arr} (h : S.Rel x' x) : S.Rel (nextObj p s' x') (nextObj p s x) := by
  have e1 : ∀ z : ℂ, (-1 / (p.beta : ℂ)) = ((-1 / p.beta : ℝ) : ℂ) := fun _ => by push_cast; rfl
  have e2 : ∀ z : ℂ, (1 / (p.beta : ℂ)) = ((1 / p.beta : ℝ) : ℂ) := fun _ => by push_cast; rfl
  have hp := S.project_rel p hr hc hreal h
  have lin : ∀ (γ : ℝ) (y' y : Arr), S.Rel y' y → ∀ (q' q : Arr), S.Rel q' q →
      S.Rel (fun i j => (1 + (γ : ℂ)) * y' i j - γ * q' i j) (fun i j => (1 + (γ : ℂ)) * y i j - γ * q i j) := by
    intro γ y' y hy q' q hq i hi j hj
    simp only
    rw [hy i hi j hj, hq i hi j hj, S.φ_sub, S.φ_mul, show (1 + (γ : ℂ)) = ((1 + γ : ℝ) : ℂ) by push_cast; rfl, S.φ_mul]
  have ha := S.restrict_rel hs (lin (1 / p.beta) _ _ hp _ _ h)
  have hb := S.project_rel p hr hc hreal (lin (-1 / p.beta) _ _ (S.restrict_rel hs h) _ _ h)
  intro i hi j hj
  unfold nextObj
  simp only [e1 0, e2 0]
  rw [S.φ_add, S.φ_mul, S.φ_sub, ← h i hi j hj, ← ha i hi j hj, ← hb i hi j hj]

theorem norm_rel {x' x : Arr} (h : S.Rel x' x) : norm2 r c x' = norm2 r c x := by
  unfold norm2
  congr 1
  rw [← S.hf.sum (fun i => ∑ j ∈ range c, ‖x i j‖ ^ 2)]
  apply sum_congr rfl
  intro i hi
  rw [← S.hg.sum (fun j => ‖x (S.f i) j‖ ^ 2)]
  apply sum_congr rfl
  intro j hj
  rw [h i (mem_range.1 hi) j (mem_range.1 hj), S.φ_norm]

theorem diff_rel (d : ℕ → ℕ → ℝ) {x' x : Arr} (h : S.Rel x' x) : calDiffError r c x' d = calDiffError r c x d := by
  unfold calDiffError
  simp only [S.fft_rel h, S.ψ_norm]

theorem size_rel {s' s : ℕ → ℕ → Bool} (h : S.RelS s' s) : supSize r c s' = supSize r c s := by
  unfold supSize
  rw [← S.hf.sum (fun i => ∑ j ∈ range c, if s i j then 1 else 0)]
  apply sum_congr rfl
  intro i hi
  rw [← S.hg.sum (fun j => if s (S.f i) j then 1 else 0)]
  apply sum_congr rfl
  intro j hj
  rw [h i (mem_range.1 hi) j (mem_range.1 hj)]

/-- The states of two reconstructions correspond. -/
structure RelSt (st' st : St) : Prop where
  obj : S.Rel st'.obj st.obj
  sup : S.RelS st'.sup st.sup
  supOld : S.RelS st'.supOld st.supOld
  supErr : st'.supErr = st.supErr
  objErr : st'.objErr = st.objErr
  diffErr : st'.diffErr = st.diffErr
  calls : st'.calls = st.calls
  avg : S.Rel st'.avg st.avg
  avgN : st'.avgN = st.avgN

theorem step_rel (p : Params) (hr : p.r = r) (hc : p.c = c) (hreal : p.real = true → ∀ t : ℝ, S.φ t = t)
    (hsw : p.swFlag = true → ∀ x' x, S.Rel x' x → S.RelS (p.findSupport x') (p.findSupport x)) {st' st : St}
    (h : S.RelSt st' st) (n : ℕ) : S.RelSt (step p st' n) (step p st n) := by
  have ho := S.next_rel p hr hc hreal h.sup h.obj
  have hsup : S.RelS (if shrinks p n = true then p.findSupport (nextObj p st'.sup st'.obj) else st'.sup)
      (if shrinks p n = true then p.findSupport (nextObj p st.sup st.obj) else st.sup) := by
    split
    · rename_i hs
      apply hsw _ _ _ ho
      unfold shrinks at hs
      simp only [Bool.and_eq_true] at hs
      exact hs.1.1.1
    · exact h.sup
  refine ⟨ho, hsup, ?_, ?_, ?_, ?_, ?_, ?_, ?_⟩
  · unfold step
    simp only
    by_cases hs : shrinks p n = true
    · simp only [hs, if_true] at hsup ⊢; exact hsup
    · simp only [hs] at hsup ⊢; exact h.supOld
  · unfold step
    simp only
    rw [h.supErr, hr, hc, S.size_rel h.supOld]
  · unfold step
    simp only
    rw [h.objErr, hr, hc, S.norm_rel h.obj, S.norm_rel (x' := fun i j => nextObj p st'.sup st'.obj i j - st'.obj i j)
      (x := fun i j => nextObj p st.sup st.obj i j - st.obj i j)]
    intro i hi j hj
    simp only
    rw [S.φ_sub, ← ho i hi j hj, ← h.obj i hi j hj]
  · unfold step
    simp only
    rw [h.diffErr, hr, hc, S.diff_rel p.d ho]
  · unfold step
    simp only
    rw [h.calls]
  · unfold step
    simp only
    split
    · intro i hi j hj
      simp only
      rw [S.φ_add, ← ho i hi j hj, ← h.avg i hi j hj]
    · exact h.avg
  · unfold step
    simp only
    rw [h.avgN]

theorem run_rel (p : Params) (hr : p.r = r) (hc : p.c = c) (hreal : p.real = true → ∀ t : ℝ, S.φ t = t)
    (hsw : p.swFlag = true → ∀ x' x, S.Rel x' x → S.RelS (p.findSupport x') (p.findSupport x)) {x' x : Arr} (h : S.Rel x' x)
    {s' s : ℕ → ℕ → Bool} (hs : S.RelS s' s) : Spec.Equivalent S.Rel (run p x' s') (run p x s) := by
  have key : ∀ n, S.RelSt ((List.range n).foldl (step p) (initSt x' s')) ((List.range n).foldl (step p) (initSt x s)) := by
    intro n
    induction n with
    | zero =>
      exact ⟨h, hs, fun _ _ _ _ => rfl, rfl, rfl, rfl, rfl, fun _ _ _ _ => S.φ_zero.symm, rfl⟩
    | succ n ih =>
      rw [List.range_succ, List.foldl_append, List.foldl_append]
      exact S.step_rel p hr hc hreal hsw ih n
  have hk := key p.n
  unfold run
  simp only
  generalize (List.range p.n).foldl (step p) (initSt x' s') = st' at hk ⊢
  generalize (List.range p.n).foldl (step p) (initSt x s) = st at hk ⊢
  refine ⟨hk.supErr, hk.objErr, hk.diffErr, hk.calls, hk.obj, ?_, ?_⟩
  · simp only [hk.avgN]
    split <;> simp
  · intro a' a ha' ha
    simp only [hk.avgN] at ha' ha
    split at ha
    · cases ha
    · rename_i hne
      rw [if_neg hne] at ha'
      injection ha with ha
      injection ha' with ha'
      subst ha ha'
      intro i hi j hj
      simp only
      rw [hk.avg i hi j hj, div_eq_inv_mul, div_eq_inv_mul, show ((st.avgN : ℂ))⁻¹ = (((st.avgN : ℝ)⁻¹ : ℝ) : ℂ) by push_cast; rfl,
        S.φ_mul]

end Symm

/-! ## the three symmetries -/

/-- Multiplication with a phase factor. -/
noncomputable def symPhase (r c : ℕ) (z : ℂ) (hz : ‖z‖ = 1) : Symm r c where
  φ := fun a => z * a
  f := fun i => i
  g := fun j => j
  ψ := fun _ _ a => z * a
  hf := perm_id r
  hg := perm_id c
  φ_add := fun a b => mul_add _ _ _
  φ_mul := fun s a => by ring
  φ_norm := fun a => by rw [norm_mul, hz, one_mul]
  ψ_mul := fun _ _ s a => by ring
  ψ_norm := fun _ _ a => by rw [norm_mul, hz, one_mul]
  four := fun x k l => by unfold Dft.fft2; simp only [fft_mul]
  back := fun y i j _ _ => by unfold Dft.ifft2; simp only [ifft_mul]

/-- Motion around the array. -/
noncomputable def symRoll (r c u v : ℕ) (hr : 0 < r) (hc : 0 < c) : Symm r c where
  φ := fun a => a
  f := fun i => (i + u) % r
  g := fun j => (j + v) % c
  ψ := fun k l a => Dft.w r (u * k : ℤ) * (Dft.w c (v * l : ℤ) * a)
  hf := perm_roll r u hr
  hg := perm_roll c v hc
  φ_add := fun _ _ => rfl
  φ_mul := fun _ _ => rfl
  φ_norm := fun _ => rfl
  ψ_mul := fun _ _ s a => by ring
  ψ_norm := fun _ _ a => by rw [norm_mul, norm_mul, norm_w, norm_w, one_mul, one_mul]
  four := fun x k l => by
    unfold Dft.fft2
    simp only [fft_roll c v hc]
    rw [fft_mul, fft_roll r u hr (fun i => Dft.fft c (x i) l) k]
    ring
  back := fun y i j _ _ => by
    unfold Dft.ifft2
    simp only [ifft_mul, ifft_roll c v hc]
    rw [ifft_roll r u hr]

/-- The twin image. -/
noncomputable def symTwin (r c : ℕ) (hr : 0 < r) (hc : 0 < c) : Symm r c where
  φ := starRingEnd ℂ
  f := fun i => r - 1 - i
  g := fun j => c - 1 - j
  ψ := fun k l a => Dft.w r (k : ℤ) * (Dft.w c (l : ℤ) * (starRingEnd ℂ) a)
  hf := perm_turn r
  hg := perm_turn c
  φ_add := fun a b => map_add _ _ _
  φ_mul := fun s a => by rw [map_mul, Complex.conj_ofReal]
  φ_norm := fun a => RCLike.norm_conj a
  ψ_mul := fun _ _ s a => by rw [map_mul, Complex.conj_ofReal]; ring
  ψ_norm := fun _ _ a => by rw [norm_mul, norm_mul, norm_w, norm_w, one_mul, one_mul, RCLike.norm_conj]
  four := fun x k l => by
    unfold Dft.fft2
    simp only [fft_turn c hc]
    rw [fft_mul, fft_turn r hr (fun i => Dft.fft c (x i) l) k]
    ring
  back := fun y i j hi hj => by
    unfold Dft.ifft2
    simp only [ifft_mul, ifft_turn c _ j hj]
    rw [ifft_turn r _ i hi]

/-! ## find_support of moved and turned objects -/

theorem reflect_turn (n : ℕ) (hn : 0 < n) (a : ℤ) : reflectIdx n (n - 1 - a) = n - 1 - reflectIdx n a := by
  obtain ⟨h1, m, h2⟩ := reflectIdx_mirror n hn a
  apply mirror_unique n (n - 1 - a) _ _ (reflectIdx_mirror n hn _)
  refine ⟨by omega, ?_⟩
  generalize reflectIdx n a = p at *
  have e : ((n - 1 - p : ℕ) : ℤ) = n - 1 - p := by omega
  rw [e]
  rcases h2 with h2 | h2
  · exact ⟨-m, Or.inl (by rw [h2]; ring)⟩
  · exact ⟨-m + 1, Or.inr (by rw [h2]; ring)⟩

theorem reflect_lt (n : ℕ) (hn : 0 < n) (a : ℤ) : reflectIdx n a < n := (reflectIdx_mirror n hn a).1

theorem filter_turn (sigma : ℝ) (n : ℕ) (x' x : ℕ → ℝ) (h : ∀ k < n, x' k = x (n - 1 - k)) (i : ℕ) (hi : i < n) :
    filter1 sigma n x' i = filter1 sigma n x (n - 1 - i) := by
  unfold filter1
  generalize hR : gaussRadius sigma = R
  have hk : ∀ k ∈ range (2 * R + 1), gaussKernel sigma (2 * R + 1 - 1 - k) = gaussKernel sigma k := by
    intro k hk
    rw [mem_range] at hk
    unfold gaussKernel gaussPhi
    rw [hR]
    congr 3
    have : ((2 * R + 1 - 1 - k : ℕ) : ℤ) = 2 * R - k := by omega
    rw [this]
    push_cast
    ring
  rw [← (perm_turn (2 * R + 1)).sum (fun k => gaussKernel sigma k * x (reflectIdx n (((n - 1 - i : ℕ) : ℤ) + k - R)))]
  apply sum_congr rfl
  intro k hk'
  rw [hk k hk', h _ (reflect_lt n (by omega) _), ← reflect_turn n (by omega)]
  rw [mem_range] at hk'
  congr 3
  omega

theorem gauss_turn (sigma : ℝ) (r c : ℕ) (x' x : ℕ → ℕ → ℝ) (h : ∀ i < r, ∀ j < c, x' i j = x (r - 1 - i) (c - 1 - j))
    (i j : ℕ) (hi : i < r) (hj : j < c) : gaussianFilter r c sigma x' i j = gaussianFilter r c sigma x (r - 1 - i) (c - 1 - j) := by
  unfold gaussianFilter
  split
  · simp only
    rw [filter_turn sigma c _ (fun b => filter1 sigma r (fun a => x a b) (r - 1 - i)) _ j hj]
    intro b hb
    exact filter_turn sigma r _ (fun a => x a (c - 1 - b)) (fun a ha => h a ha b hb) i hi
  · exact h i hi j hj

theorem support_perm {r c : ℕ} (f g : ℕ → ℕ) (hf : PermOn r f) (hg : PermOn c g) (sigma t : ℝ) (x' x : Arr)
    (h : ∀ i < r, ∀ j < c, gaussianFilter r c sigma (fun i j => ‖x' i j‖) i j = gaussianFilter r c sigma (fun i j => ‖x i j‖) (f i) (g j))
    (s' s : ℕ → ℕ → Bool) (hs' : findSupport r c sigma t x' = .ok s') (hs : findSupport r c sigma t x = .ok s) (i j : ℕ) (hi : i < r)
    (hj : j < c) : s' i j = s (f i) (g j) := by
  unfold findSupport at hs hs'
  have hne : (range r ×ˢ range c).Nonempty := ⟨(i, j), by simp [hi, hj]⟩
  simp only [dif_pos hne] at hs hs'
  injection hs with hs
  injection hs' with hs'
  subst hs hs'
  simp only
  rw [h i hi j hj]
  have hm : (range r ×ˢ range c).sup' hne (fun q => gaussianFilter r c sigma (fun i j => ‖x' i j‖) q.1 q.2)
      = (range r ×ˢ range c).sup' hne (fun q => gaussianFilter r c sigma (fun i j => ‖x i j‖) q.1 q.2) := by
    apply le_antisymm
    · apply sup'_le
      intro q hq
      rw [mem_product, mem_range, mem_range] at hq
      rw [h q.1 hq.1 q.2 hq.2]
      exact le_sup' (fun q : ℕ × ℕ => gaussianFilter r c sigma (fun i j => ‖x i j‖) q.1 q.2) (b := (f q.1, g q.2))
        (by rw [mem_product, mem_range, mem_range]; exact ⟨hf.lt _ hq.1, hg.lt _ hq.2⟩)
    · apply sup'_le
      intro q hq
      rw [mem_product, mem_range, mem_range] at hq
      obtain ⟨a, ha, e1⟩ := hf.surj q.1 hq.1
      obtain ⟨b, hb, e2⟩ := hg.surj q.2 hq.2
      rw [← e1, ← e2, ← h a ha b hb]
      exact le_sup' (fun q : ℕ × ℕ => gaussianFilter r c sigma (fun i j => ‖x' i j‖) q.1 q.2) (b := (a, b))
        (by rw [mem_product, mem_range, mem_range]; exact ⟨ha, hb⟩)
  rw [hm]

theorem recon_complex (p : Params) (flag : String) (h : flag.toLower = "complex") (x : Arr) (s : ℕ → ℕ → Bool) :
    cdiRecon p flag x s = .ok (run { p with real := false } x s) := by
  unfold cdiRecon
  simp only [h]
  rw [if_neg (by decide), if_pos trivial]

theorem recon_real (p : Params) (flag : String) (h : flag.toLower = "real") (x : Arr) (s : ℕ → ℕ → Bool) :
    cdiRecon p flag x s = .ok (run { p with real := true } x s) := by
  unfold cdiRecon
  simp only [h]
  rw [if_pos trivial]

/-! ## C238 -/

/-- C238, phase: a start multiplied by a phase factor gives, with the flag 'complex', the result multiplied by it; all
recorded errors are the same.  Every parameter, with or without shrink-wrap. -/
theorem C238_phase (p : Params) (flag : String) (hflag : flag.toLower = "complex") (sigma t : ℝ)
    (hp : p.swFlag = true → ∀ x, findSupport p.r p.c sigma t x = .ok (p.findSupport x)) (z : ℂ) (hz : ‖z‖ = 1) (x' x : Arr)
    (hx : Spec.Phase p.r p.c z x' x) (sup : ℕ → ℕ → Bool) :
    ∃ R' R, cdiRecon p flag x' sup = .ok R' ∧ cdiRecon p flag x sup = .ok R ∧ Spec.Equivalent (Spec.Phase p.r p.c z) R' R := by
  refine ⟨_, _, recon_complex p flag hflag _ _, recon_complex p flag hflag _ _, ?_⟩
  refine (symPhase p.r p.c z hz).run_rel { p with real := false } rfl rfl (fun h => by cases h) ?_ hx (fun _ _ _ _ => rfl)
  intro hw y' y hy i hi j hj
  refine support_perm (fun i => i) (fun j => j) (perm_id _) (perm_id _) sigma t y' y ?_ _ _ (hp hw y') (hp hw y) i j hi hj
  intro a ha b hb
  have hn : ∀ a < p.r, ∀ b < p.c, ‖y' a b‖ = ‖y a b‖ := by
    intro a ha b hb
    rw [hy a ha b hb]
    exact (symPhase p.r p.c z hz).φ_norm _
  have hr0 : 0 < p.r := by omega
  have hc0 : 0 < p.c := by omega
  unfold gaussianFilter filter1
  split
  · simp only
    apply sum_congr rfl
    intro k _
    congr 1
    apply sum_congr rfl
    intro m _
    rw [hn _ (reflect_lt _ hr0 _) _ (reflect_lt _ hc0 _)]
  · exact hn a ha b hb

/-- C238, twin image: a start and a support turned by 180 degrees, the start complex conjugate, give the result turned and
complex conjugate; all recorded errors are the same.  Both flags, with or without shrink-wrap. -/
theorem C238_twin (p : Params) (hr : 0 < p.r) (hc : 0 < p.c) (flag : String)
    (hflag : flag.toLower = "complex" ∨ flag.toLower = "real") (sigma t : ℝ)
    (hp : p.swFlag = true → ∀ x, findSupport p.r p.c sigma t x = .ok (p.findSupport x)) (x' x : Arr)
    (hx : Spec.Twin p.r p.c x' x) (sup' sup : ℕ → ℕ → Bool) (hs : Spec.Turned p.r p.c sup' sup) :
    ∃ R' R, cdiRecon p flag x' sup' = .ok R' ∧ cdiRecon p flag x sup = .ok R ∧ Spec.Equivalent (Spec.Twin p.r p.c) R' R := by
  have key : ∀ b : Bool, Spec.Equivalent (Spec.Twin p.r p.c) (run { p with real := b } x' sup') (run { p with real := b } x sup) := by
    intro b
    refine (symTwin p.r p.c hr hc).run_rel { p with real := b } rfl rfl (fun _ t => Complex.conj_ofReal t) ?_ hx hs
    intro hw y' y hy i hi j hj
    refine support_perm _ _ (perm_turn _) (perm_turn _) sigma t y' y ?_ _ _ (hp hw y') (hp hw y) i j hi hj
    intro a ha b hb
    apply gauss_turn sigma p.r p.c _ _ _ a b ha hb
    intro i hi j hj
    rw [hy i hi j hj]
    exact (symTwin p.r p.c hr hc).φ_norm _
  rcases hflag with hflag | hflag
  · exact ⟨_, _, recon_complex p flag hflag _ _, recon_complex p flag hflag _ _, key false⟩
  · exact ⟨_, _, recon_real p flag hflag _ _, recon_real p flag hflag _ _, key true⟩

/-- C238, position: a start and a support moved around the array give the result moved around the array; all recorded errors
are the same.  Both flags, without shrink-wrap or with a shrink-wrap that does not smooth. -/
theorem C238_position_partial (p : Params) (hr : 0 < p.r) (hc : 0 < p.c) (flag : String)
    (hflag : flag.toLower = "complex" ∨ flag.toLower = "real") (sigma t : ℝ) (hsigma : sigma ≤ 1e-15)
    (hp : p.swFlag = true → ∀ x, findSupport p.r p.c sigma t x = .ok (p.findSupport x)) (u v : ℕ) (x' x : Arr)
    (hx : Spec.Rolled p.r p.c u v x' x) (sup' sup : ℕ → ℕ → Bool) (hs : Spec.Rolled p.r p.c u v sup' sup) :
    ∃ R' R, cdiRecon p flag x' sup' = .ok R' ∧ cdiRecon p flag x sup = .ok R ∧
      Spec.Equivalent (Spec.Rolled p.r p.c u v) R' R := by
  have key : ∀ b : Bool, Spec.Equivalent (Spec.Rolled p.r p.c u v) (run { p with real := b } x' sup') (run { p with real := b } x sup) := by
    intro b
    refine (symRoll p.r p.c u v hr hc).run_rel { p with real := b } rfl rfl (fun _ t => rfl) ?_ hx hs
    intro hw y' y hy i hi j hj
    refine support_perm _ _ (perm_roll _ u hr) (perm_roll _ v hc) sigma t y' y ?_ _ _ (hp hw y') (hp hw y) i j hi hj
    intro a ha b hb
    unfold gaussianFilter
    rw [if_neg (not_lt.2 hsigma), if_neg (not_lt.2 hsigma)]
    rw [hy a ha b hb]
    rfl
  rcases hflag with hflag | hflag
  · exact ⟨_, _, recon_complex p flag hflag _ _, recon_complex p flag hflag _ _, key false⟩
  · exact ⟨_, _, recon_real p flag hflag _ _, recon_real p flag hflag _ _, key true⟩

set_option maxHeartbeats 1000000 in
/-- C238 is false for the position when the shrink-wrap smooths: with the default width and threshold a bright pixel at the
border of three has a support of two pixels, the same pixel in the middle has one of three, because the smoothing continues
the object by mirror images and not around the array. -/
theorem C238_position_refuted (x' x : Arr) (h0 : x 0 0 = 1) (h1 : x 0 1 = 0) (h2 : x 0 2 = 0)
    (hx : Spec.Rolled 1 3 0 2 x' x) :
    ∃ S' S, findSupport 1 3 (1 / 2) (1 / 10) x' = .ok S' ∧ findSupport 1 3 (1 / 2) (1 / 10) x = .ok S ∧
      S 0 0 = true ∧ S 0 1 = true ∧ S 0 2 = false ∧ ∀ j < 3, S' 0 j = true := by
  have h0' : x' 0 0 = 0 := by rw [hx 0 (by norm_num) 0 (by norm_num)]; exact h2
  have h1' : x' 0 1 = 1 := by rw [hx 0 (by norm_num) 1 (by norm_num)]; exact h0
  have h2' : x' 0 2 = 0 := by rw [hx 0 (by norm_num) 2 (by norm_num)]; exact h1
  have hR : gaussRadius (1 / 2) = 2 := by
    unfold gaussRadius
    rw [Nat.floor_eq_iff (by norm_num)]
    norm_num
  have hne : (range 1 ×ˢ range 3).Nonempty := ⟨(0, 0), by simp⟩
  set D := ∑ k ∈ range 5, gaussPhi (1 / 2) ((k : ℤ) - 2) with hD
  have hDpos : 0 < D := sum_pos (fun k _ => gaussPhi_pos _ _) ⟨0, by simp⟩
  set e := Real.exp (-2) with he
  have he0 : 0 < e := Real.exp_pos _
  have he1 : 1 / 9 ≤ e := by
    rw [he, Real.exp_neg, show (2 : ℝ) = 1 + 1 by norm_num, Real.exp_add, one_div]
    apply inv_anti₀ (by positivity)
    have := Real.exp_one_lt_d9
    have := Real.exp_pos 1
    nlinarith
  have he2 : e ≤ 1 / 4 := by
    rw [he, Real.exp_neg, show (2 : ℝ) = 1 + 1 by norm_num, Real.exp_add, one_div]
    apply inv_anti₀ (by norm_num)
    have := Real.exp_one_gt_d9
    nlinarith
  have w0 : gaussPhi (1 / 2) 0 = 1 := by unfold gaussPhi; norm_num
  have w1 : gaussPhi (1 / 2) 1 = e := by unfold gaussPhi; rw [he]; congr 1; norm_num
  have w2 : gaussPhi (1 / 2) 2 = e ^ 4 := by unfold gaussPhi; rw [he, ← Real.exp_nat_mul]; congr 1; norm_num
  have w1' : gaussPhi (1 / 2) (-1) = e := by unfold gaussPhi; rw [he]; congr 1; norm_num
  have w2' : gaussPhi (1 / 2) (-2) = e ^ 4 := by unfold gaussPhi; rw [he, ← Real.exp_nat_mul]; congr 1; norm_num
  have col : ∀ (y : ℕ → ℝ), filter1 (1 / 2) 1 y 0 = y 0 := by
    intro y
    have hk : ∀ lo hi, (∀ k < 1, lo ≤ y k ∧ y k ≤ hi) → _ := fun lo hi h => filter1_between (1 / 2) 1 (by norm_num) y lo hi h 0
    have := hk (y 0) (y 0) (fun k hk => by have : k = 0 := by omega
                                           rw [this]; exact ⟨le_rfl, le_rfl⟩)
    exact le_antisymm this.2 this.1
  have row : ∀ (y : Arr) (j : ℕ), gaussianFilter 1 3 (1 / 2) (fun i j => ‖y i j‖) 0 j =
      (e ^ 4 * ‖y 0 (reflectIdx 3 ((j : ℤ) - 2))‖ + e * ‖y 0 (reflectIdx 3 ((j : ℤ) - 1))‖ + ‖y 0 (reflectIdx 3 (j : ℤ))‖
        + e * ‖y 0 (reflectIdx 3 ((j : ℤ) + 1))‖ + e ^ 4 * ‖y 0 (reflectIdx 3 ((j : ℤ) + 2))‖) / D := by
    intro y j
    unfold gaussianFilter
    rw [if_pos (by norm_num)]
    simp only [col]
    unfold filter1 gaussKernel
    rw [hR]
    simp only [show 2 * 2 + 1 = 5 from rfl]
    rw [show (∑ k ∈ range 5, gaussPhi (1 / 2) ((k : ℤ) - ((2 : ℕ) : ℤ))) = D from by rw [hD]; rfl]
    rw [sum_range_succ, sum_range_succ, sum_range_succ, sum_range_succ, sum_range_one]
    norm_num
    rw [w0, w1, w2, w1', w2', show (j : ℤ) + 3 - 2 = j + 1 by ring, show (j : ℤ) + 4 - 2 = j + 2 by ring,
      show (j : ℤ) + 1 - 2 = j - 1 by ring]
    ring
  clear_value e D
  have e0 : gaussianFilter 1 3 (1 / 2) (fun i j => ‖x i j‖) 0 0 = (1 + e) / D := by
    rw [row]
    norm_num [show reflectIdx 3 (-2) = 1 from rfl, show reflectIdx 3 (-1) = 0 from rfl, show reflectIdx 3 0 = 0 from rfl,
      show reflectIdx 3 1 = 1 from rfl, show reflectIdx 3 2 = 2 from rfl, h0, h1, h2]
    ring
  have e1 : gaussianFilter 1 3 (1 / 2) (fun i j => ‖x i j‖) 0 1 = (e + e ^ 4) / D := by
    rw [row]
    norm_num [show reflectIdx 3 (-1) = 0 from rfl, show reflectIdx 3 0 = 0 from rfl,
      show reflectIdx 3 1 = 1 from rfl, show reflectIdx 3 2 = 2 from rfl, show reflectIdx 3 3 = 2 from rfl, h0, h1, h2]
    ring
  have e2 : gaussianFilter 1 3 (1 / 2) (fun i j => ‖x i j‖) 0 2 = e ^ 4 / D := by
    rw [row]
    norm_num [show reflectIdx 3 0 = 0 from rfl, show reflectIdx 3 4 = 1 from rfl,
      show reflectIdx 3 1 = 1 from rfl, show reflectIdx 3 2 = 2 from rfl, show reflectIdx 3 3 = 2 from rfl, h0, h1, h2]
  have e0' : gaussianFilter 1 3 (1 / 2) (fun i j => ‖x' i j‖) 0 0 = (e + e ^ 4) / D := by
    rw [row]
    norm_num [show reflectIdx 3 (-2) = 1 from rfl, show reflectIdx 3 (-1) = 0 from rfl, show reflectIdx 3 0 = 0 from rfl,
      show reflectIdx 3 1 = 1 from rfl, show reflectIdx 3 2 = 2 from rfl, h0', h1', h2']
    ring
  have e1' : gaussianFilter 1 3 (1 / 2) (fun i j => ‖x' i j‖) 0 1 = 1 / D := by
    rw [row]
    norm_num [show reflectIdx 3 (-1) = 0 from rfl, show reflectIdx 3 0 = 0 from rfl,
      show reflectIdx 3 1 = 1 from rfl, show reflectIdx 3 2 = 2 from rfl, show reflectIdx 3 3 = 2 from rfl, h0', h1', h2']
  have e2' : gaussianFilter 1 3 (1 / 2) (fun i j => ‖x' i j‖) 0 2 = (e + e ^ 4) / D := by
    rw [row]
    norm_num [show reflectIdx 3 0 = 0 from rfl, show reflectIdx 3 4 = 1 from rfl,
      show reflectIdx 3 1 = 1 from rfl, show reflectIdx 3 2 = 2 from rfl, show reflectIdx 3 3 = 2 from rfl, h0', h1', h2']
  have he4 : 0 < e ^ 4 := by positivity
  have he5 : e ^ 4 ≤ 1 / 64 := by
    calc e ^ 4 ≤ (1 / 4) ^ 4 := pow_le_pow_left₀ he0.le he2 4
      _ ≤ 1 / 64 := by norm_num
  have top : (range 1 ×ˢ range 3).sup' hne (fun q => gaussianFilter 1 3 (1 / 2) (fun i j => ‖x i j‖) q.1 q.2) = (1 + e) / D := by
    apply le_antisymm
    · apply sup'_le
      rintro ⟨a, b⟩ hq
      rw [mem_product, mem_range, mem_range] at hq
      obtain ⟨ha, hb⟩ := hq
      simp only at ha hb ⊢
      have ha0 : a = 0 := by omega
      subst ha0
      have hb' : b = 0 ∨ b = 1 ∨ b = 2 := by omega
      rcases hb' with rfl | rfl | rfl
      · rw [e0]
      · rw [e1]; apply div_le_div_of_nonneg_right _ hDpos.le; linarith
      · rw [e2]; apply div_le_div_of_nonneg_right _ hDpos.le; linarith
    · rw [← e0]
      exact le_sup' (fun q : ℕ × ℕ => gaussianFilter 1 3 (1 / 2) (fun i j => ‖x i j‖) q.1 q.2) (b := (0, 0)) (by simp)
  have top' : (range 1 ×ˢ range 3).sup' hne (fun q => gaussianFilter 1 3 (1 / 2) (fun i j => ‖x' i j‖) q.1 q.2) = 1 / D := by
    apply le_antisymm
    · apply sup'_le
      rintro ⟨a, b⟩ hq
      rw [mem_product, mem_range, mem_range] at hq
      obtain ⟨ha, hb⟩ := hq
      simp only at ha hb ⊢
      have ha0 : a = 0 := by omega
      subst ha0
      have hb' : b = 0 ∨ b = 1 ∨ b = 2 := by omega
      rcases hb' with rfl | rfl | rfl
      · rw [e0']; apply div_le_div_of_nonneg_right _ hDpos.le; linarith
      · rw [e1']
      · rw [e2']; apply div_le_div_of_nonneg_right _ hDpos.le; linarith
    · rw [← e1']
      exact le_sup' (fun q : ℕ × ℕ => gaussianFilter 1 3 (1 / 2) (fun i j => ‖x' i j‖) q.1 q.2) (b := (0, 1)) (by simp)
  unfold findSupport
  simp only [dif_pos hne, top, top']
  refine ⟨_, _, rfl, rfl, ?_, ?_, ?_, ?_⟩
  · rw [decide_eq_true_eq, e0]
    have : 0 ≤ (1 + e) / D := by positivity
    linarith
  · rw [decide_eq_true_eq, e1, mul_div_assoc']
    apply div_le_div_of_nonneg_right _ hDpos.le
    linarith
  · rw [decide_eq_false_iff_not, not_le, e2, mul_div_assoc']
    apply div_lt_div_of_pos_right _ hDpos
    linarith
  · intro j hj
    rw [decide_eq_true_eq]
    have hj' : j = 0 ∨ j = 1 ∨ j = 2 := by omega
    rcases hj' with rfl | rfl | rfl
    · rw [e0', mul_div_assoc']; apply div_le_div_of_nonneg_right _ hDpos.le; linarith
    · rw [e1', mul_div_assoc']; apply div_le_div_of_nonneg_right _ hDpos.le; norm_num
    · rw [e2', mul_div_assoc']; apply div_le_div_of_nonneg_right _ hDpos.le; linarith

/-- The three relations are met by objects that are not their own images. -/
example : Spec.Phase 2 3 Complex.I (fun i j => Complex.I * (i + 2 * j)) (fun i j => i + 2 * j) ∧ ‖Complex.I‖ = 1 ∧
    Spec.Twin 2 3 (fun i j => (starRingEnd ℂ) ((2 - 1 - i : ℕ) + (3 - 1 - j : ℕ) * Complex.I)) (fun i j => i + j * Complex.I) ∧
    Spec.Rolled 2 3 1 2 (fun i j => (((i + 1) % 2 : ℕ) : ℂ) + ((j + 2) % 3 : ℕ)) (fun i j => i + j) :=
  ⟨fun _ _ _ _ => rfl, Complex.norm_I, fun _ _ _ _ => rfl, fun _ _ _ _ => rfl⟩

end Verif.Cdi
