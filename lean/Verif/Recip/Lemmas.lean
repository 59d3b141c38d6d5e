import Verif.Recip.Model
import Mathlib.Tactic.Ring
import Mathlib.Tactic.FinCases

namespace Verif.Recip
open Verif Real

/-- What one loop turn sees: its own blocks of the shared arrays (0 outside) and its own `qp`. -/
structure Loc where
  dg : ℕ → ℝ
  q : ℕ → ℝ
  qp : Fin 3 → ℝ

/-- Addresses stay within the block. -/
def InB (size : ℕ) : Instr → Prop
  | .dg a _ => a < size * 2
  | .qt p _ _ => p < size
  | .zero _ => True
  | .acc _ _ p _ => p < size
  | .put p _ => p < size

/-- The blocks of image `i`. -/
def locOf (size i : ℕ) (s : St) : Loc :=
  ⟨fun a => if a < size * 2 then s.dg (i * size * 2 + a) else 0,
   fun a => if a < size * 3 then s.q (i * size * 3 + a) else 0, s.qp i⟩

/-- An operation on the block alone. -/
def lexec (l : Loc) : Instr → Loc
  | .dg a v => { l with dg := Function.update l.dg a v }
  | .qt p k f => { l with q := Function.update l.q (3 * p + k) (f (l.dg (2 * p)) (l.dg (2 * p + 1))) }
  | .zero k => { l with qp := Function.update l.qp k 0 }
  | .acc k m p j => { l with qp := Function.update l.qp k (l.qp k + m * l.q (3 * p + j)) }
  | .put p k => { l with q := Function.update l.q (3 * p + k) (l.qp k) }

theorem locOf_own (size i : ℕ) (s : St) (I : Instr) (h : InB size I) :
    locOf size i (exec size i s I) = lexec (locOf size i s) I := by
  cases I with
  | dg a v =>
    simp only [InB] at h
    simp only [locOf, exec, lexec, Loc.mk.injEq, and_true]
    funext b
    by_cases hb : b = a
    · subst hb; simp [h]
    · simp [Function.update, hb]
  | qt p k f =>
    simp only [InB] at h
    have hk := k.isLt
    simp only [locOf, exec, lexec, Loc.mk.injEq, true_and, and_true]
    funext b
    by_cases hb : b = 3 * p + k
    · subst hb
      rw [if_pos (by omega), if_pos (by omega), if_pos (by omega)]
      simp
    · simp [Function.update, hb]
  | zero k => simp [locOf, exec, lexec]
  | acc k m p j =>
    simp only [InB] at h
    have hj := j.isLt
    simp only [locOf, exec, lexec, Loc.mk.injEq, true_and]
    rw [if_pos (by omega)]
    simp
  | put p k =>
    simp only [InB] at h
    have hk := k.isLt
    simp only [locOf, exec, lexec, Loc.mk.injEq, true_and, and_true]
    funext b
    by_cases hb : b = 3 * p + k
    · subst hb
      rw [if_pos (by omega)]
      simp
    · simp [Function.update, hb]

theorem block_ne (w i i' a b : ℕ) (hi : i ≠ i') (ha : a < w) (hb : b < w) : i * w + a ≠ i' * w + b := by
  intro h
  apply hi
  have h1 : (i * w + a) / w = i := by
    rw [Nat.add_comm, Nat.add_mul_div_right _ _ (by omega), Nat.div_eq_of_lt ha, Nat.zero_add]
  have h2 : (i' * w + b) / w = i' := by
    rw [Nat.add_comm, Nat.add_mul_div_right _ _ (by omega), Nat.div_eq_of_lt hb, Nat.zero_add]
  rw [← h1, h, h2]

theorem locOf_other (size i i' : ℕ) (hi : i ≠ i') (s : St) (I : Instr) (h : InB size I) :
    locOf size i' (exec size i s I) = locOf size i' s := by
  cases I with
  | dg a v =>
    simp only [InB] at h
    simp only [locOf, exec, Loc.mk.injEq, and_true]
    funext b
    by_cases hb : b < size * 2
    · rw [if_pos hb, if_pos hb, Function.update_of_ne]
      rw [Nat.mul_assoc, Nat.mul_assoc]
      exact block_ne _ _ _ _ _ (Ne.symm hi) hb h
    · simp [hb]
  | qt p k f =>
    simp only [InB] at h
    have hk := k.isLt
    simp only [locOf, exec, Loc.mk.injEq, true_and, and_true]
    funext b
    by_cases hb : b < size * 3
    · rw [if_pos hb, if_pos hb, Function.update_of_ne]
      rw [Nat.mul_assoc, Nat.mul_assoc]
      exact block_ne _ _ _ _ _ (Ne.symm hi) hb (by omega)
    · simp [hb]
  | zero k => simp [locOf, exec, Function.update_of_ne (Ne.symm hi)]
  | acc k m p j => simp [locOf, exec, Function.update_of_ne (Ne.symm hi)]
  | put p k =>
    simp only [InB] at h
    have hk := k.isLt
    simp only [locOf, exec, Loc.mk.injEq, true_and, and_true]
    funext b
    by_cases hb : b < size * 3
    · rw [if_pos hb, if_pos hb, Function.update_of_ne]
      rw [Nat.mul_assoc, Nat.mul_assoc]
      exact block_ne _ _ _ _ _ (Ne.symm hi) hb (by omega)
    · simp [hb]

/-- Whatever the interleaving, image `i`'s blocks evolve as if its turn ran alone. -/
theorem locOf_run (size i : ℕ) (ev : List (ℕ × Instr)) (hb : ∀ e ∈ ev, InB size e.2) (s : St) :
    locOf size i (run size s ev) =
      ((ev.filter (fun e => decide (e.1 = i))).map Prod.snd).foldl lexec (locOf size i s) := by
  induction ev generalizing s with
  | nil => rfl
  | cons e t ih =>
    have ht : ∀ e ∈ t, InB size e.2 := fun x hx => hb x (List.mem_cons_of_mem _ hx)
    have he := hb e List.mem_cons_self
    have hrun : run size s (e :: t) = run size (exec size e.1 s e.2) t := rfl
    rw [hrun, ih ht]
    by_cases hi : e.1 = i
    · rw [List.filter_cons_of_pos (by simpa using hi)]
      simp only [List.map_cons, List.foldl_cons]
      rw [hi, locOf_own _ _ _ _ he]
    · rw [List.filter_cons_of_neg (by simpa using hi), locOf_other _ _ _ hi _ _ he]

/-! ### the stages of a turn -/

theorem dg_stage (F : ℕ → ℝ) (L : List Instr) (hL : ∀ I ∈ L, ∃ a, I = .dg a (F a)) (l : Loc) :
    (L.foldl lexec l).q = l.q ∧ ∀ a, (L.foldl lexec l).dg a = F a ∨ ((L.foldl lexec l).dg a = l.dg a ∧ .dg a (F a) ∉ L) := by
  induction L generalizing l with
  | nil => exact ⟨rfl, fun a => Or.inr ⟨rfl, by simp⟩⟩
  | cons I t ih =>
    obtain ⟨a0, rfl⟩ := hL I List.mem_cons_self
    obtain ⟨h1, h2⟩ := ih (fun I hI => hL I (List.mem_cons_of_mem _ hI)) (lexec l (.dg a0 (F a0)))
    refine ⟨h1, fun a => ?_⟩
    rcases h2 a with h | ⟨h, hn⟩
    · exact Or.inl h
    · by_cases ha : a = a0
      · left
        show (List.foldl lexec (lexec l (.dg a0 (F a0))) t).dg a = F a
        rw [h, ha]; simp [lexec]
      · right
        refine ⟨?_, ?_⟩
        · show (List.foldl lexec (lexec l (.dg a0 (F a0))) t).dg a = _
          rw [h]; simp [lexec, Function.update_of_ne ha]
        · intro hm
          rcases List.mem_cons.1 hm with hm | hm
          · injection hm with e1 _; exact ha e1
          · exact hn hm

/-- delta (even address) or gamma (odd address). -/
noncomputable def dgVal (c : Ccd) (d g : ℝ) (a : ℕ) : ℝ :=
  if a % 2 = 0 then d - arctan ((((a / 2 / c.xSize : ℕ) : ℝ) - c.yCen) * (c.yPix / c.dist))
  else g - arctan ((((a / 2 % c.xSize : ℕ) : ℝ) - c.xCen) * (c.xPix / c.dist))

theorem dgVal_even (c : Ccd) (d g : ℝ) (j i : ℕ) (hi : i < c.xSize) :
    dgVal c d g (2 * (j * c.xSize + i)) = d - arctan (((j : ℝ) - c.yCen) * (c.yPix / c.dist)) := by
  have h1 : 2 * (j * c.xSize + i) % 2 = 0 := by omega
  have h2 : 2 * (j * c.xSize + i) / 2 = j * c.xSize + i := by omega
  have h3 : (j * c.xSize + i) / c.xSize = j := by
    rw [Nat.add_comm, Nat.add_mul_div_right _ _ (by omega), Nat.div_eq_of_lt hi, Nat.zero_add]
  rw [dgVal, if_pos h1, h2, h3]

theorem dgVal_odd (c : Ccd) (d g : ℝ) (j i : ℕ) (hi : i < c.xSize) :
    dgVal c d g (2 * (j * c.xSize + i) + 1) = g - arctan (((i : ℝ) - c.xCen) * (c.xPix / c.dist)) := by
  have h1 : ¬ (2 * (j * c.xSize + i) + 1) % 2 = 0 := by omega
  have h2 : (2 * (j * c.xSize + i) + 1) / 2 = j * c.xSize + i := by omega
  have h3 : (j * c.xSize + i) % c.xSize = i := by
    rw [Nat.add_comm, Nat.add_mul_mod_self_right, Nat.mod_eq_of_lt hi]
  rw [dgVal, if_neg h1, h2, h3]

theorem calcDeltaGamma_mem (c : Ccd) (d g : ℝ) (I : Instr) : I ∈ calcDeltaGamma c d g ↔
    ∃ j < c.ySize, ∃ i < c.xSize, I = .dg (2 * (j * c.xSize + i)) (dgVal c d g (2 * (j * c.xSize + i))) ∨
      I = .dg (2 * (j * c.xSize + i) + 1) (dgVal c d g (2 * (j * c.xSize + i) + 1)) := by
  simp only [calcDeltaGamma, List.mem_flatMap, List.mem_range, List.mem_cons, List.not_mem_nil, or_false]
  constructor
  · rintro ⟨j, hj, i, hi, h⟩
    refine ⟨j, hj, i, hi, ?_⟩
    rw [dgVal_even c d g j i hi, dgVal_odd c d g j i hi]
    exact h
  · rintro ⟨j, hj, i, hi, h⟩
    refine ⟨j, hj, i, hi, ?_⟩
    rw [dgVal_even c d g j i hi, dgVal_odd c d g j i hi] at h
    exact h

theorem pixel_lt (c : Ccd) (j i : ℕ) (hj : j < c.ySize) (hi : i < c.xSize) : j * c.xSize + i < c.size := by
  have : (j + 1) * c.xSize ≤ c.ySize * c.xSize := Nat.mul_le_mul_right _ hj
  rw [Ccd.size, Nat.mul_comm c.xSize]
  rw [Nat.add_mul] at this
  omega

theorem calcDeltaGamma_inB (c : Ccd) (d g : ℝ) : ∀ I ∈ calcDeltaGamma c d g, InB c.size I := by
  intro I hI
  obtain ⟨j, hj, i, hi, h⟩ := (calcDeltaGamma_mem c d g I).1 hI
  have := pixel_lt c j i hj hi
  rcases h with rfl | rfl <;> simp only [InB] <;> omega

theorem calcDeltaGamma_run (c : Ccd) (d g : ℝ) (l : Loc) (j i : ℕ) (hj : j < c.ySize) (hi : i < c.xSize) :
    ((calcDeltaGamma c d g).foldl lexec l).dg (2 * (j * c.xSize + i)) =
        d - arctan (((j : ℝ) - c.yCen) * (c.yPix / c.dist)) ∧
    ((calcDeltaGamma c d g).foldl lexec l).dg (2 * (j * c.xSize + i) + 1) =
        g - arctan (((i : ℝ) - c.xCen) * (c.xPix / c.dist)) := by
  have hL : ∀ I ∈ calcDeltaGamma c d g, ∃ a, I = .dg a (dgVal c d g a) := by
    intro I hI
    obtain ⟨j, hj, i, hi, h⟩ := (calcDeltaGamma_mem c d g I).1 hI
    rcases h with h | h
    · exact ⟨_, h⟩
    · exact ⟨_, h⟩
  have h := (dg_stage (dgVal c d g) _ hL l).2
  constructor
  · rcases h (2 * (j * c.xSize + i)) with h | ⟨_, h⟩
    · rw [h, dgVal_even c d g j i hi]
    · exact absurd ((calcDeltaGamma_mem c d g _).2 ⟨j, hj, i, hi, Or.inl rfl⟩) h
  · rcases h (2 * (j * c.xSize + i) + 1) with h | ⟨_, h⟩
    · rw [h, dgVal_odd c d g j i hi]
    · exact absurd ((calcDeltaGamma_mem c d g _).2 ⟨j, hj, i, hi, Or.inr rfl⟩) h

/-- Pixel `p`'s vector. -/
def vec (q : ℕ → ℝ) (p : ℕ) : Fin 3 → ℝ := fun k => q (3 * p + k)

theorem foldl_range_succ (f : ℕ → List Instr) (n : ℕ) (l : Loc) :
    ((List.range (n + 1)).flatMap f).foldl lexec l = (f n).foldl lexec (((List.range n).flatMap f).foldl lexec l) := by
  rw [List.range_succ, List.flatMap_append, List.foldl_append]
  simp

theorem calcQTheta_run (n : ℕ) (theta mu lam : ℝ) (l : Loc) :
    ((calcQTheta n theta mu lam).foldl lexec l).dg = l.dg ∧
    (∀ p < n, ∀ k, vec ((calcQTheta n theta mu lam).foldl lexec l).q p k =
      qThetaFun theta mu lam k (l.dg (2 * p)) (l.dg (2 * p + 1))) := by
  induction n with
  | zero => exact ⟨rfl, fun p hp => absurd hp (by omega)⟩
  | succ n ih =>
    obtain ⟨h1, h2⟩ := ih
    unfold calcQTheta at h1 h2 ⊢
    rw [foldl_range_succ]
    generalize hl : ((List.range n).flatMap _).foldl lexec l = l' at h1 h2
    constructor
    · simp [lexec, h1]
    · intro p hp k
      have hk := k.isLt
      by_cases hpn : p = n
      · subst hpn
        fin_cases k <;> simp [lexec, vec, Function.update, h1]
      · rw [← h2 p (by omega) k]
        have e0 : 3 * p + (k : ℕ) ≠ 3 * n := by omega
        have e1 : 3 * p + (k : ℕ) ≠ 3 * n + 1 := by omega
        have e2 : 3 * p + (k : ℕ) ≠ 3 * n + 2 := by omega
        simp [lexec, vec, Function.update, e0, e1, e2]

theorem calcQTheta_inB (n : ℕ) (theta mu lam : ℝ) : ∀ I ∈ calcQTheta n theta mu lam, InB n I := by
  intro I hI
  simp only [calcQTheta, List.mem_flatMap, List.mem_range, List.mem_cons, List.not_mem_nil, or_false] at hI
  obtain ⟨p, hp, h⟩ := hI
  rcases h with rfl | rfl | rfl <;> exact hp

theorem matmulti_inB (n : ℕ) (M : Fin 3 → Fin 3 → ℝ) : ∀ I ∈ matmulti n M, InB n I := by
  intro I hI
  simp only [matmulti, List.mem_flatMap, List.mem_range, List.mem_append, List.mem_map, List.mem_cons] at hI
  obtain ⟨p, hp, h⟩ := hI
  rcases h with ⟨k, _, rfl | ⟨j, _, rfl⟩⟩ | ⟨k, _, rfl⟩ <;> first | exact hp | trivial

theorem finRange3 : List.finRange 3 = [0, 1, 2] := by decide

theorem matmulti_run (n : ℕ) (M : Fin 3 → Fin 3 → ℝ) (l : Loc) :
    (∀ p < n, ∀ k, vec ((matmulti n M).foldl lexec l).q p k = ∑ j, M k j * vec l.q p j) ∧
    (∀ p, n ≤ p → ∀ k, vec ((matmulti n M).foldl lexec l).q p k = vec l.q p k) := by
  induction n with
  | zero => exact ⟨fun p hp => absurd hp (by omega), fun p _ k => rfl⟩
  | succ n ih =>
    obtain ⟨h1, h2⟩ := ih
    unfold matmulti at h1 h2 ⊢
    rw [foldl_range_succ]
    generalize hl : ((List.range n).flatMap _).foldl lexec l = l' at h1 h2
    constructor
    · intro p hp k
      have hk := k.isLt
      by_cases hpn : p = n
      · subst hpn
        have h3 := h2 p le_rfl
        have a0 := h3 0
        have a1 := h3 1
        have a2 := h3 2
        simp only [vec, Fin.val_zero, Fin.val_one, Fin.val_two, Nat.add_zero] at a0 a1 a2
        rw [Fin.sum_univ_three]
        fin_cases k <;>
          simp [finRange3, lexec, vec, Function.update, a0, a1, a2]
      · rw [← h1 p (by omega) k]
        have e0 : 3 * p + (k : ℕ) ≠ 3 * n := by omega
        have e1 : 3 * p + (k : ℕ) ≠ 3 * n + 1 := by omega
        have e2 : 3 * p + (k : ℕ) ≠ 3 * n + 2 := by omega
        simp [finRange3, lexec, vec, Function.update, e0, e1, e2]
    · intro p hp k
      have hk := k.isLt
      rw [← h2 p (by omega) k]
      have e0 : 3 * p + (k : ℕ) ≠ 3 * n := by omega
      have e1 : 3 * p + (k : ℕ) ≠ 3 * n + 1 := by omega
      have e2 : 3 * p + (k : ℕ) ≠ 3 * n + 2 := by omega
      simp [finRange3, lexec, vec, Function.update, e0, e1, e2]

end Verif.Recip
