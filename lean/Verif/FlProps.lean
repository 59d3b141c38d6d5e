/- `Fl.round53` obeys the standard model of floating-point arithmetic with unit roundoff 2^-53. -/
import Verif.Fl
import Mathlib.Tactic.Linarith
import Mathlib.Tactic.Ring
import Mathlib.Tactic.FieldSimp
import Mathlib.Tactic.Positivity
import Mathlib.Algebra.Order.Field.Rat

namespace Verif.Fl

/-- The standard model: every rounding has a relative error of at most u. -/
def Spec.Rel (u : ℚ) (rnd : ℚ → ℚ) : Prop := 0 ≤ u ∧ ∀ x, |rnd x - x| ≤ u * |x|

theorem pow2_pos (e : ℤ) : 0 < pow2 e := by unfold pow2; split <;> positivity

theorem pow2_eq (e : ℤ) : pow2 e = (2 : ℚ) ^ e := by
  unfold pow2
  split
  · rename_i h
    obtain ⟨n, rfl⟩ := Int.eq_ofNat_of_zero_le h
    simp
  · rename_i h
    push Not at h
    obtain ⟨n, hn⟩ := Int.eq_ofNat_of_zero_le (show 0 ≤ -e by omega)
    have : e = -(n : ℤ) := by omega
    subst this
    simp

theorem roundHalfEven_err (q : ℚ) : |(roundHalfEven q : ℚ) - q| ≤ 1 / 2 := by
  have h1 := Int.floor_le q
  have h2 := Int.lt_floor_add_one q
  unfold roundHalfEven
  simp only
  split
  · rw [abs_le]; constructor <;> linarith
  · split
    · push_cast; rw [abs_le]; constructor <;> linarith
    · split
      · rw [abs_le]; constructor <;> linarith
      · push_cast; rw [abs_le]; constructor <;> linarith

theorem roundPos_err (q : ℚ) (hq : 0 < q) : |roundPos q - q| ≤ q / 2 ^ 53 := by
  unfold roundPos
  simp only
  set e0 : ℤ := (Nat.log2 q.num.natAbs : ℤ) - (Nat.log2 q.den : ℤ) - 52 with he0
  -- lower bound: q / 2^e0 > 2^51
  have hlow : (2 : ℚ) ^ 51 < q / pow2 e0 := by
    have hnum : 0 < q.num := Rat.num_pos.2 hq
    have hn0 : q.num.natAbs ≠ 0 := by omega
    have h1 : 2 ^ Nat.log2 q.num.natAbs ≤ q.num.natAbs := Nat.log2_self_le hn0
    have h2 : q.den < 2 ^ (Nat.log2 q.den + 1) := Nat.lt_log2_self
    have h1' : ((2 : ℚ) ^ Nat.log2 q.num.natAbs) ≤ (q.num : ℚ) := by
      have : ((2 ^ Nat.log2 q.num.natAbs : ℕ) : ℚ) ≤ (q.num.natAbs : ℚ) := by exact_mod_cast h1
      have h3 : (q.num.natAbs : ℚ) = (q.num : ℚ) := by
        rw [Nat.cast_natAbs, abs_of_pos hnum]
      rw [h3] at this; push_cast at this; exact this
    have h2' : (q.den : ℚ) < (2 : ℚ) ^ (Nat.log2 q.den + 1) := by exact_mod_cast h2
    have hd : (0 : ℚ) < q.den := by exact_mod_cast q.den_pos
    have hqe : q = q.num / q.den := (Rat.num_div_den q).symm
    rw [lt_div_iff₀ (pow2_pos _), pow2_eq, he0]
    rw [show (2 : ℚ) ^ ((Nat.log2 q.num.natAbs : ℤ) - (Nat.log2 q.den : ℤ) - 52) = 2 ^ Nat.log2 q.num.natAbs / 2 ^ Nat.log2 q.den / 2 ^ 52 by
      rw [zpow_sub₀ (by norm_num), zpow_sub₀ (by norm_num)]; norm_cast]
    have hp : (0 : ℚ) < 2 ^ Nat.log2 q.den := by positivity
    have hN : (0 : ℚ) < 2 ^ Nat.log2 q.num.natAbs := by positivity
    have e1 : (2 : ℚ) ^ 51 * (2 ^ Nat.log2 q.num.natAbs / 2 ^ Nat.log2 q.den / 2 ^ 52) = 2 ^ Nat.log2 q.num.natAbs / 2 ^ (Nat.log2 q.den + 1) := by
      rw [pow_succ]; field_simp; norm_num; ring
    rw [e1]
    conv_rhs => rw [hqe]
    calc (2 : ℚ) ^ Nat.log2 q.num.natAbs / 2 ^ (Nat.log2 q.den + 1) < 2 ^ Nat.log2 q.num.natAbs / q.den := by
          apply div_lt_div_of_pos_left hN hd h2'
      _ ≤ q.num / q.den := by apply div_le_div_of_nonneg_right h1' hd.le
  have key : ∀ e : ℤ, (2 : ℚ) ^ 52 ≤ q / pow2 e → |(roundHalfEven (q / pow2 e) : ℚ) * pow2 e - q| ≤ q / 2 ^ 53 := by
    intro e he
    have hp := pow2_pos e
    have h := roundHalfEven_err (q / pow2 e)
    have e1 : (roundHalfEven (q / pow2 e) : ℚ) * pow2 e - q = ((roundHalfEven (q / pow2 e) : ℚ) - q / pow2 e) * pow2 e := by
      field_simp
    rw [e1, abs_mul, abs_of_pos hp]
    rw [le_div_iff₀ hp] at he
    have : |(roundHalfEven (q / pow2 e) : ℚ) - q / pow2 e| * pow2 e ≤ 1 / 2 * pow2 e := mul_le_mul_of_nonneg_right h hp.le
    have h3 : 1 / 2 * pow2 e ≤ q / 2 ^ 53 := by
      rw [le_div_iff₀ (by positivity)]
      calc 1 / 2 * pow2 e * 2 ^ 53 = 2 ^ 52 * pow2 e := by ring
        _ ≤ q := he
    linarith
  split
  · apply key
    have : pow2 (e0 - 1) = pow2 e0 / 2 := by rw [pow2_eq, pow2_eq, zpow_sub₀ (by norm_num)]; simp
    rw [this, div_div_eq_mul_div]
    have hp := pow2_pos e0
    rw [mul_div_right_comm]
    linarith
  · rename_i h
    exact key e0 (not_lt.1 h)

/-- Correct rounding to 53 bits is an instance of the standard model. -/
theorem round53_rel : Spec.Rel (1 / 2 ^ 53) round53 := by
  refine ⟨by positivity, ?_⟩
  intro x
  unfold round53
  split
  · rename_i h; simp [h]
  · split
    · rename_i h
      have := roundPos_err x h
      rw [abs_of_pos h]
      linarith
    · rename_i h0 h
      have hx : 0 < -x := by
        rcases lt_trichotomy x 0 with h1 | h1 | h1
        · linarith
        · exact absurd h1 h0
        · exact absurd h1 h
      have := roundPos_err (-x) hx
      have hx' : |x| = -x := abs_of_neg (by linarith)
      rw [hx', show -roundPos (-x) - x = -(roundPos (-x) - (-x)) by ring, abs_neg]
      linarith

/-! ### accumulation of errors -/

/-- `a` is `A` up to k roundings of a quantity of size B. -/
def Near (u : ℚ) (k : ℕ) (a A B : ℚ) : Prop := |a - A| ≤ ((1 + u) ^ k - 1) * B ∧ |A| ≤ B

theorem Near.zero (u : ℚ) : Near u 0 0 0 0 := by simp [Near]

theorem Near.exact (u : ℚ) (k : ℕ) (hu : 0 ≤ u) (A : ℚ) : Near u k A A |A| := by
  refine ⟨?_, le_rfl⟩
  have : 1 ≤ (1 + u) ^ k := one_le_pow₀ (by linarith)
  simp only [sub_self, abs_zero]
  exact mul_nonneg (by linarith) (abs_nonneg _)

theorem Near.mono {u : ℚ} {k k' : ℕ} {a A B : ℚ} (hu : 0 ≤ u) (h : Near u k a A B) (hk : k ≤ k') : Near u k' a A B := by
  refine ⟨h.1.trans ?_, h.2⟩
  apply mul_le_mul_of_nonneg_right _ ((abs_nonneg _).trans h.2)
  have : (1 + u) ^ k ≤ (1 + u) ^ k' := pow_le_pow_right₀ (by linarith) hk
  linarith

theorem Near.round {u : ℚ} {rnd : ℚ → ℚ} (hr : Spec.Rel u rnd) {k : ℕ} {a A B : ℚ} (h : Near u k a A B) : Near u (k + 1) (rnd a) A B := by
  obtain ⟨hu, hr⟩ := hr
  refine ⟨?_, h.2⟩
  have h1 := hr a
  have h2 : |a| ≤ |a - A| + |A| := by have := abs_add_le (a - A) A; simpa using this
  have h3 : |rnd a - A| ≤ |rnd a - a| + |a - A| := by have := abs_add_le (rnd a - a) (a - A); simpa using this
  have hB : 0 ≤ B := (abs_nonneg _).trans h.2
  calc |rnd a - A| ≤ u * (|a - A| + |A|) + |a - A| := by nlinarith [mul_le_mul_of_nonneg_left h2 hu]
    _ = (1 + u) * |a - A| + u * |A| := by ring
    _ ≤ (1 + u) * (((1 + u) ^ k - 1) * B) + u * B := by
        have := mul_le_mul_of_nonneg_left h.1 (show 0 ≤ 1 + u by linarith)
        have := mul_le_mul_of_nonneg_left h.2 hu
        linarith
    _ = ((1 + u) ^ (k + 1) - 1) * B := by rw [pow_succ]; ring

theorem Near.add {u : ℚ} {k : ℕ} {a A B b A' B' : ℚ} (h : Near u k a A B) (h' : Near u k b A' B') : Near u k (a + b) (A + A') (B + B') := by
  refine ⟨?_, (abs_add_le _ _).trans (add_le_add h.2 h'.2)⟩
  have : a + b - (A + A') = (a - A) + (b - A') := by ring
  rw [this, mul_add]
  exact (abs_add_le _ _).trans (add_le_add h.1 h'.1)

/-- A rounded sum of two such quantities. -/
theorem Near.rnd_add {u : ℚ} {rnd : ℚ → ℚ} (hr : Spec.Rel u rnd) {k : ℕ} {a A B b A' B' : ℚ} (h : Near u k a A B) (h' : Near u k b A' B') :
    Near u (k + 1) (rnd (a + b)) (A + A') (B + B') := (h.add h').round hr

end Verif.Fl
