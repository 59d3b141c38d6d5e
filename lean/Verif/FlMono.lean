/- `Fl.round53` is a correct rounding: it is monotone, leaves doubles alone and commutes with factors of two and signs. -/
import Verif.FlProps

namespace Verif.Fl

/-- What is needed of a correct rounding besides accuracy: order is kept, rounded numbers are left alone, doubling and
changing the sign are exact. -/
structure Spec.Correct (rnd : ℚ → ℚ) : Prop where
  mono : ∀ x y, x ≤ y → rnd x ≤ rnd y
  idem : ∀ x, rnd (rnd x) = rnd x
  two : ∀ x, rnd (2 * x) = 2 * rnd x
  neg : ∀ x, rnd (-x) = - rnd x

theorem rhe_mono (p q : ℚ) (h : p ≤ q) : roundHalfEven p ≤ roundHalfEven q := by
  have hf : ⌊p⌋ ≤ ⌊q⌋ := Int.floor_le_floor h
  have up : roundHalfEven p ≤ ⌊p⌋ + 1 := by unfold roundHalfEven; simp only; split_ifs <;> omega
  have dn : ⌊q⌋ ≤ roundHalfEven q := by unfold roundHalfEven; simp only; split_ifs <;> omega
  rcases hf.lt_or_eq with hlt | heq
  · omega
  · have hr : p - ⌊p⌋ ≤ q - ⌊q⌋ := by rw [heq]; linarith
    unfold roundHalfEven
    simp only [heq] at hr ⊢
    split_ifs <;> first | omega | (exfalso; linarith)

theorem rhe_int (n : ℤ) : roundHalfEven (n : ℚ) = n := by
  unfold roundHalfEven
  simp only [Int.floor_intCast, sub_self]
  rw [if_pos (by norm_num)]

/-- The exponent. -/
theorem roundPos_exp (q : ℚ) (hq : 0 < q) : ∃ e : ℤ, (2 : ℚ) ^ (52 : ℤ) * 2 ^ e ≤ q ∧ q < 2 ^ (53 : ℤ) * 2 ^ e ∧
    roundPos q = (roundHalfEven (q / 2 ^ e) : ℚ) * 2 ^ e := by
  unfold roundPos
  simp only
  set e0 : ℤ := (Nat.log2 q.num.natAbs : ℤ) - (Nat.log2 q.den : ℤ) - 52 with he0
  have hnum : 0 < q.num := Rat.num_pos.2 hq
  have hn0 : q.num.natAbs ≠ 0 := by omega
  have h1 : 2 ^ Nat.log2 q.num.natAbs ≤ q.num.natAbs := Nat.log2_self_le hn0
  have h1u : q.num.natAbs < 2 ^ (Nat.log2 q.num.natAbs + 1) := Nat.lt_log2_self
  have h2 : q.den < 2 ^ (Nat.log2 q.den + 1) := Nat.lt_log2_self
  have h2l : 2 ^ Nat.log2 q.den ≤ q.den := Nat.log2_self_le q.den_pos.ne'
  have h3 : (q.num.natAbs : ℚ) = (q.num : ℚ) := by rw [Nat.cast_natAbs, abs_of_pos hnum]
  have h1' : ((2 : ℚ) ^ Nat.log2 q.num.natAbs) ≤ (q.num : ℚ) := by rw [← h3]; exact_mod_cast h1
  have h1u' : (q.num : ℚ) < (2 : ℚ) ^ (Nat.log2 q.num.natAbs + 1) := by rw [← h3]; exact_mod_cast h1u
  have h2' : (q.den : ℚ) < (2 : ℚ) ^ (Nat.log2 q.den + 1) := by exact_mod_cast h2
  have h2l' : (2 : ℚ) ^ Nat.log2 q.den ≤ (q.den : ℚ) := by exact_mod_cast h2l
  have hd : (0 : ℚ) < q.den := by exact_mod_cast q.den_pos
  have hqe : q = q.num / q.den := (Rat.num_div_den q).symm
  have hE : (2 : ℚ) ^ e0 = 2 ^ Nat.log2 q.num.natAbs / 2 ^ Nat.log2 q.den / 2 ^ 52 := by
    rw [he0, zpow_sub₀ (by norm_num), zpow_sub₀ (by norm_num)]; norm_cast
  have hp : (0 : ℚ) < 2 ^ Nat.log2 q.den := by positivity
  have hN : (0 : ℚ) < 2 ^ Nat.log2 q.num.natAbs := by positivity
  have low : (2 : ℚ) ^ (51 : ℤ) * 2 ^ e0 ≤ q := by
    have e1 : (2 : ℚ) ^ (51 : ℤ) * 2 ^ e0 = 2 ^ Nat.log2 q.num.natAbs / 2 ^ (Nat.log2 q.den + 1) := by
      rw [hE, pow_succ]; field_simp; norm_num; ring
    rw [e1]
    conv_rhs => rw [hqe]
    calc (2 : ℚ) ^ Nat.log2 q.num.natAbs / 2 ^ (Nat.log2 q.den + 1) ≤ 2 ^ Nat.log2 q.num.natAbs / q.den := by
          apply div_le_div_of_nonneg_left hN.le hd h2'.le
      _ ≤ q.num / q.den := by apply div_le_div_of_nonneg_right h1' hd.le
  have high : q < (2 : ℚ) ^ (53 : ℤ) * 2 ^ e0 := by
    have e1 : (2 : ℚ) ^ (53 : ℤ) * 2 ^ e0 = 2 ^ (Nat.log2 q.num.natAbs + 1) / 2 ^ Nat.log2 q.den := by
      rw [hE, pow_succ]; field_simp; norm_num [pow_succ]; try ring
    rw [e1]
    conv_lhs => rw [hqe]
    calc (q.num : ℚ) / q.den < 2 ^ (Nat.log2 q.num.natAbs + 1) / q.den := by apply div_lt_div_of_pos_right h1u' hd
      _ ≤ 2 ^ (Nat.log2 q.num.natAbs + 1) / 2 ^ Nat.log2 q.den := by apply div_le_div_of_nonneg_left (by positivity) hp h2l'
  have hE0 : (0 : ℚ) < 2 ^ e0 := zpow_pos (by norm_num) _
  rw [pow2_eq e0]
  by_cases hs : q / 2 ^ e0 < 2 ^ 52
  · rw [if_pos hs]
    refine ⟨e0 - 1, ?_, ?_, by rw [pow2_eq]⟩
    · rw [zpow_sub₀ (by norm_num)]
      have : (2 : ℚ) ^ (52 : ℤ) * (2 ^ e0 / 2 ^ (1 : ℤ)) = 2 ^ (51 : ℤ) * 2 ^ e0 := by norm_num; ring
      rw [this]; exact low
    · rw [div_lt_iff₀ hE0] at hs
      rw [zpow_sub₀ (by norm_num)]
      have : (2 : ℚ) ^ (53 : ℤ) * (2 ^ e0 / 2 ^ (1 : ℤ)) = 2 ^ 52 * 2 ^ e0 := by norm_num; ring
      rw [this]; exact hs
  · rw [if_neg hs]
    refine ⟨e0, ?_, high, by rw [pow2_eq]⟩
    rw [not_lt, le_div_iff₀ hE0] at hs
    exact_mod_cast hs

theorem exp_le {p q : ℚ} {e f : ℤ} (hpq : p ≤ q) (h1 : (2 : ℚ) ^ (52 : ℤ) * 2 ^ e ≤ p) (h2 : q < 2 ^ (53 : ℤ) * 2 ^ f) : e ≤ f := by
  have h : (2 : ℚ) ^ (52 + e) < 2 ^ (53 + f) := by
    rw [zpow_add₀ (by norm_num), zpow_add₀ (by norm_num)]
    linarith
  have := (zpow_lt_zpow_iff_right₀ (by norm_num : (1 : ℚ) < 2)).1 h
  omega

theorem rhe_range (q : ℚ) (e : ℤ) (h1 : (2 : ℚ) ^ (52 : ℤ) * 2 ^ e ≤ q) (h2 : q < 2 ^ (53 : ℤ) * 2 ^ e) :
    2 ^ 52 ≤ roundHalfEven (q / 2 ^ e) ∧ roundHalfEven (q / 2 ^ e) ≤ 2 ^ 53 := by
  have hE : (0 : ℚ) < 2 ^ e := zpow_pos (by norm_num) _
  constructor
  · rw [← rhe_int (2 ^ 52)]
    apply rhe_mono
    rw [le_div_iff₀ hE]
    exact_mod_cast h1
  · rw [← rhe_int (2 ^ 53)]
    apply rhe_mono
    rw [div_le_iff₀ hE]
    have := h2.le
    exact_mod_cast this

theorem roundPos_mono (p q : ℚ) (hp : 0 < p) (h : p ≤ q) : roundPos p ≤ roundPos q := by
  obtain ⟨e, a1, a2, a3⟩ := roundPos_exp p hp
  obtain ⟨f, b1, b2, b3⟩ := roundPos_exp q (hp.trans_le h)
  have hef := exp_le h a1 b2
  have hE : (0 : ℚ) < 2 ^ e := zpow_pos (by norm_num) _
  have hF : (0 : ℚ) < 2 ^ f := zpow_pos (by norm_num) _
  rw [a3, b3]
  rcases hef.lt_or_eq with hlt | heq
  · have ra := (rhe_range p e a1 a2).2
    have rb := (rhe_range q f b1 b2).1
    have h1 : (2 : ℚ) * 2 ^ e ≤ 2 ^ f := by
      rw [← zpow_one_add₀ (by norm_num)]
      exact zpow_le_zpow_right₀ (by norm_num) (by omega)
    have ra' : (roundHalfEven (p / 2 ^ e) : ℚ) ≤ 2 ^ 53 := by exact_mod_cast ra
    have rb' : (2 : ℚ) ^ 52 ≤ (roundHalfEven (q / 2 ^ f) : ℚ) := by exact_mod_cast rb
    calc (roundHalfEven (p / 2 ^ e) : ℚ) * 2 ^ e ≤ 2 ^ 53 * 2 ^ e := mul_le_mul_of_nonneg_right ra' hE.le
      _ = 2 ^ 52 * (2 * 2 ^ e) := by ring
      _ ≤ 2 ^ 52 * 2 ^ f := by linarith
      _ ≤ _ := mul_le_mul_of_nonneg_right rb' hF.le
  · subst heq
    apply mul_le_mul_of_nonneg_right _ hE.le
    have := rhe_mono (p / 2 ^ e) (q / 2 ^ e) (by apply div_le_div_of_nonneg_right h hE.le)
    exact_mod_cast this

theorem roundPos_pos (q : ℚ) (hq : 0 < q) : 0 < roundPos q := by
  obtain ⟨e, a1, a2, a3⟩ := roundPos_exp q hq
  have r := (rhe_range q e a1 a2).1
  have : (0 : ℚ) < (roundHalfEven (q / 2 ^ e) : ℚ) := by
    have : 0 < roundHalfEven (q / 2 ^ e) := by omega
    exact_mod_cast this
  rw [a3]; exact mul_pos this (zpow_pos (by norm_num) _)

/-- Numbers with at most 53 significant bits are left alone. -/
theorem roundPos_fix (N : ℤ) (hN0 : 0 < N) (hN : N ≤ 2 ^ 53) (e : ℤ) : roundPos (N * 2 ^ e) = N * 2 ^ e := by
  have hE : (0 : ℚ) < 2 ^ e := zpow_pos (by norm_num) _
  have hNq : (0 : ℚ) < N := by exact_mod_cast hN0
  have hNq' : (N : ℚ) ≤ 2 ^ 53 := by exact_mod_cast hN
  obtain ⟨f, b1, b2, b3⟩ := roundPos_exp ((N : ℚ) * 2 ^ e) (mul_pos hNq hE)
  have hF : (0 : ℚ) < 2 ^ f := zpow_pos (by norm_num) _
  rw [b3]
  have hfe : f ≤ e + 1 := by
    have h : (2 : ℚ) ^ (52 + f) ≤ 2 ^ (53 + e) := by
      rw [zpow_add₀ (by norm_num), zpow_add₀ (by norm_num)]
      refine b1.trans ?_
      have := mul_le_mul_of_nonneg_right hNq' hE.le
      exact_mod_cast this
    have := (zpow_le_zpow_iff_right₀ (by norm_num : (1 : ℚ) < 2)).1 h
    omega
  have hint : ∃ M : ℤ, (N : ℚ) * 2 ^ e / 2 ^ f = M := by
    rcases hfe.lt_or_eq with hlt | heq
    · obtain ⟨d, hd⟩ : ∃ d : ℕ, e = f + d := ⟨(e - f).toNat, by omega⟩
      refine ⟨N * 2 ^ d, ?_⟩
      rw [hd, zpow_add₀ (by norm_num)]
      push_cast
      field_simp
      rw [zpow_natCast]
    · have h53 : (N : ℚ) = 2 ^ 53 := by
        apply le_antisymm hNq'
        rw [heq, zpow_add₀ (by norm_num)] at b1
        have : (2 : ℚ) ^ (52 : ℤ) * (2 ^ e * 2 ^ (1 : ℤ)) = 2 ^ 53 * 2 ^ e := by norm_num; ring
        rw [this] at b1
        exact le_of_mul_le_mul_right b1 hE
      refine ⟨2 ^ 52, ?_⟩
      rw [h53, heq, zpow_add₀ (by norm_num)]
      field_simp
      norm_num
  obtain ⟨M, hM⟩ := hint
  rw [hM, rhe_int, ← hM]
  field_simp

theorem round53_mul_two_zpow (x : ℚ) (hx : 0 < x) : roundPos (2 * x) = 2 * roundPos x := by
  obtain ⟨e, a1, a2, a3⟩ := roundPos_exp x hx
  obtain ⟨f, b1, b2, b3⟩ := roundPos_exp (2 * x) (by linarith)
  have z : ∀ k : ℤ, (2 : ℚ) ^ (k + 1) = 2 * 2 ^ k := fun k => by rw [zpow_add_one₀ (by norm_num), mul_comm]
  have h1 : f ≤ e + 1 := exp_le (le_refl (2 * x)) b1 (by rw [z]; linarith)
  have h2 : e + 1 ≤ f := exp_le (le_refl (2 * x)) (by rw [z]; linarith) b2
  have hf : f = e + 1 := le_antisymm h1 h2
  subst hf
  rw [b3, a3, z]
  have hE : (0 : ℚ) < 2 ^ e := zpow_pos (by norm_num) _
  rw [show 2 * x / (2 * 2 ^ e) = x / 2 ^ e by field_simp]
  ring

/-- Double precision (without overflow and underflow) is a correct rounding. -/
theorem round53_correct : Spec.Correct round53 := by
  have hneg : ∀ x, round53 (-x) = - round53 x := by
    intro x
    unfold round53
    rcases lt_trichotomy x 0 with h | h | h
    · rw [if_neg (by linarith), if_pos (by linarith), if_neg h.ne, if_neg (by linarith), neg_neg]
    · subst h; simp
    · rw [if_neg (by linarith), if_neg (by linarith), if_neg h.ne', if_pos h, neg_neg]
  have hpos : ∀ x, 0 < x → round53 x = roundPos x := fun x h => by unfold round53; rw [if_neg h.ne', if_pos h]
  have h0 : round53 0 = 0 := by simp [round53]
  have hidem : ∀ x, 0 < x → round53 (round53 x) = round53 x := by
    intro x hx
    rw [hpos x hx, hpos _ (roundPos_pos x hx)]
    obtain ⟨e, a1, a2, a3⟩ := roundPos_exp x hx
    have r := rhe_range x e a1 a2
    rw [a3]
    exact roundPos_fix _ (by omega) r.2 e
  have htwo : ∀ x, 0 < x → round53 (2 * x) = 2 * round53 x := by
    intro x hx
    rw [hpos x hx, hpos _ (by linarith), round53_mul_two_zpow x hx]
  have hmono : ∀ x y, 0 < x → x ≤ y → round53 x ≤ round53 y := by
    intro x y hx hxy
    rw [hpos x hx, hpos y (hx.trans_le hxy)]
    exact roundPos_mono x y hx hxy
  have hp : ∀ x, 0 < x → 0 < round53 x := fun x hx => by rw [hpos x hx]; exact roundPos_pos x hx
  refine ⟨fun x y hxy => ?_, fun x => ?_, fun x => ?_, hneg⟩
  · rcases lt_trichotomy x 0 with h | h | h
    · have hx : round53 x = - round53 (-x) := by rw [hneg, neg_neg]
      have px := hp (-x) (by linarith)
      rcases lt_trichotomy y 0 with h' | h' | h'
      · have hy : round53 y = - round53 (-y) := by rw [hneg, neg_neg]
        rw [hx, hy]
        have := hmono (-y) (-x) (by linarith) (by linarith)
        linarith
      · subst h'; rw [h0, hx]; linarith
      · have := hp y h'; rw [hx]; linarith
    · subst h
      rw [h0]
      rcases hxy.lt_or_eq with h' | h'
      · exact (hp y h').le
      · rw [← h', h0]
    · exact hmono x y h hxy
  · rcases lt_trichotomy x 0 with h | h | h
    · have hx : round53 x = - round53 (-x) := by rw [hneg, neg_neg]
      rw [hx, hneg, hidem (-x) (by linarith)]
    · subst h; rw [h0, h0]
    · exact hidem x h
  · rcases lt_trichotomy x 0 with h | h | h
    · have hx : round53 x = - round53 (-x) := by rw [hneg, neg_neg]
      rw [hx, show 2 * x = -(2 * (-x)) by ring, hneg, htwo (-x) (by linarith)]; ring
    · subst h; simp [h0]
    · exact htwo x h

theorem Spec.Correct.zero {rnd : ℚ → ℚ} (h : Spec.Correct rnd) : rnd 0 = 0 := by
  have := h.two 0
  rw [mul_zero] at this
  linarith

theorem Spec.Correct.half {rnd : ℚ → ℚ} (h : Spec.Correct rnd) (x : ℚ) : rnd (x / 2) = rnd x / 2 := by
  have := h.two (x / 2)
  rw [show 2 * (x / 2) = x by ring] at this
  linarith

end Verif.Fl
