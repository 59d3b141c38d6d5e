import Verif.Binned.Spec
import Verif.NpLemmas
import Mathlib.Tactic.NormNum.Pow

namespace Verif.Binned
open Verif

theorem pow10_pos (e : ℤ) : 0 < pow10 e := by unfold pow10; split <;> positivity

theorem pow10_eq (e : ℤ) : pow10 e = (10 : ℚ) ^ e := by
  unfold pow10
  split
  · next h => conv_rhs => rw [← Int.toNat_of_nonneg h]
              rw [zpow_natCast]
  · next h => conv_rhs => rw [← neg_neg e, ← Int.toNat_of_nonneg (show 0 ≤ -e by omega)]
              rw [zpow_neg, zpow_natCast, one_div]

theorem sameRounded_close (d : ℤ) (x y : ℚ) (h : sameRounded d x y) : |x - y| ≤ 1 / pow10 d := by
  have h1 := Np.roundHalfEven_close (x * pow10 d)
  have h2 := Np.roundHalfEven_close (y * pow10 d)
  unfold sameRounded at h
  rw [h] at h1
  have hp := pow10_pos d
  rw [abs_le] at h1 h2
  have hx : |(x - y) * pow10 d| ≤ 1 := by rw [abs_le]; constructor <;> linarith [h1.1, h1.2, h2.1, h2.2]
  rw [abs_mul, abs_of_pos hp] at hx
  rw [le_div_iff₀ hp]; exact hx

/-- The rounding distance is at most 10^-5 of the width. -/
theorem tol_le (w : ℚ) (hw : 0 < w) : 1 / pow10 (truncNegLog10 w + 6) ≤ w / 10 ^ 5 := by
  rw [pow10_eq, zpow_add₀ (by norm_num)]
  unfold truncNegLog10
  split
  · next h1 =>
    rw [zpow_natCast]
    have hge : 1 ≤ 1 / w := by rw [le_div_iff₀ hw]; linarith
    set m := ⌊1 / w⌋.toNat
    have hm : ((m : ℤ)) = ⌊1 / w⌋ := Int.toNat_of_nonneg (Int.floor_nonneg.2 (by linarith))
    have hlt : 1 / w < (m : ℚ) + 1 := by
      have := Int.lt_floor_add_one (1 / w)
      rw [← hm] at this; exact_mod_cast this
    have hlog : m < 10 ^ (Nat.log 10 m + 1) := Nat.lt_pow_succ_log_self (by norm_num) m
    have hlog' : (m : ℚ) + 1 ≤ 10 ^ (Nat.log 10 m + 1) := by exact_mod_cast hlog
    have key : 1 / w ≤ 10 ^ (Nat.log 10 m) * 10 := by rw [← pow_succ]; linarith
    have hp : (0 : ℚ) < 10 ^ (Nat.log 10 m) := by positivity
    rw [div_le_div_iff₀ (by positivity) (by norm_num)]
    rw [div_le_iff₀ hw] at key
    have e6 : (10 : ℚ) ^ (6 : ℤ) = 10 ^ 6 := by norm_num
    rw [e6]
    nlinarith
  · next h1 =>
    push Not at h1
    rw [zpow_neg, zpow_natCast]
    set m := ⌊w⌋.toNat
    have hm : ((m : ℤ)) = ⌊w⌋ := Int.toNat_of_nonneg (Int.floor_nonneg.2 (by linarith))
    have hm1 : 1 ≤ m := by
      have : (1 : ℤ) ≤ ⌊w⌋ := Int.le_floor.2 (by push_cast; linarith)
      omega
    have hle : (m : ℚ) ≤ w := by have := Int.floor_le w; rw [← hm] at this; exact_mod_cast this
    have hlog : 10 ^ (Nat.log 10 m) ≤ m := Nat.pow_log_le_self 10 (by omega)
    have hlog' : (10 : ℚ) ^ (Nat.log 10 m) ≤ m := by exact_mod_cast hlog
    have hp : (0 : ℚ) < 10 ^ (Nat.log 10 m) := by positivity
    have e6 : (10 : ℚ) ^ (6 : ℤ) = 10 ^ 6 := by norm_num
    rw [e6, one_div, mul_inv, inv_inv]
    rw [le_div_iff₀ (by norm_num)]
    have : (10 : ℚ) ^ (Nat.log 10 m) ≤ w := by linarith
    nlinarith

theorem mem_diff (l : List ℚ) (d : ℚ) (h : d ∈ Np.diff l) : ∃ k : ℕ, ∃ a b, l[k]? = some a ∧ l[k+1]? = some b ∧ d = b - a := by
  induction l with
  | nil => simp [Np.diff] at h
  | cons x t ih =>
    cases t with
    | nil => simp [Np.diff] at h
    | cons y t =>
      simp only [Np.diff, List.mem_cons] at h
      rcases h with rfl | h
      · exact ⟨0, x, y, by simp, by simp, rfl⟩
      · obtain ⟨k, a, b, h1, h2, h3⟩ := ih h
        exact ⟨k + 1, a, b, by simpa using h1, by simpa using h2, h3⟩

theorem pairwise_lt_get (e : List ℚ) (h : e.Pairwise (· < ·)) (i j : ℕ) (a b : ℚ) (hij : i < j) (ha : e[i]? = some a)
    (hb : e[j]? = some b) : a < b := by
  rw [List.getElem?_eq_some_iff] at ha hb
  obtain ⟨h1, rfl⟩ := ha
  obtain ⟨h2, rfl⟩ := hb
  exact List.pairwise_iff_getElem.1 h i j h1 h2 hij

theorem minWidth_spec (e : List ℚ) (he : Spec.Edges e) : 0 < minWidth e ∧
    ∀ (k : ℕ) a b, e[k]? = some a → e[k+1]? = some b → minWidth e ≤ b - a := by
  have hl := Np.length_diff e
  have hne : Np.diff e ≠ [] := by intro h; rw [h] at hl; have := he.1; simp at hl; omega
  cases hm : (Np.diff e).min? with
  | none => rw [List.min?_eq_none_iff] at hm; exact absurd hm hne
  | some m =>
    obtain ⟨h1, h2⟩ := List.min?_eq_some_iff.1 hm
    unfold minWidth
    rw [hm]
    constructor
    · obtain ⟨k, a, b, ha, hb, hd⟩ := mem_diff e m h1
      have := pairwise_lt_get e he.2 k (k+1) a b (by omega) ha hb
      show 0 < m
      linarith
    · intro k a b ha hb
      exact h2 _ (List.mem_of_getElem? (Np.getElem?_diff e k a b ha hb))

theorem getLast?_eq_get (e : List ℚ) : e.getLast? = e[e.length - 1]? := List.getLast?_eq_getElem?

/-- A sample within the rounding distance of the last edge is above the edge before it, so the decrement never
produces a negative bin number. -/
theorem digitize_pos (e : List ℚ) (he : Spec.Edges e) (x : ℚ) (h : sameRounded (decimals e) x (e.getLast?.getD 0)) :
    1 ≤ Np.digitize e x := by
  have hlen := he.1
  obtain ⟨b, hb⟩ : ∃ b, e[e.length - 1]? = some b := ⟨_, List.getElem?_eq_getElem (by omega)⟩
  obtain ⟨a, ha⟩ : ∃ a, e[e.length - 2]? = some a := ⟨_, List.getElem?_eq_getElem (by omega)⟩
  rw [getLast?_eq_get, hb] at h
  have h1 := sameRounded_close _ _ _ h
  obtain ⟨hw, hmin⟩ := minWidth_spec e he
  have h2 := tol_le (minWidth e) hw
  have h3 := hmin (e.length - 2) a b ha (by rw [show e.length - 2 + 1 = e.length - 1 by omega]; exact hb)
  have h4 : |x - b| ≤ minWidth e / 10 ^ 5 := le_trans h1 h2
  rw [abs_le] at h4
  have : a ≤ x := by
    have : minWidth e / 10 ^ 5 ≤ minWidth e := by rw [div_le_iff₀ (by norm_num)]; nlinarith
    linarith [h4.1]
  have := (Np.getElem?_le_iff_digitize e (he.2.imp le_of_lt) x (e.length - 2) a ha).1 this
  omega

theorem binNo_iff (e : List ℚ) (he : Spec.Edges e) (x : ℚ) (hx : Spec.Clear e x) (i : ℕ) (hi : i + 1 < e.length) :
    binNo e x = i + 1 ↔ Spec.inBin e i x := by
  have hlen := he.1
  obtain ⟨last, hlast⟩ : ∃ b, e[e.length - 1]? = some b := ⟨_, List.getElem?_eq_getElem (by omega)⟩
  have hl' : e.getLast? = some last := by rw [getLast?_eq_get, hlast]
  obtain ⟨a, ha⟩ : ∃ b, e[i]? = some b := ⟨_, List.getElem?_eq_getElem (by omega)⟩
  obtain ⟨b, hb⟩ : ∃ b, e[i+1]? = some b := ⟨_, List.getElem?_eq_getElem (by omega)⟩
  have hle := he.2.imp le_of_lt
  have ka := Np.getElem?_le_iff_digitize e hle x i a ha
  have kb := Np.getElem?_le_iff_digitize e hle x (i+1) b hb
  have kl := Np.getElem?_le_iff_digitize e hle x (e.length - 1) last hlast
  have hd := Np.digitize_le_length e x
  unfold binNo Spec.inBin
  rw [ha, hb, hl']
  simp only [Option.getD_some]
  rcases hx last hl' with rfl | hfar
  · rw [if_pos (show sameRounded (decimals e) x x from rfl)]
    have h1 : e.length - 1 < Np.digitize e x := kl.1 le_rfl
    have h2 : Np.digitize e x = e.length := by omega
    rw [h2]
    constructor
    · intro h
      have : i + 1 = e.length - 1 := by omega
      rw [this, hlast] at hb
      simp only [Option.some.injEq] at hb
      exact ⟨ka.2 (by omega), Or.inr ⟨hb, by omega⟩⟩
    · rintro ⟨_, h | h⟩
      · exact absurd (kb.2 (by omega)) (not_le.2 h)
      · omega
  · rw [if_neg]
    · constructor
      · intro h
        refine ⟨ka.2 (by omega), Or.inl ?_⟩
        by_contra hc; push Not at hc
        have := kb.1 hc; omega
      · rintro ⟨h1, h2 | h2⟩
        · have := ka.1 h1
          have : ¬ (i + 1 < Np.digitize e x) := fun h => absurd (kb.2 h) (not_le.2 h2)
          omega
        · exfalso
          have : i + 1 = e.length - 1 := by omega
          rw [this, hlast] at hb
          simp only [Option.some.injEq] at hb
          rw [h2.1, hb] at hfar
          have := (minWidth_spec e he).1
          simp at hfar
          have : 0 < minWidth e / 10 ^ 5 := by positivity
          linarith
    · intro h
      have h1 := sameRounded_close _ _ _ h
      have h2 := tol_le (minWidth e) (minWidth_spec e he).1
      unfold decimals at h1
      linarith

theorem binNo_lt (e : List ℚ) (x : ℚ) : binNo e x < e.length + 1 := by
  have := Np.digitize_le_length e x
  unfold binNo
  simp only
  split <;> omega

end Verif.Binned
