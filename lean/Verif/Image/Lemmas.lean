/- Lemmas on interpolation over ascending grids, for Verif.Image. -/
import Verif.Image.Model
import Verif.Image.Spec
import Mathlib.Tactic.Linarith
import Mathlib.Tactic.Ring
import Mathlib.Tactic.FieldSimp
import Mathlib.Tactic.Positivity

namespace Verif.Image

/-- Grid point i as a function. -/
noncomputable def gp (g : List ℝ) (i : ℕ) : ℝ := (g[i]?).getD 0

theorem gp_eq {g : List ℝ} {i : ℕ} (h : i < g.length) : gp g i = g[i] := by
  unfold gp; rw [List.getElem?_eq_getElem h]; rfl

theorem gp_lt {g : List ℝ} (hg : Ascending g) {i j : ℕ} (hij : i < j) (hj : j < g.length) : gp g i < gp g j := by
  rw [gp_eq hj, gp_eq (lt_trans hij hj)]
  exact List.pairwise_iff_getElem.1 hg i j _ hj hij

theorem gp_le {g : List ℝ} (hg : Ascending g) {i j : ℕ} (hij : i ≤ j) (hj : j < g.length) : gp g i ≤ gp g j := by
  rcases Nat.lt_or_eq_of_le hij with h | rfl
  · exact (gp_lt hg h hj).le
  · exact le_refl _

/-- Number of grid points ≤ x. -/
noncomputable def below (g : List ℝ) (x : ℝ) : ℕ := g.countP (fun a => decide (a ≤ x))

theorem below_le (g : List ℝ) (x : ℝ) : below g x ≤ g.length := List.countP_le_length

theorem below_iff (g : List ℝ) (hg : Ascending g) (x : ℝ) : ∀ i, i < g.length → (gp g i ≤ x ↔ i < below g x) := by
  induction g with
  | nil => intro i h; simp at h
  | cons a t ih =>
    have ht := List.pairwise_cons.1 hg
    intro i hi
    unfold below
    by_cases ha : a ≤ x
    · rw [List.countP_cons_of_pos (by simpa using ha)]
      cases i with
      | zero => simp [gp, ha]
      | succ i =>
        have := ih ht.2 i (by simpa using hi)
        unfold below at this
        rw [Nat.add_lt_add_iff_right, ← this]
        simp [gp]
    · rw [List.countP_cons_of_neg (by simpa using ha)]
      have h0 : t.countP (fun a => decide (a ≤ x)) = 0 := by
        rw [List.countP_eq_zero]
        intro b hb
        have := ht.1 b hb
        simp only [decide_eq_true_eq, not_le]
        linarith [not_le.1 ha]
      rw [h0]
      constructor
      · intro h
        exfalso
        cases i with
        | zero => simp [gp] at h; exact ha h
        | succ i =>
          have hi' : i < t.length := by simpa using hi
          have e : gp (a :: t) (i + 1) = t[i] := by rw [gp_eq hi]; rfl
          rw [e] at h
          have := ht.1 _ (List.getElem_mem hi')
          linarith [not_le.1 ha]
      · intro h; omega

/-- The interpolation cell contains the point. -/
theorem cell_contains (g : List ℝ) (hg : Ascending g) (hl : 2 ≤ g.length) (x : ℝ) (h0 : gp g 0 ≤ x)
    (h1 : x ≤ gp g (g.length - 1)) :
    cellOf g x + 1 < g.length ∧ gp g (cellOf g x) ≤ x ∧ x ≤ gp g (cellOf g x + 1) := by
  have hb := below_iff g hg x
  have hbl := below_le g x
  have hpos : 0 < below g x := (hb 0 (by omega)).1 h0
  have hc : cellOf g x = min (below g x - 1) (g.length - 2) := rfl
  have hlt : cellOf g x + 1 < g.length := by omega
  refine ⟨hlt, (hb _ (by omega)).2 (by omega), ?_⟩
  by_cases hk : below g x < g.length
  · have e : cellOf g x + 1 = below g x := by omega
    rw [e]
    have := (hb (below g x) hk).not.2 (lt_irrefl _)
    exact (not_le.1 this).le
  · have e : cellOf g x + 1 = g.length - 1 := by omega
    rw [e]; exact h1

theorem exists_cell (g : List ℝ) (hg : Ascending g) (hl : 2 ≤ g.length) (x : ℝ) (h0 : gp g 0 ≤ x)
    (h1 : x ≤ gp g (g.length - 1)) : ∃ i, i + 1 < g.length ∧ gp g i ≤ x ∧ x ≤ gp g (i + 1) :=
  ⟨_, cell_contains g hg hl x h0 h1⟩

/-- Linear interpolation does not depend on which of the cells containing the point is used. -/
theorem linear_any_cell (g : List ℝ) (hg : Ascending g) (f : ℕ → ℝ) (x : ℝ) (i j : ℕ)
    (hi : i + 1 < g.length) (hi0 : gp g i ≤ x) (hi1 : x ≤ gp g (i + 1))
    (hj : j + 1 < g.length) (hj0 : gp g j ≤ x) (hj1 : x ≤ gp g (j + 1)) :
    (1 - (x - gp g i) / (gp g (i + 1) - gp g i)) * f i + (x - gp g i) / (gp g (i + 1) - gp g i) * f (i + 1) =
    (1 - (x - gp g j) / (gp g (j + 1) - gp g j)) * f j + (x - gp g j) / (gp g (j + 1) - gp g j) * f (j + 1) := by
  have key : ∀ i j, i < j → i + 1 < g.length → gp g i ≤ x → x ≤ gp g (i + 1) → j + 1 < g.length → gp g j ≤ x →
      x ≤ gp g (j + 1) →
    (1 - (x - gp g i) / (gp g (i + 1) - gp g i)) * f i + (x - gp g i) / (gp g (i + 1) - gp g i) * f (i + 1) =
    (1 - (x - gp g j) / (gp g (j + 1) - gp g j)) * f j + (x - gp g j) / (gp g (j + 1) - gp g j) * f (j + 1) := by
    intro i j hij hi hi0 hi1 hj hj0 hj1
    have h1 : gp g (i + 1) ≤ gp g j := gp_le hg hij (by omega)
    have hx : x = gp g (i + 1) := le_antisymm hi1 (le_trans h1 hj0)
    have hjx : gp g j = gp g (i + 1) := le_antisymm (hx ▸ hj0) h1
    have e : j = i + 1 := by
      by_contra hne
      have := gp_lt hg (show i + 1 < j by omega) (by omega)
      linarith
    subst e
    have hd : gp g (i + 1) - gp g i ≠ 0 := by have := gp_lt hg (Nat.lt_succ_self i) hi; linarith
    rw [hx, div_self hd, sub_self (gp g (i + 1)), zero_div]; ring
  rcases lt_trichotomy i j with h | h | h
  · exact key i j h hi hi0 hi1 hj hj0 hj1
  · subst h; rfl
  · exact (key j i h hj hj0 hj1 hi hi0 hi1).symm

/-- np.interp is the piecewise linear profile. -/
theorem interp_profile (xp fp : List ℝ) (hx : Ascending xp) (hne : xp ≠ []) (hl : xp.length = fp.length) (ρ : ℝ) :
    Spec.IsProfile xp.length (gp xp) (gp fp) ρ (interpAt xp fp ((fp[0]?).getD 0) 0 ρ) := by
  have hlen : 0 < xp.length := List.length_pos_iff.2 hne
  have hb := below_iff xp hx ρ
  have hbl := below_le xp ρ
  have hdef : interpAt xp fp ((fp[0]?).getD 0) 0 ρ =
      if below xp ρ = 0 then gp fp 0 else if below xp ρ = xp.length then
        (if gp xp (below xp ρ - 1) < ρ then 0 else gp fp (below xp ρ - 1))
      else if gp xp (below xp ρ - 1) = ρ then gp fp (below xp ρ - 1) else
        (gp fp (below xp ρ) - gp fp (below xp ρ - 1)) / (gp xp (below xp ρ) - gp xp (below xp ρ - 1)) *
          (ρ - gp xp (below xp ρ - 1)) + gp fp (below xp ρ - 1) := rfl
  rw [hdef]
  -- value at a knot
  have knot : ∀ i, i < xp.length → ρ = gp xp i → (if below xp ρ = 0 then gp fp 0 else if below xp ρ = xp.length then
        (if gp xp (below xp ρ - 1) < ρ then 0 else gp fp (below xp ρ - 1))
      else if gp xp (below xp ρ - 1) = ρ then gp fp (below xp ρ - 1) else
        (gp fp (below xp ρ) - gp fp (below xp ρ - 1)) / (gp xp (below xp ρ) - gp xp (below xp ρ - 1)) *
          (ρ - gp xp (below xp ρ - 1)) + gp fp (below xp ρ - 1)) = gp fp i := by
    intro i hi he
    have h1 : i < below xp ρ := (hb i hi).1 he.ge
    have h2 : below xp ρ - 1 = i := by
      by_contra hc
      have h3 := (hb (below xp ρ - 1) (by omega)).2 (by omega)
      have h4 := gp_lt hx (show i < below xp ρ - 1 by omega) (by omega)
      linarith
    rw [if_neg (by omega), h2, ← he]
    simp
  refine ⟨?_, ?_, knot, ?_⟩
  · intro h
    have : ¬ 0 < below xp ρ := fun h' => absurd ((hb 0 hlen).2 h') (not_le.2 h)
    rw [if_pos (by omega)]
  · intro h
    have h1 : xp.length - 1 < below xp ρ := (hb _ (by omega)).1 h.le
    have h2 : below xp ρ = xp.length := by omega
    rw [if_neg (by omega), if_pos h2, h2, if_pos h]
  · intro i hi h0 h1
    rcases eq_or_lt_of_le h1 with he | hlt
    · rw [knot (i + 1) hi he, ← he]; ring
    · have h2 : i < below xp ρ := (hb i (by omega)).1 h0
      have h3 : ¬ i + 1 < below xp ρ := fun h' => absurd ((hb (i + 1) hi).2 h') (not_le.2 hlt)
      have e : below xp ρ - 1 = i := by omega
      have e2 : below xp ρ = i + 1 := by omega
      have hd : gp xp (i + 1) - gp xp i ≠ 0 := by have := gp_lt hx (Nat.lt_succ_self i) hi; linarith
      rw [if_neg (by omega), if_neg (by omega), e2, Nat.add_sub_cancel]
      split
      · next h => rw [← h]; ring
      · field_simp; ring

/-! ### Grids -/

theorem mesh_at (xs ys : List ℝ) (f : ℝ → ℝ → ℝ) (r : ℕ) (hr : r < ys.length) :
    (Geom.mesh xs ys f)[r]? = some (xs.map (fun x => f x ys[r])) := by
  unfold Geom.mesh
  rw [List.getElem?_map, List.getElem?_eq_getElem hr]; rfl

theorem radial_row (c ps : ℝ × ℝ) (H W r : ℕ) (hr : r < H) :
    (Geom.radialGrid c (H, W) (some ps))[r]? = some ((List.range W).map (fun col => Spec.distance c ps r col)) := by
  unfold Geom.radialGrid
  rw [mesh_at _ _ _ r (by simpa [Geom.yCoords] using hr)]
  simp only [Geom.xCoords, Geom.yCoords, Geom.pixelSize, Option.getD_some, List.getElem_map, List.getElem_range,
    List.map_map, Option.some.injEq]
  apply List.map_congr_left
  intro col _
  simp only [Function.comp, Spec.distance]
  congr 1
  ring

theorem angle_row (c ps : ℝ × ℝ) (H W r : ℕ) (hr : r < H) :
    (Geom.angleGrid c (H, W) (some ps))[r]? = some ((List.range W).map (fun col => Spec.direction c ps r col)) := by
  unfold Geom.angleGrid
  rw [mesh_at _ _ _ r (by simpa [Geom.yCoords] using hr)]
  simp only [Geom.xCoords, Geom.yCoords, Geom.pixelSize, Option.getD_some, List.getElem_map, List.getElem_range,
    List.map_map, Option.some.injEq]
  apply List.map_congr_left
  intro col _
  simp only [Function.comp, Spec.direction, Geom.arctan2]

theorem radial_length (c ps : ℝ × ℝ) (H W : ℕ) : (Geom.radialGrid c (H, W) (some ps)).length = H := by
  simp [Geom.radialGrid, Geom.mesh, Geom.yCoords]
theorem angle_length (c ps : ℝ × ℝ) (H W : ℕ) : (Geom.angleGrid c (H, W) (some ps)).length = H := by
  simp [Geom.angleGrid, Geom.mesh, Geom.yCoords]

/-! ### mod 2π -/

theorem two_pi_pos : (0 : ℝ) < 2 * Real.pi := by have := Real.pi_pos; linarith

theorem mod2pi_range (x : ℝ) : 0 ≤ mod2pi x ∧ mod2pi x < 2 * Real.pi := by
  have hp := two_pi_pos
  have h1 := Int.floor_le (x / (2 * Real.pi))
  have h2 := Int.lt_floor_add_one (x / (2 * Real.pi))
  rw [le_div_iff₀ hp] at h1
  rw [div_lt_iff₀ hp] at h2
  unfold mod2pi
  constructor <;> nlinarith

theorem mod2pi_eq (x y : ℝ) (k : ℤ) (h : x = y + 2 * Real.pi * k) (h0 : 0 ≤ y) (h1 : y < 2 * Real.pi) :
    mod2pi x = y := by
  have hp := two_pi_pos
  have : ⌊x / (2 * Real.pi)⌋ = k := by
    rw [Int.floor_eq_iff]
    constructor
    · rw [le_div_iff₀ hp, h]; linarith
    · rw [div_lt_iff₀ hp, h]; linarith
  unfold mod2pi
  rw [this, h]; ring

theorem mod2pi_self (y : ℝ) (h0 : 0 ≤ y) (h1 : y < 2 * Real.pi) : mod2pi y = y :=
  mod2pi_eq y y 0 (by simp) h0 h1

end Verif.Image
