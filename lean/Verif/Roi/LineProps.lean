/- Property C154: labelled lines. -/
import Verif.Roi.Lines
import Mathlib.Tactic.Linarith

namespace Verif.Roi
open Verif

/-- What is relied on of the drawing routine: the line contains both its ends and stays within the box they span. -/
def Spec.Draws (line : LineFn) : Prop := ∀ a b c d, (a, b) ∈ line a b c d ∧ (c, d) ∈ line a b c d ∧
  ∀ p ∈ line a b c d, min a c ≤ p.1 ∧ p.1 ≤ max a c ∧ min b d ≤ p.2 ∧ p.2 ≤ max b d

/-- Four numbers: a start that is not beyond the image, an end that is not before it. -/
def Spec.Fits (shape : ℕ × ℕ) (q : List ℤ) : Prop :=
  ∃ x0 y0 x1 y1, q = [x0, y0, x1, y1] ∧ x0 < shape.1 ∧ y0 < shape.2 ∧ 0 ≤ x1 ∧ 0 ≤ y1

/-- Pixel (r, c) is on the line drawn for q: from the start (negative coordinates moved to 0) to the end (coordinates
beyond the image moved to the last row or column). -/
def Spec.On (line : LineFn) (shape : ℕ × ℕ) (q : List ℤ) (r c : ℕ) : Prop :=
  ∃ x0 y0 x1 y1, q = [x0, y0, x1, y1] ∧
    ((r : ℤ), (c : ℤ)) ∈ line (if x0 < 0 then 0 else x0) (if y0 < 0 then 0 else y0) (if x1 < shape.1 then x1 else shape.1 - 1) (if y1 < shape.2 then y1 else shape.2 - 1)

theorem assign_fits (line : LineFn) (hd : Spec.Draws line) (shape : ℕ × ℕ) (q : List ℤ) (hf : Spec.Fits shape q) (hs : 0 < shape.1 ∧ 0 < shape.2) (L : ℕ → ℕ → ℕ) (n : ℕ) :
    ∃ x0 y0 x1 y1 L', q = [x0, y0, x1, y1] ∧
      assign shape L (line (max x0 0) (max y0 0) (min x1 (shape.1 - 1)) (min y1 (shape.2 - 1))) n = .ok L' ∧
      ∀ r c, (Spec.On line shape q r c → L' r c = n) ∧ (¬ Spec.On line shape q r c → L' r c = L r c) := by
  obtain ⟨x0, y0, x1, y1, hq, h1, h2, h3, h4⟩ := hf
  have e1 : (if x0 < 0 then 0 else x0) = max x0 0 := by split <;> omega
  have e2 : (if y0 < 0 then 0 else y0) = max y0 0 := by split <;> omega
  have e3 : (if x1 < shape.1 then x1 else (shape.1 : ℤ) - 1) = min x1 (shape.1 - 1) := by split <;> omega
  have e4 : (if y1 < shape.2 then y1 else (shape.2 : ℤ) - 1) = min y1 (shape.2 - 1) := by split <;> omega
  set px := line (max x0 0) (max y0 0) (min x1 (shape.1 - 1)) (min y1 (shape.2 - 1)) with hpx
  have hb : ∀ p ∈ px, 0 ≤ p.1 ∧ p.1 < shape.1 ∧ 0 ≤ p.2 ∧ p.2 < shape.2 := by
    intro p hp
    obtain ⟨g1, g2, g3, g4⟩ := (hd _ _ _ _).2.2 p hp
    omega
  have hon : ∀ r c : ℕ, Spec.On line shape q r c ↔ ((r : ℤ), (c : ℤ)) ∈ px := by
    intro r c
    constructor
    · rintro ⟨a, b, a', b', he, hm⟩
      rw [hq] at he
      injection he with i1 he; injection he with i2 he; injection he with i3 he; injection he with i4 he
      subst i1 i2 i3 i4
      rwa [e1, e2, e3, e4] at hm
    · intro hm
      exact ⟨x0, y0, x1, y1, hq, by rwa [e1, e2, e3, e4]⟩
  have hall : px.all (fun p => npValid shape.1 p.1 && npValid shape.2 p.2) = true := by
    rw [List.all_eq_true]
    intro p hp
    have := hb p hp
    simp only [npValid, Bool.and_eq_true, decide_eq_true_eq]
    omega
  have hany : ∀ r c : ℕ, px.any (fun p => npIndex shape.1 p.1 = r && npIndex shape.2 p.2 = c) = true ↔ ((r : ℤ), (c : ℤ)) ∈ px := by
    intro r c
    rw [List.any_eq_true]
    constructor
    · rintro ⟨p, hp, hh⟩
      have := hb p hp
      simp only [Bool.and_eq_true, decide_eq_true_eq] at hh
      unfold npIndex at hh
      rw [if_neg (by omega), if_neg (by omega)] at hh
      rw [← hh.1, ← hh.2]; exact hp
    · intro hp
      refine ⟨_, hp, ?_⟩
      simp only [Bool.and_eq_true, decide_eq_true_eq]
      unfold npIndex
      rw [if_neg (by omega), if_neg (by omega)]
      exact ⟨rfl, rfl⟩
  refine ⟨x0, y0, x1, y1, _, hq, by unfold assign; rw [if_pos hall], ?_⟩
  intro r c
  constructor
  · intro h; rw [if_pos ((hany r c).2 ((hon r c).1 h))]
  · intro h; rw [if_neg (fun g => h ((hon r c).2 ((hany r c).1 g)))]

theorem linesLoop_ok (line : LineFn) (hd : Spec.Draws line) (shape : ℕ × ℕ) (hs : 0 < shape.1 ∧ 0 < shape.2) (qs : List (List ℤ))
    (hf : ∀ q ∈ qs, Spec.Fits shape q) (n : ℕ) (L : ℕ → ℕ → ℕ) :
    ∃ L', linesLoop line shape n qs L = .ok L' ∧ ∀ r c,
      (L' r c = L r c ∧ ∀ q ∈ qs, ¬ Spec.On line shape q r c) ∨
      (∃ i q, qs[i]? = some q ∧ Spec.On line shape q r c ∧ L' r c = n + i + 1 ∧ ∀ j q', i < j → qs[j]? = some q' → ¬ Spec.On line shape q' r c) := by
  induction qs generalizing n L with
  | nil => exact ⟨L, rfl, fun r c => Or.inl ⟨rfl, by simp⟩⟩
  | cons q t ih =>
    obtain ⟨x0, y0, x1, y1, L1, hq, ha, hL⟩ := assign_fits line hd shape q (hf q (by simp)) hs L (n + 1)
    obtain ⟨L2, h2, h3⟩ := ih (fun q hq => hf q (by simp [hq])) (n + 1) L1
    refine ⟨L2, ?_, ?_⟩
    · rw [hq]
      unfold linesLoop
      rw [ha]
      exact h2
    · intro r c
      rcases h3 r c with ⟨g1, g2⟩ | ⟨i, q', g1, g2, g3, g4⟩
      · by_cases hon : Spec.On line shape q r c
        · right
          refine ⟨0, q, rfl, hon, by rw [g1, (hL r c).1 hon], ?_⟩
          intro j q' hj hq'
          cases j with
          | zero => omega
          | succ j => exact g2 q' (List.mem_of_getElem? (by simpa using hq'))
        · left
          refine ⟨by rw [g1, (hL r c).2 hon], ?_⟩
          intro q' hq'
          rcases List.mem_cons.1 hq' with rfl | h
          · exact hon
          · exact g2 q' h
      · right
        refine ⟨i + 1, q', by simpa using g1, g2, by omega, ?_⟩
        intro j q'' hj hq''
        cases j with
        | zero => omega
        | succ j => exact g4 j q'' (by omega) (by simpa using hq'')

/-- C154: for lines that start before the far edges of the image and end after the near ones, a pixel gets the number
(from 1) of the last line through it and 0 if there is none. -/
theorem C154_labels_partial (line : LineFn) (hd : Spec.Draws line) (shape : ℕ × ℕ) (hs : 0 < shape.1 ∧ 0 < shape.2) (qs : List (List ℤ))
    (hf : ∀ q ∈ qs, Spec.Fits shape q) :
    ∃ L, lines line qs shape = .ok L ∧ ∀ r c,
      (L r c = 0 ∧ ∀ q ∈ qs, ¬ Spec.On line shape q r c) ∨
      (∃ i q, qs[i]? = some q ∧ Spec.On line shape q r c ∧ L r c = i + 1 ∧ ∀ j q', i < j → qs[j]? = some q' → ¬ Spec.On line shape q' r c) := by
  obtain ⟨L, h1, h2⟩ := linesLoop_ok line hd shape hs qs hf 0 (fun _ _ => 0)
  refine ⟨L, h1, fun r c => ?_⟩
  simpa only [Nat.zero_add] using h2 r c

/-- Both ends of the last line carry its number (when they lie in the image). -/
theorem C154_ends (line : LineFn) (hd : Spec.Draws line) (shape : ℕ × ℕ) (qs : List (List ℤ)) (x0 y0 x1 y1 : ℕ)
    (hf : ∀ q ∈ qs, Spec.Fits shape q) (h0 : x0 < shape.1 ∧ y0 < shape.2) (h1 : x1 < shape.1 ∧ y1 < shape.2) :
    ∃ L, lines line (qs ++ [[(x0 : ℤ), y0, x1, y1]]) shape = .ok L ∧ L x0 y0 = qs.length + 1 ∧ L x1 y1 = qs.length + 1 := by
  obtain ⟨L, hL, h⟩ := C154_labels_partial line hd shape ⟨by omega, by omega⟩ (qs ++ [[(x0 : ℤ), y0, x1, y1]]) (by
    intro q hq
    rcases List.mem_append.1 hq with h | h
    · exact hf q h
    · rw [List.mem_singleton] at h
      exact ⟨x0, y0, x1, y1, h, by omega, by omega, by omega, by omega⟩)
  have hlast : (qs ++ [[(x0 : ℤ), y0, x1, y1]])[qs.length]? = some [(x0 : ℤ), y0, x1, y1] := by simp
  have key : ∀ r c, Spec.On line shape [(x0 : ℤ), y0, x1, y1] r c → L r c = qs.length + 1 := by
    intro r c hon
    rcases h r c with ⟨_, g⟩ | ⟨i, q, g1, g2, g3, g4⟩
    · exact absurd hon (g _ (by simp))
    · rcases lt_trichotomy i qs.length with hlt | heq | hgt
      · exact absurd hon (g4 _ _ hlt hlast)
      · rw [g3, heq]
      · rw [List.getElem?_eq_none (by simp; omega)] at g1; simp at g1
  refine ⟨L, hL, key _ _ ?_, key _ _ ?_⟩
  · refine ⟨x0, y0, x1, y1, rfl, ?_⟩
    rw [if_neg (by omega), if_neg (by omega)]
    exact (hd _ _ _ _).1
  · refine ⟨x0, y0, x1, y1, rfl, ?_⟩
    rw [if_neg (by omega), if_neg (by omega), if_pos (by omega), if_pos (by omega)]
    exact (hd _ _ _ _).2.1

/-- C154: an entry that is not four numbers is refused (lines before it being drawable), even if later ones are fine. -/
theorem C154_four_numbers (line : LineFn) (hd : Spec.Draws line) (shape : ℕ × ℕ) (hs : 0 < shape.1 ∧ 0 < shape.2) (qs qs' : List (List ℤ)) (q : List ℤ)
    (hf : ∀ q ∈ qs, Spec.Fits shape q) (hq : q.length ≠ 4) : lines line (qs ++ q :: qs') shape = .error .valueError := by
  have bad : ∀ n L, linesLoop line shape n (q :: qs') L = .error .valueError := by
    intro n L
    match q, hq with
    | [], _ => rfl
    | [_], _ => rfl
    | [_, _], _ => rfl
    | [_, _, _], _ => rfl
    | [_, _, _, _], h => exact absurd rfl h
    | _ :: _ :: _ :: _ :: _ :: _, _ => rfl
  have : ∀ n L, linesLoop line shape n (qs ++ q :: qs') L = .error .valueError := by
    induction qs with
    | nil => exact bad
    | cons p t ih =>
      intro n L
      obtain ⟨x0, y0, x1, y1, L1, hp, ha, _⟩ := assign_fits line hd shape p (hf p (by simp)) hs L (n + 1)
      rw [hp, List.cons_append]
      unfold linesLoop
      rw [ha]
      exact ih (fun q hq => hf q (by simp [hq])) (n + 1) L1
  exact this 0 _

/-- A line ending before the first row is not cut off at the border: its end is drawn at the opposite side of the image
(the coordinate counts from the end), e.g. row -1 becomes the last row. -/
theorem C154_negative_end_refuted (line : LineFn) (hd : Spec.Draws line) (shape : ℕ × ℕ) (x0 y0 y1 k : ℕ) (hk : 1 ≤ k ∧ k ≤ shape.1)
    (h0 : x0 < shape.1 ∧ y0 < shape.2) (h1 : y1 < shape.2) :
    ∃ L, lines line [[(x0 : ℤ), y0, -(k : ℤ), y1]] shape = .ok L ∧ L (shape.1 - k) y1 = 1 := by
  have e1 : max (x0 : ℤ) 0 = x0 := by omega
  have e2 : max (y0 : ℤ) 0 = y0 := by omega
  have e3 : min (-(k : ℤ)) (shape.1 - 1) = -(k : ℤ) := by omega
  have e4 : min (y1 : ℤ) (shape.2 - 1) = y1 := by omega
  have hall : (line x0 y0 (-(k : ℤ)) y1).all (fun p => npValid shape.1 p.1 && npValid shape.2 p.2) = true := by
    rw [List.all_eq_true]
    intro p hp
    have := (hd _ _ _ _).2.2 p hp
    simp only [npValid, Bool.and_eq_true, decide_eq_true_eq]
    omega
  refine ⟨_, by
    unfold lines
    rw [linesLoop, e1, e2, e3, e4, assign, if_pos hall]
    rfl, ?_⟩
  rw [if_pos]
  rw [List.any_eq_true]
  refine ⟨_, (hd _ _ _ _).2.1, ?_⟩
  simp only [Bool.and_eq_true, decide_eq_true_eq]
  unfold npIndex
  rw [if_pos (by omega), if_neg (by omega)]
  exact ⟨by omega, rfl⟩

/-- A line starting beyond the last row is not cut off either: the call fails with IndexError. -/
theorem C154_start_beyond_refuted (line : LineFn) (hd : Spec.Draws line) (shape : ℕ × ℕ) (x0 y0 x1 y1 : ℤ) (h : (shape.1 : ℤ) ≤ x0)
    (qs : List (List ℤ)) : lines line ([x0, y0, x1, y1] :: qs) shape = .error .indexError := by
  have hall : ¬ ((line (max x0 0) (max y0 0) (min x1 (shape.1 - 1)) (min y1 (shape.2 - 1))).all (fun p => npValid shape.1 p.1 && npValid shape.2 p.2) = true) := by
    rw [List.all_eq_true]
    intro g
    have := g _ (hd _ _ _ _).1
    simp only [npValid, Bool.and_eq_true, decide_eq_true_eq] at this
    omega
  unfold lines
  rw [linesLoop, assign, if_neg hall]
  rfl

/-- A routine that draws horizontal lines pixel by pixel and other lines by their ends meets the assumption. -/
def exLine : LineFn := fun a b c d => (a, b) :: (if a = c then (List.range (max b d - min b d).toNat).map (fun (k : ℕ) => (a, min b d + (k : ℤ))) else []) ++ [(c, d)]

theorem exLine_draws : Spec.Draws exLine := by
  intro a b c d
  refine ⟨by simp [exLine], by simp [exLine], ?_⟩
  intro p hp
  simp only [exLine, List.cons_append, List.mem_cons, List.mem_append, List.not_mem_nil, or_false] at hp
  rcases hp with rfl | hp | rfl
  · simp only; omega
  · split at hp
    · rw [List.mem_map] at hp
      obtain ⟨k, hk, rfl⟩ := hp
      rw [List.mem_range] at hk
      simp only; omega
    · simp at hp
  · simp only; omega

/-- Two lines on a 3 × 4 image; the second one crosses the first and wins. -/
example : (lines exLine [[1, -3, 1, 9], [0, 2, 1, 2]] (3, 4)).toOption.map (fun L => (List.range 3).map (fun r => (List.range 4).map (L r))) =
    some [[0, 0, 2, 0], [1, 1, 2, 1], [0, 0, 0, 0]] := by decide +kernel

example : Spec.Fits (3, 4) [1, -3, 1, 9] ∧ Spec.Fits (3, 4) [0, 2, 1, 2] := ⟨⟨1, -3, 1, 9, rfl, by decide⟩, ⟨0, 2, 1, 2, rfl, by decide⟩⟩

end Verif.Roi
