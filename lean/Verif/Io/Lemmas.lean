/- Lemmas on formatting and parsing. -/
import Verif.Io.Model
import Verif.Xrf.FitProps
import Mathlib.Tactic.IntervalCases

namespace Verif.Io
open Verif Verif.Xrf

/-- A decimal digit. -/
def IsDigit (c : Char) : Prop := 48 ≤ c.toNat ∧ c.toNat ≤ 57

theorem digitChar_toNat (d : ℕ) (h : d < 10) : (digitChar d).toNat = 48 + d := by
  interval_cases d <;> rfl

theorem digitChar_isDigit (d : ℕ) (h : d < 10) : IsDigit (digitChar d) := by
  unfold IsDigit; rw [digitChar_toNat d h]; omega

theorem natOf_append (acc : ℕ) (s t : Text) : natOf acc (s ++ t) = (natOf acc s).bind (fun a => natOf a t) := by
  induction s generalizing acc with
  | nil => rfl
  | cons c s ih =>
    rw [List.cons_append, natOf, natOf]
    split_ifs
    · exact ih _
    · rfl

theorem natOf_digit (acc d : ℕ) (h : d < 10) : natOf acc [digitChar d] = some (acc * 10 + d) := by
  rw [natOf, digitChar_toNat d h, if_pos (by omega), natOf]
  congr 1
  omega

theorem natOf_digits (n : ℕ) : natOf 0 (digits n) = some n := by
  induction n using Nat.strong_induction_on with
  | _ n ih =>
    rw [digits]
    split_ifs with h
    · rw [natOf_digit 0 n h]; simp
    · rw [natOf_append, ih (n / 10) (by omega)]
      show natOf (n / 10) _ = _
      rw [natOf_digit _ _ (Nat.mod_lt _ (by norm_num))]
      congr 1
      omega

theorem natOf_padNat (d acc n : ℕ) : natOf acc (padNat d n) = some (acc * 10 ^ d + n % 10 ^ d) := by
  induction d generalizing n with
  | zero => simp [padNat, natOf, Nat.mod_one]
  | succ d ih =>
    rw [padNat, natOf_append, ih]
    show natOf _ _ = _
    rw [natOf_digit _ _ (Nat.mod_lt _ (by norm_num))]
    congr 1
    have h : n % 10 ^ (d + 1) = n / 10 % 10 ^ d * 10 + n % 10 := by
      rw [pow_succ, mul_comm (10 ^ d) 10, Nat.mod_mul]
      omega
    rw [h, pow_succ]
    ring

theorem padNat_length (d n : ℕ) : (padNat d n).length = d := by
  induction d generalizing n with
  | zero => rfl
  | succ d ih => rw [padNat, List.length_append, ih]; rfl

theorem digits_isDigit (n : ℕ) : ∀ c ∈ digits n, IsDigit c := by
  induction n using Nat.strong_induction_on with
  | _ n ih =>
    rw [digits]
    split_ifs with h
    · intro c hc
      rw [List.mem_singleton.1 hc]
      exact digitChar_isDigit n h
    · intro c hc
      rcases List.mem_append.1 hc with h' | h'
      · exact ih (n / 10) (by omega) c h'
      · rw [List.mem_singleton.1 h']
        exact digitChar_isDigit _ (Nat.mod_lt _ (by norm_num))

theorem padNat_isDigit (d n : ℕ) : ∀ c ∈ padNat d n, IsDigit c := by
  induction d generalizing n with
  | zero => simp [padNat]
  | succ d ih =>
    intro c hc
    rw [padNat] at hc
    rcases List.mem_append.1 hc with h' | h'
    · exact ih _ c h'
    · rw [List.mem_singleton.1 h']
      exact digitChar_isDigit _ (Nat.mod_lt _ (by norm_num))

theorem digits_ne_nil (n : ℕ) : digits n ≠ [] := by
  rw [digits]
  split_ifs <;> simp

theorem digits_length (k n : ℕ) (hk : 0 < k) (h : n < 10 ^ k) : (digits n).length ≤ k := by
  induction k generalizing n with
  | zero => omega
  | succ k ih =>
    rw [digits]
    split_ifs with hn
    · simp
    · rw [List.length_append]
      by_cases hk0 : k = 0
      · subst hk0
        simp at h
        omega
      · have := ih (n / 10) (by omega) (by rw [pow_succ] at h; omega)
        simp
        exact this

theorem isDigit_ne (c x : Char) (h : IsDigit c) (hx : x.toNat < 48 ∨ 57 < x.toNat) : c ≠ x := by
  rintro rfl
  unfold IsDigit at h
  omega

theorem isDigit_nonspace (c : Char) (h : IsDigit c) : isSpace c = false := by
  unfold isSpace
  simp [isDigit_ne c ' ' h (by decide), isDigit_ne c '\t' h (by decide), isDigit_ne c '\n' h (by decide), isDigit_ne c '\r' h (by decide),
    isDigit_ne c '\x0b' h (by decide), isDigit_ne c '\x0c' h (by decide)]

theorem dropWhile_all {α : Type} (p : α → Bool) (s : List α) (h : ∀ c ∈ s, p c = true) : s.dropWhile p = [] := by
  induction s with
  | nil => rfl
  | cons a s ih => rw [List.dropWhile_cons, if_pos (h a (by simp)), ih (fun c hc => h c (by simp [hc]))]

theorem takeWhile_append {α : Type} (p : α → Bool) (s t : List α) (x : α) (h : ∀ c ∈ s, p c = true) (hx : p x = false) : (s ++ x :: t).takeWhile p = s := by
  induction s with
  | nil => simp [hx]
  | cons a s ih =>
    rw [List.cons_append, List.takeWhile_cons, if_pos (h a (by simp)), ih (fun c hc => h c (by simp [hc]))]

theorem dropWhile_append {α : Type} (p : α → Bool) (s t : List α) (x : α) (h : ∀ c ∈ s, p c = true) (hx : p x = false) : (s ++ x :: t).dropWhile p = x :: t := by
  induction s with
  | nil => simp [hx]
  | cons a s ih =>
    rw [List.cons_append, List.dropWhile_cons, if_pos (h a (by simp)), ih (fun c hc => h c (by simp [hc]))]

/-- `float` of a formatted non-negative number. -/
theorem unsignedOf_fixed (d r : ℕ) : unsignedOf (digits (r / 10 ^ d) ++ (if d = 0 then [] else '.' :: padNat d (r % 10 ^ d))) = some ((r : ℚ) / 10 ^ d) := by
  have hdig : ∀ c ∈ digits (r / 10 ^ d), decide (c ≠ '.') = true := fun c hc => by simpa using isDigit_ne c '.' (digits_isDigit _ c hc) (by decide)
  unfold unsignedOf
  by_cases hd : d = 0
  · subst hd
    rw [if_pos rfl, List.append_nil, dropWhile_all _ _ hdig]
    simp only [if_neg (digits_ne_nil _), natOf_digits]
    simp
  · rw [if_neg hd, dropWhile_append _ _ _ _ hdig (by simp), takeWhile_append _ _ _ _ hdig (by simp)]
    simp only [digits_ne_nil, false_and, if_false, natOf_digits, natOf_padNat, padNat_length]
    congr 1
    have h := Nat.div_add_mod r (10 ^ d)
    have hp : ((10 : ℚ) ^ d) ≠ 0 := by positivity
    rw [zero_mul, zero_add, Nat.mod_mod]
    field_simp
    have : ((10 ^ d * (r / 10 ^ d) + r % 10 ^ d : ℕ) : ℚ) = r := by rw [h]
    push_cast at this ⊢
    linarith

theorem strip_pad (a b : ℕ) (w : Text) (hw : w ≠ []) (hs : ∀ c ∈ w, isSpace c = false) : strip (List.replicate a ' ' ++ w ++ List.replicate b ' ') = w := by
  unfold strip
  have h1 : (List.replicate a ' ' ++ w ++ List.replicate b ' ').dropWhile isSpace = w ++ List.replicate b ' ' := by
    obtain ⟨c, t, rfl⟩ := List.exists_cons_of_ne_nil hw
    rw [List.append_assoc, List.cons_append, dropWhile_append]
    · intro c hc
      rw [List.eq_of_mem_replicate hc]; rfl
    · exact hs c (by simp)
  rw [h1, List.reverse_append, List.reverse_replicate]
  have h2 : (List.replicate b ' ' ++ w.reverse).dropWhile isSpace = w.reverse := by
    obtain ⟨c, t, hct⟩ := List.exists_cons_of_ne_nil (l := w.reverse) (by simpa using hw)
    rw [hct, dropWhile_append]
    · intro c hc
      rw [List.eq_of_mem_replicate hc]; rfl
    · exact hs c (by rw [← List.mem_reverse, hct]; simp)
  rw [h2, List.reverse_reverse]

theorem strip_blank (k : ℕ) : strip (List.replicate k ' ') = [] := by
  unfold strip
  have h : ∀ c ∈ List.replicate k ' ', isSpace c = true := fun c hc => by rw [List.eq_of_mem_replicate hc]; rfl
  rw [dropWhile_all _ _ h]
  rfl

/-- The characters of a formatted number. -/
def NumChar (c : Char) : Prop := IsDigit c ∨ c = '-' ∨ c = '.'

theorem numChar_nonspace (c : Char) (h : NumChar c) : isSpace c = false := by
  rcases h with h | rfl | rfl
  · exact isDigit_nonspace c h
  · rfl
  · rfl

theorem numChar_noNl (c : Char) (h : NumChar c) : c ≠ '\r' ∧ c ≠ '\n' := by
  have := numChar_nonspace c h
  constructor <;> rintro rfl <;> exact absurd this (by decide)

theorem fmtFixed_num (d : ℕ) (q : ℚ) : ∀ c ∈ fmtFixed d q, NumChar c := by
  intro c hc
  unfold fmtFixed at hc
  simp only [List.mem_append] at hc
  rcases hc with (hc | hc) | hc
  · split_ifs at hc
    · exact Or.inr (Or.inl (List.mem_singleton.1 hc))
    · cases hc
  · exact Or.inl (digits_isDigit _ c hc)
  · split_ifs at hc
    · cases hc
    · rcases List.mem_cons.1 hc with h | h
      · exact Or.inr (Or.inr h)
      · exact Or.inl (padNat_isDigit _ _ c h)

theorem fmtFixed_ne_nil (d : ℕ) (q : ℚ) : fmtFixed d q ≠ [] := by
  unfold fmtFixed
  simp [digits_ne_nil]

theorem roundEven_nonneg (q : ℚ) (h : 0 ≤ q) : 0 ≤ roundEven q := by
  have := le_roundEven q 0 (by simpa using h)
  simpa using this

theorem roundEven_int (n : ℤ) : roundEven n = n := le_antisymm (roundEven_le _ _ le_rfl) (le_roundEven _ _ le_rfl)

theorem roundEven_neg (q : ℚ) : roundEven (-q) = -roundEven q := by
  by_cases hq : (⌊q⌋ : ℚ) = q
  · rw [← hq, ← Int.cast_neg, roundEven_int, roundEven_int]
  · have hlt : (⌊q⌋ : ℚ) < q := lt_of_le_of_ne (Int.floor_le q) hq
    have h2 : q < ⌊q⌋ + 1 := Int.lt_floor_add_one q
    have hf : ⌊-q⌋ = -⌊q⌋ - 1 := by
      rw [Int.floor_eq_iff]
      push_cast
      constructor <;> linarith
    unfold roundEven
    rw [hf]
    push_cast
    split_ifs <;> first | omega | (exfalso; linarith)

/-- The value a formatted number is read back as: the nearest multiple of 10^-d, ties to even. -/
def fixed (d : ℕ) (q : ℚ) : ℚ := roundEven (q * 10 ^ d) / 10 ^ d

theorem abs_fixed (d : ℕ) (q : ℚ) : ((roundEven (|q| * 10 ^ d)).toNat : ℚ) / 10 ^ d = if q < 0 then -fixed d q else fixed d q := by
  have h0 : 0 ≤ roundEven (|q| * 10 ^ d) := roundEven_nonneg _ (by positivity)
  have h1 : ((roundEven (|q| * 10 ^ d)).toNat : ℚ) = roundEven (|q| * 10 ^ d) := by
    have := Int.toNat_of_nonneg h0
    exact_mod_cast congrArg (fun z : ℤ => (z : ℚ)) this
  rw [h1]
  unfold fixed
  split_ifs with h
  · rw [abs_of_neg h, neg_mul, roundEven_neg]
    push_cast
    ring
  · rw [abs_of_nonneg (not_lt.1 h)]

/-- Reading back a number formatted with d decimals, with any blanks around. -/
theorem parseFloat_fixed (a b d : ℕ) (q : ℚ) : parseFloat (List.replicate a ' ' ++ fmtFixed d q ++ List.replicate b ' ') = .ok (some (fixed d q)) := by
  unfold parseFloat
  rw [strip_pad a b _ (fmtFixed_ne_nil d q) (fun c hc => numChar_nonspace c (fmtFixed_num d q c hc))]
  have hval := unsignedOf_fixed d (roundEven (|q| * 10 ^ d)).toNat
  rw [abs_fixed] at hval
  unfold fmtFixed
  simp only
  by_cases h : q < 0
  · rw [if_pos h] at hval ⊢
    simp only [List.cons_append, List.nil_append, hval, neg_neg]
  · rw [if_neg h] at hval ⊢
    obtain ⟨c, t, hct⟩ := List.exists_cons_of_ne_nil (digits_ne_nil ((roundEven (|q| * 10 ^ d)).toNat / 10 ^ d))
    have hc := digits_isDigit ((roundEven (|q| * 10 ^ d)).toNat / 10 ^ d) c (by rw [hct]; simp)
    have h1 : c ≠ '-' := isDigit_ne c '-' hc (by decide)
    have h2 : c ≠ 'n' := isDigit_ne c 'n' hc (by decide)
    rw [hct] at hval ⊢
    rw [List.nil_append]
    rw [List.cons_append] at hval ⊢
    split
    · rename_i heq
      exact absurd (List.cons.inj heq).1 h1
    · rw [if_neg, hval]
      intro h
      exact h2 (List.cons.inj h).1

theorem fixed_int (d : ℕ) (n : ℤ) : fixed d n = n := by
  unfold fixed
  have : ((n : ℚ) * 10 ^ d) = ((n * 10 ^ d : ℤ) : ℚ) := by push_cast; ring
  rw [this, roundEven_int]
  push_cast
  field_simp

theorem fixed_near (d : ℕ) (q : ℚ) : |fixed d q - q| ≤ 1 / (2 * 10 ^ d) := by
  have h := roundEven_near (q * 10 ^ d)
  have hp : (0 : ℚ) < 10 ^ d := by positivity
  have e : fixed d q - q = (roundEven (q * 10 ^ d) - q * 10 ^ d) / 10 ^ d := by
    unfold fixed
    field_simp
  rw [e, abs_div, abs_of_pos hp, div_le_div_iff₀ hp (by positivity)]
  have : |(roundEven (q * 10 ^ d) : ℚ) - q * 10 ^ d| ≤ 1 / 2 := abs_le.2 ⟨by linarith [h.2], h.1⟩
  nlinarith

theorem fixed_exact (d : ℕ) (q : ℚ) (n : ℤ) (h : q * 10 ^ d = n) : fixed d q = q := by
  unfold fixed
  rw [h, roundEven_int, ← h]
  field_simp

/-! ### words -/

theorem wordsAux_word (cur w rest : Text) (hw : ∀ c ∈ w, isSpace c = false) : wordsAux cur (w ++ rest) = wordsAux (cur ++ w) rest := by
  induction w generalizing cur with
  | nil => simp
  | cons c w ih =>
    rw [List.cons_append, wordsAux, if_neg (by simp [hw c (by simp)]), ih _ (fun c' h' => hw c' (by simp [h']))]
    simp

theorem words_blanks (k : ℕ) (rest : Text) : words (List.replicate k ' ' ++ rest) = words rest := by
  unfold words
  induction k with
  | zero => rfl
  | succ k ih =>
    rw [List.replicate_succ, List.cons_append, wordsAux, if_pos (by rfl), if_pos rfl, ih]

/-- A padded word followed by a blank. -/
theorem words_pad (n : ℕ) (w rest : Text) (c : Char) (hc : isSpace c = true) (hne : w ≠ []) (hw : ∀ c ∈ w, isSpace c = false) : words (padLeft n w ++ c :: rest) = w :: words rest := by
  unfold padLeft
  rw [List.append_assoc, words_blanks]
  unfold words
  rw [wordsAux_word _ _ _ hw, List.nil_append, wordsAux, if_pos hc, if_neg hne]

theorem words_sp (n : ℕ) (w rest : Text) (hne : w ≠ []) (hw : ∀ c ∈ w, isSpace c = false) : words (' ' :: (padLeft n w ++ ' ' :: rest)) = w :: words (' ' :: rest) := by
  have h1 : ∀ t : Text, words (' ' :: t) = words t := fun t => words_blanks 1 t
  rw [h1, words_pad n w rest ' ' rfl hne hw, h1]

/-! ### lines -/

theorem readLinesAux_line (cur l t : Text) (h : ∀ c ∈ l, c ≠ '\r' ∧ c ≠ '\n') : readLinesAux cur (l ++ '\r' :: '\n' :: t) = (cur ++ l ++ ['\n']) :: readLinesAux [] t := by
  induction l generalizing cur with
  | nil => rw [List.nil_append, readLinesAux]; simp
  | cons c l ih =>
    obtain ⟨h1, h2⟩ := h c (by simp)
    rw [List.cons_append, readLinesAux]
    · rw [if_neg (by simp [h1, h2]), ih _ (fun c' h' => h c' (by simp [h']))]
      simp
    · intro t' h' 
      exact absurd h' h1

theorem joinCrLf_cons (l : Text) (ls : List Text) (h : ls ≠ []) : joinCrLf (l :: ls) = l ++ '\r' :: '\n' :: joinCrLf ls := by
  obtain ⟨a, t, rfl⟩ := List.exists_cons_of_ne_nil h
  unfold joinCrLf
  simp [List.intercalate]

/-- Written lines are read back, each with a newline. -/
theorem readLines_join (lines : List Text) (hne : lines ≠ []) (h : ∀ l ∈ lines, ∀ c ∈ l, c ≠ '\r' ∧ c ≠ '\n') : readLines (joinCrLf lines) = lines.map (· ++ ['\n']) := by
  induction lines with
  | nil => exact absurd rfl hne
  | cons l ls ih =>
    by_cases hls : ls = []
    · subst hls
      have : joinCrLf [l] = l ++ '\r' :: '\n' :: [] := by simp [joinCrLf, List.intercalate]
      unfold readLines
      rw [this, readLinesAux_line _ _ _ (h l (by simp))]
      simp [readLinesAux]
    · rw [joinCrLf_cons l ls hls]
      unfold readLines
      rw [readLinesAux_line _ _ _ (h l (by simp))]
      have := ih hls (fun l' h' => h l' (by simp [h']))
      unfold readLines at this
      rw [this]
      simp

/-! ### fields -/

theorem slice_zero (w : ℕ) (r rest : Text) (hr : r.length = w) : slice (r ++ rest) 0 w = r := by
  unfold slice
  rw [List.drop_zero, Nat.sub_zero, ← hr, List.take_left]

theorem slice_shift (w a : ℕ) (r rest : Text) (hr : r.length = w) : slice (r ++ rest) (w + a) (w + a + w) = slice rest a (a + w) := by
  unfold slice
  rw [← hr, ← List.drop_drop, List.drop_left]
  congr 1
  omega

theorem fields_line (w k : ℕ) (recs : List Text) (tail : Text) (hr : ∀ r ∈ recs, r.length = w) (hk : recs.length = k) :
    (List.range k).map (fun i => slice (recs.flatten ++ tail) (w * i) (w * i + w)) = recs := by
  induction recs generalizing k with
  | nil => subst hk; rfl
  | cons r recs ih =>
    subst hk
    rw [List.length_cons, List.range_succ_eq_map, List.map_cons, List.map_map, List.flatten_cons, List.append_assoc]
    have h0 := hr r (by simp)
    rw [Nat.mul_zero, Nat.zero_add, slice_zero w r _ h0]
    congr 1
    refine Eq.trans ?_ (ih recs.length (fun r' h' => hr r' (by simp [h'])) rfl)
    apply List.map_congr_left
    intro i _
    simp only [Function.comp]
    rw [Nat.mul_succ, Nat.add_comm (w * i) w, slice_shift w (w * i) r _ h0, Nat.add_comm w (w * i)]

theorem flatten_length (w : ℕ) (recs : List Text) (hr : ∀ r ∈ recs, r.length = w) : recs.flatten.length = w * recs.length := by
  induction recs with
  | nil => simp
  | cons r recs ih => rw [List.flatten_cons, List.length_append, hr r (by simp), ih (fun r' h' => hr r' (by simp [h'])), List.length_cons]; ring

/-- The fields of a line padded to full width: its records, then blank fields. -/
theorem fields_padded (w k : ℕ) (recs : List Text) (hr : ∀ r ∈ recs, r.length = w) (hk : recs.length ≤ k) (tail : Text) :
    (List.range k).map (fun i => slice (padRight (k * w) recs.flatten ++ tail) (w * i) (w * i + w)) = recs ++ List.replicate (k - recs.length) (List.replicate w ' ') := by
  have e : padRight (k * w) recs.flatten = (recs ++ List.replicate (k - recs.length) (List.replicate w ' ')).flatten := by
    unfold padRight
    rw [flatten_length w recs hr, List.flatten_append, List.flatten_replicate_replicate]
    congr 2
    rw [Nat.sub_mul, Nat.mul_comm w]
  rw [e]
  apply fields_line
  · intro r h
    rcases List.mem_append.1 h with h | h
    · exact hr r h
    · rw [List.eq_of_mem_replicate h, List.length_replicate]
  · rw [List.length_append, List.length_replicate]; omega

theorem chunks_nil {α : Type} (k : ℕ) : chunks k ([] : List α) = [] := by rw [chunks]; simp

theorem chunks_cons {α : Type} (k : ℕ) (hk : 0 < k) (l : List α) (hl : l ≠ []) : chunks k l = l.take k :: chunks k (l.drop k) := by
  rw [chunks, dif_neg (by push Not; exact ⟨hl, by omega⟩)]

theorem chunks_ne_nil {α : Type} (k : ℕ) (hk : 0 < k) (l : List α) (hl : l ≠ []) : chunks k l ≠ [] := by
  rw [chunks_cons k hk l hl]; simp

theorem chunks_length {α : Type} (k : ℕ) (hk : 0 < k) (l : List α) : (chunks k l).length = (l.length + (k - 1)) / k := by
  induction hn : l.length using Nat.strong_induction_on generalizing l with
  | _ n ih =>
    by_cases hl : l = []
    · subst hl
      rw [chunks_nil]
      subst hn
      symm
      exact Nat.div_eq_of_lt (by simp; omega)
    · have hpos := List.length_pos_iff.2 hl
      rw [chunks_cons k hk l hl, List.length_cons, ih (l.drop k).length (by rw [List.length_drop]; omega) _ rfl, List.length_drop]
      by_cases h : n ≤ k
      · have e1 : (l.length - k + (k - 1)) / k = 0 := Nat.div_eq_of_lt (by omega)
        rw [e1]
        symm
        rw [Nat.div_eq_iff hk]
        omega
      · rw [show n + (k - 1) = (l.length - k + (k - 1)) + k by omega, Nat.add_div_right _ hk]

/-- The last line is padded, the others are full: all have the full width. -/
theorem padLast_chunks (k w : ℕ) (hk : 0 < k) (h80 : k * w = 80) (recs : List Text) (hr : ∀ r ∈ recs, r.length = w) :
    padLast ((chunks k recs).map List.flatten) = (chunks k recs).map (fun c => padRight (k * w) c.flatten) := by
  induction hn : recs.length using Nat.strong_induction_on generalizing recs with
  | _ n ih =>
    by_cases hl : recs = []
    · subst hl; rw [chunks_nil]; rfl
    · have hpos := List.length_pos_iff.2 hl
      have ih' := ih (recs.drop k).length (by rw [List.length_drop]; omega) (recs.drop k) (fun r h => hr r (List.mem_of_mem_drop h)) rfl
      rw [chunks_cons k hk recs hl, List.map_cons, List.map_cons]
      by_cases hd : recs.drop k = []
      · rw [hd, chunks_nil, List.map_nil, List.map_nil, padLast, h80]
      · rw [← ih']
        obtain ⟨a, t, hat⟩ := List.exists_cons_of_ne_nil (l := (chunks k (recs.drop k)).map List.flatten) (by simpa using chunks_ne_nil k hk _ hd)
        rw [hat, padLast]
        · congr 1
          unfold padRight
          rw [flatten_length w _ (fun r h => hr r (List.mem_of_mem_take h)), List.length_take]
          have : k < recs.length := by
            by_contra hc
            exact hd (List.drop_eq_nil_of_le (by omega))
          rw [min_eq_left this.le, Nat.mul_comm w k, Nat.sub_self]
          simp
        · simp

/-- All fields of the data lines: the records, then blank fields up to a full last line. -/
theorem fields_chunks (k w : ℕ) (hk : 0 < k) (recs : List Text) (hr : ∀ r ∈ recs, r.length = w) :
    fieldsOf w k ((chunks k recs).map (fun c => padRight (k * w) c.flatten ++ ['\n'])) =
      recs ++ List.replicate (k * ((recs.length + (k - 1)) / k) - recs.length) (List.replicate w ' ') := by
  rw [← chunks_length k hk]
  unfold fieldsOf
  induction hn : recs.length using Nat.strong_induction_on generalizing recs with
  | _ n ih =>
    by_cases hl : recs = []
    · subst hl; rw [chunks_nil]; simp
    · have hpos := List.length_pos_iff.2 hl
      have ih' := ih (recs.drop k).length (by rw [List.length_drop]; omega) (recs.drop k) (fun r h => hr r (List.mem_of_mem_drop h)) rfl
      rw [chunks_cons k hk recs hl, List.map_cons, List.flatMap_cons]
      rw [fields_padded w k (recs.take k) (fun r h => hr r (List.mem_of_mem_take h)) (by rw [List.length_take]; omega), ih', List.length_drop, List.length_take, List.length_cons]
      by_cases hd : recs.length ≤ k
      · rw [List.drop_eq_nil_of_le hd, chunks_nil, List.take_of_length_le hd, min_eq_right hd]
        subst hn
        simp
      · rw [min_eq_left (by omega), Nat.sub_self, List.replicate_zero, List.append_nil, ← List.append_assoc, List.take_append_drop]
        congr 2
        have : recs.length - k ≤ k * (chunks k (recs.drop k)).length := by
          rw [chunks_length k hk, List.length_drop]
          have := Nat.div_add_mod (recs.length - k + (k - 1)) k
          have := Nat.mod_lt (recs.length - k + (k - 1)) hk
          omega
        rw [Nat.mul_succ]
        omega

theorem mapPy_ok {α β : Type} (f : α → Py β) (g : α → β) (l : List α) (h : ∀ a ∈ l, f a = .ok (g a)) : mapPy f l = .ok (l.map g) := by
  induction l with
  | nil => rfl
  | cons a t ih =>
    rw [mapPy, h a (by simp)]
    simp only
    rw [ih (fun b hb => h b (by simp [hb]))]
    rfl

/-! ### scale -/

theorem maxOf_spec (l : List ℚ) (hne : l ≠ []) : ∃ m, maxOf l = some m ∧ m ∈ l ∧ ∀ a ∈ l, a ≤ m := by
  induction l with
  | nil => exact absurd rfl hne
  | cons a t ih =>
    cases t with
    | nil => exact ⟨a, rfl, by simp, by simp⟩
    | cons b t =>
      obtain ⟨m, h1, h2, h3⟩ := ih (by simp)
      refine ⟨max a m, by rw [maxOf, h1] <;> simp, ?_, ?_⟩
      · rcases max_choice a m with h | h <;> rw [h]
        · simp
        · exact List.mem_cons_of_mem _ h2
      · intro c hc
        rcases List.mem_cons.1 hc with rfl | hc
        · exact le_max_left _ _
        · exact le_trans (h3 c hc) (le_max_right _ _)

theorem scaleOf_spec (l : List ℚ) (hne : l ≠ []) (hpos : ∀ a ∈ l, 0 ≤ a) :
    ∃ s, scaleOf l = .ok s ∧ 0 < s ∧ s ≤ 1 ∧ (∃ k : ℕ, s = 1 / 10 ^ k) ∧ (∀ a ∈ l, a * s ≤ 999999) ∧ ((∀ a ∈ l, a ≤ 999999) → s = 1) ∧ (s < 1 → ∃ a ∈ l, 999999 < a * (10 * s)) := by
  obtain ⟨m, h1, h2, h3⟩ := maxOf_spec l hne
  have hm := hpos m h2
  unfold scaleOf
  rw [h1]
  simp only
  rw [if_neg (not_lt.2 hm)]
  by_cases hm0 : m = 0
  · refine ⟨1, by rw [if_pos hm0], by norm_num, le_rfl, ⟨0, by norm_num⟩, ?_, fun _ => rfl, fun h => absurd h (lt_irrefl _)⟩
    intro a ha
    have := h3 a ha
    rw [hm0] at this
    linarith
  · have hmp : 0 < m := lt_of_le_of_ne hm (Ne.symm hm0)
    have hr : (0 : ℚ) < 999999 / m := by positivity
    have hlog : ((10 : ℕ) : ℚ) ^ Int.log 10 (999999 / m) ≤ 999999 / m := Int.zpow_log_le_self (by norm_num) hr
    have hlog2 : (999999 / m : ℚ) < ((10 : ℕ) : ℚ) ^ (Int.log 10 (999999 / m) + 1) := Int.lt_zpow_succ_log_self (by norm_num) _
    push_cast at hlog hlog2
    set L := Int.log 10 (999999 / m) with hL
    have hle1 : (10 : ℚ) ^ min L 0 ≤ 1 := by
      calc (10 : ℚ) ^ min L 0 ≤ 10 ^ (0 : ℤ) := zpow_le_zpow_right₀ (by norm_num) (min_le_right _ _)
        _ = 1 := by norm_num
    have hle2 : (10 : ℚ) ^ min L 0 ≤ 999999 / m := le_trans (zpow_le_zpow_right₀ (by norm_num) (min_le_left _ _)) hlog
    refine ⟨10 ^ min L 0, by rw [if_neg hm0], by positivity, hle1, ?_, ?_, ?_, ?_⟩
    · refine ⟨(-(min L 0)).toNat, ?_⟩
      have : (((-(min L 0)).toNat : ℕ) : ℤ) = -(min L 0) := Int.toNat_of_nonneg (by have := min_le_right L 0; omega)
      rw [← zpow_natCast, this, zpow_neg]
      simp
    · intro a ha
      rw [le_div_iff₀ hmp] at hle2
      have h5 : (0 : ℚ) < 10 ^ min L 0 := by positivity
      nlinarith [h3 a ha]
    · intro hall
      have h0 : (0 : ℤ) ≤ L := by
        by_contra hc
        push Not at hc
        have h6 : (10 : ℚ) ^ (L + 1) ≤ 1 := by
          calc (10 : ℚ) ^ (L + 1) ≤ 10 ^ (0 : ℤ) := zpow_le_zpow_right₀ (by norm_num) (by omega)
            _ = 1 := by norm_num
        have h7 := lt_of_lt_of_le hlog2 h6
        rw [div_lt_one hmp] at h7
        linarith [hall m h2]
      rw [min_eq_right h0, zpow_zero]
    · intro hs
      have hL0 : L < 0 := by
        by_contra hc
        push Not at hc
        rw [min_eq_right hc, zpow_zero] at hs
        exact lt_irrefl _ hs
      refine ⟨m, h2, ?_⟩
      rw [min_eq_left hL0.le]
      rw [div_lt_iff₀ hmp, zpow_add₀ (by norm_num), zpow_one] at hlog2
      linarith

end Verif.Io
