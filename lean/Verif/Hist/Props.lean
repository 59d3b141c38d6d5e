/- Properties C18–C22: Histogram. -/
import Verif.Hist.Lemmas
import Verif.Fl

namespace Verif.Hist
open Verif

/-! ### specification vocabulary (with `InBin`, `InCell`, `ValidCell`, `flat`, `cellWeight`, `InRange` of `Lemmas`) -/

/-- Weight of sample `i`: the single weight, or the i-th one. -/
def weightAt (ws : List ℚ) (i : ℕ) : ℚ := if ws.length = 1 then ws.headD 0 else ws.getD i 0

/-- The samples described by coordinate arrays and weights, elements read with `read`. -/
def samplesBy (read : Coord → ℕ → ℚ) (coords : List Coord) (ws : List ℚ) : List (List ℚ × ℚ) :=
  match coords with
  | [] => []
  | c0 :: _ => (List.range c0.len).map (fun i => (coords.map (fun c => read c i), weightAt ws i))

/-- The samples a caller means: the arrays' own elements. -/
def samples (coords : List Coord) (ws : List ℚ) : List (List ℚ × ℚ) := samplesBy Coord.val coords ws

/-- Well-formed calls: one array per dimension, equal lengths, one or as many weights, supported types. -/
def Accepted (nd : Bool) (h : Hist) (coords : List Coord) (ws : List ℚ) : Prop :=
  coords.length = h.axes.length ∧ (∀ c ∈ coords, ∀ c' ∈ coords, c.len = c'.len) ∧
  (ws.length = 1 ∨ ∀ c ∈ coords, ws.length = c.len) ∧
  (if nd = false ∧ coords.length = 1 then ∀ c ∈ coords, c.dtype ≠ .unsupported
   else if nd = false ∧ coords.length = 2 then
     (∀ c ∈ coords, c.dtype ≠ .unsupported) ∧ (∀ c ∈ coords, ∀ c' ∈ coords, c.dtype = c'.dtype)
   else ∀ c ∈ coords, c.dtype = .int64 ∨ c.dtype = .float64)

/-- The calls served by the generic N-D code path. -/
abbrev ReadsRaw (nd : Bool) (coords : List Coord) : Prop := nd = true ∨ 3 ≤ coords.length

theorem zip_expand {α : Type} (f : ℕ → α) (ws : List ℚ) (n : ℕ) (h : ws.length = 1 ∨ ws.length = n) :
    ((List.range n).map f).zip (expandWeights ws n) = (List.range n).map (fun i => (f i, weightAt ws i)) := by
  apply List.ext_getElem?
  intro i
  rw [List.getElem?_map]
  by_cases hi : i < n
  · rw [List.getElem?_range hi]
    by_cases h1 : ws.length = 1
    · obtain ⟨w, rfl⟩ := List.length_eq_one_iff.1 h1
      simp [expandWeights, weightAt, List.zip, List.getElem?_zipWith, hi, List.getElem?_replicate]
    · have h2 : ws.length = n := by omega
      have : expandWeights ws n = ws := by
        unfold expandWeights
        split
        · simp at h1
        · rfl
      rw [this]
      have h1' : n ≠ 1 := by omega
      simp [weightAt, h1', List.zip, List.getElem?_zipWith, hi, h2]
  · have e1 : (List.range n)[i]? = none := by simp; omega
    rw [e1]
    simp [List.zip, List.getElem?_zipWith, e1]

/-- Effect of an accepted call with rounded contents (helper). -/
theorem fillWith_accepted (fa : ℚ → ℚ) (nd : Bool) (h : Hist) (hw : h.Wf) (coords : List Coord) (ws : List ℚ)
    (ha : Accepted nd h coords ws) :
    fillWith id fa nd h coords ws =
      (⟨h.axes, List.foldl (specStepF fa h.axes) h.values
          (samplesBy (if nd = true ∨ 3 ≤ coords.length then Coord.raw else Coord.val) coords ws)⟩, .ok ()) := by
  obtain ⟨h1, h2, h3, h4⟩ := ha
  obtain ⟨w1, w2, w3⟩ := hw
  unfold fillWith
  rw [if_neg (by simpa using h1)]
  match coords, h1, h2, h3, h4 with
  | [], h1, _, _, _ => exact absurd (List.length_eq_zero_iff.1 (by simpa using h1.symm)) w3
  | c0 :: rest, h1, h2, h3, h4 =>
    have hlen : ¬ ((c0 :: rest).any (fun c => decide (c.len ≠ c0.len)) = true) := by
      simp only [List.any_eq_true, not_exists, not_and]
      intro c hc; simpa using h2 c hc c0 (by simp)
    have hws : ws.length = 1 ∨ ws.length = c0.len := h3.imp_right (fun h => h c0 (by simp))
    simp only
    rw [if_neg hlen, if_neg (by omega)]
    have ndcase : (∀ c ∈ c0 :: rest, c.dtype = .int64 ∨ c.dtype = .float64) →
        fillnd id fa h (c0 :: rest) (expandWeights ws c0.len) c0.len =
        ((samplesBy Coord.raw (c0 :: rest) ws).foldl (specStepF fa h.axes) h.values, .ok ()) := by
      intro ht
      unfold fillnd
      have : ¬ ((c0 :: rest).any (fun c => decide (c.dtype ≠ .int64 ∧ c.dtype ≠ .float64)) = true) := by
        simp only [List.any_eq_true, not_exists, not_and]
        intro c hc
        rcases ht c hc with e | e <;> simp [e]
      rw [if_neg this]
      simp only
      rw [fillndLoop_eq fa h.axes w2 _ h1 ht _ _ w1]
      have e := zip_expand (fun i => i) ws c0.len hws
      simp only [List.map_id'] at e
      rw [e, List.map_map]
      rfl
    cases nd with
    | true =>
      simp only [Bool.true_eq_false, false_and, if_false] at h4
      simp only [if_true, true_or]
      rw [ndcase h4]
    | false =>
      simp only [Bool.false_eq_true, if_false, false_or]
      match rest, h.axes, h1, h4, w1, w2, ndcase with
      | [], [a], _, h4, w1, w2, _ =>
        simp only [List.length_cons, List.length_nil] at h4
        simp at h4
        simp only [h4, if_false]
        rw [fill1d_eq fa a (w2 a (by simp)) _ _ (by simpa using w1), zip_expand _ _ _ hws, List.map_map]
        simp [samplesBy, Function.comp_def]
      | [c1], [a, b], _, h4, w1, w2, _ =>
        simp at h4
        have hs : ¬ (c0.dtype = .unsupported ∨ c0.dtype ≠ c1.dtype) := by
          push Not; exact ⟨h4.1.1, h4.2.1⟩
        simp only [if_neg hs]
        rw [fill2d_eq fa a b (w2 a (by simp)) (w2 b (by simp)) _ _ (by simpa using w1), zip_expand _ _ _ hws,
          List.map_map]
        simp [samplesBy, Function.comp_def]
      | c1 :: c2 :: r, axes, h1, h4, w1, w2, ndcase =>
        simp only [List.length_cons] at h4
        simp only [show ¬ (r.length + 1 + 1 + 1 = 1) by omega, show ¬ (r.length + 1 + 1 + 1 = 2) by omega, and_false,
          if_false] at h4
        simp only [List.length_cons, show 3 ≤ r.length + 1 + 1 + 1 by omega, if_true]
        rw [ndcase h4]

/-- Effect of an accepted call (helper). -/
theorem fill_accepted (nd : Bool) (h : Hist) (hw : h.Wf) (coords : List Coord) (ws : List ℚ)
    (ha : Accepted nd h coords ws) :
    fill id nd h coords ws =
      (⟨h.axes, List.foldl (specStep h.axes) h.values
          (samplesBy (if nd = true ∨ 3 ≤ coords.length then Coord.raw else Coord.val) coords ws)⟩, .ok ()) := by
  unfold fill
  rw [fillWith_accepted id nd h hw coords ws ha, specStepF_id]

/-- A rejected call raises and leaves the state as it was (helper). -/
theorem fill_rejected (nd : Bool) (h : Hist) (hw : h.Wf) (coords : List Coord) (ws : List ℚ)
    (ha : ¬ Accepted nd h coords ws) : ∃ e, fill id nd h coords ws = (h, .error e) := by
  obtain ⟨w1, w2, w3⟩ := hw
  unfold fill fillWith
  by_cases h1 : coords.length = h.axes.length
  · rw [if_neg (by simpa using h1)]
    match coords, h1, ha with
    | [], h1, _ => exact absurd (List.length_eq_zero_iff.1 (by simpa using h1.symm)) w3
    | c0 :: rest, h1, ha =>
      simp only
      split
      · exact ⟨_, rfl⟩
      · rename_i h2
        have h2' : ∀ c ∈ c0 :: rest, c.len = c0.len := by
          intro c hc
          by_contra hne
          exact h2 (List.any_eq_true.2 ⟨c, hc, by simpa using hne⟩)
        split
        · exact ⟨_, rfl⟩
        · rename_i h3
          have h3' : ws.length = 1 ∨ ws.length = c0.len := by omega
          -- only the types can be wrong
          have hty : ¬ (if nd = false ∧ (c0 :: rest).length = 1 then ∀ c ∈ c0 :: rest, c.dtype ≠ .unsupported
             else if nd = false ∧ (c0 :: rest).length = 2 then
               (∀ c ∈ c0 :: rest, c.dtype ≠ .unsupported) ∧ (∀ c ∈ c0 :: rest, ∀ c' ∈ c0 :: rest, c.dtype = c'.dtype)
             else ∀ c ∈ c0 :: rest, c.dtype = .int64 ∨ c.dtype = .float64) := by
            intro ht
            exact ha ⟨h1, fun c hc c' hc' => by rw [h2' c hc, h2' c' hc'],
              h3'.imp_right (fun e c hc => by rw [e, h2' c hc]), ht⟩
          have ndcase : (¬ ∀ c ∈ c0 :: rest, c.dtype = .int64 ∨ c.dtype = .float64) →
              fillnd id id h (c0 :: rest) (expandWeights ws c0.len) c0.len = (h.values, .error .typeError) := by
            intro ht
            unfold fillnd
            rw [if_pos]
            push Not at ht
            obtain ⟨c, hc, h⟩ := ht
            exact List.any_eq_true.2 ⟨c, hc, by simpa using h⟩
          cases nd with
          | true =>
            simp only [Bool.true_eq_false, false_and, if_false] at hty
            simp only [if_true]
            rw [ndcase hty]
            exact ⟨_, rfl⟩
          | false =>
            simp only [Bool.false_eq_true, if_false]
            match rest, hax : h.axes, h1, hty, ndcase with
            | [], [a], _, hty, _ =>
              simp at hty
              simp only [hty, if_true]
              exact ⟨.typeError, by rw [← hax]⟩
            | [c1], [a, b], _, hty, _ =>
              simp at hty
              have : c0.dtype = .unsupported ∨ c0.dtype ≠ c1.dtype := by
                by_cases e : c0.dtype = .unsupported
                · exact Or.inl e
                · right; intro e2
                  have := hty e (e2 ▸ e) e2
                  exact this e2.symm
              simp only [if_pos this]
              exact ⟨.typeError, by rw [← hax]⟩
            | c1 :: c2 :: r, axes, h1, hty, ndcase =>
              simp only [List.length_cons] at hty
              simp only [show ¬ (r.length + 1 + 1 + 1 = 1) by omega, show ¬ (r.length + 1 + 1 + 1 = 2) by omega, and_false,
                if_false] at hty
              simp only [ndcase hty]
              exact ⟨.typeError, by rw [← hax]⟩
  · rw [if_pos (by simpa using h1)]
    exact ⟨_, rfl⟩

theorem samplesBy_contig (coords : List Coord) (ws : List ℚ) (P : Prop) [Decidable P]
    (hc : P → ∀ c ∈ coords, c.stride = 1) :
    samplesBy (if P then Coord.raw else Coord.val) coords ws = samples coords ws := by
  unfold samples samplesBy
  match coords, hc with
  | [], _ => rfl
  | c0 :: rest, hc =>
    apply List.map_congr_left
    intro i _
    congr 1
    apply List.map_congr_left
    intro c hcm
    split
    · rename_i hP; simp [Coord.raw, Coord.val, hc hP c hcm]
    · rfl

/-- What `__init__` builds is well formed and empty. -/
theorem init_wf (axes : List Axis) (h : Hist) (hi : init axes = .ok h) :
    h.Wf ∧ h.axes = axes ∧ ∀ x ∈ h.values, x = 0 := by
  unfold init at hi
  split at hi
  · simp at hi
  · rename_i h0
    split at hi
    · simp at hi
    · split at hi
      · simp at hi
      · rename_i h2
        simp at hi
        subst hi
        refine ⟨⟨by simp, ?_, h0⟩, rfl, ?_⟩
        · intro a ha
          by_contra hne
          exact h2 (List.any_eq_true.2 ⟨a, ha, by simp; omega⟩)
        · intro x hx; exact List.eq_of_mem_replicate hx

/-! ## C18 -/

/-- Every accepted call succeeds, keeps the axes, and increases each cell by exactly the total weight of the samples
lying in it.  Missing for the full property: calls on non-contiguous arrays that go through the N-D path, where it is
false (`C18_strided_nd_wrong`). -/
theorem C18_fill_cells_partial (nd : Bool) (h : Hist) (hw : h.Wf) (coords : List Coord) (ws : List ℚ)
    (ha : Accepted nd h coords ws) (hc : ReadsRaw nd coords → ∀ c ∈ coords, c.stride = 1) :
    ∃ h', fill id nd h coords ws = (h', .ok ()) ∧ h'.axes = h.axes ∧ h'.values.length = h.values.length ∧
      ∀ ks, ValidCell h.axes ks →
        ∃ old, h.values[flat h.axes ks]? = some old ∧
          h'.values[flat h.axes ks]? = some (old + cellWeight h.axes (samples coords ws) ks) := by
  refine ⟨_, fill_accepted nd h hw coords ws ha, rfl, length_foldl_specStep _ _ _, ?_⟩
  intro ks hk
  have hlt : flat h.axes ks < h.values.length := by rw [hw.1]; exact flat_lt _ _ hk
  refine ⟨h.values[flat h.axes ks], by simp [hlt], ?_⟩
  simp only
  rw [samplesBy_contig coords ws _ hc, foldl_specStep_get h.axes hw.2.1 _ _ _ hk]
  simp [hlt]

/-- The cells are in bijection with the positions of the value array, so C18 describes the whole array. -/
theorem C18_cells_cover (axes : List Axis) (hp : ∀ a ∈ axes, 0 < a.nbin) (p : ℕ) (h : p < (axes.map Axis.nbin).prod) :
    ∃ ks, ValidCell axes ks ∧ flat axes ks = p ∧ ∀ ks', ValidCell axes ks' → flat axes ks' = p → ks' = ks := by
  have ex : ∃ ks, ValidCell axes ks ∧ flat axes ks = p := by
    induction axes generalizing p with
    | nil => exact ⟨[], trivial, by simp at h; simp [flat, h]⟩
    | cons a as ih =>
      simp only [List.map_cons, List.prod_cons] at h
      set P := (as.map Axis.nbin).prod with hP
      have hPpos : 0 < P := by
        rcases Nat.eq_zero_or_pos P with h0 | h0
        · rw [h0] at h; simp at h
        · exact h0
      obtain ⟨ks, h1, h2⟩ := ih (fun b hb => hp b (by simp [hb])) (p % P) (Nat.mod_lt _ hPpos)
      refine ⟨p / P :: ks, ⟨?_, h1⟩, ?_⟩
      · rw [Nat.div_lt_iff_lt_mul hPpos]; exact h
      · simp only [flat, h2, ← hP]
        have := Nat.div_add_mod p P
        rw [mul_comm]; exact this
  obtain ⟨ks, h1, h2⟩ := ex
  exact ⟨ks, h1, h2, fun ks' h3 h4 => flat_inj axes _ _ h3 h1 (by rw [h4, h2])⟩

/-- A sample outside [low, high) in some dimension is in no cell; one inside is in exactly one. -/
theorem C18_in_range_iff (axes : List Axis) (hp : ∀ a ∈ axes, 0 < a.nbin) (xs : List ℚ) :
    (InRange axes xs ↔ ∃ ks, ValidCell axes ks ∧ InCell axes xs ks) ∧
    (∀ ks ks', InCell axes xs ks → InCell axes xs ks' → ValidCell axes ks → ks' = ks) := by
  rcases cellIdx_cases axes hp xs with ⟨_, h2, h3⟩ | ⟨ks, _, h2, h3, h4, h5⟩
  · refine ⟨⟨fun h => absurd h h2, fun ⟨ks, h, h'⟩ => absurd h' (h3 ks h)⟩, ?_⟩
    intro ks ks' h _ hv; exact absurd h (h3 ks hv)
  · refine ⟨⟨fun _ => ⟨ks, h2, h4⟩, fun _ => h3⟩, ?_⟩
    intro k1 k2 h h' _; rw [h5 k1 h, h5 k2 h']

/-- A contiguous float64 array with the given elements (for examples). -/
def fArr (l : List ℚ) : Coord := ⟨.float64, l.length, 1, fun i => l.getD i 0⟩
/-- A contiguous int64 array with the given elements (for examples). -/
def iArr (l : List ℤ) : Coord := ⟨.int64, l.length, 1, fun i => l.getD i 0⟩

example : fill id false ⟨[⟨4, 0, 2⟩], [0, 0, 0, 0]⟩ [fArr [0, 1/2, 7/10, 2, -1, 3/2]] [1] =
    (⟨[⟨4, 0, 2⟩], [1, 2, 0, 1]⟩, .ok ()) := by decide +kernel
example : Accepted false ⟨[⟨4, 0, 2⟩], [0, 0, 0, 0]⟩ [fArr [0, 1/2]] [1] ∧
    (⟨[⟨4, 0, 2⟩], [0, 0, 0, 0]⟩ : Hist).Wf := by
  refine ⟨⟨rfl, by simp, by simp, by simp [fArr]⟩, by decide, by simp, by simp⟩
/-- three dimensions with mixed types -/
example : fill id false ⟨[⟨1, 0, 1⟩, ⟨2, 0, 2⟩, ⟨2, 0, 1⟩], [0, 0, 0, 0]⟩
    [fArr [1/2, 1/4], iArr [1, 0], fArr [0, 3/4]] [3, 5] =
    (⟨[⟨1, 0, 1⟩, ⟨2, 0, 2⟩, ⟨2, 0, 1⟩], [0, 5, 3, 0]⟩, .ok ()) := by decide +kernel

/-- Refutation for non-contiguous arrays: three dimensions, each coordinate a view with stride 2 of a longer array.
The sample (0,0,0) of the view is counted in the cell of the *neighbouring memory* element instead. -/
theorem C18_strided_nd_wrong :
    let c : Coord := ⟨.float64, 2, 2, fun i => [0, 1, 0].getD i 0⟩
    let h : Hist := ⟨[⟨2, 0, 2⟩, ⟨2, 0, 2⟩, ⟨2, 0, 2⟩], [0, 0, 0, 0, 0, 0, 0, 0]⟩
    Accepted false h [c, c, c] [1] ∧ samples [c, c, c] [1] = [([0, 0, 0], 1), ([0, 0, 0], 1)] ∧
      (fill id false h [c, c, c] [1]).1.values = [1, 0, 0, 0, 0, 0, 0, 1] := by
  refine ⟨⟨rfl, by simp, by simp, by simp⟩, by decide +kernel, by decide +kernel⟩

/-! ## C19 -/

/-- In exact arithmetic no call — accepted or not, contiguous or not, whatever the memory contents — makes the code
use an index outside the value array.  Missing for the full property: floating point rounding, where it is false
(`C19_rounding_out_of_bounds`). -/
theorem C19_no_bad_index_partial (nd : Bool) (h : Hist) (hw : h.Wf) (coords : List Coord) (ws : List ℚ) :
    (fill id nd h coords ws).2 ≠ .error .memoryViolation ∧
    (Accepted nd h coords ws → (fill id nd h coords ws).2 ≠ .error .indexError) := by
  by_cases ha : Accepted nd h coords ws
  · rw [fill_accepted nd h hw coords ws ha]; simp
  · refine ⟨?_, fun h => absurd h ha⟩
    unfold fill fillWith
    split
    · simp
    · match coords with
      | [] => simp
      | c0 :: rest =>
        simp only
        split
        · simp
        · split
          · simp
          · rename_i g1 g2 g3
            obtain ⟨e, he⟩ := fill_rejected nd h hw (c0 :: rest) ws ha
            unfold fill fillWith at he
            rw [if_neg g1] at he
            simp only at he
            rw [if_neg g2, if_neg g3] at he
            rw [he]
            -- identify the error: it is the TypeError of the dispatch
            rw [Prod.mk.injEq] at he
            have he2 := he.2
            clear he
            intro hmem
            simp only [Except.error.injEq] at hmem
            subst hmem
            have aux : ∀ (h' : Hist), h'.axes = h.axes → h'.values = h.values →
                (∀ c ∈ c0 :: rest, c.dtype = .int64 ∨ c.dtype = .float64) →
                (fillnd id id h' (c0 :: rest) (expandWeights ws c0.len) c0.len).2 ≠ .error .memoryViolation := by
              intro h' ea ev ht
              unfold fillnd
              split
              · simp
              · simp only
                rw [ea, ev, fillndLoop_eq id h.axes hw.2.1 _ (by simpa using g1) ht _ _ hw.1]
                simp
            have auxT : (¬ ∀ c ∈ c0 :: rest, c.dtype = .int64 ∨ c.dtype = .float64) →
                (fillnd id id h (c0 :: rest) (expandWeights ws c0.len) c0.len).2 ≠ .error .memoryViolation := by
              intro ht
              unfold fillnd
              rw [if_pos]
              · simp
              · push Not at ht
                obtain ⟨c, hc, hh⟩ := ht
                exact List.any_eq_true.2 ⟨c, hc, by simpa using hh⟩
            have auxAll : (fillnd id id h (c0 :: rest) (expandWeights ws c0.len) c0.len).2 ≠ .error .memoryViolation := by
              by_cases ht : ∀ c ∈ c0 :: rest, c.dtype = .int64 ∨ c.dtype = .float64
              · exact aux h rfl rfl ht
              · exact auxT ht
            have l1 : ∀ a v l, (fill1dLoop id id a v l).2 ≠ .error .memoryViolation := by
              intro a v l
              induction l generalizing v with
              | nil => simp [fill1dLoop]
              | cons p t ih =>
                obtain ⟨x, w⟩ := p
                simp only [fill1dLoop]
                split
                · exact ih v
                · split
                  · simp
                  · exact ih _
            have l2 : ∀ a b v l, (fill2dLoop id id a b v l).2 ≠ .error .memoryViolation := by
              intro a b v l
              induction l generalizing v with
              | nil => simp [fill2dLoop]
              | cons p t ih =>
                obtain ⟨⟨x, y⟩, w⟩ := p
                simp only [fill2dLoop]
                split
                · exact ih v
                · split
                  · exact ih v
                  · split
                    · simp
                    · split
                      · simp
                      · exact ih _
            revert he2
            split
            · exact auxAll
            · split
              · split
                · simp
                · exact l1 _ _ _
              · split
                · simp
                · exact l2 _ _ _ _
              · exact auxAll

/-- Refutation in binary64 arithmetic: for `Histogram((3, 0, 1), …)` the largest double below 1 passes the range
test but is given bin number 3.  The 1-D path raises IndexError, the N-D path writes outside the array. -/
theorem C19_rounding_out_of_bounds :
    let x : ℚ := 1 - 1 / 2 ^ 53
    (∀ r ∈ [x], Fl.round53 r = r) ∧ (0 ≤ x ∧ x < 1) ∧
    (fill Fl.round53 false ⟨[⟨3, 0, 1⟩], [0, 0, 0]⟩ [fArr [x]] [1]).2 = .error .indexError ∧
    (fill Fl.round53 false ⟨[⟨3, 0, 1⟩, ⟨1, 0, 1⟩, ⟨1, 0, 1⟩], [0, 0, 0]⟩ [fArr [x], fArr [0], fArr [0]] [1]).2 =
      .error .memoryViolation := by
  refine ⟨by decide +kernel, by norm_num, by decide +kernel, by decide +kernel⟩

/-! ## C20 -/

/-- C20 is false for non-contiguous arrays: views with stride 2 and contiguous arrays with the same two elements per
coordinate, both accepted, give different histograms on the N-D path; so do the N-D and the 1-D path for one strided
coordinate. -/
theorem C20_strided_refuted :
    let c : Coord := ⟨.float64, 2, 2, fun i => [0, 1, 0].getD i 0⟩
    let c' : Coord := fArr [0, 0]
    let h : Hist := ⟨[⟨2, 0, 2⟩, ⟨2, 0, 2⟩, ⟨2, 0, 2⟩], [0, 0, 0, 0, 0, 0, 0, 0]⟩
    let h1 : Hist := ⟨[⟨2, 0, 2⟩], [0, 0]⟩
    c.len = c'.len ∧ (∀ i < c.len, c.val i = c'.val i) ∧
      Accepted false h [c, c, c] [1] ∧ Accepted false h [c', c', c'] [1] ∧
      fill id false h [c, c, c] [1] ≠ fill id false h [c', c', c'] [1] ∧
      Accepted true h1 [c] [1] ∧ Accepted false h1 [c] [1] ∧ fill id true h1 [c] [1] ≠ fill id false h1 [c] [1] := by
  refine ⟨rfl, by decide +kernel, ⟨rfl, by simp, by simp, by simp⟩, ⟨rfl, by simp, by simp [fArr], by simp [fArr]⟩, by decide +kernel,
    ⟨rfl, by simp, by simp, by simp⟩, ⟨rfl, by simp, by simp, by simp⟩, by decide +kernel⟩

/-- Changing the numeric types of coordinate arrays (same elements), or choosing the generic N-D path
instead of the dedicated ones, does not change the result of an accepted call.  Missing: non-contiguous arrays on the
N-D path (false, `C20_strided_refuted`). -/
theorem C20_type_independent_partial (nd nd' : Bool) (h : Hist) (hw : h.Wf) (coords coords' : List Coord) (ws : List ℚ)
    (ha : Accepted nd h coords ws) (ha' : Accepted nd' h coords' ws)
    (hc : ReadsRaw nd coords → ∀ c ∈ coords, c.stride = 1) (hc' : ReadsRaw nd' coords' → ∀ c ∈ coords', c.stride = 1)
    (hsame : List.Forall₂ (fun c c' => c.len = c'.len ∧ ∀ i < c.len, c.val i = c'.val i) coords coords') :
    fill id nd h coords ws = fill id nd' h coords' ws := by
  rw [fill_accepted nd h hw coords ws ha, fill_accepted nd' h hw coords' ws ha', samplesBy_contig _ _ _ hc,
    samplesBy_contig _ _ _ hc']
  have : samples coords ws = samples coords' ws := by
    unfold samples samplesBy
    have hl := ha.2.1
    clear ha ha' hc hc'
    cases hsame with
    | nil => rfl
    | cons h1 h2 =>
      rename_i c0 c0' r r'
      simp only
      rw [h1.1]
      apply List.map_congr_left
      intro i hi
      simp only [List.mem_range] at hi
      congr 1
      have key : ∀ {l l' : List Coord}, List.Forall₂ (fun c c' => c.len = c'.len ∧ ∀ i < c.len, c.val i = c'.val i) l l' →
          (∀ c ∈ l, c.len = c0.len) → l.map (fun c => c.val i) = l'.map (fun c => c.val i) := by
        intro l l' hf hlen
        induction hf with
        | nil => rfl
        | cons g1 g2 ih =>
          simp only [List.map_cons]
          rw [g1.2 i (by rw [hlen _ (by simp), h1.1]; exact hi), ih (fun c hc => hlen c (by simp [hc]))]
      exact key (.cons h1 h2) (fun c hcm => hl c hcm c0 (by simp))
  rw [this]

example : Accepted true ⟨[⟨2, 0, 2⟩, ⟨2, 0, 2⟩], [0, 0, 0, 0]⟩ [iArr [0, 1], fArr [1/2, 1]] [1] := by
  refine ⟨rfl, by simp [iArr, fArr], by simp, by simp [iArr, fArr]⟩

/-! ## C21 -/

/-- A history of calls: path flag, coordinate arrays, weights. -/
abbrev Call := Bool × List Coord × List ℚ

/-- Run a history. -/
def fillAll (h : Hist) (calls : List Call) : Hist :=
  calls.foldl (fun h c => (fill id c.1 h c.2.1 c.2.2).1) h

/-- All calls are acceptable to histograms with these axes (on contiguous arrays where the N-D path is used). -/
def AllAccepted (h : Hist) (calls : List Call) : Prop :=
  ∀ c ∈ calls, Accepted c.1 h c.2.1 c.2.2 ∧ (ReadsRaw c.1 c.2.1 → ∀ x ∈ c.2.1, x.stride = 1)

theorem fillAll_eq (calls : List Call) (h : Hist) (hw : h.Wf) (ha : AllAccepted h calls) :
    fillAll h calls = { h with values := (calls.flatMap (fun c => samples c.2.1 c.2.2)).foldl (specStep h.axes) h.values } := by
  induction calls generalizing h with
  | nil => rfl
  | cons c t ih =>
    have h1 := ha c (by simp)
    have hs := fill_accepted c.1 h hw c.2.1 c.2.2 h1.1
    rw [samplesBy_contig _ _ _ h1.2] at hs
    simp only [fillAll, List.foldl_cons, List.flatMap_cons, List.foldl_append] at ih ⊢
    rw [hs]
    rw [ih]
    · exact ⟨by simp only; rw [length_foldl_specStep, hw.1], hw.2.1, hw.2.2⟩
    · intro c' hc'
      exact ha c' (by simp [hc'])

/-- Two histories of accepted calls whose samples (coordinates and weights) are the same up to order — however they
are distributed over calls — give the same histogram. -/
theorem C21_order_and_batch_independent (h : Hist) (hw : h.Wf) (calls calls' : List Call)
    (ha : AllAccepted h calls) (ha' : AllAccepted h calls')
    (hp : (calls.flatMap (fun c => samples c.2.1 c.2.2)).Perm (calls'.flatMap (fun c => samples c.2.1 c.2.2))) :
    fillAll h calls = fillAll h calls' := by
  rw [fillAll_eq calls h hw ha, fillAll_eq calls' h hw ha', foldl_specStep_perm _ _ hp]

open Classical in
/-- The total content grows by exactly the weight of the in-range samples of all calls. -/
theorem C21_total_conserved (h : Hist) (hw : h.Wf) (calls : List Call) (ha : AllAccepted h calls) :
    (fillAll h calls).values.sum = h.values.sum +
      ((calls.flatMap (fun c => samples c.2.1 c.2.2)).map (fun s => if InRange h.axes s.1 then s.2 else 0)).sum := by
  rw [fillAll_eq calls h hw ha]
  exact foldl_specStep_sum h.axes hw.2.1 _ _ hw.1

/-- `reset` after any history gives back the freshly constructed histogram. -/
theorem C21_reset (axes : List Axis) (h0 : Hist) (hi : init axes = .ok h0) (calls : List Call)
    (ha : AllAccepted h0 calls) : reset (fillAll h0 calls) = h0 := by
  obtain ⟨hw, _, hz⟩ := init_wf axes h0 hi
  rw [fillAll_eq calls h0 hw ha]
  have : h0.values = List.replicate h0.values.length 0 := List.eq_replicate_of_mem hz
  cases h0 with
  | mk ax v =>
    simp only [reset, Hist.mk.injEq, true_and] at this ⊢
    rw [List.map_const', length_foldl_specStep, ← this]

example : ∃ h, init [⟨2, 0, 2⟩] = .ok h ∧ AllAccepted h [(false, [fArr [0, 1]], [1]), (true, [iArr [1]], [7])] ∧
    fillAll h [(false, [fArr [0, 1]], [1]), (true, [iArr [1]], [7])] = ⟨[⟨2, 0, 2⟩], [1, 8]⟩ := by
  refine ⟨⟨[⟨2, 0, 2⟩], [0, 0]⟩, by decide +kernel, ?_, by decide +kernel⟩
  intro c hc
  simp at hc
  rcases hc with rfl | rfl <;> simp [Accepted, ReadsRaw, fArr, iArr]

/-! ## C22 -/

/-- A call raises exactly when it is malformed, and then the histogram is left exactly as it was. -/
theorem C22_rejects_iff (nd : Bool) (h : Hist) (hw : h.Wf) (coords : List Coord) (ws : List ℚ) :
    ((fill id nd h coords ws).2 = .ok () ↔ Accepted nd h coords ws) ∧
    (¬ Accepted nd h coords ws → (fill id nd h coords ws).1 = h) := by
  by_cases ha : Accepted nd h coords ws
  · refine ⟨⟨fun _ => ha, fun _ => ?_⟩, fun h => absurd ha h⟩
    rw [fill_accepted nd h hw coords ws ha]
  · obtain ⟨e, he⟩ := fill_rejected nd h hw coords ws ha
    rw [he]
    exact ⟨⟨fun h => by simp at h, fun h => absurd h ha⟩, fun _ => rfl⟩

/-- More than ten dimensions are refused at construction. -/
theorem C22_max_dims (axes : List Axis) (h : 10 < axes.length) : init axes = .error .valueError := by
  unfold init
  rw [if_neg (by rintro rfl; simp at h), if_pos h]

example : ¬ Accepted false ⟨[⟨4, 0, 2⟩], [0, 0, 0, 0]⟩ [fArr [0, 1/2, 1]] [1, 2] := by
  rintro ⟨_, _, h, _⟩; simp [fArr] at h
example : ¬ Accepted false ⟨[⟨2, 0, 2⟩, ⟨2, 0, 2⟩], [0, 0, 0, 0]⟩ [iArr [0], fArr [0]] [1] := by
  rintro ⟨_, _, _, h⟩; simp [iArr, fArr] at h

end Verif.Hist
