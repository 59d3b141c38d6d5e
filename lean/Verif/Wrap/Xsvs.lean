/- C221: speckle visibility of integer frames. -/
import Verif.Wrap.Model
import Verif.Speckle.Model

namespace Verif.Wrap
open Verif Speckle

/-! ### Model -/

/-- `buf[level - 1, prev - 1] + buf[level - 1, cur[level - 1] - 1]` (skbeam/core/speckle.py:204) for frames of integer type `t`:
the buffer holds the arrays themselves (160: `dtype=np.object_`), so the sum is computed in the type of the images.  A frame
marked as bad is a floating-point array of NaN (`none`), and so is its sum with another frame. -/
def addI (t : IntType) {P : ℕ} (a b : Fr P) : Fr P := fun p =>
  match a p, b p with
  | some x, some y => some (t.wrap (⌊x⌋ + ⌊y⌋) : ℤ)
  | _, _ => none

/-- speckle.py:197-220, as `Speckle.levelLoop`. -/
def levelLoopI (t : IntType) {P : ℕ} (labels : Fin P → ℕ) (maxCts tb numTimes : ℕ) : ℕ → ℕ → XState P → XState P
  | 0, _, st => st
  | fuel + 1, level, st =>
    if level < numTimes then
      if st.trackLevel level = false then
        levelLoopI t labels maxCts tb numTimes fuel level { st with trackLevel := Function.update st.trackLevel level true }
      else
        let prev := 1 + (st.cur (level - 1) - 2) % tb
        let st := { st with cur := Function.update st.cur level (1 + st.cur level % tb) }
        let cl := pyIdx tb (st.cur level - 1)
        let s := addI t (st.buf (level - 1) (pyIdx tb (prev - 1))) (st.buf (level - 1) (pyIdx tb (st.cur (level - 1) - 1)))
        let st := { st with buf := Function.update st.buf level (Function.update (st.buf level) cl s)
                            trackLevel := Function.update st.trackLevel level false }
        levelLoopI t labels maxCts tb numTimes fuel (level + 1) (process labels maxCts level cl st)
    else st

/-- speckle.py:173-220, as `Speckle.xsvsFrame`. -/
def xsvsFrameI (t : IntType) {P : ℕ} (labels : Fin P → ℕ) (maxCts tb numTimes : ℕ) (st : XState P) (f : Fr P) : XState P :=
  let st := { st with cur := Function.update st.cur 0 ((1 + st.cur 0) % tb) }
  let c0 := pyIdx tb (st.cur 0 - 1)
  let st := { st with buf := Function.update st.buf 0 (Function.update (st.buf 0) c0 f) }
  levelLoopI t labels maxCts tb numTimes (2 * numTimes) 1 (process labels maxCts 0 c0 st)

/-- speckle.py:150-223, as `Speckle.xsvsSet`. -/
def xsvsSetI (t : IntType) {P : ℕ} (labels : Fin P → ℕ) (maxCts tb numTimes i : ℕ) (a : Acc) (frames : List (Fr P)) : Acc :=
  (frames.foldl (fun (s : XState P × Acc) f =>
    (xsvsFrameI t labels maxCts tb numTimes s.1 f, accStep i s.2 (xsvsFrameI t labels maxCts tb numTimes s.1 f))) (XState.init P tb, a)).2

/-- `xsvs`, speckle.py:61-228, for frames of integer type `t`; as `Speckle.xsvsAll`.  `max_cts` is given as a Python integer. -/
def xsvsAllI (t : IntType) {P : ℕ} (labels : Fin P → ℕ) (maxCts tb numTimes : ℕ) (sets : List (List (Fr P))) : Acc :=
  (sets.foldl (fun (s : ℕ × Acc) fs => (s.1 + 1, xsvsSetI t labels maxCts tb numTimes s.1 s.2 fs)) (0, (fun _ _ _ => 0, fun _ _ _ => 0))).2

/-! ### Lemmas -/

/-- All buffered counts of level l are whole numbers from 0 to m 2^l (or NaN). -/
def Small {P : ℕ} (m : ℕ) (st : XState P) : Prop :=
  ∀ l s p q, st.buf l s p = some q → ∃ z : ℤ, q = z ∧ 0 ≤ z ∧ z ≤ m * 2 ^ l

theorem process_buf {P : ℕ} (labels : Fin P → ℕ) (maxCts level bufNo : ℕ) (st : XState P) : (process labels maxCts level bufNo st).buf = st.buf := by
  unfold process
  simp only
  split <;> rfl

theorem Small.process {P : ℕ} {m : ℕ} {st : XState P} (h : Small m st) (labels : Fin P → ℕ) (maxCts level bufNo : ℕ) :
    Small m (Speckle.process labels maxCts level bufNo st) := by
  unfold Small
  rw [process_buf]
  exact h

theorem small_update {P : ℕ} {m : ℕ} {st st' : XState P} (h : Small m st) (level cl : ℕ) (s : Fr P)
    (hs : ∀ p q, s p = some q → ∃ z : ℤ, q = z ∧ 0 ≤ z ∧ z ≤ m * 2 ^ level)
    (e : st'.buf = Function.update st.buf level (Function.update (st.buf level) cl s)) : Small m st' := by
  intro l k p q hq
  rw [e] at hq
  by_cases hl : l = level
  · subst hl
    rw [Function.update_self] at hq
    by_cases hk : k = cl
    · subst hk
      rw [Function.update_self] at hq
      exact hs p q hq
    · rw [Function.update_of_ne hk] at hq
      exact h l k p q hq
  · rw [Function.update_of_ne hl] at hq
    exact h l k p q hq

theorem addI_eq (t : IntType) {P : ℕ} (a b : Fr P) (B : ℤ) (h0 : t.lo ≤ 0) (hB : 2 * B ≤ t.hi)
    (ha : ∀ p q, a p = some q → ∃ z : ℤ, q = z ∧ 0 ≤ z ∧ z ≤ B) (hb : ∀ p q, b p = some q → ∃ z : ℤ, q = z ∧ 0 ≤ z ∧ z ≤ B) :
    addI t a b = a.add b ∧ ∀ p q, (a.add b) p = some q → ∃ z : ℤ, q = z ∧ 0 ≤ z ∧ z ≤ 2 * B := by
  have key : ∀ p, addI t a b p = (a.add b) p ∧ ∀ q, (a.add b) p = some q → ∃ z : ℤ, q = z ∧ 0 ≤ z ∧ z ≤ 2 * B := by
    intro p
    unfold addI Fr.add nanAdd
    rcases hx : a p with _ | x
    · simp
    rcases hy : b p with _ | y
    · simp
    obtain ⟨x, rfl, hx1, hx2⟩ := ha p x hx
    obtain ⟨y, rfl, hy1, hy2⟩ := hb p y hy
    simp only [Int.floor_intCast]
    rw [wrap_of_holds t (x + y) ⟨by linarith, by linarith⟩]
    refine ⟨by push_cast; rfl, ?_⟩
    rintro q hq
    simp only [Option.some.injEq] at hq
    exact ⟨x + y, by rw [← hq]; push_cast; rfl, by linarith, by linarith⟩
  exact ⟨funext fun p => (key p).1, fun p => (key p).2⟩

theorem levelLoopI_eq (t : IntType) {P : ℕ} (labels : Fin P → ℕ) (maxCts tb numTimes m : ℕ) (h0 : t.lo ≤ 0) (hm : (m : ℤ) * 2 ^ (numTimes - 1) ≤ t.hi)
    (fuel : ℕ) : ∀ (level : ℕ) (st : XState P), 1 ≤ level → Small m st →
    levelLoopI t labels maxCts tb numTimes fuel level st = levelLoop labels maxCts tb numTimes fuel level st ∧
      Small m (levelLoop labels maxCts tb numTimes fuel level st) := by
  induction fuel with
  | zero => intro level st _ h; exact ⟨rfl, h⟩
  | succ fuel ih =>
    intro level st hl h
    unfold levelLoopI levelLoop
    by_cases hlt : level < numTimes
    · rw [if_pos hlt, if_pos hlt]
      by_cases htr : st.trackLevel level = false
      · rw [if_pos htr, if_pos htr]
        exact ih level _ hl h
      · rw [if_neg htr, if_neg htr]
        simp only
        obtain ⟨l, rfl⟩ : ∃ l, level = l + 1 := ⟨level - 1, by omega⟩
        have hB : 2 * ((m : ℤ) * 2 ^ l) ≤ t.hi := by
          refine le_trans ?_ hm
          have : (2 : ℤ) ^ (l + 1) ≤ 2 ^ (numTimes - 1) := pow_le_pow_right₀ (by norm_num) (by omega)
          calc 2 * ((m : ℤ) * 2 ^ l) = m * 2 ^ (l + 1) := by ring
            _ ≤ _ := mul_le_mul_of_nonneg_left this (by positivity)
        simp only [Nat.add_sub_cancel]
        have hadd := fun i j => addI_eq t (st.buf l i) (st.buf l j) ((m : ℤ) * 2 ^ l) h0 hB (h l i) (h l j)
        rw [(hadd _ _).1]
        apply ih (l + 1 + 1) _ (by omega)
        apply Small.process
        refine small_update h (l + 1) _ _ ?_ rfl
        intro p q hq
        obtain ⟨z, e, a, b⟩ := (hadd _ _).2 p q hq
        exact ⟨z, e, a, by rw [pow_succ]; linarith⟩
    · rw [if_neg hlt, if_neg hlt]
      exact ⟨rfl, h⟩

theorem xsvsFrameI_eq (t : IntType) {P : ℕ} (labels : Fin P → ℕ) (maxCts tb numTimes m : ℕ) (h0 : t.lo ≤ 0) (hm : (m : ℤ) * 2 ^ (numTimes - 1) ≤ t.hi)
    (st : XState P) (h : Small m st) (f : Fr P) (hf : ∀ p q, f p = some q → ∃ z : ℤ, q = z ∧ 0 ≤ z ∧ z ≤ m) :
    xsvsFrameI t labels maxCts tb numTimes st f = xsvsFrame labels maxCts tb numTimes st f ∧ Small m (xsvsFrame labels maxCts tb numTimes st f) := by
  unfold xsvsFrameI xsvsFrame
  simp only
  apply levelLoopI_eq t labels maxCts tb numTimes m h0 hm _ 1 _ le_rfl
  apply Small.process
  refine small_update h 0 _ f ?_ rfl
  intro p q hq
  obtain ⟨z, e, a, b⟩ := hf p q hq
  exact ⟨z, e, a, by simpa using b⟩

theorem init_small (P tb m : ℕ) : Small m (XState.init P tb) := by
  intro l s p q hq
  have : q = 0 := by
    have : some (0 : ℚ) = some q := hq
    simpa using this.symm
  exact ⟨0, by simpa using this, le_rfl, by positivity⟩

theorem xsvsSetI_eq (t : IntType) {P : ℕ} (labels : Fin P → ℕ) (maxCts tb numTimes m i : ℕ) (h0 : t.lo ≤ 0) (hm : (m : ℤ) * 2 ^ (numTimes - 1) ≤ t.hi)
    (a : Acc) (frames : List (Fr P)) (hf : ∀ f ∈ frames, ∀ p q, f p = some q → ∃ z : ℤ, q = z ∧ 0 ≤ z ∧ z ≤ m) :
    xsvsSetI t labels maxCts tb numTimes i a frames = xsvsSet labels maxCts tb numTimes i a frames := by
  unfold xsvsSetI xsvsSet
  have : ∀ (l : List (Fr P)) (s : XState P × Acc), (∀ f ∈ l, ∀ p q, f p = some q → ∃ z : ℤ, q = z ∧ 0 ≤ z ∧ z ≤ m) → Small m s.1 →
      l.foldl (fun (s : XState P × Acc) f =>
        (xsvsFrameI t labels maxCts tb numTimes s.1 f, accStep i s.2 (xsvsFrameI t labels maxCts tb numTimes s.1 f))) s =
      l.foldl (fun (s : XState P × Acc) f =>
        (xsvsFrame labels maxCts tb numTimes s.1 f, accStep i s.2 (xsvsFrame labels maxCts tb numTimes s.1 f))) s := by
    intro l
    induction l with
    | nil => intro s _ _; rfl
    | cons f l ih =>
      intro s hl hs
      obtain ⟨e, h⟩ := xsvsFrameI_eq t labels maxCts tb numTimes m h0 hm s.1 hs f (hl f (by simp))
      rw [List.foldl_cons, List.foldl_cons, e]
      exact ih _ (fun g hg => hl g (List.mem_cons_of_mem _ hg)) h
  rw [this frames _ hf (init_small P tb m)]

/-! ## C221 -/

/-- C221, the part that holds: for frames of any integer type with counts from 0 to m (or marked as bad), when m times the
longest integration time (in frames, 2^(number of levels - 1)) fits into the type, xsvs returns what it returns for exact
counts.  Missing: larger counts, see `C221_counts_refuted`. -/
theorem C221_exact_partial (t : IntType) {P : ℕ} (labels : Fin P → ℕ) (maxCts tb numTimes m : ℕ) (sets : List (List (Fr P)))
    (hm : (m : ℤ) * 2 ^ (numTimes - 1) ≤ t.hi)
    (hf : ∀ set ∈ sets, ∀ f ∈ set, ∀ p q, f p = some q → ∃ z : ℤ, q = z ∧ 0 ≤ z ∧ z ≤ m) :
    xsvsAllI t labels maxCts tb numTimes sets = xsvsAll labels maxCts tb numTimes sets := by
  have h0 : t.lo ≤ 0 := by
    have hp : (1 : ℤ) ≤ 2 ^ (t.bits - 1) := one_le_pow₀ (by norm_num)
    unfold IntType.lo
    split <;> linarith
  unfold xsvsAllI xsvsAll
  have : ∀ (l : List (List (Fr P))) (s : ℕ × Acc), (∀ set ∈ l, ∀ f ∈ set, ∀ p q, f p = some q → ∃ z : ℤ, q = z ∧ 0 ≤ z ∧ z ≤ m) →
      l.foldl (fun (s : ℕ × Acc) fs => (s.1 + 1, xsvsSetI t labels maxCts tb numTimes s.1 s.2 fs)) s =
      l.foldl (fun (s : ℕ × Acc) fs => (s.1 + 1, xsvsSet labels maxCts tb numTimes s.1 s.2 fs)) s := by
    intro l
    induction l with
    | nil => intro s _; rfl
    | cons fs l ih =>
      intro s hl
      rw [List.foldl_cons, List.foldl_cons, xsvsSetI_eq t labels maxCts tb numTimes m _ h0 hm _ fs (hl fs (by simp))]
      exact ih _ (fun g hg => hl g (List.mem_cons_of_mem _ hg))
  rw [this sets _ hf]

/-- C221 is false for larger counts: two 8-bit frames with 150 photons in one pixel.  With exact counts, xsvs gives
probability 1/2 to 300 photons in two frame times; for 8-bit frames it gives this probability to 44 photons and none to 300.
The same frames in 16 bits give the exact result. -/
theorem C221_counts_refuted :
    (xsvsAll (P := 1) (fun _ => 1) 151 2 2 [[fun _ => some 150, fun _ => some 150]]).1 1 1 300 = 1 / 2 ∧
    (xsvsAllI (uint 8) (P := 1) (fun _ => 1) 151 2 2 [[fun _ => some 150, fun _ => some 150]]).1 1 1 300 = 0 ∧
    (xsvsAllI (uint 8) (P := 1) (fun _ => 1) 151 2 2 [[fun _ => some 150, fun _ => some 150]]).1 1 1 44 = 1 / 2 ∧
    (xsvsAllI (uint 16) (P := 1) (fun _ => 1) 151 2 2 [[fun _ => some 150, fun _ => some 150]]).1 1 1 300 = 1 / 2 := by
  refine ⟨?_, ?_, ?_, ?_⟩ <;> decide +kernel

-- the hypothesis of C221_exact_partial: up to 63 counts, three levels, 8-bit frames
example : ((63 : ℕ) : ℤ) * 2 ^ (3 - 1) ≤ (uint 8).hi := by decide

end Verif.Wrap
