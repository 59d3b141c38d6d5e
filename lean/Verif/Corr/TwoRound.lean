/- Rounding errors of two_time_corr and one_time_from_two_time (C225). -/
import Verif.Corr.TwoRoundModel
import Verif.Corr.TwoProps
import Verif.FlMono
import Mathlib.Tactic.Positivity
import Mathlib.Tactic.Linarith
import Mathlib.Tactic.Ring
import Mathlib.Tactic.FieldSimp
import Mathlib.Algebra.Order.Field.Rat

namespace Verif.Corr.Rnd
open Verif

/-- x is X up to a relative error of k roundings: x lies between X·(1-u)^k and X/(1-u)^k (X not negative). -/
def Spec.Within (u : ℚ) (k : ℕ) (x X : ℚ) : Prop := 0 ≤ X ∧ X * (1 - u) ^ k ≤ x ∧ x * (1 - u) ^ k ≤ X

/-- The same for entries that may be NaN: NaN in the same places. -/
def Spec.WithinO (u : ℚ) (k : ℕ) : Option ℚ → Option ℚ → Prop
  | some x, some X => Within u k x X
  | none, none => True
  | _, _ => False

open Verif.Corr.Rnd.Spec

section within
variable {u : ℚ} {k k' : ℕ} {x X y Y : ℚ}

theorem pw (h0 : 0 ≤ u) (h1 : u < 1) (k : ℕ) : 0 < (1 - u) ^ k ∧ (1 - u) ^ k ≤ 1 :=
  ⟨pow_pos (by linarith) k, pow_le_one₀ (by linarith) (by linarith)⟩

theorem within_nn (h0 : 0 ≤ u) (h1 : u < 1) (h : Within u k x X) : 0 ≤ x :=
  le_trans (mul_nonneg h.1 (pw h0 h1 k).1.le) h.2.1

theorem within_refl (h0 : 0 ≤ u) (h1 : u < 1) (k : ℕ) (hX : 0 ≤ X) : Within u k X X := by
  have := pw h0 h1 k
  exact ⟨hX, mul_le_of_le_one_right hX this.2, mul_le_of_le_one_right hX this.2⟩

theorem within_mono (h0 : 0 ≤ u) (h1 : u < 1) (hk : k ≤ k') (h : Within u k x X) : Within u k' x X := by
  have hp : (1 - u) ^ k' ≤ (1 - u) ^ k := pow_le_pow_of_le_one (by linarith) (by linarith) hk
  exact ⟨h.1, le_trans (mul_le_mul_of_nonneg_left hp h.1) h.2.1, le_trans (mul_le_mul_of_nonneg_left hp (within_nn h0 h1 h)) h.2.2⟩

theorem within_add (h : Within u k x X) (h' : Within u k y Y) : Within u k (x + y) (X + Y) :=
  ⟨add_nonneg h.1 h'.1, by rw [add_mul]; exact add_le_add h.2.1 h'.2.1, by rw [add_mul]; exact add_le_add h.2.2 h'.2.2⟩

theorem within_mul (h0 : 0 ≤ u) (h1 : u < 1) (h : Within u k x X) (h' : Within u k' y Y) : Within u (k + k') (x * y) (X * Y) := by
  have e : ∀ a b : ℚ, a * b * (1 - u) ^ (k + k') = (a * (1 - u) ^ k) * (b * (1 - u) ^ k') := by intro a b; rw [pow_add]; ring
  refine ⟨mul_nonneg h.1 h'.1, ?_, ?_⟩
  · rw [e]
    exact mul_le_mul h.2.1 h'.2.1 (mul_nonneg h'.1 (pw h0 h1 k').1.le) (within_nn h0 h1 h)
  · rw [e]
    exact mul_le_mul h.2.2 h'.2.2 (mul_nonneg (within_nn h0 h1 h') (pw h0 h1 k').1.le) h.1

theorem within_pos (h0 : 0 ≤ u) (h1 : u < 1) (h : Within u k x X) : 0 < x ↔ 0 < X :=
  ⟨fun hx => lt_of_lt_of_le (mul_pos hx (pw h0 h1 k).1) h.2.2, fun hX => lt_of_lt_of_le (mul_pos hX (pw h0 h1 k).1) h.2.1⟩

theorem within_zero (h0 : 0 ≤ u) (h1 : u < 1) (h : Within u k x X) : x = 0 ↔ X = 0 := by
  have := within_pos h0 h1 h
  have hx := within_nn h0 h1 h
  have hX := h.1
  constructor
  · intro e; by_contra hne; exact absurd (this.2 (lt_of_le_of_ne hX (Ne.symm hne))) (by rw [e]; exact lt_irrefl _)
  · intro e; by_contra hne; exact absurd (this.1 (lt_of_le_of_ne hx (Ne.symm hne))) (by rw [e]; exact lt_irrefl _)

theorem within_inv (h0 : 0 ≤ u) (h1 : u < 1) (h : Within u k x X) : Within u k x⁻¹ X⁻¹ := by
  have hp := (pw h0 h1 k).1
  rcases eq_or_lt_of_le h.1 with e | hX
  · have := (within_zero h0 h1 h).2 e.symm
    rw [this, ← e, inv_zero]; exact within_refl h0 h1 k le_rfl
  · have hx := (within_pos h0 h1 h).2 hX
    refine ⟨inv_nonneg.2 h.1, ?_, ?_⟩
    · rw [inv_mul_eq_div, div_le_iff₀ hX, inv_mul_eq_div, le_div_iff₀ hx, mul_comm]; exact h.2.2
    · rw [inv_mul_eq_div, div_le_iff₀ hx, inv_mul_eq_div, le_div_iff₀ hX, mul_comm]; exact h.2.1

theorem within_div (h0 : 0 ≤ u) (h1 : u < 1) (h : Within u k x X) (h' : Within u k' y Y) : Within u (k + k') (x / y) (X / Y) := by
  rw [div_eq_mul_inv, div_eq_mul_inv]; exact within_mul h0 h1 h (within_inv h0 h1 h')

theorem within_scale (h0 : 0 ≤ u) (h1 : u < 1) (n : ℚ) (hn : 0 ≤ n) (h : Within u k x X) : Within u k (x * n) (X * n) :=
  within_mul h0 h1 h (within_refl h0 h1 0 hn)

theorem within_rnd {fl : ℚ → ℚ} (hr : Fl.Spec.Rel u fl) (h1 : u < 1) (h : Within u k x X) : Within u (k + 1) (fl x) X := by
  have h0 := hr.1
  have hx := within_nn h0 h1 h
  have he := abs_le.1 (hr.2 x)
  rw [abs_of_nonneg hx] at he
  have hp := (pw h0 h1 k).1
  refine ⟨h.1, ?_, ?_⟩
  · calc X * (1 - u) ^ (k + 1) = X * (1 - u) ^ k * (1 - u) := by rw [pow_succ]; ring
      _ ≤ x * (1 - u) := mul_le_mul_of_nonneg_right h.2.1 (by linarith)
      _ ≤ fl x := by linarith [he.1]
  · calc fl x * (1 - u) ^ (k + 1) = fl x * (1 - u) * (1 - u) ^ k := by rw [pow_succ]; ring
      _ ≤ x * (1 - u) ^ k := by
        apply mul_le_mul_of_nonneg_right _ hp.le
        have : fl x ≤ x * (1 + u) := by linarith [he.2]
        calc fl x * (1 - u) ≤ x * (1 + u) * (1 - u) := mul_le_mul_of_nonneg_right this (by linarith)
          _ = x - x * (u * u) := by ring
          _ ≤ x := by linarith [mul_nonneg hx (mul_nonneg h0 h0)]
      _ ≤ X := h.2.2

/-- The relation as an absolute error. -/
theorem within_abs (h0 : 0 ≤ u) (hk : 2 * (k : ℚ) * u ≤ 1) (hu : u < 1) (h : Within u k x X) : |x - X| ≤ 2 * k * u * X := by
  have hb : 1 - (k : ℚ) * u ≤ (1 - u) ^ k := by
    have := one_add_mul_le_pow (a := -u) (by linarith) k
    calc 1 - (k : ℚ) * u = 1 + k * -u := by ring
      _ ≤ (1 + -u) ^ k := this
      _ = (1 - u) ^ k := by ring
  have hx := within_nn h0 hu h
  have hX := h.1
  set e := (k : ℚ) * u with hedef
  have he0 : 0 ≤ e := by positivity
  have he : 2 * e ≤ 1 := by rw [hedef]; linarith
  have l1 : X * (1 - e) ≤ x := le_trans (mul_le_mul_of_nonneg_left hb hX) h.2.1
  have l2 : x * (1 - e) ≤ X := le_trans (mul_le_mul_of_nonneg_left hb hx) h.2.2
  have l3 : x * (1 / 2) ≤ X := le_trans (mul_le_mul_of_nonneg_left (by linarith) hx) l2
  have l4 : x * e ≤ 2 * X * e := mul_le_mul_of_nonneg_right (by linarith) he0
  have e2 : 2 * (k : ℚ) * u * X = 2 * X * e := by rw [hedef]; ring
  have l5 : 0 ≤ X * e := mul_nonneg hX he0
  rw [e2, abs_le]
  constructor <;> linarith
end within

section withinO
variable {u : ℚ} {k k' : ℕ} {x X y Y : Option ℚ}

theorem withinO_mono (h0 : 0 ≤ u) (h1 : u < 1) (hk : k ≤ k') (h : WithinO u k x X) : WithinO u k' x X := by
  cases x <;> cases X <;> simp only [WithinO] at h ⊢
  exact within_mono h0 h1 hk h

theorem withinO_map₂ {f F : ℚ → ℚ → ℚ} {m : ℕ} (hf : ∀ a A b B, Within u k a A → Within u k' b B → Within u m (f a b) (F A B))
    (h : WithinO u k x X) (h' : WithinO u k' y Y) : WithinO u m (Option.map₂ f x y) (Option.map₂ F X Y) := by
  cases x <;> cases X <;> cases y <;> cases Y <;> simp only [WithinO, Option.map₂_none_left, Option.map₂_none_right, Option.map₂_some_some] at h h' ⊢
  exact hf _ _ _ _ h h'
end withinO

/-- Two frames agree pixel by pixel. -/
abbrev FrameIn (u : ℚ) (k : ℕ) : Frame → Frame → Prop := List.Forall₂ (WithinO u k)

section frames
variable {u : ℚ} {fl : ℚ → ℚ} (hr : Fl.Spec.Rel u fl) (hc : Fl.Spec.Correct fl) (h1 : u < 1)
include hr h1

omit hr h1 in
theorem zipWith_in {k k' m : ℕ} {f F : Option ℚ → Option ℚ → Option ℚ}
    (hf : ∀ a A b B, WithinO u k a A → WithinO u k' b B → WithinO u m (f a b) (F A B)) {a A b B : Frame}
    (h : FrameIn u k a A) (h' : FrameIn u k' b B) : FrameIn u m (List.zipWith f a b) (List.zipWith F A B) := by
  induction h generalizing b B with
  | nil => simp
  | cons hx _ ih =>
    cases h' with
    | nil => simp
    | cons hy ht => exact List.Forall₂.cons (hf _ _ _ _ hx hy) (ih ht)

include hc in
theorem avg_in {k : ℕ} {a A b B : Frame} (h : FrameIn u k a A) (h' : FrameIn u k b B) : FrameIn u (k + 1) (avg fl a b) (Corr.avg A B) := by
  apply zipWith_in _ h h'
  intro x X y Y hx hy
  cases x <;> cases X <;> cases y <;> cases Y <;> simp only [WithinO] at hx hy ⊢
  rw [hc.half, hc.idem, div_eq_mul_inv, div_eq_mul_inv]
  exact within_scale hr.1 h1 _ (by norm_num) (within_rnd hr h1 (within_add hx hy))

theorem binned_in (labels : List ℕ) (r : ℕ) {k : ℕ} {w W : Frame} (h : FrameIn u k w W) (j : ℕ) (acc ACC : Option ℚ)
    (ha : WithinO u (k + j) acc ACC) :
    WithinO u (k + j + numPixels labels r)
      ((labels.zip w).foldl (fun acc p => if p.1 = r + 1 then Option.map₂ (fun x y => fl (x + y)) acc p.2 else acc) acc)
      (Option.map₂ (· + ·) ACC (Corr.binnedO labels W r)) := by
  induction labels generalizing w W j acc ACC with
  | nil =>
    have : Option.map₂ (· + ·) ACC (Corr.binnedO [] W r) = ACC := by cases ACC <;> simp [Corr.binnedO]
    rw [this]; simpa [numPixels] using ha
  | cons l ls ih =>
    cases h with
    | nil =>
      have : Option.map₂ (· + ·) ACC (Corr.binnedO (l :: ls) [] r) = ACC := by cases ACC <;> simp [Corr.binnedO]
      rw [this]
      simp only [List.zip_nil_right, List.foldl_nil]
      exact withinO_mono hr.1 h1 (by omega) ha
    | @cons x X t T hx ht =>
      rw [List.zip_cons_cons, List.foldl_cons]
      by_cases hl : l = r + 1
      · have e : Option.map₂ (· + ·) ACC (Corr.binnedO (l :: ls) (X :: T) r) = Option.map₂ (· + ·) (Option.map₂ (· + ·) ACC X) (Corr.binnedO ls T r) := by
          unfold Corr.binnedO
          rw [List.zipWith_cons_cons, if_pos hl, List.foldr_cons]
          cases ACC <;> cases X <;> simp
        have n : numPixels (l :: ls) r = numPixels ls r + 1 := by simp [numPixels, hl]
        rw [e, n, if_pos hl]
        have := ih ht (j + 1) (Option.map₂ (fun x y => fl (x + y)) acc x) (Option.map₂ (· + ·) ACC X)
          (withinO_map₂ (k := k + j) (k' := k) (fun a A b B p q => by
            have := within_rnd hr h1 (within_add p (within_mono hr.1 h1 (Nat.le_add_right k j) q))
            exact this) ha hx)
        exact withinO_mono hr.1 h1 (by omega) this
      · have e : Corr.binnedO (l :: ls) (X :: T) r = Corr.binnedO ls T r := by
          unfold Corr.binnedO
          rw [List.zipWith_cons_cons, if_neg hl, List.foldr_cons]
          cases (List.foldr (Option.map₂ fun x1 x2 => x1 + x2) (some 0) (List.zipWith (fun l x => if l = r + 1 then x else some 0) ls T)) <;> simp
        have n : numPixels (l :: ls) r = numPixels ls r := by
          unfold numPixels; rw [List.count_cons_of_ne hl]
        rw [e, n, if_neg hl]
        exact ih ht j acc ACC ha

theorem binnedO_in (labels : List ℕ) (r : ℕ) {k : ℕ} {w W : Frame} (h : FrameIn u k w W) :
    WithinO u (k + numPixels labels r) (binnedO fl labels w r) (Corr.binnedO labels W r) := by
  have := binned_in hr h1 labels r h 0 (some 0) (some 0) (within_refl hr.1 h1 _ le_rfl)
  have e : Option.map₂ (· + ·) (some 0) (Corr.binnedO labels W r) = Corr.binnedO labels W r := by
    cases Corr.binnedO labels W r <;> simp
  rw [e] at this
  exact this

theorem twoVal_in (labels : List ℕ) (r : ℕ) {k : ℕ} {p P f F : Frame} (hp : FrameIn u k p P) (hf : FrameIn u k f F) :
    WithinO u (4 * k + 3 * numPixels labels r + 4) (twoVal fl labels p f r) (Corr.twoVal labels P F r) := by
  have ht := binnedO_in hr h1 labels r (zipWith_in (m := 2 * k + 1) (fun a A b B x y =>
    withinO_map₂ (k := k) (k' := k) (m := 2 * k + 1) (f := fun x y => fl (x * y)) (F := (· * ·)) (fun a A b B x y => by
      have := within_rnd hr h1 (within_mul hr.1 h1 x y)
      exact within_mono hr.1 h1 (by omega) this) x y) hp hf)
  have h2 := binnedO_in hr h1 labels r hp
  have h3 := binnedO_in hr h1 labels r hf
  unfold twoVal Corr.twoVal
  revert ht h2 h3
  generalize binnedO fl labels (List.zipWith (Option.map₂ fun x y => fl (x * y)) p f) r = a
  generalize Corr.binnedO labels (List.zipWith (Option.map₂ fun x y => x * y) P F) r = A
  generalize binnedO fl labels p r = b
  generalize Corr.binnedO labels P r = B
  generalize binnedO fl labels f r = d
  generalize Corr.binnedO labels F r = D
  intro ht h2 h3
  cases a <;> cases A <;> cases b <;> cases B <;> cases d <;> cases D <;> simp only [WithinO] at ht h2 h3 ⊢
  rename_i a A b B d D
  have hden := within_rnd hr h1 (within_mul hr.1 h1 h2 h3)
  by_cases hz : B * D = 0
  · rw [if_pos hz, if_pos ((within_zero hr.1 h1 hden).2 hz)]
    trivial
  · rw [if_neg hz, if_neg (fun e => hz ((within_zero hr.1 h1 hden).1 e))]
    have := within_rnd hr h1 (within_scale hr.1 h1 (numPixels labels r : ℚ) (Nat.cast_nonneg _) (within_rnd hr h1 (within_div hr.1 h1 ht hden)))
    exact within_mono hr.1 h1 (by omega) this

/-- Entries of the matrix are floating-point numbers. -/
abbrev Repr (fl : ℚ → ℚ) (g : Option ℚ) : Prop := ∀ x, g = some x → fl x = x

omit hr h1 in
include hc in
theorem twoVal_repr (labels : List ℕ) (r : ℕ) (p f : Frame) : Repr fl (twoVal fl labels p f r) := by
  intro x hx
  unfold twoVal at hx
  split at hx
  · split at hx
    · cases hx
    · simp only [Option.some.injEq] at hx
      rw [← hx]; exact hc.idem _
  · cases hx
end frames

/-! ### The two runs in lockstep -/

/-- Two ring buffers with the same counters and buffered frames that agree. -/
structure RingIn (u : ℚ) (r R : Ring Frame) : Prop where
  img : r.img = R.img
  track : r.track = R.track
  cur : r.cur = R.cur
  buf : ∀ l s, FrameIn u l (r.buf l s) (R.buf l s)

/-- Two accumulators with the same counters and matrices that agree; K r is the number of roundings of an entry. -/
structure TAccIn (u : ℚ) (fl : ℚ → ℚ) (K : ℕ → ℕ) (a A : TAcc) : Prop where
  time : a.time = A.time
  timeInd : a.timeInd = A.timeInd
  count : a.count = A.count
  err : a.err = A.err
  g2 : ∀ r x y, WithinO u (K r) (a.g2 r x y) (A.g2 r x y)
  rep : ∀ r x y, Repr fl (a.g2 r x y)

section sim
variable {u : ℚ} {fl : ℚ → ℚ} (hr : Fl.Spec.Rel u fl) (hc : Fl.Spec.Correct fl) (h1 : u < 1)

theorem writeCell_in {K : ℕ → ℕ} {a A : TAcc} (h : TAccIn u fl K a A) (nf : ℕ) (val VAL : ℕ → Option ℚ)
    (hv : ∀ r, WithinO u (K r) (val r) (VAL r)) (hrep : ∀ r, Repr fl (val r)) (xy : ℚ × ℚ) :
    TAccIn u fl K (writeCell nf val a xy) (writeCell nf VAL A xy) := by
  unfold writeCell
  simp only [h.err]
  split
  · exact h
  · split
    · refine ⟨h.time, h.timeInd, h.count, rfl, ?_, ?_⟩
      · intro r x y
        simp only [put3]
        split
        · exact hv r
        · exact h.g2 r x y
      · intro r x y
        simp only [put3]
        split
        · exact hrep r
        · exact h.rep r x y
    · exact ⟨h.time, h.timeInd, h.count, rfl, h.g2, h.rep⟩

theorem writes_in {K : ℕ → ℕ} (nf : ℕ) (val VAL : ℕ → Option ℚ)
    (hv : ∀ r, WithinO u (K r) (val r) (VAL r)) (hrep : ∀ r, Repr fl (val r)) (xys : List (ℚ × ℚ)) {a A : TAcc} (h : TAccIn u fl K a A) :
    TAccIn u fl K (xys.foldl (writeCell nf val) a) (xys.foldl (writeCell nf VAL) A) := by
  induction xys generalizing a A with
  | nil => exact h
  | cons xy t ih => exact ih (writeCell_in h nf val VAL hv hrep xy)

/-- The number of roundings that go into an entry of ROI r: 4 for each level but the first, 3 for each pixel, 4 more. -/
def Spec.ops (L : ℕ) (labels : List ℕ) (r : ℕ) : ℕ := 4 * (L - 1) + 3 * numPixels labels r + 4

include hr hc h1

theorem oneDelay2_in (c : Cfg) (lags : List ℕ) (nf : ℕ) {r R : Ring Frame} (hR : RingIn u r R) (level : ℕ) (hl : level ≤ c.L - 1) (time : ℚ)
    {a A : TAcc} (h : TAccIn u fl (Spec.ops c.L c.labels) a A) (i : ℕ) :
    TAccIn u fl (Spec.ops c.L c.labels) (oneDelay2 fl c lags nf r level time a i) (Corr.oneDelay2 c lags nf R level time A i) := by
  unfold oneDelay2 Corr.oneDelay2
  simp only [hR.cur]
  cases lags[level * c.n / 2 + i]? with
  | none => exact ⟨h.time, h.timeInd, h.count, rfl, h.g2, h.rep⟩
  | some lag =>
    apply writes_in nf _ _ _ _ _ h
    · intro q
      exact withinO_mono hr.1 h1 (by unfold Spec.ops; omega) (twoVal_in hr h1 c.labels q (hR.buf level _) (hR.buf level _))
    · intro q
      exact twoVal_repr hc _ _ _ _

theorem delays_in (c : Cfg) (lags : List ℕ) (nf : ℕ) {r R : Ring Frame} (hR : RingIn u r R) (level : ℕ) (hl : level ≤ c.L - 1) (time : ℚ)
    (ds : List ℕ) {a A : TAcc} (h : TAccIn u fl (Spec.ops c.L c.labels) a A) :
    TAccIn u fl (Spec.ops c.L c.labels) (ds.foldl (oneDelay2 fl c lags nf r level time) a) (ds.foldl (Corr.oneDelay2 c lags nf R level time) A) := by
  induction ds generalizing a A with
  | nil => exact h
  | cons i t ih => exact ih (oneDelay2_in hr hc h1 c lags nf hR level hl time h i)

theorem process2_in (c : Cfg) (lags : List ℕ) (nf : ℕ) {r R : Ring Frame} (hR : RingIn u r R) (level : ℕ) (hl : level ≤ c.L - 1)
    {a A : TAcc} (h : TAccIn u fl (Spec.ops c.L c.labels) a A) :
    TAccIn u fl (Spec.ops c.L c.labels) (process2 fl c lags nf r level a) (Corr.process2 c lags nf R level A) := by
  unfold process2 Corr.process2
  rw [h.err]
  split
  · exact h
  · split
    · have h2 : TAccIn u fl (Spec.ops c.L c.labels) { a with count := put1 a.count 0 (a.count 0 + 1), time := a.time + 1 }
          { A with count := put1 A.count 0 (A.count 0 + 1), time := A.time + 1 } :=
        ⟨by rw [h.time], h.timeInd, by rw [h.count], h.err, h.g2, h.rep⟩
      have h3 := delays_in hr hc h1 c lags nf hR 0 (Nat.zero_le _) ((A.time + 1 : ℕ) : ℚ) (delays c.n 0 (R.img 0)) h2
      simp only [hR.img, h.time, h.err] at h3 ⊢
      exact ⟨h3.time, by rw [h3.timeInd], h3.count, h3.err, h3.g2, h3.rep⟩
    · simp only [h.timeInd, h.count, hR.img]
      cases (A.timeInd (level - 1))[(put1 A.count level (A.count level + 1) level - 1) * 2]? with
      | none => exact ⟨h.time, rfl, rfl, rfl, h.g2, h.rep⟩
      | some x =>
        cases (A.timeInd (level - 1))[(put1 A.count level (A.count level + 1) level - 1) * 2 + 1]? with
        | none => exact ⟨h.time, rfl, rfl, rfl, h.g2, h.rep⟩
        | some y =>
          apply delays_in hr hc h1 c lags nf hR level hl
          exact ⟨h.time, rfl, rfl, rfl, h.g2, h.rep⟩

theorem cascade_in (c : Cfg) (lags : List ℕ) (nf : ℕ) (fuel level : ℕ) (hf : fuel + level ≤ c.L) (hl : 1 ≤ level) {s S : TSt}
    (hR : RingIn u s.1 S.1) (h : TAccIn u fl (Spec.ops c.L c.labels) s.2 S.2) :
    RingIn u (cascade (avg fl) c.n (process2 fl c lags nf) fuel level s).1 (cascade Corr.avg c.n (Corr.process2 c lags nf) fuel level S).1 ∧
    TAccIn u fl (Spec.ops c.L c.labels) (cascade (avg fl) c.n (process2 fl c lags nf) fuel level s).2
      (cascade Corr.avg c.n (Corr.process2 c lags nf) fuel level S).2 := by
  induction fuel generalizing level s S with
  | zero => exact ⟨hR, h⟩
  | succ fuel ih =>
    obtain ⟨r, a⟩ := s
    obtain ⟨R, A⟩ := S
    simp only at hR h
    simp only [cascade, hR.track]
    split
    · exact ⟨⟨hR.img, rfl, hR.cur, hR.buf⟩, h⟩
    · have hR' : RingIn u (r.pushUp (avg fl) c.n level) (R.pushUp Corr.avg c.n level) := by
        refine ⟨?_, ?_, ?_, ?_⟩
        · simp only [Ring.pushUp, hR.img]
        · simp only [Ring.pushUp, hR.track]
        · simp only [Ring.pushUp, hR.cur]
        · intro l s
          simp only [Ring.pushUp, put2, hR.cur]
          split
          · rename_i hls
            have := avg_in hr hc h1 (hR.buf (level - 1) (prevSlot c.n (R.cur (level - 1)))) (hR.buf (level - 1) (slot c.n (R.cur (level - 1))))
            rw [hls.1]
            rw [Nat.sub_add_cancel hl] at this
            exact this
          · exact hR.buf l s
      exact ih (level + 1) (by omega) (by omega) hR' (process2_in hr hc h1 c lags nf hR' level (by omega) h)

theorem step2_in (c : Cfg) (hL : 1 ≤ c.L) (lags : List ℕ) (nf : ℕ) {s S : TSt} (hR : RingIn u s.1 S.1) (h : TAccIn u fl (Spec.ops c.L c.labels) s.2 S.2)
    {x : Frame} (hx : FrameIn u 0 x x) :
    RingIn u (step2 fl c lags nf s x).1 (Corr.step2 c lags nf S x).1 ∧
    TAccIn u fl (Spec.ops c.L c.labels) (step2 fl c lags nf s x).2 (Corr.step2 c lags nf S x).2 := by
  have hR' : RingIn u (s.1.push0 c.n x) (S.1.push0 c.n x) := by
    refine ⟨?_, hR.track, ?_, ?_⟩
    · simp only [Ring.push0, hR.img]
    · simp only [Ring.push0, hR.cur]
    · intro l q
      simp only [Ring.push0, put2, hR.cur]
      split
      · rename_i hls
        rw [hls.1]; exact hx
      · exact hR.buf l q
  exact cascade_in hr hc h1 c lags nf (c.L - 1) 1 (by omega) le_rfl hR' (process2_in hr hc h1 c lags nf hR' 0 (by omega) h)

/-- Pixel values are not negative. -/
abbrev Spec.NonNeg (images : List (List (Option ℚ))) : Prop := ∀ im ∈ images, ∀ x, some x ∈ im → 0 ≤ x

omit hc in
theorem frame_refl {x : Frame} (h : ∀ y, some y ∈ x → 0 ≤ y) : FrameIn u 0 x x := by
  induction x with
  | nil => exact List.Forall₂.nil
  | cons a t ih =>
    refine List.Forall₂.cons ?_ (ih (fun y hy => h y (List.mem_cons_of_mem _ hy)))
    cases a with
    | none => trivial
    | some y => exact within_refl hr.1 h1 0 (h y List.mem_cons_self)

omit hr hc h1 in
theorem select_mem {pixels : List ℕ} {im : List (Option ℚ)} {x : Frame} (h : select pixels im = .ok x) {y : Option ℚ} (hy : y ∈ x) : y ∈ im := by
  induction pixels generalizing x with
  | nil =>
    simp only [select, List.mapM_nil, pure, Except.pure, Except.ok.injEq] at h
    rw [← h] at hy; cases hy
  | cons p t ih =>
    simp only [select, List.mapM_cons, bind, Except.bind] at h
    cases hp : im[p]? with
    | none => rw [hp] at h; simp at h
    | some v =>
      rw [hp] at h
      simp only [] at h
      split at h
      · cases h
      · rename_i z hz
        simp only [pure, Except.pure, Except.ok.injEq] at h
        rw [← h] at hy
        rcases List.mem_cons.1 hy with rfl | hy
        · exact List.mem_of_getElem? hp
        · exact ih hz hy

theorem lazy_in (c : Cfg) (hL : 1 ≤ c.L) (pixels lags : List ℕ) (nf : ℕ) (images : List (List (Option ℚ))) (hnn : Spec.NonNeg images) {s S : TSt}
    (hR : RingIn u s.1 S.1) (h : TAccIn u fl (Spec.ops c.L c.labels) s.2 S.2) :
    (lazyTwoTime fl c pixels lags nf s images).2 = (Corr.lazyTwoTime c pixels lags nf S images).2 ∧
    TAccIn u fl (Spec.ops c.L c.labels) (lazyTwoTime fl c pixels lags nf s images).1.2 (Corr.lazyTwoTime c pixels lags nf S images).1.2 := by
  induction images generalizing s S with
  | nil => exact ⟨rfl, h⟩
  | cons im rest ih =>
    unfold lazyTwoTime Corr.lazyTwoTime
    cases hsel : select pixels im with
    | error e => exact ⟨rfl, h⟩
    | ok x =>
      have hx : FrameIn u 0 x x := by
        apply frame_refl hr h1
        intro y hy
        exact hnn im List.mem_cons_self y (select_mem hsel hy)
      have := step2_in hr hc h1 c hL lags nf hR h hx
      simp only [this.2.err]
      split
      · exact ⟨rfl, this.2⟩
      · exact ih (fun im h => hnn im (List.mem_cons_of_mem _ h)) this.1 this.2
end sim

/-! ### The matrix -/

section results
variable {u : ℚ} {fl : ℚ → ℚ}

theorem symAt_eq (hc : Fl.Spec.Correct fl) (g : ℕ → ℕ → Option ℚ) (hg : ∀ a b, Repr fl (g a b)) (a b : ℕ) :
    symAt fl g a b = if b ≤ a then g a b else g b a := by
  unfold symAt
  rcases lt_trichotomy a b with h | h | h
  · rw [if_neg (by omega), if_pos h.le, if_neg (by omega), if_neg (by omega)]
    cases e : g b a with
    | none => rfl
    | some x =>
      have hx := hg b a x e
      simp [hx]
  · subst h
    simp only [le_refl, if_true]
    cases e : g a a with
    | none => rfl
    | some x =>
      have hx := hg a a x e
      simp only [Option.map₂_some_some]
      rw [show x + x = 2 * x by ring, hc.two, hx, show 2 * x - x = x by ring, hx]
  · rw [if_pos h.le, if_neg (by omega), if_neg (by omega), if_pos h.le]
    cases e : g a b with
    | none => rfl
    | some x =>
      have hx := hg a b x e
      simp [hx]

theorem symAt_exact (g : ℕ → ℕ → Option ℚ) (a b : ℕ) : Corr.symAt g a b = if b ≤ a then g a b else g b a := by
  unfold Corr.symAt
  rcases lt_trichotomy a b with h | h | h
  · rw [if_neg (by omega), if_pos h.le, if_neg (by omega), if_neg (by omega)]
    cases g b a <;> simp
  · subst h
    simp only [le_refl, if_true]
    cases g a a <;> simp
  · rw [if_pos h.le, if_neg (by omega), if_neg (by omega), if_pos h.le]
    cases g a b <;> simp

/-- C225, the whole call.  For every correct rounding with relative error at most u < 1, every label image and every list of
images without negative pixels: `two_time_corr` computed with rounding raises the exception of the exact computation, or both
succeed and for every ROI the computed matrix is exactly symmetric, has its NaNs in the same places, and every other entry is the
exact one up to the relative error of 4·(levels-1) + 3·(pixels of the ROI) + 4 roundings. -/
theorem C225_matrix (hr : Fl.Spec.Rel u fl) (hc : Fl.Spec.Correct fl) (h1 : u < 1) (L n : ℕ) (hL : 1 ≤ L) (labels : List ℤ)
    (images : List (List (Option ℚ))) (hnn : Spec.NonNeg images) (nf : ℕ) :
    match twoTimeCorr fl L n labels images nf, Corr.twoTimeCorr L n labels images nf with
    | .ok M, .ok E => ∃ c pixels lags, validate n L labels = .ok (c, pixels, lags) ∧ ∀ r < rois c, ∀ a b,
        M r a b = M r b a ∧ WithinO u (4 * (L - 1) + 3 * numPixels c.labels r + 4) (M r a b) (E r a b) ∧ ∀ x, M r a b = some x → fl x = x
    | .error e, .error e' => e = e'
    | _, _ => False := by
  unfold twoTimeCorr Corr.twoTimeCorr
  cases hv : validate n L labels with
  | error e => simp
  | ok v =>
    obtain ⟨c, pixels, lags⟩ := v
    obtain ⟨_, hcc, _⟩ := validate_ok hv
    have hcL : c.L = L := by rw [hcc]
    have hs := lazy_in hr hc h1 c (by omega) pixels lags nf images hnn (s := init2 c) (S := init2 c)
      ⟨rfl, rfl, rfl, fun l s => by
        simp only [init2, Ring.init]
        induction c.labels.length with
        | zero => exact List.Forall₂.nil
        | succ m ih => exact List.Forall₂.cons (within_refl hr.1 h1 _ le_rfl) ih⟩
      ⟨rfl, rfl, rfl, rfl, fun _ _ _ => within_refl hr.1 h1 _ le_rfl, fun r x y z hz => by
        simp only [init2, Option.some.injEq] at hz
        rw [← hz]; exact hc.zero⟩
    simp only []
    revert hs
    generalize lazyTwoTime fl c pixels lags nf (init2 c) images = s
    generalize Corr.lazyTwoTime c pixels lags nf (init2 c) images = S
    obtain ⟨s, e⟩ := s
    obtain ⟨S, e'⟩ := S
    rintro ⟨rfl, hs⟩
    simp only at hs
    cases e with
    | some e => simp
    | none =>
      simp only []
      by_cases hi : images = []
      · simp [hi]
      · rw [if_neg hi, if_neg hi]
        simp only []
        refine ⟨c, pixels, lags, rfl, ?_⟩
        intro r hrr a b
        simp only [toResults, Corr.toResults, if_pos hrr]
        rw [symAt_eq hc _ (hs.rep r), symAt_eq hc _ (hs.rep r), symAt_exact]
        have hK : Spec.ops c.L c.labels r = 4 * (L - 1) + 3 * numPixels c.labels r + 4 := by rw [hcL]; rfl
        refine ⟨?_, ?_, ?_⟩
        · rcases lt_trichotomy a b with h | h | h
          · rw [if_neg (by omega), if_pos h.le]
          · subst h; rfl
          · rw [if_pos h.le, if_neg (by omega)]
        · rw [← hK]
          split
          · exact hs.g2 r a b
          · exact hs.g2 r b a
        · split
          · exact hs.rep r a b
          · exact hs.rep r b a

/-- C225, what the entries mean.  T ≥ 1 images without negative pixels, T at most the number of frames announced: the call succeeds,
and for every level l, every delay i of that level and every pair of level-l frames k-i and k, each of the 2^l cells belonging to the
pair is `<I1 I2>/(<I1><I2>)` of the averaged frames up to the relative error of 4·(levels-1) + 3·(pixels of the ROI) + 4 roundings (NaN
exactly when that ratio is undefined); every other cell on or below the diagonal is exactly 0. -/
theorem C225_entries (hr : Fl.Spec.Rel u fl) (hc : Fl.Spec.Correct fl) (h1 : u < 1) (n L nf : ℕ) (hn2 : 2 ≤ n) (hL : 1 ≤ L) (labels : List ℤ) (c : Cfg)
    (pixels lags : List ℕ) (hv : validate n L labels = .ok (c, pixels, lags))
    (images : ℕ → List (Option ℚ)) (hsz : ∀ t, labels.length ≤ (images t).length) (T : ℕ) (hT : 1 ≤ T) (hnf : T ≤ nf)
    (hnn : ∀ t x, some x ∈ images t → 0 ≤ x) :
    let v := pixelHistory images pixels
    let lab := fun p => (c.labels[p]?).getD 0
    ∃ M, twoTimeCorr fl L n labels ((List.range T).map images) nf = .ok M ∧ ∀ r < rois c,
      (∀ l i k j, l < L → i < n → (l = 0 ∨ n / 2 ≤ i) → i ≤ k → k < T / 2 ^ l → j < 2 ^ l →
        WithinO u (4 * (L - 1) + 3 * numPixels c.labels r + 4) (M r (k * 2 ^ l + j) ((k - i) * 2 ^ l + j))
          (Corr.Spec.twoTime v pixels.length lab l (k - i) k r)) ∧
      (∀ a b, b ≤ a → (¬ ∃ l i k j, l < L ∧ i < n ∧ (l = 0 ∨ n / 2 ≤ i) ∧ i ≤ k ∧ k < T / 2 ^ l ∧ j < 2 ^ l ∧
        a = k * 2 ^ l + j ∧ b = (k - i) * 2 ^ l + j) → M r a b = some 0) := by
  intro v lab
  obtain ⟨E, hE, hspec⟩ := C52_two_time_matrix n L nf hn2 hL labels c pixels lags hv images hsz T hT hnf
  have hm := C225_matrix hr hc h1 L n hL labels ((List.range T).map images) (by
    intro im him x hx
    obtain ⟨t, _, rfl⟩ := List.mem_map.1 him
    exact hnn t x hx) nf
  rw [hE] at hm
  cases hM : twoTimeCorr fl L n labels ((List.range T).map images) nf with
  | error e => rw [hM] at hm; exact hm.elim
  | ok M =>
    rw [hM] at hm
    obtain ⟨c2, p2, l2, hv2, hm⟩ := hm
    rw [hv] at hv2
    simp only [Except.ok.injEq, Prod.mk.injEq] at hv2
    obtain ⟨rfl, rfl, rfl⟩ := hv2
    refine ⟨M, rfl, ?_⟩
    intro r hrr
    obtain ⟨_, h2, h3⟩ := hspec r hrr
    refine ⟨?_, ?_⟩
    · intro l i k j a1 a2 a3 a4 a5 a6
      rw [← h2 l i k j a1 a2 a3 a4 a5 a6]
      exact (hm r hrr _ _).2.1
    · intro a b hab hno
      have h4 := h3 a b hab hno
      have h5 := (hm r hrr a b).2.1
      rw [h4] at h5
      cases hab' : M r a b with
      | none => rw [hab'] at h5; exact h5.elim
      | some x =>
        rw [hab'] at h5
        rw [(within_zero hr.1 h1 h5).2 rfl]

/-! ### The one-time correlation -/

theorem forall₂_append_left {R : ℚ → ℚ → Prop} {l m X : List ℚ} (h : List.Forall₂ R (l ++ m) X) :
    ∃ X1 X2, List.Forall₂ R l X1 ∧ List.Forall₂ R m X2 ∧ X = X1 ++ X2 := by
  induction l generalizing X with
  | nil => exact ⟨[], X, List.Forall₂.nil, h, rfl⟩
  | cons a t ih =>
    cases h with
    | @cons _ b _ Y hab ht =>
      obtain ⟨X1, X2, p, q, rfl⟩ := ih ht
      exact ⟨b :: X1, X2, List.Forall₂.cons hab p, q, rfl⟩

theorem sum_in (hr : Fl.Spec.Rel u fl) (h1 : u < 1) {k : ℕ} {l : List ℚ} {s : ℚ} (hs : Sum fl l s) :
    ∀ X : List ℚ, List.Forall₂ (Within u k) l X → Within u (k + l.length) s X.sum := by
  induction hs with
  | nil => intro X hX; cases hX; exact within_refl hr.1 h1 _ le_rfl
  | one x =>
    intro X hX
    cases hX with
    | cons h ht =>
      cases ht
      simp only [List.sum_cons, List.sum_nil, add_zero, List.length_cons, List.length_nil]
      exact within_mono hr.1 h1 (by omega) h
  | @add l m q a b hl hm hl0 hm0 hk ihl ihm =>
    intro X hX
    obtain ⟨Y, hY, hp⟩ := List.perm_comp_forall₂ hk.symm hX
    rw [← hp.sum_eq]
    obtain ⟨Y1, Y2, hY1, hY2, rfl⟩ := forall₂_append_left hY
    rw [List.sum_append]
    have hlen : q.length = l.length + m.length := by rw [hk.length_eq, List.length_append]
    have p1 : 0 < l.length := List.length_pos_iff.2 hl0
    have p2 : 0 < m.length := List.length_pos_iff.2 hm0
    have j1 := within_mono (k' := k + q.length - 1) hr.1 h1 (by omega) (ihl Y1 hY1)
    have j2 := within_mono (k' := k + q.length - 1) hr.1 h1 (by omega) (ihm Y2 hY2)
    exact within_mono hr.1 h1 (by omega) (within_rnd hr h1 (within_add j1 j2))

theorem nanmean_in (hr : Fl.Spec.Rel u fl) (h1 : u < 1) (sum : List ℚ → ℚ) (hs : ∀ l, Sum fl l (sum l)) {k : ℕ} {g G : Frame} (h : FrameIn u k g G) :
    WithinO u (k + g.length + 1) (nanmean fl sum g) (Corr.nanmean G) := by
  have hlen : (g.filterMap id).length = (G.filterMap id).length := by
    induction h with
    | nil => rfl
    | @cons a b t T hab _ ih => cases a <;> cases b <;> simp only [WithinO] at hab <;> simp <;> exact ih
  have hsum : (G.map (·.getD 0)).sum = (G.filterMap id).sum := by
    clear h hlen
    induction G with
    | nil => rfl
    | cons a t ih => cases a <;> simp [ih]
  have hmap : List.Forall₂ (Within u k) (g.map (·.getD 0)) (G.map (·.getD 0)) := by
    clear hlen hsum
    induction h with
    | nil => exact List.Forall₂.nil
    | @cons a b t T hab _ ih =>
      refine List.Forall₂.cons ?_ ih
      cases a <;> cases b <;> simp only [WithinO] at hab
      · exact within_refl hr.1 h1 _ le_rfl
      · exact hab
  unfold nanmean Corr.nanmean
  simp only [hlen]
  split
  · trivial
  · have := sum_in hr h1 (hs (g.map (·.getD 0))) _ hmap
    rw [List.length_map, hsum] at this
    simp only [WithinO]
    rw [div_eq_mul_inv, div_eq_mul_inv]
    exact within_rnd hr h1 (within_scale hr.1 h1 _ (by positivity) this)

/-- C225, `one_time_from_two_time`.  However the additions of `np.nanmean` are grouped: for an m × m matrix whose entries are the exact
ones up to k roundings (NaN in the same places), the value computed for lag j is the exact one up to k + (m - j) + 1 roundings, and NaN
exactly when the exact one is. -/
theorem C225_one_time (hr : Fl.Spec.Rel u fl) (h1 : u < 1) (sum : List ℚ → ℚ) (hs : ∀ l, Sum fl l (sum l)) (m k : ℕ) (g G : ℕ → ℕ → Option ℚ)
    (h : ∀ a b, WithinO u k (g a b) (G a b)) (j : ℕ) (hj : j < m) :
    ∃ x X, (oneTimeFromTwoTime fl sum m g)[j]? = some x ∧ (Corr.oneTimeFromTwoTime m G)[j]? = some X ∧ WithinO u (k + (m - j) + 1) x X := by
  refine ⟨nanmean fl sum (diagK m g j), Corr.nanmean (diagK m G j), ?_, ?_, ?_⟩
  · simp [oneTimeFromTwoTime, hj]
  · simp [Corr.oneTimeFromTwoTime, hj]
  · have := nanmean_in hr h1 sum hs (k := k) (g := diagK m g j) (G := diagK m G j) (by
      unfold diagK FrameIn
      rw [List.forall₂_map_left_iff, List.forall₂_map_right_iff, List.forall₂_same]
      exact fun t _ => h t (t + j))
    have hl : (diagK m g j).length = m - j := by simp [diagK]
    rw [hl] at this
    exact this

/-- C225, both calls: the one-time correlation computed from the computed two-time matrix. -/
theorem C225_both (hr : Fl.Spec.Rel u fl) (hc : Fl.Spec.Correct fl) (h1 : u < 1) (sum : List ℚ → ℚ) (hs : ∀ l, Sum fl l (sum l)) (L n : ℕ) (hL : 1 ≤ L)
    (labels : List ℤ) (images : List (List (Option ℚ))) (hnn : Spec.NonNeg images) (nf : ℕ) (c : Cfg) (pixels lags : List ℕ)
    (hv : validate n L labels = .ok (c, pixels, lags)) (M E : ℕ → ℕ → ℕ → Option ℚ) (hM : twoTimeCorr fl L n labels images nf = .ok M)
    (hE : Corr.twoTimeCorr L n labels images nf = .ok E) (r : ℕ) (hrr : r < rois c) (j : ℕ) (hj : j < nf) :
    ∃ x X, (oneTimeFromTwoTime fl sum nf (M r))[j]? = some x ∧ (Corr.oneTimeFromTwoTime nf (E r))[j]? = some X ∧
      WithinO u (4 * (L - 1) + 3 * numPixels c.labels r + 4 + (nf - j) + 1) x X := by
  have hm := C225_matrix hr hc h1 L n hL labels images hnn nf
  rw [hM, hE] at hm
  obtain ⟨c2, p2, l2, hv2, hm⟩ := hm
  rw [hv] at hv2
  simp only [Except.ok.injEq, Prod.mk.injEq] at hv2
  obtain ⟨rfl, rfl, rfl⟩ := hv2
  exact C225_one_time hr h1 sum hs nf _ (M r) (E r) (fun a b => (hm r hrr a b).2.1) j hj

/-- C225, the size of the error: k roundings with relative error u change a number by at most 2·k·u of itself (2·k·u ≤ 1). -/
theorem C225_size (k : ℕ) (x X : ℚ) (h0 : 0 ≤ u) (hk : 2 * (k : ℚ) * u ≤ 1) (hu : u < 1) (h : Within u k x X) : |x - X| ≤ 2 * k * u * X :=
  within_abs h0 hk hu h
end results

/-! ### Without rounding this is the exact model -/

theorem Rnd_foldl (r : ℕ) (l : List (ℕ × Option ℚ)) (acc : Option ℚ) :
    l.foldl (fun acc p => if p.1 = r + 1 then Option.map₂ (fun x y => id (x + y)) acc p.2 else acc) acc =
      Option.map₂ (· + ·) acc ((l.map (fun p => if p.1 = r + 1 then p.2 else some 0)).foldr (Option.map₂ (· + ·)) (some 0)) := by
  induction l generalizing acc with
  | nil => cases acc <;> simp
  | cons p t ih =>
    rw [List.foldl_cons, ih, List.map_cons, List.foldr_cons]
    generalize (t.map (fun p => if p.1 = r + 1 then p.2 else some 0)).foldr (Option.map₂ (· + ·)) (some 0) = z
    obtain ⟨i, x⟩ := p
    simp only
    split
    · cases acc <;> cases x <;> cases z <;> simp [add_assoc]
    · cases acc <;> cases z <;> simp

theorem binnedO_id : binnedO id = Corr.binnedO := by
  funext labels w r
  unfold binnedO Corr.binnedO
  rw [Rnd_foldl, List.zip, List.map_zipWith]
  generalize List.foldr _ _ _ = z
  cases z <;> simp

theorem twoVal_id : twoVal id = Corr.twoVal := by
  funext labels p f r
  unfold twoVal Corr.twoVal
  rw [binnedO_id]; rfl

theorem oneDelay2_id : oneDelay2 id = Corr.oneDelay2 := by
  funext c lags nf r level time a i
  unfold oneDelay2 Corr.oneDelay2
  rw [twoVal_id]; rfl

theorem step2_id : step2 id = Corr.step2 := by
  funext c lags nf s x
  unfold step2 Corr.step2
  have : process2 id = Corr.process2 := by
    funext c lags nf r level a
    unfold process2 Corr.process2
    rw [oneDelay2_id]; rfl
  rw [this]; rfl

theorem lazyTwoTime_id (c : Cfg) (pixels lags : List ℕ) (nf : ℕ) (s : TSt) (ims : List (List (Option ℚ))) :
    lazyTwoTime id c pixels lags nf s ims = Corr.lazyTwoTime c pixels lags nf s ims := by
  induction ims generalizing s with
  | nil => rfl
  | cons im rest ih =>
    unfold lazyTwoTime Corr.lazyTwoTime
    cases select pixels im with
    | error e => rfl
    | ok x =>
      simp only []
      rw [step2_id, ih]

/-- With the identity as rounding function the model is that of `Verif/Corr/TwoModel.lean`. -/
theorem twoTimeCorr_id : twoTimeCorr id = Corr.twoTimeCorr := by
  funext L n labels images nf
  unfold twoTimeCorr Corr.twoTimeCorr
  simp only [lazyTwoTime_id]
  rfl

/-! ### The hypotheses are met -/

/-- Adding from left to right is one of the ways to sum. -/
def seqSum (fl : ℚ → ℚ) : List ℚ → ℚ
  | [] => 0
  | x :: t => t.foldl (fun s y => fl (s + y)) x

theorem seqSum_ok (fl : ℚ → ℚ) (l : List ℚ) : Sum fl l (seqSum fl l) := by
  cases l with
  | nil => exact Sum.nil
  | cons x t =>
    have : ∀ (t p : List ℚ) (s : ℚ), p ≠ [] → Sum fl p s → Sum fl (p ++ t) (t.foldl (fun s y => fl (s + y)) s) := by
      intro t
      induction t with
      | nil => intro p s _ hs; simpa using hs
      | cons y t ih =>
        intro p s hp hs
        have := ih (p ++ [y]) (fl (s + y)) (by simp) (Sum.add hs (Sum.one y) hp (by simp) (List.Perm.refl _))
        simpa using this
    exact this t [x] x (by simp) (Sum.one x)

/-- Double precision meets the hypotheses on the rounding function. -/
example : Fl.Spec.Rel (1 / 2 ^ 53) Fl.round53 ∧ Fl.Spec.Correct Fl.round53 ∧ (1 / 2 ^ 53 : ℚ) < 1 ∧ ∀ l, Sum Fl.round53 l (seqSum Fl.round53 l) :=
  ⟨Fl.round53_rel, Fl.round53_correct, by norm_num, seqSum_ok _⟩

/-- With a million pixels in the ROI and eight levels the relative error is below 10⁻⁹. -/
example (x X : ℚ) (h : Within (1 / 2 ^ 53) (4 * (8 - 1) + 3 * 1000000 + 4) x X) : |x - X| ≤ 1 / 10 ^ 9 * X :=
  (C225_size _ x X (by norm_num) (by norm_num) (by norm_num) h).trans (mul_le_mul_of_nonneg_right (by norm_num) h.1)

/-- What is computed in double precision: 7/6 is not a double, and the matrix and the one-time curve are rounded. -/
example : (twoTimeCorr Fl.round53 2 2 [3, 3] [[some 1, some 1], [some 2, some 0], [some 3, some 1], [some 1, some 1]] 4).map
    (fun M => (M 0 2 0, M 0 0 2, M 0 2 1, (oneTimeFromTwoTime Fl.round53 (seqSum Fl.round53) 4 (M 0))[1]?)) =
    .ok (some (Fl.round53 (7 / 6)), some (Fl.round53 (7 / 6)), some (3 / 2), some (some (Fl.round53 (7 / 6)))) := by decide +kernel

end Verif.Corr.Rnd
