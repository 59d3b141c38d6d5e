/- Property C209: xsvs with rounding arithmetic. -/
import Verif.Speckle.Props
import Verif.FlProps

namespace Verif.Speckle
open Function Verif.Fl

/-! ### model: `Verif/Speckle/Model.lean` with a rounding after every floating-point operation -/

/-- Sum of two frames; speckle.py 204. -/
def Fr.addR (rnd : ℚ → ℚ) {P : ℕ} (a b : Fr P) : Fr P := fun p => (nanAdd (a p) (b p)).map rnd

/-- `speHist` with the rounded quotient of the two (integer) counts; the division by the bin width 1 is exact; speckle.py 283-284. -/
def speHistR (rnd : ℚ → ℚ) (E : ℕ) (xs : List ℚ) (b : ℕ) : ℚ := rnd (speHist E xs b)

/-- `m += (x - m) / c`; speckle.py 222-223, 285-288. -/
def mixR (rnd : ℚ → ℚ) (m x c : ℚ) : ℚ := rnd (m + rnd (rnd (x - m) / c))

/-- `_process`; speckle.py 231-288. -/
def processR (rnd : ℚ → ℚ) {P : ℕ} (labels : Fin P → ℕ) (maxCts level bufNo : ℕ) (st : XState P) : XState P :=
  let st := { st with imgPer := Function.update st.imgPer level (st.imgPer level + 1) }
  if (st.buf level bufNo).bad then { st with trackBad := Function.update st.trackBad level (st.trackBad level + 1) }
  else
    let c : ℚ := (st.imgPer level : ℚ) - st.trackBad level
    let h := fun (label b : ℕ) => speHistR rnd (maxCts * 2 ^ level) (roiData labels label (st.buf level bufNo)) b
    { st with
      prob := Function.update st.prob level (fun label b => mixR rnd (st.prob level label b) (h label b) c)
      probPow := Function.update st.probPow level (fun label b => mixR rnd (st.probPow level label b) (rnd (h label b ^ 2)) c) }

/-- The while loop over the levels; speckle.py 197-220. -/
def levelLoopR (rnd : ℚ → ℚ) {P : ℕ} (labels : Fin P → ℕ) (maxCts tb numTimes : ℕ) : ℕ → ℕ → XState P → XState P
  | 0, _, st => st
  | fuel + 1, level, st =>
    if level < numTimes then
      if st.trackLevel level = false then
        levelLoopR rnd labels maxCts tb numTimes fuel level { st with trackLevel := Function.update st.trackLevel level true }
      else
        let prev := 1 + (st.cur (level - 1) - 2) % tb
        let st := { st with cur := Function.update st.cur level (1 + st.cur level % tb) }
        let cl := pyIdx tb (st.cur level - 1)
        let s := (st.buf (level - 1) (pyIdx tb (prev - 1))).addR rnd (st.buf (level - 1) (pyIdx tb (st.cur (level - 1) - 1)))
        let st := { st with buf := Function.update st.buf level (Function.update (st.buf level) cl s)
                            trackLevel := Function.update st.trackLevel level false }
        levelLoopR rnd labels maxCts tb numTimes fuel (level + 1) (processR rnd labels maxCts level cl st)
    else st

/-- One frame; speckle.py 173-220. -/
def xsvsFrameR (rnd : ℚ → ℚ) {P : ℕ} (labels : Fin P → ℕ) (maxCts tb numTimes : ℕ) (st : XState P) (f : Fr P) : XState P :=
  let st := { st with cur := Function.update st.cur 0 ((1 + st.cur 0) % tb) }
  let c0 := pyIdx tb (st.cur 0 - 1)
  let st := { st with buf := Function.update st.buf 0 (Function.update (st.buf 0) c0 f) }
  levelLoopR rnd labels maxCts tb numTimes (2 * numTimes) 1 (processR rnd labels maxCts 0 c0 st)

/-- speckle.py 222-223, inside the loop over the frames. -/
def accStepR (rnd : ℚ → ℚ) {P : ℕ} (i : ℕ) (a : Acc) (st : XState P) : Acc :=
  (fun l r b => mixR rnd (a.1 l r b) (st.prob l r b) (i + 1), fun l r b => mixR rnd (a.2 l r b) (st.probPow l r b) (i + 1))

/-- One image set; speckle.py 150-223. -/
def xsvsSetR (rnd : ℚ → ℚ) {P : ℕ} (labels : Fin P → ℕ) (maxCts tb numTimes i : ℕ) (a : Acc) (frames : List (Fr P)) : Acc :=
  (frames.foldl (fun (s : XState P × Acc) f =>
    (xsvsFrameR rnd labels maxCts tb numTimes s.1 f, accStepR rnd i s.2 (xsvsFrameR rnd labels maxCts tb numTimes s.1 f))) (XState.init P tb, a)).2

/-- All image sets; speckle.py 135-223. -/
def xsvsAllR (rnd : ℚ → ℚ) {P : ℕ} (labels : Fin P → ℕ) (maxCts tb numTimes : ℕ) (sets : List (List (Fr P))) : Acc :=
  (sets.foldl (fun (s : ℕ × Acc) fs => (s.1 + 1, xsvsSetR rnd labels maxCts tb numTimes s.1 s.2 fs)) (0, (fun _ _ _ => 0, fun _ _ _ => 0))).2

/-- The argument of the square root in `prob_k_std_dev`; speckle.py 225.  The result is NaN if it is negative. -/
def varR (rnd : ℚ → ℚ) (a : Acc) (l r b : ℕ) : ℚ := rnd (a.2 l r b - rnd (a.1 l r b ^ 2))

/-- Without rounding this is the model of `Verif/Speckle/Model.lean`. -/
theorem xsvsAllR_id {P : ℕ} (labels : Fin P → ℕ) (maxCts tb numTimes : ℕ) (sets : List (List (Fr P))) :
    xsvsAllR id labels maxCts tb numTimes sets = xsvsAll labels maxCts tb numTimes sets := by
  have h1 : ∀ a b : Fr P, a.addR id b = a.add b := fun a b => funext fun p => by simp [Fr.addR, Fr.add]
  have h2 : ∀ level c (st : XState P), processR id labels maxCts level c st = process labels maxCts level c st := fun _ _ _ => rfl
  have h3 : ∀ fuel level (st : XState P), levelLoopR id labels maxCts tb numTimes fuel level st = levelLoop labels maxCts tb numTimes fuel level st := by
    intro fuel
    induction fuel with
    | zero => intro _ _; rfl
    | succ f ih => intro level st; simp only [levelLoopR, levelLoop, h1, h2, ih]
  have h4 : ∀ (st : XState P) f, xsvsFrameR id labels maxCts tb numTimes st f = xsvsFrame labels maxCts tb numTimes st f := by
    intro st f; simp only [xsvsFrameR, xsvsFrame, h2, h3]
  have h5 : ∀ i a (st : XState P), accStepR id i a st = accStep i a st := fun _ _ _ => rfl
  simp only [xsvsAllR, xsvsAll, xsvsSetR, xsvsSet, h4, h5]

/-! ### specification -/

/-- Whole numbers below `N` are represented exactly (double precision: `N = 2^53`). -/
def Spec.WholeExact (N : ℕ) (rnd : ℚ → ℚ) : Prop := ∀ n < N, rnd (n : ℚ) = n

/-- A frame of photon counts up to `M`; NaN allowed. -/
def Spec.Counts {P : ℕ} (M : ℕ) (f : Fr P) : Prop := ∀ p, f p = none ∨ ∃ n : ℕ, n ≤ M ∧ f p = some (n : ℚ)

/-! ### the running mean -/

theorem mix_step (u e η k m μ x Xv : ℚ) (rnd : ℚ → ℚ) (hr : Fl.Spec.Rel u rnd) (he : 0 ≤ η) (hk : 1 ≤ k) (hek : η + 6 * k * u ≤ e) (hs : e ≤ 1 / 8)
    (hμ : |μ| ≤ 1) (hX : |Xv| ≤ 1) (hd : |Xv - μ| ≤ 1) (hx : |x - Xv| ≤ η) (hm : |m - μ| ≤ e) :
    |mixR rnd m x k - (μ + (Xv - μ) / k)| ≤ e := by
  obtain ⟨hu, hr⟩ := hr
  have hk0 : 0 < k := by linarith
  have hku : 0 ≤ k * u := by positivity
  have hu8 : u ≤ 1 / 48 := by nlinarith
  unfold mixR
  set d := x - m with hd'
  set s := rnd d
  set q := rnd (s / k)
  have h1 := hr d
  have h2 := hr (s / k)
  rw [abs_div, abs_of_pos hk0] at h2
  have h3 := hr (m + q)
  have hdb : |d| ≤ 5 / 4 := by
    have : d = (x - Xv) + (Xv - μ) + (μ - m) := by rw [hd']; ring
    rw [this]
    have a := abs_add_le ((x - Xv) + (Xv - μ)) (μ - m)
    have b := abs_add_le (x - Xv) (Xv - μ)
    rw [abs_sub_comm μ m] at a
    nlinarith
  have hsd : |s| ≤ (1 + u) * (5 / 4) := by
    have := abs_add_le (s - d) d
    rw [sub_add_cancel] at this
    nlinarith [abs_nonneg d]
  -- error of the quotient
  have hq : |q - d / k| ≤ 3 * u / k := by
    have e1 : q - d / k = (q - s / k) + (s - d) / k := by ring
    have e2 : |(s - d) / k| ≤ u * (5 / 4) / k := by
      rw [abs_div, abs_of_pos hk0]
      apply div_le_div_of_nonneg_right _ hk0.le
      exact h1.trans (mul_le_mul_of_nonneg_left hdb hu)
    have e3 : u * (|s| / k) ≤ u * ((1 + u) * (5 / 4)) / k := by
      rw [mul_div_assoc]
      exact mul_le_mul_of_nonneg_left (div_le_div_of_nonneg_right hsd hk0.le) hu
    rw [e1]
    refine (abs_add_le _ _).trans ((add_le_add (h2.trans e3) e2).trans ?_)
    rw [← add_div]
    apply div_le_div_of_nonneg_right _ hk0.le
    nlinarith
  have hmain : |m + q - (μ + (Xv - μ) / k)| ≤ e * (1 - 1 / k) + η / k + 3 * u / k := by
    have e1 : m + q - (μ + (Xv - μ) / k) = (m - μ) * (1 - 1 / k) + (x - Xv) / k + (q - d / k) := by
      rw [hd']; field_simp; ring
    have hk1 : 0 ≤ 1 - 1 / k := by
      have : 1 / k ≤ 1 := by rw [div_le_one hk0]; exact hk
      linarith
    rw [e1]
    refine (abs_add_le _ _).trans (add_le_add ((abs_add_le _ _).trans (add_le_add ?_ ?_)) hq)
    · rw [abs_mul, abs_of_nonneg hk1]; exact mul_le_mul_of_nonneg_right hm hk1
    · rw [abs_div, abs_of_pos hk0]; exact div_le_div_of_nonneg_right hx hk0.le
  have hgain : e * (1 - 1 / k) + η / k + 3 * u / k ≤ e - 6 * u + 3 * u / k := by
    have : (η + 6 * k * u) / k ≤ e / k := div_le_div_of_nonneg_right hek hk0.le
    have e2 : (η + 6 * k * u) / k = η / k + 6 * u := by field_simp
    rw [e2] at this
    have e3 : e * (1 - 1 / k) = e - e / k := by ring
    linarith
  have h3k : 3 * u / k ≤ 3 * u := div_le_self (by positivity) hk
  have hconv : |μ + (Xv - μ) / k| ≤ 1 := by
    have hk1 : 0 ≤ 1 - 1 / k := by
      have : 1 / k ≤ 1 := by rw [div_le_one hk0]; exact hk
      linarith
    have : μ + (Xv - μ) / k = μ * (1 - 1 / k) + Xv * (1 / k) := by ring
    rw [this]
    refine (abs_add_le _ _).trans ?_
    rw [abs_mul, abs_mul, abs_of_nonneg hk1, abs_of_pos (by positivity : 0 < 1 / k)]
    have i1 := mul_le_mul_of_nonneg_right hμ hk1
    have i2 := mul_le_mul_of_nonneg_right hX (by positivity : 0 ≤ 1 / k)
    linarith
  have hsum : |m + q| ≤ 9 / 8 := by
    have := abs_add_le (m + q - (μ + (Xv - μ) / k)) (μ + (Xv - μ) / k)
    rw [sub_add_cancel] at this
    linarith
  have hfin := abs_add_le (rnd (m + q) - (m + q)) (m + q - (μ + (Xv - μ) / k))
  rw [sub_add_sub_cancel] at hfin
  have h3' : u * |m + q| ≤ u * (9 / 8) := mul_le_mul_of_nonneg_left hsum hu
  linarith

/-! ### the rounded run follows the exact one -/

theorem speHist_range (E : ℕ) (xs : List ℚ) (b : ℕ) : 0 ≤ speHist E xs b ∧ speHist E xs b ≤ 1 := by
  unfold speHist
  refine ⟨by positivity, ?_⟩
  apply div_le_one_of_le₀ _ (by positivity)
  have : xs.countP (inBin E b) ≤ xs.countP (fun x => (List.range E).any (fun b => inBin E b x)) := by
    apply List.countP_mono_left
    intro x _ hx
    rw [List.any_eq_true]
    refine ⟨b, ?_, hx⟩
    unfold inBin at hx
    simp only [Bool.and_eq_true, decide_eq_true_eq] at hx
    exact List.mem_range.2 (by omega)
  exact_mod_cast this

/-- Everything but the probabilities is the same, and these are close.  Levels below `L` have seen at most `n + 1` images, the others `n`. -/
structure Trk {P : ℕ} (u : ℚ) (M n L : ℕ) (st stR : XState P) : Prop where
  buf : stR.buf = st.buf
  cur : stR.cur = st.cur
  trackLevel : stR.trackLevel = st.trackLevel
  trackBad : stR.trackBad = st.trackBad
  imgPer : stR.imgPer = st.imgPer
  le : ∀ l, st.trackBad l ≤ st.imgPer l
  lo : ∀ l, l < L → st.imgPer l ≤ n + 1
  hi : ∀ l, L ≤ l → st.imgPer l ≤ n
  counts : ∀ l k, Spec.Counts (M * 2 ^ l) (st.buf l k)
  rng : ∀ l r b, (0 ≤ st.prob l r b ∧ st.prob l r b ≤ 1) ∧ 0 ≤ st.probPow l r b ∧ st.probPow l r b ≤ 1
  prob : ∀ l r b, |stR.prob l r b - st.prob l r b| ≤ u + 6 * ((st.imgPer l : ℚ) - st.trackBad l) * u
  probPow : ∀ l r b, |stR.probPow l r b - st.probPow l r b| ≤ 4 * u + 6 * ((st.imgPer l : ℚ) - st.trackBad l) * u

theorem mix_range (m x k : ℚ) (hk : 1 ≤ k) (hm : 0 ≤ m ∧ m ≤ 1) (hx : 0 ≤ x ∧ x ≤ 1) : 0 ≤ m + (x - m) / k ∧ m + (x - m) / k ≤ 1 := by
  have hk0 : 0 < k := by linarith
  have h1 : 0 ≤ 1 / k := by positivity
  have h2 : 1 / k ≤ 1 := by rw [div_le_one hk0]; exact hk
  have e : m + (x - m) / k = m * (1 - 1 / k) + x * (1 / k) := by ring
  have i1 := mul_nonneg hm.1 (sub_nonneg.2 h2)
  have i2 := mul_nonneg hx.1 h1
  have i3 := mul_le_mul_of_nonneg_right hm.2 (sub_nonneg.2 h2)
  have i4 := mul_le_mul_of_nonneg_right hx.2 h1
  rw [e]
  constructor <;> linarith

theorem abs_unit {a b : ℚ} (ha : 0 ≤ a ∧ a ≤ 1) (hb : 0 ≤ b ∧ b ≤ 1) : |a| ≤ 1 ∧ |b - a| ≤ 1 := by
  constructor <;> rw [abs_le] <;> constructor <;> linarith [ha.1, ha.2, hb.1, hb.2]

section
variable {P : ℕ} {u : ℚ} {rnd : ℚ → ℚ} (hr : Fl.Spec.Rel u rnd) (labels : Fin P → ℕ) (maxCts tb numTimes M n : ℕ)
  (hn : (6 * (n + 1) + 4) * u ≤ 1 / 8)
include hr hn

theorem process_trk (level bufNo : ℕ) (st stR : XState P) (h : Trk u M n level st stR) :
    Trk u M n (level + 1) (process labels maxCts level bufNo st) (processR rnd labels maxCts level bufNo stR) := by
  have hu := hr.1
  have hlo : ∀ l, l < level + 1 → update st.imgPer level (st.imgPer level + 1) l ≤ n + 1 := by
    intro l hl
    by_cases e : l = level
    · subst e; rw [update_self]; have := h.hi l le_rfl; omega
    · rw [update_of_ne e]; exact h.lo l (by omega)
  have hhi : ∀ l, level + 1 ≤ l → update st.imgPer level (st.imgPer level + 1) l ≤ n := by
    intro l hl
    rw [update_of_ne (by omega)]; exact h.hi l (by omega)
  unfold process processR
  simp only [h.buf, h.imgPer, h.trackBad]
  by_cases hb : (st.buf level bufNo).bad = true
  · rw [if_pos hb, if_pos hb]
    refine ⟨rfl, h.cur, h.trackLevel, rfl, rfl, ?_, hlo, hhi, h.counts, h.rng, ?_, ?_⟩
    · intro l
      simp only
      by_cases e : l = level
      · subst e; simp only [update_self]; have := h.le l; omega
      · simp only [update_of_ne e]; exact h.le l
    all_goals
      intro l r b
      simp only
      by_cases e : l = level
      · subst e; simp only [update_self]; push_cast
        rw [add_sub_add_right_eq_sub]
        first | exact h.prob l r b | exact h.probPow l r b
      · simp only [update_of_ne e]
        first | exact h.prob l r b | exact h.probPow l r b
  · rw [if_neg hb, if_neg hb]
    have hcle : ((st.trackBad level : ℕ) : ℚ) ≤ st.imgPer level := by exact_mod_cast h.le level
    have hcn : ((st.imgPer level : ℕ) : ℚ) ≤ n := by exact_mod_cast h.hi level le_rfl
    have hc0 : (0 : ℚ) ≤ st.trackBad level := by positivity
    have hk : (1 : ℚ) ≤ ((st.imgPer level + 1 : ℕ) : ℚ) - st.trackBad level := by push_cast; linarith
    refine ⟨rfl, h.cur, h.trackLevel, rfl, rfl, ?_, hlo, hhi, h.counts, ?_, ?_, ?_⟩
    · intro l
      simp only
      by_cases e : l = level
      · subst e; simp only [update_self]; have := h.le l; omega
      · simp only [update_of_ne e]; exact h.le l
    · intro l r b
      simp only
      by_cases e : l = level
      · subst e
        simp only [update_self]
        have hh := speHist_range (maxCts * 2 ^ l) (roiData labels r (st.buf l bufNo)) b
        exact ⟨mix_range _ _ _ hk (h.rng l r b).1 hh, mix_range _ _ _ hk (h.rng l r b).2 ⟨by positivity, pow_le_one₀ hh.1 hh.2⟩⟩
      · simp only [update_of_ne e]; exact h.rng l r b
    · intro l r b
      simp only
      by_cases e : l = level
      · subst e
        simp only [update_self]
        have hh := speHist_range (maxCts * 2 ^ l) (roiData labels r (st.buf l bufNo)) b
        have hab := abs_unit (h.rng l r b).1 hh
        have hh1 : |speHistR rnd (maxCts * 2 ^ l) (roiData labels r (st.buf l bufNo)) b - speHist (maxCts * 2 ^ l) (roiData labels r (st.buf l bufNo)) b| ≤ u := by
          unfold speHistR
          refine (hr.2 _).trans ?_
          rw [abs_of_nonneg hh.1]
          exact mul_le_of_le_one_right hu hh.2
        refine mix_step u _ u _ _ _ _ _ rnd hr hu hk le_rfl ?_ hab.1 (abs_unit hh hh).1 hab.2 hh1 ?_
        · refine le_trans ?_ hn
          push_cast
          have : ((st.imgPer l : ℚ) + 1 - st.trackBad l) * u ≤ (n + 1) * u := mul_le_mul_of_nonneg_right (by linarith) hu
          linarith
        · refine (h.prob l r b).trans ?_
          push_cast
          have e2 : u + 6 * ((st.imgPer l : ℚ) + 1 - st.trackBad l) * u = u + 6 * ((st.imgPer l : ℚ) - st.trackBad l) * u + 6 * u := by ring
          rw [e2]; linarith
      · simp only [update_of_ne e]; exact h.prob l r b
    · intro l r b
      simp only
      by_cases e : l = level
      · subst e
        simp only [update_self]
        have hh := speHist_range (maxCts * 2 ^ l) (roiData labels r (st.buf l bufNo)) b
        set H := speHist (maxCts * 2 ^ l) (roiData labels r (st.buf l bufNo)) b with hH
        have hh2 : 0 ≤ H ^ 2 ∧ H ^ 2 ≤ 1 := ⟨by positivity, pow_le_one₀ hh.1 hh.2⟩
        have hab := abs_unit (h.rng l r b).2 hh2
        have hu40 : u ≤ 1 / 40 := by
          have : (0 : ℚ) ≤ n * u := by positivity
          linarith
        have hh1 : |rnd (speHistR rnd (maxCts * 2 ^ l) (roiData labels r (st.buf l bufNo)) b ^ 2) - H ^ 2| ≤ 4 * u := by
          unfold speHistR
          rw [← hH]
          have a1 := hr.2 H
          rw [abs_of_nonneg hh.1] at a1
          have a2 := hr.2 (rnd H ^ 2)
          have a3 : u * H ≤ u := mul_le_of_le_one_right hu hh.2
          have a4 : |rnd H| ≤ 1 + u := by
            have := abs_add_le (rnd H - H) H
            rw [sub_add_cancel, abs_of_nonneg hh.1] at this; linarith [hh.2]
          have a5 : |rnd H ^ 2 - H ^ 2| ≤ u * (2 + u) := by
            have : rnd H ^ 2 - H ^ 2 = (rnd H - H) * (rnd H + H) := by ring
            rw [this, abs_mul]
            have b1 := abs_add_le (rnd H) H
            rw [abs_of_nonneg hh.1] at b1
            exact mul_le_mul (a1.trans a3) (by linarith [hh.2]) (abs_nonneg _) hu
          have a6 : |rnd H ^ 2| ≤ (1 + u) ^ 2 := by rw [abs_pow]; exact pow_le_pow_left₀ (abs_nonneg _) a4 2
          have a7 := abs_add_le (rnd (rnd H ^ 2) - rnd H ^ 2) (rnd H ^ 2 - H ^ 2)
          rw [sub_add_sub_cancel] at a7
          have a8 : u * |rnd H ^ 2| ≤ u * (1 + u) ^ 2 := mul_le_mul_of_nonneg_left a6 hu
          have a9 : u * (1 + u) ^ 2 + u * (2 + u) ≤ 4 * u := by nlinarith [mul_nonneg hu hu, mul_nonneg (mul_nonneg hu hu) hu]
          linarith
        refine mix_step u _ (4 * u) _ _ _ _ _ rnd hr (by linarith) hk le_rfl ?_ hab.1 (abs_unit hh2 hh2).1 hab.2 hh1 ?_
        · refine le_trans ?_ hn
          push_cast
          have : ((st.imgPer l : ℚ) + 1 - st.trackBad l) * u ≤ (n + 1) * u := mul_le_mul_of_nonneg_right (by linarith) hu
          linarith
        · refine (h.probPow l r b).trans ?_
          push_cast
          have e2 : 4 * u + 6 * ((st.imgPer l : ℚ) + 1 - st.trackBad l) * u = 4 * u + 6 * ((st.imgPer l : ℚ) - st.trackBad l) * u + 6 * u := by ring
          rw [e2]; linarith
      · simp only [update_of_ne e]; exact h.probPow l r b

omit hr hn in
theorem add_counts {rnd : ℚ → ℚ} {N A B : ℕ} (hw : Spec.WholeExact N rnd) (f g : Fr P) (hf : Spec.Counts A f) (hg : Spec.Counts B g) (hN : A + B < N) :
    f.addR rnd g = f.add g ∧ Spec.Counts (A + B) (f.add g) := by
  have key : ∀ p, (nanAdd (f p) (g p)).map rnd = nanAdd (f p) (g p) ∧ (nanAdd (f p) (g p) = none ∨ ∃ n : ℕ, n ≤ A + B ∧ nanAdd (f p) (g p) = some (n : ℚ)) := by
    intro p
    rcases hf p with h | ⟨a, ha, h⟩ <;> rcases hg p with h' | ⟨b, hb, h'⟩ <;> rw [h, h']
    · exact ⟨rfl, Or.inl rfl⟩
    · exact ⟨rfl, Or.inl rfl⟩
    · exact ⟨rfl, Or.inl rfl⟩
    · refine ⟨?_, Or.inr ⟨a + b, by omega, by simp [nanAdd]⟩⟩
      have := hw (a + b) (by omega)
      push_cast at this
      simp [nanAdd, this]
  exact ⟨funext fun p => (key p).1, fun p => (key p).2⟩

variable {N : ℕ} (hw : Spec.WholeExact N rnd) (hM : M * 2 ^ numTimes < N)
include hw hM

theorem loop_trk (fuel : ℕ) : ∀ (level : ℕ) (st stR : XState P), 1 ≤ level → Trk u M n level st stR →
    ∃ L, Trk u M n L (levelLoop labels maxCts tb numTimes fuel level st) (levelLoopR rnd labels maxCts tb numTimes fuel level stR) := by
  induction fuel with
  | zero => intro level st stR _ h; exact ⟨level, h⟩
  | succ f ih =>
    intro level st stR h1 h
    rw [levelLoop, levelLoopR]
    by_cases hl : level < numTimes
    · rw [if_pos hl, if_pos hl, h.trackLevel]
      by_cases ht : st.trackLevel level = false
      · rw [if_pos ht, if_pos ht]
        exact ih _ _ _ h1 ⟨h.buf, h.cur, rfl, h.trackBad, h.imgPer, h.le, h.lo, h.hi, h.counts, h.rng, h.prob, h.probPow⟩
      · rw [if_neg ht, if_neg ht]
        simp only [h.cur, h.buf]
        obtain ⟨m, rfl⟩ : ∃ m, level = m + 1 := ⟨level - 1, by omega⟩
        simp only [Nat.add_sub_cancel]
        have hadd := add_counts hw _ _ (h.counts m (pyIdx tb (1 + (st.cur m - 2) % tb - 1)))
          (h.counts m (pyIdx tb (update st.cur (m + 1) (1 + st.cur (m + 1) % tb) m - 1))) (by
            have : 2 ^ (m + 1) ≤ 2 ^ numTimes := Nat.pow_le_pow_right (by norm_num) (by omega)
            have := Nat.mul_le_mul_left M this
            rw [pow_succ, show M * (2 ^ m * 2) = M * 2 ^ m + M * 2 ^ m by ring] at this
            omega)
        rw [hadd.1]
        apply ih _ _ _ (by omega)
        apply process_trk hr labels maxCts M n hn
        refine ⟨rfl, rfl, rfl, h.trackBad, h.imgPer, h.le, h.lo, h.hi, ?_, h.rng, h.prob, h.probPow⟩
        intro l k
        simp only
        by_cases e : l = m + 1
        · subst e
          rw [update_self]
          by_cases e2 : k = pyIdx tb (update st.cur (m + 1) (1 + st.cur (m + 1) % tb) (m + 1) - 1)
          · subst e2
            rw [update_self, pow_succ, show M * (2 ^ m * 2) = M * 2 ^ m + M * 2 ^ m by ring]
            exact hadd.2
          · rw [update_of_ne e2]; exact h.counts _ _
        · rw [update_of_ne e]; exact h.counts _ _
    · rw [if_neg hl, if_neg hl]; exact ⟨level, h⟩

theorem frame_trk (st stR : XState P) (h : Trk u M n 0 st stR) (f : Fr P) (hf : Spec.Counts M f) :
    Trk u M (n + 1) 0 (xsvsFrame labels maxCts tb numTimes st f) (xsvsFrameR rnd labels maxCts tb numTimes stR f) := by
  unfold xsvsFrame xsvsFrameR
  simp only [h.cur, h.buf]
  have h0 : Trk u M n 0 { st with cur := update st.cur 0 ((1 + st.cur 0) % tb), buf := update st.buf 0 (update (st.buf 0) (pyIdx tb (update st.cur 0 ((1 + st.cur 0) % tb) 0 - 1)) f) }
      { stR with cur := update st.cur 0 ((1 + st.cur 0) % tb), buf := update st.buf 0 (update (st.buf 0) (pyIdx tb (update st.cur 0 ((1 + st.cur 0) % tb) 0 - 1)) f) } := by
    refine ⟨rfl, rfl, h.trackLevel, h.trackBad, h.imgPer, h.le, h.lo, h.hi, ?_, h.rng, h.prob, h.probPow⟩
    intro l k
    simp only
    by_cases e : l = 0
    · subst e
      rw [update_self]
      by_cases e2 : k = pyIdx tb (update st.cur 0 ((1 + st.cur 0) % tb) 0 - 1)
      · subst e2
        rw [update_self, pow_zero, mul_one]; exact hf
      · rw [update_of_ne e2]; exact h.counts _ _
    · rw [update_of_ne e]; exact h.counts _ _
  obtain ⟨L, hL⟩ := loop_trk hr labels maxCts tb numTimes M n hn hw hM (2 * numTimes) 1 _ _ le_rfl
    (process_trk hr labels maxCts M n hn 0 (pyIdx tb (update st.cur 0 ((1 + st.cur 0) % tb) 0 - 1)) _ _ h0)
  refine ⟨hL.buf, hL.cur, hL.trackLevel, hL.trackBad, hL.imgPer, hL.le, fun l hl => absurd hl (by omega), ?_, hL.counts, hL.rng, hL.prob, hL.probPow⟩
  intro l _
  by_cases e : l < L
  · exact hL.lo l e
  · have := hL.hi l (by omega); omega

end

/-! ### the averages over the sets -/

/-- The averages of both runs. -/
def Close (e : ℚ) (a aR : Acc) : Prop :=
  ∀ l r b, ((0 ≤ a.1 l r b ∧ a.1 l r b ≤ 1) ∧ 0 ≤ a.2 l r b ∧ a.2 l r b ≤ 1) ∧ |aR.1 l r b - a.1 l r b| ≤ e ∧ |aR.2 l r b - a.2 l r b| ≤ e

theorem init_trk {P : ℕ} (u : ℚ) (hu : 0 ≤ u) (M tb : ℕ) : Trk u M 0 0 (XState.init P tb) (XState.init P tb) := by
  refine ⟨rfl, rfl, rfl, rfl, rfl, fun _ => le_rfl, fun _ _ => by simp [XState.init], fun _ _ => by simp [XState.init], ?_, ?_, ?_, ?_⟩
  · intro l k p
    exact Or.inr ⟨0, Nat.zero_le _, by simp [XState.init]⟩
  · intro l r b; simp [XState.init]
  · intro l r b; simp [XState.init, hu]
  · intro l r b; simp [XState.init, hu]

theorem acc_close {P : ℕ} {u : ℚ} {rnd : ℚ → ℚ} (hr : Fl.Spec.Rel u rnd) (M K S n i : ℕ) (hn : n ≤ K) (hi : i + 1 ≤ S) (e : ℚ) (he : e = (6 * (K + S) + 4) * u) (h8 : e ≤ 1 / 8)
    (st stR : XState P) (h : Trk u M n 0 st stR) (a aR : Acc) (ha : Close e a aR) : Close e (accStep i a st) (accStepR rnd i aR stR) := by
  have hu := hr.1
  have hK : ((n : ℕ) : ℚ) ≤ K := by exact_mod_cast hn
  have hS : ((i : ℕ) : ℚ) + 1 ≤ S := by exact_mod_cast hi
  have hk : (1 : ℚ) ≤ (i : ℚ) + 1 := by linarith [show (0 : ℚ) ≤ i from by positivity]
  have hη : ∀ l, ((st.imgPer l : ℚ) - st.trackBad l) * u ≤ K * u := by
    intro l
    apply mul_le_mul_of_nonneg_right _ hu
    have h1 : (st.imgPer l : ℚ) ≤ n := by exact_mod_cast h.hi l (Nat.zero_le _)
    have h2 : (0 : ℚ) ≤ st.trackBad l := by positivity
    linarith
  have hek : (4 * u + 6 * K * u) + 6 * ((i : ℚ) + 1) * u ≤ e := by
    rw [he]
    have := mul_le_mul_of_nonneg_right hS hu
    linarith
  have hη0 : 0 ≤ 4 * u + 6 * K * u := by positivity
  intro l r b
  obtain ⟨⟨a1, a2⟩, a3, a4⟩ := ha l r b
  obtain ⟨r1, r2⟩ := h.rng l r b
  refine ⟨⟨mix_range _ _ _ hk a1 r1, mix_range _ _ _ hk a2 r2⟩, ?_, ?_⟩
  · refine mix_step u e _ _ _ _ _ _ rnd hr hη0 hk hek h8 (abs_unit a1 r1).1 (abs_unit r1 a1).1 (abs_unit a1 r1).2 ((h.prob l r b).trans ?_) a3
    have := hη l; linarith
  · refine mix_step u e _ _ _ _ _ _ rnd hr hη0 hk hek h8 (abs_unit a2 r2).1 (abs_unit r2 a2).1 (abs_unit a2 r2).2 ((h.probPow l r b).trans ?_) a4
    have := hη l; linarith

theorem set_close {P : ℕ} {u : ℚ} {rnd : ℚ → ℚ} (hr : Fl.Spec.Rel u rnd) (labels : Fin P → ℕ) (maxCts tb numTimes M K S i : ℕ) {N : ℕ} (hw : Spec.WholeExact N rnd) (hM : M * 2 ^ numTimes < N)
    (hi : i + 1 ≤ S) (e : ℚ) (he : e = (6 * (K + S) + 4) * u) (h8 : e ≤ 1 / 8)
    (frames : List (Fr P)) (hc : ∀ f ∈ frames, Spec.Counts M f) : ∀ (n : ℕ) (st stR : XState P) (a aR : Acc), n + frames.length ≤ K → Trk u M n 0 st stR → Close e a aR →
    Close e (frames.foldl (fun (s : XState P × Acc) f =>
      (xsvsFrame labels maxCts tb numTimes s.1 f, accStep i s.2 (xsvsFrame labels maxCts tb numTimes s.1 f))) (st, a)).2
      (frames.foldl (fun (s : XState P × Acc) f =>
      (xsvsFrameR rnd labels maxCts tb numTimes s.1 f, accStepR rnd i s.2 (xsvsFrameR rnd labels maxCts tb numTimes s.1 f))) (stR, aR)).2 := by
  induction frames with
  | nil => intro n st stR a aR _ _ h; exact h
  | cons f t ih =>
    intro n st stR a aR hn ht ha
    simp only [List.foldl_cons]
    simp only [List.length_cons] at hn
    have hnq : ((n : ℕ) : ℚ) + 1 ≤ K := by exact_mod_cast (by omega : n + 1 ≤ K)
    have hfr := frame_trk hr labels maxCts tb numTimes M n (by
      have h1 := mul_le_mul_of_nonneg_right hnq hr.1
      have h2 : (0 : ℚ) ≤ S * u := mul_nonneg (by positivity) hr.1
      rw [he] at h8
      linarith) hw hM st stR ht f (hc f (by simp))
    exact ih (fun g hg => hc g (by simp [hg])) (n + 1) _ _ _ _ (by omega) hfr (acc_close hr M K S (n + 1) i (by omega) hi e he h8 _ _ hfr a aR ha)

theorem all_close {P : ℕ} (u : ℚ) (rnd : ℚ → ℚ) (hr : Fl.Spec.Rel u rnd) (N : ℕ) (hw : Spec.WholeExact N rnd) (labels : Fin P → ℕ) (maxCts tb numTimes M K : ℕ)
    (sets : List (List (Fr P))) (hc : ∀ fs ∈ sets, fs.length ≤ K ∧ ∀ f ∈ fs, Spec.Counts M f) (hM : M * 2 ^ numTimes < N) (h8 : (6 * (K + sets.length) + 4) * u ≤ 1 / 8) :
    Close ((6 * (K + sets.length) + 4) * u) (xsvsAll labels maxCts tb numTimes sets) (xsvsAllR rnd labels maxCts tb numTimes sets) := by
  have hu := hr.1
  set S := sets.length with hS
  have key : ∀ (t : List (List (Fr P))) (i : ℕ) (a aR : Acc), (∀ fs ∈ t, fs ∈ sets) → i + t.length ≤ S → Close ((6 * (K + S) + 4) * u) a aR →
      Close ((6 * (K + S) + 4) * u) (t.foldl (fun (s : ℕ × Acc) fs => (s.1 + 1, xsvsSet labels maxCts tb numTimes s.1 s.2 fs)) (i, a)).2
        (t.foldl (fun (s : ℕ × Acc) fs => (s.1 + 1, xsvsSetR rnd labels maxCts tb numTimes s.1 s.2 fs)) (i, aR)).2 := by
    intro t
    induction t with
    | nil => intro i a aR _ _ h; exact h
    | cons fs t ih =>
      intro i a aR hsub hlen h
      simp only [List.foldl_cons]
      simp only [List.length_cons] at hlen
      apply ih (i + 1) _ _ (fun g hg => hsub g (by simp [hg])) (by omega)
      obtain ⟨c1, c2⟩ := hc fs (hsub fs (by simp))
      exact set_close hr labels maxCts tb numTimes M K S i hw hM (by omega) _ rfl h8 fs c2 0 _ _ _ _ (by omega) (init_trk u hu M tb) h
  exact key sets 0 (fun _ _ _ => 0, fun _ _ _ => 0) (fun _ _ _ => 0, fun _ _ _ => 0) (fun _ h => h) (by omega)
    (fun l r b => by
      have : 0 ≤ (6 * ((K : ℚ) + S) + 4) * u := by positivity
      simp [this])

/-! ## C209 -/

/-- C209: the reported probabilities. -/
theorem C209_probabilities {P : ℕ} (u : ℚ) (rnd : ℚ → ℚ) (hr : Fl.Spec.Rel u rnd) (N : ℕ) (hw : Spec.WholeExact N rnd) (labels : Fin P → ℕ) (maxCts tb numTimes M K : ℕ)
    (sets : List (List (Fr P))) (hc : ∀ fs ∈ sets, fs.length ≤ K ∧ ∀ f ∈ fs, Spec.Counts M f) (hM : M * 2 ^ numTimes < N) (h8 : (6 * (K + sets.length) + 4) * u ≤ 1 / 8) (l r b : ℕ) :
    |(xsvsAllR rnd labels maxCts tb numTimes sets).1 l r b - (xsvsAll labels maxCts tb numTimes sets).1 l r b| ≤ (6 * (K + sets.length) + 4) * u :=
  (all_close u rnd hr N hw labels maxCts tb numTimes M K sets hc hM h8 l r b).2.1

/-- C209: what is under the square root of the standard deviation. -/
theorem C209_std_partial {P : ℕ} (u : ℚ) (rnd : ℚ → ℚ) (hr : Fl.Spec.Rel u rnd) (N : ℕ) (hw : Spec.WholeExact N rnd) (labels : Fin P → ℕ) (maxCts tb numTimes M K : ℕ)
    (sets : List (List (Fr P))) (hc : ∀ fs ∈ sets, fs.length ≤ K ∧ ∀ f ∈ fs, Spec.Counts M f) (hM : M * 2 ^ numTimes < N) (h8 : (6 * (K + sets.length) + 4) * u ≤ 1 / 8) (l r b : ℕ) :
    let a := xsvsAll labels maxCts tb numTimes sets
    let V := a.2 l r b - a.1 l r b ^ 2
    |varR rnd (xsvsAllR rnd labels maxCts tb numTimes sets) l r b - V| ≤ 4 * ((6 * (K + sets.length) + 4) * u) ∧
      (4 * ((6 * (K + sets.length) + 4) * u) ≤ V → 0 ≤ varR rnd (xsvsAllR rnd labels maxCts tb numTimes sets) l r b) := by
  obtain ⟨⟨⟨p1, p2⟩, p3, p4⟩, h1, h2⟩ := all_close u rnd hr N hw labels maxCts tb numTimes M K sets hc hM h8 l r b
  obtain ⟨-, hV⟩ := C95_std_not_nan labels maxCts tb numTimes sets l r b
  obtain ⟨hu, hr⟩ := hr
  simp only
  unfold varR
  set e := (6 * ((K : ℚ) + sets.length) + 4) * u with he
  set A := (xsvsAll labels maxCts tb numTimes sets).1 l r b
  set B := (xsvsAll labels maxCts tb numTimes sets).2 l r b
  set a := (xsvsAllR rnd labels maxCts tb numTimes sets).1 l r b
  set c := (xsvsAllR rnd labels maxCts tb numTimes sets).2 l r b
  have he4 : 4 * u ≤ e := by
    have : 0 ≤ ((K : ℚ) + sets.length) * u := by positivity
    rw [he]; linarith
  have g1 : |a| ≤ 9 / 8 := by
    have := abs_add_le (a - A) A
    rw [sub_add_cancel, abs_of_nonneg p1] at this; linarith
  have g2 : |a ^ 2 - A ^ 2| ≤ e * (17 / 8) := by
    rw [show a ^ 2 - A ^ 2 = (a - A) * (a + A) by ring, abs_mul]
    have := abs_add_le a A
    rw [abs_of_nonneg p1] at this
    exact mul_le_mul h1 (by linarith) (abs_nonneg _) (by linarith)
  have g3 : |rnd (a ^ 2) - a ^ 2| ≤ u * (81 / 64) := by
    refine (hr _).trans (mul_le_mul_of_nonneg_left ?_ hu)
    rw [abs_pow]
    exact (pow_le_pow_left₀ (abs_nonneg _) g1 2).trans (by norm_num)
  set x := c - rnd (a ^ 2)
  have g4 : |x - (B - A ^ 2)| ≤ 7 / 2 * e := by
    have t1 : x - (B - A ^ 2) = (c - B) - (rnd (a ^ 2) - a ^ 2) - (a ^ 2 - A ^ 2) := by simp only [x]; ring
    rw [t1]
    have t2 := abs_sub (c - B - (rnd (a ^ 2) - a ^ 2)) (a ^ 2 - A ^ 2)
    have t3 := abs_sub (c - B) (rnd (a ^ 2) - a ^ 2)
    linarith
  have g5 : |x| ≤ 3 / 2 := by
    have t := abs_add_le (x - (B - A ^ 2)) (B - A ^ 2)
    rw [sub_add_cancel, abs_of_nonneg hV] at t
    have : 0 ≤ A ^ 2 := by positivity
    linarith
  have g6 := hr x
  have g7 : u * |x| ≤ u * (3 / 2) := mul_le_mul_of_nonneg_left g5 hu
  constructor
  · have t := abs_add_le (rnd x - x) (x - (B - A ^ 2))
    rw [sub_add_sub_cancel] at t
    linarith
  · intro hbig
    have hx : 0 ≤ x := by
      have := (abs_le.1 g4).1
      linarith
    rw [abs_of_nonneg hx] at g6
    have hu1 : u ≤ 1 := by linarith
    have := (abs_le.1 g6).1
    have : u * x ≤ x := mul_le_of_le_one_left hx hu1
    linarith

/-- Double precision represents whole numbers below 2^53 exactly. -/
theorem round53_whole : Spec.WholeExact (2 ^ 53) round53 := by
  intro n hn
  unfold round53
  split
  · rename_i h; rw [h]
  · rename_i h
    have hn0 : n ≠ 0 := by rintro rfl; exact h rfl
    rw [if_pos (by positivity)]
    unfold roundPos
    simp only
    have hlog : Nat.log2 n ≤ 52 := by
      have := (Nat.log2_lt hn0).2 hn
      omega
    set e0 : ℤ := (Nat.log2 (n : ℚ).num.natAbs : ℤ) - (Nat.log2 (n : ℚ).den : ℤ) - 52 with he0'
    have he1 : e0 ≤ 0 := by
      rw [he0', Rat.num_natCast, Rat.den_natCast, Int.natAbs_natCast, show Nat.log2 1 = 0 by decide]
      push_cast; omega
    set e : ℤ := if (n : ℚ) / pow2 e0 < 2 ^ 52 then e0 - 1 else e0 with he
    have he0 : e ≤ 0 := by rw [he]; split <;> omega
    obtain ⟨m, hm⟩ : ∃ m : ℕ, e = -(m : ℤ) := ⟨(-e).toNat, by omega⟩
    have hp : pow2 e = 1 / 2 ^ m := by rw [pow2_eq, hm, zpow_neg, zpow_natCast, one_div]
    have hq : (n : ℚ) / pow2 e = ((n * 2 ^ m : ℤ) : ℚ) := by rw [hp]; push_cast; field_simp
    rw [hq]
    have hre : roundHalfEven ((n * 2 ^ m : ℤ) : ℚ) = n * 2 ^ m := by
      unfold roundHalfEven
      simp only [Int.floor_intCast, sub_self]
      rw [if_pos (by norm_num)]
    rw [hre, hp]; push_cast; field_simp

/-- The hypotheses are met by double precision, 1000 images in each of 10 sets, up to 1000 counts and 10 levels. -/
example : Fl.Spec.Rel (1 / 2 ^ 53) round53 ∧ Spec.WholeExact (2 ^ 53) round53 ∧ 1000 * 2 ^ 10 < 2 ^ 53 ∧ ((6 * (1000 + 10) + 4) * (1 / 2 ^ 53) : ℚ) ≤ 1 / 8 :=
  ⟨round53_rel, round53_whole, by norm_num, by norm_num⟩

/-- C209 does not extend to small variances: in double precision the standard deviation is NaN for two sets of photon counts,
the first with one image and the second with 53. -/
theorem C209_nan_refuted :
    varR round53 (xsvsAllR round53 (P := 2) (fun _ => 1) 5 2 1 [[fun p => some (if p = 0 then 1 else 2)], List.replicate 53 (fun _ => some 1)]) 0 1 1 < 0 := by
  decide +kernel

end Verif.Speckle
