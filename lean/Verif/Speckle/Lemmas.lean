import Verif.Speckle.Model
import Mathlib.Tactic.Linarith
import Mathlib.Tactic.FieldSimp
import Mathlib.Tactic.Ring
import Mathlib.Algebra.BigOperators.Group.Finset.Basic
import Mathlib.Data.Nat.Choose.Sum

namespace Verif.Speckle
open Function

/-- The frame of zeros. -/
def zeroFr {P : ℕ} : Fr P := fun _ => some 0

/-- The image that is histogrammed at level `k` when frame `n` arrives, by recursion. -/
def ovl {P : ℕ} (g : ℕ → Fr P) : ℕ → ℕ → Fr P
  | 0, n => g n
  | k + 1, 0 => (zeroFr).add (ovl g k 0)
  | k + 1, n + 1 => (ovl g k n).add (ovl g k (n + 1))

/-- see `ovl` -/
def prevImg {P : ℕ} (g : ℕ → Fr P) (k : ℕ) : ℕ → Fr P
  | 0 => zeroFr
  | c + 1 => ovl g k c

theorem ovl_succ {P : ℕ} (g : ℕ → Fr P) (k c : ℕ) : ovl g (k + 1) c = (prevImg g k c).add (ovl g k c) := by
  cases c <;> rfl

/-- Mean of the histograms of the good images. -/
def meanHist {P : ℕ} (labels : Fin P → ℕ) (E : ℕ) (imgs : List (Fr P)) (pw label b : ℕ) : ℚ :=
  ((imgs.filter (fun f => !f.bad)).map (fun f => speHist E (roiData labels label f) b ^ pw)).sum / ((imgs.filter (fun f => !f.bad)).length : ℚ)

/-- The statistics arrays at level `l` describe the images `imgs`. -/
structure Stat {P : ℕ} (labels : Fin P → ℕ) (maxCts : ℕ) (st : XState P) (l : ℕ) (imgs : List (Fr P)) : Prop where
  per : st.imgPer l = imgs.length
  bad : st.trackBad l = (imgs.filter (fun f => f.bad)).length
  prob : ∀ label b, st.prob l label b = meanHist labels (maxCts * 2 ^ l) imgs 1 label b
  probPow : ∀ label b, st.probPow l label b = meanHist labels (maxCts * 2 ^ l) imgs 2 label b

theorem len_split {P : ℕ} (imgs : List (Fr P)) :
    (imgs.length : ℚ) = ((imgs.filter (fun f => f.bad)).length : ℚ) + ((imgs.filter (fun f => !f.bad)).length : ℚ) := by
  induction imgs with
  | nil => simp
  | cons a t ih =>
    cases h : a.bad <;> simp [h, ih] <;> ring

theorem mean_step {P : ℕ} (labels : Fin P → ℕ) (E : ℕ) (imgs : List (Fr P)) (f : Fr P) (pw label b : ℕ) (h : f.bad = false) :
    meanHist labels E (imgs ++ [f]) pw label b = meanHist labels E imgs pw label b +
      (speHist E (roiData labels label f) b ^ pw - meanHist labels E imgs pw label b) / (((imgs.filter (fun f => !f.bad)).length : ℚ) + 1) := by
  unfold meanHist
  rw [List.filter_append, List.map_append, List.sum_append, List.length_append]
  simp only [List.filter_cons, h, Bool.not_false, if_true, List.filter_nil, List.map_cons, List.map_nil, List.sum_cons, List.sum_nil,
    add_zero, List.length_cons, List.length_nil, zero_add, Nat.cast_add, Nat.cast_one]
  set c : ℚ := ((imgs.filter (fun f => !f.bad)).length : ℚ) with hc
  have hc0 : 0 ≤ c := by rw [hc]; positivity
  by_cases hz : c = 0
  · have : imgs.filter (fun f => !f.bad) = [] := by
      rw [← List.length_eq_zero_iff]
      exact_mod_cast hc.symm.trans hz
    rw [this, hz]; simp
  · have : c + 1 ≠ 0 := by positivity
    field_simp
    ring

theorem mean_bad {P : ℕ} (labels : Fin P → ℕ) (E : ℕ) (imgs : List (Fr P)) (f : Fr P) (pw label b : ℕ) (h : f.bad = true) :
    meanHist labels E (imgs ++ [f]) pw label b = meanHist labels E imgs pw label b := by
  unfold meanHist
  rw [List.filter_append]
  simp [h]

variable {P : ℕ} (labels : Fin P → ℕ) (maxCts tb numTimes : ℕ)

theorem process_frame (level bufNo : ℕ) (st : XState P) :
    (process labels maxCts level bufNo st).buf = st.buf ∧ (process labels maxCts level bufNo st).cur = st.cur ∧
    (process labels maxCts level bufNo st).trackLevel = st.trackLevel := by
  unfold process
  simp only
  split <;> exact ⟨rfl, rfl, rfl⟩

theorem process_stat (level bufNo : ℕ) (st : XState P) (imgs : List (Fr P)) (h : Stat labels maxCts st level imgs) :
    Stat labels maxCts (process labels maxCts level bufNo st) level (imgs ++ [st.buf level bufNo]) := by
  have hlen := len_split imgs
  unfold process
  simp only
  by_cases hb : (st.buf level bufNo).bad = true
  · rw [if_pos hb]
    refine ⟨?_, ?_, ?_, ?_⟩
    · simp [h.per]
    · simp [h.bad, hb]
    · intro label b; simp only; rw [mean_bad _ _ _ _ _ _ _ hb]; exact h.prob label b
    · intro label b; simp only; rw [mean_bad _ _ _ _ _ _ _ hb]; exact h.probPow label b
  · have hb' : (st.buf level bufNo).bad = false := by simpa using hb
    rw [if_neg hb]
    have hcnt : ((st.imgPer level + 1 : ℕ) : ℚ) - st.trackBad level = ((imgs.filter (fun f => !f.bad)).length : ℚ) + 1 := by
      rw [h.per, h.bad]; push_cast; linarith
    refine ⟨?_, ?_, ?_, ?_⟩
    · simp [h.per]
    · simp [h.bad, hb']
    · intro label b
      simp only [update_self]
      rw [mean_step _ _ _ _ _ _ _ hb', h.prob label b, hcnt, pow_one]
    · intro label b
      simp only [update_self]
      rw [mean_step _ _ _ _ _ _ _ hb', h.probPow label b, hcnt]

theorem process_other (level bufNo l : ℕ) (hl : l ≠ level) (st : XState P) (imgs : List (Fr P)) (h : Stat labels maxCts st l imgs) :
    Stat labels maxCts (process labels maxCts level bufNo st) l imgs := by
  unfold process
  simp only
  split
  · refine ⟨?_, ?_, ?_, ?_⟩ <;> simp only [update_of_ne hl]
    exacts [h.per, h.bad, h.prob, h.probPow]
  · refine ⟨?_, ?_, ?_, ?_⟩ <;> simp only [update_of_ne hl]
    exacts [h.per, h.bad, h.prob, h.probPow]

/-- `Stat` only looks at the statistics arrays. -/
theorem Stat.of_eq {st st' : XState P} {l : ℕ} {imgs : List (Fr P)} (h : Stat labels maxCts st l imgs) (h1 : st'.imgPer = st.imgPer)
    (h2 : st'.trackBad = st.trackBad) (h3 : st'.prob = st.prob) (h4 : st'.probPow = st.probPow) : Stat labels maxCts st' l imgs :=
  ⟨by rw [h1]; exact h.per, by rw [h2]; exact h.bad, by rw [h3]; exact h.prob, by rw [h4]; exact h.probPow⟩

/-- What one level of the loop does. -/
def levelStep (level : ℕ) (st : XState P) : XState P :=
  let cl := pyIdx tb (1 + st.cur level % tb - 1)
  process labels maxCts level cl
    { st with
      cur := update st.cur level (1 + st.cur level % tb)
      buf := update st.buf level (update (st.buf level) cl
        ((st.buf (level - 1) (pyIdx tb ((st.cur (level - 1) - 2) % tb))).add (st.buf (level - 1) (pyIdx tb (st.cur (level - 1) - 1)))))
      trackLevel := update st.trackLevel level false }

theorem levelLoop_two (fuel level : ℕ) (hl : level < numTimes) (h1 : 1 ≤ level) (st : XState P) (ht : st.trackLevel level = false) :
    levelLoop labels maxCts tb numTimes (fuel + 2) level st =
      levelLoop labels maxCts tb numTimes fuel (level + 1) (levelStep labels maxCts tb level st) := by
  have hne : level - 1 ≠ level := by omega
  rw [levelLoop, if_pos hl, if_pos ht, levelLoop, if_pos hl]
  simp only [update_self, Bool.true_eq_false, if_false, update_idem, update_of_ne hne]
  unfold levelStep
  simp only [add_sub_cancel_left]

/-- Levels below `l` have seen frame `c`, the others have not. -/
structure Mid (g : ℕ → Fr P) (c l : ℕ) (st : XState P) : Prop where
  track : ∀ k, st.trackLevel k = false
  cur0 : (1 + st.cur 0) % (tb : ℤ) = ((c + 2 : ℕ) : ℤ) % tb
  idx : ∀ k, k < l → k < numTimes → pyIdx tb (st.cur k - 1) = c % tb ∧ pyIdx tb ((st.cur k - 2) % tb) = (c + tb - 1) % tb
  curLo : ∀ k, 1 ≤ k → k < l → k < numTimes → st.cur k % (tb : ℤ) = ((c + 1 : ℕ) : ℤ) % tb
  curHi : ∀ k, 1 ≤ k → l ≤ k → k < numTimes → st.cur k % (tb : ℤ) = (c : ℤ) % tb
  bufNew : ∀ k, k < l → k < numTimes → st.buf k (c % tb) = ovl g k c
  bufOld : ∀ k, k < numTimes → st.buf k ((c + tb - 1) % tb) = prevImg g k c
  statLo : ∀ k, k < l → k < numTimes → Stat labels maxCts st k ((List.range (c + 1)).map (ovl g k))
  statHi : ∀ k, l ≤ k → k < numTimes → Stat labels maxCts st k ((List.range c).map (ovl g k))

theorem idx_ne (c tb : ℕ) (htb : 2 ≤ tb) : (c + tb - 1) % tb ≠ c % tb := by
  intro h
  have h1 : (c + tb - 1 + 1) % tb = (c + 1) % tb := by rw [Nat.add_mod, h, ← Nat.add_mod]
  rw [show c + tb - 1 + 1 = c + tb by omega, Nat.add_mod_right] at h1
  have h2 := Nat.mod_lt c (show 0 < tb by omega)
  rw [Nat.add_mod c 1, Nat.mod_eq_of_lt (show 1 < tb by omega)] at h1
  by_cases h3 : c % tb + 1 < tb
  · rw [Nat.mod_eq_of_lt h3] at h1; omega
  · rw [show c % tb + 1 = tb by omega, Nat.mod_self] at h1; omega

theorem pyIdx_mod (tb : ℕ) (htb : 2 ≤ tb) (c : ℕ) (z : ℤ) (hz0 : 0 ≤ z) (hz : z ≤ tb) (h : z % (tb : ℤ) = ((c + 1 : ℕ) : ℤ) % tb) :
    pyIdx tb (z - 1) = c % tb ∧ pyIdx tb ((z - 2) % tb) = (c + tb - 1) % tb := by
  have htb' : (0 : ℤ) < tb := by omega
  have e1 : (z - 1) % (tb : ℤ) = (c : ℤ) % tb := by
    rw [Int.sub_emod, h, ← Int.sub_emod]; congr 1; push_cast; ring
  have e2 : (z - 2) % (tb : ℤ) = ((c + tb - 1 : ℕ) : ℤ) % tb := by
    have : ((c + tb - 1 : ℕ) : ℤ) = (c : ℤ) - 1 + tb := by omega
    rw [this, Int.add_emod_right, show z - 2 = (z - 1) - 1 by ring, Int.sub_emod, e1, ← Int.sub_emod]
  constructor
  · unfold pyIdx
    have hcast : ((c % tb : ℕ) : ℤ) = (c : ℤ) % tb := by push_cast; rfl
    have : (if z - 1 < 0 then z - 1 + tb else z - 1) = ((c % tb : ℕ) : ℤ) := by
      rw [hcast, ← e1]
      split
      · have hz1 : z = 0 := by omega
        subst hz1
        rw [show (0 : ℤ) - 1 + tb = tb - 1 by ring]
        have : ((0 : ℤ) - 1) % tb = ((0 : ℤ) - 1 + tb) % tb := by rw [Int.add_emod_right]
        rw [this, Int.emod_eq_of_lt (by omega) (by omega)]
        ring
      · rw [Int.emod_eq_of_lt (by omega) (by omega)]
    rw [this]; rfl
  · rw [e2]
    unfold pyIdx
    have hcast : (((c + tb - 1) % tb : ℕ) : ℤ) = ((c + tb - 1 : ℕ) : ℤ) % tb := by push_cast; rfl
    rw [← hcast, if_neg (by omega)]; rfl

theorem mid_step (htb : 2 ≤ tb) (g : ℕ → Fr P) (c l : ℕ) (h1 : 1 ≤ l) (hl : l < numTimes) (st : XState P)
    (h : Mid labels maxCts tb numTimes g c l st) :
    Mid labels maxCts tb numTimes g c (l + 1) (levelStep labels maxCts tb l st) := by
  have htb' : (0 : ℤ) < tb := by omega
  obtain ⟨i1, i2⟩ := h.idx (l - 1) (by omega) (by omega)
  have hcur := h.curHi l h1 le_rfl hl
  have hnew : (1 + st.cur l % (tb : ℤ)) % tb = ((c + 1 : ℕ) : ℤ) % tb := by
    rw [hcur, Int.add_emod, Int.emod_emod, ← Int.add_emod]; congr 1; push_cast; ring
  have hr0 := Int.emod_nonneg (st.cur l) (show (tb : ℤ) ≠ 0 by omega)
  have hr1 := Int.emod_lt_of_pos (st.cur l) htb'
  obtain ⟨j1, j2⟩ := pyIdx_mod tb htb c (1 + st.cur l % tb) (by omega) (by omega) hnew
  have hne := idx_ne c tb htb
  have hsum : (st.buf (l - 1) (pyIdx tb ((st.cur (l - 1) - 2) % tb))).add (st.buf (l - 1) (pyIdx tb (st.cur (l - 1) - 1))) = ovl g l c := by
    rw [i1, i2, h.bufOld (l - 1) (by omega), h.bufNew (l - 1) (by omega) (by omega)]
    obtain ⟨m, rfl⟩ : ∃ m, l = m + 1 := ⟨l - 1, by omega⟩
    rw [ovl_succ]; rfl
  have hstep : levelStep labels maxCts tb l st = process labels maxCts l (c % tb)
    { st with cur := update st.cur l (1 + st.cur l % tb), buf := update st.buf l (update (st.buf l) (c % tb) (ovl g l c)),
              trackLevel := update st.trackLevel l false } := by
    unfold levelStep
    simp only [j1, hsum]
  rw [hstep]
  set st' : XState P := { st with cur := update st.cur l (1 + st.cur l % tb), buf := update st.buf l (update (st.buf l) (c % tb) (ovl g l c)), trackLevel := update st.trackLevel l false } with hst'
  obtain ⟨p1, p2, p3⟩ := process_frame labels maxCts l (c % tb) st'
  refine ⟨?_, ?_, ?_, ?_, ?_, ?_, ?_, ?_, ?_⟩
  · intro k; rw [p3]
    by_cases hk : k = l
    · rw [hk]; simp [hst']
    · simp [hst', update_of_ne hk, h.track]
  · rw [p2]; simp only [hst']; rw [update_of_ne (by omega)]; exact h.cur0
  · intro k hk hkn
    rw [p2]
    by_cases hkl : k = l
    · rw [hkl]; simp only [hst', update_self]; exact ⟨j1, j2⟩
    · simp only [hst', update_of_ne hkl]; exact h.idx k (by omega) hkn
  · intro k hk1 hk hkn
    rw [p2]
    by_cases hkl : k = l
    · rw [hkl]; simp only [hst', update_self]; exact hnew
    · simp only [hst', update_of_ne hkl]; exact h.curLo k hk1 (by omega) hkn
  · intro k hk1 hk hkn
    rw [p2]
    simp only [hst', update_of_ne (show k ≠ l by omega)]; exact h.curHi k hk1 (by omega) hkn
  · intro k hk hkn
    rw [p1]
    by_cases hkl : k = l
    · rw [hkl]; simp [hst']
    · simp only [hst', update_of_ne hkl]; exact h.bufNew k (by omega) hkn
  · intro k hkn
    rw [p1]
    by_cases hkl : k = l
    · rw [hkl]; simp only [hst', update_self, update_of_ne hne]; exact h.bufOld l hl
    · simp only [hst', update_of_ne hkl]; exact h.bufOld k hkn
  · intro k hk hkn
    by_cases hkl : k = l
    · rw [hkl]
      have hb : st'.buf l (c % tb) = ovl g l c := by simp [hst']
      have := process_stat labels maxCts l (c % tb) st' _ ((h.statHi l le_rfl hl).of_eq (st' := st') labels maxCts rfl rfl rfl rfl)
      rw [hb] at this
      rw [List.range_succ, List.map_append]
      exact this
    · exact process_other labels maxCts l (c % tb) k hkl st' _ ((h.statLo k (by omega) hkn).of_eq (st' := st') labels maxCts rfl rfl rfl rfl)
  · intro k hk hkn
    exact process_other labels maxCts l (c % tb) k (by omega) st' _ ((h.statHi k (by omega) hkn).of_eq (st' := st') labels maxCts rfl rfl rfl rfl)

theorem mid_loop (htb : 2 ≤ tb) (g : ℕ → Fr P) (c : ℕ) (d : ℕ) : ∀ (l : ℕ) (st : XState P), 1 ≤ l → l + d = max l numTimes →
    Mid labels maxCts tb numTimes g c l st → ∀ fuel, 2 * d ≤ fuel →
    Mid labels maxCts tb numTimes g c (max l numTimes) (levelLoop labels maxCts tb numTimes fuel l st) := by
  induction d with
  | zero =>
    intro l st h1 hd h fuel hf
    have : numTimes ≤ l := by omega
    rw [max_eq_left this]
    cases fuel with
    | zero => exact h
    | succ f => rw [levelLoop, if_neg (by omega)]; exact h
  | succ d ih =>
    intro l st h1 hd h fuel hf
    have hl : l < numTimes := by omega
    obtain ⟨f, rfl⟩ : ∃ f, fuel = f + 2 := ⟨fuel - 2, by omega⟩
    rw [levelLoop_two labels maxCts tb numTimes f l hl h1 st (h.track l)]
    have := ih (l + 1) _ (by omega) (by omega) (mid_step labels maxCts tb numTimes htb g c l h1 hl st h) f (by omega)
    rw [show max (l + 1) numTimes = max l numTimes by omega] at this
    exact this

/-- State between frames: `c` frames seen. -/
structure Inv (g : ℕ → Fr P) (c : ℕ) (st : XState P) : Prop where
  track : ∀ k, st.trackLevel k = false
  cur0 : (1 + st.cur 0) % (tb : ℤ) = ((c + 1 : ℕ) : ℤ) % tb
  curs : ∀ k, 1 ≤ k → k < numTimes → st.cur k % (tb : ℤ) = (c : ℤ) % tb
  bufs : ∀ k, k < numTimes → st.buf k ((c + tb - 1) % tb) = prevImg g k c
  stat : ∀ k, k < numTimes → Stat labels maxCts st k ((List.range c).map (ovl g k))

theorem inv_init (g : ℕ → Fr P) : Inv labels maxCts tb numTimes g 0 (XState.init P tb) := by
  refine ⟨fun _ => rfl, ?_, ?_, ?_, ?_⟩
  · simp [XState.init]
  · intro k _ _; simp [XState.init]
  · intro k _; rfl
  · intro k _
    refine ⟨rfl, rfl, ?_, ?_⟩ <;> intro label b <;> simp [XState.init, meanHist]

theorem inv_step (htb : 2 ≤ tb) (hn : 1 ≤ numTimes) (g : ℕ → Fr P) (c : ℕ) (st : XState P) (h : Inv labels maxCts tb numTimes g c st) :
    Inv labels maxCts tb numTimes g (c + 1) (xsvsFrame labels maxCts tb numTimes st (g c)) := by
  have htb' : (0 : ℤ) < tb := by omega
  have hr0 := Int.emod_nonneg (1 + st.cur 0) (show (tb : ℤ) ≠ 0 by omega)
  have hr1 := Int.emod_lt_of_pos (1 + st.cur 0) htb'
  have hnew : (1 + st.cur 0) % (tb : ℤ) % tb = ((c + 1 : ℕ) : ℤ) % tb := by rw [Int.emod_emod, h.cur0]
  obtain ⟨j1, j2⟩ := pyIdx_mod tb htb c ((1 + st.cur 0) % tb) hr0 (by omega) hnew
  have hne := idx_ne c tb htb
  unfold xsvsFrame
  simp only [update_self, j1]
  set st' : XState P := { st with cur := update st.cur 0 ((1 + st.cur 0) % tb), buf := update st.buf 0 (update (st.buf 0) (c % tb) (g c)) } with hst'
  obtain ⟨p1, p2, p3⟩ := process_frame labels maxCts 0 (c % tb) st'
  have hmid : Mid labels maxCts tb numTimes g c 1 (process labels maxCts 0 (c % tb) st') := by
    refine ⟨?_, ?_, ?_, ?_, ?_, ?_, ?_, ?_, ?_⟩
    · intro k; rw [p3]; exact h.track k
    · rw [p2]; simp only [hst', update_self]
      rw [Int.add_emod, hnew, ← Int.add_emod]; congr 1; push_cast; ring
    · intro k hk _
      obtain rfl : k = 0 := by omega
      rw [p2]; simp only [hst', update_self]; exact ⟨j1, j2⟩
    · intro k h1 h2; omega
    · intro k h1 _ hkn
      rw [p2]; simp only [hst', update_of_ne (show k ≠ 0 by omega)]; exact h.curs k h1 hkn
    · intro k hk _
      obtain rfl : k = 0 := by omega
      rw [p1]; simp [hst', ovl]
    · intro k hkn
      rw [p1]
      by_cases hk : k = 0
      · rw [hk]; simp only [hst', update_self, update_of_ne hne]; exact h.bufs 0 (by omega)
      · simp only [hst', update_of_ne hk]; exact h.bufs k hkn
    · intro k hk hkn
      obtain rfl : k = 0 := by omega
      have hb : st'.buf 0 (c % tb) = ovl g 0 c := by simp [hst', ovl]
      have := process_stat labels maxCts 0 (c % tb) st' _ ((h.stat 0 (by omega)).of_eq (st' := st') labels maxCts rfl rfl rfl rfl)
      rw [hb] at this
      rw [List.range_succ, List.map_append]
      exact this
    · intro k hk hkn
      exact process_other labels maxCts 0 (c % tb) k (by omega) st' _ ((h.stat k hkn).of_eq (st' := st') labels maxCts rfl rfl rfl rfl)
  have hfin := mid_loop labels maxCts tb numTimes htb g c (numTimes - 1) 1 _ le_rfl (by omega) hmid (2 * numTimes) (by omega)
  rw [max_eq_right hn] at hfin
  refine ⟨hfin.track, ?_, ?_, ?_, ?_⟩
  · rw [hfin.cur0]
  · intro k h1 hk; exact hfin.curLo k h1 hk hk
  · intro k hk
    rw [show c + 1 + tb - 1 = c + tb by omega, Nat.add_mod_right]
    exact hfin.bufNew k hk hk
  · intro k hk; exact hfin.statLo k hk hk

/-- The state after a list of frames. -/
theorem inv_frames (htb : 2 ≤ tb) (hn : 1 ≤ numTimes) (frames : List (Fr P)) (g : ℕ → Fr P) : ∀ (c : ℕ) (st : XState P),
    Inv labels maxCts tb numTimes g c st → (∀ i f, frames[i]? = some f → g (c + i) = f) →
    Inv labels maxCts tb numTimes g (c + frames.length) (frames.foldl (xsvsFrame labels maxCts tb numTimes) st) := by
  induction frames with
  | nil => intro c st h _; exact h
  | cons f t ih =>
    intro c st h hg
    have hf : g c = f := hg 0 f rfl
    have := ih (c + 1) _ (hf ▸ inv_step labels maxCts tb numTimes htb hn g c st h) (fun i f' h' => by
      rw [show c + 1 + i = c + (i + 1) by omega]; exact hg (i + 1) f' (by simpa using h'))
    rw [List.length_cons, show c + (t.length + 1) = c + 1 + t.length by omega]
    rw [List.foldl_cons]
    exact this

/-! The overlapping sums in closed form. -/

theorem ovl_closed (g : ℕ → Fr P) (v : ℕ → Fin P → ℚ) (k : ℕ) : ∀ (n : ℕ) (p : Fin P), (∀ m ≤ n, g m p = some (v m p)) →
    ovl g k n p = some (∑ j ∈ Finset.range (k + 1), if j ≤ n then (k.choose j : ℚ) * v (n - j) p else 0) := by
  induction k with
  | zero => intro n p h; simp [ovl, h n le_rfl]
  | succ k ih =>
    intro n p h
    have hsplit : (∑ j ∈ Finset.range (k + 1 + 1), if j ≤ n then ((k + 1).choose j : ℚ) * v (n - j) p else 0) =
        (∑ j ∈ Finset.range (k + 1), if j + 1 ≤ n then (k.choose j : ℚ) * v (n - (j + 1)) p else 0) +
        (∑ j ∈ Finset.range (k + 1), if j ≤ n then (k.choose j : ℚ) * v (n - j) p else 0) := by
      rw [Finset.sum_range_succ']
      have h2 : (∑ j ∈ Finset.range (k + 1), if j ≤ n then (k.choose j : ℚ) * v (n - j) p else 0) =
          (∑ j ∈ Finset.range (k + 1), if j + 1 ≤ n then (k.choose (j + 1) : ℚ) * v (n - (j + 1)) p else 0) + v n p := by
        have e := Finset.sum_range_succ' (fun j => if j ≤ n then (k.choose j : ℚ) * v (n - j) p else 0) (k + 1)
        rw [Finset.sum_range_succ] at e
        simp only [Nat.choose_succ_self, Nat.cast_zero, zero_mul, ite_self, add_zero, Nat.zero_le, if_true, Nat.choose_zero_right,
          Nat.cast_one, one_mul, Nat.sub_zero] at e
        exact e
      rw [h2, ← add_assoc, ← Finset.sum_add_distrib]
      congr 1
      · apply Finset.sum_congr rfl
        intro j _
        by_cases hj : j + 1 ≤ n
        · simp only [hj, if_true]
          rw [Nat.choose_succ_succ]; push_cast; ring
        · simp [hj]
      · simp
    rw [hsplit, ovl_succ]
    unfold Fr.add
    rw [ih n p h]
    cases n with
    | zero => simp [prevImg, zeroFr, nanAdd]
    | succ n =>
      simp only [prevImg]
      rw [ih n p (fun m hm => h m (by omega))]
      simp [nanAdd]

end Verif.Speckle
