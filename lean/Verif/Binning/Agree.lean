/- Properties C200 and C201: the four binning tools (Histogram, bin_1D, BinnedStatistic, grid3d) against each other, and
coarse bins as sums of fine ones. -/
import Verif.Hist.EdgeProps
import Verif.Utils.Props
import Verif.Binned.Props
import Verif.Grid.Props

namespace Verif.Binning
open Verif

/-! ### specification -/

/-- Total weight of the samples with x in the k-th of n equal half-open bins of [lo, hi). -/
def Spec.binSum (lo hi : ℚ) (n k : ℕ) (x w : List ℚ) : ℚ :=
  ((x.zip w).map (fun p => if lo + k * ((hi - lo) / n) ≤ p.1 ∧ p.1 < lo + (k + 1) * ((hi - lo) / n) then p.2 else 0)).sum

/-- Total weight of the samples exactly at `v`. -/
def Spec.at (v : ℚ) (x w : List ℚ) : ℚ := ((x.zip w).map (fun p => if p.1 = v then p.2 else 0)).sum

/-! ### lemmas -/

theorem totalY_eq (x y : List ℚ) (P : ℚ → Prop) [DecidablePred P] :
    Utils.totalY x y P = ((x.zip y).map (fun p => if P p.1 then p.2 else 0)).sum := by
  unfold Utils.totalY
  generalize x.zip y = l
  induction l with
  | nil => simp
  | cons p l ih => by_cases h : P p.1 <;> simp [h, ih]

theorem sum_map_add {β : Type} (l : List β) (f g : β → ℚ) : (l.map (fun p => f p + g p)).sum = (l.map f).sum + (l.map g).sum := by
  induction l with
  | nil => simp
  | cons p l ih => simp only [List.map_cons, List.sum_cons, ih]; ring

theorem totalY_half (lo hi : ℚ) (n k : ℕ) (x y : List ℚ) (a b : ℚ) (ha : a = lo + k * ((hi - lo) / n)) (hb : b = lo + (k + 1 : ℕ) * ((hi - lo) / n)) :
    Utils.totalY x y (fun v => a ≤ v ∧ v < b) = Spec.binSum lo hi n k x y := by
  subst ha hb; rw [totalY_eq]; unfold Spec.binSum; push_cast; rfl

theorem totalY_closed (lo hi : ℚ) (hlo : lo ≤ hi) (n k : ℕ) (hk : k + 1 = n) (x y : List ℚ) (a b : ℚ) (ha : a = lo + k * ((hi - lo) / n))
    (hb : b = lo + (k + 1 : ℕ) * ((hi - lo) / n)) :
    Utils.totalY x y (fun v => a ≤ v ∧ v ≤ b) = Spec.binSum lo hi n k x y + Spec.at hi x y := by
  have hn : (n : ℚ) ≠ 0 := by exact_mod_cast (by omega : n ≠ 0)
  have hb' : lo + (k + 1 : ℕ) * ((hi - lo) / n) = hi := by rw [hk]; field_simp; ring
  have hab : lo + k * ((hi - lo) / n) ≤ hi := by
    have : (0 : ℚ) ≤ (hi - lo) / n := div_nonneg (by linarith) (by positivity)
    push_cast at hb'; linarith
  have hb2 : lo + (k + 1) * ((hi - lo) / n) = hi := by push_cast at hb'; exact hb'
  subst ha hb
  rw [totalY_eq, Spec.binSum, Spec.at, ← sum_map_add, hb', hb2]
  congr 1
  apply List.map_congr_left
  intro p _
  rcases lt_trichotomy p.1 hi with h | h | h
  · simp [h, h.le, h.ne]
  · simp [h, hab]
  · simp [h.not_ge, h.ne', h.not_gt]

/-- What bin_1D's values are, in these terms. -/
theorem bin1D_eq (x y : List ℚ) (hxy : x.length = y.length) (lo hi : ℚ) (hlo : lo ≤ hi) (n : ℕ) (hn : 1 ≤ n) :
    ∃ val count, Utils.bin1D x y (some n) (some lo) (some hi) = .ok (Np.linspace lo hi (n + 1), val, count) ∧
      val.length = n ∧ count.length = n ∧
      ∀ k < n, val[k]? = some (Spec.binSum lo hi n k x y + if k + 1 = n then Spec.at hi x y else 0) ∧
        count[k]? = some (Spec.binSum lo hi n k x (x.map (fun _ => 1)) + if k + 1 = n then Spec.at hi x (x.map (fun _ => 1)) else 0) := by
  obtain ⟨bins, val, count, e, h1, h2, h3, h4, _, _, h5, h6⟩ := Utils.C06_bin1D x y hxy lo hi hlo n hn
  have hb : bins = Np.linspace lo hi (n + 1) := by
    apply List.ext_getElem?
    intro k
    by_cases hk : k ≤ n
    · rw [h4 k hk]; simp [Np.linspace, show k < n + 1 by omega]
    · rw [List.getElem?_eq_none (by omega), List.getElem?_eq_none (by simp [Np.linspace]; omega)]
  have hnum : ∀ (P : ℚ → Prop) [DecidablePred P], ((Utils.numX x P : ℕ) : ℚ) = Utils.totalY x (x.map (fun _ => 1)) P := by
    intro P _
    rw [← Utils.weightOf_ones, Np.weightOf, Utils.totalY]
    congr 3
    clear * -
    induction x with
    | nil => rfl
    | cons a t ih => simp [ih]
  refine ⟨val, count, by rw [e, hb], h2, h3, ?_⟩
  intro k hk
  have g1 := h4 k hk.le
  have g2 := h4 (k + 1) hk
  by_cases hl : k + 1 = n
  · obtain ⟨c1, c2⟩ := h6 k hl _ _ g1 g2
    rw [c1, c2, hnum, totalY_closed lo hi hlo n k hl x y _ _ rfl rfl, totalY_closed lo hi hlo n k hl x _ _ _ rfl rfl]
    simp [hl]
  · obtain ⟨c1, c2⟩ := h5 k (by omega) _ _ g1 g2
    rw [c1, c2, hnum, totalY_half lo hi n k x y _ _ rfl rfl, totalY_half lo hi n k x _ _ _ rfl rfl]
    simp [hl]

/-- Elements of a 1-D coordinate array. -/
def Spec.elems (c : Hist.Coord) : List ℚ := (List.range c.len).map c.val

theorem cellWeight_one (c : Hist.Coord) (a : Hist.Axis) (ws : List ℚ) (k : ℕ) :
    Hist.cellWeight [a] (Hist.samples [c] ws) [k] =
      Spec.binSum a.low a.high a.nbin k (Spec.elems c) ((List.range c.len).map (Hist.weightAt ws)) := by
  unfold Hist.cellWeight Hist.samples Hist.samplesBy Spec.binSum Spec.elems
  rw [List.zip_map', List.map_map, List.map_map]
  congr 1
  apply List.map_congr_left
  intro i _
  simp [Hist.InCell, Hist.InBin]

theorem hist_fresh (c : Hist.Coord) (hd : c.dtype ≠ .unsupported) (ws : List ℚ) (hws : ws.length = 1 ∨ ws.length = c.len) (lo hi : ℚ) (n : ℕ) (hn : 1 ≤ n) :
    ∃ h h', Hist.init [⟨n, lo, hi⟩] = .ok h ∧ Hist.fill id false h [c] ws = (h', .ok ()) ∧ h'.axes = [⟨n, lo, hi⟩] ∧ h'.values.length = n ∧
      ∀ k < n, h'.values[k]? = some (Spec.binSum lo hi n k (Spec.elems c) ((List.range c.len).map (Hist.weightAt ws))) := by
  refine ⟨⟨[⟨n, lo, hi⟩], List.replicate n 0⟩, ?_⟩
  have hw : (⟨[⟨n, lo, hi⟩], List.replicate n 0⟩ : Hist.Hist).Wf := ⟨by simp, by simp; omega, by simp⟩
  obtain ⟨h', h1, h2, h3, h4⟩ := Hist.C18_fill_cells_partial false ⟨[⟨n, lo, hi⟩], List.replicate n 0⟩ hw [c] ws
    ⟨rfl, by simp, by simpa using hws, by simpa using hd⟩ (by rintro (h | h) <;> simp at h)
  refine ⟨h', by simp [Hist.init, show n ≠ 0 by omega], h1, h2, by simpa using h3, ?_⟩
  intro k hk
  obtain ⟨old, g1, g2⟩ := h4 [k] ⟨hk, trivial⟩
  simp only [Hist.flat, List.map_nil, List.prod_nil, mul_one, add_zero] at g1 g2
  rw [List.getElem?_replicate, if_pos hk] at g1
  rw [g2, ← Option.some.inj g1, zero_add, cellWeight_one]

theorem weights_list (ws : List ℚ) (m : ℕ) (h : ws.length = m) : (List.range m).map (Hist.weightAt ws) = ws := by
  apply List.ext_getElem?
  intro i
  by_cases hi : i < m
  · rw [List.getElem?_map, List.getElem?_range hi, Option.map_some, Hist.weightAt]
    by_cases h1 : ws.length = 1
    · obtain ⟨w, rfl⟩ := List.length_eq_one_iff.1 h1
      have : i = 0 := by simp at h; omega
      simp [this]
    · rw [if_neg h1, List.getD_eq_getElem?_getD, List.getElem?_eq_getElem (by omega)]; rfl
  · rw [List.getElem?_eq_none (by simp; omega), List.getElem?_eq_none (by omega)]

theorem weights_one (m : ℕ) (x : List ℚ) (h : x.length = m) : (List.range m).map (Hist.weightAt [1]) = x.map (fun _ => (1 : ℚ)) := by
  have : (Hist.weightAt [1]) = fun _ => (1 : ℚ) := by funext i; simp [Hist.weightAt]
  rw [this, List.map_const', List.map_const', h]; simp

/-! ## C200 -/

/-- C200, Histogram and bin_1D: a fresh 1-D histogram filled once with x and weights y reports the same edges as bin_1D
and holds the same values, except that bin_1D's last bin also gets the samples exactly at the upper limit.  Filled with the
default weight it holds bin_1D's counts, with the same exception. -/
theorem C200_histogram_partial (c : Hist.Coord) (hd : c.dtype ≠ .unsupported) (y : List ℚ) (hy : y.length = c.len) (lo hi : ℚ) (hlo : lo ≤ hi)
    (n : ℕ) (hn : 1 ≤ n) :
    let x := Spec.elems c
    ∃ h hv hc bins val cnt, Hist.init [⟨n, lo, hi⟩] = .ok h ∧ Hist.fill id false h [c] y = (hv, .ok ()) ∧ Hist.fill id false h [c] [1] = (hc, .ok ()) ∧
      Utils.bin1D x y (some n) (some lo) (some hi) = .ok (bins, val, cnt) ∧ Hist.edges hv = [bins] ∧ Hist.edges hc = [bins] ∧
      hv.values.length = n ∧ hc.values.length = n ∧ val.length = n ∧ cnt.length = n ∧
      (∀ k, k + 1 < n → hv.values[k]? = val[k]? ∧ hc.values[k]? = cnt[k]?) ∧
      (∀ k, k + 1 = n → ∃ a b, hv.values[k]? = some a ∧ hc.values[k]? = some b ∧ val[k]? = some (a + Spec.at hi x y) ∧
        cnt[k]? = some (b + (x.count hi : ℚ))) ∧
      ((∀ v ∈ x, v ≠ hi) → hv.values = val ∧ hc.values = cnt) := by
  intro x
  have hx : x.length = c.len := by simp [x, Spec.elems]
  obtain ⟨h, hv, a1, a2, a3, a4, a5⟩ := hist_fresh c hd y (.inr hy) lo hi n hn
  obtain ⟨h₂, hc, b1, b2, b3, b4, b5⟩ := hist_fresh c hd [1] (.inl rfl) lo hi n hn
  have : h₂ = h := by rw [a1] at b1; exact (Except.ok.inj b1).symm
  subst this
  obtain ⟨val, cnt, e, l1, l2, e2⟩ := bin1D_eq x y (by rw [hx, hy]) lo hi hlo n hn
  rw [weights_list y _ hy] at a5
  rw [weights_one _ x hx] at b5
  have hat : Spec.at hi x (x.map (fun _ => 1)) = (x.count hi : ℚ) := by
    unfold Spec.at
    clear * -
    induction x with
    | nil => simp
    | cons v t ih =>
      simp only [List.map_cons, List.zip_cons_cons, List.sum_cons, ih, List.count_cons, beq_iff_eq]
      by_cases hv : v = hi
      · simp only [hv, if_true]; push_cast; ring
      · simp [hv]
  have hz : (∀ v ∈ x, v ≠ hi) → ∀ w, Spec.at hi x w = 0 := by
    intro hne w
    unfold Spec.at
    apply List.sum_eq_zero
    intro q hq
    obtain ⟨p, hp, rfl⟩ := List.mem_map.1 hq
    rw [if_neg (hne _ (List.of_mem_zip hp).1)]
  refine ⟨_, hv, hc, _, val, cnt, a1, a2, b2, e, by simp [Hist.edges, a3], by simp [Hist.edges, b3], a4, b4, l1, l2, ?_, ?_, ?_⟩
  · intro k hk
    obtain ⟨c1, c2⟩ := e2 k (by omega)
    rw [c1, c2, a5 k (by omega), b5 k (by omega), if_neg (by omega), if_neg (by omega), add_zero, add_zero]
    exact ⟨rfl, rfl⟩
  · intro k hk
    obtain ⟨c1, c2⟩ := e2 k (by omega)
    rw [if_pos hk] at c1 c2
    exact ⟨_, _, a5 k (by omega), b5 k (by omega), c1, by rw [c2, hat]⟩
  · intro hne
    constructor
    · apply List.ext_getElem?
      intro k
      by_cases hk : k < n
      · rw [a5 k hk, (e2 k hk).1, hz hne]; simp; rfl
      · rw [List.getElem?_eq_none (by omega), List.getElem?_eq_none (by omega)]
    · apply List.ext_getElem?
      intro k
      by_cases hk : k < n
      · rw [b5 k hk, (e2 k hk).2, hz hne]; simp; rfl
      · rw [List.getElem?_eq_none (by omega), List.getElem?_eq_none (by omega)]

/-- C200 is false at the upper limit: one sample at hi is in bin_1D's last bin and in no bin of the histogram. -/
theorem C200_upper_limit_refuted (lo hi : ℚ) (hlo : lo < hi) (n : ℕ) (hn : 1 ≤ n) :
    ∃ h hv bins val cnt, Hist.init [⟨n, lo, hi⟩] = .ok h ∧ Hist.fill id false h [Hist.fArr [hi]] [1] = (hv, .ok ()) ∧
      Utils.bin1D [hi] [1] (some n) (some lo) (some hi) = .ok (bins, val, cnt) ∧ hv.values[n - 1]? = some 0 ∧ val[n - 1]? = some 1 := by
  have hx : Spec.elems (Hist.fArr [hi]) = [hi] := by simp [Spec.elems, Hist.fArr, Hist.Coord.val]
  obtain ⟨h, hv, hc, bins, val, cnt, a1, a2, _, a4, _, _, _, _, _, _, _, a5, _⟩ :=
    C200_histogram_partial (Hist.fArr [hi]) (by simp [Hist.fArr]) [1] (by simp [Hist.fArr]) lo hi hlo.le n hn
  obtain ⟨h₂, hv₂, d1, d2, _, _, d5⟩ := hist_fresh (Hist.fArr [hi]) (by simp [Hist.fArr]) [1] (.inl rfl) lo hi n hn
  have e1 : h₂ = h := by rw [a1] at d1; exact (Except.ok.inj d1).symm
  subst e1
  have e2 : hv₂ = hv := by rw [a2] at d2; exact (congrArg Prod.fst d2).symm
  subst e2
  have hzero : hv₂.values[n - 1]? = some 0 := by
    have hn' : (n : ℚ) ≠ 0 := by exact_mod_cast (by omega : n ≠ 0)
    rw [d5 (n - 1) (by omega), hx]
    have : (List.range (Hist.fArr [hi]).len).map (Hist.weightAt [1]) = [1] := by simp [Hist.fArr, Hist.weightAt, List.range_succ]
    rw [this]
    unfold Spec.binSum
    have hc : lo + (((n - 1 : ℕ) : ℚ) + 1) * ((hi - lo) / n) = hi := by
      rw [Nat.cast_sub hn]; push_cast; field_simp; ring
    simp [hc]
  obtain ⟨a, b, g1, g2, g3, _⟩ := a5 (n - 1) (by omega)
  rw [hx] at a4 g3
  refine ⟨h₂, hv₂, bins, val, cnt, a1, a2, a4, hzero, ?_⟩
  rw [g1] at hzero
  rw [g3, Option.some.inj hzero]
  simp [Spec.at]

theorem zipY_cells (e : List ℚ) (k : ℕ) (x y : List ℚ) :
    (Binned.Spec.cellValues [e] [k] (x.map (fun v => [v])) y).sum = Utils.totalY x y (fun v => Binned.Spec.inBin e k v) := by
  unfold Binned.Spec.cellValues Utils.totalY
  congr 1
  induction x generalizing y with
  | nil => simp
  | cons v t ih =>
    cases y with
    | nil => simp
    | cons w s =>
      by_cases h : Binned.Spec.inBin e k v <;> simp [Binned.Spec.inCell, h, ih]

/-- C200, BinnedStatistic and bin_1D: with the edges that bin_1D reports, the 1-D binned sums are bin_1D's values in every
bin, the samples at the upper limit included in both (restriction of C23: no sample strictly within 10^-5 bin widths of
the upper limit). -/
theorem C200_binned_partial (x y : List ℚ) (hxy : x.length = y.length) (lo hi : ℚ) (hlo : lo < hi) (n : ℕ) (hn : 1 ≤ n) :
    ∃ bins val cnt, Utils.bin1D x y (some n) (some lo) (some hi) = .ok (bins, val, cnt) ∧
      ((∀ v ∈ x, Binned.Spec.Clear bins v) →
        ∃ A, Binned.call (Binned.nbin [bins]) [0] (Binned.resSum (Binned.xy [bins] [0] (x.map (fun v => [v]))) y) = .ok A ∧ A.shape = [n] ∧
          ∀ k < n, val[k]? = some (A.get [k])) := by
  obtain ⟨val, cnt, e, l1, l2, e2⟩ := bin1D_eq x y hxy lo hi hlo.le n hn
  refine ⟨_, val, cnt, e, ?_⟩
  intro hcl
  have hn' : (0 : ℚ) < n := by exact_mod_cast hn
  have hw : 0 < (hi - lo) / n := div_pos (by linarith) hn'
  have hlen : (Np.linspace lo hi (n + 1)).length = n + 1 := by simp [Np.linspace]
  have hget : ∀ k ≤ n, (Np.linspace lo hi (n + 1))[k]? = some (lo + k * ((hi - lo) / n)) := by
    intro k hk; simp [Np.linspace, show k < n + 1 by omega]
  have hE : Binned.Spec.Edges (Np.linspace lo hi (n + 1)) := by
    refine ⟨by omega, ?_⟩
    unfold Np.linspace
    rw [List.pairwise_map]
    refine List.Pairwise.imp ?_ List.pairwise_lt_range
    intro a b hab
    have : (a : ℚ) < b := by exact_mod_cast hab
    simp only [Nat.add_sub_cancel]
    nlinarith
  have hok : Binned.Spec.Ok [Np.linspace lo hi (n + 1)] [0] (x.map (fun v => [v])) := by
    refine ⟨by simpa using hE, ⟨by simp [Binned.nbin], by simp⟩, ?_⟩
    intro s hs
    obtain ⟨v, hv, rfl⟩ := List.mem_map.1 hs
    exact .cons (hcl v hv) .nil
  obtain ⟨A, h1, h2, h3⟩ := Binned.C24_sum_partial [Np.linspace lo hi (n + 1)] [0] _ hok y
  refine ⟨A, h1, by simpa [hlen] using h2, ?_⟩
  intro k hk
  rw [h3 [k] (.cons (by omega) .nil), zipY_cells, (e2 k hk).1]
  congr 1
  by_cases hl : k + 1 = n
  · rw [if_pos hl, ← totalY_closed lo hi hlo.le n k hl x y _ _ rfl rfl, totalY_eq, totalY_eq]
    congr 1
    apply List.map_congr_left
    intro p _
    have : Binned.Spec.inBin (Np.linspace lo hi (n + 1)) k p.1 ↔ (lo + k * ((hi - lo) / n) ≤ p.1 ∧ p.1 ≤ lo + (k + 1 : ℕ) * ((hi - lo) / n)) := by
      unfold Binned.Spec.inBin
      rw [hget k hk.le, hget (k + 1) hk]
      simp only [hlen, show k + 2 = n + 1 by omega, and_true, le_iff_lt_or_eq (a := p.1)]
    simp only [this]
  · rw [if_neg hl, add_zero, ← totalY_half lo hi n k x y _ _ rfl rfl, totalY_eq, totalY_eq]
    congr 1
    apply List.map_congr_left
    intro p _
    have : Binned.Spec.inBin (Np.linspace lo hi (n + 1)) k p.1 ↔ (lo + k * ((hi - lo) / n) ≤ p.1 ∧ p.1 < lo + (k + 1 : ℕ) * ((hi - lo) / n)) := by
      unfold Binned.Spec.inBin
      rw [hget k hk.le, hget (k + 1) hk]
      have : ¬ (k + 2 = n + 1) := by omega
      simp only [hlen, this, and_false, or_false]
    simp only [this]

/-- The points of a data set as coordinate arrays and weights. -/
def Spec.coords (data : List (ℚ × ℚ × ℚ × ℚ)) : List Hist.Coord :=
  [Hist.fArr (data.map (fun p => p.1)), Hist.fArr (data.map (fun p => p.2.1)), Hist.fArr (data.map (fun p => p.2.2.1))]

/-- The same points as grid3d's rows. -/
def Spec.rows (data : List (ℚ × ℚ × ℚ × ℚ)) : List Grid.Pt := data.map (fun p => ⟨p.1, p.2.1, p.2.2.1, some p.2.2.2⟩)

theorem samples_three (data : List (ℚ × ℚ × ℚ × ℚ)) :
    Hist.samples (Spec.coords data) (data.map (fun p => p.2.2.2)) = data.map (fun p => ([p.1, p.2.1, p.2.2.1], p.2.2.2)) := by
  have hw := weights_list (data.map (fun p => p.2.2.2)) data.length (by simp)
  unfold Hist.samples Hist.samplesBy Spec.coords
  apply List.ext_getElem?
  intro i
  by_cases hi : i < data.length
  · have hwi : Hist.weightAt (data.map (fun p => p.2.2.2)) i = (data[i]).2.2.2 := by
      have := congrArg (fun l => l[i]?) hw
      simpa [hi] using this
    simp [Hist.fArr, Hist.Coord.val, hi, hwi]
  · rw [List.getElem?_eq_none (by simp [Hist.fArr]; omega), List.getElem?_eq_none (by simp; omega)]

/-- C200, grid3d and a 3-D Histogram on the same three axes: every voxel's sum is the histogram's value, for every number
of threads and every schedule.  (Data without NaN; both use half-open bins, so there is no exception at the upper
limits.) -/
theorem C200_grid (g : Grid.Grid) (hg : Grid.Spec.Proper g) (T : ℕ) (hT : 1 ≤ T) (data : List (ℚ × ℚ × ℚ × ℚ)) (ev : List (ℕ × Grid.Pt))
    (hev : Grid.Spec.Schedules T (Spec.rows data) ev) :
    ∃ h h', Hist.init [⟨g.x.n, g.x.lo, g.x.hi⟩, ⟨g.y.n, g.y.lo, g.y.hi⟩, ⟨g.z.n, g.z.lo, g.z.hi⟩] = .ok h ∧
      Hist.fill id false h (Spec.coords data) (data.map (fun p => p.2.2.2)) = (h', .ok ()) ∧ h'.values.length = g.x.n * g.y.n * g.z.n ∧
      ∀ i < g.x.n, ∀ j < g.y.n, ∀ k < g.z.n,
        h'.values[Grid.flat g i j k]? = some (Grid.out id g T Grid.zeroed ev (Grid.flat g i j k)).s := by
  obtain ⟨⟨_, hx⟩, ⟨_, hy⟩, _, hz⟩ := id hg
  set axes : List Hist.Axis := [⟨g.x.n, g.x.lo, g.x.hi⟩, ⟨g.y.n, g.y.lo, g.y.hi⟩, ⟨g.z.n, g.z.lo, g.z.hi⟩] with haxes
  set h0 : Hist.Hist := ⟨axes, List.replicate (axes.map Hist.Axis.nbin).prod 0⟩ with hh0
  have hw : h0.Wf := ⟨by simp [hh0], by simp [hh0, haxes, hx, hy, hz], by simp [hh0, haxes]⟩
  obtain ⟨h', h1, h2, h3, h4⟩ := Hist.C18_fill_cells_partial false h0 hw (Spec.coords data) (data.map (fun p => p.2.2.2))
    ⟨by simp [hh0, haxes, Spec.coords], by simp [Spec.coords, Hist.fArr], by right; simp [Spec.coords, Hist.fArr], by simp [Spec.coords, Hist.fArr]⟩
    (by intro _ c hc; simp [Spec.coords, Hist.fArr] at hc; rcases hc with rfl | rfl | rfl <;> rfl)
  refine ⟨h0, h', by simp [Hist.init, haxes, hh0, hx.ne', hy.ne', hz.ne'], h1, by rw [h3]; simp [hh0, haxes, mul_assoc], ?_⟩
  intro i hi j hj k hk
  obtain ⟨old, g1, g2⟩ := h4 [i, j, k] ⟨hi, hj, hk, trivial⟩
  have hflat : Hist.flat h0.axes [i, j, k] = Grid.flat g i j k := by
    simp [hh0, haxes, Hist.flat, Grid.flat]; ring
  have hlt : Hist.flat h0.axes [i, j, k] < (h0.axes.map Hist.Axis.nbin).prod := Hist.flat_lt _ _ ⟨hi, hj, hk, trivial⟩
  have hold : old = 0 := by
    have : h0.values = List.replicate (h0.axes.map Hist.Axis.nbin).prod 0 := rfl
    rw [this, List.getElem?_replicate, if_pos hlt] at g1
    exact (Option.some.inj g1).symm
  rw [hflat] at g2
  rw [g2, hold, zero_add, Grid.C41_voxel_sums g hg T hT _ ev hev i j k hi hj hk, samples_three]
  congr 1
  simp only [Hist.cellWeight, Grid.Spec.values, Spec.rows]
  clear * - hh0 haxes
  induction data with
  | nil => simp
  | cons p t ih =>
    have hiff : Hist.InCell h0.axes [p.1, p.2.1, p.2.2.1] [i, j, k] ↔ Grid.Spec.inVoxel g i j k ⟨p.1, p.2.1, p.2.2.1, some p.2.2.2⟩ := by
      simp [hh0, haxes, Hist.InCell, Hist.InBin, Grid.Spec.inVoxel, Grid.Spec.inBin]
    simp only [List.map_cons, List.sum_cons, List.filterMap_cons, ih]
    by_cases h : Grid.Spec.inVoxel g i j k ⟨p.1, p.2.1, p.2.2.1, some p.2.2.2⟩
    · rw [if_pos (hiff.2 h)]; simp [h]
    · rw [if_neg (fun q => h (hiff.1 q))]; simp [h]

/-! ## C201 -/

/-- Consecutive half-open intervals: exactly one holds the point if the union does. -/
theorem ind_split (f : ℕ → ℚ) (hf : Monotone f) (x c : ℚ) (m : ℕ) :
    (if f 0 ≤ x ∧ x < f m then c else 0) = ((List.range m).map (fun i => if f i ≤ x ∧ x < f (i + 1) then c else 0)).sum := by
  induction m with
  | zero => simp
  | succ m ih =>
    rw [List.range_succ, List.map_append, List.sum_append, ← ih]
    have h0 := hf (Nat.zero_le m)
    have h1 := hf (Nat.le_succ m)
    simp only [List.map_cons, List.map_nil, List.sum_cons, List.sum_nil, add_zero]
    rcases lt_or_ge x (f m) with h | h
    · have : x < f (m + 1) := lt_of_lt_of_le h h1
      simp [h, h.not_ge, this]
    · simp [h, h.not_gt, h0.trans h]

theorem edge_fine (lo hi : ℚ) (n m k i : ℕ) (hm : 1 ≤ m) :
    lo + ((k * m + i : ℕ) : ℚ) * ((hi - lo) / ((n * m : ℕ) : ℚ)) = lo + k * ((hi - lo) / n) + i * ((hi - lo) / (n * m)) := by
  have hm' : (m : ℚ) ≠ 0 := by exact_mod_cast (by omega : m ≠ 0)
  rcases eq_or_ne (n : ℚ) 0 with hn | hn
  · push_cast; simp [hn]
  · push_cast; field_simp; ring

/-- One coarse bin and the m fine bins it is made of. -/
theorem bin_split (lo hi : ℚ) (hlo : lo ≤ hi) (n m k : ℕ) (hm : 1 ≤ m) (x c : ℚ) :
    (if lo + k * ((hi - lo) / n) ≤ x ∧ x < lo + (k + 1) * ((hi - lo) / n) then c else 0) =
      ((List.range m).map (fun i => if lo + ((k * m + i : ℕ) : ℚ) * ((hi - lo) / ((n * m : ℕ) : ℚ)) ≤ x ∧
        x < lo + (((k * m + i : ℕ) : ℚ) + 1) * ((hi - lo) / ((n * m : ℕ) : ℚ)) then c else 0)).sum := by
  have hm' : (m : ℚ) ≠ 0 := by exact_mod_cast (by omega : m ≠ 0)
  have hw : 0 ≤ (hi - lo) / (n * m) := div_nonneg (by linarith) (by positivity)
  have := ind_split (fun i => lo + k * ((hi - lo) / n) + i * ((hi - lo) / (n * m))) (by
    intro a b hab
    have : (a : ℚ) ≤ b := by exact_mod_cast hab
    simp only
    nlinarith) x c m
  have e0 : lo + k * ((hi - lo) / n) + ((0 : ℕ) : ℚ) * ((hi - lo) / (n * m)) = lo + k * ((hi - lo) / n) := by simp
  have em : lo + k * ((hi - lo) / n) + (m : ℚ) * ((hi - lo) / (n * m)) = lo + (k + 1) * ((hi - lo) / n) := by
    rcases eq_or_ne (n : ℚ) 0 with hn | hn
    · simp [hn]
    · field_simp; ring
  simp only [e0, em] at this
  rw [this]
  congr 1
  apply List.map_congr_left
  intro i _
  have h2 := edge_fine lo hi n m k (i + 1) hm
  have e2 : ((k * m + (i + 1) : ℕ) : ℚ) = ((k * m + i : ℕ) : ℚ) + 1 := by push_cast; ring
  rw [e2] at h2
  rw [edge_fine lo hi n m k i hm, h2]

theorem sum_swap {β : Type} (l : List β) (m : ℕ) (f : β → ℕ → ℚ) :
    (l.map (fun b => ((List.range m).map (f b)).sum)).sum = ((List.range m).map (fun i => (l.map (fun b => f b i)).sum)).sum := by
  induction l with
  | nil => simp
  | cons b l ih => simp only [List.map_cons, List.sum_cons, ih, ← sum_map_add]

theorem binSum_split (lo hi : ℚ) (hlo : lo ≤ hi) (n m k : ℕ) (hm : 1 ≤ m) (x w : List ℚ) :
    Spec.binSum lo hi n k x w = ((List.range m).map (fun i => Spec.binSum lo hi (n * m) (k * m + i) x w)).sum := by
  unfold Spec.binSum
  rw [← sum_swap]
  congr 1
  apply List.map_congr_left
  intro p _
  exact bin_split lo hi hlo n m k hm p.1 p.2

/-- C201, bin_1D: with the same limits, every value and count of a binning into n bins is the sum of the m corresponding
ones of the binning into n·m bins. -/
theorem C201_bin1D (x y : List ℚ) (hxy : x.length = y.length) (lo hi : ℚ) (hlo : lo ≤ hi) (n m : ℕ) (hn : 1 ≤ n) (hm : 1 ≤ m) :
    ∃ bins val cnt bins' val' cnt', Utils.bin1D x y (some n) (some lo) (some hi) = .ok (bins, val, cnt) ∧
      Utils.bin1D x y (some (n * m)) (some lo) (some hi) = .ok (bins', val', cnt') ∧
      (∀ k ≤ n, bins[k]? = bins'[k * m]?) ∧
      ∀ k < n, val[k]? = some ((val'.drop (k * m)).take m).sum ∧ cnt[k]? = some ((cnt'.drop (k * m)).take m).sum := by
  obtain ⟨val, cnt, e, l1, l2, e2⟩ := bin1D_eq x y hxy lo hi hlo n hn
  obtain ⟨val', cnt', e', l1', l2', e2'⟩ := bin1D_eq x y hxy lo hi hlo (n * m) (Nat.mul_pos hn hm)
  refine ⟨_, val, cnt, _, val', cnt', e, e', ?_, ?_⟩
  · intro k hk
    have h1 : k * m ≤ n * m := Nat.mul_le_mul_right m hk
    have hm' : (m : ℚ) ≠ 0 := by exact_mod_cast (by omega : m ≠ 0)
    have hn' : (n : ℚ) ≠ 0 := by exact_mod_cast (by omega : n ≠ 0)
    simp only [Np.linspace, List.getElem?_map, List.getElem?_range (show k < n + 1 by omega), List.getElem?_range (show k * m < n * m + 1 by omega), Option.map_some, Nat.add_sub_cancel]
    congr 1
    push_cast
    field_simp
  · intro k hk
    have hkm : k * m + m ≤ n * m := by
      have := Nat.mul_le_mul_right m (show k + 1 ≤ n by omega); rw [Nat.add_mul, Nat.one_mul] at this; exact this
    have key : ∀ (v' w : List ℚ), v'.length = n * m → (∀ j < n * m, v'[j]? = some (Spec.binSum lo hi (n * m) j x w + if j + 1 = n * m then Spec.at hi x w else 0)) →
        ((v'.drop (k * m)).take m).sum = Spec.binSum lo hi n k x w + if k + 1 = n then Spec.at hi x w else 0 := by
      intro v' w hl hv
      have hlist : (v'.drop (k * m)).take m = (List.range m).map (fun i => Spec.binSum lo hi (n * m) (k * m + i) x w + if k * m + i + 1 = n * m then Spec.at hi x w else 0) := by
        apply List.ext_getElem?
        intro i
        by_cases hi' : i < m
        · rw [List.getElem?_take_of_lt hi', List.getElem?_drop, hv _ (by omega), List.getElem?_map, List.getElem?_range hi', Option.map_some]
        · rw [List.getElem?_eq_none (by simp; omega), List.getElem?_eq_none (by simp; omega)]
      rw [hlist, sum_map_add, ← binSum_split lo hi hlo n m k hm]
      congr 1
      obtain ⟨m', rfl⟩ : ∃ m', m = m' + 1 := ⟨m - 1, by omega⟩
      rw [List.range_succ, List.map_append, List.sum_append]
      have hz : ((List.range m').map (fun i => if k * (m' + 1) + i + 1 = n * (m' + 1) then Spec.at hi x w else 0)).sum = 0 := by
        apply List.sum_eq_zero
        intro q hq
        obtain ⟨i, hi', rfl⟩ := List.mem_map.1 hq
        have := List.mem_range.1 hi'
        rw [if_neg (by omega)]
      have hiff : (k * (m' + 1) + m' + 1 = n * (m' + 1)) ↔ k + 1 = n := by
        rw [add_assoc, ← Nat.succ_mul]
        exact ⟨fun h => Nat.eq_of_mul_eq_mul_right (by omega) h, fun h => by rw [Nat.succ_eq_add_one, h]⟩
      simp only [hz, List.map_cons, List.map_nil, List.sum_cons, List.sum_nil, hiff, zero_add, add_zero]
    rw [(e2 k hk).1, (e2 k hk).2, key val' y l1' (fun j hj => (e2' j hj).1), key cnt' _ l2' (fun j hj => (e2' j hj).2)]
    exact ⟨rfl, rfl⟩

/-- The fine cells making up coarse cell `ks` when axis d is divided `ms_d` times finer. -/
def Spec.subcells : List ℕ → List ℕ → List (List ℕ)
  | m :: ms, k :: ks => (List.range m).flatMap (fun i => (Spec.subcells ms ks).map (fun js => (k * m + i) :: js))
  | _, _ => [[]]

/-- The axes divided finer. -/
def Spec.refine (ms : List ℕ) (axes : List Hist.Axis) : List Hist.Axis :=
  List.zipWith (fun m a => ⟨a.nbin * m, a.low, a.high⟩) ms axes

theorem cell_split (ms : List ℕ) (axes : List Hist.Axis) (hl : ms.length = axes.length) (hm : ∀ m ∈ ms, 1 ≤ m) (ha : ∀ a ∈ axes, a.low ≤ a.high)
    (ks : List ℕ) (hk : ks.length = axes.length) (xs : List ℚ) (c : ℚ) :
    (if Hist.InCell axes xs ks then c else 0) = ((Spec.subcells ms ks).map (fun js => if Hist.InCell (Spec.refine ms axes) xs js then c else 0)).sum := by
  induction axes generalizing ms ks xs with
  | nil =>
    obtain rfl : ms = [] := List.length_eq_zero_iff.1 hl
    obtain rfl : ks = [] := List.length_eq_zero_iff.1 hk
    simp [Spec.subcells, Spec.refine]
  | cons a as ih =>
    cases ms with
    | nil => simp at hl
    | cons m ms =>
      cases ks with
      | nil => simp at hk
      | cons k ks =>
        cases xs with
        | nil =>
          have : ∀ js, ¬ Hist.InCell (Spec.refine (m :: ms) (a :: as)) [] js := by
            intro js; simp [Spec.refine, Hist.InCell]
          simp [this, Hist.InCell]
        | cons x xs =>
          have hm1 := hm m (by simp)
          have ih := ih ms (by simpa using hl) (fun m' h => hm m' (by simp [h])) (fun a' h => ha a' (by simp [h])) ks (by simpa using hk) xs
          have hsplit := bin_split a.low a.high (ha a (by simp)) a.nbin m k hm1 x (if Hist.InCell as xs ks then c else 0)
          have h1 : (if Hist.InCell (a :: as) (x :: xs) (k :: ks) then c else 0) =
              if a.low + k * ((a.high - a.low) / a.nbin) ≤ x ∧ x < a.low + (k + 1) * ((a.high - a.low) / a.nbin) then (if Hist.InCell as xs ks then c else 0) else 0 := by
            by_cases p : a.low + k * ((a.high - a.low) / a.nbin) ≤ x ∧ x < a.low + (k + 1) * ((a.high - a.low) / a.nbin)
            · have e : Hist.InCell (a :: as) (x :: xs) (k :: ks) ↔ Hist.InCell as xs ks := and_iff_right p
              rw [if_pos p]
              by_cases q : Hist.InCell as xs ks
              · rw [if_pos (e.2 q), if_pos q]
              · rw [if_neg (fun h => q (e.1 h)), if_neg q]
            · rw [if_neg p, if_neg (fun h => p h.1)]
          rw [h1, hsplit]
          simp only [Spec.subcells, List.map_flatMap, List.map_map, ih]
          generalize List.range m = l
          induction l with
          | nil => simp
          | cons i l ihl =>
            rw [List.map_cons, List.sum_cons, List.flatMap_cons, List.sum_append, ihl]
            congr 1
            have hin : ∀ js, Hist.InCell (Spec.refine (m :: ms) (a :: as)) (x :: xs) ((k * m + i) :: js) ↔
                ((a.low + ((k * m + i : ℕ) : ℚ) * ((a.high - a.low) / ((a.nbin * m : ℕ) : ℚ)) ≤ x ∧
                  x < a.low + (((k * m + i : ℕ) : ℚ) + 1) * ((a.high - a.low) / ((a.nbin * m : ℕ) : ℚ))) ∧ Hist.InCell (Spec.refine ms as) xs js) :=
              fun js => Iff.rfl
            by_cases p : a.low + ((k * m + i : ℕ) : ℚ) * ((a.high - a.low) / ((a.nbin * m : ℕ) : ℚ)) ≤ x ∧
                x < a.low + (((k * m + i : ℕ) : ℚ) + 1) * ((a.high - a.low) / ((a.nbin * m : ℕ) : ℚ))
            · rw [if_pos p]
              congr 1
              apply List.map_congr_left
              intro js _
              simp only [Function.comp_apply]
              by_cases q : Hist.InCell (Spec.refine ms as) xs js
              · rw [if_pos q, if_pos ((hin js).2 ⟨p, q⟩)]
              · rw [if_neg q, if_neg (fun h => q ((hin js).1 h).2)]
            · rw [if_neg p, List.sum_eq_zero]
              intro v hv
              obtain ⟨js, _, rfl⟩ := List.mem_map.1 hv
              simp only [Function.comp_apply]
              rw [if_neg (fun h => p ((hin js).1 h).1)]

theorem cellWeight_split (ms : List ℕ) (axes : List Hist.Axis) (hl : ms.length = axes.length) (hm : ∀ m ∈ ms, 1 ≤ m) (ha : ∀ a ∈ axes, a.low ≤ a.high)
    (ks : List ℕ) (hk : ks.length = axes.length) (S : List (List ℚ × ℚ)) :
    Hist.cellWeight axes S ks = ((Spec.subcells ms ks).map (Hist.cellWeight (Spec.refine ms axes) S)).sum := by
  induction S with
  | nil =>
    simp only [Hist.cellWeight, List.map_nil, List.sum_nil]
    rw [List.sum_eq_zero]
    intro q hq
    obtain ⟨js, _, rfl⟩ := List.mem_map.1 hq
    simp [Hist.cellWeight]
  | cons s S ih =>
    have e : ∀ (A : List Hist.Axis) (js : List ℕ), Hist.cellWeight A (s :: S) js = (if Hist.InCell A s.1 js then s.2 else 0) + Hist.cellWeight A S js := by
      intro A js; simp [Hist.cellWeight]
    have e' : Hist.cellWeight (Spec.refine ms axes) (s :: S) = fun js => (if Hist.InCell (Spec.refine ms axes) s.1 js then s.2 else 0) + Hist.cellWeight (Spec.refine ms axes) S js :=
      funext (e _)
    rw [e, e', sum_map_add, ih, cell_split ms axes hl hm ha ks hk]

theorem subcells_valid (ms : List ℕ) (axes : List Hist.Axis) (hl : ms.length = axes.length) (ks : List ℕ) (hk : Hist.ValidCell axes ks) (js : List ℕ)
    (hj : js ∈ Spec.subcells ms ks) : Hist.ValidCell (Spec.refine ms axes) js := by
  induction axes generalizing ms ks js with
  | nil =>
    obtain rfl : ms = [] := List.length_eq_zero_iff.1 hl
    cases ks with
    | nil => simp [Spec.subcells] at hj; subst hj; trivial
    | cons k ks => exact absurd hk (by simp [Hist.ValidCell])
  | cons a as ih =>
    cases ms with
    | nil => simp at hl
    | cons m ms =>
      cases ks with
      | nil => exact absurd hk (by simp [Hist.ValidCell])
      | cons k ks =>
        obtain ⟨h1, h2⟩ := hk
        simp only [Spec.subcells, List.mem_flatMap, List.mem_range, List.mem_map] at hj
        obtain ⟨i, hi, js', hj', rfl⟩ := hj
        refine ⟨?_, ih ms (by simpa using hl) ks h2 js' hj'⟩
        have := Nat.mul_le_mul_right m (show k + 1 ≤ a.nbin by omega)
        simp only
        rw [Nat.add_mul, Nat.one_mul] at this
        omega

theorem validCell_length (axes : List Hist.Axis) (ks : List ℕ) (hk : Hist.ValidCell axes ks) : ks.length = axes.length := by
  induction axes generalizing ks with
  | nil => cases ks with
    | nil => rfl
    | cons k ks => exact absurd hk (by simp [Hist.ValidCell])
  | cons a as ih => cases ks with
    | nil => exact absurd hk (by simp [Hist.ValidCell])
    | cons k ks => simp [ih ks hk.2]

/-- C201, Histogram, any number of dimensions: if a histogram and one with finer axes receive the same accepted call, every
cell of the first grows by exactly what the cells it is made of grow by in the second.  (Contiguous arrays on the N-D path,
as in C18.) -/
theorem C201_histogram_partial (nd : Bool) (ms : List ℕ) (h f : Hist.Hist) (hw : h.Wf) (fw : f.Wf) (hl : ms.length = h.axes.length) (hm : ∀ m ∈ ms, 1 ≤ m)
    (hax : ∀ a ∈ h.axes, a.low ≤ a.high) (hf : f.axes = Spec.refine ms h.axes) (coords : List Hist.Coord) (ws : List ℚ)
    (ha : Hist.Accepted nd h coords ws) (hc : Hist.ReadsRaw nd coords → ∀ c ∈ coords, c.stride = 1) :
    ∃ h' f', Hist.fill id nd h coords ws = (h', .ok ()) ∧ Hist.fill id nd f coords ws = (f', .ok ()) ∧
      ∀ ks, Hist.ValidCell h.axes ks → ∃ v v', h.values[Hist.flat h.axes ks]? = some v ∧ h'.values[Hist.flat h.axes ks]? = some v' ∧
        v' - v = ((Spec.subcells ms ks).map (fun js => f'.values.getD (Hist.flat f.axes js) 0 - f.values.getD (Hist.flat f.axes js) 0)).sum := by
  have hlen : f.axes.length = h.axes.length := by rw [hf]; simp [Spec.refine, hl]
  have ha' : Hist.Accepted nd f coords ws := ⟨by rw [ha.1, hlen], ha.2.1, ha.2.2.1, ha.2.2.2⟩
  obtain ⟨h', h1, _, _, h4⟩ := Hist.C18_fill_cells_partial nd h hw coords ws ha hc
  obtain ⟨f', f1, _, _, f4⟩ := Hist.C18_fill_cells_partial nd f fw coords ws ha' hc
  refine ⟨h', f', h1, f1, ?_⟩
  intro ks hk
  obtain ⟨v, g1, g2⟩ := h4 ks hk
  refine ⟨v, _, g1, g2, ?_⟩
  rw [add_sub_cancel_left, cellWeight_split ms h.axes hl hm hax ks (validCell_length _ _ hk)]
  congr 1
  apply List.map_congr_left
  intro js hj
  obtain ⟨u, g3, g4⟩ := f4 js (by rw [hf]; exact subcells_valid ms h.axes hl ks hk js hj)
  rw [List.getD_eq_getElem?_getD, List.getD_eq_getElem?_getD, g3, g4, hf]
  simp

/-- The grid divided finer. -/
def Spec.fineGrid (a b c : ℕ) (g : Grid.Grid) : Grid.Grid :=
  ⟨{ g.x with n := g.x.n * a }, { g.y with n := g.y.n * b }, { g.z with n := g.z.n * c }⟩

def gridAxes (g : Grid.Grid) : List Hist.Axis := [⟨g.x.n, g.x.lo, g.x.hi⟩, ⟨g.y.n, g.y.lo, g.y.hi⟩, ⟨g.z.n, g.z.lo, g.z.hi⟩]

def gridSamples (φ : ℚ → ℚ) (data : List Grid.Pt) : List (List ℚ × ℚ) :=
  data.filterMap (fun p => p.v.map (fun v => ([p.x, p.y, p.z], φ v)))

theorem values_weight (g : Grid.Grid) (φ : ℚ → ℚ) (data : List Grid.Pt) (i j k : ℕ) :
    ((Grid.Spec.values g i j k data).map φ).sum = Hist.cellWeight (gridAxes g) (gridSamples φ data) [i, j, k] := by
  unfold Hist.cellWeight gridSamples Grid.Spec.values
  induction data with
  | nil => simp
  | cons p t ih =>
    have hiff : Hist.InCell (gridAxes g) [p.x, p.y, p.z] [i, j, k] ↔ Grid.Spec.inVoxel g i j k p := by
      simp [gridAxes, Hist.InCell, Hist.InBin, Grid.Spec.inVoxel, Grid.Spec.inBin]
    rw [List.filterMap_cons, List.filterMap_cons]
    cases hv : p.v with
    | none => simpa using ih
    | some v =>
      by_cases h : Grid.Spec.inVoxel g i j k p
      · rw [if_pos h]
        simp only [Option.map_some, List.map_cons, List.sum_cons]
        rw [if_pos (hiff.2 h), ih]
      · rw [if_neg h]
        simp only [Option.map_some, List.map_cons, List.sum_cons]
        rw [if_neg (fun q => h (hiff.1 q)), ih, zero_add]

theorem values_split (g : Grid.Grid) (hg : Grid.Spec.Proper g) (φ : ℚ → ℚ) (a b c : ℕ) (ha : 1 ≤ a) (hb : 1 ≤ b) (hc : 1 ≤ c) (data : List Grid.Pt)
    (i j k : ℕ) :
    ((Grid.Spec.values g i j k data).map φ).sum = ((Spec.subcells [a, b, c] [i, j, k]).map (fun js =>
      ((Grid.Spec.values (Spec.fineGrid a b c g) (js.getD 0 0) (js.getD 1 0) (js.getD 2 0) data).map φ).sum)).sum := by
  obtain ⟨⟨gx, _⟩, ⟨gy, _⟩, gz, _⟩ := hg
  rw [values_weight, cellWeight_split [a, b, c] (gridAxes g) (by simp [gridAxes]) (by simp [ha, hb, hc]) (by simp [gridAxes, gx.le, gy.le, gz.le]) _ (by simp [gridAxes])]
  congr 1
  apply List.map_congr_left
  intro js hj
  simp only [Spec.subcells, List.mem_flatMap, List.mem_map, List.mem_range, List.mem_singleton] at hj
  obtain ⟨p, _, _, ⟨q, _, _, ⟨r, _, _, rfl, rfl⟩, rfl⟩, rfl⟩ := hj
  rw [values_weight]
  rfl

/-- C201, grid3d: occupancy, sum and sum of squares of a voxel are the totals over the voxels it is made of in a grid
divided a, b and c times finer, whatever the schedules of the two runs. -/
theorem C201_grid (g : Grid.Grid) (hg : Grid.Spec.Proper g) (a b c : ℕ) (ha : 1 ≤ a) (hb : 1 ≤ b) (hc : 1 ≤ c) (T T' : ℕ) (hT : 1 ≤ T) (hT' : 1 ≤ T')
    (data : List Grid.Pt) (ev ev' : List (ℕ × Grid.Pt)) (hev : Grid.Spec.Schedules T data ev) (hev' : Grid.Spec.Schedules T' data ev')
    (i j k : ℕ) (hi : i < g.x.n) (hj : j < g.y.n) (hk : k < g.z.n) :
    let G := Spec.fineGrid a b c g
    let fine := (Spec.subcells [a, b, c] [i, j, k]).map (fun js =>
      Grid.out id G T' Grid.zeroed ev' (Grid.flat G (js.getD 0 0) (js.getD 1 0) (js.getD 2 0)))
    let v := Grid.out id g T Grid.zeroed ev (Grid.flat g i j k)
    v.n = (fine.map Grid.Acc.n).sum ∧ v.s = (fine.map Grid.Acc.s).sum ∧ v.s2 = (fine.map Grid.Acc.s2).sum := by
  intro G fine v
  obtain ⟨⟨gx, hx⟩, ⟨gy, hy⟩, gz, hz⟩ := id hg
  have hG : Grid.Spec.Proper G := ⟨⟨gx, Nat.mul_pos hx ha⟩, ⟨gy, Nat.mul_pos hy hb⟩, gz, Nat.mul_pos hz hc⟩
  have hv : v = _ := Grid.C41_voxel_sums g hg T hT data ev hev i j k hi hj hk
  have hfine : fine = (Spec.subcells [a, b, c] [i, j, k]).map (fun js =>
      let vs := Grid.Spec.values G (js.getD 0 0) (js.getD 1 0) (js.getD 2 0) data
      ⟨vs.length, vs.sum, (vs.map (fun v => v * v)).sum⟩) := by
    apply List.map_congr_left
    intro js hjs
    have hval := subcells_valid [a, b, c] (gridAxes g) (by simp [gridAxes]) [i, j, k] ⟨hi, hj, hk, trivial⟩ js hjs
    simp only [Spec.subcells, List.mem_flatMap, List.mem_map, List.mem_range, List.mem_singleton] at hjs
    obtain ⟨p, _, _, ⟨q, _, _, ⟨r, _, _, rfl, rfl⟩, rfl⟩, rfl⟩ := hjs
    obtain ⟨v1, v2, v3, _⟩ := hval
    exact Grid.C41_voxel_sums G hG T' hT' data ev' hev' _ _ _ v1 v2 v3
  rw [hv, hfine]
  simp only [List.map_map, Function.comp_def]
  have hid := values_split g hg id a b c ha hb hc data i j k
  have hsq := values_split g hg (fun v => v * v) a b c ha hb hc data i j k
  have hone := values_split g hg (fun _ => 1) a b c ha hb hc data i j k
  simp only [List.map_id] at hid
  refine ⟨?_, hid, hsq⟩
  have hlen : ∀ l : List ℚ, (l.map (fun _ => (1 : ℚ))).sum = (l.length : ℚ) := by
    intro l; simp
  simp only [hlen] at hone
  have : ((Grid.Spec.values g i j k data).length : ℚ) = (((Spec.subcells [a, b, c] [i, j, k]).map (fun js =>
      (Grid.Spec.values (Spec.fineGrid a b c g) (js.getD 0 0) (js.getD 1 0) (js.getD 2 0) data).length)).sum : ℕ) := by
    rw [hone]
    generalize Spec.subcells [a, b, c] [i, j, k] = L
    clear * -
    induction L with
    | nil => simp
    | cons x L ih => simp only [List.map_cons, List.sum_cons, ih]; push_cast; rfl
  exact_mod_cast this

/-- Two bins of [0, 4) and the four they are made of. -/
example : Utils.bin1D [0, 1, 2, 3, 4, 9] [1, 2, 3, 4, 5, 6] (some (2 * 2)) (some 0) (some 4) = .ok ([0, 1, 2, 3, 4], [1, 2, 3, 9], [1, 1, 1, 2]) ∧
    Spec.subcells [2, 3] [1, 0] = [[2, 0], [2, 1], [2, 2], [3, 0], [3, 1], [3, 2]] := by decide +kernel

/-- The axes of a 2 x 2 x 1 grid of [0, 1)^3 and the grid twice as fine in x: hypotheses are met. -/
example : Grid.Spec.Proper ⟨⟨0, 1, 2⟩, ⟨0, 1, 2⟩, ⟨0, 1, 1⟩⟩ ∧ Spec.refine [2, 1] [⟨2, 0, 1⟩, ⟨3, 0, 1⟩] = [⟨4, 0, 1⟩, ⟨3, 0, 1⟩] := by
  refine ⟨?_, by decide +kernel⟩
  simp [Grid.Spec.Proper]

/-- Six samples, one of them at the upper limit, two bins. -/
example : Hist.fill id false ⟨[⟨2, 0, 4⟩], [0, 0]⟩ [Hist.fArr [0, 1, 2, 3, 4, 9]] [1, 2, 3, 4, 5, 6] = (⟨[⟨2, 0, 4⟩], [3, 7]⟩, .ok ()) ∧
    Utils.bin1D [0, 1, 2, 3, 4, 9] [1, 2, 3, 4, 5, 6] (some 2) (some 0) (some 4) = .ok ([0, 2, 4], [3, 12], [2, 3]) := by decide +kernel

end Verif.Binning
