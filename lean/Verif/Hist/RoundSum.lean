/- The contents of a Histogram in floating-point arithmetic (property C203, skbeam/core/accumulators/histogram.pyx:108-269). -/
import Verif.Hist.Round
import Verif.Roi.AvgRound

namespace Verif.Hist
open Verif

/-- Sum of the absolute values. -/
def Spec.absSum (l : List ℚ) : ℚ := (l.map (fun w => |w|)).sum

theorem run_near_from {u : ℚ} {fl : ℚ → ℚ} (hr : Fl.Spec.Rel u fl) (c : ℚ) (l : List ℚ) :
    Fl.Near u l.length (l.foldl (fun x w => fl (x + w)) c) (c + l.sum) (|c| + Spec.absSum l) := by
  induction l using List.reverseRecOn with
  | nil => simpa [Spec.absSum] using Fl.Near.exact u 0 hr.1 c
  | append_singleton t x ih =>
    have := Fl.Near.rnd_add hr ih (Fl.Near.exact u t.length hr.1 x)
    simpa [Spec.absSum, add_assoc] using this

/-- The total weight of a cell is the sum of the weights lying in it. -/
theorem weightsIn_sum (axes : List Axis) (l : List (List ℚ × ℚ)) (ks : List ℕ) : (Spec.weightsIn axes l ks).sum = cellWeight axes l ks := by
  unfold Spec.weightsIn cellWeight
  induction l with
  | nil => rfl
  | cons s t ih =>
    by_cases h : InCell axes s.1 ks
    · simp only [List.filter_cons, h, decide_true, if_true, List.map_cons, List.sum_cons, ih]
    · simp only [List.filter_cons, h, decide_false, if_false, Bool.false_eq_true, List.map_cons, List.sum_cons, ih, zero_add]

section
variable (u : ℚ) (hu1 : u ≤ 1 / 100) (fl : ℚ → ℚ) (hr : Fl.Spec.Rel u fl) (nd : Bool) (h : Hist) (hw : h.Wf) (coords : List Coord)
    (ws : List ℚ) (ha : Accepted nd h coords ws) (hc : ReadsRaw nd coords → ∀ c ∈ coords, c.stride = 1)
    (hx : ∀ p ∈ coords.zip h.axes, ∀ i < p.1.len, Spec.Away u p.2 (p.1.val i))
include hu1 hr hw ha hc hx

/-- C203, accuracy: the content of a cell differs from the old content plus the exact total of the m weights lying in it by at most m roundings
of the sum of the absolute values; cells without a sample keep their content. -/
theorem C203_accuracy_partial :
    ∃ h', fill fl nd h coords ws = (h', .ok ()) ∧ ∀ ks, ValidCell h.axes ks → ∃ old new,
      h.values[flat h.axes ks]? = some old ∧ h'.values[flat h.axes ks]? = some new ∧
      |new - (old + cellWeight h.axes (samples coords ws) ks)| ≤
        ((1 + u) ^ (Spec.weightsIn h.axes (samples coords ws) ks).length - 1) * (|old| + Spec.absSum (Spec.weightsIn h.axes (samples coords ws) ks)) ∧
      (Spec.weightsIn h.axes (samples coords ws) ks = [] → new = old) := by
  obtain ⟨h', h1, _, _, h4⟩ := C203_cells_partial u hu1 fl hr nd h hw coords ws ha hc hx
  refine ⟨h', h1, fun ks hk => ?_⟩
  obtain ⟨old, g1, g2⟩ := h4 ks hk
  refine ⟨old, _, g1, g2, ?_, fun he => by rw [he]; rfl⟩
  have := (run_near_from hr old (Spec.weightsIn h.axes (samples coords ws) ks)).1
  rwa [weightsIn_sum] at this

/-- C203, counts: where all weights and the old content are whole numbers that add up to at most N in size, N being the size up to which whole
numbers are represented exactly, the new content is exactly the old one plus the total weight. -/
theorem C203_counts_partial (N : ℕ) (hN : Roi.Rnd.Spec.WholeExact N fl) :
    ∃ h', fill fl nd h coords ws = (h', .ok ()) ∧ ∀ ks, ValidCell h.axes ks → ∃ old new,
      h.values[flat h.axes ks]? = some old ∧ h'.values[flat h.axes ks]? = some new ∧
      ((∃ z : ℤ, old = z) → (∀ w ∈ Spec.weightsIn h.axes (samples coords ws) ks, ∃ z : ℤ, w = z) →
        |old| + Spec.absSum (Spec.weightsIn h.axes (samples coords ws) ks) ≤ N → new = old + cellWeight h.axes (samples coords ws) ks) := by
  obtain ⟨h', h1, _, _, h4⟩ := C203_cells_partial u hu1 fl hr nd h hw coords ws ha hc hx
  refine ⟨h', h1, fun ks hk => ?_⟩
  obtain ⟨old, g1, g2⟩ := h4 ks hk
  refine ⟨old, _, g1, g2, fun hz hwz hsum => ?_⟩
  have := Roi.Rnd.run_whole hN (Spec.weightsIn h.axes (samples coords ws) ks) old hz hwz hsum
  rwa [weightsIn_sum] at this

end

/-- Run a history in rounded arithmetic. -/
def fillAllF (fl : ℚ → ℚ) (h : Hist) (calls : List Call) : Hist := calls.foldl (fun h c => (fill fl c.1 h c.2.1 c.2.2).1) h

theorem fillAllF_eq (u : ℚ) (hu1 : u ≤ 1 / 100) (fl : ℚ → ℚ) (hr : Fl.Spec.Rel u fl) (calls : List Call) (h : Hist) (hw : h.Wf)
    (ha : AllAccepted h calls) (hx : ∀ c ∈ calls, ∀ p ∈ c.2.1.zip h.axes, ∀ i < p.1.len, Spec.Away u p.2 (p.1.val i)) :
    fillAllF fl h calls = { h with values := (calls.flatMap (fun c => samples c.2.1 c.2.2)).foldl (specStepF fl h.axes) h.values } := by
  induction calls generalizing h with
  | nil => rfl
  | cons c t ih =>
    have h1 := ha c (by simp)
    have hs := fill_round u hu1 fl hr c.1 h hw c.2.1 c.2.2 h1.1 h1.2 (hx c (by simp))
    simp only [fillAllF, List.foldl_cons, List.flatMap_cons, List.foldl_append] at ih ⊢
    rw [hs]
    rw [ih]
    · exact ⟨by simp only; rw [length_foldl_specStepF, hw.1], hw.2.1, hw.2.2⟩
    · intro c' hc'
      exact ha c' (by simp [hc'])
    · intro c' hc'
      exact hx c' (by simp [hc'])

/-- C203, batches: two histories with the same samples in the same order, cut into calls anywhere and on any code path, leave bitwise the same
contents. -/
theorem C203_batches_partial (u : ℚ) (hu1 : u ≤ 1 / 100) (fl : ℚ → ℚ) (hr : Fl.Spec.Rel u fl) (h : Hist) (hw : h.Wf) (calls calls' : List Call)
    (ha : AllAccepted h calls) (ha' : AllAccepted h calls')
    (hx : ∀ c ∈ calls, ∀ p ∈ c.2.1.zip h.axes, ∀ i < p.1.len, Spec.Away u p.2 (p.1.val i))
    (hx' : ∀ c ∈ calls', ∀ p ∈ c.2.1.zip h.axes, ∀ i < p.1.len, Spec.Away u p.2 (p.1.val i))
    (hp : calls.flatMap (fun c => samples c.2.1 c.2.2) = calls'.flatMap (fun c => samples c.2.1 c.2.2)) :
    fillAllF fl h calls = fillAllF fl h calls' := by
  rw [fillAllF_eq u hu1 fl hr calls h hw ha hx, fillAllF_eq u hu1 fl hr calls' h hw ha' hx', hp]

/-- The order of the samples does matter: the same three weights give two different contents in double precision. -/
theorem C203_order_refuted :
    fill Fl.round53 false ⟨[⟨1, 0, 1⟩], [0]⟩ [fArr [0, 0, 0]] [2 ^ 53, 1, 1] = (⟨[⟨1, 0, 1⟩], [2 ^ 53]⟩, .ok ()) ∧
    fill Fl.round53 false ⟨[⟨1, 0, 1⟩], [0]⟩ [fArr [0, 0, 0]] [1, 1, 2 ^ 53] = (⟨[⟨1, 0, 1⟩], [2 ^ 53 + 2]⟩, .ok ()) := by
  constructor <;> decide +kernel

/-- The conditions are met by the shipped double precision and a histogram of counts. -/
example : Fl.Spec.Rel (1 / 2 ^ 53) Fl.round53 ∧ Roi.Rnd.Spec.WholeExact (2 ^ 53) Fl.round53 ∧
    AllAccepted ⟨[⟨2, 0, 2⟩], [0, 0]⟩ [(false, [fArr [1 / 2, 3 / 2]], [1]), (true, [fArr [1 / 2]], [7])] ∧
    fillAllF Fl.round53 ⟨[⟨2, 0, 2⟩], [0, 0]⟩ [(false, [fArr [1 / 2, 3 / 2]], [1]), (true, [fArr [1 / 2]], [7])] = ⟨[⟨2, 0, 2⟩], [8, 1]⟩ := by
  refine ⟨Fl.round53_rel, Roi.Rnd.round53_int, ?_, by decide +kernel⟩
  · intro c hc
    simp at hc
    rcases hc with rfl | rfl
    · exact ⟨⟨rfl, by simp, by simp, by simp [fArr]⟩, by simp [fArr]⟩
    · exact ⟨⟨rfl, by simp, by simp, by simp [fArr]⟩, by simp [fArr]⟩

end Verif.Hist
