/- C186: `estimate_d_blind` from the profile to the distance. -/
import Verif.Calib.Blind
import Verif.Calib.Props
import Verif.Feature.Props
import Verif.Feature.Lstsq
import Verif.Geom.Props

namespace Verif.Calib
open Verif

/-! ### specification -/

/-- Sample `i` is a peak: strictly higher than all others up to `w` away, neither the first nor the last, and two samples
up to `w` away differ by more than `thresh` times the largest sample. -/
def Spec.IsPeak {α : Type} [LinearOrder α] [Sub α] [Mul α] (y : List α) (thresh : α) (w i : ℕ) : Prop :=
  ∃ v, y[i]? = some v ∧ 0 < i ∧ i + 1 < y.length ∧
    (∀ j u, j ≠ i → j ≤ i + w → i ≤ j + w → y[j]? = some u → u < v) ∧
    ∃ m ∈ y, (∀ u ∈ y, u ≤ m) ∧ Feature.Spec.Tall y w (thresh * m) i

/-- Around sample `p` the profile is a Gaussian centred on the ring of reflection `r`: the scattering angle 2θ obeys Bragg's
law, and a cone of that angle meets the detector, at distance D, in a circle of radius D tan 2θ. -/
def Spec.RingAt (D wavelength : ℝ) (r : Consts.Reflection) (x ring : List ℝ) (w p : ℕ) : Prop :=
  ∃ θ H s : ℝ, 0 < θ ∧ θ < Real.pi / 4 ∧ wavelength = 2 * r.d * Real.sin θ ∧ 0 < H ∧ 0 < s ∧
    ∀ (j : ℕ) (u : ℝ), p ≤ j + w → j ≤ p + w → x[j]? = some u →
      ring[j]? = some (H * Real.exp (-(u - D * Real.tan (2 * θ)) ^ 2 / (2 * s ^ 2)))

/-! ### the peaks -/

theorem getD_eq {α : Type} (y : List α) (d v : α) (i : ℕ) (h : y[i]? = some v) : y.getD i d = v := by
  rw [List.getD_eq_getElem?_getD, h]; rfl

theorem argrelmax_ok {α : Type} [LinearOrder α] [Zero α] (y : List α) (w : ℕ) (hw : 1 ≤ w) :
    ∃ c, argrelmax y w = .ok c ∧ c.Pairwise (· < ·) ∧ ∀ i, i ∈ c ↔
      ∃ v, y[i]? = some v ∧ 0 < i ∧ i + 1 < y.length ∧ ∀ j u, j ≠ i → j ≤ i + w → i ≤ j + w → y[j]? = some u → u < v := by
  unfold argrelmax
  rw [if_neg (by omega)]
  refine ⟨_, rfl, List.Pairwise.filter _ List.pairwise_lt_range, fun i => ?_⟩
  rw [List.mem_filter, List.mem_range]
  simp only [List.all_eq_true, List.mem_range, Bool.and_eq_true, decide_eq_true_eq]
  constructor
  · rintro ⟨hi, h⟩
    have hv : y[i]? = some y[i] := List.getElem?_eq_getElem hi
    have e := getD_eq y 0 _ i hv
    refine ⟨y[i], hv, ?_, ?_, ?_⟩
    · by_contra h0
      have : i = 0 := by omega
      subst this
      have := (h 0 (by omega)).2
      simp at this
    · by_contra h0
      have h1 : i = y.length - 1 := by omega
      have := (h 0 (by omega)).1
      rw [show min (i + (0 + 1)) (y.length - 1) = i by omega] at this
      exact lt_irrefl _ this
    · intro j u hji hj1 hj2 hu
      have hjl := (List.getElem?_eq_some_iff.1 hu).1
      have eu := getD_eq y 0 u j hu
      rcases Nat.lt_or_ge i j with hij | hij
      · have := (h (j - i - 1) (by omega)).1
        rw [show min (i + (j - i - 1 + 1)) (y.length - 1) = j by omega, eu, e] at this
        exact this
      · have := (h (i - j - 1) (by omega)).2
        rw [show i - (i - j - 1 + 1) = j by omega, eu, e] at this
        exact this
  · rintro ⟨v, hv, h0, h1, h2⟩
    have hi := (List.getElem?_eq_some_iff.1 hv).1
    have e := getD_eq y 0 v i hv
    refine ⟨hi, fun s hs => ⟨?_, ?_⟩⟩
    · have hl : min (i + (s + 1)) (y.length - 1) < y.length := by omega
      have hu := List.getElem?_eq_getElem hl
      rw [getD_eq y 0 _ _ hu, e]
      exact h2 _ _ (by omega) (by omega) (by omega) hu
    · have hl : i - (s + 1) < y.length := by omega
      have hu := List.getElem?_eq_getElem hl
      rw [getD_eq y 0 _ _ hu, e]
      exact h2 _ _ (by omega) (by omega) (by omega) hu

theorem npMax_ok {α : Type} [LinearOrder α] (y : List α) (h : y ≠ []) : ∃ m, npMax y = .ok m ∧ m ∈ y ∧ ∀ u ∈ y, u ≤ m := by
  cases y with
  | nil => exact absurd rfl h
  | cons a t =>
    obtain ⟨h1, h2⟩ := Feature.foldl_max_mem t a
    exact ⟨_, rfl, h1, h2⟩

/-- C186: the samples taken for peaks, in ascending order, are exactly those of the specification. -/
theorem C186_peaks {α : Type} [Field α] [LinearOrder α] [IsStrictOrderedRing α] (y : List α) (thresh : α) (w : ℕ) (hw : 1 ≤ w) (hy : y ≠ []) :
    ∃ c, peaks y thresh w = .ok c ∧ c.Pairwise (· < ·) ∧ ∀ i, i ∈ c ↔ Spec.IsPeak y thresh w i := by
  obtain ⟨c, h1, h2, h3⟩ := argrelmax_ok y w hw
  obtain ⟨m, m1, m2, m3⟩ := npMax_ok y hy
  have hb : ∀ i ∈ c, i < y.length := by
    intro i hi
    obtain ⟨v, hv, _⟩ := (h3 i).1 hi
    exact (List.getElem?_eq_some_iff.1 hv).1
  have h57 := Feature.C57_peak_height y (thresh * m) w c hb
  refine ⟨_, by simp only [peaks, bind, Except.bind, h1, m1]; exact h57, h2.filter _, fun i => ?_⟩
  rw [List.mem_filter, h3]
  simp only [decide_eq_true_eq]
  constructor
  · rintro ⟨⟨v, hv, a, b, c⟩, ht⟩
    exact ⟨v, hv, a, b, c, m, m2, m3, ht⟩
  · rintro ⟨v, hv, a, b, c, m', hm1, hm2, ht⟩
    have : m' = m := le_antisymm (m3 _ hm1) (hm2 _ m2)
    subst this
    exact ⟨⟨v, hv, a, b, c⟩, ht⟩

/-! ### errors -/

/-- C186: an unknown standard raises KeyError; a window of no samples, an empty profile, or one without a peak, ValueError. -/
theorem C186_errors (lstsq : List ℝ → List ℝ → ℝ × ℝ × ℝ) (standards : String → Option (List Consts.Reflection)) (name : String)
    (wavelength : ℝ) (x ring : List ℝ) (w maxPeaks : ℕ) (thresh : ℝ) :
    (standards name = none → estimateDBlind lstsq standards name wavelength x ring w maxPeaks thresh = .error .keyError) ∧
    ((∃ cal, standards name = some cal) → (w = 0 ∨ ring = [] ∨ ∀ i, ¬ Spec.IsPeak ring thresh w i) →
      estimateDBlind lstsq standards name wavelength x ring w maxPeaks thresh = .error .valueError) := by
  constructor
  · intro h
    unfold estimateDBlind
    rw [h]
  · rintro ⟨cal, h⟩ h0
    unfold estimateDBlind
    rw [h]
    by_cases hw : w = 0
    · subst hw; rfl
    by_cases hr : ring = []
    · subst hr
      obtain ⟨c, h1, _⟩ := argrelmax_ok ([] : List ℝ) w (by omega)
      simp only [peaks, bind, Except.bind, h1, npMax]
    obtain ⟨c, h1, _, h3⟩ := C186_peaks ring thresh w (by omega) hr
    have hc : c = [] := by
      rcases h0 with h0 | h0 | h0
      · exact absurd h0 hw
      · exact absurd h0 hr
      · exact List.eq_nil_iff_forall_not_mem.2 (fun i hi => h0 i ((h3 i).1 hi))
    subst hc
    simp only [bind, Except.bind, h1, Feature.peakRefinement]

/-! ### refinement -/

theorem windowSlice_x (x : List ℝ) (hx : x.Pairwise (· < ·)) (w p : ℕ) (hw : 1 ≤ w) (h0 : 0 < p) (h1 : p + 1 < x.length) :
    Feature.Spec.ThreePoints (Feature.windowSlice x p w) := by
  have hm : ∀ i (hi : i < x.length), p ≤ i + w → i ≤ p + w → x[i] ∈ Feature.windowSlice x p w := fun i hi a b =>
    (Feature.mem_window x p w _).2 ⟨i, a, b, List.getElem?_eq_getElem hi⟩
  have hp := List.pairwise_iff_getElem.1 hx
  refine ⟨x[p - 1], hm _ _ (by omega) (by omega), x[p], hm _ _ (by omega) (by omega), x[p + 1], hm _ _ (by omega) (by omega), ?_, ?_, ?_⟩
  · exact (hp (p - 1) p _ _ (by omega)).ne
  · exact (hp (p - 1) (p + 1) _ _ (by omega)).ne
  · exact (hp p (p + 1) _ _ (by omega)).ne

/-- The slice of the values over the window, cut at the length of `x`, is the window when the lengths agree. -/
theorem slice_eq (x y : List ℝ) (h : x.length = y.length) (p w : ℕ) :
    (y.take (min x.length (p + w + 1))).drop (p - w) = Feature.windowSlice y p w := by
  unfold Feature.windowSlice; rw [h]

theorem refine_total (lstsq : List ℝ → List ℝ → ℝ × ℝ × ℝ) (x y : List ℝ) (h : 3 ≤ x.length) :
    ∃ q, Feature.refineLogQuadratic lstsq none x y = .ok (some q) := by
  unfold Feature.refineLogQuadratic Feature.fitQuadToPeak
  rw [if_neg (by omega)]
  exact ⟨_, rfl⟩

/-- With enough samples around every candidate nothing is rejected and nothing raises. -/
theorem refinement_all (refine : List ℝ → List ℝ → Py (Option (ℝ × ℝ))) (x y : List ℝ) (w : ℕ) (cands : List ℕ) (g : ℕ → ℝ × ℝ)
    (hlen : x.length = y.length)
    (h : ∀ c ∈ cands, refine (Feature.windowSlice x c w) (Feature.windowSlice y c w) = .ok (some (g c))) :
    Feature.peakRefinement refine x y w cands = .ok (cands.map g) := by
  induction cands with
  | nil => rfl
  | cons c t ih =>
    rw [Feature.peakRefinement, slice_eq x y hlen, h c (by simp), ih (fun c' h' => h c' (by simp [h']))]
    rfl

theorem window_map (x y : List ℝ) (hlen : x.length = y.length) (p w : ℕ) (f : ℝ → ℝ)
    (h : ∀ (j : ℕ) (u : ℝ), p ≤ j + w → j ≤ p + w → x[j]? = some u → y[j]? = some (f u)) :
    Feature.windowSlice y p w = (Feature.windowSlice x p w).map f := by
  unfold Feature.windowSlice
  apply List.ext_getElem?
  intro i
  rw [List.getElem?_map, List.getElem?_drop, List.getElem?_drop, List.getElem?_take, List.getElem?_take, ← hlen]
  split
  · rename_i hi
    have hl : p - w + i < x.length := by omega
    rw [h _ _ (by omega) (by omega) (List.getElem?_eq_getElem hl), List.getElem?_eq_getElem hl]
    rfl
  · rfl

/-- The angle tabulated for a reflection is the Bragg angle. -/
theorem bragg (r : Consts.Reflection) (hr : r.d * r.q = 2 * Real.pi) (wavelength θ : ℝ) (h0 : 0 < θ) (h1 : θ < Real.pi / 4)
    (hb : wavelength = 2 * r.d * Real.sin θ) : Geom.qToTwotheta r.q wavelength = 2 * θ := by
  unfold Geom.qToTwotheta
  have hpi := Real.pi_pos
  have hd : r.d ≠ 0 := by
    intro h; rw [h, zero_mul] at hr; linarith
  have : r.q * (wavelength / (4 * Real.pi)) = Real.sin θ := by
    rw [hb]
    have hq : r.q = 2 * Real.pi / r.d := by rw [eq_div_iff hd]; linarith
    rw [hq]
    field_simp
    ring
  simp only
  rw [this, Real.arcsin_sin (by linarith) (by linarith)]

/-- What the function returns once the peaks are known. -/
theorem estimate_eq (lstsq : List ℝ → List ℝ → ℝ × ℝ × ℝ) (standards : String → Option (List Consts.Reflection)) (name : String)
    (cal : List Consts.Reflection) (hcal : standards name = some cal) (wavelength : ℝ) (x ring : List ℝ) (hx : x.Pairwise (· < ·))
    (hlen : x.length = ring.length) (w maxPeaks : ℕ) (hw : 1 ≤ w) (thresh : ℝ) (c : List ℕ) (hc : peaks ring thresh w = .ok c)
    (hmem : ∀ i, i ∈ c ↔ Spec.IsPeak ring thresh w i) (hne : c ≠ []) :
    ∃ g : ℕ → ℝ × ℝ, (∀ p ∈ c, Feature.refineLogQuadratic lstsq none (Feature.windowSlice x p w) (Feature.windowSlice ring p w) = .ok (some (g p))) ∧
      estimateDBlind lstsq standards name wavelength x ring w maxPeaks thresh =
        .ok (estimateFromPeaks (c.map (fun p => (g p).1)) (Consts.convert2theta cal wavelength) maxPeaks) := by
  have hg : ∀ p, ∃ q, p ∈ c → Feature.refineLogQuadratic lstsq none (Feature.windowSlice x p w) (Feature.windowSlice ring p w) = .ok (some q) := by
    intro p
    by_cases hp : p ∈ c
    · obtain ⟨v, hv, h0, h1, _⟩ := (hmem p).1 hp
      obtain ⟨q, hq⟩ := refine_total lstsq (Feature.windowSlice x p w) (Feature.windowSlice ring p w)
        (Feature.three_length _ (windowSlice_x x hx w p hw h0 (by omega)))
      exact ⟨q, fun _ => hq⟩
    · exact ⟨(0, 0), fun h => absurd h hp⟩
  choose g hg using hg
  refine ⟨g, fun p hp => hg p hp, ?_⟩
  unfold estimateDBlind
  rw [hcal]
  simp only [bind, Except.bind, hc]
  rw [refinement_all _ x ring w c g hlen (fun p hp => hg p hp)]
  obtain ⟨a, t, rfl⟩ := List.exists_cons_of_ne_nil hne
  simp only [List.map_cons, List.map_map]
  rfl

/-- C186: if the profile around every peak that is used is a Gaussian centred on the ring of the corresponding reflection,
the estimate is the distance, with no spread. -/
theorem C186_exact (lstsq : List ℝ → List ℝ → ℝ × ℝ × ℝ) (hl : Feature.IsLstsq lstsq) (standards : String → Option (List Consts.Reflection))
    (name : String) (cal : List Consts.Reflection) (hcal : standards name = some cal) (hne : cal ≠ [])
    (hq : ∀ r ∈ cal, r.d * r.q = 2 * Real.pi) (wavelength D : ℝ) (x ring : List ℝ) (hx : x.Pairwise (· < ·)) (hlen : x.length = ring.length)
    (w maxPeaks : ℕ) (hw : 1 ≤ w) (hm : 1 ≤ maxPeaks) (thresh : ℝ) (ps : List ℕ) (hs : ps.Pairwise (· < ·))
    (hps : ∀ i, i ∈ ps ↔ Spec.IsPeak ring thresh w i) (hps0 : ps ≠ [])
    (hring : ∀ k p r, k < maxPeaks → ps[k]? = some p → cal[k]? = some r → Spec.RingAt D wavelength r x ring w p) :
    estimateDBlind lstsq standards name wavelength x ring w maxPeaks thresh = .ok (D, 0) := by
  obtain ⟨p0, t0, hp0⟩ := List.exists_cons_of_ne_nil hps0
  have hrn : ring ≠ [] := by
    rintro rfl
    obtain ⟨v, hv, _⟩ := (hps p0).1 (by rw [hp0]; simp)
    simp at hv
  obtain ⟨c, h1, h2, h3⟩ := C186_peaks ring thresh w hw hrn
  have hcps : c = ps := by
    have hperm : c.Perm ps := (List.perm_ext_iff_of_nodup (h2.imp (fun h => Nat.ne_of_lt h)) (hs.imp (fun h => Nat.ne_of_lt h))).2 (fun i => by rw [h3, hps])
    exact hperm.eq_of_pairwise (fun a b _ _ h h' => absurd h (by omega)) h2 hs
  subst hcps
  obtain ⟨g, hg, he⟩ := estimate_eq lstsq standards name cal hcal wavelength x ring hx hlen w maxPeaks hw thresh c h1 h3 hps0
  rw [he]
  congr 1
  set tt := Consts.convert2theta cal wavelength with htt
  set pk := c.map (fun p => (g p).1) with hpk
  set n := min (min tt.length pk.length) maxPeaks with hn
  have htr : estimateFromPeaks pk tt maxPeaks = estimateFromPeaks (pk.take n) (tt.take n) maxPeaks := by
    have e : min (min (tt.take n).length (pk.take n).length) maxPeaks = n := by
      rw [List.length_take, List.length_take]; omega
    unfold estimateFromPeaks
    simp only [e, ← hn, List.take_take, min_self]
  have hbr : ∀ k p t, k < n → c[k]? = some p → tt[k]? = some t → ∃ θ : ℝ, 0 < θ ∧ θ < Real.pi / 4 ∧ t = 2 * θ ∧ (g p).1 = D * Real.tan t := by
    intro k p t hk hp ht
    rw [htt, Consts.convert2theta, List.getElem?_map] at ht
    cases hr : cal[k]? with
    | none => rw [hr] at ht; simp at ht
    | some r =>
      rw [hr] at ht
      simp only [Option.map_some, Option.some.injEq] at ht
      obtain ⟨θ, H, s, t0, t1, hb, hH, hs', hgauss⟩ := hring k p r (by omega) hp hr
      have e := bragg r (hq r (List.mem_of_getElem? hr)) wavelength θ t0 t1 hb
      refine ⟨θ, t0, t1, by rw [← ht, e], ?_⟩
      have hpc := List.mem_of_getElem? hp
      have hgp := hg p hpc
      obtain ⟨v, hv, v0, v1, _⟩ := (h3 p).1 hpc
      rw [window_map x ring hlen p w _ hgauss, Feature.C96_gaussian lstsq hl _ (windowSlice_x x hx w p hw v0 (by omega)) _ H s hH hs' none (by simp)] at hgp
      simp only [Except.ok.injEq, Option.some.injEq] at hgp
      rw [← hgp, ← ht, e]
  have hcl : 0 < c.length := List.length_pos_iff.2 hps0
  have hcal0 : 0 < cal.length := List.length_pos_iff.2 hne
  have hl1 : pk.length = c.length := by rw [hpk, List.length_map]
  have hl2 : tt.length = cal.length := by rw [htt, Consts.convert2theta, List.length_map]
  rw [htr]
  apply C101_distance
  · rw [List.length_take]; omega
  · rw [List.length_take]; omega
  · omega
  · intro t ht
    obtain ⟨k, hk⟩ := List.mem_iff_getElem?.1 ht
    rw [List.getElem?_take] at hk
    split at hk
    · rename_i hkn
      obtain ⟨θ, t0, t1, e, _⟩ := hbr k _ t hkn (List.getElem?_eq_getElem (by omega)) hk
      rw [e]
      exact (Real.tan_pos_of_pos_of_lt_pi_div_two (by linarith) (by linarith)).ne'
    · simp at hk
  · intro i p t hp ht
    rw [List.getElem?_take] at hp ht
    split at hp
    · rename_i hin
      rw [if_pos hin] at ht
      have hic : i < c.length := by omega
      rw [hpk, List.getElem?_map, List.getElem?_eq_getElem hic] at hp
      simp only [Option.map_some, Option.some.injEq] at hp
      obtain ⟨θ, _, _, _, e⟩ := hbr i _ t hin (List.getElem?_eq_getElem hic) ht
      rw [← hp, e]
    · simp at hp

/-! ### units -/

theorem sse_mid (x y : List ℝ) (a b : ℝ × ℝ × ℝ) :
    Feature.sse x y a + Feature.sse x y b =
      2 * Feature.sse x y ((a.1 + b.1) / 2, (a.2.1 + b.2.1) / 2, (a.2.2 + b.2.2) / 2) +
        (List.zipWith (fun u _ => ((a.1 - b.1) * u ^ 2 + (a.2.1 - b.2.1) * u + (a.2.2 - b.2.2)) ^ 2 / 2) x y).sum := by
  unfold Feature.sse
  induction x generalizing y with
  | nil => simp
  | cons u x ih =>
    cases y with
    | nil => simp
    | cons v y =>
      simp only [List.zipWith_cons_cons, List.sum_cons]
      have := ih y
      linear_combination this

/-- The least-squares parabola through at least three different points is unique. -/
theorem lstsq_unique (x y : List ℝ) (hxy : x.length = y.length) (h3 : Feature.Spec.ThreePoints x) (a b : ℝ × ℝ × ℝ)
    (ha : ∀ c, Feature.sse x y a ≤ Feature.sse x y c) (hb : ∀ c, Feature.sse x y b ≤ Feature.sse x y c) : a = b := by
  have hm := sse_mid x y a b
  have h1 := ha ((a.1 + b.1) / 2, (a.2.1 + b.2.1) / 2, (a.2.2 + b.2.2) / 2)
  have h2 := hb ((a.1 + b.1) / 2, (a.2.1 + b.2.1) / 2, (a.2.2 + b.2.2) / 2)
  have hz := Feature.sum_sq_zero _ (by
    intro v hv
    obtain ⟨i, hi, rfl⟩ := List.mem_iff_getElem.1 hv
    rw [List.getElem_zipWith]
    positivity) (by linarith : (List.zipWith (fun u _ => ((a.1 - b.1) * u ^ 2 + (a.2.1 - b.2.1) * u + (a.2.2 - b.2.2)) ^ 2 / 2) x y).sum ≤ 0)
  have hu : ∀ u ∈ x, (a.1 - b.1) * u ^ 2 + (a.2.1 - b.2.1) * u + (a.2.2 - b.2.2) = 0 := by
    intro u hu
    obtain ⟨i, hi, rfl⟩ := List.mem_iff_getElem.1 hu
    have := hz (((a.1 - b.1) * x[i] ^ 2 + (a.2.1 - b.2.1) * x[i] + (a.2.2 - b.2.2)) ^ 2 / 2) (by
      rw [List.mem_iff_getElem]
      exact ⟨i, by rw [List.length_zipWith]; omega, by rw [List.getElem_zipWith]⟩)
    have : ((a.1 - b.1) * x[i] ^ 2 + (a.2.1 - b.2.1) * x[i] + (a.2.2 - b.2.2)) ^ 2 = 0 := by linarith
    exact (pow_eq_zero_iff two_ne_zero).1 this
  obtain ⟨u, hu1, v, hv1, w, hw1, n1, n2, n3⟩ := h3
  obtain ⟨q1, q2, q3⟩ := Feature.quad_unique _ _ _ u v w n1 n2 n3 (hu u hu1) (hu v hv1) (hu w hw1)
  exact Prod.ext (by linarith) (Prod.ext (by linarith) (by linarith))

theorem sse_scale (x y : List ℝ) (c κ : ℝ) (b : ℝ × ℝ × ℝ) :
    Feature.sse (x.map (fun u => c * u)) (y.map (fun v => v + κ)) b = Feature.sse x y (b.1 * c ^ 2, b.2.1 * c, b.2.2 - κ) := by
  unfold Feature.sse
  rw [List.zipWith_map]
  congr 2
  funext u v
  ring

theorem three_scale (x : List ℝ) (c : ℝ) (hc : 0 < c) (h : Feature.Spec.ThreePoints x) : Feature.Spec.ThreePoints (x.map (fun u => c * u)) := by
  obtain ⟨u, hu, v, hv, w, hw, h1, h2, h3⟩ := h
  refine ⟨c * u, List.mem_map_of_mem hu, c * v, List.mem_map_of_mem hv, c * w, List.mem_map_of_mem hw, ?_, ?_, ?_⟩
  · exact fun e => h1 (mul_left_cancel₀ hc.ne' e)
  · exact fun e => h2 (mul_left_cancel₀ hc.ne' e)
  · exact fun e => h3 (mul_left_cancel₀ hc.ne' e)

theorem lstsq_scale (lstsq : List ℝ → List ℝ → ℝ × ℝ × ℝ) (hl : Feature.IsLstsq lstsq) (x y : List ℝ) (hxy : x.length = y.length)
    (h3 : Feature.Spec.ThreePoints x) (c κ : ℝ) (hc : 0 < c) :
    lstsq (x.map (fun u => c * u)) (y.map (fun v => v + κ)) = ((lstsq x y).1 / c ^ 2, (lstsq x y).2.1 / c, (lstsq x y).2.2 + κ) := by
  apply lstsq_unique (x.map (fun u => c * u)) (y.map (fun v => v + κ)) (by simpa using hxy) (three_scale x c hc h3)
  · exact hl _ _
  · intro b
    rw [sse_scale, sse_scale]
    have : ((lstsq x y).1 / c ^ 2 * c ^ 2, (lstsq x y).2.1 / c * c, (lstsq x y).2.2 + κ - κ) = lstsq x y := by
      refine Prod.ext ?_ (Prod.ext ?_ ?_)
      · simp only; field_simp
      · simp only; field_simp
      · simp only; ring
    rw [this]
    exact hl x y _

/-- The refined centre scales with the abscissa and does not depend on the unit of the ordinate. -/
theorem refine_scale (lstsq : List ℝ → List ℝ → ℝ × ℝ × ℝ) (hl : Feature.IsLstsq lstsq) (x y : List ℝ) (hxy : x.length = y.length)
    (h3 : Feature.Spec.ThreePoints x) (hy : ∀ v ∈ y, 0 < v) (c k : ℝ) (hc : 0 < c) (hk : 0 < k) (q q' : ℝ × ℝ)
    (h : Feature.refineLogQuadratic lstsq none x y = .ok (some q))
    (h' : Feature.refineLogQuadratic lstsq none (x.map (fun u => c * u)) (y.map (fun v => k * v)) = .ok (some q')) :
    q'.1 = c * q.1 := by
  have hlen := Feature.three_length x h3
  have hlog : (y.map (fun v => k * v)).map Real.log = (y.map Real.log).map (fun v => v + Real.log k) := by
    rw [List.map_map, List.map_map]
    apply List.map_congr_left
    intro v hv
    simp only [Function.comp]
    rw [Real.log_mul hk.ne' (hy v hv).ne']
    ring
  unfold Feature.refineLogQuadratic Feature.fitQuadToPeak at h h'
  rw [if_neg (by omega)] at h
  rw [if_neg (by rw [List.length_map]; omega), hlog, lstsq_scale lstsq hl x (y.map Real.log) (by simpa using hxy) h3 c _ hc] at h'
  simp only [Except.ok.injEq, Option.some.injEq] at h h'
  rw [← h, ← h']
  simp only
  by_cases h0 : (lstsq x (y.map Real.log)).1 = 0
  · rw [h0]; simp
  · field_simp

theorem isPeak_scale (y : List ℝ) (thresh k : ℝ) (hk : 0 < k) (w i : ℕ) (h : Spec.IsPeak y thresh w i) :
    Spec.IsPeak (y.map (fun v => k * v)) thresh w i := by
  obtain ⟨v, hv, h0, h1, h2, m, hm, hm2, i', j', a, b, i1, i2, i3, j1, j2, j3, hab⟩ := h
  refine ⟨k * v, by simp [hv], h0, by simpa using h1, ?_, k * m, List.mem_map_of_mem hm, ?_, i', j', k * a, k * b, i1, i2, by simp [i3],
    j1, j2, by simp [j3], ?_⟩
  · intro j u hj a1 a2 hu
    rw [List.getElem?_map] at hu
    cases hy : y[j]? with
    | none => rw [hy] at hu; simp at hu
    | some u0 =>
      rw [hy] at hu
      simp only [Option.map_some, Option.some.injEq] at hu
      rw [← hu]
      exact mul_lt_mul_of_pos_left (h2 j u0 hj a1 a2 hy) hk
  · intro u hu
    obtain ⟨u0, hu0, rfl⟩ := List.mem_map.1 hu
    exact mul_le_mul_of_nonneg_left (hm2 u0 hu0) hk.le
  · have := mul_lt_mul_of_pos_left hab hk
    calc thresh * (k * m) = k * (thresh * m) := by ring
      _ < k * (a - b) := this
      _ = k * a - k * b := by ring

theorem peaks_scale (y : List ℝ) (thresh k : ℝ) (hk : 0 < k) (w : ℕ) (hw : 1 ≤ w) (hy : y ≠ []) :
    peaks (y.map (fun v => k * v)) thresh w = peaks y thresh w := by
  obtain ⟨c, h1, h2, h3⟩ := C186_peaks y thresh w hw hy
  obtain ⟨c', h1', h2', h3'⟩ := C186_peaks (y.map (fun v => k * v)) thresh w hw (by simpa using hy)
  have hcc : c' = c := by
    have hback : ∀ i, Spec.IsPeak (y.map (fun v => k * v)) thresh w i → Spec.IsPeak y thresh w i := by
      intro i hi
      have := isPeak_scale _ thresh k⁻¹ (by positivity) w i hi
      rw [List.map_map] at this
      have e : y.map ((fun v => k⁻¹ * v) ∘ fun v => k * v) = y := by
        conv_rhs => rw [← List.map_id y]
        apply List.map_congr_left
        intro v _
        simp only [Function.comp, id]
        field_simp
      rwa [e] at this
    have hperm : c'.Perm c := (List.perm_ext_iff_of_nodup (h2'.imp (fun h => Nat.ne_of_lt h)) (h2.imp (fun h => Nat.ne_of_lt h))).2
      (fun i => by rw [h3', h3]; exact ⟨hback i, isPeak_scale y thresh k hk w i⟩)
    exact hperm.eq_of_pairwise (fun a b _ _ h h' => absurd h (by omega)) h2' h2
  rw [h1, h1', hcc]

theorem estimateFromPeaks_scale (pk tt : List ℝ) (c : ℝ) (hc : 0 < c) (m : ℕ) :
    estimateFromPeaks (pk.map (fun p => c * p)) tt m = (c * (estimateFromPeaks pk tt m).1, c * (estimateFromPeaks pk tt m).2) := by
  unfold estimateFromPeaks
  simp only [List.length_map, ← List.map_take]
  set n := min (min tt.length pk.length) m
  set d := List.zipWith (fun p t => p / Real.tan t) (pk.take n) (tt.take n) with hd
  have e : List.zipWith (fun p t => p / Real.tan t) ((pk.take n).map (fun p => c * p)) (tt.take n) = d.map (fun v => c * v) := by
    rw [hd, List.zipWith_map_left, List.map_zipWith]
    congr 1
    funext p t
    ring
  rw [e, List.length_map, List.sum_map_mul_left, List.map_id']
  have e1 : c * d.sum / d.length = c * (d.sum / d.length) := by ring
  rw [e1]
  refine Prod.ext rfl ?_
  simp only
  have e2 : ((d.map (fun v => c * v)).map (fun v => (v - c * (d.sum / d.length)) ^ 2)).sum / d.length =
      c ^ 2 * ((d.map (fun v => (v - d.sum / d.length) ^ 2)).sum / d.length) := by
    rw [List.map_map, ← mul_div_assoc (c ^ 2), ← List.sum_map_mul_left]
    congr 2
    apply List.map_congr_left
    intro v _
    simp only [Function.comp]
    ring
  rw [e2, Real.sqrt_mul (by positivity), Real.sqrt_sq hc.le]

theorem windowSlice_map (x : List ℝ) (f : ℝ → ℝ) (p w : ℕ) : Feature.windowSlice (x.map f) p w = (Feature.windowSlice x p w).map f := by
  unfold Feature.windowSlice
  rw [List.length_map, List.map_drop, List.map_take]

theorem windowSlice_length (x y : List ℝ) (h : x.length = y.length) (p w : ℕ) : (Feature.windowSlice x p w).length = (Feature.windowSlice y p w).length := by
  unfold Feature.windowSlice
  simp [h]

/-- C186: the unit of the intensities does not matter, and distances come out in the unit of the radii (positive
intensities; errors included). -/
theorem C186_units (lstsq : List ℝ → List ℝ → ℝ × ℝ × ℝ) (hl : Feature.IsLstsq lstsq) (standards : String → Option (List Consts.Reflection))
    (name : String) (wavelength : ℝ) (x ring : List ℝ) (hx : x.Pairwise (· < ·)) (hlen : x.length = ring.length) (hpos : ∀ v ∈ ring, 0 < v)
    (w maxPeaks : ℕ) (thresh c k : ℝ) (hc : 0 < c) (hk : 0 < k) :
    estimateDBlind lstsq standards name wavelength (x.map (fun u => c * u)) (ring.map (fun v => k * v)) w maxPeaks thresh =
      (estimateDBlind lstsq standards name wavelength x ring w maxPeaks thresh).map (fun r => (c * r.1, c * r.2)) := by
  cases hcal : standards name with
  | none =>
    unfold estimateDBlind
    rw [hcal]; rfl
  | some cal =>
    by_cases hw : w = 0
    · rw [(C186_errors _ _ _ _ _ _ _ _ _).2 ⟨cal, hcal⟩ (Or.inl hw), (C186_errors _ _ _ _ _ _ _ _ _).2 ⟨cal, hcal⟩ (Or.inl hw)]; rfl
    by_cases hr : ring = []
    · rw [(C186_errors _ _ _ _ _ _ _ _ _).2 ⟨cal, hcal⟩ (Or.inr (Or.inl (by simpa using hr))),
        (C186_errors _ _ _ _ _ _ _ _ _).2 ⟨cal, hcal⟩ (Or.inr (Or.inl hr))]; rfl
    obtain ⟨ps, h1, _, h3⟩ := C186_peaks ring thresh w (by omega) hr
    obtain ⟨ps', h1', _, h3'⟩ := C186_peaks (ring.map (fun v => k * v)) thresh w (by omega) (by simpa using hr)
    have hps : ps' = ps := by
      have := peaks_scale ring thresh k hk w (by omega) hr
      rw [h1, h1'] at this
      exact Except.ok.inj this
    subst hps
    by_cases hne : ps' = []
    · rw [(C186_errors _ _ _ _ _ _ _ _ _).2 ⟨cal, hcal⟩ (Or.inr (Or.inr (fun i hi => by simpa [hne] using (h3' i).2 hi))),
        (C186_errors _ _ _ _ _ _ _ _ _).2 ⟨cal, hcal⟩ (Or.inr (Or.inr (fun i hi => by simpa [hne] using (h3 i).2 hi)))]; rfl
    obtain ⟨g, hg, e⟩ := estimate_eq lstsq standards name cal hcal wavelength x ring hx hlen w maxPeaks (by omega) thresh ps' h1 h3 hne
    obtain ⟨g', hg', e'⟩ := estimate_eq lstsq standards name cal hcal wavelength (x.map (fun u => c * u)) (ring.map (fun v => k * v))
      (by rw [List.pairwise_map]; exact hx.imp (fun h => mul_lt_mul_of_pos_left h hc)) (by simpa using hlen) w maxPeaks (by omega) thresh ps' h1' h3' hne
    rw [e, e']
    have hgg : ps'.map (fun p => (g' p).1) = (ps'.map (fun p => (g p).1)).map (fun p => c * p) := by
      rw [List.map_map]
      apply List.map_congr_left
      intro p hp
      obtain ⟨v, hv, v0, v1, _⟩ := (h3 p).1 hp
      have h2 := hg' p hp
      rw [windowSlice_map, windowSlice_map] at h2
      exact refine_scale lstsq hl _ _ (windowSlice_length x ring hlen p w) (windowSlice_x x hx w p (by omega) v0 (by omega))
        (fun v hv => by
          obtain ⟨i, _, _, hi⟩ := (Feature.mem_window ring p w v).1 hv
          exact hpos v (List.mem_of_getElem? hi)) c k hc hk _ _ (hg p hp) h2
    rw [hgg, estimateFromPeaks_scale _ _ c hc]
    rfl

/-! ### a concrete case: one ring at 45 degrees, three samples -/

/-- A standard with one reflection, of spacing 1. -/
noncomputable def demoStd : List Consts.Reflection := [⟨1, (1, 0, 0), 2 * Real.pi⟩]

/-- A Gaussian ring of radius 5. -/
noncomputable def demoRing : List ℝ := [4, 5, 6].map (fun u => 1 * Real.exp (-(u - 5 * Real.tan (2 * (Real.pi / 8))) ^ 2 / (2 * 1 ^ 2)))

theorem demo_peak (i : ℕ) : i ∈ [1] ↔ Spec.IsPeak demoRing (1 / 10) 1 i := by
  have ht : Real.tan (2 * (Real.pi / 8)) = 1 := by
    rw [show 2 * (Real.pi / 8) = Real.pi / 4 by ring, Real.tan_pi_div_four]
  have hy : demoRing = [Real.exp (-1 / 2), 1, Real.exp (-1 / 2)] := by
    unfold demoRing
    rw [ht]
    norm_num
  have he : Real.exp (-1 / 2) < 9 / 10 := by
    have h1 : Real.exp (-1 / 2) * Real.exp (1 / 2) = 1 := by rw [← Real.exp_add]; norm_num
    have h2 : (1 : ℝ) / 2 + 1 ≤ Real.exp (1 / 2) := Real.add_one_le_exp _
    have h3 := Real.exp_pos (-1 / 2 : ℝ)
    nlinarith
  rw [hy]
  constructor
  · intro h
    have : i = 1 := by simpa using h
    subst this
    refine ⟨1, rfl, by omega, by simp, ?_, 1, by simp, ?_, 1, 0, 1, Real.exp (-1 / 2), by omega, by omega, rfl, by omega, by omega, rfl, by linarith⟩
    · intro j u hj _ _ hu
      match j with
      | 0 => simp at hu; rw [← hu]; linarith
      | 1 => exact absurd rfl hj
      | 2 => simp at hu; rw [← hu]; linarith
      | j + 3 => simp at hu
    · intro u hu
      simp only [List.mem_cons, List.not_mem_nil, or_false] at hu
      rcases hu with rfl | rfl | rfl <;> linarith
  · rintro ⟨v, hv, h0, h1, _⟩
    simp at h1
    simp
    omega

example : ∃ lstsq, Feature.IsLstsq lstsq ∧
    estimateDBlind lstsq (fun s => if s = "X" then some demoStd else none) "X" (2 * 1 * Real.sin (Real.pi / 8)) [4, 5, 6] demoRing 1 6 (1 / 10) = .ok (5, 0) := by
  obtain ⟨lstsq, hl⟩ := Feature.lstsq_exists
  refine ⟨lstsq, hl, ?_⟩
  have hpi := Real.pi_pos
  apply C186_exact lstsq hl _ "X" demoStd (by simp) (by simp [demoStd]) (by simp [demoStd]) _ 5 _ _ (by norm_num) (by simp [demoRing]) 1 6 le_rfl (by omega) _
    [1] (by simp) demo_peak (by simp)
  intro k p r _ hp hr
  cases k with
  | succ k => simp at hp
  | zero =>
    simp only [demoStd, List.getElem?_cons_zero, Option.some.injEq] at hp hr
    subst hp hr
    refine ⟨Real.pi / 8, 1, 1, by positivity, by linarith, rfl, one_pos, one_pos, ?_⟩
    intro j u _ _ hu
    unfold demoRing
    rw [List.getElem?_map, hu]
    rfl

end Verif.Calib
