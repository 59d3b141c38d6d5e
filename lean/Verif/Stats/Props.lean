/- Property C151: statistics_1D. -/
import Verif.Stats.Model
import Verif.Binned.CtorProps
import Mathlib.Algebra.Order.BigOperators.Group.List

namespace Verif.Stats
open Verif

/-! ## Specification -/

/-- The limits: as given, or the extremes of the coordinates. -/
def Spec.Low (x : List ℚ) (mn : Option ℚ) (lo : ℚ) : Prop :=
  match mn with
  | some a => lo = a
  | none => lo ∈ x ∧ ∀ v ∈ x, lo ≤ v

/-- see `Spec.Low`. -/
def Spec.High (x : List ℚ) (mx : Option ℚ) (hi : ℚ) : Prop :=
  match mx with
  | some b => hi = b
  | none => hi ∈ x ∧ ∀ v ∈ x, v ≤ hi

/-- The values of the samples of bin i of n equal bins over [lo, hi]: half-open, the last one closed. -/
def Spec.valuesIn (x y : List ℚ) (lo hi : ℚ) (n i : ℕ) : List ℚ :=
  ((x.zip y).filter (fun p => decide (lo + i * ((hi - lo) / n) ≤ p.1 ∧
    (p.1 < lo + (i + 1) * ((hi - lo) / n) ∨ (p.1 = hi ∧ i + 1 = n))))).map Prod.snd

theorem low_eq (x : List ℚ) (mn : Option ℚ) (lo : ℚ) (h : Spec.Low x mn lo) :
    limit mn x.min? = .ok lo := by
  cases mn with
  | some a => simp only [Spec.Low] at h; rw [h]; rfl
  | none =>
    simp only [Spec.Low] at h
    rw [List.min?_eq_some_iff.2 h]; rfl

theorem high_eq (x : List ℚ) (mx : Option ℚ) (hi : ℚ) (h : Spec.High x mx hi) :
    limit mx x.max? = .ok hi := by
  cases mx with
  | some a => simp only [Spec.High] at h; rw [h]; rfl
  | none =>
    simp only [Spec.High] at h
    rw [List.max?_eq_some_iff.2 h]; rfl

theorem run_eq {β : Type} (x y : List ℚ) (stat : List ℚ → β) (nx : Option ℤ) (mn mx : Option ℚ) (lo hi : ℚ) (n : ℤ)
    (hn : n = nx.getD 100) (hlo : Spec.Low x mn lo) (hhi : Spec.High x mx hi) :
    statistics1D x y stat nx mn mx = if n + 1 < 0 then .error .valueError else
      match binnedStatistic x y stat (Np.linspace lo hi (n + 1).toNat) with
      | .ok v => .ok (Np.linspace lo hi (n + 1).toNat, v)
      | .error e => .error e := by
  unfold statistics1D
  simp only
  rw [low_eq x mn lo hlo, high_eq x mx hi hhi]
  simp only [bind, Except.bind, defaultBins, ← hn]
  split
  · rfl
  · cases binnedStatistic x y stat (Np.linspace lo hi (n + 1).toNat) <;> rfl

theorem binNo_iff (e : List ℚ) (he : Binned.Spec.Edges e) (x : ℚ) (last : ℚ) (hl : e.getLast? = some last)
    (hx : x ≤ last ∨ last + Binned.minWidth e / 10 ^ 5 < x) (i : ℕ) (hi : i + 1 < e.length) :
    binNo e x = i + 1 ↔ Binned.Spec.inBin e i x := by
  have hw := (Binned.minWidth_spec e he).1
  by_cases hlt : x < last
  · have e1 : binNo e x = Np.digitize e x := by
      unfold binNo; simp only [hl, Option.getD_some]; rw [if_neg (fun h => by linarith [h.1])]
    rw [e1]
    obtain ⟨a, ha⟩ : ∃ a, e[i]? = some a := ⟨_, List.getElem?_eq_getElem (by omega)⟩
    obtain ⟨b, hb⟩ : ∃ b, e[i + 1]? = some b := ⟨_, List.getElem?_eq_getElem hi⟩
    have hs : e.Pairwise (· ≤ ·) := he.2.imp le_of_lt
    have h1 := Np.getElem?_le_iff_digitize e hs x i a ha
    have h2 := Np.getElem?_le_iff_digitize e hs x (i + 1) b hb
    unfold Binned.Spec.inBin
    simp only [ha, hb]
    constructor
    · intro h
      exact ⟨h1.2 (by omega), Or.inl (by by_contra hc; have := h2.1 (not_lt.1 hc); omega)⟩
    · rintro ⟨h3, h4⟩
      have h5 := h1.1 h3
      have h6 : x < b := by
        rcases h4 with h4 | ⟨h4, h4'⟩
        · exact h4
        · exfalso
          rw [Binned.getLast?_eq_get, show e.length - 1 = i + 1 by omega, hb] at hl
          injection hl with hl
          linarith
      have h7 : ¬ (i + 1 < Np.digitize e x) := fun hc => by have := h2.2 hc; linarith
      omega
  · have hclear : Binned.Spec.Clear e x := by
      intro l hl'
      rw [hl] at hl'; injection hl' with hl'; subst hl'
      rcases hx with h | h
      · left; exact le_antisymm h (not_lt.1 hlt)
      · right; rw [abs_of_pos (by have : 0 < Binned.minWidth e / 10 ^ 5 := by positivity
                                  linarith)]; linarith
    have e1 : binNo e x = Binned.binNo e x := by
      unfold binNo Binned.binNo
      simp only [hl, Option.getD_some]
      have h1 : last ≤ x := not_lt.1 hlt
      simp only [h1, true_and]
    rw [e1, Binned.binNo_iff e he x hclear i hi]

theorem minWidth_linspace (lo hi : ℚ) (n : ℕ) (hn : 1 ≤ n) (h : lo < hi) :
    Binned.minWidth (Np.linspace lo hi (n + 1)) = (hi - lo) / n := by
  have he := Binned.linspace_edges lo hi n hn h
  have hg : ∀ k ≤ n, (Np.linspace lo hi (n + 1))[k]? = some (lo + k * ((hi - lo) / n)) := by
    intro k hk; rw [Binned.linspace_get _ _ _ _ (by omega)]; simp
  unfold Binned.minWidth
  have hall : ∀ d ∈ Np.diff (Np.linspace lo hi (n + 1)), d = (hi - lo) / n := by
    intro d hd
    obtain ⟨k, a, b, h1, h2, h3⟩ := Binned.mem_diff _ _ hd
    have hk : k + 1 < n + 1 := by
      have := (List.getElem?_eq_some_iff.1 h2).1
      rwa [Binned.length_linspace] at this
    rw [hg k (by omega)] at h1
    rw [hg (k + 1) (by omega)] at h2
    injection h1 with h1; injection h2 with h2
    rw [h3, ← h1, ← h2]; push_cast; ring
  have hl := Np.length_diff (Np.linspace lo hi (n + 1))
  rw [Binned.length_linspace] at hl
  cases hm : (Np.diff (Np.linspace lo hi (n + 1))).min? with
  | none => rw [List.min?_eq_none_iff] at hm; rw [hm] at hl; simp at hl; omega
  | some m => simp only [Option.getD_some]; exact hall m (List.min?_mem hm)

/-- C151: the edges are equally spaced from the lower to the upper limit and every value is the statistic of exactly the
samples of its bin, in their order.  With the default upper limit nothing more is needed; with a given one, samples must
not lie above it by less than 10⁻⁵ bin widths (`C151_above_limit_refuted`). -/
theorem C151_bins_partial {β : Type} (x y : List ℚ) (hlen : x.length = y.length) (stat : List ℚ → β) (nx : Option ℤ) (mn mx : Option ℚ)
    (lo hi : ℚ) (n : ℕ) (hn : (n : ℤ) = nx.getD 100) (hpos : 1 ≤ n) (hlo : Spec.Low x mn lo) (hhi : Spec.High x mx hi) (hlt : lo < hi)
    (hclear : ∀ v ∈ x, v ≤ hi ∨ hi + (hi - lo) / n / 10 ^ 5 < v) :
    ∃ edges vals, statistics1D x y stat nx mn mx = .ok (edges, vals) ∧
      edges.length = n + 1 ∧ (∀ k ≤ n, edges[k]? = some (lo + k * ((hi - lo) / n))) ∧
      vals.length = n ∧ ∀ i < n, vals[i]? = some (stat (Spec.valuesIn x y lo hi n i)) := by
  have he := Binned.linspace_edges lo hi n hpos hlt
  have hmw := minWidth_linspace lo hi n hpos hlt
  have hg : ∀ k ≤ n, (Np.linspace lo hi (n + 1))[k]? = some (lo + k * ((hi - lo) / n)) := by
    intro k hk; rw [Binned.linspace_get _ _ _ _ (by omega)]; simp
  have hnq : (n : ℚ) ≠ 0 := by positivity
  have hlast : (Np.linspace lo hi (n + 1)).getLast? = some hi := by
    rw [Binned.getLast?_eq_get, Binned.length_linspace, Nat.add_sub_cancel, hg n le_rfl]
    congr 1; field_simp; ring
  refine ⟨Np.linspace lo hi (n + 1), (List.range n).map (fun i => stat (Spec.valuesIn x y lo hi n i)), ?_, Binned.length_linspace _ _ _, hg,
    by simp, by intro i hi; simp [hi]⟩
  rw [run_eq x y stat nx mn mx lo hi n hn hlo hhi, if_neg (by omega), show ((n : ℤ) + 1).toNat = n + 1 by omega]
  have hbs : binnedStatistic x y stat (Np.linspace lo hi (n + 1)) = .ok ((List.range n).map (fun i => stat (Spec.valuesIn x y lo hi n i))) := by
    unfold binnedStatistic
    rw [if_neg (by simp [hlen]), if_neg (by rw [hmw, not_le]; exact div_pos (by linarith) (by positivity)), Binned.length_linspace, Nat.add_sub_cancel]
    congr 1
    apply List.map_congr_left
    intro i hi'
    rw [List.mem_range] at hi'
    congr 2
    apply List.filter_congr
    intro p hp
    have hpx : p.1 ∈ x := (List.of_mem_zip hp).1
    have := binNo_iff _ he p.1 hi hlast (by rw [hmw]; exact hclear _ hpx) i (by rw [Binned.length_linspace]; omega)
    rw [decide_eq_decide, this]
    unfold Binned.Spec.inBin
    rw [hg i (by omega), hg (i + 1) (by omega), Binned.length_linspace]
    simp only
    constructor
    · rintro ⟨h1, h2⟩
      refine ⟨h1, ?_⟩
      rcases h2 with h2 | ⟨h2, h3⟩
      · left; push_cast at h2; exact h2
      · right
        have : i + 1 = n := by omega
        refine ⟨?_, this⟩
        rw [h2, this]; field_simp; ring
    · rintro ⟨h1, h2⟩
      refine ⟨h1, ?_⟩
      rcases h2 with h2 | ⟨h2, h3⟩
      · left; push_cast; exact h2
      · right
        refine ⟨?_, by omega⟩
        rw [h2, h3]; field_simp; ring
  rw [hbs]

/-- ... and with the default limits every sample is used exactly once: the numbers of samples of the bins add up. -/
theorem C151_all_used (x y : List ℚ) (hlen : x.length = y.length) (nx : Option ℤ) (n : ℕ) (hn : (n : ℤ) = nx.getD 100) (hpos : 1 ≤ n)
    (hne : ∃ a ∈ x, ∃ b ∈ x, a ≠ b) :
    ∃ edges vals, statistics1D x y List.length nx none none = .ok (edges, vals) ∧ vals.sum = x.length := by
  obtain ⟨a, ha, b, hb, hab⟩ := hne
  obtain ⟨lo, hlo⟩ : ∃ lo, x.min? = some lo := by
    cases h : x.min? with
    | none => rw [List.min?_eq_none_iff] at h; simp [h] at ha
    | some m => exact ⟨m, rfl⟩
  obtain ⟨hi, hhi⟩ : ∃ hi, x.max? = some hi := by
    cases h : x.max? with
    | none => rw [List.max?_eq_none_iff] at h; simp [h] at ha
    | some m => exact ⟨m, rfl⟩
  have h1 := List.min?_eq_some_iff.1 hlo
  have h2 := List.max?_eq_some_iff.1 hhi
  have hlt : lo < hi := by
    rcases lt_or_gt_of_ne hab with h | h
    · linarith [h1.2 a ha, h2.2 b hb]
    · linarith [h1.2 b hb, h2.2 a ha]
  obtain ⟨edges, vals, h3, _, _, h4, h5⟩ := C151_bins_partial x y hlen List.length nx none none lo hi n hn hpos h1 h2 hlt
    (fun v hv => Or.inl (h2.2 v hv))
  refine ⟨edges, vals, h3, ?_⟩
  have hv : vals = (List.range n).map (fun i => (Spec.valuesIn x y lo hi n i).length) := by
    apply List.ext_getElem?
    intro i
    by_cases hi' : i < n
    · rw [h5 i hi']; simp [hi']
    · rw [List.getElem?_eq_none (by omega), List.getElem?_eq_none (by simp; omega)]
  rw [hv]
  -- the bin of one coordinate
  have hnq : (0 : ℚ) < n := by exact_mod_cast hpos
  have hw : 0 < (hi - lo) / n := div_pos (by linarith) hnq
  have hone : ∀ v ∈ x, ((List.range n).map (fun (i : ℕ) => if decide (lo + i * ((hi - lo) / n) ≤ v ∧
      (v < lo + (i + 1) * ((hi - lo) / n) ∨ (v = hi ∧ i + 1 = n))) = true then 1 else 0)).sum = 1 := by
    intro v hv
    obtain ⟨j, hj, hjv⟩ : ∃ j < n, lo + j * ((hi - lo) / n) ≤ v ∧ (v < lo + (j + 1) * ((hi - lo) / n) ∨ (v = hi ∧ j + 1 = n)) := by
      by_cases hvh : v = hi
      · refine ⟨n - 1, by omega, ?_, Or.inr ⟨hvh, by omega⟩⟩
        rw [hvh, Nat.cast_sub hpos]; push_cast
        have : (n : ℚ) * ((hi - lo) / n) = hi - lo := by field_simp
        nlinarith
      · have hvlt : v < hi := lt_of_le_of_ne (h2.2 v hv) hvh
        have hq0 : 0 ≤ (v - lo) / ((hi - lo) / n) := div_nonneg (by linarith [h1.2 v hv]) hw.le
        have hf := Int.floor_le ((v - lo) / ((hi - lo) / n))
        have hf2 := Int.lt_floor_add_one ((v - lo) / ((hi - lo) / n))
        have hf0 : 0 ≤ ⌊(v - lo) / ((hi - lo) / n)⌋ := Int.floor_nonneg.2 hq0
        obtain ⟨j, hj⟩ := Int.eq_ofNat_of_zero_le hf0
        rw [hj] at hf hf2
        push_cast at hf hf2
        rw [le_div_iff₀ hw] at hf
        rw [div_lt_iff₀ hw] at hf2
        refine ⟨j, ?_, by linarith, Or.inl (by linarith)⟩
        have : (j : ℚ) * ((hi - lo) / n) < n * ((hi - lo) / n) := by
          have : (n : ℚ) * ((hi - lo) / n) = hi - lo := by field_simp
          linarith
        have := lt_of_mul_lt_mul_right this hw.le
        exact_mod_cast this
    have huniq : ∀ i < n, (lo + (i : ℚ) * ((hi - lo) / n) ≤ v ∧ (v < lo + (i + 1) * ((hi - lo) / n) ∨ (v = hi ∧ i + 1 = n))) ↔ i = j := by
      intro i hi'
      constructor
      · rintro ⟨a1, a2⟩
        obtain ⟨b1, b2⟩ := hjv
        have mono : ∀ p q : ℕ, p < q → q < n → lo + (q : ℚ) * ((hi - lo) / n) ≤ v → (v < lo + (p + 1) * ((hi - lo) / n) ∨ (v = hi ∧ p + 1 = n)) → False := by
          intro p q hpq hqn c1 c2
          rcases c2 with c2 | ⟨_, c2⟩
          · have : (p : ℚ) + 1 ≤ q := by exact_mod_cast hpq
            have := mul_le_mul_of_nonneg_right this hw.le
            linarith
          · omega
        rcases lt_trichotomy i j with h | h | h
        · exact absurd (mono i j h hj b1 a2) id
        · exact h
        · exact absurd (mono j i h hi' a1 b2) id
      · rintro rfl; exact hjv
    have : (List.range n).map (fun (i : ℕ) => if decide (lo + i * ((hi - lo) / n) ≤ v ∧
      (v < lo + (i + 1) * ((hi - lo) / n) ∨ (v = hi ∧ i + 1 = n))) = true then 1 else 0) = (List.range n).map (fun i => if i = j then 1 else 0) := by
      apply List.map_congr_left
      intro i hi'
      rw [List.mem_range] at hi'
      simp only [decide_eq_true_eq]
      rw [if_congr (huniq i hi') rfl rfl]
    rw [this, show ((List.range n).map (fun i => if i = j then 1 else 0)).sum = ∑ i ∈ Finset.range n, (if i = j then 1 else 0) from rfl,
      Finset.sum_ite_eq', if_pos (Finset.mem_range.2 hj)]
  have hcount : ∀ l : List (ℚ × ℚ), (∀ p ∈ l, p.1 ∈ x) → ((List.range n).map (fun (i : ℕ) => ((l.filter (fun p => decide (lo + i * ((hi - lo) / n) ≤ p.1 ∧
      (p.1 < lo + (i + 1) * ((hi - lo) / n) ∨ (p.1 = hi ∧ i + 1 = n))))).map Prod.snd).length)).sum = l.length := by
    intro l
    induction l with
    | nil => intro _; simp
    | cons p t ih =>
      intro hl
      have e : ∀ i : ℕ, (((p :: t).filter (fun p => decide (lo + i * ((hi - lo) / n) ≤ p.1 ∧
        (p.1 < lo + (i + 1) * ((hi - lo) / n) ∨ (p.1 = hi ∧ i + 1 = n))))).map Prod.snd).length =
        (if decide (lo + i * ((hi - lo) / n) ≤ p.1 ∧ (p.1 < lo + (i + 1) * ((hi - lo) / n) ∨ (p.1 = hi ∧ i + 1 = n))) = true then 1 else 0) +
        ((t.filter (fun p => decide (lo + i * ((hi - lo) / n) ≤ p.1 ∧
        (p.1 < lo + (i + 1) * ((hi - lo) / n) ∨ (p.1 = hi ∧ i + 1 = n))))).map Prod.snd).length := by
        intro i
        rw [List.filter_cons]
        split <;> simp <;> omega
      simp only [e, List.sum_map_add]
      rw [hone p.1 (hl p (by simp)), ih (fun q hq => hl q (by simp [hq])), List.length_cons]; omega
  have := hcount (x.zip y) (fun p hp => (List.of_mem_zip hp).1)
  rw [List.length_zip, ← hlen, min_self] at this
  exact this

/-- C151, impossible requests raise: no samples without limits, no bins, an empty range (such as constant coordinates with
the default limits), arrays of different lengths. -/
theorem C151_errors {β : Type} (x y : List ℚ) (stat : List ℚ → β) (nx : Option ℤ) (mn mx : Option ℚ) :
    (mn = none → statistics1D [] y stat nx mn mx = .error .valueError) ∧
    (∀ lo hi, Spec.Low x mn lo → Spec.High x mx hi → x.length = y.length → (nx.getD 100 ≤ 0 ∨ hi ≤ lo) →
      statistics1D x y stat nx mn mx = .error .valueError) ∧
    (∀ lo hi, Spec.Low x mn lo → Spec.High x mx hi → x.length ≠ y.length → 0 ≤ nx.getD 100 →
      statistics1D x y stat nx mn mx = .error .attributeError) := by
  refine ⟨?_, ?_, ?_⟩
  · rintro rfl; rfl
  · intro lo hi h1 h2 hl hbad
    rw [run_eq x y stat nx mn mx lo hi _ rfl h1 h2]
    split
    · rfl
    · next h =>
      have hmw : Binned.minWidth (Np.linspace lo hi (nx.getD 100 + 1).toNat) ≤ 0 := by
        unfold Binned.minWidth
        cases hm : (Np.diff (Np.linspace lo hi (nx.getD 100 + 1).toNat)).min? with
        | none => simp
        | some m =>
          simp only [Option.getD_some]
          obtain ⟨k, a, b, g1, g2, g3⟩ := Binned.mem_diff _ _ (List.min?_mem hm)
          have hk : k + 1 < (nx.getD 100 + 1).toNat := by
            have := (List.getElem?_eq_some_iff.1 g2).1
            rwa [Binned.length_linspace] at this
          rw [Binned.linspace_get _ _ _ _ (by omega)] at g1 g2
          injection g1 with g1; injection g2 with g2
          have hle : hi ≤ lo := by
            rcases hbad with h | h
            · omega
            · exact h
          rw [g3, ← g1, ← g2]
          push_cast
          have : (hi - lo) / (((nx.getD 100 + 1).toNat - 1 : ℕ) : ℚ) ≤ 0 := div_nonpos_of_nonpos_of_nonneg (by linarith) (by positivity)
          linarith
      unfold binnedStatistic
      rw [if_neg (by simp [hl]), if_pos hmw]
  · intro lo hi h1 h2 hl hn
    rw [run_eq x y stat nx mn mx lo hi _ rfl h1 h2, if_neg (by omega)]
    unfold binnedStatistic
    rw [if_pos hl]

/-- C151 is false for samples just above a given upper limit: they are counted in the last bin. -/
theorem C151_above_limit_refuted :
    statistics1D [0, 1/2, 1 + 1/10^8] [3, 4, 5] List.sum (some 2) (some 0) (some 1) = .ok ([0, 1/2, 1], [3, 9]) := by
  decide +kernel

example : statistics1D [0, 1/4, 3, 4] [1, 2, 3, 4] List.sum (some 2) none none = .ok ([0, 2, 4], [3, 7]) := by decide +kernel
example : Spec.Low [0, 1/4, 3, 4] none 0 ∧ Spec.High [0, 1/4, 3, 4] none 4 := by
  constructor <;> simp [Spec.Low, Spec.High] <;> norm_num

end Verif.Stats
