/- Properties C143-C146: how binned statistics are set up, and the image classes. -/
import Verif.Binned.Ctor
import Verif.Binned.Props

namespace Verif.Binned
open Verif

/-! ## Specification -/

/-- The limits of dimension d: the given range, or the smallest and largest coordinate; half a unit is added on both sides
when the two are equal. -/
def Spec.LimitsOf (range : Option (List (ℚ × ℚ))) (samples : List (List ℚ)) (d : ℕ) (lo hi : ℚ) : Prop :=
  ∃ a b, (match range with
    | some r => r[d]? = some (a, b)
    | none => (∀ s ∈ samples, a ≤ s.getD d 0 ∧ s.getD d 0 ≤ b) ∧ (∃ s ∈ samples, s.getD d 0 = a) ∧ ∃ s ∈ samples, s.getD d 0 = b) ∧
    (a = b → lo = a - 1 / 2 ∧ hi = b + 1 / 2) ∧ (a ≠ b → lo = a ∧ hi = b)

/-! ## C143: a number of bins -/

theorem linspace_get (a b : ℚ) (n k : ℕ) (hk : k < n) : (Np.linspace a b n)[k]? = some (a + k * ((b - a) / ((n - 1 : ℕ) : ℚ))) := by
  simp [Np.linspace, hk]

theorem length_linspace (a b : ℚ) (n : ℕ) : (Np.linspace a b n).length = n := by simp [Np.linspace]

theorem linspace_edges (a b : ℚ) (n : ℕ) (hn : 1 ≤ n) (h : a < b) : Spec.Edges (Np.linspace a b (n + 1)) := by
  refine ⟨by rw [length_linspace]; omega, ?_⟩
  unfold Np.linspace
  rw [List.pairwise_map]
  refine List.Pairwise.imp ?_ List.pairwise_lt_range
  intro i j hij
  have h1 : 0 < (b - a) / ((n + 1 - 1 : ℕ) : ℚ) := div_pos (by linarith) (by simp; omega)
  have h2 : (i : ℚ) < j := by exact_mod_cast hij
  nlinarith

theorem checkEdges_ok (e : List ℚ) (h : Spec.Edges e) : checkEdges e = .ok e := by
  unfold checkEdges
  rw [if_neg (by have := h.1; omega), if_pos h.2]

theorem dimEdges_num (p : ℚ × ℚ) (n : ℕ) (hn : 1 ≤ n) (h : (widen p).1 < (widen p).2) :
    dimEdges (p, .num n) = .ok (Np.linspace (widen p).1 (widen p).2 (n + 1)) := by
  unfold dimEdges itemEdges
  have h1 : pyInt ((n : ℚ) + 2) = n + 2 := by
    unfold pyInt; rw [if_pos (by positivity)]
    rw [show ((n : ℚ) + 2) = ((n + 2 : ℤ) : ℚ) by push_cast; ring, Int.floor_intCast]
  simp only [h1]
  rw [if_neg (by omega), show ((n : ℤ) + 2 - 1).toNat = n + 1 by omega]
  exact checkEdges_ok _ (linspace_edges _ _ n hn h)

theorem allEdges_ok (l : List ((ℚ × ℚ) × BinItem)) (f : (ℚ × ℚ) × BinItem → List ℚ) (h : ∀ x ∈ l, dimEdges x = .ok (f x)) :
    allEdges l = .ok (l.map f) := by
  induction l with
  | nil => rfl
  | cons x t ih =>
    unfold allEdges
    rw [h x (by simp), ih (fun y hy => h y (by simp [hy]))]
    rfl

theorem widen_lt (p : ℚ × ℚ) (h : p.1 ≤ p.2) : (widen p).1 < (widen p).2 := by
  unfold widen
  split
  · next h1 => simp only; linarith
  · next h1 => exact lt_of_le_of_ne h h1

theorem min_max_col (l : List ℚ) (h : l ≠ []) : ∃ a b, l.min? = some a ∧ l.max? = some b ∧ a ∈ l ∧ b ∈ l ∧ ∀ x ∈ l, a ≤ x ∧ x ≤ b := by
  cases h1 : l.min? with
  | none => rw [List.min?_eq_none_iff] at h1; exact absurd h1 h
  | some a =>
    cases h2 : l.max? with
    | none => rw [List.max?_eq_none_iff] at h2; exact absurd h2 h
    | some b =>
      have h3 := List.min?_eq_some_iff.1 h1
      have h4 := List.max?_eq_some_iff.1 h2
      exact ⟨a, b, rfl, rfl, h3.1, h4.1, fun x hx => ⟨h3.2 x hx, h4.2 x hx⟩⟩

/-- The limits found by the code are the specified ones. -/
theorem limits_spec (D : ℕ) (range : Option (List (ℚ × ℚ))) (samples : List (List ℚ)) (hne : samples ≠ [])
    (hr : ∀ r, range = some r → r.length = D ∧ ∀ p ∈ r, p.1 ≤ p.2) :
    ∃ lim, limits D range samples = .ok lim ∧ lim.length = D ∧ ∀ d, d < D → ∃ p, lim[d]? = some p ∧ p.1 ≤ p.2 ∧
      Spec.LimitsOf range samples d (widen p).1 (widen p).2 := by
  have hw : ∀ p : ℚ × ℚ, (p.1 = p.2 → (widen p).1 = p.1 - 1 / 2 ∧ (widen p).2 = p.2 + 1 / 2) ∧
      (p.1 ≠ p.2 → (widen p).1 = p.1 ∧ (widen p).2 = p.2) := by
    intro p
    unfold widen
    exact ⟨fun h => by rw [if_pos h]; exact ⟨rfl, rfl⟩, fun h => by rw [if_neg h]; exact ⟨rfl, rfl⟩⟩
  cases range with
  | some r =>
    obtain ⟨h1, h2⟩ := hr r rfl
    refine ⟨r, ?_, h1, fun d hd => ?_⟩
    · unfold limits; simp only; rw [if_neg (by omega), ← h1, List.take_length]
    · have hg : r[d]? = some r[d] := List.getElem?_eq_getElem (by omega)
      exact ⟨_, hg, h2 _ (List.getElem_mem _), _, _, hg, (hw _).1, (hw _).2⟩
  | none =>
    unfold limits
    simp only
    rw [if_neg hne]
    refine ⟨_, rfl, by simp, fun d hd => ?_⟩
    obtain ⟨a, b, h1, h2, h3, h4, h5⟩ := min_max_col (samples.map (fun s => s.getD d 0)) (by simpa using hne)
    refine ⟨(a, b), by rw [List.getElem?_map, List.getElem?_range hd]; simp only [Option.map_some, h1, h2, Option.getD_some],
      (h5 b h4).1, a, b, ⟨fun s hs => h5 _ (List.mem_map.2 ⟨s, hs, rfl⟩), ?_, ?_⟩, (hw (a, b)).1, (hw (a, b)).2⟩
    · simpa using List.mem_map.1 h3
    · simpa using List.mem_map.1 h4

/-- C143: with a number n of bins, each dimension gets n equal bins over its limits, for any samples. -/
theorem C143_equal_bins (D n : ℕ) (hn : 1 ≤ n) (range : Option (List (ℚ × ℚ))) (samples : List (List ℚ)) (hne : samples ≠ [])
    (hr : ∀ r, range = some r → r.length = D ∧ ∀ p ∈ r, p.1 ≤ p.2) :
    ∃ es, edgesDD D (.scalar n) range samples = .ok es ∧ es.length = D ∧ ∀ d, d < D → ∃ e lo hi, es[d]? = some e ∧
      Spec.LimitsOf range samples d lo hi ∧ lo < hi ∧ e.length = n + 1 ∧ Spec.Edges e ∧
      ∀ i : ℕ, i ≤ n → e[i]? = some (lo + (hi - lo) * i / n) := by
  obtain ⟨lim, h1, h2, h3⟩ := limits_spec D range samples hne hr
  have hp : ∀ p ∈ lim, p.1 ≤ p.2 := by
    intro p hp
    obtain ⟨d, hd, rfl⟩ := List.getElem_of_mem hp
    obtain ⟨q, hq1, hq2, _⟩ := h3 d (by omega)
    rw [List.getElem?_eq_getElem hd] at hq1
    cases hq1; exact hq2
  refine ⟨(lim.zip (List.replicate D (BinItem.num n))).map (fun x => Np.linspace (widen x.1).1 (widen x.1).2 (n + 1)), ?_, by simp [h2], ?_⟩
  · unfold edgesDD items
    show (do let lim ← limits D range samples; allEdges (lim.zip (List.replicate D (.num n)))) = _
    rw [h1]
    show allEdges _ = _
    apply allEdges_ok _ (fun x => Np.linspace (widen x.1).1 (widen x.1).2 (n + 1))
    intro x hx
    obtain ⟨p, it⟩ := x
    have hx' := List.of_mem_zip hx
    rw [List.eq_of_mem_replicate hx'.2]
    exact dimEdges_num p n hn (widen_lt p (hp p hx'.1))
  · intro d hd
    obtain ⟨p, hq1, hq2, hq3⟩ := h3 d hd
    have hlt := widen_lt p hq2
    refine ⟨Np.linspace (widen p).1 (widen p).2 (n + 1), _, _, ?_, hq3, hlt, length_linspace _ _ _, linspace_edges _ _ n hn hlt, ?_⟩
    · rw [List.getElem?_map, List.zip, List.getElem?_zipWith, hq1]
      simp [hd]
    · intro i hi
      rw [linspace_get _ _ _ _ (by omega)]
      congr 2
      simp only [Nat.add_sub_cancel]
      ring

example : edgesDD 2 (.scalar 2) none [[0, 7], [4, 7], [1, 7]] = .ok [[0, 2, 4], [13/2, 7, 15/2]] := by decide +kernel
example : edgesDD 1 (.scalar 4) (some [(1, 3)]) [[0], [9]] = .ok [[1, 3/2, 2, 5/2, 3]] := by decide +kernel

/-- A reversed range, no bins at all, or repeated edges are errors. -/
theorem C143_bad_bins (n : ℕ) (lo hi : ℚ) (x : List ℚ) :
    (hi < lo → 1 ≤ n → edgesDD 1 (.scalar n) (some [(lo, hi)]) (x.map (fun v => [v])) = .error .valueError) ∧
    edgesDD 1 (.scalar 0) (some [(lo, hi)]) (x.map (fun v => [v])) = .error .valueError ∧
    edgesDD 1 (.seq [.arr [lo, lo]]) (some [(lo, hi)]) (x.map (fun v => [v])) = .error .exception := by
  refine ⟨fun h hn => ?_, ?_, ?_⟩
  · show allEdges [((lo, hi), .num n)] = _
    unfold allEdges dimEdges itemEdges
    have h1 : pyInt ((n : ℚ) + 2) = n + 2 := by
      unfold pyInt; rw [if_pos (by positivity)]
      rw [show ((n : ℚ) + 2) = ((n + 2 : ℤ) : ℚ) by push_cast; ring, Int.floor_intCast]
    simp only [h1]
    rw [if_neg (by omega), show ((n : ℤ) + 2 - 1).toNat = n + 1 by omega]
    have hw : widen (lo, hi) = (lo, hi) := by unfold widen; rw [if_neg (by simp only; linarith)]
    rw [hw]
    have hb : ∀ r : ℚ → ℚ → Prop, (Np.linspace lo hi (n + 1)).Pairwise r → r lo hi := by
      intro r hr
      obtain ⟨h0, h0'⟩ := List.getElem?_eq_some_iff.1 (linspace_get lo hi (n + 1) 0 (by omega))
      obtain ⟨h1, h1'⟩ := List.getElem?_eq_some_iff.1 (linspace_get lo hi (n + 1) n (by omega))
      have := List.pairwise_iff_getElem.1 hr 0 n h0 h1 (by omega)
      rw [h0', h1'] at this
      have hz : (n : ℚ) ≠ 0 := by positivity
      have e1 : lo + ((0 : ℕ) : ℚ) * ((hi - lo) / ((n + 1 - 1 : ℕ) : ℚ)) = lo := by simp
      have e2 : lo + (n : ℚ) * ((hi - lo) / ((n + 1 - 1 : ℕ) : ℚ)) = hi := by
        rw [Nat.add_sub_cancel]; field_simp; ring
      rw [e1, e2] at this; exact this
    have hc : checkEdges (Np.linspace lo hi (n + 1)) = .error .valueError := by
      unfold checkEdges
      rw [length_linspace, if_neg (by omega), if_neg (fun hc => by have := hb _ hc; linarith),
        if_neg (fun hc => by have := hb _ hc; linarith)]
    show (do let e ← checkEdges (Np.linspace lo hi (n + 1)); let es ← allEdges []; Except.ok (e :: es)) = _
    rw [hc]; rfl
  · show allEdges [((lo, hi), .num 0)] = _
    unfold allEdges dimEdges itemEdges
    have h1 : pyInt ((0 : ℚ) + 2) = 2 := by decide +kernel
    simp only [h1]
    rw [if_neg (by omega)]
    show (do let e ← checkEdges (Np.linspace (widen (lo, hi)).1 (widen (lo, hi)).2 1); let es ← allEdges []; Except.ok (e :: es)) = _
    have hc : ∀ a b : ℚ, checkEdges (Np.linspace a b 1) = .error .valueError := by
      intro a b; unfold checkEdges; rw [length_linspace, if_pos (by omega)]
    rw [hc]; rfl
  · show (do let e ← checkEdges [lo, lo]; let es ← allEdges []; Except.ok (e :: es)) = _
    have hc : checkEdges [lo, lo] = .error .exception := by simp [checkEdges]
    rw [hc]; rfl

/-! ### every sample is counted -/

theorem digitize_near (e : List ℚ) (he : Spec.Edges e) (x : ℚ) (h : sameRounded (decimals e) x (e.getLast?.getD 0)) :
    e.length - 1 ≤ Np.digitize e x := by
  have hlen := he.1
  obtain ⟨b, hb⟩ : ∃ b, e[e.length - 1]? = some b := ⟨_, List.getElem?_eq_getElem (by omega)⟩
  obtain ⟨a, ha⟩ : ∃ a, e[e.length - 2]? = some a := ⟨_, List.getElem?_eq_getElem (by omega)⟩
  rw [getLast?_eq_get, hb] at h
  have h1 := sameRounded_close _ _ _ h
  obtain ⟨hw, hmin⟩ := minWidth_spec e he
  have h2 := tol_le (minWidth e) hw
  have h3 := hmin (e.length - 2) a b ha (by rw [show e.length - 2 + 1 = e.length - 1 by omega]; exact hb)
  have h4 : |x - b| ≤ minWidth e / 10 ^ 5 := le_trans h1 h2
  rw [abs_le] at h4
  have : a ≤ x := by
    have : minWidth e / 10 ^ 5 ≤ minWidth e := by rw [div_le_iff₀ (by norm_num)]; nlinarith
    linarith [h4.1]
  have := (Np.getElem?_le_iff_digitize e (he.2.imp le_of_lt) x (e.length - 2) a ha).1 this
  omega

/-- A sample between the first and the last edge is in one of the bins, when there are at least two. -/
theorem binNo_inside (e : List ℚ) (he : Spec.Edges e) (h3 : 3 ≤ e.length) (x a b : ℚ) (ha : e[0]? = some a)
    (hb : e[e.length - 1]? = some b) (h1 : a ≤ x) (h2 : x ≤ b) : 1 ≤ binNo e x ∧ binNo e x ≤ e.length - 1 := by
  have hd := (Np.getElem?_le_iff_digitize e (he.2.imp le_of_lt) x 0 a ha).1 h1
  have hu := Np.digitize_le_length e x
  unfold binNo
  simp only
  split
  · next hs =>
    have := digitize_near e he x hs
    omega
  · next hs =>
    refine ⟨by omega, ?_⟩
    by_contra hc
    have := (Np.getElem?_le_iff_digitize e (he.2.imp le_of_lt) x (e.length - 1) b hb).2 (by omega)
    have : x = b := le_antisymm h2 this
    apply hs
    rw [getLast?_eq_get, hb, this]
    rfl

theorem sum_counts (keys : List ℕ) (n : ℕ) (h : ∀ k ∈ keys, 1 ≤ k ∧ k ≤ n) :
    ∑ i ∈ Finset.range n, ((keys.count (i + 1) : ℕ) : ℚ) = keys.length := by
  induction keys with
  | nil => simp
  | cons k t ih =>
    have hk := h k (by simp)
    simp only [List.count_cons, List.length_cons]
    push_cast
    rw [Finset.sum_add_distrib, ih (fun j hj => h j (by simp [hj]))]
    congr 1
    rw [Finset.sum_eq_single (k - 1)]
    · rw [if_pos (by simp; omega)]
    · intro j _ hj
      rw [if_neg (by simp; omega)]
    · intro hj; simp at hj; omega

/-- C143, the part that holds: for two or more bins over the default range every sample is counted exactly once. -/
theorem C143_all_counted_partial (n : ℕ) (hn : 2 ≤ n) (x : List ℚ) (hx : x ≠ []) :
    ∃ o A, ctor1D (.scalar n) none none x = .ok o ∧ call (nbin o.edges) [0] (resCount (xy o.edges [0] o.used)) = .ok A ∧
      A.shape = [n] ∧ ∑ i ∈ Finset.range n, A.get [i] = x.length := by
  obtain ⟨es, h1, h2, h3⟩ := C143_equal_bins 1 n (by omega) none (x.map (fun v => [v])) (by simpa using hx) (by simp)
  obtain ⟨e, lo, hi, he, ⟨a, b, ⟨hab, _, _⟩, hw1, hw2⟩, hlt, hl, hE, hg⟩ := h3 0 (by omega)
  have hes : es = [e] := by
    match es, h2 with
    | [e'], _ => simp at he; rw [he]
  subst hes
  have hin : ∀ v ∈ x, lo ≤ v ∧ v ≤ hi := by
    intro v hv
    have := hab [v] (List.mem_map.2 ⟨v, hv, rfl⟩)
    change a ≤ v ∧ v ≤ b at this
    by_cases hc : a = b
    · obtain ⟨h5, h6⟩ := hw1 hc; constructor <;> linarith [this.1, this.2]
    · obtain ⟨h5, h6⟩ := hw2 hc; constructor <;> linarith [this.1, this.2]
  have hsort : IsArgsort (nbin [e]) [0] := ⟨by simp [nbin], by simp⟩
  obtain ⟨A, hA1, hA2, hA3⟩ := call_eq (nbin [e]) [0] hsort (resCount (xy [e] [0] (x.map (fun v => [v]))))
  refine ⟨⟨[e], x.map (fun v => [v])⟩, A, ?_, hA1, ?_, ?_⟩
  · show (do let es ← edgesDD 1 (.scalar n) none (x.map (fun v => [v])); Except.ok (Obj.mk es (x.map (fun v => [v])))) = _
    rw [h1]; rfl
  · rw [hA2]; simp [nbin, hl]
  · have hk : ∀ i, A.get [i] = (((x.map (binNo e)).count (i + 1) : ℕ) : ℚ) := by
      intro i
      rw [hA3 [i] (by simp [nbin]), resCount_eq]
      have e1 : xy [e] [0] (x.map (fun v => [v])) = x.map (binNo e) := by
        simp [xy, xyOf, mixed, counts, List.map_map, Function.comp_def]
      have e2 : xyOf (nbin [e]) [0] ([i].map (fun i => i + 1)) = i + 1 := by simp [xyOf, mixed]
      rw [e1, e2]
    rw [Finset.sum_congr rfl (fun i _ => hk i), sum_counts]
    · simp
    · intro k hk
      obtain ⟨v, hv, rfl⟩ := List.mem_map.1 hk
      have h0 := hg 0 (by omega)
      have hlast := hg n (le_refl _)
      have hn0 : (n : ℚ) ≠ 0 := by positivity
      rw [show lo + (hi - lo) * ((0 : ℕ) : ℚ) / n = lo by simp] at h0
      rw [show lo + (hi - lo) * (n : ℚ) / n = hi by field_simp; ring] at hlast
      have := binNo_inside e hE (by omega) v lo hi h0 (by rw [hl, Nat.add_sub_cancel]; exact hlast) (hin v hv).1 (hin v hv).2
      rw [hl, Nat.add_sub_cancel] at this
      exact this

example : (match ctor1D (.scalar 2) none none [3, 0, 1, 4, 4] with
    | .ok o => (match call (nbin o.edges) [0] (resCount (xy o.edges [0] o.used)) with
      | .ok A => [A.get [0], A.get [1]]
      | .error _ => [])
    | .error _ => []) = [2, 3] := by decide +kernel

/-- C143 is false for a single bin: a sample just below the largest one is in no bin although the range covers it. -/
theorem C143_single_bin_refuted :
    (match ctor1D (.scalar 1) none none [0, 1 - 1 / 10 ^ 9, 1] with
    | .ok o => (match call (nbin o.edges) [0] (resCount (xy o.edges [0] o.used)) with
      | .ok A => A.get [0]
      | .error _ => 0)
    | .error _ => 0) = 2 := by decide +kernel

/-! ## C144: masked samples -/

/-- The two data sets differ at masked positions only. -/
def Spec.SameUnmasked (m : List Bool) (s s' : List (List ℚ)) : Prop :=
  s.length = s'.length ∧ ∀ k : ℕ, m[k]? = some true → s[k]? = s'[k]?

theorem maskSamples_same (a : Arg) (D : ℕ) (es : List (List ℚ)) (m : List Bool) (s s' : List (List ℚ)) (h : Spec.SameUnmasked m s s')
    (hs : ∀ r ∈ s, r.length = D) (hs' : ∀ r ∈ s', r.length = D) : maskSamples a es m s = maskSamples a es m s' := by
  unfold maskSamples
  apply List.ext_getElem?
  intro k
  rw [List.getElem?_zipWith, List.getElem?_zipWith]
  cases hm : m[k]? with
  | none => rfl
  | some b =>
    cases b with
    | true => rw [h.2 k hm]
    | false =>
      have hl := h.1
      by_cases hk : k < s.length
      · have h1 : s[k]? = some s[k] := List.getElem?_eq_getElem hk
        have h2 : s'[k]? = some (s'[k]'(h.1 ▸ hk)) := List.getElem?_eq_getElem (h.1 ▸ hk)
        rw [h1, h2]
        simp only [Bool.false_eq_true, if_false, Option.some.injEq]
        have l1 := hs _ (List.getElem_mem hk)
        have l2 := hs' (s'[k]'(h.1 ▸ hk)) (List.getElem_mem _)
        apply List.ext_getElem
        · simp [l1, l2]
        · intro i h3 h4; simp
      · rw [List.getElem?_eq_none (by omega), List.getElem?_eq_none (by omega)]

/-- C144, the part that holds: when the edges do not come from the data (an explicit range, or explicit edges in every
dimension), changing the coordinates of masked samples changes nothing in the constructed object. -/
theorem C144_masked_irrelevant_partial (D : ℕ) (a : Arg) (bins : BinArg) (range : Option (List (ℚ × ℚ))) (m : List Bool)
    (s s' : List (List ℚ)) (h : Spec.SameUnmasked m s s') (hs : ∀ r ∈ s, r.length = D) (hs' : ∀ r ∈ s', r.length = D)
    (hb : (∃ r, range = some r) ∨ ∃ l : List (List ℚ), bins = .seq (l.map .arr)) :
    ctorDD D a bins range (some m) s = ctorDD D a bins range (some m) s' := by
  have he : edgesDD D bins range s = edgesDD D bins range s' := by
    rcases hb with ⟨r, rfl⟩ | ⟨l, rfl⟩
    · rfl
    · cases range with
      | some r => rfl
      | none =>
        unfold edgesDD limits
        have hnil : (s = []) ↔ (s' = []) := by rw [← List.length_eq_zero_iff, ← List.length_eq_zero_iff, h.1]
        cases hi : items D (.seq (l.map .arr)) with
        | error x => rfl
        | ok it =>
          have hit : it = l.map .arr := by
            unfold items at hi; simp only at hi
            split at hi
            · cases hi; rfl
            · cases hi
          have hlen : it.length = D := by
            unfold items at hi; simp only at hi
            split at hi
            · next hc => cases hi; exact hc
            · cases hi
          simp only [bind, Except.bind]
          by_cases hc : s = []
          · rw [if_pos hc, if_pos (hnil.1 hc)]
          · rw [if_neg hc, if_neg (fun h => hc (hnil.2 h))]
            simp only
            have key : ∀ (p q : List (ℚ × ℚ)) (l : List (List ℚ)), p.length = q.length →
                allEdges (p.zip (l.map .arr)) = allEdges (q.zip (l.map .arr)) := by
              intro p
              induction p with
              | nil => intro q l hq; cases q with
                | nil => rfl
                | cons => simp at hq
              | cons x p ih => intro q l hq; cases q with
                | nil => simp at hq
                | cons y q =>
                  cases l with
                  | nil => rfl
                  | cons e l =>
                    simp only [List.map_cons, List.zip_cons_cons]
                    unfold allEdges
                    rw [ih q l (by simpa using hq)]
                    rfl
            rw [hit]
            exact key _ _ l (by simp)
  unfold ctorDD
  rw [he]
  cases edgesDD D bins range s' with
  | error x => rfl
  | ok es =>
    show (if _ then _ else _) = (if _ then _ else _)
    rw [h.1]
    have : (construct a es m s).2 = (construct a es m s').2 := maskSamples_same a D es m s s' h hs hs'
    rw [this]

example : Spec.SameUnmasked [true, false] [[1], [5]] [[1], [7]] := ⟨rfl, by
  intro k hk
  match k with
  | 0 => rfl
  | 1 => simp at hk
  | k + 2 => simp at hk⟩
example : ctorDD 1 .floatArray (.scalar 2) (some [(0, 2)]) (some [true, false]) [[1], [5]] = .ok ⟨[[0, 1, 2]], [[1], [-1/100]]⟩ := by
  decide +kernel

/-- C144 is false with the default range: it is taken over the masked samples too, so the value of a masked sample decides
how the others are binned. -/
theorem C144_default_range_refuted :
    let f (masked : ℚ) := (match ctor1D (.scalar 2) none (some [true, true, false]) [0, 1, masked] with
      | .ok o => (match call (nbin o.edges) [0] (resCount (xy o.edges [0] o.used)) with
        | .ok A => [A.get [0], A.get [1]]
        | .error _ => [])
      | .error _ => [])
    f 10 = [2, 0] ∧ f 1 = [1, 1] := by decide +kernel

/-- C144: a mask needs one entry per sample: whatever is accepted without a mask raises IndexError with a mask of another
length. -/
theorem C144_mask_length (D : ℕ) (a : Arg) (bins : BinArg) (range : Option (List (ℚ × ℚ))) (m : List Bool) (s : List (List ℚ))
    (hl : m.length ≠ s.length) (o : Obj) (h : ctorDD D a bins range none s = .ok o) :
    ctorDD D a bins range (some m) s = .error .indexError := by
  unfold ctorDD at h ⊢
  cases he : edgesDD D bins range s with
  | error e => rw [he] at h; cases h
  | ok es =>
    simp only [bind, Except.bind]
    rw [if_pos hl]

/-- Non-vacuity of `C144_mask_length`: three samples, five bins. -/
example : (match ctorDD 1 .sequence (.scalar 5) none none [[0], [1], [3]] with | .ok _ => true | .error _ => false) = true ∧
    ctorDD 1 .sequence (.scalar 5) none (some [true]) [[0], [1], [3]] = .error .indexError := by decide +kernel

/-! ## C145: the forms of `bins` -/

theorem floats_num (l : List ℚ) : floats (l.map .num) = .ok l := by
  induction l with
  | nil => rfl
  | cons a t ih => show (do .ok (a :: (← floats (t.map .num)))) = _; rw [ih]; rfl

/-- One number stands for the same number in every dimension, and a sequence of the wrong length is an AttributeError. -/
theorem C145_scalar_and_length (D : ℕ) (n : ℚ) (l : List BinItem) (hl : l.length ≠ D) (range : Option (List (ℚ × ℚ))) (samples : List (List ℚ)) :
    edgesDD D (.scalar n) range samples = edgesDD D (.seq (List.replicate D (.num n))) range samples ∧
    edgesDD D (.seq l) range samples = .error .attributeError := by
  constructor
  · unfold edgesDD items; simp
  · unfold edgesDD items; simp only [if_neg hl]; rfl

/-- Explicit edges are used as given, in every dimension, whatever the data and the range. -/
theorem C145_explicit_edges (D : ℕ) (es : List (List ℚ)) (hD : es.length = D) (hE : ∀ e ∈ es, Spec.Edges e)
    (range : Option (List (ℚ × ℚ))) (hr : ∀ r, range = some r → D ≤ r.length) (samples : List (List ℚ)) (hne : samples ≠ []) :
    edgesDD D (.seq (es.map .arr)) range samples = .ok es := by
  have hlim : ∃ lim, limits D range samples = .ok lim ∧ lim.length = D := by
    cases range with
    | some r =>
      have := hr r rfl
      unfold limits; simp only; rw [if_neg (by omega)]; exact ⟨_, rfl, by simp [this]⟩
    | none => unfold limits; simp only; rw [if_neg hne]; exact ⟨_, rfl, by simp⟩
  obtain ⟨lim, h1, h2⟩ := hlim
  unfold edgesDD items
  simp only [List.length_map, hD, if_true]
  show (do let lim ← limits D range samples; allEdges (lim.zip (es.map .arr))) = _
  rw [h1]
  show allEdges _ = _
  rw [← hD] at h2
  clear h1 hD hr hne
  induction es generalizing lim with
  | nil => simp [allEdges]
  | cons e es ih =>
    cases lim with
    | nil => simp at h2
    | cons p lim =>
      simp only [List.map_cons, List.zip_cons_cons]
      unfold allEdges
      rw [ih (fun e he => hE e (by simp [he])) lim (by simpa using h2)]
      have : dimEdges (p, .arr e) = .ok e := checkEdges_ok e (hE e (by simp))
      rw [this]; rfl

/-- A sequence of numbers gives the edges of the 1-D class. -/
theorem C145_edges_1d (e : List ℚ) (he : Spec.Edges e) (range : Option (ℚ × ℚ)) (x : List ℚ) (hx : x ≠ []) :
    ctor1D (.seq (e.map .num)) range none x = .ok ⟨[e], x.map (fun v => [v])⟩ := by
  have hl := he.1
  unfold ctor1D bins1D
  simp only [List.length_map]
  rw [if_pos (by omega), floats_num]
  show ctorDD 1 .sequence (.seq [.arr e]) _ none _ = _
  unfold ctorDD
  have := C145_explicit_edges 1 [e] rfl (by simpa using he) (range.map (fun p => [p]))
    (by intro r hr; cases range with
      | none => simp at hr
      | some p => simp at hr; subst hr; simp) (x.map (fun v => [v])) (by simpa using hx)
  simp only [List.map_cons, List.map_nil] at this
  rw [this]; rfl

/-- C145, the part that holds for the 2-D class: three or more numbers are the edges of both dimensions. -/
theorem C145_common_edges_partial (e : List ℚ) (he : Spec.Edges e) (h3 : 3 ≤ e.length) (range : Option (List (ℚ × ℚ)))
    (hr : ∀ r, range = some r → 2 ≤ r.length) (x y : List ℚ) (hx : x ≠ []) (hxy : x.length = y.length) :
    ctor2D (.seq (e.map .num)) range none x y = .ok ⟨[e, e], List.zipWith (fun u v => [u, v]) x y⟩ := by
  unfold ctor2D bins2D
  simp only [List.length_map]
  rw [if_pos (by omega), floats_num]
  show (if x.length ≠ y.length then _ else ctorDD 2 .sequence (.seq [.arr e, .arr e]) _ none _) = _
  rw [if_neg (by omega)]
  unfold ctorDD
  have := C145_explicit_edges 2 [e, e] rfl (by simpa using he) range hr (List.zipWith (fun u v => [u, v]) x y) (by
    cases x with
    | nil => exact absurd rfl hx
    | cons a x => cases y with
      | nil => simp at hxy
      | cons b y => simp)
  simp only [List.map_cons, List.map_nil] at this
  rw [this]; rfl

example : ctor2D (.seq ([0, 1, 2].map .num)) none none [0, 1] [1/2, 2] = .ok ⟨[[0, 1, 2], [0, 1, 2]], [[0, 1/2], [1, 2]]⟩ := by decide +kernel

/-- C145 is false for two common edges: `[2, 3]` is read as 2 bins times 3 bins, not as one bin from 2 to 3 in each
dimension; and `[0, 5]` fails. -/
theorem C145_two_edges_refuted :
    ctor2D (.seq [.num 2, .num 3]) none none [0, 4] [0, 6] = .ok ⟨[[0, 2, 4], [0, 2, 4, 6]], [[0, 0], [4, 6]]⟩ ∧
    ctor2D (.seq [.num 0, .num 5]) none none [0, 4] [0, 6] = .error .valueError := by decide +kernel

/-- A one-element list is a number of bins for the 1-D class, and an error for the 2-D class. -/
theorem C145_one_element (n : ℚ) (range : Option (ℚ × ℚ)) (range2 : Option (List (ℚ × ℚ))) (mask : Option (List Bool)) (x y : List ℚ)
    (hxy : x.length = y.length) :
    ctor1D (.seq [.num n]) range mask x = ctor1D (.scalar n) range mask x ∧
    ctor2D (.seq [.num n]) range2 mask x y = .error .attributeError := by
  constructor
  · rfl
  · unfold ctor2D bins2D
    simp only [List.length_cons, List.length_nil]
    show (if x.length ≠ y.length then _ else ctorDD 2 .sequence (.seq [.num n]) _ mask _) = _
    rw [if_neg (by omega)]
    rfl

/-! ## C146: the image classes -/

/-- Entry (r, c) of an array. -/
def Spec.at {α : Type} (d : α) (img : List (List α)) (p : ℕ × ℕ) : α := (img.getD p.1 []).getD p.2 d

/-- All pixels of an H × W image, row by row. -/
def Spec.pixels (H W : ℕ) : List (ℕ × ℕ) := (List.range H).flatMap (fun r => (List.range W).map (fun c => (r, c)))

/-- Is the pixel used? -/
def Spec.on (mask : Option (List (List Bool))) (p : ℕ × ℕ) : Bool :=
  match mask with
  | none => true
  | some m => Spec.at true m p

/-- The values of the unmasked pixels whose coordinates lie in the cell, row by row. -/
def Spec.pixelValues (H W : ℕ) (es : List (List ℚ)) (idx : List ℕ) (mask : Option (List (List Bool))) (coord : ℕ × ℕ → List ℚ)
    (values : List (List ℚ)) : List ℚ :=
  ((Spec.pixels H W).filter (fun p => Spec.on mask p && decide (Spec.inCell es idx (coord p)))).map (Spec.at 0 values)

theorem flatten_pixels {α : Type} (d : α) (H W : ℕ) (img : List (List α)) (h : HasShape H W img) :
    img.flatten = (Spec.pixels H W).map (Spec.at d img) := by
  obtain ⟨h1, h2⟩ := h
  unfold Spec.pixels
  rw [List.map_flatMap]
  simp only [List.map_map, Function.comp_def, Spec.at]
  have : img = (List.range H).map (fun r => (List.range W).map (fun c => (img.getD r []).getD c d)) := by
    apply List.ext_getElem
    · simp [h1]
    · intro r hr hr'
      rw [List.getElem_map, List.getElem_range]
      have hg : img.getD r [] = img[r] := by simp [hr]
      rw [hg]
      have hw := h2 _ (List.getElem_mem hr)
      apply List.ext_getElem
      · simp [hw]
      · intro c hc hc'
        simp [hc]
  conv_lhs => rw [this]
  rw [List.flatten_eq_flatMap, List.flatMap_map]
  rfl

/-- The cell of an image object: what the binning theorems call the values of the cell is what the specification says. -/
theorem image_cell (P : List (ℕ × ℕ)) (es : List (List ℚ)) (hne : es ≠ []) (hE : ∀ e ∈ es, Spec.Edges e) (on : ℕ × ℕ → Bool)
    (S : ℕ × ℕ → List ℚ) (V : ℕ × ℕ → ℚ) (hS : ∀ p, (S p).length = es.length) (idx : List ℕ) :
    Spec.cellValues es idx (maskSamples .sequence es (P.map on) (P.map S)) (P.map V) =
      (P.filter (fun p => on p && decide (Spec.inCell es idx (S p)))).map V := by
  have hout : ∀ p, ¬ Spec.inCell es idx (List.zipWith (fun e _ => maskedValue .sequence e) es (S p)) := by
    intro p hc
    obtain ⟨s', h1, _, _, h2⟩ := (C26_masked_nowhere_partial .sequence ⟨by decide, by decide⟩ es hE [false] [S p] 0 (S p) rfl (hS p)).2 rfl
    simp [construct, maskSamples] at h1
    exact h2 hne idx (h1 ▸ hc)
  unfold Spec.cellValues maskSamples
  rw [List.zipWith_map, List.zipWith_self]
  induction P with
  | nil => simp
  | cons p P ih =>
    simp only [List.map_cons, List.zip_cons_cons, List.filter_cons]
    cases hp : on p with
    | true =>
      by_cases hc : Spec.inCell es idx (S p)
      · simp [hc, ih]
      · simp [hc, ih]
    | false =>
      have := hout p
      simp [this, ih]

theorem image_clear (P : List (ℕ × ℕ)) (es : List (List ℚ)) (hE : ∀ e ∈ es, Spec.Edges e) (on : ℕ × ℕ → Bool)
    (S : ℕ × ℕ → List ℚ) (hS : ∀ p, (S p).length = es.length) (hc : ∀ p ∈ P, on p = true → List.Forall₂ Spec.Clear es (S p)) :
    ∀ s ∈ maskSamples .sequence es (P.map on) (P.map S), List.Forall₂ Spec.Clear es s := by
  intro s hs
  unfold maskSamples at hs
  rw [List.zipWith_map, List.zipWith_self] at hs
  obtain ⟨p, hp, rfl⟩ := List.mem_map.1 hs
  cases ho : on p with
  | true => simpa [ho] using hc p hp ho
  | false =>
    obtain ⟨s', h1, _, h2, _⟩ := (C26_masked_nowhere_partial .sequence ⟨by decide, by decide⟩ es hE [false] [S p] 0 (S p) rfl (hS p)).2 rfl
    simp [construct, maskSamples] at h1
    simpa [ho, h1] using h2

/-- What a constructed image object does for the statistics sum, mean, count and std: each is the statistic of the values of
exactly the unmasked pixels in the cell. -/
def Spec.BinsPixels (H W : ℕ) (o : Obj) (es : List (List ℚ)) (ni : List ℕ) (mask : Option (List (List Bool))) (coord : ℕ × ℕ → List ℚ) : Prop :=
  ∀ values, HasShape H W values →
    (∃ A, imageCall H W o ni resSum values = .ok A ∧ A.shape = es.map (fun e => e.length - 1) ∧
      ∀ idx, Spec.Valid es idx → A.get idx = (Spec.pixelValues H W es idx mask coord values).sum) ∧
    (∃ A, imageCall H W o ni resMean values = .ok A ∧ A.shape = es.map (fun e => e.length - 1) ∧
      ∀ idx, Spec.Valid es idx → A.get idx =
        let vs := Spec.pixelValues H W es idx mask coord values
        if vs = [] then none else some (vs.sum / vs.length)) ∧
    (∃ A, imageCall H W o ni (fun k _ => resCount k) values = .ok A ∧ A.shape = es.map (fun e => e.length - 1) ∧
      ∀ idx, Spec.Valid es idx → A.get idx = (Spec.pixelValues H W es idx mask coord values).length) ∧
    (∃ A, imageCall H W o ni resStd values = .ok A ∧ A.shape = es.map (fun e => e.length - 1) ∧
      ∀ idx, Spec.Valid es idx →
        let vs := Spec.pixelValues H W es idx mask coord values
        (vs = [] → A.get idx = 0) ∧
        (vs ≠ [] → A.get idx = Real.sqrt (((vs.map (fun v => (v - vs.sum / vs.length) ^ 2)).sum / vs.length : ℚ) : ℝ)))

theorem binsPixels (H W : ℕ) (es : List (List ℚ)) (hne : es ≠ []) (hE : ∀ e ∈ es, Spec.Edges e) (ni : List ℕ)
    (hni : IsArgsort (nbin es) ni) (mask : Option (List (List Bool))) (coord : ℕ × ℕ → List ℚ) (hS : ∀ p, (coord p).length = es.length)
    (hc : ∀ p ∈ Spec.pixels H W, Spec.on mask p = true → List.Forall₂ Spec.Clear es (coord p)) (used : List (List ℚ))
    (hu : used = maskSamples .sequence es ((Spec.pixels H W).map (Spec.on mask)) ((Spec.pixels H W).map coord)) :
    Spec.BinsPixels H W ⟨es, used⟩ es ni mask coord := by
  subst hu
  have hok : Spec.Ok es ni (maskSamples .sequence es ((Spec.pixels H W).map (Spec.on mask)) ((Spec.pixels H W).map coord)) :=
    ⟨hE, hni, image_clear _ es hE _ _ hS hc⟩
  intro values hv
  have hcell : ∀ idx, Spec.cellValues es idx (maskSamples .sequence es ((Spec.pixels H W).map (Spec.on mask)) ((Spec.pixels H W).map coord))
      values.flatten = Spec.pixelValues H W es idx mask coord values := by
    intro idx
    rw [flatten_pixels 0 H W values hv]
    exact image_cell _ es hne hE _ _ _ hS idx
  have hlen : values.flatten.length = (maskSamples .sequence es ((Spec.pixels H W).map (Spec.on mask)) ((Spec.pixels H W).map coord)).length := by
    rw [flatten_pixels 0 H W values hv]; simp [maskSamples]
  unfold imageCall
  simp only [if_pos hv]
  refine ⟨?_, ?_, ?_, ?_⟩
  · obtain ⟨A, h1, h2, h3⟩ := C24_sum_partial es ni _ hok values.flatten
    exact ⟨A, h1, h2, fun idx hi => by rw [h3 idx hi, hcell]⟩
  · obtain ⟨A, h1, h2, h3⟩ := C24_mean_partial es ni _ hok values.flatten hlen
    exact ⟨A, h1, h2, fun idx hi => by rw [h3 idx hi, hcell]⟩
  · obtain ⟨A, h1, h2, h3⟩ := C23_cells_partial es ni _ hok
    refine ⟨A, h1, h2, fun idx hi => ?_⟩
    rw [h3 idx hi, ← hcell]
    norm_cast
    unfold Spec.cellValues
    rw [List.length_map]
    generalize maskSamples .sequence es ((Spec.pixels H W).map (Spec.on mask)) ((Spec.pixels H W).map coord) = l at hlen
    generalize values.flatten = v at hlen
    induction l generalizing v with
    | nil => simp
    | cons s t ih =>
      cases v with
      | nil => simp at hlen
      | cons a v =>
        have := ih v (by simpa using hlen)
        simp only [List.zip_cons_cons, List.filter_cons]
        by_cases hc : Spec.inCell es idx s <;> simp only [hc, this, decide_true, decide_false, if_true, List.length_cons, Bool.false_eq_true, if_false]
  · obtain ⟨A, h1, h2, h3⟩ := C24_std_partial es ni _ hok values.flatten hlen
    exact ⟨A, h1, h2, fun idx hi => by rw [← hcell]; exact h3 idx hi⟩

theorem masked_none (es : List (List ℚ)) (P : List (ℕ × ℕ)) (S : ℕ × ℕ → List ℚ) :
    maskSamples .sequence es (P.map (Spec.on none)) (P.map S) = P.map S := by
  unfold maskSamples
  rw [List.zipWith_map, List.zipWith_self]
  simp [Spec.on]

/-- The mask of an image class is the map of used pixels. -/
theorem imageMask_ok (H W : ℕ) (mask : Option (List (List Bool))) (hm : ∀ m, mask = some m → HasShape H W m) :
    imageMask H W mask = .ok (mask.map (fun _ => (Spec.pixels H W).map (Spec.on mask))) := by
  unfold imageMask
  cases mask with
  | none => rfl
  | some m =>
    simp only [if_pos (hm m rfl), Option.map_some]
    rw [flatten_pixels true H W m (hm m rfl)]
    rfl

/-- C146, radial binning: for any image shape, map of radii, mask and edges, with no used pixel just beside the last edge. -/
theorem C146_radial_partial (H W : ℕ) (e : List ℚ) (he : Spec.Edges e) (range : Option (ℚ × ℚ)) (mask : Option (List (List Bool)))
    (hm : ∀ m, mask = some m → HasShape H W m) (rmap : List (List ℚ)) (hr : HasShape H W rmap) (hpos : 0 < H * W)
    (hc : ∀ p ∈ Spec.pixels H W, Spec.on mask p = true → Spec.Clear e (Spec.at 0 rmap p)) :
    ∃ o, radial H W (.seq (e.map .num)) range mask rmap = .ok o ∧
      Spec.BinsPixels H W o [e] [0] mask (fun p => [Spec.at 0 rmap p]) := by
  have hP : (Spec.pixels H W).length = H * W := by simp [Spec.pixels]
  have hflat := flatten_pixels 0 H W rmap hr
  have hne : rmap.flatten ≠ [] := by
    intro h; rw [hflat] at h; simp at h; rw [h] at hP; simp only [List.length_nil] at hP; omega
  have hsort : IsArgsort (nbin [e]) [0] := ⟨by simp [nbin], by simp⟩
  have hbp := binsPixels H W [e] (by simp) (by simpa using he) [0] hsort mask (fun p => [Spec.at 0 rmap p]) (by simp)
    (by intro p hp ho; simpa using hc p hp ho)
  have hed := C145_explicit_edges 1 [e] rfl (by simpa using he) (range.map (fun p => [p]))
    (by intro r hr; cases range with
      | none => simp at hr
      | some p => simp at hr; subst hr; simp) (rmap.flatten.map (fun v => [v])) (by simpa using hne)
  simp only [List.map_cons, List.map_nil] at hed
  have hs : rmap.flatten.map (fun v => [v]) = (Spec.pixels H W).map (fun p => [Spec.at 0 rmap p]) := by
    rw [hflat, List.map_map]; rfl
  refine ⟨⟨[e], maskSamples .sequence [e] ((Spec.pixels H W).map (Spec.on mask)) ((Spec.pixels H W).map (fun p => [Spec.at 0 rmap p]))⟩,
    ?_, hbp _ rfl⟩
  unfold radial
  rw [imageMask_ok H W mask hm]
  show ctor1D _ range _ _ = _
  unfold ctor1D bins1D
  have hl := he.1
  simp only [List.length_map]
  rw [if_pos (by omega), floats_num]
  show ctorDD 1 .sequence (.seq [.arr e]) _ _ _ = _
  unfold ctorDD
  rw [hed]
  cases mask with
  | none =>
    show Except.ok (Obj.mk [e] (rmap.flatten.map (fun v => [v]))) = _
    rw [hs, masked_none]
  | some m =>
    show (if _ then _ else Except.ok (Obj.mk [e] (maskSamples .sequence [e] _ (rmap.flatten.map (fun v => [v]))))) = _
    rw [if_neg (by rw [hs]; simp), hs]

/-- C146, binning in radius and angle: as `C146_radial_partial`, with one set of edges per coordinate. -/
theorem C146_rphi_partial (H W : ℕ) (er ep : List ℚ) (her : Spec.Edges er) (hep : Spec.Edges ep) (range : Option (List (ℚ × ℚ)))
    (hrange : ∀ r, range = some r → 2 ≤ r.length) (mask : Option (List (List Bool)))
    (hm : ∀ m, mask = some m → HasShape H W m) (rmap phimap : List (List ℚ)) (hr : HasShape H W rmap) (hp : HasShape H W phimap)
    (hpos : 0 < H * W) (ni : List ℕ) (hni : IsArgsort (nbin [er, ep]) ni)
    (hc : ∀ p ∈ Spec.pixels H W, Spec.on mask p = true → Spec.Clear er (Spec.at 0 rmap p) ∧ Spec.Clear ep (Spec.at 0 phimap p)) :
    ∃ o, rphi H W (.seq [.arr er, .arr ep]) range mask rmap phimap = .ok o ∧
      Spec.BinsPixels H W o [er, ep] ni mask (fun p => [Spec.at 0 rmap p, Spec.at 0 phimap p]) := by
  have hP : (Spec.pixels H W).length = H * W := by simp [Spec.pixels]
  have hflat := flatten_pixels 0 H W rmap hr
  have hflat' := flatten_pixels 0 H W phimap hp
  have hs : List.zipWith (fun u v => [u, v]) rmap.flatten phimap.flatten =
      (Spec.pixels H W).map (fun p => [Spec.at 0 rmap p, Spec.at 0 phimap p]) := by
    rw [hflat, hflat', List.zipWith_map, List.zipWith_self]
  have hne : (Spec.pixels H W).map (fun p => [Spec.at 0 rmap p, Spec.at 0 phimap p]) ≠ [] := by
    intro h; simp at h; rw [h] at hP; simp only [List.length_nil] at hP; omega
  have hbp := binsPixels H W [er, ep] (by simp) (by simp [her, hep]) ni hni mask (fun p => [Spec.at 0 rmap p, Spec.at 0 phimap p])
    (by simp) (by intro p hp ho; simpa using hc p hp ho)
  have hed := C145_explicit_edges 2 [er, ep] rfl (by simp [her, hep]) range hrange _ hne
  simp only [List.map_cons, List.map_nil] at hed
  refine ⟨⟨[er, ep], maskSamples .sequence [er, ep] ((Spec.pixels H W).map (Spec.on mask))
    ((Spec.pixels H W).map (fun p => [Spec.at 0 rmap p, Spec.at 0 phimap p]))⟩, ?_, hbp _ rfl⟩
  unfold rphi
  rw [imageMask_ok H W mask hm]
  simp only [bind, Except.bind]
  unfold ctor2D bins2D
  simp only [List.length_cons, List.length_nil]
  show (if rmap.flatten.length ≠ phimap.flatten.length then _ else ctorDD 2 .sequence (.seq [.arr er, .arr ep]) _ _ _) = _
  rw [if_neg (by rw [hflat, hflat']; simp)]
  unfold ctorDD
  rw [hs, hed]
  cases mask with
  | none =>
    show Except.ok (Obj.mk [er, ep] _) = _
    rw [masked_none]
  | some m =>
    show (if _ then _ else Except.ok (Obj.mk [er, ep] (maskSamples .sequence [er, ep] _ _))) = _
    rw [if_neg (by simp)]

/-- A 2 × 3 image with a mask. -/
example : (match radial 2 3 (.seq [.num 0, .num 1, .num 2]) none (some [[true, true, false], [true, true, true]]) [[0, 1, 2], [1, 1/2, 3]] with
    | .ok o => (match imageCall 2 3 o [0] resSum [[1, 2, 4], [8, 16, 32]] with
      | .ok A => [A.get [0], A.get [1]]
      | .error _ => [])
    | .error _ => []) = [17, 10] ∧
    Spec.pixelValues 2 3 [[0, 1, 2]] [1] (some [[true, true, false], [true, true, true]])
      (fun p => [Spec.at 0 [[0, 1, 2], [1, 1/2, 3]] p]) [[1, 2, 4], [8, 16, 32]] = [2, 8] := by decide +kernel
/-- The hypotheses of `C146_radial_partial` are met by this image. -/
example : ∀ p ∈ Spec.pixels 2 3, Spec.on (some [[true, true, false], [true, true, true]]) p = true →
    Spec.Clear [0, 1, 2] (Spec.at 0 [[0, 1, 2], [1, 1/2, 3]] p) := by
  have hw : minWidth [0, 1, 2] = 1 := by decide +kernel
  intro p hp _ l hl
  simp at hl; subst hl; rw [hw]
  have : p = (0, 0) ∨ p = (0, 1) ∨ p = (0, 2) ∨ p = (1, 0) ∨ p = (1, 1) ∨ p = (1, 2) := by
    simpa [Spec.pixels, List.range_succ, List.mem_flatMap] using hp
  rcases this with rfl | rfl | rfl | rfl | rfl | rfl <;> norm_num [Spec.at, abs_of_pos, abs_of_neg]

/-- A mask or an image of another shape is refused. -/
theorem C146_shapes_checked {α : Type} (H W : ℕ) (bins : BinArg) (range : Option (ℚ × ℚ)) (range2 : Option (List (ℚ × ℚ)))
    (m : List (List Bool)) (rmap phimap values : List (List ℚ)) (o : Obj) (ni : List ℕ) (stat : List ℕ → List ℚ → ℕ → α) :
    (¬ HasShape H W m → radial H W bins range (some m) rmap = .error .valueError ∧
      rphi H W bins range2 (some m) rmap phimap = .error .valueError) ∧
    (¬ HasShape H W values → imageCall H W o ni stat values = .error .valueError) := by
  refine ⟨fun h => ⟨?_, ?_⟩, fun h => ?_⟩
  · unfold radial imageMask; simp only [if_neg h]; rfl
  · unfold rphi imageMask; simp only [if_neg h]; rfl
  · unfold imageCall; rw [if_neg h]

/-- ... but the shape of the radius map is not: a transposed map is accepted and pairs pixels with the wrong radii. -/
theorem C146_rmap_shape_refuted :
    ∃ o, radial 2 3 (.seq [.num 0, .num 1, .num 2]) none none [[0, 0], [1, 1], [1, 1]] = .ok o ∧
      ¬ HasShape 2 3 ([[0, 0], [1, 1], [1, 1]] : List (List ℚ)) := by
  exact ⟨⟨[[0, 1, 2]], [[0], [0], [1], [1], [1], [1]]⟩, by decide +kernel, by decide⟩

end Verif.Binned
