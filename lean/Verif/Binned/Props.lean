/- Properties C23-C26: binned statistics. -/
import Verif.Binned.ValueLemmas

namespace Verif.Binned
open Verif

/-- Everything the binning theorems assume: usable edges, every sample has one coordinate per dimension and is either on
the last edge or not within 10^-5 bin widths of it, and `ni` is what argsort may return. -/
structure Spec.Ok (es : List (List ℚ)) (ni : List ℕ) (samples : List (List ℚ)) : Prop where
  edges : ∀ e ∈ es, Spec.Edges e
  ni : IsArgsort (nbin es) ni
  clear : ∀ s ∈ samples, List.Forall₂ Spec.Clear es s

/-- A valid index: one bin number per dimension, in the caller's order. -/
def Spec.Valid (es : List (List ℚ)) (idx : List ℕ) : Prop := List.Forall₂ (fun e i => i + 1 < e.length) es idx

theorem shape_eq (es : List (List ℚ)) : (nbin es).map (fun n => n - 2) = es.map (fun e => e.length - 1) := by
  unfold nbin; rw [List.map_map]; rfl

/-- C23 + C24: for any number of dimensions and any edges, the call succeeds, the result has one axis per dimension in
the caller's order with one entry per bin, and each entry of count / sum / mean / std is that statistic of the values of
exactly the samples in the cell. -/
theorem C23_cells_partial (es : List (List ℚ)) (ni : List ℕ) (samples : List (List ℚ)) (h : Spec.Ok es ni samples) :
    ∃ A, call (nbin es) ni (resCount (xy es ni samples)) = .ok A ∧ A.shape = es.map (fun e => e.length - 1) ∧
      ∀ idx, Spec.Valid es idx → A.get idx = (samples.filter (fun s => decide (Spec.inCell es idx s))).length := by
  obtain ⟨A, h1, h2, h3⟩ := call_eq (nbin es) ni h.ni (resCount (xy es ni samples))
  refine ⟨A, h1, by rw [h2, shape_eq], fun idx hi => ?_⟩
  have hlen : idx.length = (nbin es).length := by rw [← List.Forall₂.length_eq hi]; simp [nbin]
  rw [h3 idx hlen, resCount_eq]
  have hv : (samples.map (fun _ => (0 : ℚ))).length = (xy es ni samples).length := by simp [xy]
  rw [count_eq_length _ _ hv, keyed_values es h.edges ni h.ni.1 samples h.clear _ idx hi]
  unfold Spec.cellValues
  rw [List.length_map]
  norm_cast
  clear * -
  induction samples with
  | nil => simp
  | cons s t ih =>
    simp only [List.map_cons, List.zip_cons_cons, List.filter_cons]
    by_cases hc : Spec.inCell es idx s <;> simp only [hc, ih, decide_true, decide_false, if_true, List.length_cons, Bool.false_eq_true, if_false]

/-- Sum of the cell's values. -/
theorem C24_sum_partial (es : List (List ℚ)) (ni : List ℕ) (samples : List (List ℚ)) (h : Spec.Ok es ni samples) (vals : List ℚ) :
    ∃ A, call (nbin es) ni (resSum (xy es ni samples) vals) = .ok A ∧ A.shape = es.map (fun e => e.length - 1) ∧
      ∀ idx, Spec.Valid es idx → A.get idx = (Spec.cellValues es idx samples vals).sum := by
  obtain ⟨A, h1, h2, h3⟩ := call_eq (nbin es) ni h.ni (resSum (xy es ni samples) vals)
  refine ⟨A, h1, by rw [h2, shape_eq], fun idx hi => ?_⟩
  have hlen : idx.length = (nbin es).length := by rw [← List.Forall₂.length_eq hi]; simp [nbin]
  rw [h3 idx hlen, resSum_eq, keyed_values es h.edges ni h.ni.1 samples h.clear _ idx hi]

/-- Mean of the cell's values, NaN for an empty cell. -/
theorem C24_mean_partial (es : List (List ℚ)) (ni : List ℕ) (samples : List (List ℚ)) (h : Spec.Ok es ni samples) (vals : List ℚ)
    (hl : vals.length = samples.length) :
    ∃ A, call (nbin es) ni (resMean (xy es ni samples) vals) = .ok A ∧ A.shape = es.map (fun e => e.length - 1) ∧
      ∀ idx, Spec.Valid es idx → A.get idx =
        let vs := Spec.cellValues es idx samples vals
        if vs = [] then none else some (vs.sum / vs.length) := by
  obtain ⟨A, h1, h2, h3⟩ := call_eq (nbin es) ni h.ni (resMean (xy es ni samples) vals)
  refine ⟨A, h1, by rw [h2, shape_eq], fun idx hi => ?_⟩
  have hlen : idx.length = (nbin es).length := by rw [← List.Forall₂.length_eq hi]; simp [nbin]
  rw [h3 idx hlen, resMean_eq _ _ (by simp [xy, hl]), keyed_values es h.edges ni h.ni.1 samples h.clear _ idx hi]

/-- Population standard deviation of the cell's values (0 for an empty cell). -/
theorem C24_std_partial (es : List (List ℚ)) (ni : List ℕ) (samples : List (List ℚ)) (h : Spec.Ok es ni samples) (vals : List ℚ)
    (hl : vals.length = samples.length) :
    ∃ A, call (nbin es) ni (resStd (xy es ni samples) vals) = .ok A ∧ A.shape = es.map (fun e => e.length - 1) ∧
      ∀ idx, Spec.Valid es idx →
        let vs := Spec.cellValues es idx samples vals
        (vs = [] → A.get idx = 0) ∧
        (vs ≠ [] → A.get idx = Real.sqrt (((vs.map (fun v => (v - vs.sum / vs.length) ^ 2)).sum / vs.length : ℚ) : ℝ)) := by
  obtain ⟨A, h1, h2, h3⟩ := call_eq (nbin es) ni h.ni (resStd (xy es ni samples) vals)
  refine ⟨A, h1, by rw [h2, shape_eq], fun idx hi => ?_⟩
  have hlen : idx.length = (nbin es).length := by rw [← List.Forall₂.length_eq hi]; simp [nbin]
  intro vs
  have hv := resVar_eq (xy es ni samples) vals (by simp [xy, hl]) (xyOf (nbin es) ni (idx.map (fun i => i + 1)))
  rw [keyed_values es h.edges ni h.ni.1 samples h.clear _ idx hi] at hv
  rw [h3 idx hlen]
  unfold resStd
  rw [hv]
  constructor
  · intro he
    show Real.sqrt ((if vs = [] then _ else _ : ℚ) : ℝ) = 0
    rw [if_pos he]; simp
  · intro he
    show Real.sqrt ((if vs = [] then _ else _ : ℚ) : ℝ) = _
    rw [if_neg he]
    congr 2
    have hn : (vs.length : ℚ) ≠ 0 := by simpa using he
    have key : ∀ (m : ℚ) (l : List ℚ), (l.map (fun v => (v - m) ^ 2)).sum =
        (l.map (fun v => v ^ 2)).sum - 2 * m * l.sum + l.length * m ^ 2 := by
      intro m l
      induction l with
      | nil => simp
      | cons a l ih => simp only [List.map_cons, List.sum_cons, ih, List.length_cons]; push_cast; ring
    rw [key]
    change (vs.map (fun v => v ^ 2)).sum / vs.length - (vs.sum / vs.length) ^ 2 = _
    field_simp
    ring

/-- Median and user functions: the function is applied to a rearrangement of exactly the cell's values - hence to the
cell's values themselves for every function that does not depend on the order, like the median -, and empty cells get
the value for the empty list. -/
theorem C24_function_partial {β : Type} (es : List (List ℚ)) (ni : List ℕ) (samples : List (List ℚ)) (h : Spec.Ok es ni samples)
    (vals : List ℚ) (hl : vals.length = samples.length) (perm : List ℕ) (hp : IsKeySort (xy es ni samples) perm)
    (f : List ℚ → β) (null : β) :
    ∃ A, call (nbin es) ni (resFun (xy es ni samples) perm vals f null) = .ok A ∧ A.shape = es.map (fun e => e.length - 1) ∧
      ∀ idx, Spec.Valid es idx →
        let vs := Spec.cellValues es idx samples vals
        (vs = [] → A.get idx = null) ∧
        (vs ≠ [] → ∃ l : List ℚ, l.Perm vs ∧ A.get idx = f l) ∧
        ((∀ a b : List ℚ, a.Perm b → f a = f b) → vs ≠ [] → A.get idx = f vs) := by
  obtain ⟨A, h1, h2, h3⟩ := call_eq (nbin es) ni h.ni (resFun (xy es ni samples) perm vals f null)
  refine ⟨A, h1, by rw [h2, shape_eq], fun idx hi => ?_⟩
  have hlen : idx.length = (nbin es).length := by rw [← List.Forall₂.length_eq hi]; simp [nbin]
  intro vs
  obtain ⟨ha, hb⟩ := resFun_eq (xy es ni samples) perm hp vals (by simp [xy, hl]) f null (xyOf (nbin es) ni (idx.map (fun i => i + 1)))
  rw [keyed_values es h.edges ni h.ni.1 samples h.clear _ idx hi] at ha hb
  rw [h3 idx hlen]
  refine ⟨ha, hb, fun hf hv => ?_⟩
  obtain ⟨l, hl1, hl2⟩ := hb hv
  rw [hl2]; exact hf _ _ hl1

/-- Two dimensions with 3 and 1 bins (so the axes are permuted internally). -/
def demoEdges : List (List ℚ) := [[0, 1, 2, 3], [0, 10]]
/-- see `demoEdges` -/
def demoSamples : List (List ℚ) := [[0, 5], [3, 10], [1, 0], [1/2, 11], [2, 2], [5/2, 3]]
example : IsArgsort (nbin demoEdges) [1, 0] := by
  unfold IsArgsort
  refine ⟨by decide, by simp [nbin, demoEdges]⟩
example : (match call (nbin demoEdges) [1, 0] (resSum (xy demoEdges [1, 0] demoSamples) [1, 2, 4, 8, 16, 32]) with
    | .ok A => (A.shape, [A.get [0, 0], A.get [1, 0], A.get [2, 0]])
    | .error _ => ([], [])) = ([3, 1], [1, 4, 50]) := by decide +kernel
/-- The hypotheses of the theorems are met by this example. -/
example : Spec.Ok demoEdges [1, 0] demoSamples := by
  refine ⟨?_, ⟨by decide, by simp [nbin, demoEdges]⟩, ?_⟩
  · intro e he
    simp only [demoEdges, List.mem_cons, List.not_mem_nil, or_false] at he
    rcases he with rfl | rfl <;> refine ⟨by simp, ?_⟩ <;> simp [List.pairwise_cons] <;> norm_num
  · have w1 : minWidth [0, 1, 2, 3] = 1 := by decide +kernel
    have w2 : minWidth [0, 10] = 10 := by decide +kernel
    intro s hs
    simp only [demoSamples, List.mem_cons, List.not_mem_nil, or_false] at hs
    rcases hs with rfl | rfl | rfl | rfl | rfl | rfl <;>
      (simp only [demoEdges, List.forall₂_cons, List.Forall₂.nil, and_true]
       constructor <;> intro l hl <;> simp at hl <;> subst hl <;> (try rw [w1]) <;> (try rw [w2]) <;> norm_num [abs_of_pos, abs_of_neg])

/-- C23 without the clearance hypothesis is false: a sample just below the last edge is in the last bin, but is counted
one bin lower - with a single bin it is lost altogether. -/
theorem C23_near_last_edge_refuted :
    Spec.inBin [0, 1] 0 (1 - 1 / 10 ^ 9) ∧ binNo [0, 1] (1 - 1 / 10 ^ 9) = 0 ∧
    Spec.inBin [0, 1, 2] 1 (2 - 1 / 10 ^ 9) ∧ binNo [0, 1, 2] (2 - 1 / 10 ^ 9) = 1 ∧
    ¬ Spec.inBin [0, 1] 0 (1 + 1 / 10 ^ 9) ∧ binNo [0, 1] (1 + 1 / 10 ^ 9) = 1 := by decide +kernel

/-- ... so it is missing from the count. -/
theorem C23_lost_sample_refuted :
    (match call (nbin [[0, 1]]) [0] (resCount (xy [[0, 1]] [0] [[1/2], [1 - 1 / 10 ^ 9]])) with
    | .ok A => A.get [0]
    | .error _ => 0) = 1 := by decide +kernel

/-- C24 without the clearance hypothesis is false: the only cell holds the values 3 and 4, but the value of the sample
just below the last edge is missing from the sum and from the mean. -/
theorem C24_lost_value_refuted :
    Spec.cellValues [[0, 1]] [0] [[1/2], [1 - 1 / 10 ^ 9]] [3, 4] = [3, 4] ∧
    (match call (nbin [[0, 1]]) [0] (resSum (xy [[0, 1]] [0] [[1/2], [1 - 1 / 10 ^ 9]]) [3, 4]) with
    | .ok A => A.get [0]
    | .error _ => 0) = 3 ∧
    (match call (nbin [[0, 1]]) [0] (resMean (xy [[0, 1]] [0] [[1/2], [1 - 1 / 10 ^ 9]]) [3, 4]) with
    | .ok A => A.get [0]
    | .error _ => none) = some 3 := by decide +kernel

/-! ## C25 -/

theorem mixed_digit : ∀ (l : List (ℕ × ℕ)) (k : ℕ) (c r : ℕ), (∀ p ∈ l, p.1 < p.2) → l[k]? = some (c, r) →
    mixed l / ((l.drop (k + 1)).map Prod.snd).prod % r = c ∧ (k = 0 → mixed l / ((l.drop (k + 1)).map Prod.snd).prod = c)
  | [], k, c, r, _, h => by simp at h
  | (c', r') :: t, 0, c, r, hlt, h => by
    simp only [List.getElem?_cons_zero, Option.some.injEq, Prod.mk.injEq] at h
    obtain ⟨rfl, rfl⟩ := h
    have ht := mixed_lt t (fun p hp => hlt p (by simp [hp]))
    have hc := hlt (c', r') (by simp)
    simp only at hc
    simp only [mixed, List.drop_succ_cons, List.drop_zero]
    have : (c' * (t.map Prod.snd).prod + mixed t) / (t.map Prod.snd).prod = c' := by
      rw [Nat.mul_comm, Nat.mul_add_div (by omega), Nat.div_eq_of_lt ht, Nat.add_zero]
    rw [this, Nat.mod_eq_of_lt hc]
    exact ⟨rfl, fun _ => rfl⟩
  | (c', r') :: t, k + 1, c, r, hlt, h => by
    simp only [List.getElem?_cons_succ] at h
    obtain ⟨ih, _⟩ := mixed_digit t k c r (fun p hp => hlt p (by simp [hp])) h
    refine ⟨?_, by omega⟩
    simp only [mixed, List.drop_succ_cons]
    set Q := ((t.drop (k + 1)).map Prod.snd).prod with hQ
    -- the product of all radices of t is (those before k) * r * Q
    have hsplit : (t.map Prod.snd).prod = ((t.take k).map Prod.snd).prod * (r * Q) := by
      obtain ⟨hk, hk'⟩ := List.getElem?_eq_some_iff.1 h
      conv_lhs => rw [← List.take_append_drop k t, List.drop_eq_getElem_cons hk, hk']
      simp [hQ]
    have hQpos : 0 < Q := by
      rw [hQ]
      apply Nat.pos_of_ne_zero
      rw [ne_eq, List.prod_eq_zero_iff]
      intro h0
      obtain ⟨p, hp, hp0⟩ := List.mem_map.1 h0
      have := hlt p (by simp [List.mem_of_mem_drop hp])
      omega
    rw [hsplit, show c' * (((t.take k).map Prod.snd).prod * (r * Q)) + mixed t =
      Q * (r * (c' * ((t.take k).map Prod.snd).prod)) + mixed t by ring, Nat.mul_add_div hQpos, Nat.mul_add_mod]
    exact ih

/-- C25, the part that holds: when all dimensions have the same number of bins (and argsort keeps their order),
`binmap` returns the bin numbers. -/
theorem C25_equal_bins_partial (D r : ℕ) (counts : List ℕ) (hc : counts.length = D) (hlt : ∀ c ∈ counts, c < r) :
    binmap (List.replicate D r) (List.range D) (xyOf (List.replicate D r) (List.range D) counts) = counts := by
  have hl : (List.range D).map (fun d => (counts.getD d 0, (List.replicate D r).getD d 0)) = counts.map (fun c => (c, r)) := by
    apply List.ext_getElem
    · simp [hc]
    · intro k h1 h2
      simp only [List.length_map, List.length_range] at h1
      simp [h1, hc]
  have hx : xyOf (List.replicate D r) (List.range D) counts = mixed (counts.map (fun c => (c, r))) := by
    unfold xyOf; rw [hl]
  rw [hx]
  have hn : ∀ k, k < D → (List.replicate D r).getD ((List.range D).getD k 0) 0 = r := by
    intro k hk
    simp [hk]
  unfold binmap
  simp only [List.length_range]
  apply List.ext_getElem
  · simp [hc]
  · intro k h1 h2
    simp only [List.length_map, List.length_range] at h1
    rw [List.getElem_map, List.getElem_range]
    have hprod : ((List.range' (k + 1) (D - 1 - k)).map (fun k => (List.replicate D r).getD ((List.range D).getD k 0) 0)).prod =
        (((counts.map (fun c => (c, r))).drop (k + 1)).map Prod.snd).prod := by
      congr 1
      apply List.ext_getElem
      · simp [hc]; omega
      · intro j h3 h4
        simp only [List.length_map, List.length_range'] at h3
        rw [List.getElem_map, hn _ (by simp; omega)]
        simp
    obtain ⟨hd1, hd2⟩ := mixed_digit (counts.map (fun c => (c, r))) k counts[k] r (by
      intro p hp; obtain ⟨c, hcm, rfl⟩ := List.mem_map.1 hp; exact hlt c hcm) (by simp [h2])
    simp only [hprod]
    by_cases hk0 : k = 0
    · rw [if_neg (by omega)]
      exact hd2 hk0
    · rw [if_pos (by omega), hn (k - 1) (by omega)]
      exact hd1

example : binmap [5, 5, 5] [0, 1, 2] (xyOf [5, 5, 5] [0, 1, 2] [3, 0, 4]) = [3, 0, 4] := by decide +kernel

/-- C25 is false in general: with 1 and 3 bins the reported bin numbers differ from the ones used, and with 3 and 1 bins
the two rows are also exchanged. -/
theorem C25_refuted :
    binmap [3, 5] [0, 1] (xyOf [3, 5] [0, 1] [1, 3]) = [1, 2] ∧
    binmap [5, 3] [1, 0] (xyOf [5, 3] [1, 0] [2, 1]) = [1, 1] := by decide +kernel

/-! ## C26 -/

/-- C26 is false for samples passed as an array: the masked rows of the caller's own array are overwritten. -/
theorem C26_caller_array_overwritten_refuted (es : List (List ℚ)) (m : List Bool) (samples : List (List ℚ)) (k : ℕ) (s : List ℚ)
    (hm : m[k]? = some false) (hs : samples[k]? = some s) (a : Arg)
    (ha : a = .floatArray ∨ a = .intArray) :
    (construct a es m samples).1[k]? = some (List.zipWith (fun e _ => maskedValue a e) es s) := by
  rcases ha with rfl | rfl <;> simp [construct, maskSamples, List.getElem?_zipWith, hm, hs]

example : (construct .floatArray [[0, 1, 2]] [true, false] [[1/2], [3/2]]).1 = [[1/2], [-1/100]] := by decide +kernel

/-- C26 is false for integer samples, passed as an array or as sequences: the out-of-range marker is truncated to an integer and the masked sample is counted
in the first bin. -/
theorem C26_integer_masked_counted_refuted :
    counts [[0, 1, 2]] ((construct .intArray [[0, 1, 2]] [true, false] [[1], [1]]).2[1]?.getD []) = [1] ∧
    counts [[0, 1, 2]] ((construct .intSequence [[0, 1, 2]] [true, false] [[1], [1]]).2[1]?.getD []) = [1] := by
  decide +kernel

/-- C26, what holds: samples passed as a sequence are left alone ... -/
theorem C26_sequence_unchanged_partial (es : List (List ℚ)) (m : List Bool) (samples : List (List ℚ)) :
    (construct .sequence es m samples).1 = samples ∧ (construct .intSequence es m samples).1 = samples := ⟨rfl, rfl⟩

/-- ... and except for integer samples a masked sample is in no bin (its bin number is 0, "below", in every dimension,
and it keeps the clearance the binning theorems need), while the other samples are as given. -/
theorem C26_masked_nowhere_partial (a : Arg) (ha : a ≠ .intArray ∧ a ≠ .intSequence) (es : List (List ℚ)) (hE : ∀ e ∈ es, Spec.Edges e)
    (m : List Bool) (samples : List (List ℚ)) (k : ℕ) (s : List ℚ) (hs : samples[k]? = some s) (hl : s.length = es.length) :
    (m[k]? = some true → (construct a es m samples).2[k]? = some s) ∧
    (m[k]? = some false → ∃ s', (construct a es m samples).2[k]? = some s' ∧ counts es s' = es.map (fun _ => 0) ∧
      List.Forall₂ Spec.Clear es s' ∧ (es ≠ [] → ∀ idx, ¬ Spec.inCell es idx s')) := by
  constructor
  · intro hm; simp [construct, maskSamples, List.getElem?_zipWith, hm, hs]
  · intro hm
    have key : ∀ e, Spec.Edges e → ∃ e0 last, e[0]? = some e0 ∧ e.getLast? = some last ∧ maskedValue a e < e0 ∧ minWidth e ≤ last - e0 := by
      intro e he
      have hlen := he.1
      obtain ⟨e0, h0⟩ : ∃ b, e[0]? = some b := ⟨_, List.getElem?_eq_getElem (by omega)⟩
      obtain ⟨e1, h1⟩ : ∃ b, e[1]? = some b := ⟨_, List.getElem?_eq_getElem (by omega)⟩
      obtain ⟨last, h2⟩ : ∃ b, e[e.length - 1]? = some b := ⟨_, List.getElem?_eq_getElem (by omega)⟩
      refine ⟨e0, last, h0, by rw [getLast?_eq_get, h2], ?_, ?_⟩
      · have : e.headD 0 = e0 := by cases e with
          | nil => simp at h0
          | cons x t => simpa using h0
        unfold maskedValue storeAs
        rw [if_neg (by rintro (h | h); exact ha.1 h; exact ha.2 h), this]
        have := abs_nonneg e0
        linarith
      · have h3 := (minWidth_spec e he).2 0 e0 e1 h0 h1
        rcases Nat.lt_or_ge 1 (e.length - 1) with h4 | h4
        · have := pairwise_lt_get e he.2 1 (e.length - 1) e1 last h4 h1 h2; linarith
        · have : e.length - 1 = 1 := by omega
          rw [this, h1] at h2; simp at h2; linarith
    refine ⟨List.zipWith (fun e _ => maskedValue a e) es s, by simp [construct, maskSamples, List.getElem?_zipWith, hm, hs], ?_, ?_, ?_⟩
    · clear hs hm
      induction es generalizing s with
      | nil => simp [counts]
      | cons e es ih =>
        match s, hl with
        | x :: s, hl =>
          have := ih (fun e he => hE e (by simp [he])) s (by simpa using hl)
          simp only [counts, List.zipWith_cons_cons, List.map_cons, List.cons.injEq] at this ⊢
          refine ⟨?_, this⟩
          obtain ⟨e0, last, h0, h1, h2, h3⟩ := key e (hE e (by simp))
          have hd : Np.digitize e (maskedValue a e) = 0 := by
            by_contra hc
            have := (Np.getElem?_le_iff_digitize e ((hE e (by simp)).2.imp le_of_lt) (maskedValue a e) 0 e0 h0).2 (by omega)
            linarith
          unfold binNo
          rw [hd]; simp
    · clear hs hm
      induction es generalizing s with
      | nil => simp
      | cons e es ih =>
        match s, hl with
        | x :: s, hl =>
          simp only [List.zipWith_cons_cons, List.forall₂_cons]
          refine ⟨?_, ih (fun e he => hE e (by simp [he])) s (by simpa using hl)⟩
          obtain ⟨e0, last, h0, h1, h2, h3⟩ := key e (hE e (by simp))
          intro l hl'
          rw [h1] at hl'; simp at hl'; subst hl'
          right
          have hw := (minWidth_spec e (hE e (by simp))).1
          rw [abs_of_neg (by linarith)]
          have : minWidth e / 10 ^ 5 ≤ minWidth e := by rw [div_le_iff₀ (by norm_num)]; nlinarith
          linarith
    · intro hne idx hin
      match es, s, hl, hne with
      | e :: es, x :: s, hl, _ =>
        cases idx with
        | nil => simp [Spec.inCell] at hin
        | cons i idx =>
          simp only [List.zipWith_cons_cons, Spec.inCell] at hin
          obtain ⟨e0, last, h0, h1, h2, h3⟩ := key e (hE e (by simp))
          have hb := hin.1
          unfold Spec.inBin at hb
          split at hb
          · next u w hu hw =>
            have : e0 ≤ u := by
              rcases Nat.eq_zero_or_pos i with hi | hi
              · subst hi; rw [h0] at hu; simp at hu; linarith
              · exact le_of_lt (pairwise_lt_get e (hE e (by simp)).2 0 i e0 u hi h0 hu)
            linarith [hb.1]
          · exact hb

end Verif.Binned
