import Verif.Binned.AxisLemmas

namespace Verif.Binned
open Verif

theorem counts_iff (es : List (List ℚ)) (hE : ∀ e ∈ es, Spec.Edges e) (s : List ℚ) (hs : List.Forall₂ Spec.Clear es s)
    (idx : List ℕ) (hi : List.Forall₂ (fun e i => i + 1 < e.length) es idx) :
    counts es s = idx.map (fun i => i + 1) ↔ Spec.inCell es idx s := by
  induction es generalizing s idx with
  | nil => cases hs; cases hi; simp [counts, Spec.inCell]
  | cons e es ih =>
    cases hs with
    | cons h1 h2 =>
      cases hi with
      | cons h3 h4 =>
        have := ih (fun e he => hE e (by simp [he])) _ h2 _ h4
        simp only [counts, List.zipWith_cons_cons, List.map_cons, List.cons.injEq, Spec.inCell] at this ⊢
        rw [binNo_iff e (hE e (by simp)) _ h1 _ h3, this]

theorem xyOf_inj (nb ni a b : List ℕ) (hp : ni.Perm (List.range nb.length)) (ha : List.Forall₂ (· < ·) a nb)
    (hb : List.Forall₂ (· < ·) b nb) (h : xyOf nb ni a = xyOf nb ni b) : a = b := by
  have ha' := List.forall₂_iff_get.1 ha
  have hb' := List.forall₂_iff_get.1 hb
  have lt : ∀ (c : List ℕ), List.Forall₂ (· < ·) c nb → ∀ d ∈ ni, c.getD d 0 < nb.getD d 0 := by
    intro c hc d hd
    have hd' : d < nb.length := by have := hp.mem_iff.1 hd; simpa using this
    obtain ⟨h1, h2⟩ := List.forall₂_iff_get.1 hc
    have := h2 d (by omega) hd'
    simpa [hd', show d < c.length by omega] using this
  have := mixed_inj ni (fun d => a.getD d 0) (fun d => b.getD d 0) (fun d => nb.getD d 0) (lt a ha) (lt b hb) h
  apply List.ext_getElem (by omega)
  intro k h1 h2
  have := this k (hp.mem_iff.2 (by simp; omega))
  simpa [h1, h2] using this

theorem counts_lt (es : List (List ℚ)) (s : List ℚ) (h : es.length = s.length) : List.Forall₂ (· < ·) (counts es s) (nbin es) := by
  induction es generalizing s with
  | nil => simp [counts, nbin]
  | cons e es ih =>
    match s, h with
    | x :: s, h =>
      simp only [counts, nbin, List.zipWith_cons_cons, List.map_cons, List.forall₂_cons]
      exact ⟨binNo_lt e x, ih s (by simpa using h)⟩

theorem idx_lt (es : List (List ℚ)) (idx : List ℕ) (hi : List.Forall₂ (fun e i => i + 1 < e.length) es idx) :
    List.Forall₂ (· < ·) (idx.map (fun i => i + 1)) (nbin es) := by
  induction hi with
  | nil => simp [nbin]
  | cons h _ ih => simp only [nbin, List.map_cons, List.forall₂_cons] at ih ⊢; exact ⟨by omega, ih⟩

/-- Key of a sample versus cell. -/
theorem key_iff (es : List (List ℚ)) (hE : ∀ e ∈ es, Spec.Edges e) (ni : List ℕ) (hni : ni.Perm (List.range (nbin es).length))
    (s : List ℚ) (hs : List.Forall₂ Spec.Clear es s) (idx : List ℕ) (hi : List.Forall₂ (fun e i => i + 1 < e.length) es idx) :
    xyOf (nbin es) ni (counts es s) = xyOf (nbin es) ni (idx.map (fun i => i + 1)) ↔ Spec.inCell es idx s := by
  rw [← counts_iff es hE s hs idx hi]
  constructor
  · exact xyOf_inj _ ni _ _ hni (counts_lt es s hs.length_eq) (idx_lt es idx hi)
  · intro h; rw [h]

/-- The values with a given key are the cell's values. -/
theorem keyed_values (es : List (List ℚ)) (hE : ∀ e ∈ es, Spec.Edges e) (ni : List ℕ) (hni : ni.Perm (List.range (nbin es).length))
    (samples : List (List ℚ)) (hs : ∀ s ∈ samples, List.Forall₂ Spec.Clear es s) (vals : List ℚ) (idx : List ℕ)
    (hi : List.Forall₂ (fun e i => i + 1 < e.length) es idx) :
    (((xy es ni samples).zip vals).filter (fun e => decide (e.1 = xyOf (nbin es) ni (idx.map (fun i => i + 1))))).map Prod.snd =
      Spec.cellValues es idx samples vals := by
  unfold xy Spec.cellValues
  induction samples generalizing vals with
  | nil => simp
  | cons s samples ih =>
    cases vals with
    | nil => simp
    | cons v vals =>
      simp only [List.map_cons, List.zip_cons_cons, List.filter_cons]
      have hk := key_iff es hE ni hni s (hs s (by simp)) idx hi
      have := ih (fun s hs' => hs s (by simp [hs'])) vals
      by_cases h : Spec.inCell es idx s
      · simp only [hk.2 h, h, decide_true, if_true, List.map_cons, this]
      · have h' := mt hk.1 h
        simp only [h', h, decide_false, Bool.false_eq_true, if_false, this]

theorem max?_bound (keys : List ℕ) (c : ℕ) (h : c ∈ keys) : c < keyBound keys := by
  unfold keyBound
  cases hm : keys.max? with
  | none => rw [List.max?_eq_none_iff] at hm; subst hm; simp at h
  | some m => have := (List.max?_eq_some_iff.1 hm).2 c h; simp only; omega

theorem filter_none (keys : List ℕ) (w : List ℚ) (c : ℕ) (h : c ∉ keys) : (keys.zip w).filter (fun e => decide (e.1 = c)) = [] := by
  rw [List.filter_eq_nil_iff]
  rintro ⟨a, b⟩ hab
  simp only [decide_eq_true_eq]
  rintro rfl
  exact h (List.of_mem_zip hab).1

theorem resSum_eq (keys : List ℕ) (w : List ℚ) (c : ℕ) :
    resSum keys w c = (((keys.zip w).filter (fun e => decide (e.1 = c))).map Prod.snd).sum := by
  unfold resSum bincount
  by_cases h : c < keyBound keys
  · rw [List.getElem?_map, List.getElem?_range h]; rfl
  · rw [List.getElem?_eq_none (by simpa using h), filter_none keys w c (fun hc => h (max?_bound keys c hc))]; rfl

theorem flatcount_get (keys : List ℕ) (c : ℕ) : ((flatcount keys)[c]?).getD 0 = keys.count c := by
  unfold flatcount
  by_cases h : c < keyBound keys
  · rw [List.getElem?_map, List.getElem?_range h]; rfl
  · rw [List.getElem?_eq_none (by simpa using h), List.count_eq_zero_of_not_mem (fun hc => h (max?_bound keys c hc))]; rfl

theorem resCount_eq (keys : List ℕ) (c : ℕ) : resCount keys c = keys.count c := by
  rw [← flatcount_get]
  unfold resCount
  cases (flatcount keys)[c]? <;> simp

theorem count_eq_length (keys : List ℕ) (w : List ℚ) (h : w.length = keys.length) (c : ℕ) :
    keys.count c = (((keys.zip w).filter (fun e => decide (e.1 = c))).map Prod.snd).length := by
  induction keys generalizing w with
  | nil => simp
  | cons k keys ih =>
    match w, h with
    | v :: w, h =>
      rw [List.count_cons, List.zip_cons_cons, List.filter_cons, ih w (by simpa using h)]
      by_cases hk : k = c <;> simp [hk]

theorem lengths_eq (keys : List ℕ) (w : List ℚ) (c : ℕ) (k : ℕ) (h : (flatcount keys)[c]? = some k) :
    ∃ s, (bincount keys w)[c]? = some s := by
  have h1 := List.getElem?_eq_some_iff.1 h
  obtain ⟨hlt, _⟩ := h1
  have : c < (bincount keys w).length := by simpa [bincount, flatcount] using hlt
  exact ⟨_, List.getElem?_eq_getElem this⟩

theorem resMean_eq (keys : List ℕ) (w : List ℚ) (h : w.length = keys.length) (c : ℕ) :
    resMean keys w c =
      let vs := ((keys.zip w).filter (fun e => decide (e.1 = c))).map Prod.snd
      if vs = [] then none else some (vs.sum / vs.length) := by
  set vs := ((keys.zip w).filter (fun e => decide (e.1 = c))).map Prod.snd with hvs
  simp only
  have hs := resSum_eq keys w c
  have hc := flatcount_get keys c
  rw [count_eq_length keys w h c] at hc
  unfold resSum at hs
  unfold resMean
  cases hf : (flatcount keys)[c]? with
  | none =>
    rw [hf] at hc
    have : vs = [] := List.length_eq_zero_iff.1 hc.symm
    simp [this]
  | some k =>
    obtain ⟨s, hb⟩ := lengths_eq keys w c k hf
    rw [hf] at hc; rw [hb] at hs
    simp only [Option.getD_some] at hc hs
    rw [hb]
    simp only
    by_cases hv : vs = []
    · have : k = 0 := by rw [hc]; exact List.length_eq_zero_iff.2 hv
      rw [if_pos this, if_pos hv]
    · have : k ≠ 0 := by rw [hc]; exact fun h => hv (List.length_eq_zero_iff.1 h)
      rw [if_neg this, if_neg hv, hs, hc]

theorem filter_zip_map (keys : List ℕ) (w : List ℚ) (f : ℚ → ℚ) (c : ℕ) :
    ((keys.zip (w.map f)).filter (fun e => decide (e.1 = c))).map Prod.snd =
      (((keys.zip w).filter (fun e => decide (e.1 = c))).map Prod.snd).map f := by
  induction keys generalizing w with
  | nil => simp
  | cons k keys ih =>
    cases w with
    | nil => simp
    | cons v w =>
      simp only [List.map_cons, List.zip_cons_cons, List.filter_cons]
      by_cases hk : k = c
      · simp only [hk, decide_true, if_true, List.map_cons]
        have := ih w
        rw [← hk] at this ⊢
        rw [this]
      · simp only [hk, decide_false, Bool.false_eq_true, if_false, ih w]

theorem resVar_eq (keys : List ℕ) (w : List ℚ) (h : w.length = keys.length) (c : ℕ) :
    resVar keys w c =
      let vs := ((keys.zip w).filter (fun e => decide (e.1 = c))).map Prod.snd
      if vs = [] then 0 else (vs.map (fun v => v ^ 2)).sum / vs.length - (vs.sum / vs.length) ^ 2 := by
  set vs := ((keys.zip w).filter (fun e => decide (e.1 = c))).map Prod.snd with hvs
  simp only
  have hs := resSum_eq keys w c
  have hs2 := resSum_eq keys (w.map (fun v => v ^ 2)) c
  rw [filter_zip_map] at hs2
  have hc := flatcount_get keys c
  rw [count_eq_length keys w h c] at hc
  unfold resSum at hs hs2
  unfold resVar
  cases hf : (flatcount keys)[c]? with
  | none =>
    rw [hf] at hc
    have : vs = [] := List.length_eq_zero_iff.1 hc.symm
    simp [this]
  | some k =>
    obtain ⟨s, hb⟩ := lengths_eq keys w c k hf
    obtain ⟨s2, hb2⟩ := lengths_eq keys (w.map (fun v => v ^ 2)) c k hf
    rw [hf] at hc; rw [hb] at hs; rw [hb2] at hs2
    simp only [Option.getD_some] at hc hs hs2
    rw [hb, hb2]
    simp only
    by_cases hv : vs = []
    · have : k = 0 := by rw [hc]; exact List.length_eq_zero_iff.2 hv
      rw [if_pos this, if_pos hv]
    · have : k ≠ 0 := by rw [hc]; exact fun h => hv (List.length_eq_zero_iff.1 h)
      rw [if_neg this, if_neg hv, hs, hs2, hc]

/-! ### sorted slices -/

theorem sorted_split (Z : List (ℕ × ℚ)) (h : Z.Pairwise (fun a b => a.1 ≤ b.1)) (c : ℕ) :
    Z = Z.filter (fun e => decide (e.1 < c)) ++ (Z.filter (fun e => decide (e.1 = c)) ++ Z.filter (fun e => decide (c < e.1))) := by
  induction Z with
  | nil => simp
  | cons z Z ih =>
    rw [List.pairwise_cons] at h
    have := ih h.2
    simp only [List.filter_cons]
    rcases lt_trichotomy z.1 c with hz | hz | hz
    · simp only [hz, decide_true, if_true, show ¬ z.1 = c by omega, show ¬ c < z.1 by omega, decide_false, Bool.false_eq_true,
        if_false, List.cons_append]
      rw [← this]
    · have h0 : Z.filter (fun e => decide (e.1 < c)) = [] := by
        rw [List.filter_eq_nil_iff]; intro e he; have := h.1 e he; simp; omega
      rw [h0] at this ⊢
      simp only [hz, lt_irrefl, decide_false, Bool.false_eq_true, if_false, decide_true, if_true, List.nil_append, List.cons_append] at this ⊢
      rw [← this]
    · have h0 : Z.filter (fun e => decide (e.1 < c)) = [] := by
        rw [List.filter_eq_nil_iff]; intro e he; have := h.1 e he; simp; omega
      have h1 : Z.filter (fun e => decide (e.1 = c)) = [] := by
        rw [List.filter_eq_nil_iff]; intro e he; have := h.1 e he; simp; omega
      rw [h0, h1] at this ⊢
      simp only [show ¬ z.1 < c by omega, show ¬ z.1 = c by omega, hz, decide_false, Bool.false_eq_true, if_false, decide_true, if_true,
        List.nil_append] at this ⊢
      rw [← this]

theorem countP_succ (keys : List ℕ) (c : ℕ) :
    keys.countP (fun k => decide (k < c + 1)) = keys.countP (fun k => decide (k < c)) + keys.count c := by
  induction keys with
  | nil => simp
  | cons k keys ih =>
    simp only [List.countP_cons, List.count_cons, ih]
    rcases lt_trichotomy k c with hk | hk | hk
    · simp [hk, show k < c + 1 by omega, show ¬ k = c by omega]; omega
    · simp [hk]; omega
    · simp [show ¬ k < c by omega, show ¬ k < c + 1 by omega, show ¬ k = c by omega]

theorem count_below (keys : List ℕ) (c : ℕ) : ((List.range c).map (fun d => keys.count d)).sum = keys.countP (fun k => decide (k < c)) := by
  induction c with
  | zero => simp
  | succ c ih =>
    rw [List.range_succ, List.map_append, List.sum_append, ih, countP_succ]
    simp

theorem take_flatcount (keys : List ℕ) (c : ℕ) (h : c ≤ keyBound keys) :
    ((flatcount keys).take c).sum = keys.countP (fun k => decide (k < c)) := by
  rw [← count_below]
  unfold flatcount
  rw [← List.map_take, List.take_range, Nat.min_eq_left h]

/-- The slice of the key-sorted values is a rearrangement of the values with that key. -/
theorem resFun_eq {β : Type} (keys perm : List ℕ) (hp : IsKeySort keys perm) (vals : List ℚ) (hl : vals.length = keys.length)
    (f : List ℚ → β) (null : β) (c : ℕ) :
    let vs := ((keys.zip vals).filter (fun e => decide (e.1 = c))).map Prod.snd
    (vs = [] → resFun keys perm vals f null c = null) ∧
    (vs ≠ [] → ∃ l : List ℚ, l.Perm vs ∧ resFun keys perm vals f null c = f l) := by
  intro vs
  have hc := flatcount_get keys c
  rw [count_eq_length keys vals hl c] at hc
  unfold resFun
  cases hf : (flatcount keys)[c]? with
  | none =>
    rw [hf] at hc
    have : vs = [] := List.length_eq_zero_iff.1 hc.symm
    exact ⟨fun _ => rfl, fun h => absurd this h⟩
  | some k =>
    rw [hf] at hc
    simp only [Option.getD_some] at hc
    simp only
    constructor
    · intro hv
      have : k = 0 := by rw [hc]; exact List.length_eq_zero_iff.2 hv
      rw [if_pos this]
    · intro hv
      have hk0 : k ≠ 0 := by rw [hc]; exact fun h => hv (List.length_eq_zero_iff.1 h)
      rw [if_neg hk0]
      refine ⟨_, ?_, rfl⟩
      have hcb : c < keyBound keys := by
        have := (List.getElem?_eq_some_iff.1 hf).1
        simpa [flatcount] using this
      rw [take_flatcount keys c (by omega)]
      let Z : List (ℕ × ℚ) := perm.map (fun i => (keys.getD i 0, vals.getD i 0))
      have hZs : Z.map Prod.snd = perm.map (fun i => vals.getD i 0) := by simp [Z]
      have hZk : Z.map Prod.fst = perm.map (fun i => keys.getD i 0) := by simp [Z]
      have hZperm : Z.Perm (keys.zip vals) := by
        refine (hp.1.map _).trans ?_
        have : (List.range keys.length).map (fun i => (keys.getD i 0, vals.getD i 0)) = keys.zip vals := by
          apply List.ext_getElem
          · simp [hl]
          · intro j h1 h2
            simp only [List.length_map, List.length_range] at h1
            simp [h1, show j < vals.length by omega]
        rw [this]
      have hsorted : Z.Pairwise (fun a b => a.1 ≤ b.1) := by
        have := hp.2
        rw [← hZk, List.pairwise_map] at this
        exact this
      have hlt : (Z.filter (fun e => decide (e.1 < c))).length = keys.countP (fun k => decide (k < c)) := by
        rw [← List.countP_eq_length_filter, hZperm.countP_eq]
        have : (keys.zip vals).map Prod.fst = keys := List.map_fst_zip (by omega)
        conv_rhs => rw [← this, List.countP_map]
        rfl
      have heq : (Z.filter (fun e => decide (e.1 = c))).length = k := by
        rw [hc, List.length_map]
        exact (hZperm.filter _).length_eq
      have hsplit := sorted_split Z hsorted c
      rw [← hZs, ← List.map_drop, ← List.map_take]
      have : (Z.drop (keys.countP (fun k => decide (k < c)))).take k = Z.filter (fun e => decide (e.1 = c)) := by
        conv_lhs => rw [hsplit]
        rw [← hlt, List.drop_left, ← heq, List.take_left]
      rw [this]
      exact (hZperm.filter _).map _

end Verif.Binned
