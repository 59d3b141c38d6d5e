/- C185: a binned-statistic object in use. -/
import Verif.Binned.Session
import Verif.Binned.Props

namespace Verif.Binned
open Verif

/-! ### specification -/

/-- The statistic assigned last, counting only accepted assignments: a name that is not one of the five is refused. -/
def Spec.current : Stat → List Op → Stat
  | st, [] => st
  | st, .setStat (.other _) :: ops => Spec.current st ops
  | _, .setStat new :: ops => Spec.current new ops
  | st, .call _ _ _ :: ops => Spec.current st ops

/-- The statistic is one of the five names or a callable. -/
def Spec.Known : Stat → Prop
  | .other _ => False
  | _ => True

/-- The statistic of the values in a cell (`none` is NaN; a function that raises for no values counts as NaN). -/
noncomputable def Spec.ofCell : Stat → List ℚ → Py (Option ℝ)
  | .mean, vs => .ok (if vs = [] then none else some ((vs.sum / vs.length : ℚ) : ℝ))
  | .std, vs => .ok (some (Real.sqrt (((vs.map (fun v => (v - vs.sum / vs.length) ^ 2)).sum / vs.length : ℚ) : ℝ)))
  | .count, vs => .ok (some (vs.length : ℝ))
  | .sum, vs => .ok (some ((vs.sum : ℚ) : ℝ))
  | .median, vs => .ok (npMedian vs)
  | .fn f, vs => if vs = [] then .ok (match f [] with | .ok v => v | .error _ => none) else f vs
  | .other _, _ => .error .valueError

/-- The statistic does not depend on the order of the values. -/
def Spec.Symmetric : Stat → Prop
  | .fn f => ∀ a b : List ℚ, a.Perm b → f a = f b
  | _ => True

/-- The statistic raises for no non-empty list of values. -/
def Spec.Total : Stat → Prop
  | .fn f => ∀ l : List ℚ, l ≠ [] → ∃ v, f l = .ok v
  | _ => True

/-! ### history -/

/-- Invariant: the caches are empty or hold what would be computed. -/
def Good (argsort : List ℕ → List ℕ) (s : Sess) : Prop :=
  (∀ f, s.flat = some f → f = Binned.flatcount s.keys) ∧ (∀ o, s.order = some o → o = argsort s.keys)

theorem flat_fst (argsort : List ℕ → List ℕ) (s : Sess) (h : Good argsort s) : s.flatcount.1 = Binned.flatcount s.keys := by
  unfold Sess.flatcount
  cases hf : s.flat with
  | none => rfl
  | some f => exact h.1 f hf

theorem order_fst (argsort : List ℕ → List ℕ) (s : Sess) (h : Good argsort s) : (s.argsortIndex argsort).1 = argsort s.keys := by
  unfold Sess.argsortIndex
  cases hf : s.order with
  | none => rfl
  | some f => exact h.2 f hf

theorem flat_snd (argsort : List ℕ → List ℕ) (s : Sess) (h : Good argsort s) :
    Good argsort s.flatcount.2 ∧ s.flatcount.2.nb = s.nb ∧ s.flatcount.2.ni = s.ni ∧ s.flatcount.2.keys = s.keys ∧
      s.flatcount.2.stat = s.stat := by
  unfold Sess.flatcount
  cases hf : s.flat with
  | none => exact ⟨⟨by rintro f ⟨⟩; rfl, h.2⟩, rfl, rfl, rfl, rfl⟩
  | some f => exact ⟨h, rfl, rfl, rfl, rfl⟩

theorem order_snd (argsort : List ℕ → List ℕ) (s : Sess) (h : Good argsort s) :
    Good argsort (s.argsortIndex argsort).2 ∧ (s.argsortIndex argsort).2.nb = s.nb ∧ (s.argsortIndex argsort).2.ni = s.ni ∧
      (s.argsortIndex argsort).2.keys = s.keys ∧ (s.argsortIndex argsort).2.stat = s.stat := by
  unfold Sess.argsortIndex
  cases hf : s.order with
  | none => exact ⟨⟨h.1, by rintro f ⟨⟩; rfl⟩, rfl, rfl, rfl, rfl⟩
  | some f => exact ⟨h, rfl, rfl, rfl, rfl⟩

/-- What a function statistic gives, without the caches. -/
def pureFn (argsort : List ℕ → List ℕ) (f : List ℚ → Py (Option ℝ)) (keys : List ℕ) (vals : List ℚ) : Py (ℕ → Option ℝ) :=
  if (argsort keys).any (fun i => decide (vals.length ≤ i)) then .error .indexError
  else
    match fnLoop f (nullOf f) (Binned.flatcount keys) ((argsort keys).map (fun i => vals.getD i 0)) with
    | .error e => .error e
    | .ok rs => .ok (fun c => (rs[c]?).getD (nullOf f))

theorem callFn_spec (argsort : List ℕ → List ℕ) (f : List ℚ → Py (Option ℝ)) (s : Sess) (vals : List ℚ) (h : Good argsort s) :
    (callFn argsort f s vals).1 = pureFn argsort f s.keys vals ∧ Good argsort (callFn argsort f s vals).2 ∧
      (callFn argsort f s vals).2.nb = s.nb ∧ (callFn argsort f s vals).2.ni = s.ni ∧ (callFn argsort f s vals).2.keys = s.keys ∧
      (callFn argsort f s vals).2.stat = s.stat := by
  have h1 := order_fst argsort s h
  obtain ⟨g, e1, e2, e3, e4⟩ := order_snd argsort s h
  have h2 := flat_fst argsort _ g
  obtain ⟨g', e1', e2', e3', e4'⟩ := flat_snd argsort _ g
  rw [e3] at h2
  unfold callFn pureFn
  simp only
  rw [h1]
  split
  · exact ⟨rfl, g, e1, e2, e3, e4⟩
  · rw [h2]
    cases fnLoop f (nullOf f) (Binned.flatcount s.keys) ((argsort s.keys).map (fun i => vals.getD i 0)) with
    | error e => exact ⟨rfl, g', e1'.trans e1, e2'.trans e2, e3'.trans e3, e4'.trans e4⟩
    | ok rs => exact ⟨rfl, g', e1'.trans e1, e2'.trans e2, e3'.trans e3, e4'.trans e4⟩

/-- The flat result without the caches. -/
noncomputable def pureFlat (mem : ℕ → Option ℝ) (argsort : List ℕ → List ℕ) (keys : List ℕ) (vals : List ℚ) : Stat → Py (ℕ → Option ℝ)
  | .mean => if vals.length ≠ keys.length then .error .valueError else .ok (meanFrom (Binned.flatcount keys) (bincount keys vals))
  | .std =>
    if vals.length ≠ keys.length then .error .valueError
    else .ok (stdFrom (Binned.flatcount keys) (bincount keys vals) (bincount keys (vals.map (fun v => v ^ 2))))
  | .count => .ok (fun c => some ((((Binned.flatcount keys)[c]?).getD 0 : ℕ) : ℝ))
  | .sum =>
    if vals.length ≠ keys.length then .error .valueError
    else .ok (fun c => some ((((bincount keys vals)[c]?).getD 0 : ℚ) : ℝ))
  | .median => pureFn argsort (fun l => .ok (npMedian l)) keys vals
  | .fn f => pureFn argsort f keys vals
  | .other _ => .ok mem

theorem callFlat_spec (mem : ℕ → Option ℝ) (argsort : List ℕ → List ℕ) (s : Sess) (vals : List ℚ) (arg : Option Stat)
    (h : Good argsort s) :
    (callFlat mem argsort s vals arg).1 = pureFlat mem argsort s.keys vals (arg.getD s.stat) ∧
      Good argsort (callFlat mem argsort s vals arg).2 ∧ (callFlat mem argsort s vals arg).2.nb = s.nb ∧
      (callFlat mem argsort s vals arg).2.ni = s.ni ∧ (callFlat mem argsort s vals arg).2.keys = s.keys ∧
      (callFlat mem argsort s vals arg).2.stat = s.stat := by
  have h1 := flat_fst argsort s h
  have h2 := flat_snd argsort s h
  unfold callFlat pureFlat
  cases arg.getD s.stat with
  | mean => simp only; split <;> [exact ⟨rfl, h, rfl, rfl, rfl, rfl⟩; exact ⟨by rw [h1], h2⟩]
  | std => simp only; split <;> [exact ⟨rfl, h, rfl, rfl, rfl, rfl⟩; exact ⟨by rw [h1], h2⟩]
  | count => exact ⟨by rw [h1], h2⟩
  | sum => simp only; split <;> exact ⟨rfl, h, rfl, rfl, rfl, rfl⟩
  | median => exact callFn_spec argsort _ s vals h
  | fn f => exact callFn_spec argsort f s vals h
  | other n => exact ⟨rfl, h, rfl, rfl, rfl, rfl⟩

theorem call_spec (mem : ℕ → Option ℝ) (argsort : List ℕ → List ℕ) (s : Sess) (vals : List ℚ) (arg : Option Stat)
    (h : Good argsort s) :
    (s.call mem argsort vals arg).1 =
        (match pureFlat mem argsort s.keys vals (arg.getD s.stat) with
          | .error e => .error e
          | .ok flat => Binned.call s.nb s.ni flat) ∧
      Good argsort (s.call mem argsort vals arg).2 ∧ (s.call mem argsort vals arg).2.nb = s.nb ∧
      (s.call mem argsort vals arg).2.ni = s.ni ∧ (s.call mem argsort vals arg).2.keys = s.keys ∧
      (s.call mem argsort vals arg).2.stat = s.stat := by
  obtain ⟨h1, h2⟩ := callFlat_spec mem argsort s vals arg h
  unfold Sess.call
  rw [← h1]
  cases hc : callFlat mem argsort s vals arg with
  | mk r s' =>
    rw [hc] at h2
    cases r with
    | error e => exact ⟨rfl, h2⟩
    | ok flat => exact ⟨rfl, h2⟩

theorem after_spec (argsort : List ℕ → List ℕ) (ops : List Op) (s : Sess) (h : Good argsort s) :
    Good argsort (s.after argsort ops) ∧ (s.after argsort ops).nb = s.nb ∧ (s.after argsort ops).ni = s.ni ∧
      (s.after argsort ops).keys = s.keys ∧ (s.after argsort ops).stat = Spec.current s.stat ops := by
  induction ops generalizing s with
  | nil => exact ⟨h, rfl, rfl, rfl, rfl⟩
  | cons op ops ih =>
    show Good argsort ((s.step argsort op).after argsort ops) ∧ ((s.step argsort op).after argsort ops).nb = s.nb ∧
      ((s.step argsort op).after argsort ops).ni = s.ni ∧ ((s.step argsort op).after argsort ops).keys = s.keys ∧
      ((s.step argsort op).after argsort ops).stat = Spec.current s.stat (op :: ops)
    cases op with
    | setStat st =>
      cases st with
      | other n => exact ih s h
      | _ => exact ih _ h
    | call mem vals arg =>
      obtain ⟨_, g, e1, e2, e3, e4⟩ := call_spec mem argsort s vals arg h
      have := ih (s.call mem argsort vals arg).2 g
      rw [e1, e2, e3, e4] at this
      exact this

/-- C185: earlier calls and assignments (successful or not) have no effect on a call, except that the default statistic is
the one assigned last.  `nb`, `ni`, `keys` are the bin numbers, their argsort and the cell numbers from the constructor. -/
theorem C185_history (argsort : List ℕ → List ℕ) (nb ni keys : List ℕ) (st : Stat) (s : Sess) (hs : newSess nb ni keys st = .ok s)
    (ops : List Op) (mem : ℕ → Option ℝ) (vals : List ℚ) (arg : Option Stat) :
    ∃ s', newSess nb ni keys (Spec.current st ops) = .ok s' ∧
      ((s.after argsort ops).call mem argsort vals arg).1 = (s'.call mem argsort vals arg).1 := by
  have key : ∀ st' : Stat, Spec.Known st' → newSess nb ni keys st' = .ok ⟨nb, ni, keys, none, none, st'⟩ := by
    intro st' h; cases st' with
    | other n => exact h.elim
    | _ => rfl
  have hst : Spec.Known st := by
    cases st with
    | other n => cases hs
    | _ => trivial
  have hcur : ∀ (ops : List Op) (st : Stat), Spec.Known st → Spec.Known (Spec.current st ops) := by
    intro ops
    induction ops with
    | nil => exact fun _ h => h
    | cons op ops ih =>
      intro st h
      cases op with
      | setStat new =>
        cases new with
        | other n => exact ih st h
        | _ => exact ih _ trivial
      | call m v a => exact ih st h
  rw [key st hst] at hs
  injection hs with hs
  have g : Good argsort s := by subst hs; exact ⟨by rintro f ⟨⟩, by rintro f ⟨⟩⟩
  obtain ⟨g', e1, e2, e3, e4⟩ := after_spec argsort ops s g
  refine ⟨_, key _ (hcur ops st hst), ?_⟩
  rw [(call_spec mem argsort _ vals arg g').1, (call_spec mem argsort _ vals arg ⟨by rintro f ⟨⟩, by rintro f ⟨⟩⟩).1, e1, e2, e3, e4]
  subst hs
  rfl

/-! ### values -/

theorem fnLoop_ok (f : List ℚ → Py (Option ℝ)) (null : Option ℝ) (ks : List ℕ) (v : List ℚ)
    (hf : ∀ (c k : ℕ), ks[c]? = some k → 0 < k → ∃ r, f ((v.drop (ks.take c).sum).take k) = .ok r) :
    ∃ rs, fnLoop f null ks v = .ok rs ∧ ∀ c : ℕ,
      .ok ((rs[c]?).getD null) = match ks[c]? with
        | none => Except.ok null
        | some k => if k = 0 then .ok null else f ((v.drop (ks.take c).sum).take k) := by
  induction ks generalizing v with
  | nil => exact ⟨[], rfl, fun c => by simp⟩
  | cons k ks ih =>
    obtain ⟨rs, h1, h2⟩ := ih (v.drop k) (fun c k' hc hk => by
      have := hf (c + 1) k' (by simpa using hc) hk
      simpa [List.drop_drop] using this)
    have h0 : ∃ r, (if 0 < k then f (v.take k) else .ok null) = .ok r := by
      by_cases hk : 0 < k
      · obtain ⟨r, hr⟩ := hf 0 k (by simp) hk
        exact ⟨r, by rw [if_pos hk]; simpa using hr⟩
      · exact ⟨null, by rw [if_neg hk]⟩
    obtain ⟨r, hr⟩ := h0
    refine ⟨r :: rs, ?_, ?_⟩
    · have e : fnLoop f null (k :: ks) v =
          ((if 0 < k then f (v.take k) else .ok null) >>= fun r => fnLoop f null ks (v.drop k) >>= fun rs => .ok (r :: rs)) := by
        by_cases hk : 0 < k <;> simp [fnLoop, hk]
      rw [e, hr, h1]
      rfl
    · intro c
      cases c with
      | zero =>
        simp only [List.getElem?_cons_zero, Option.getD_some, List.take_zero, List.sum_nil, List.drop_zero]
        rw [← hr]
        by_cases hk : k = 0
        · simp [hk]
        · rw [if_pos (by omega), if_neg hk]
      | succ c =>
        simp only [List.getElem?_cons_succ, List.take_succ_cons, List.sum_cons]
        rw [h2 c]
        simp [List.drop_drop]

theorem pureFn_ok (argsort : List ℕ → List ℕ) (f : List ℚ → Py (Option ℝ)) (keys : List ℕ) (vals : List ℚ)
    (hp : IsKeySort keys (argsort keys)) (hl : vals.length = keys.length) (hf : ∀ l : List ℚ, l ≠ [] → ∃ v, f l = .ok v) :
    ∃ flat, pureFn argsort f keys vals = .ok flat ∧ ∀ c : ℕ,
      .ok (flat c) = resFun keys (argsort keys) vals f (.ok (nullOf f)) c := by
  have hlen : (argsort keys).length = keys.length := by rw [hp.1.length_eq]; simp
  have hany : ((argsort keys).any (fun i => decide (vals.length ≤ i))) = false := by
    rw [List.any_eq_false]
    intro i hi
    have := hp.1.mem_iff.1 hi
    simp only [List.mem_range] at this
    simp; omega
  have hsum : (Binned.flatcount keys).sum = keys.length := by
    have := take_flatcount keys (keyBound keys) le_rfl
    rw [List.take_of_length_le (by simp [Binned.flatcount])] at this
    rw [this, List.countP_eq_length]
    intro k hk
    simpa using max?_bound keys k hk
  obtain ⟨rs, h1, h2⟩ := fnLoop_ok f (nullOf f) (Binned.flatcount keys) ((argsort keys).map (fun i => vals.getD i 0)) (by
    intro c k hc hk
    apply hf
    intro h0
    have h3 := congrArg List.length h0
    rw [List.length_take, List.length_drop, List.length_map, hlen] at h3
    have h4 : ((Binned.flatcount keys).take c).sum + k ≤ (Binned.flatcount keys).sum := by
      obtain ⟨hcl, rfl⟩ := List.getElem?_eq_some_iff.1 hc
      calc _ = ((Binned.flatcount keys).take (c + 1)).sum := by rw [List.take_succ_eq_append_getElem hcl, List.sum_append]; simp
        _ ≤ _ := by
          conv_rhs => rw [← List.take_append_drop (c + 1) (Binned.flatcount keys), List.sum_append]
          omega
    simp at h3
    omega)
  refine ⟨_, by unfold pureFn; rw [hany, if_neg (by simp), h1], fun c => ?_⟩
  rw [h2 c]
  rfl

theorem var_eq (vs : List ℚ) (h : vs ≠ []) :
    (vs.map (fun v => v ^ 2)).sum / vs.length - (vs.sum / vs.length) ^ 2 =
      (vs.map (fun v => (v - vs.sum / vs.length) ^ 2)).sum / vs.length := by
  have hn : (vs.length : ℚ) ≠ 0 := by exact_mod_cast fun h0 => h (List.length_eq_zero_iff.1 h0)
  have key : ∀ (l : List ℚ) (m : ℚ), (l.map (fun v => (v - m) ^ 2)).sum = (l.map (fun v => v ^ 2)).sum - 2 * m * l.sum + l.length * m ^ 2 := by
    intro l m
    induction l with
    | nil => simp
    | cons a l ih => simp only [List.map_cons, List.sum_cons, ih, List.length_cons]; push_cast; ring
  rw [key]
  field_simp
  ring

/-- C185: for a statistic that is one of the five names, or a function that does not depend on the order of the values and
does not raise, a call gives in every bin the statistic of the values of the samples in the bin, whatever memory the result
was allocated in. -/
theorem C185_values_partial (argsort : List ℕ → List ℕ) (ha : ∀ k, IsKeySort k (argsort k)) (es : List (List ℚ)) (ni : List ℕ)
    (samples : List (List ℚ)) (h : Spec.Ok es ni samples) (st : Stat) (s : Sess)
    (hs : newSess (nbin es) ni (xy es ni samples) st = .ok s) (vals : List ℚ) (hl : vals.length = samples.length)
    (arg : Option Stat) (hk : Spec.Known (arg.getD st)) (hsym : Spec.Symmetric (arg.getD st)) (htot : Spec.Total (arg.getD st))
    (mem : ℕ → Option ℝ) :
    ∃ A, (s.call mem argsort vals arg).1 = .ok A ∧ A.shape = es.map (fun e => e.length - 1) ∧
      ∀ idx, Spec.Valid es idx → Spec.ofCell (arg.getD st) (Spec.cellValues es idx samples vals) = .ok (A.get idx) := by
  have hs' : s = ⟨nbin es, ni, xy es ni samples, none, none, st⟩ := by
    cases st with
    | other n => cases hs
    | _ => injection hs with hs; exact hs.symm
  subst hs'
  rw [(call_spec mem argsort _ vals arg ⟨by rintro f ⟨⟩, by rintro f ⟨⟩⟩).1]
  set keys := xy es ni samples with hkeys
  have hlk : vals.length = keys.length := by rw [hl, hkeys]; simp [xy]
  have fin : ∀ flat : ℕ → Option ℝ,
      (∀ c : ℕ, Spec.ofCell (arg.getD st) (((keys.zip vals).filter (fun e => decide (e.1 = c))).map Prod.snd) = .ok (flat c)) →
      ∃ A, Binned.call (nbin es) ni flat = .ok A ∧ A.shape = es.map (fun e => e.length - 1) ∧
        ∀ idx, Spec.Valid es idx → Spec.ofCell (arg.getD st) (Spec.cellValues es idx samples vals) = .ok (A.get idx) := by
    intro flat hflat
    obtain ⟨A, h1, h2, h3⟩ := call_eq (nbin es) ni h.ni flat
    refine ⟨A, h1, by rw [h2, shape_eq], fun idx hi => ?_⟩
    have hlen : idx.length = (nbin es).length := by rw [← List.Forall₂.length_eq hi]; simp [nbin]
    rw [h3 idx hlen, ← hflat, keyed_values es h.edges ni h.ni.1 samples h.clear _ idx hi]
  have hfn : ∀ f : List ℚ → Py (Option ℝ), (∀ a b : List ℚ, a.Perm b → f a = f b) → (∀ l : List ℚ, l ≠ [] → ∃ v, f l = .ok v) →
      ∃ flat, pureFn argsort f keys vals = .ok flat ∧ ∀ c : ℕ,
        let vs := ((keys.zip vals).filter (fun e => decide (e.1 = c))).map Prod.snd
        (if vs = [] then .ok (nullOf f) else f vs) = Except.ok (flat c) := by
    intro f hs ht
    obtain ⟨flat, h1, h2⟩ := pureFn_ok argsort f keys vals (ha keys) hlk ht
    refine ⟨flat, h1, fun c => ?_⟩
    obtain ⟨r1, r2⟩ := resFun_eq keys (argsort keys) (ha keys) vals hlk f (.ok (nullOf f)) c
    simp only
    rw [h2 c]
    split
    · rename_i hv; rw [r1 hv]
    · rename_i hv
      obtain ⟨l, hp, hr⟩ := r2 hv
      rw [hr, hs l _ hp]
  simp only
  cases hc : arg.getD st with
  | other n => rw [hc] at hk; exact hk.elim
  | mean =>
    simp only [pureFlat, hlk, ne_eq, not_true, if_false]
    rw [hc] at fin
    apply fin
    intro c
    have hm := resMean_eq keys vals hlk c
    simp only [Spec.ofCell]
    have : meanFrom (Binned.flatcount keys) (bincount keys vals) c = (resMean keys vals c).map (fun q : ℚ => (q : ℝ)) := by
      unfold meanFrom resMean
      split <;> simp_all
      split <;> simp
    rw [this, hm]
    simp only
    split <;> simp
  | std =>
    simp only [pureFlat, hlk, ne_eq, not_true, if_false]
    rw [hc] at fin
    apply fin
    intro c
    have hm := resVar_eq keys vals hlk c
    simp only [Spec.ofCell]
    have : stdFrom (Binned.flatcount keys) (bincount keys vals) (bincount keys (vals.map (fun v => v ^ 2))) c =
        some (Real.sqrt ((resVar keys vals c : ℚ) : ℝ)) := by
      unfold stdFrom resVar
      split <;> simp_all
      split <;> simp
    rw [this, hm]
    simp only
    split
    · rename_i hv; rw [hv]; simp
    · rename_i hv; rw [var_eq _ hv]
  | count =>
    simp only [pureFlat]
    rw [hc] at fin
    apply fin
    intro c
    simp only [Spec.ofCell]
    rw [flatcount_get, count_eq_length keys vals hlk]
  | sum =>
    simp only [pureFlat, hlk, ne_eq, not_true, if_false]
    rw [hc] at fin
    apply fin
    intro c
    have := resSum_eq keys vals c
    unfold resSum at this
    simp only [Spec.ofCell]
    rw [this]
  | median =>
    obtain ⟨flat, h1, h2⟩ := hfn (fun l => .ok (npMedian l)) (by
      intro a b hp
      have hsrt : a.insertionSort (· ≤ ·) = b.insertionSort (· ≤ ·) := by
        apply List.Perm.eq_of_pairwise (le := (· ≤ ·))
        · intro x y _ _ h1 h2; exact le_antisymm h1 h2
        · exact List.pairwise_insertionSort _ _
        · exact List.pairwise_insertionSort _ _
        · exact ((List.perm_insertionSort _ a).trans hp).trans (List.perm_insertionSort _ b).symm
      have hnil : a = [] ↔ b = [] := by
        constructor
        · rintro rfl; exact List.nil_perm.1 hp
        · rintro rfl; exact List.perm_nil.1 hp
      unfold npMedian
      simp only [hsrt, hp.length_eq, hnil]) (fun l _ => ⟨_, rfl⟩)
    simp only [pureFlat, h1]
    rw [hc] at fin
    apply fin
    intro c
    have := h2 c
    simp only at this
    simp only [Spec.ofCell]
    rw [← this]
    split
    · rename_i hv; rw [hv]; rfl
    · rfl
  | fn f =>
    rw [hc] at hsym htot
    obtain ⟨flat, h1, h2⟩ := hfn f hsym htot
    simp only [pureFlat, h1]
    rw [hc] at fin
    apply fin
    intro c
    have := h2 c
    simp only at this
    simp only [Spec.ofCell]
    rw [← this]
    rfl

/-- In a sorted list, at most `k` values are below the k-th and at most `n - 1 - k` above it. -/
theorem sorted_counts (s : List ℚ) (hs : s.Pairwise (· ≤ ·)) (k : ℕ) (hk : k < s.length) :
    s.countP (fun v => decide (v < s.getD k 0)) ≤ k ∧ s.countP (fun v => decide (s.getD k 0 < v)) ≤ s.length - 1 - k := by
  have hg : s.getD k 0 = s[k] := by simp [List.getD_eq_getElem?_getD, hk]
  rw [hg]
  have hp := List.pairwise_iff_getElem.1 hs
  generalize hx : s[k] = x
  constructor
  · conv_lhs => rw [← List.take_append_drop k s]
    rw [List.countP_append]
    have h1 : (s.take k).countP (fun v => decide (v < x)) ≤ k := by
      refine List.countP_le_length.trans ?_
      simp
    have h2 : (s.drop k).countP (fun v => decide (v < x)) = 0 := by
      rw [List.countP_eq_zero]
      intro v hv
      obtain ⟨i, hi, rfl⟩ := List.mem_iff_getElem.1 hv
      simp only [List.getElem_drop, decide_eq_true_eq, not_lt]
      rw [List.length_drop] at hi
      rw [← hx]
      rcases Nat.eq_zero_or_pos i with rfl | h0
      · simp
      · exact hp k (k + i) hk (by omega) (by omega)
    omega
  · conv_lhs => rw [← List.take_append_drop (k + 1) s]
    rw [List.countP_append]
    have h1 : (s.drop (k + 1)).countP (fun v => decide (x < v)) ≤ s.length - 1 - k := by
      refine List.countP_le_length.trans ?_
      simp; omega
    have h2 : (s.take (k + 1)).countP (fun v => decide (x < v)) = 0 := by
      rw [List.countP_eq_zero]
      intro v hv
      obtain ⟨i, hi, rfl⟩ := List.mem_iff_getElem.1 hv
      simp only [List.getElem_take, decide_eq_true_eq, not_lt]
      rw [List.length_take] at hi
      rw [← hx]
      rcases Nat.lt_or_ge i k with h0 | h0
      · exact hp i k (by omega) hk h0
      · have : i = k := by omega
        subst this; exact le_refl _
    omega

/-- What `np.median` means: NaN for no values; otherwise the middle value, or half way between the two middle values. -/
def Spec.IsMedian (l : List ℚ) (m : ℚ) : Prop :=
  ∃ lo ∈ l, ∃ hi ∈ l, m = (lo + hi) / 2 ∧
    2 * l.countP (fun v => decide (v < lo)) < l.length ∧ 2 * l.countP (fun v => decide (lo < v)) ≤ l.length ∧
    2 * l.countP (fun v => decide (v < hi)) ≤ l.length ∧ 2 * l.countP (fun v => decide (hi < v)) < l.length

/-- C185: the median of a cell is the middle value, or half way between the two middle values. -/
theorem C185_median (l : List ℚ) :
    (l = [] → Spec.ofCell .median l = .ok none) ∧
    (l ≠ [] → ∃ m : ℚ, Spec.ofCell .median l = .ok (some (m : ℝ)) ∧ Spec.IsMedian l m) := by
  constructor
  · rintro rfl; simp [Spec.ofCell, npMedian]
  · intro h
    have hn : 0 < l.length := List.length_pos_iff.2 h
    set s := l.insertionSort (· ≤ ·) with hs
    have hperm : s.Perm l := List.perm_insertionSort _ l
    have hsl : s.length = l.length := hperm.length_eq
    have hsort : s.Pairwise (· ≤ ·) := List.pairwise_insertionSort _ _
    have hc : ∀ k, k < l.length → s.getD k 0 ∈ l ∧ l.countP (fun v => decide (v < s.getD k 0)) ≤ k ∧
        l.countP (fun v => decide (s.getD k 0 < v)) ≤ l.length - 1 - k := by
      intro k hk
      have := sorted_counts s hsort k (by omega)
      rw [hperm.countP_eq, hperm.countP_eq, hsl] at this
      refine ⟨hperm.mem_iff.1 ?_, this⟩
      rw [List.getD_eq_getElem?_getD, List.getElem?_eq_getElem (by omega), Option.getD_some]
      exact List.getElem_mem _
    by_cases hodd : l.length % 2 = 1
    · obtain ⟨m1, m2, m3⟩ := hc (l.length / 2) (by omega)
      refine ⟨s.getD (l.length / 2) 0, ?_, _, m1, _, m1, by ring, ?_, ?_, ?_, ?_⟩
      · simp only [Spec.ofCell, npMedian, if_neg h, if_pos hodd]; rfl
      all_goals omega
    · obtain ⟨m1, m2, m3⟩ := hc (l.length / 2 - 1) (by omega)
      obtain ⟨n1, n2, n3⟩ := hc (l.length / 2) (by omega)
      refine ⟨(s.getD (l.length / 2 - 1) 0 + s.getD (l.length / 2) 0) / 2, ?_, _, m1, _, n1, rfl, ?_, ?_, ?_, ?_⟩
      · simp only [Spec.ofCell, npMedian, if_neg h, if_neg hodd]; rfl
      all_goals omega

/-! ### names and lengths -/

/-- C185: a statistic that is neither callable nor one of the five names is refused by the constructor and by assignment,
which then changes nothing; any other is accepted. -/
theorem C185_names (nb ni keys : List ℕ) (s : Sess) (st : Stat) :
    (¬ Spec.Known st → newSess nb ni keys st = .error .valueError ∧ s.setStat st = (.error .valueError, s)) ∧
    (Spec.Known st → (∃ s', newSess nb ni keys st = .ok s' ∧ s'.stat = st) ∧ s.setStat st = (.ok (), { s with stat := st })) := by
  cases st with
  | other n => exact ⟨fun _ => ⟨rfl, rfl⟩, fun h => h.elim⟩
  | _ => exact ⟨fun h => absurd trivial h, fun _ => ⟨⟨_, rfl, rfl⟩, rfl⟩⟩

/-- C185 is false for the `statistic` argument of a call: an unknown name is not refused, and the result is the memory that
`np.empty` returned. -/
theorem C185_unknown_name_refuted (argsort : List ℕ → List ℕ) (s : Sess) (hni : IsArgsort s.nb s.ni) (vals : List ℚ) (name : String)
    (junk : Option ℝ) :
    ∃ A, (s.call (fun _ => junk) argsort vals (some (.other name))).1 = .ok A ∧ A.shape = s.nb.map (fun n => n - 2) ∧
      ∀ idx, idx.length = s.nb.length → A.get idx = junk := by
  obtain ⟨A, h1, h2, h3⟩ := call_eq s.nb s.ni hni (fun _ => junk)
  exact ⟨A, h1, h2, h3⟩

/-- C185, lengths: 'mean', 'std' and 'sum' of values that are not as many as the samples raise ValueError; a median or a
function of too few values raises IndexError. -/
theorem C185_length_partial (argsort : List ℕ → List ℕ) (ha : ∀ k, IsKeySort k (argsort k)) (nb ni keys : List ℕ) (s : Sess)
    (st : Stat) (hs : newSess nb ni keys st = .ok s) (mem : ℕ → Option ℝ) (vals : List ℚ) (hl : vals.length ≠ keys.length) :
    ((st = .mean ∨ st = .std ∨ st = .sum) → (s.call mem argsort vals none).1 = .error .valueError) ∧
    ((st = .median ∨ ∃ f, st = .fn f) → vals.length < keys.length → (s.call mem argsort vals none).1 = .error .indexError) := by
  have hany : vals.length < keys.length → ((argsort keys).any (fun i => decide (vals.length ≤ i))) = true := by
    intro h
    rw [List.any_eq_true]
    exact ⟨vals.length, (ha keys).1.mem_iff.2 (by simpa using h), by simp⟩
  have hs' : s = ⟨nb, ni, keys, none, none, st⟩ := by
    cases st with
    | other n => cases hs
    | _ => injection hs with hs; exact hs.symm
  subst hs'
  rw [(call_spec mem argsort _ vals none ⟨by rintro f ⟨⟩, by rintro f ⟨⟩⟩).1]
  constructor
  · rintro (rfl | rfl | rfl) <;> simp [pureFlat, hl]
  · rintro (rfl | ⟨f, rfl⟩) hlt <;> simp [pureFlat, pureFn, hany hlt]

/-- C185 is false for more values than samples with a median or a function, and for any number of values with 'count': the
superfluous values are ignored without an error. -/
theorem C185_length_refuted (argsort : List ℕ → List ℕ) (ha : ∀ k, IsKeySort k (argsort k)) (nb ni keys : List ℕ) (s : Sess)
    (st : Stat) (hs : newSess nb ni keys st = .ok s) (mem : ℕ → Option ℝ) (vals extra : List ℚ) (hl : vals.length = keys.length) :
    ((st = .median ∨ ∃ f, st = .fn f) →
      (s.call mem argsort (vals ++ extra) none).1 = (s.call mem argsort vals none).1) ∧
    (st = .count → ∀ v, (s.call mem argsort v none).1 = (s.call mem argsort vals none).1) := by
  have hs' : s = ⟨nb, ni, keys, none, none, st⟩ := by
    cases st with
    | other n => cases hs
    | _ => injection hs with hs; exact hs.symm
  have hb : ∀ i ∈ argsort keys, i < vals.length := by
    intro i hi
    have := (ha keys).1.mem_iff.1 hi
    rw [hl]; simpa using this
  have hany : ∀ v : List ℚ, vals.length ≤ v.length → ((argsort keys).any (fun i => decide (v.length ≤ i))) = false := by
    intro v hv
    rw [List.any_eq_false]
    intro i hi
    have := hb i hi
    simp; omega
  have hmap : (argsort keys).map (fun i => (vals ++ extra).getD i 0) = (argsort keys).map (fun i => vals.getD i 0) := by
    apply List.map_congr_left
    intro i hi
    simp [List.getD_eq_getElem?_getD, List.getElem?_append_left (hb i hi)]
  have hfn : ∀ f, pureFn argsort f keys (vals ++ extra) = pureFn argsort f keys vals := by
    intro f
    unfold pureFn
    rw [hany vals le_rfl, hany (vals ++ extra) (by simp), hmap]
  subst hs'
  have hg : Good argsort (⟨nb, ni, keys, none, none, st⟩ : Sess) := ⟨by rintro f ⟨⟩, by rintro f ⟨⟩⟩
  constructor
  · intro h
    rw [(call_spec mem argsort _ _ none hg).1, (call_spec mem argsort _ vals none hg).1]
    rcases h with rfl | ⟨f, rfl⟩ <;> simp [pureFlat, hfn]
  · rintro rfl v
    rw [(call_spec mem argsort _ v none hg).1, (call_spec mem argsort _ vals none hg).1]
    rfl

theorem allEdges_mem (l : List ((ℚ × ℚ) × BinItem)) (es : List (List ℚ)) (h : allEdges l = .ok es) :
    es.length = l.length ∧ ∀ e ∈ es, 2 ≤ e.length ∧ e.Pairwise (· < ·) := by
  induction l generalizing es with
  | nil => injection h with h; subst h; simp
  | cons x t ih =>
    simp only [allEdges, bind, Except.bind] at h
    cases hd : dimEdges x with
    | error e => rw [hd] at h; cases h
    | ok e =>
      rw [hd] at h
      cases ht : allEdges t with
      | error e' => rw [ht] at h; cases h
      | ok es' =>
        rw [ht] at h
        injection h with h
        subst h
        obtain ⟨h1, h2⟩ := ih es' ht
        refine ⟨by simp [h1], ?_⟩
        intro e' he'
        rcases List.mem_cons.1 he' with rfl | he'
        · simp only [dimEdges, bind, Except.bind] at hd
          cases hi : itemEdges (widen x.1) x.2 with
          | error e => rw [hi] at hd; cases hd
          | ok e0 =>
            rw [hi] at hd
            simp only [checkEdges] at hd
            split at hd
            · cases hd
            · split at hd
              · injection hd with hd; subst hd; exact ⟨by omega, by assumption⟩
              · split at hd <;> cases hd
        · exact h2 e' he'

/-- C185: `bin_centers` of a one-dimensional object are the midpoints of `bin_edges`, one per bin, and each is strictly
inside its bin. -/
theorem C185_centers (bins : BinArg) (range : Option (ℚ × ℚ)) (mask : Option (List Bool)) (x : List ℚ) (o : Obj)
    (h : ctor1D bins range mask x = .ok o) :
    ∃ e c, o.binEdges1 = .ok e ∧ o.binCenters1 = .ok c ∧ c.length + 1 = e.length ∧
      ∀ (i : ℕ) (a b : ℚ), e[i]? = some a → e[i + 1]? = some b → c[i]? = some ((a + b) / 2) ∧ a < (a + b) / 2 ∧ (a + b) / 2 < b := by
  have key : ∃ e l, o.edges = e :: l ∧ 2 ≤ e.length ∧ e.Pairwise (· < ·) := by
    simp only [ctor1D, ctorDD, edgesDD, bind, Except.bind] at h
    cases hb : bins1D bins with
    | error e => rw [hb] at h; cases h
    | ok b =>
      rw [hb] at h
      simp only at h
      cases hi : items 1 b with
      | error e => rw [hi] at h; cases h
      | ok it =>
        rw [hi] at h
        simp only at h
        have hil : it.length = 1 := by
          unfold items at hi
          split at hi
          · injection hi with hi; subst hi; simp
          · split at hi
            · injection hi with hi; subst hi; assumption
            · cases hi
        cases hl : limits 1 (range.map (fun p => [p])) (x.map (fun v => [v])) with
        | error e => rw [hl] at h; cases h
        | ok lim =>
          rw [hl] at h
          simp only at h
          have hll : lim.length = 1 := by
            unfold limits at hl
            cases range with
            | none =>
              simp only [Option.map_none] at hl
              split at hl
              · cases hl
              · injection hl with hl; subst hl; simp
            | some p => simp at hl; subst hl; simp
          cases ha : allEdges (lim.zip it) with
          | error e => rw [ha] at h; cases h
          | ok es =>
            rw [ha] at h
            simp only at h
            obtain ⟨h1, h2⟩ := allEdges_mem _ _ ha
            have ho : o.edges = es := by
              cases mask with
              | none => injection h with h; subst h; rfl
              | some m =>
                simp only at h
                split at h
                · cases h
                · injection h with h; subst h; rfl
            rw [List.length_zip, hll, hil] at h1
            cases es with
            | nil => simp at h1
            | cons e l => exact ⟨e, l, ho, h2 e (by simp)⟩
  obtain ⟨e, l, ho, h2, hp⟩ := key
  refine ⟨e, Utils.binEdgesToCenters e, by simp [Obj.binEdges1, ho], by simp [Obj.binCenters1, ho], ?_, ?_⟩
  · simp [Utils.binEdgesToCenters]; omega
  · intro i a b ha hb
    have hab : a < b := by
      obtain ⟨h3, rfl⟩ := List.getElem?_eq_some_iff.1 ha
      obtain ⟨h4, rfl⟩ := List.getElem?_eq_some_iff.1 hb
      exact List.pairwise_iff_getElem.1 hp i (i + 1) h3 h4 (by omega)
    have hi : i + 1 < e.length := (List.getElem?_eq_some_iff.1 hb).1
    refine ⟨?_, by linarith, by linarith⟩
    have e1 : e.dropLast[i]? = some a := by
      rw [List.getElem?_dropLast, if_pos (by omega), ha]
    have e2 : e.tail[i]? = some b := by rw [List.getElem?_tail, hb]
    simp only [Utils.binEdgesToCenters, List.getElem?_zipWith, e1, e2]
    simp only [Option.some.injEq]
    ring

/-! ### a concrete case: the example of the histogram properties -/

/-- A sort of positions by key: stable insertion sort. -/
def demoSort (keys : List ℕ) : List ℕ := (List.range keys.length).insertionSort (fun a b => keys.getD a 0 ≤ keys.getD b 0)

example (k : List ℕ) : IsKeySort k (demoSort k) := by
  refine ⟨List.perm_insertionSort _ _, ?_⟩
  have : IsTrans ℕ (fun a b => k.getD a 0 ≤ k.getD b 0) := ⟨fun _ _ _ => le_trans⟩
  have : Std.Total (fun a b : ℕ => k.getD a 0 ≤ k.getD b 0) := ⟨fun _ _ => le_total _ _⟩
  rw [List.pairwise_map]
  exact List.pairwise_insertionSort (fun a b => k.getD a 0 ≤ k.getD b 0) (List.range k.length)

/-- A session on that example: a refused assignment, a call that fails, an accepted assignment. -/
example : ∃ s, newSess (nbin demoEdges) [1, 0] (xy demoEdges [1, 0] demoSamples) .mean = .ok s ∧
    Spec.current .mean [.setStat (.other "average"), .call (fun _ => none) [1] none, .setStat .median,
      .call (fun _ => some 7) [1, 2, 4, 8, 16, 32] (some .sum)] = .median ∧ s.stat = .mean :=
  ⟨_, rfl, rfl, rfl⟩

example : Spec.Known (.fn (fun l => .ok (some (l.length : ℝ)))) ∧ Spec.Symmetric (.fn (fun l => .ok (some (l.length : ℝ)))) ∧
    Spec.Total (.fn (fun l => .ok (some (l.length : ℝ)))) :=
  ⟨trivial, fun a b h => by simp [h.length_eq], fun l _ => ⟨_, rfl⟩⟩

example : ctor1D (.scalar 2) (some (0, 4)) none [1, 2, 3] = .ok ⟨[[0, 2, 4]], [[1], [2], [3]]⟩ := by decide +kernel
example : Spec.IsMedian [3, 1, 2, 10] (5 / 2) := ⟨2, by simp, 3, by simp, by norm_num, by decide +kernel, by decide +kernel, by decide +kernel, by decide +kernel⟩

end Verif.Binned
