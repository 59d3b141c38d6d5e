import Verif.Dicts.Model
import Verif.Dicts.Spec

namespace Verif.Dicts
variable {V : Type}

/-- The plain value stored at a path (used to abstract a dictionary to a map). -/
def leafAt : Dict V → Path → Option V
  | _, [] => none
  | d, [k] => match find d k with | some (.inl v) => some v | _ => none
  | d, k :: k2 :: rest => match find d k with | some (.inr s) => leafAt s (k2 :: rest) | _ => none

theorem find_put (d : Dict V) (k k' : Seg) (x : V ⊕ Dict V) :
    find (put d k x) k' = if k = k' then some x else find d k' := by
  induction d with
  | nil => cases x <;> simp [put, find]
  | leaf a v r ih =>
    by_cases h : a = k
    · subst h; cases x <;> simp [put, find] <;> split <;> simp_all
    · simp only [put, h, if_false, find, ih]
      by_cases h2 : a = k' <;> by_cases h3 : k = k' <;> simp_all
  | node a s r _ ih =>
    by_cases h : a = k
    · subst h; cases x <;> simp [put, find] <;> split <;> simp_all
    · simp only [put, h, if_false, find, ih]
      by_cases h2 : a = k' <;> by_cases h3 : k = k' <;> simp_all

/-- Keys of one level. -/
def keys : Dict V → List Seg
  | .nil => []
  | .leaf k _ r => k :: keys r
  | .node k _ r => k :: keys r

/-- Keys are unique on every level. -/
def Wf : Dict V → Prop
  | .nil => True
  | .leaf k _ r => k ∉ keys r ∧ Wf r
  | .node k s r => k ∉ keys r ∧ Wf s ∧ Wf r

theorem find_eq_none (d : Dict V) (k : Seg) : find d k = none ↔ k ∉ keys d := by
  induction d with
  | nil => simp [find, keys]
  | leaf a v r ih =>
    by_cases h : a = k
    · simp [find, keys, h]
    · have h' : k ≠ a := fun e => h e.symm
      simp [find, keys, h, h', ih]
  | node a s r _ ih =>
    by_cases h : a = k
    · simp [find, keys, h]
    · have h' : k ≠ a := fun e => h e.symm
      simp [find, keys, h, h', ih]

theorem find_erase (d : Dict V) (h : Wf d) (k k' : Seg) :
    find (erase d k) k' = if k = k' then none else find d k' := by
  induction d with
  | nil => simp [erase, find]
  | leaf a v r ih =>
    obtain ⟨h1, h2⟩ := h
    by_cases hk : a = k
    · subst hk; simp only [erase, if_true, find]
      split
      · next e => subst e; exact (find_eq_none _ _).2 h1
      · rfl
    · simp only [erase, hk, if_false, find, ih h2]
      by_cases h3 : a = k' <;> by_cases h4 : k = k' <;> simp_all
  | node a s r _ ih =>
    obtain ⟨h1, _, h2⟩ := h
    by_cases hk : a = k
    · subst hk; simp only [erase, if_true, find]
      split
      · next e => subst e; exact (find_eq_none _ _).2 h1
      · rfl
    · simp only [erase, hk, if_false, find, ih h2]
      by_cases h3 : a = k' <;> by_cases h4 : k = k' <;> simp_all

theorem mem_keys_put (d : Dict V) (k k' : Seg) (x : V ⊕ Dict V) : k' ∈ keys (put d k x) ↔ k' = k ∨ k' ∈ keys d := by
  have := find_eq_none (put d k x) k'
  have h2 := find_eq_none d k'
  rw [find_put] at this
  by_cases h : k = k'
  · subst h; simp at this; simp [this]
  · simp only [h, if_false] at this
    have : k' ∈ keys (put d k x) ↔ k' ∈ keys d := by
      rw [← not_iff_not, ← this, h2]
    rw [this]; constructor
    · exact Or.inr
    · rintro (e | e)
      · exact absurd e.symm h
      · exact e

theorem wf_put (d : Dict V) (h : Wf d) (k : Seg) (x : V ⊕ Dict V) (hx : ∀ s, x = .inr s → Wf s) : Wf (put d k x) := by
  induction d with
  | nil => cases x <;> simp [put, Wf, keys]; exact hx _ rfl
  | leaf a v r ih =>
    obtain ⟨h1, h2⟩ := h
    by_cases hk : a = k
    · subst hk; cases x <;> simp [put, Wf, h1, h2]; exact hx _ rfl
    · simp only [put, hk, if_false, Wf]
      refine ⟨?_, ih h2⟩
      rw [mem_keys_put]; simp [hk, h1]
  | node a s r _ ih =>
    obtain ⟨h1, h2, h3⟩ := h
    by_cases hk : a = k
    · subst hk; cases x <;> simp [put, Wf, h1, h3]; exact hx _ rfl
    · simp only [put, hk, if_false, Wf]
      refine ⟨?_, h2, ih h3⟩
      rw [mem_keys_put]; simp [hk, h1]

theorem mem_keys_erase (d : Dict V) (k k' : Seg) (h : k' ∈ keys (erase d k)) : k' ∈ keys d := by
  induction d with
  | nil => simpa [erase] using h
  | leaf a v r ih =>
    by_cases hk : a = k
    · simp only [erase, hk, if_true] at h; simp [keys, h]
    · simp only [erase, hk, if_false, keys, List.mem_cons] at h ⊢; tauto
  | node a s r _ ih =>
    by_cases hk : a = k
    · simp only [erase, hk, if_true] at h; simp [keys, h]
    · simp only [erase, hk, if_false, keys, List.mem_cons] at h ⊢; tauto

theorem wf_erase (d : Dict V) (h : Wf d) (k : Seg) : Wf (erase d k) := by
  induction d with
  | nil => simp [erase, Wf]
  | leaf a v r ih =>
    obtain ⟨h1, h2⟩ := h
    by_cases hk : a = k
    · simpa [erase, hk] using h2
    · simp only [erase, hk, if_false, Wf]
      exact ⟨fun hm => h1 (mem_keys_erase _ _ _ hm), ih h2⟩
  | node a s r _ ih =>
    obtain ⟨h1, h2, h3⟩ := h
    by_cases hk : a = k
    · simpa [erase, hk] using h3
    · simp only [erase, hk, if_false, Wf]
      exact ⟨fun hm => h1 (mem_keys_erase _ _ _ hm), h2, ih h3⟩

theorem wf_find (d : Dict V) (h : Wf d) (k : Seg) (s : Dict V) (hf : find d k = some (.inr s)) : Wf s := by
  induction d with
  | nil => simp [find] at hf
  | leaf a v r ih =>
    simp only [find] at hf; split at hf
    · simp at hf
    · exact ih h.2 hf
  | node a s' r _ ih =>
    simp only [find] at hf; split at hf
    · simp at hf; subst hf; exact h.2.1
    · exact ih h.2.2 hf

theorem leafAt_nil (q : Path) : leafAt (.nil : Dict V) q = none := by
  match q with
  | [] => rfl
  | [k] => rfl
  | k :: k2 :: r => rfl

/-- `leafAt` through the first segment. -/
theorem leafAt_cons (d : Dict V) (k : Seg) (q : Path) (hq : q ≠ []) :
    leafAt d (k :: q) = match find d k with | some (.inr s) => leafAt s q | _ => none := by
  cases q with
  | nil => exact absurd rfl hq
  | cons a b => rfl

theorem leafAt_put (d : Dict V) (k : Seg) (x : V ⊕ Dict V) (a : Seg) (q : Path) :
    leafAt (put d k x) (a :: q) = if k = a then
      (match x, q with | .inl v, [] => some v | .inr s, q => leafAt s q | _, _ => none) else leafAt d (a :: q) := by
  cases q with
  | nil =>
    simp only [leafAt, find_put]
    by_cases h : k = a
    · simp only [h, if_true]; cases x <;> simp [leafAt]
    · simp [h]
  | cons b c =>
    simp only [leafAt, find_put]
    by_cases h : k = a
    · simp only [h, if_true]; cases x <;> simp
    · simp [h]

/-! #### rcSet -/

/-- Some proper prefix holds a plain value, following the tree. -/
def blocked : Dict V → Path → Bool
  | _, [] => false
  | _, [_] => false
  | d, k :: k2 :: rest => match find d k with
    | none => false
    | some (.inl _) => true
    | some (.inr s) => blocked s (k2 :: rest)

theorem blocked_nil (p : Path) : blocked (.nil : Dict V) p = false := by
  match p with
  | [] => rfl
  | [k] => rfl
  | k :: k2 :: r => rfl

theorem blocked_iff (d : Dict V) (p : Path) : blocked d p = true ↔ Spec.Blocked (leafAt d) p := by
  induction p generalizing d with
  | nil =>
    simp only [blocked, Spec.Blocked]
    constructor
    · simp
    · rintro ⟨q, h1, h2, _⟩; exact absurd (List.prefix_nil.1 h2) h1
  | cons k p ih =>
    cases p with
    | nil =>
      simp only [blocked, Spec.Blocked]
      constructor
      · simp
      · rintro ⟨q, h1, h2, h3, _⟩
        cases q with
        | nil => exact absurd rfl h1
        | cons a b =>
          rw [List.cons_prefix_cons] at h2
          obtain ⟨e, h2⟩ := h2
          rw [List.prefix_nil.1 h2, e] at h3; exact absurd rfl h3
    | cons k2 rest =>
      simp only [blocked]
      constructor
      · intro h
        cases hf : find d k with
        | none => simp [hf] at h
        | some x =>
          cases x with
          | inl v => exact ⟨[k], by simp, by simp [List.cons_prefix_cons], by simp, by simp [leafAt, hf]⟩
          | inr s =>
            simp only [hf] at h
            obtain ⟨q, h1, h2, h3, h4⟩ := (ih s).1 h
            refine ⟨k :: q, by simp, by simp [List.cons_prefix_cons, h2], by simpa using h3, ?_⟩
            rw [leafAt_cons _ _ _ h1, hf]; exact h4
      · rintro ⟨q, h1, h2, h3, h4⟩
        cases q with
        | nil => exact absurd rfl h1
        | cons a q =>
          rw [List.cons_prefix_cons] at h2
          obtain ⟨e, h2⟩ := h2
          subst e
          cases q with
          | nil =>
            simp only [leafAt] at h4
            cases hf : find d a with
            | none => simp [hf] at h4
            | some x => cases x <;> simp [hf] at h4 ⊢
          | cons b c =>
            simp only [leafAt] at h4
            cases hf : find d a with
            | none => simp [hf] at h4
            | some x =>
              cases x with
              | inl v => simp
              | inr s =>
                simp only [hf] at h4 ⊢
                exact (ih s).2 ⟨b :: c, by simp, h2, fun e => h3 (by rw [e]), h4⟩

theorem put_self_node (d : Dict V) (h : Wf d) (k : Seg) (s : Dict V) (hf : find d k = some (.inr s)) :
    put d k (.inr s) = d := by
  induction d with
  | nil => simp [find] at hf
  | leaf a v r ih =>
    simp only [find] at hf; split at hf
    · simp at hf
    · next hk => simp [put, hk, ih h.2 hf]
  | node a s' r _ ih =>
    simp only [find] at hf; split at hf
    · next hk => simp at hf; subst hf; simp [put, hk]
    · next hk => simp [put, hk, ih h.2.2 hf]

theorem rcSet_out (d : Dict V) (p : Path) (v : V) :
    (rcSet d p v).2 = if blocked d p then .error .keyError else .ok () := by
  induction p generalizing d with
  | nil => simp [rcSet, blocked]
  | cons k p ih =>
    cases p with
    | nil => simp [rcSet, blocked]
    | cons k2 rest =>
      obtain ⟨o, ho⟩ : ∃ o, find d k = o := ⟨_, rfl⟩
      rcases o with _ | (x | x) <;> simp [rcSet, blocked, ho, ih, blocked_nil]

theorem rcSet_blocked (d : Dict V) (h : Wf d) (p : Path) (v : V) (hb : blocked d p = true) : (rcSet d p v).1 = d := by
  induction p generalizing d with
  | nil => simp [rcSet]
  | cons k p ih =>
    cases p with
    | nil => simp [blocked] at hb
    | cons k2 rest =>
      simp only [rcSet]
      simp only [blocked] at hb
      cases hf : find d k with
      | none => simp [hf] at hb
      | some x =>
        cases x with
        | inl v => rfl
        | inr s =>
          simp only [hf] at hb ⊢
          rw [ih s (wf_find d h k s hf) hb]; exact put_self_node d h k s hf

theorem wf_rcSet (d : Dict V) (h : Wf d) (p : Path) (v : V) : Wf (rcSet d p v).1 := by
  induction p generalizing d with
  | nil => simpa [rcSet] using h
  | cons k p ih =>
    cases p with
    | nil => exact wf_put d h k _ (by simp)
    | cons k2 rest =>
      simp only [rcSet]
      cases hf : find d k with
      | none => exact wf_put d h k _ (by rintro s ⟨⟩; exact ih _ trivial)
      | some x =>
        cases x with
        | inl v => exact h
        | inr s => exact wf_put d h k _ (by rintro s' ⟨⟩; exact ih _ (wf_find d h k s hf))

theorem leafAt_rcSet (d : Dict V) (p : Path) (hp : p ≠ []) (v : V) (hb : blocked d p = false) (q : Path) :
    leafAt (rcSet d p v).1 q = if q = p then some v else if p <+: q then none else leafAt d q := by
  induction p generalizing d q with
  | nil => exact absurd rfl hp
  | cons k p ih =>
    cases q with
    | nil => simp [leafAt]
    | cons a q =>
      cases p with
      | nil =>
        simp only [rcSet, leafAt_put]
        by_cases h : k = a
        · subst h; cases q <;> simp [List.cons_prefix_cons]
        · have : a ≠ k := fun e => h e.symm
          simp [h, List.cons_prefix_cons, this]
      | cons k2 rest =>
        simp only [rcSet]
        simp only [blocked] at hb
        cases hf : find d k with
        | none =>
          simp only [leafAt_put]
          by_cases h : k = a
          · subst h
            simp only [if_true, List.cons_prefix_cons, true_and, List.cons.injEq]
            rw [ih _ (by simp) (blocked_nil _), leafAt_nil]
            cases q with
            | nil => simp [leafAt, hf]
            | cons b c => simp [leafAt, hf]
          · have : a ≠ k := fun e => h e.symm
            simp [h, List.cons_prefix_cons, this]
        | some x =>
          cases x with
          | inl v => simp [hf] at hb
          | inr s =>
            simp only [hf] at hb
            simp only [leafAt_put]
            by_cases h : k = a
            · subst h
              simp only [if_true, List.cons_prefix_cons, true_and, List.cons.injEq]
              rw [ih _ (by simp) hb]
              cases q with
              | nil => simp [leafAt, hf]
              | cons b c => simp [leafAt, hf]
            · have : a ≠ k := fun e => h e.symm
              simp [h, List.cons_prefix_cons, this]

/-! #### rcDel -/

theorem wf_rcDel (d : Dict V) (h : Wf d) (p : Path) : Wf (rcDel d p).1 := by
  induction p generalizing d with
  | nil => simpa [rcDel] using h
  | cons k p ih =>
    cases p with
    | nil =>
      simp only [rcDel]
      cases hf : find d k with
      | none => exact h
      | some x => exact wf_erase d h k
    | cons k2 rest =>
      simp only [rcDel]
      cases hf : find d k with
      | none => exact h
      | some x =>
        cases x with
        | inl v => exact h
        | inr s => exact wf_put d h k _ (by rintro s' ⟨⟩; exact ih _ (wf_find d h k s hf))

theorem leafAt_erase (d : Dict V) (h : Wf d) (k a : Seg) (q : Path) :
    leafAt (erase d k) (a :: q) = if k = a then none else leafAt d (a :: q) := by
  cases q with
  | nil => simp only [leafAt, find_erase d h]; by_cases h : k = a <;> simp [h]
  | cons b c => simp only [leafAt, find_erase d h]; by_cases h : k = a <;> simp [h]

theorem leafAt_rcDel (d : Dict V) (hw : Wf d) (p : Path) (hp : p ≠ []) (q : Path) :
    leafAt (rcDel d p).1 q = if p <+: q then none else leafAt d q := by
  induction p generalizing d q with
  | nil => exact absurd rfl hp
  | cons k p ih =>
    cases q with
    | nil => simp [leafAt]
    | cons a q =>
      cases p with
      | nil =>
        simp only [rcDel]
        cases hf : find d k with
        | none =>
          by_cases h : k = a
          · subst h; cases q <;> simp [leafAt, hf]
          · simp [List.cons_prefix_cons, h]
        | some x =>
          simp only [leafAt_erase d hw]
          by_cases h : k = a
          · subst h; simp [List.cons_prefix_cons]
          · simp [List.cons_prefix_cons, h]
      | cons k2 rest =>
        simp only [rcDel]
        cases hf : find d k with
        | none =>
          by_cases h : k = a
          · subst h; cases q <;> simp [leafAt, hf]
          · simp [List.cons_prefix_cons, h]
        | some x =>
          cases x with
          | inl v =>
            by_cases h : k = a
            · subst h; cases q <;> simp [leafAt, hf, List.cons_prefix_cons]
            · simp [List.cons_prefix_cons, h]
          | inr s =>
            simp only [leafAt_put]
            by_cases h : k = a
            · subst h
              simp only [if_true, List.cons_prefix_cons, true_and]
              rw [ih _ (wf_find d hw k s hf) (by simp)]
              cases q with
              | nil => simp [leafAt, hf]
              | cons b c => simp [leafAt, hf]
            · simp [List.cons_prefix_cons, h]

theorem rcGet_leaf (d : Dict V) (p : Path) (v : V) : rcGet d p = .ok (.inl v) ↔ leafAt d p = some v := by
  induction p generalizing d with
  | nil => simp [rcGet, leafAt]
  | cons k p ih =>
    cases p with
    | nil =>
      simp only [rcGet, leafAt]
      cases hf : find d k with
      | none => simp
      | some x => cases x <;> simp
    | cons k2 rest =>
      simp only [rcGet, leafAt]
      cases hf : find d k with
      | none => simp
      | some x =>
        cases x with
        | inl v => simp
        | inr s => exact ih s

/-! #### iteration -/

theorem leafAt_leaf_rest (k : Seg) (v : V) (r : Dict V) (a : Seg) (q : Path) :
    leafAt (.leaf k v r) (a :: q) = if k = a then (if q = [] then some v else none) else leafAt r (a :: q) := by
  by_cases h : k = a <;> cases q <;> simp [leafAt, find, h]

theorem leafAt_node_rest (k : Seg) (s r : Dict V) (a : Seg) (q : Path) :
    leafAt (.node k s r) (a :: q) = if k = a then leafAt s q else leafAt r (a :: q) := by
  by_cases h : k = a <;> cases q <;> simp [leafAt, find, h]

theorem head_mem_keys (d : Dict V) (a : Seg) (q : Path) (h : a :: q ∈ leaves d) : a ∈ keys d := by
  induction d with
  | nil => simp [leaves] at h
  | leaf k v r ih => simp only [leaves, List.mem_cons, List.cons.injEq] at h; simp only [keys, List.mem_cons]; tauto
  | node k s r _ ih =>
    simp only [leaves, List.mem_append, List.mem_map, List.cons.injEq] at h
    simp only [keys, List.mem_cons]
    rcases h with ⟨_, _, e, _⟩ | h
    · exact Or.inl e.symm
    · exact Or.inr (ih h)

theorem nil_not_mem_leaves (d : Dict V) : [] ∉ leaves d := by
  induction d with
  | nil => simp [leaves]
  | leaf k v r ih => simp [leaves, ih]
  | node k s r _ ih => simp [leaves, ih]

theorem mem_leaves (d : Dict V) (h : Wf d) (p : Path) : p ∈ leaves d ↔ (leafAt d p).isSome := by
  induction d generalizing p with
  | nil => simp [leaves, leafAt_nil]
  | leaf k v r ih =>
    cases p with
    | nil => simp [leafAt, nil_not_mem_leaves]
    | cons a q =>
      rw [leafAt_leaf_rest]
      simp only [leaves, List.mem_cons, List.cons.injEq]
      by_cases hk : k = a
      · subst hk
        simp only [true_and, if_true]
        constructor
        · rintro (e | e)
          · simp [e]
          · exact absurd (head_mem_keys _ _ _ e) h.1
        · intro e
          by_cases hq : q = []
          · exact Or.inl hq
          · simp [hq] at e
      · have : a ≠ k := fun e => hk e.symm
        simp [hk, this, ih h.2]
  | node k s r ih1 ih =>
    cases p with
    | nil => simp [leafAt, nil_not_mem_leaves]
    | cons a q =>
      rw [leafAt_node_rest]
      simp only [leaves, List.mem_append, List.mem_map, List.cons.injEq]
      by_cases hk : k = a
      · subst hk
        simp only [true_and, if_true]
        rw [← ih1 h.2.1 q]
        constructor
        · rintro (⟨b, e, rfl⟩ | e)
          · exact e
          · exact absurd (head_mem_keys _ _ _ e) h.1
        · intro e; exact Or.inl ⟨q, e, rfl⟩
      · simp [hk, ih h.2.2]

theorem _root_.List.Nodup.map_on' {α : Type} {l : List (List α)} (h : l.Nodup) (k : α) : (l.map (k :: ·)).Nodup :=
  List.Pairwise.map _ (fun _ _ hab e => hab (List.cons.inj e).2) h

theorem leaves_nodup (d : Dict V) (h : Wf d) : (leaves d).Nodup := by
  induction d with
  | nil => simp [leaves]
  | leaf k v r ih =>
    simp only [leaves, List.nodup_cons]
    exact ⟨fun e => h.1 (head_mem_keys _ _ _ e), ih h.2⟩
  | node k s r ih1 ih =>
    simp only [leaves, List.nodup_append]
    refine ⟨(ih1 h.2.1).map_on' k, ih h.2.2, ?_⟩
    intro a ha b hb e
    subst e
    simp only [List.mem_map] at ha
    obtain ⟨c, _, rfl⟩ := ha
    exact h.1 (head_mem_keys _ _ _ hb)

/-! #### strings -/

/-- No segment contains the delimiter. -/
def NoDot (p : Path) : Prop := ∀ s ∈ p, '.' ∉ s

theorem splitDot_ne_nil (s : List Char) : splitDot s ≠ [] := by
  induction s with
  | nil => simp [splitDot]
  | cons c t ih =>
    rw [splitDot.eq_def]; split
    · simp_all
    · simp
    · split <;> simp

theorem splitDot_dot (t : List Char) : splitDot ('.' :: t) = [] :: splitDot t := by simp [splitDot]

theorem splitDot_char (c : Char) (hc : c ≠ '.') (t : List Char) (s : Seg) (r : Path) (h : splitDot t = s :: r) :
    splitDot (c :: t) = (c :: s) :: r := by
  rw [splitDot.eq_3 _ _ (by intro e; exact hc e), h]

theorem splitDot_noDot (s : List Char) : NoDot (splitDot s) := by
  induction s with
  | nil => simp [splitDot, NoDot]
  | cons c t ih =>
    by_cases hc : c = '.'
    · subst hc; rw [splitDot_dot]; intro a ha
      rcases List.mem_cons.1 ha with rfl | ha
      · simp
      · exact ih a ha
    · cases h : splitDot t with
      | nil => exact absurd h (splitDot_ne_nil t)
      | cons a r =>
        rw [splitDot_char c hc t a r h]
        rw [h] at ih
        intro b hb
        rcases List.mem_cons.1 hb with rfl | hb
        · have := ih a (by simp)
          simp [this, Ne.symm hc]
        · exact ih b (by simp [hb])

theorem splitDot_append_dot (s : Seg) (hs : '.' ∉ s) (t : List Char) : splitDot (s ++ '.' :: t) = s :: splitDot t := by
  induction s with
  | nil => simp [splitDot]
  | cons c s ih =>
    simp only [List.mem_cons, not_or] at hs
    exact splitDot_char c (Ne.symm hs.1) _ _ _ (ih hs.2)

theorem splitDot_single (s : Seg) (hs : '.' ∉ s) : splitDot s = [s] := by
  induction s with
  | nil => simp [splitDot]
  | cons c s ih =>
    simp only [List.mem_cons, not_or] at hs
    exact splitDot_char c (Ne.symm hs.1) _ _ _ (ih hs.2)

theorem splitDot_joinDot (p : Path) (hp : p ≠ []) (h : NoDot p) : splitDot (joinDot p) = p := by
  induction p with
  | nil => exact absurd rfl hp
  | cons s r ih =>
    cases r with
    | nil => exact splitDot_single s (h s (by simp))
    | cons a b =>
      show splitDot (s ++ '.' :: joinDot (a :: b)) = _
      rw [splitDot_append_dot s (h s (by simp)), ih (by simp) (fun x hx => h x (by simp [hx]))]

theorem joinDot_splitDot (s : List Char) : joinDot (splitDot s) = s := by
  induction s with
  | nil => rfl
  | cons c t ih =>
    cases h : splitDot t with
    | nil => exact absurd h (splitDot_ne_nil t)
    | cons a r =>
      rw [h] at ih
      by_cases hc : c = '.'
      · subst hc; rw [splitDot_dot, h]; show [] ++ '.' :: joinDot (a :: r) = _; rw [ih]; rfl
      · rw [splitDot_char c hc t a r h]
        cases r with
        | nil => simp only [joinDot] at ih ⊢; rw [ih]
        | cons x y => simp only [joinDot] at ih ⊢; rw [← ih]; rfl

/-- Every key of the dictionary, on every level, is free of the delimiter. -/
def SegOk : Dict V → Prop
  | .nil => True
  | .leaf k _ r => '.' ∉ k ∧ SegOk r
  | .node k s r => '.' ∉ k ∧ SegOk s ∧ SegOk r

theorem segOk_put (d : Dict V) (h : SegOk d) (k : Seg) (hk : '.' ∉ k) (x : V ⊕ Dict V) (hx : ∀ s, x = .inr s → SegOk s) :
    SegOk (put d k x) := by
  induction d with
  | nil => cases x <;> simp [put, SegOk, hk]; exact hx _ rfl
  | leaf a v r ih =>
    by_cases hk' : a = k
    · cases x <;> simp [put, hk', SegOk, hk, h.2]; exact hx _ rfl
    · simp only [put, hk', if_false, SegOk]; exact ⟨h.1, ih h.2⟩
  | node a s r _ ih =>
    by_cases hk' : a = k
    · cases x <;> simp [put, hk', SegOk, hk, h.2.2]; exact hx _ rfl
    · simp only [put, hk', if_false, SegOk]; exact ⟨h.1, h.2.1, ih h.2.2⟩

theorem segOk_erase (d : Dict V) (h : SegOk d) (k : Seg) : SegOk (erase d k) := by
  induction d with
  | nil => simp [erase, SegOk]
  | leaf a v r ih =>
    by_cases hk' : a = k
    · simp only [erase, hk', if_true]; exact h.2
    · simp only [erase, hk', if_false, SegOk]; exact ⟨h.1, ih h.2⟩
  | node a s r _ ih =>
    by_cases hk' : a = k
    · simp only [erase, hk', if_true]; exact h.2.2
    · simp only [erase, hk', if_false, SegOk]; exact ⟨h.1, h.2.1, ih h.2.2⟩

theorem segOk_find (d : Dict V) (h : SegOk d) (k : Seg) (s : Dict V) (hf : find d k = some (.inr s)) : SegOk s := by
  induction d with
  | nil => simp [find] at hf
  | leaf a v r ih =>
    simp only [find] at hf; split at hf
    · simp at hf
    · exact ih h.2 hf
  | node a s' r _ ih =>
    simp only [find] at hf; split at hf
    · simp at hf; subst hf; exact h.2.1
    · exact ih h.2.2 hf

theorem segOk_rcSet (d : Dict V) (h : SegOk d) (p : Path) (hp : NoDot p) (v : V) : SegOk (rcSet d p v).1 := by
  induction p generalizing d with
  | nil => simpa [rcSet] using h
  | cons k p ih =>
    have hk : '.' ∉ k := hp k (by simp)
    have hp' : NoDot p := fun x hx => hp x (by simp [hx])
    cases p with
    | nil => exact segOk_put d h k hk _ (by simp)
    | cons k2 rest =>
      simp only [rcSet]
      cases hf : find d k with
      | none => exact segOk_put d h k hk _ (by rintro s ⟨⟩; exact ih _ trivial hp')
      | some x =>
        cases x with
        | inl v => exact h
        | inr s => exact segOk_put d h k hk _ (by rintro s' ⟨⟩; exact ih _ (segOk_find d h k s hf) hp')

theorem segOk_rcDel (d : Dict V) (h : SegOk d) (p : Path) (hp : NoDot p) : SegOk (rcDel d p).1 := by
  induction p generalizing d with
  | nil => simpa [rcDel] using h
  | cons k p ih =>
    have hk : '.' ∉ k := hp k (by simp)
    have hp' : NoDot p := fun x hx => hp x (by simp [hx])
    cases p with
    | nil =>
      simp only [rcDel]
      cases hf : find d k with
      | none => exact h
      | some x => exact segOk_erase d h k
    | cons k2 rest =>
      simp only [rcDel]
      cases hf : find d k with
      | none => exact h
      | some x =>
        cases x with
        | inl v => exact h
        | inr s => exact segOk_put d h k hk _ (by rintro s' ⟨⟩; exact ih _ (segOk_find d h k s hf) hp')

theorem noDot_leaves (d : Dict V) (h : SegOk d) (p : Path) (hp : p ∈ leaves d) : NoDot p := by
  induction d generalizing p with
  | nil => simp [leaves] at hp
  | leaf k v r ih =>
    simp only [leaves, List.mem_cons] at hp
    rcases hp with rfl | hp
    · intro s hs; simp at hs; subst hs; exact h.1
    · exact ih h.2 p hp
  | node k s r ih1 ih =>
    simp only [leaves, List.mem_append, List.mem_map] at hp
    rcases hp with ⟨a, ha, rfl⟩ | hp
    · intro x hx
      rcases List.mem_cons.1 hx with rfl | hx
      · exact h.1
      · exact ih1 h.2.1 a ha x hx
    · exact ih h.2.2 p hp

theorem inv_step (d : Dict V) (h : Wf d ∧ SegOk d) (op : RcOp V) : Wf (rcStep d op) ∧ SegOk (rcStep d op) := by
  cases op with
  | set key v => exact ⟨wf_rcSet d h.1 _ v, segOk_rcSet d h.2 _ (splitDot_noDot key) v⟩
  | del key => exact ⟨wf_rcDel d h.1 _, segOk_rcDel d h.2 _ (splitDot_noDot key)⟩
  | get key => exact h

theorem inv_foldl (ops : List (RcOp V)) (d : Dict V) (h : Wf d ∧ SegOk d) :
    Wf (ops.foldl rcStep d) ∧ SegOk (ops.foldl rcStep d) := by
  induction ops generalizing d with
  | nil => exact h
  | cons o t ih => exact ih _ (inv_step d h o)

theorem inv_run (ops : List (RcOp V)) : Wf (rcRun ops) ∧ SegOk (rcRun ops) :=
  inv_foldl ops .nil ⟨trivial, trivial⟩

/-! #### MD_dict -/

theorem wf_mdWalk (act : Dict Md → Dict Md) (hact : ∀ t, Wf t → Wf (act t)) (d : Dict Md) (h : Wf d) (p : Path) :
    Wf (mdWalk act d p) := by
  induction p generalizing d with
  | nil => exact hact d h
  | cons k rest ih =>
    simp only [mdWalk]
    split
    · next sub hf => exact wf_put d h k _ (by rintro s ⟨⟩; exact ih _ (wf_find d h k sub hf))
    · exact wf_put d h k _ (by rintro s ⟨⟩; exact ih _ trivial)

theorem leafAt_mdWalk_put (d : Dict Md) (p : Path) (k : Seg) (m : Md) (q : Path) :
    leafAt (mdWalk (fun t => put t k (.inl m)) d p) q =
      if q = p ++ [k] then some m else if (p ++ [k]) <+: q ∨ q <+: (p ++ [k]) then none else leafAt d q := by
  induction p generalizing d q with
  | nil =>
    cases q with
    | nil => simp [leafAt]
    | cons a q =>
      simp only [mdWalk, leafAt_put, List.nil_append]
      by_cases h : k = a
      · subst h; cases q <;> simp [List.cons_prefix_cons]
      · have : a ≠ k := fun e => h e.symm
        simp [h, List.cons_prefix_cons, this]
  | cons b p ih =>
    cases q with
    | nil => simp [leafAt]
    | cons a q =>
      have key : ∀ s : Dict Md, (∀ c q', q = c :: q' → leafAt s q = leafAt d (b :: q)) →
          leafAt (put d b (.inr (mdWalk (fun t => put t k (.inl m)) s p))) (a :: q) =
          if a :: q = b :: p ++ [k] then some m
          else if (b :: p ++ [k]) <+: (a :: q) ∨ (a :: q) <+: (b :: p ++ [k]) then none else leafAt d (a :: q) := by
        intro s hs
        rw [leafAt_put]
        by_cases h : b = a
        · subst h
          simp only [if_true, List.cons_append, List.cons.injEq, true_and, List.cons_prefix_cons]
          rw [ih]
          by_cases h1 : q = p ++ [k]
          · simp [h1]
          · simp only [h1, if_false]
            split
            · rfl
            · next h2 =>
              cases q with
              | nil => exact absurd (Or.inr (List.nil_prefix)) h2
              | cons c q' => exact hs c q' rfl
        · have : a ≠ b := fun e => h e.symm
          simp [h, List.cons_prefix_cons, this]
      simp only [mdWalk]
      split
      · next sub hf =>
        apply key
        rintro c q' rfl
        simp [leafAt, hf]
      · next hf =>
        apply key
        rintro c q' rfl
        rw [leafAt_nil, leafAt]
        split
        · next s hs => exact absurd hs (hf s)
        · rfl

theorem leafAt_mdWalk_id (d : Dict Md) (p : Path) (q : Path) :
    leafAt (mdWalk id d p) q = if q <+: p then none else leafAt d q := by
  induction p generalizing d q with
  | nil => cases q <;> simp [mdWalk, leafAt]
  | cons b p ih =>
    cases q with
    | nil => simp [leafAt]
    | cons a q =>
      have key : ∀ s : Dict Md, (∀ c q', q = c :: q' → leafAt s q = leafAt d (b :: q)) →
          leafAt (put d b (.inr (mdWalk id s p))) (a :: q) =
          if (a :: q) <+: (b :: p) then none else leafAt d (a :: q) := by
        intro s hs
        rw [leafAt_put]
        by_cases h : b = a
        · subst h
          simp only [if_true, List.cons_prefix_cons, true_and]
          rw [ih]
          split
          · rfl
          · next h2 =>
            cases q with
            | nil => exact absurd (List.nil_prefix) h2
            | cons c q' => exact hs c q' rfl
        · have : a ≠ b := fun e => h e.symm
          simp [h, List.cons_prefix_cons, this]
      simp only [mdWalk]
      split
      · next sub hf =>
        apply key
        rintro c q' rfl
        simp [leafAt, hf]
      · next hf =>
        apply key
        rintro c q' rfl
        rw [leafAt_nil, leafAt]
        split
        · next s hs => exact absurd hs (hf s)
        · rfl

theorem leaves_put_new (d : Dict Md) (k : Seg) (s : Dict Md) (h : find d k = none) :
    leaves (put d k (.inr s)) = leaves d ++ (leaves s).map (k :: ·) := by
  induction d with
  | nil => simp [put, leaves]
  | leaf a v r ih =>
    simp only [find] at h; split at h
    · simp at h
    · next hk => simp [put, hk, leaves, ih h]
  | node a s' r _ ih =>
    simp only [find] at h; split at h
    · simp at h
    · next hk => simp [put, hk, leaves, ih h]

theorem leaves_put_node (d : Dict Md) (k : Seg) (s s' : Dict Md) (h : find d k = some (.inr s))
    (hs : leaves s' = leaves s) : leaves (put d k (.inr s')) = leaves d := by
  induction d with
  | nil => simp [find] at h
  | leaf a v r ih =>
    simp only [find] at h; split at h
    · simp at h
    · next hk => simp [put, hk, leaves, ih h]
  | node a s'' r _ ih =>
    simp only [find] at h; split at h
    · next hk => simp at h; subst h; simp [put, hk, leaves, hs]
    · next hk => simp [put, hk, leaves, ih h]

theorem leaves_mdWalk_id (d : Dict Md) (p : Path) (h : ∀ q, q <+: p → leafAt d q = none) :
    leaves (mdWalk id d p) = leaves d := by
  induction p generalizing d with
  | nil => rfl
  | cons k rest ih =>
    simp only [mdWalk]
    split
    · next sub hf =>
      apply leaves_put_node d k sub _ hf
      apply ih
      intro q hq
      cases q with
      | nil => rfl
      | cons a b =>
        have := h (k :: a :: b) (by simp [List.cons_prefix_cons] at hq ⊢; exact hq)
        simpa [leafAt, hf] using this
    · next hf =>
      have hn : find d k = none := by
        cases hx : find d k with
        | none => rfl
        | some x =>
          cases x with
          | inl v => have := h [k] (by simp [List.cons_prefix_cons]); simp [leafAt, hx] at this
          | inr s => exact absurd hx (hf s)
      rw [leaves_put_new d k _ hn, ih _ (fun q _ => leafAt_nil q)]; simp [leaves]

theorem find_mdReach (d : Dict Md) (p : Path) (k : Seg) (v : Md) :
    find (mdReach d p) k = some (.inl v) ↔ leafAt d (p ++ [k]) = some v := by
  induction p generalizing d with
  | nil =>
    simp only [mdReach, List.nil_append, leafAt]
    cases hf : find d k with
    | none => simp
    | some x => cases x <;> simp
  | cons a p ih =>
    rw [List.cons_append, leafAt_cons _ _ _ (by simp)]
    simp only [mdReach]
    cases hf : find d a with
    | none => simp [find]
    | some x => cases x with
      | inl v => simp [find]
      | inr s => exact ih s

theorem mdDel_eq (p : Path) : ∀ (d : Dict Md), mdDel d p = rcDel d p := by
  induction p with
  | nil => intro d; rfl
  | cons k p ih =>
    intro d
    obtain ⟨o, ho⟩ : ∃ o, find d k = o := ⟨_, rfl⟩
    cases p with
    | nil => rcases o with _ | (x | x) <;> simp [mdDel, rcDel, ho]
    | cons a b => rcases o with _ | (x | x) <;> simp [mdDel, rcDel, ho, ih]

theorem wf_mdDel (d : Dict Md) (h : Wf d) (p : Path) : Wf (mdDel d p).1 := by
  rw [mdDel_eq]; exact wf_rcDel d h p

end Verif.Dicts
