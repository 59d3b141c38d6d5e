/- Model of `repr` of an RCParamDict (skbeam/core/utils.py) and property C179. -/
import Verif.Dicts.Props
import Mathlib.Data.List.Lex
import Mathlib.Data.List.Sort
import Mathlib.Data.Char

namespace Verif.Dicts
open Verif
variable {V : Type}

/-- `"    " * tab_level`. -/
def indent (t : ℕ) : List Char := List.replicate (4 * t) ' '

/-- `list.sort()` on keys: strings by code point, stable, utils.py:325-326. -/
def sortKey {α : Type} (l : List (Seg × α)) : List (Seg × α) := l.insertionSort (fun a b => a.1 ≤ b.1)

/-- `"    " * tab_level + "{key}: {val}"`, utils.py:330. -/
def leafLine (t : ℕ) (k val : List Char) : List Char := indent t ++ (k ++ ": ".toList ++ val)

/-- `"    " * tab_level + "{key}:"`, utils.py:334. -/
def headLine (t : ℕ) (k : List Char) : List Char := indent t ++ (k ++ ":".toList)

/-- The lines of one level: first its own entries by key, then the groups by key, each a header followed by the lines of
the group, utils.py:324-337.  (The code sorts the keys and looks the values up again; a key occurs once in a dict, so
sorting the pairs is the same.) -/
def render (t : ℕ) (parts : List (Seg × List Char) × List (Seg × List (List Char))) : List (List Char) :=
  (sortKey parts.1).map (fun e => leafLine t e.1 e.2) ++
  (sortKey parts.2).flatMap (fun e => headLine t e.1 :: e.2)

/-- The loop that sorts entries and groups apart (utils.py:312-322), with the recursive calls of line 336 already made
for the groups; `str` is `str.format` of a value. -/
def reprParts (str : V → List Char) : Dict V → ℕ → List (Seg × List Char) × List (Seg × List (List Char))
  | .nil, _ => ([], [])
  | .leaf k v r, t => ((k, str v) :: (reprParts str r t).1, (reprParts str r t).2)
  | .node k s r, t => ((reprParts str r t).1, (k, render (t + 1) (reprParts str s (t + 1))) :: (reprParts str r t).2)

/-- `RCParamDict._repr_helper(tab_level)`, utils.py:309-337. -/
def reprHelper (str : V → List Char) (d : Dict V) (t : ℕ) : List (List Char) := render t (reprParts str d t)

/-- `"\n".join(lines)`. -/
def joinLines : List (List Char) → List Char
  | [] => []
  | [l] => l
  | l :: r => l ++ '\n' :: joinLines r

/-- `RCParamDict.__repr__`, utils.py:303-307. -/
def reprRc (str : V → List Char) (d : Dict V) : List Char := joinLines (reprHelper str d 0)

/-! ## Specification -/

/-- What reading a path shows: a plain value, a group, or nothing. -/
def Spec.shown (d : Dict V) (p : Path) : Option (V ⊕ Unit) :=
  match rcGet d p with
  | .ok (.inl v) => some (.inl v)
  | .ok (.inr _) => some (.inr ())
  | .error _ => none

/-! ## Lemmas -/

theorem mem_parts1 (str : V → List Char) (d : Dict V) (h : Wf d) (t : ℕ) (k : Seg) (s : List Char) :
    (k, s) ∈ (reprParts str d t).1 ↔ ∃ v, find d k = some (.inl v) ∧ s = str v := by
  induction d generalizing t with
  | nil => simp [reprParts, find]
  | leaf a v r ih =>
    obtain ⟨h1, h2⟩ := h
    simp only [reprParts, List.mem_cons, Prod.mk.injEq, ih h2, find]
    by_cases hk : a = k
    · subst hk
      have : find r a = none := (find_eq_none r a).2 h1
      simp [this, eq_comm]
    · have hk' : k ≠ a := fun e => hk e.symm
      simp [hk, hk']
  | node a q r _ ih =>
    obtain ⟨h1, _, h2⟩ := h
    simp only [reprParts, ih h2, find]
    by_cases hk : a = k
    · subst hk
      have : find r a = none := (find_eq_none r a).2 h1
      simp [this]
    · simp [hk]

theorem mem_parts2 (str : V → List Char) (d : Dict V) (h : Wf d) (t : ℕ) (k : Seg) (ls : List (List Char)) :
    (k, ls) ∈ (reprParts str d t).2 ↔ ∃ s, find d k = some (.inr s) ∧ ls = reprHelper str s (t + 1) := by
  induction d generalizing t with
  | nil => simp [reprParts, find]
  | leaf a v r ih =>
    obtain ⟨h1, h2⟩ := h
    simp only [reprParts, ih h2, find]
    by_cases hk : a = k
    · subst hk
      have : find r a = none := (find_eq_none r a).2 h1
      simp [this]
    · simp [hk]
  | node a q r _ ih =>
    obtain ⟨h1, _, h2⟩ := h
    simp only [reprParts, List.mem_cons, Prod.mk.injEq, ih h2, find]
    by_cases hk : a = k
    · subst hk
      have : find r a = none := (find_eq_none r a).2 h1
      simp only [this, if_true, true_and]
      constructor
      · rintro (h | ⟨s, h, _⟩)
        · exact ⟨q, rfl, h⟩
        · cases h
      · rintro ⟨s, h, hl⟩
        injection h with h
        injection h with h
        subst h
        exact Or.inl hl
    · have hk' : k ≠ a := fun e => hk e.symm
      simp [hk, hk']

theorem parts_keys (str : V → List Char) (d : Dict V) (h : Wf d) (t : ℕ) :
    ((reprParts str d t).1.map Prod.fst).Nodup ∧ ((reprParts str d t).2.map Prod.fst).Nodup := by
  induction d generalizing t with
  | nil => simp [reprParts]
  | leaf a v r ih =>
    obtain ⟨h1, h2⟩ := h
    refine ⟨?_, (ih h2 t).2⟩
    simp only [reprParts, List.map_cons, List.nodup_cons]
    refine ⟨?_, (ih h2 t).1⟩
    intro hm
    obtain ⟨⟨k, s⟩, hks, hk⟩ := List.mem_map.1 hm
    simp only at hk
    subst hk
    obtain ⟨v', hv, _⟩ := (mem_parts1 str r h2 t k s).1 hks
    rw [(find_eq_none r k).2 h1] at hv
    cases hv
  | node a q r _ ih =>
    obtain ⟨h1, _, h2⟩ := h
    refine ⟨(ih h2 t).1, ?_⟩
    simp only [reprParts, List.map_cons, List.nodup_cons]
    refine ⟨?_, (ih h2 t).2⟩
    intro hm
    obtain ⟨⟨k, s⟩, hks, hk⟩ := List.mem_map.1 hm
    simp only at hk
    subst hk
    obtain ⟨v', hv, _⟩ := (mem_parts2 str r h2 t k s).1 hks
    rw [(find_eq_none r k).2 h1] at hv
    cases hv

instance {α : Type} : Std.Total (fun (a b : Seg × α) => a.1 ≤ b.1) := ⟨fun a b => le_total a.1 b.1⟩
instance {α : Type} : IsTrans (Seg × α) (fun a b => a.1 ≤ b.1) := ⟨fun _ _ _ h1 h2 => le_trans h1 h2⟩

theorem sort_perm {α : Type} (l : List (Seg × α)) : (sortKey l).Perm l := List.perm_insertionSort _ l

theorem sort_le {α : Type} (l : List (Seg × α)) : (sortKey l).Pairwise (fun a b => a.1 ≤ b.1) :=
  List.pairwise_insertionSort _ l

theorem eq_of_key {α : Type} (l : List (Seg × α)) (h : (l.map Prod.fst).Nodup) (a b : Seg × α) (ha : a ∈ l) (hb : b ∈ l)
    (e : a.1 = b.1) : a = b := List.inj_on_of_nodup_map h ha hb e

theorem nodup_of_keys {α : Type} (l : List (Seg × α)) (h : (l.map Prod.fst).Nodup) : l.Nodup := List.Nodup.of_map _ h

theorem sort_eq {α : Type} (l1 l2 : List (Seg × α)) (h1 : (l1.map Prod.fst).Nodup) (h2 : (l2.map Prod.fst).Nodup)
    (h : ∀ a, a ∈ l1 ↔ a ∈ l2) : sortKey l1 = sortKey l2 := by
  have hp : l1.Perm l2 := (List.perm_ext_iff_of_nodup (nodup_of_keys l1 h1) (nodup_of_keys l2 h2)).2 h
  refine List.Perm.eq_of_pairwise (le := fun a b => a.1 ≤ b.1) ?_ (sort_le l1) (sort_le l2)
    (((sort_perm l1).trans hp).trans (sort_perm l2).symm)
  intro a b ha hb hab hba
  have ha' := (sort_perm l1).mem_iff.1 ha
  have hb' := (h b).2 ((sort_perm l2).mem_iff.1 hb)
  exact eq_of_key l1 h1 a b ha' hb' (le_antisymm hab hba)

/-- Size, for the induction. -/
def size : Dict V → ℕ
  | .nil => 0
  | .leaf _ _ r => size r + 1
  | .node _ s r => size s + size r + 1

theorem size_find (d : Dict V) (k : Seg) (s : Dict V) (h : find d k = some (.inr s)) : size s < size d := by
  induction d with
  | nil => cases h
  | leaf a v r ih =>
    simp only [find] at h
    split at h
    · cases h
    · have := ih h
      simp only [size]; omega
  | node a q r _ ih =>
    simp only [find] at h
    split at h
    · injection h with h
      injection h with h
      subst h
      simp only [size]; omega
    · have := ih h
      simp only [size]; omega

theorem shown_cons (d : Dict V) (k : Seg) (s : Dict V) (h : find d k = some (.inr s)) (p : Path) (hp : p ≠ []) :
    Spec.shown d (k :: p) = Spec.shown s p := by
  cases p with
  | nil => exact absurd rfl hp
  | cons a b => simp only [Spec.shown, rcGet, h]

theorem noDot_key (d : Dict V) (h : SegOk d) (k : Seg) (x : V ⊕ Dict V) (hf : find d k = some x) : '.' ∉ k := by
  induction d with
  | nil => cases hf
  | leaf a v r ih =>
    obtain ⟨h1, h2⟩ := h
    simp only [find] at hf
    split at hf
    · rename_i e; exact e ▸ h1
    · exact ih h2 hf
  | node a q r _ ih =>
    obtain ⟨h1, _, h2⟩ := h
    simp only [find] at hf
    split at hf
    · rename_i e; exact e ▸ h1
    · exact ih h2 hf

theorem repr_same (str : V → List Char) (n : ℕ) : ∀ (d1 d2 : Dict V), size d1 ≤ n → Wf d1 → Wf d2 → SegOk d1 → SegOk d2 →
    (∀ p, p ≠ [] → NoDot p → Spec.shown d1 p = Spec.shown d2 p) → ∀ t, reprHelper str d1 t = reprHelper str d2 t := by
  induction n with
  | zero =>
    intro d1 d2 hn h1 h2 s1 s2 hs t
    have e1 : d1 = .nil := by cases d1 <;> simp [size] at hn ⊢
    subst e1
    have e2 : d2 = .nil := by
      cases d2 with
      | nil => rfl
      | leaf k v r =>
        have := hs [k] (by simp) (by intro s hs'; rw [List.mem_singleton] at hs'; exact hs' ▸ s2.1)
        simp [Spec.shown, rcGet, find] at this
      | node k s r =>
        have := hs [k] (by simp) (by intro s hs'; rw [List.mem_singleton] at hs'; exact hs' ▸ s2.1)
        simp [Spec.shown, rcGet, find] at this
    rw [e2]
  | succ n ih =>
    intro d1 d2 hn h1 h2 s1 s2 hs t
    have hone : ∀ k, '.' ∉ k → Spec.shown d1 [k] = Spec.shown d2 [k] := by
      intro k hk
      exact hs [k] (by simp) (by intro s hs'; rw [List.mem_singleton] at hs'; exact hs' ▸ hk)
    have leafIff : ∀ k v, find d1 k = some (.inl v) ↔ find d2 k = some (.inl v) := by
      intro k v
      constructor
      · intro h
        have hk := hone k (noDot_key d1 s1 k _ h)
        simp only [Spec.shown, rcGet, h] at hk
        rcases hf : find d2 k with _ | (w | w) <;> simp [hf] at hk
        rw [hk]
      · intro h
        have hk := hone k (noDot_key d2 s2 k _ h)
        simp only [Spec.shown, rcGet, h] at hk
        rcases hf : find d1 k with _ | (w | w) <;> simp [hf] at hk
        rw [hk]
    have nodeIff : ∀ k, (∃ s, find d1 k = some (.inr s)) ↔ ∃ s, find d2 k = some (.inr s) := by
      intro k
      constructor
      · rintro ⟨s, h⟩
        have hk := hone k (noDot_key d1 s1 k _ h)
        simp only [Spec.shown, rcGet, h] at hk
        rcases hf : find d2 k with _ | (w | w) <;> simp [hf] at hk ⊢
      · rintro ⟨s, h⟩
        have hk := hone k (noDot_key d2 s2 k _ h)
        simp only [Spec.shown, rcGet, h] at hk
        rcases hf : find d1 k with _ | (w | w) <;> simp [hf] at hk ⊢
    have sub : ∀ k a b, find d1 k = some (.inr a) → find d2 k = some (.inr b) →
        reprHelper str a (t + 1) = reprHelper str b (t + 1) := by
      intro k a b ha hb
      have := size_find d1 k a ha
      apply ih a b (by omega) (wf_find d1 h1 k a ha) (wf_find d2 h2 k b hb) (segOk_find d1 s1 k a ha)
        (segOk_find d2 s2 k b hb)
      intro p hp hd
      rw [← shown_cons d1 k a ha p hp, ← shown_cons d2 k b hb p hp]
      apply hs _ (by simp)
      intro s hs'
      rcases List.mem_cons.1 hs' with h | h
      · exact h ▸ noDot_key d1 s1 k _ ha
      · exact hd s h
    unfold reprHelper render
    have e1 := sort_eq (reprParts str d1 t).1 (reprParts str d2 t).1 (parts_keys str d1 h1 t).1 (parts_keys str d2 h2 t).1
      (by
        rintro ⟨k, s⟩
        rw [mem_parts1 str d1 h1, mem_parts1 str d2 h2]
        simp only [leafIff])
    have e2 := sort_eq (reprParts str d1 t).2 (reprParts str d2 t).2 (parts_keys str d1 h1 t).2 (parts_keys str d2 h2 t).2
      (by
        rintro ⟨k, s⟩
        rw [mem_parts2 str d1 h1, mem_parts2 str d2 h2]
        constructor
        · rintro ⟨a, ha, hl⟩
          obtain ⟨b, hb⟩ := (nodeIff k).1 ⟨a, ha⟩
          exact ⟨b, hb, hl.trans (sub k a b ha hb)⟩
        · rintro ⟨b, hb, hl⟩
          obtain ⟨a, ha⟩ := (nodeIff k).2 ⟨b, hb⟩
          exact ⟨a, ha, hl.trans (sub k a b ha hb).symm⟩)
    rw [e1, e2]

/-- The plain entries and the groups of one level, in the order of the dict. -/
def entries : Dict V → List (Seg × V)
  | .nil => []
  | .leaf k v r => (k, v) :: entries r
  | .node _ _ r => entries r

def groups : Dict V → List (Seg × Dict V)
  | .nil => []
  | .leaf _ _ r => groups r
  | .node k s r => (k, s) :: groups r

theorem parts_eq (str : V → List Char) (d : Dict V) (t : ℕ) : reprParts str d t =
    ((entries d).map (fun e => (e.1, str e.2)), (groups d).map (fun g => (g.1, reprHelper str g.2 (t + 1)))) := by
  induction d with
  | nil => rfl
  | leaf k v r ih => rw [reprParts, ih]; rfl
  | node k s r _ ih => rw [reprParts, ih]; rfl

theorem mem_entries (d : Dict V) (h : Wf d) (k : Seg) (v : V) : (k, v) ∈ entries d ↔ find d k = some (.inl v) := by
  induction d with
  | nil => simp [entries, find]
  | leaf a w r ih =>
    obtain ⟨h1, h2⟩ := h
    simp only [entries, List.mem_cons, Prod.mk.injEq, find, ih h2]
    by_cases hk : a = k
    · subst hk
      have : find r a = none := (find_eq_none r a).2 h1
      simp [this, eq_comm]
    · have hk' : k ≠ a := fun e => hk e.symm
      simp [hk, hk']
  | node a q r _ ih =>
    obtain ⟨h1, _, h2⟩ := h
    simp only [entries, find, ih h2]
    by_cases hk : a = k
    · subst hk
      have : find r a = none := (find_eq_none r a).2 h1
      simp [this]
    · simp [hk]

theorem mem_groups (d : Dict V) (h : Wf d) (k : Seg) (s : Dict V) : (k, s) ∈ groups d ↔ find d k = some (.inr s) := by
  induction d with
  | nil => simp [groups, find]
  | leaf a w r ih =>
    obtain ⟨h1, h2⟩ := h
    simp only [groups, find, ih h2]
    by_cases hk : a = k
    · subst hk
      have : find r a = none := (find_eq_none r a).2 h1
      simp [this]
    · simp [hk]
  | node a q r _ ih =>
    obtain ⟨h1, _, h2⟩ := h
    simp only [groups, List.mem_cons, Prod.mk.injEq, find, ih h2]
    by_cases hk : a = k
    · subst hk
      have : find r a = none := (find_eq_none r a).2 h1
      simp [this, eq_comm]
    · have hk' : k ≠ a := fun e => hk e.symm
      simp [hk, hk']

theorem sort_map {α β : Type} (l : List (Seg × α)) (f : Seg × α → Seg × β) (hf : ∀ a, (f a).1 = a.1) :
    sortKey (l.map f) = (sortKey l).map f := by
  symm
  apply List.map_insertionSort
  intro a _ b _
  rw [hf, hf]

theorem sort_lt {α : Type} (l : List (Seg × α)) (h : (l.map Prod.fst).Nodup) :
    ((sortKey l).map Prod.fst).Pairwise (· < ·) := by
  have hn : ((sortKey l).map Prod.fst).Nodup := (((sort_perm l).map Prod.fst).nodup_iff).2 h
  have hl : ((sortKey l).map Prod.fst).Pairwise (· ≤ ·) := List.pairwise_map.2 (sort_le l)
  exact (hl.and hn).imp (fun h => lt_of_le_of_ne h.1 h.2)

theorem wf_rcGet (p : Path) : ∀ (d : Dict V), Wf d → ∀ s, rcGet d p = .ok (.inr s) → Wf s := by
  induction p with
  | nil => intro d _ s h; cases h
  | cons k p ih =>
    intro d hw s h
    cases p with
    | nil =>
      simp only [rcGet] at h
      split at h
      · cases h
      · rename_i x hx
        injection h with h
        subst h
        exact wf_find d hw k s hx
    | cons a b =>
      simp only [rcGet] at h
      split at h
      · cases h
      · cases h
      · rename_i sub hx
        exact ih sub (wf_find d hw k sub hx) s h

/-! ## C179 -/

/-- C179 (history): two RCParamDicts that answer every key alike (same value, a group, or absent) print alike, whatever
histories of assignments, deletions and reads produced them, in whatever order. -/
theorem C179_history_independent (str : V → List Char) (ops ops' : List (RcOp V))
    (h : ∀ key, Spec.shown (rcRun ops) (splitDot key) = Spec.shown (rcRun ops') (splitDot key)) :
    reprRc str (rcRun ops) = reprRc str (rcRun ops') := by
  obtain ⟨w1, s1⟩ := inv_run ops
  obtain ⟨w2, s2⟩ := inv_run ops'
  unfold reprRc
  rw [repr_same str _ (rcRun ops) (rcRun ops') le_rfl w1 w2 s1 s2]
  intro p hp hd
  have := h (joinDot p)
  rwa [splitDot_joinDot p hp hd] at this

/-- C179 (text): the printed text is the lines of the whole dictionary at indentation 0 with one line break between
neighbouring lines. -/
theorem C179_text (str : V → List Char) (d : Dict V) :
    reprRc str d = ['\n'].intercalate (reprHelper str d 0) := by
  unfold reprRc
  generalize reprHelper str d 0 = ls
  induction ls with
  | nil => rfl
  | cons l r ih =>
    cases r with
    | nil => simp [joinLines]
    | cons a b =>
      rw [List.intercalate_cons_cons, ← ih]
      simp [joinLines]

/-- C179 (layout): the lines of a dictionary, or of a group in it, at indentation t are, first, one line `key: value` for
each of its plain values, keys ascending, then for each of its groups, keys ascending, a header line `key:` followed by
the lines of the group one level further in (four spaces per level).  No key is left out or repeated. -/
theorem C179_layout (str : V → List Char) (ops : List (RcOp V)) (t : ℕ) (d : Dict V)
    (hd : d = rcRun ops ∨ ∃ key, rcGet (rcRun ops) (splitDot key) = .ok (.inr d)) :
    ∃ (es : List (Seg × V)) (gs : List (Seg × Dict V)),
      (es.map Prod.fst).Pairwise (· < ·) ∧ (gs.map Prod.fst).Pairwise (· < ·) ∧
      (∀ k v, (k, v) ∈ es ↔ rcGet d [k] = .ok (.inl v)) ∧ (∀ k s, (k, s) ∈ gs ↔ rcGet d [k] = .ok (.inr s)) ∧
      reprHelper str d t = es.map (fun e => List.replicate (4 * t) ' ' ++ (e.1 ++ ": ".toList ++ str e.2)) ++
        gs.flatMap (fun g => (List.replicate (4 * t) ' ' ++ (g.1 ++ ":".toList)) :: reprHelper str g.2 (t + 1)) := by
  have hw : Wf d := by
    rcases hd with rfl | ⟨key, h⟩
    · exact (inv_run ops).1
    · exact wf_rcGet _ _ (inv_run ops).1 d h
  have hk := parts_keys str d hw t
  rw [parts_eq] at hk
  simp only [List.map_map] at hk
  have get1 : ∀ (k : Seg) (x : V ⊕ Dict V), rcGet d [k] = .ok x ↔ find d k = some x := by
    intro k x
    simp only [rcGet]
    cases find d k <;> simp
  refine ⟨sortKey (entries d), sortKey (groups d), sort_lt _ hk.1, sort_lt _ hk.2, ?_, ?_, ?_⟩
  · intro k v
    rw [(sort_perm _).mem_iff, mem_entries d hw, get1]
  · intro k s
    rw [(sort_perm _).mem_iff, mem_groups d hw, get1]
  · conv_lhs => unfold reprHelper
    rw [parts_eq]
    unfold render
    simp only []
    rw [sort_map (entries d) (fun e => (e.1, str e.2)) (fun _ => rfl),
      sort_map (groups d) (fun g => (g.1, reprHelper str g.2 (t + 1))) (fun _ => rfl), List.map_map, List.flatMap_map]
    rfl

/-- Non-vacuous: a dictionary with nested groups, and two histories that leave the same contents. -/
example : reprRc (fun n : ℕ => List.replicate n '|')
    (rcRun [.set "b.y".toList 2, .set "z".toList 3, .set "b.x.q".toList 1, .set "a".toList 4])
    = "a: ||||\nz: |||\nb:\n    y: ||\n    x:\n        q: |".toList := by decide +kernel
example : (rcRun [.set "b".toList 2, .set "a".toList 3]) ≠ rcRun [.set "a".toList 1, .set "b".toList 2, .set "a".toList 3] ∧
    reprRc (fun n : ℕ => List.replicate n '|') (rcRun [.set "b".toList 2, .set "a".toList 3])
    = reprRc (fun n : ℕ => List.replicate n '|') (rcRun [.set "a".toList 1, .set "b".toList 2, .set "a".toList 3]) := by
  decide +kernel

end Verif.Dicts
