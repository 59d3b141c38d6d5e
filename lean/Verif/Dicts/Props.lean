/- Properties C11-C17, C82: the dotted-key dictionaries. -/
import Verif.Dicts.Lemmas
import Mathlib.Data.List.Perm.Subperm
import Mathlib.Data.List.Nodup
import Mathlib.Tactic.SplitIfs

namespace Verif.Dicts
open Verif
variable {V : Type}

/-- What a history of operations should leave behind, in terms of plain maps only. -/
noncomputable def specStep (M : Spec.Map Seg V) : RcOp V → Spec.Map Seg V
  | .set key v => Spec.assign M (splitDot key) v
  | .del key => Spec.remove M (splitDot key)
  | .get _ => M

noncomputable def specRun (ops : List (RcOp V)) : Spec.Map Seg V := ops.foldl specStep (fun _ => none)

theorem specStep_eq (d : Dict V) (h : Wf d) (op : RcOp V) : leafAt (rcStep d op) = specStep (leafAt d) op := by
  funext q
  cases op with
  | set key v =>
    simp only [rcStep, specStep, Spec.assign]
    by_cases hb : blocked d (splitDot key) = true
    · rw [if_pos ((blocked_iff _ _).1 hb), rcSet_blocked d h _ v hb]
    · rw [if_neg (fun e => hb ((blocked_iff _ _).2 e)), leafAt_rcSet d _ (splitDot_ne_nil key) v (by simpa using hb)]
      split_ifs <;> rfl
  | del key =>
    simp only [rcStep, specStep, Spec.remove]
    rw [leafAt_rcDel d h _ (splitDot_ne_nil key)]
    split_ifs <;> rfl
  | get key => rfl

theorem specRun_eq (ops : List (RcOp V)) : leafAt (rcRun ops) = specRun ops := by
  have : ∀ (d : Dict V), Wf d ∧ SegOk d → leafAt (ops.foldl rcStep d) = ops.foldl specStep (leafAt d) := by
    induction ops with
    | nil => intro d _; rfl
    | cons o t ih =>
      intro d h
      rw [List.foldl_cons, List.foldl_cons, ih _ (inv_step d h o), specStep_eq d h.1]
  have h0 := this .nil ⟨trivial, trivial⟩
  unfold rcRun specRun
  rw [h0]; congr 1; funext q; exact leafAt_nil q

/-- C11: after any history of assignments, deletions and reads (successful or not), reading a key gives the plain
value `v` exactly when the abstract path map of that history holds `v` at that path. -/
theorem C11_refines_path_map (ops : List (RcOp V)) (key : List Char) (v : V) :
    rcGet (rcRun ops) (splitDot key) = .ok (.inl v) ↔ specRun ops (splitDot key) = some v := by
  rw [rcGet_leaf, specRun_eq]

/-- C11, read after write, and the frame: an accepted assignment is read back, and any key whose path does not extend
the assigned one reads exactly as before (value, or absence of a value). -/
theorem C11_read_after_write (ops : List (RcOp V)) (key : List Char) (v : V)
    (hok : (rcSet (rcRun ops) (splitDot key) v).2 = .ok ()) :
    rcGet (rcSet (rcRun ops) (splitDot key) v).1 (splitDot key) = .ok (.inl v) ∧
    ∀ key' w, ¬ splitDot key <+: splitDot key' →
      (rcGet (rcSet (rcRun ops) (splitDot key) v).1 (splitDot key') = .ok (.inl w) ↔
        rcGet (rcRun ops) (splitDot key') = .ok (.inl w)) := by
  rw [rcSet_out] at hok
  have hb : blocked (rcRun ops) (splitDot key) = false := by
    by_contra hc
    simp [hc] at hok
  refine ⟨?_, ?_⟩
  · rw [rcGet_leaf, leafAt_rcSet _ _ (splitDot_ne_nil key) v hb]; simp
  · intro key' w hn
    rw [rcGet_leaf, rcGet_leaf, leafAt_rcSet _ _ (splitDot_ne_nil key) v hb, if_neg, if_neg hn]
    intro e; exact hn (e ▸ List.prefix_rfl)

/-- C12: an assignment raises KeyError exactly when a proper prefix of its path holds a plain value, and a rejected
assignment leaves the whole dictionary (branches and order included) as it was. -/
theorem C12_rejected_assignment (ops : List (RcOp V)) (key : List Char) (v : V) :
    ((rcSet (rcRun ops) (splitDot key) v).2 = .error .keyError ↔
      ∃ q u, q ≠ [] ∧ q <+: splitDot key ∧ q ≠ splitDot key ∧ rcGet (rcRun ops) q = .ok (.inl u)) ∧
    ((rcSet (rcRun ops) (splitDot key) v).2 ≠ .ok () → (rcSet (rcRun ops) (splitDot key) v).1 = rcRun ops) := by
  rw [rcSet_out]
  constructor
  · constructor
    · intro h
      have hb : blocked (rcRun ops) (splitDot key) = true := by
        by_contra hc; simp [hc] at h
      obtain ⟨q, h1, h2, h3, h4⟩ := (blocked_iff _ _).1 hb
      obtain ⟨u, hu⟩ := Option.isSome_iff_exists.1 h4
      exact ⟨q, u, h1, h2, h3, (rcGet_leaf _ _ _).2 hu⟩
    · rintro ⟨q, u, h1, h2, h3, h4⟩
      rw [if_pos ((blocked_iff _ _).2 ⟨q, h1, h2, h3, by rw [(rcGet_leaf _ _ _).1 h4]; rfl⟩)]
  · intro h
    have hb : blocked (rcRun ops) (splitDot key) = true := by
      by_contra hc; simp [hc] at h
    exact rcSet_blocked _ (inv_run ops).1 _ v hb

/-- C12, deletions: a deletion that raises leaves the dictionary as it was; one that succeeds removes the key. -/
theorem C12_rejected_deletion (ops : List (RcOp V)) (key : List Char) :
    ((rcDel (rcRun ops) (splitDot key)).2 ≠ .ok () → (rcDel (rcRun ops) (splitDot key)).1 = rcRun ops) ∧
    ((rcDel (rcRun ops) (splitDot key)).2 = .ok () ↔ ∃ x, rcGet (rcRun ops) (splitDot key) = .ok x) := by
  have hw := (inv_run ops).1
  generalize rcRun ops = d at hw
  generalize splitDot key = p
  induction p generalizing d with
  | nil => simp [rcDel, rcGet]
  | cons k p ih =>
    obtain ⟨o, ho⟩ : ∃ o, find d k = o := ⟨_, rfl⟩
    cases p with
    | nil => rcases o with _ | (x | x) <;> simp [rcDel, rcGet, ho]
    | cons a b =>
      rcases o with _ | (x | x)
      · simp [rcDel, rcGet, ho]
      · simp [rcDel, rcGet, ho]
      · have := ih x (wf_find d hw k x ho)
        simp only [rcDel, rcGet, ho]
        refine ⟨fun h => ?_, this.2⟩
        rw [this.1 h]; exact put_self_node d hw k x ho

/-- C13: iterating lists every key that reads as a plain value, each exactly once, and nothing else; `len` is their
number (it equals the length of any duplicate-free list of exactly those keys). -/
theorem C13_iteration_lists_leaves (ops : List (RcOp V)) :
    (iterKeys (rcRun ops)).Nodup ∧
    (∀ key, key ∈ iterKeys (rcRun ops) ↔ ∃ v, rcGet (rcRun ops) (splitDot key) = .ok (.inl v)) ∧
    (∀ L : List (List Char), L.Nodup → (∀ key, key ∈ L ↔ ∃ v, rcGet (rcRun ops) (splitDot key) = .ok (.inl v)) →
      len (rcRun ops) = L.length) := by
  obtain ⟨hw, hs⟩ := inv_run ops
  have hnd : (iterKeys (rcRun ops)).Nodup := by
    unfold iterKeys
    apply List.Nodup.map_on _ (leaves_nodup _ hw)
    intro a ha b hb e
    have h1 := splitDot_joinDot a (fun e => nil_not_mem_leaves _ (e ▸ ha)) (noDot_leaves _ hs a ha)
    have h2 := splitDot_joinDot b (fun e => nil_not_mem_leaves _ (e ▸ hb)) (noDot_leaves _ hs b hb)
    rw [← h1, ← h2, e]
  have hmem : ∀ key, key ∈ iterKeys (rcRun ops) ↔ ∃ v, rcGet (rcRun ops) (splitDot key) = .ok (.inl v) := by
    intro key
    have : (∃ v, rcGet (rcRun ops) (splitDot key) = .ok (.inl v)) ↔ splitDot key ∈ leaves (rcRun ops) := by
      rw [mem_leaves _ hw, Option.isSome_iff_exists]
      simp only [rcGet_leaf]
    rw [this]
    unfold iterKeys
    rw [List.mem_map]
    constructor
    · rintro ⟨a, ha, rfl⟩
      rw [splitDot_joinDot a (fun e => nil_not_mem_leaves _ (e ▸ ha)) (noDot_leaves _ hs a ha)]; exact ha
    · intro h; exact ⟨_, h, joinDot_splitDot key⟩
  refine ⟨hnd, hmem, ?_⟩
  intro L hL hm
  apply List.Perm.length_eq
  rw [List.perm_ext_iff_of_nodup hnd hL]
  intro a; rw [hmem, hm]

/-- Non-vacuity for C11-C13: a history with nesting, overwriting, a rejected assignment and a deletion. -/
def demoOps : List (RcOp ℕ) :=
  [.set "a.b".toList 1, .set "a.c.d".toList 2, .set "x".toList 3, .set "x.y".toList 4, .set "a.c".toList 5,
   .del "a.b".toList, .del "nope".toList]

example : iterKeys (rcRun demoOps) = ["a.c".toList, "x".toList] := by decide +kernel
example : rcGet (rcRun demoOps) (splitDot "a.c".toList) = .ok (.inl 5) := by decide +kernel
example : (rcSet (rcRun demoOps) (splitDot "x.z".toList) 7).2 = .error .keyError := by decide +kernel
example : (rcSet (rcRun demoOps) (splitDot "a.z".toList) 7).2 = .ok () := by decide +kernel
example : len (rcRun demoOps) = 2 := by decide +kernel

/-- C13, beyond the statement: membership is not iteration for RCParamDict either (a branch is "in" but not listed),
and asking for membership below a plain value raises TypeError instead of answering. -/
theorem C13_membership_differs :
    rcContains (rcRun [RcOp.set "a.b".toList 1]) (splitDot "a".toList) = .ok true ∧
    "a".toList ∉ iterKeys (rcRun [RcOp.set "a.b".toList 1]) ∧
    rcContains (rcRun [RcOp.set "a".toList 1]) (splitDot "a.b".toList) = .error .typeError := by
  decide +kernel

/-! ### MD_dict -/

/-- Histories of MD_dict. -/
inductive MdOp where
  | set (key : List Char) (x : In) | get (key : List Char) | del (key : List Char)

def mdStep (d : Dict Md) : MdOp → Dict Md
  | .set key x => (mdSet d (splitDot key) x).1
  | .get key => (mdGet d (splitDot key)).1
  | .del key => (mdDel d (splitDot key)).1

def mdRun (ops : List MdOp) : Dict Md := ops.foldl mdStep .nil

theorem wf_mdStep (d : Dict Md) (h : Wf d) (op : MdOp) : Wf (mdStep d op) := by
  cases op with
  | set key x =>
    simp only [mdStep, mdSet]
    cases (splitDot key).getLast? with
    | none => exact h
    | some k =>
      cases normalise x with
      | ok m => exact wf_mdWalk _ (fun t ht => wf_put t ht k _ (by simp)) d h _
      | error e => exact wf_mdWalk _ (fun t ht => ht) d h _
  | get key =>
    simp only [mdStep, mdGet]
    cases (splitDot key).getLast? with
    | none => exact h
    | some k => exact wf_mdWalk _ (fun t ht => ht) d h _
  | del key => exact wf_mdDel d h _

theorem wf_mdRun (ops : List MdOp) : Wf (mdRun ops) := by
  have : ∀ d, Wf d → Wf (ops.foldl mdStep d) := by
    induction ops with
    | nil => exact fun d h => h
    | cons o t ih => exact fun d h => ih _ (wf_mdStep d h o)
  exact this .nil trivial

theorem getLast_split (key : List Char) : ∃ p k, splitDot key = p ++ [k] := by
  refine ⟨(splitDot key).dropLast, (splitDot key).getLast (splitDot_ne_nil key), ?_⟩
  exact (List.dropLast_append_getLast (splitDot_ne_nil key)).symm

theorem mdGet_eq (d : Dict Md) (p : Path) (k : Seg) : mdGet d (p ++ [k]) = (mdWalk id d p, find (mdReach d p) k) := by
  simp [mdGet]

theorem mdSet_eq (d : Dict Md) (p : Path) (k : Seg) (x : In) : mdSet d (p ++ [k]) x =
    match normalise x with
    | .ok m => (mdWalk (fun t => put t k (.inl m)) d p, .ok ())
    | .error e => (mdWalk id d p, .error e) := by
  cases h : normalise x <;> simp [mdSet, h]

theorem mdGet_leaf (d : Dict Md) (key : List Char) (v : Md) :
    (mdGet d (splitDot key)).2 = some (.inl v) ↔ leafAt d (splitDot key) = some v := by
  obtain ⟨p, k, e⟩ := getLast_split key
  rw [e, mdGet_eq]; exact find_mdReach d p k v

/-- C14 is false: reading below a leaf destroys the leaf.  For *every* history, if `key` holds a value, then merely
reading `key.sub` (any sub-key) makes the value of `key` disappear. -/
theorem C14_read_destroys_leaf (ops : List MdOp) (key sub : List Char) (v : Md)
    (_h : (mdGet (mdRun ops) (splitDot key)).2 = some (.inl v)) (hs : '.' ∉ sub) :
    ∀ w, (mdGet (mdGet (mdRun ops) (splitDot (key ++ '.' :: sub))).1 (splitDot key)).2 ≠ some (.inl w) := by
  intro w
  rw [Ne, mdGet_leaf]
  have e : splitDot (key ++ '.' :: sub) = splitDot key ++ [sub] := by
    have h1 : splitDot (joinDot (splitDot key ++ [sub])) = splitDot key ++ [sub] := by
      apply splitDot_joinDot _ (by simp)
      intro s hs'
      rcases List.mem_append.1 hs' with h | h
      · exact splitDot_noDot key s h
      · simp at h; subst h; exact hs
    have h2 : ∀ p : Path, p ≠ [] → joinDot (p ++ [sub]) = joinDot p ++ '.' :: sub := by
      intro p hp
      induction p with
      | nil => exact absurd rfl hp
      | cons a b ih =>
        cases b with
        | nil => rfl
        | cons c dd => simp only [List.cons_append, joinDot] at ih ⊢; rw [ih (by simp)]; simp
    rw [h2 _ (splitDot_ne_nil key), joinDot_splitDot] at h1
    exact h1
  rw [e, mdGet_eq, leafAt_mdWalk_id, if_pos List.prefix_rfl]
  simp

/-- A concrete instance of the hypotheses of `C14_read_destroys_leaf`. -/
example : (mdGet (mdRun [.set "a".toList (.val (.atom (.obj 3)))]) (splitDot "a".toList)).2 =
    some (.inl ⟨.atom (.obj 3), .pyNone⟩) := by decide +kernel

/-- C14, the part that holds: when no proper prefix of the key holds a value, reading the key changes no stored value
and leaves the iteration (keys and order) as it was. -/
theorem C14_read_keeps_leaves_partial (ops : List MdOp) (key : List Char)
    (h : ∀ q v, q <+: splitDot key → q ≠ splitDot key → leafAt (mdRun ops) q ≠ some v) :
    iterKeys (mdGet (mdRun ops) (splitDot key)).1 = iterKeys (mdRun ops) ∧
    ∀ key' v, (mdGet (mdGet (mdRun ops) (splitDot key)).1 (splitDot key')).2 = some (.inl v) ↔
      (mdGet (mdRun ops) (splitDot key')).2 = some (.inl v) := by
  obtain ⟨p, k, e⟩ := getLast_split key
  rw [e] at h ⊢
  have hp : ∀ q, q <+: p → leafAt (mdRun ops) q = none := by
    intro q hq
    have h1 := h q
    cases hx : leafAt (mdRun ops) q with
    | none => rfl
    | some v =>
      exact absurd hx (h1 v (hq.trans (List.prefix_append p [k])) (by
        intro e'; have := hq.length_le; rw [e'] at this; simp at this))
  constructor
  · unfold iterKeys; rw [mdGet_eq, leaves_mdWalk_id _ _ hp]
  · intro key' v
    rw [mdGet_leaf, mdGet_leaf, mdGet_eq, leafAt_mdWalk_id]
    split
    · next hpre => rw [hp _ hpre]
    · rfl

example : ∀ q v, q <+: splitDot "b.c".toList → q ≠ splitDot "b.c".toList →
    leafAt (mdRun [.set "a".toList (.val (.atom (.obj 3)))]) q ≠ some v := by
  intro q v hq hne
  have : q = [] ∨ q = ["b".toList] ∨ q = ["b".toList, "c".toList] := by
    have e : splitDot "b.c".toList = ["b".toList, "c".toList] := by decide +kernel
    rw [e] at hq
    match q, hq with
    | [], _ => simp
    | [a], hq => rw [List.cons_prefix_cons] at hq; simp [hq.1]
    | [a, b], hq => rw [List.cons_prefix_cons, List.cons_prefix_cons] at hq; simp [hq.1, hq.2.1]
    | a :: b :: c :: r, hq => have := hq.length_le; simp at this
  rcases this with rfl | rfl | rfl
  · simp [leafAt]
  · have : leafAt (mdRun [.set "a".toList (.val (.atom (.obj 3)))]) ["b".toList] = none := by decide +kernel
    rw [this]; simp
  · exact absurd (by decide +kernel) hne

/-- C15: an assignment that does not raise is read back in normalised form, and any key not comparable with it keeps
its value or absence. -/
theorem C15_set_then_get_partial (ops : List MdOp) (key : List Char) (x : In) (m : Md) (hx : normalise x = .ok m) :
    (mdSet (mdRun ops) (splitDot key) x).2 = .ok () ∧
    (mdGet (mdSet (mdRun ops) (splitDot key) x).1 (splitDot key)).2 = some (.inl m) ∧
    ∀ key' v, ¬ Spec.Comparable (splitDot key) (splitDot key') →
      ((mdGet (mdSet (mdRun ops) (splitDot key) x).1 (splitDot key')).2 = some (.inl v) ↔
        (mdGet (mdRun ops) (splitDot key')).2 = some (.inl v)) := by
  obtain ⟨p, k, e⟩ := getLast_split key
  refine ⟨?_, ?_, ?_⟩
  · rw [e, mdSet_eq, hx]
  · rw [mdGet_leaf, e, mdSet_eq, hx, leafAt_mdWalk_put]; simp
  · intro key' v hc
    rw [mdGet_leaf, mdGet_leaf, e, mdSet_eq, hx, leafAt_mdWalk_put]
    rw [e, Spec.Comparable] at hc
    rw [if_neg (fun (e' : splitDot key' = p ++ [k]) => hc (Or.inl (e' ▸ List.prefix_rfl))), if_neg hc]

example : normalise (.val (.seq [.obj 5, .text "m"])) = .ok ⟨.atom (.obj 5), .text "m"⟩ := rfl

/-- C15, the KeyError clause is false: no assignment ever raises because of a leaf used as a branch; instead the leaf
is silently discarded. -/
theorem C15_leaf_as_branch_discards (ops : List MdOp) (key : List Char) (x : In) (m : Md) (hx : normalise x = .ok m)
    (q : List Char) (v : Md) (_hq : (mdGet (mdRun ops) (splitDot q)).2 = some (.inl v))
    (hpre : splitDot q <+: splitDot key) (hne : splitDot q ≠ splitDot key) :
    (mdSet (mdRun ops) (splitDot key) x).2 = .ok () ∧
    ∀ w, (mdGet (mdSet (mdRun ops) (splitDot key) x).1 (splitDot q)).2 ≠ some (.inl w) := by
  obtain ⟨p, k, e⟩ := getLast_split key
  refine ⟨by rw [e, mdSet_eq, hx], ?_⟩
  intro w
  rw [Ne, mdGet_leaf, e, mdSet_eq, hx, leafAt_mdWalk_put]
  rw [e] at hpre hne
  rw [if_neg hne, if_pos (Or.inr hpre)]; simp

example : (mdGet (mdRun [.set "a".toList (.val (.atom (.obj 3)))]) (splitDot "a".toList)).2 =
      some (.inl ⟨.atom (.obj 3), .pyNone⟩) ∧
    splitDot "a".toList <+: splitDot "a.b".toList ∧ splitDot "a".toList ≠ splitDot "a.b".toList := by
  decide +kernel

/-- Specification of C16 (a string gets units 'text'; a pair with string-or-None second element is split; any other
non-indexable or longer value is stored whole without units). -/
inductive Normalises : Val → Md → Prop
  | text (s : String) : Normalises (.atom (.text s)) ⟨.atom (.text s), .text "text"⟩
  | pair (a u : Item) (hu : ∀ n, u ≠ .obj n) : Normalises (.seq [a, u]) ⟨.atom a, u⟩
  | atom (a : Item) (ha : ∀ s, a ≠ .text s) : Normalises (.atom a) ⟨.atom a, .pyNone⟩
  | pairOther (a : Item) (n : ℤ) : Normalises (.seq [a, .obj n]) ⟨.seq [a, .obj n], .pyNone⟩
  | long (l : List Item) (hl : 3 ≤ l.length) : Normalises (.seq l) ⟨.seq l, .pyNone⟩

/-- C16: normalisation follows the rule, for every value; the only values it raises on are sequences of fewer than
two elements and mappings. -/
theorem C16_normalises (v : Val) (m : Md) :
    (normalise (.val v) = .ok m ↔ Normalises v m) ∧
    ((∃ e, normalise (.val v) = .error e) ↔ v = .mapping ∨ ∃ l, v = .seq l ∧ l.length < 2) := by
  constructor
  · constructor
    · intro h
      match v, h with
      | .atom (.text s), h => simp [normalise] at h; subst h; exact .text s
      | .atom .pyNone, h => simp [normalise] at h; subst h; exact .atom _ (by simp)
      | .atom (.obj n), h => simp [normalise] at h; subst h; exact .atom _ (by simp)
      | .seq [a, .text u], h => simp [normalise] at h; subst h; exact .pair a _ (by simp)
      | .seq [a, .pyNone], h => simp [normalise] at h; subst h; exact .pair a _ (by simp)
      | .seq [a, .obj n], h => simp [normalise] at h; subst h; exact .pairOther a n
      | .seq (a :: b :: c :: r), h => simp [normalise] at h; subst h; exact .long _ (by simp)
    · intro h
      cases h with
      | text s => rfl
      | pair a u hu => cases u with
        | text s => rfl
        | pyNone => rfl
        | obj n => exact absurd rfl (hu n)
      | atom a ha => cases a with
        | text s => exact absurd rfl (ha s)
        | pyNone => rfl
        | obj n => rfl
      | pairOther a n => rfl
      | long l hl =>
        match l, hl with
        | a :: b :: c :: r, _ => simp [normalise]
  · constructor
    · rintro ⟨e, h⟩
      match v, h with
      | .mapping, _ => exact Or.inl rfl
      | .atom (.text s), h => simp [normalise] at h
      | .atom .pyNone, h => simp [normalise] at h
      | .atom (.obj n), h => simp [normalise] at h
      | .seq [], _ => exact Or.inr ⟨[], rfl, by simp⟩
      | .seq [a], _ => exact Or.inr ⟨[a], rfl, by simp⟩
      | .seq [a, .text u], h => simp [normalise] at h
      | .seq [a, .pyNone], h => simp [normalise] at h
      | .seq [a, .obj n], h => simp [normalise] at h
      | .seq (a :: b :: c :: r), h => simp [normalise] at h
    · rintro (rfl | ⟨l, rfl, hl⟩)
      · exact ⟨_, rfl⟩
      · match l, hl with
        | [], _ => exact ⟨_, rfl⟩
        | [a], _ => exact ⟨_, rfl⟩

/-- C16, end to end: what `md[key] = v` stores for a value the rule covers is what `md[key]` returns. -/
theorem C16_stored (ops : List MdOp) (key : List Char) (v : Val) (m : Md) (h : Normalises v m) :
    (mdGet (mdSet (mdRun ops) (splitDot key) (.val v)).1 (splitDot key)).2 = some (.inl m) :=
  (C15_set_then_get_partial ops key (.val v) m ((C16_normalises v m).1.2 h)).2.1

/-- C17 is false: `key in md` answers True for every key of every MD_dict, while only the leaves are iterated. -/
theorem C17_membership_always_true (ops : List MdOp) (key : List Char) :
    (mdContains (mdRun ops) (splitDot key)).2 = true := by
  unfold mdContains mdGetPy; rfl

/-- C17, the disagreement: every MD_dict has a key that is reported present but is not iterated. -/
theorem C17_membership_disagrees (ops : List MdOp) :
    ∃ key, (mdContains (mdRun ops) (splitDot key)).2 = true ∧ key ∉ iterKeys (mdRun ops) := by
  by_contra h
  push Not at h
  have hsub : ∀ n : ℕ, List.replicate n 'a' ∈ iterKeys (mdRun ops) := fun n => h _ (C17_membership_always_true ops _)
  have hnd : ((List.range ((iterKeys (mdRun ops)).length + 1)).map (fun n => List.replicate n 'a')).Nodup := by
    apply List.Nodup.map_on _ List.nodup_range
    intro a _ b _ e
    have := congrArg List.length e
    simpa using this
  have hs : ((List.range ((iterKeys (mdRun ops)).length + 1)).map (fun n => List.replicate n 'a')) ⊆
      iterKeys (mdRun ops) := by
    intro x hx
    obtain ⟨n, _, rfl⟩ := List.mem_map.1 hx
    exact hsub n
  have := (List.subperm_of_subset hnd hs).length_le
  simp at this

/-- C17, the direction that holds: every iterated key is reported present. -/
theorem C17_iterated_are_members_partial (ops : List MdOp) (key : List Char) (_h : key ∈ iterKeys (mdRun ops)) :
    (mdContains (mdRun ops) (splitDot key)).2 = true := C17_membership_always_true ops key

/-- C82 is false: `setdefault` never stores its default, whatever the history, key and default: it behaves as a
read. -/
theorem C82_setdefault_never_stores (ops : List MdOp) (key : List Char) (dflt : In)
    (h : ∀ v, (mdGet (mdRun ops) (splitDot key)).2 ≠ some (.inl v)) :
    ∀ v, (mdGet (mdSetdefault (mdRun ops) (splitDot key) dflt) (splitDot key)).2 ≠ some (.inl v) := by
  intro v hv
  simp only [mdSetdefault, mdGetPy] at hv
  rw [mdGet_leaf] at hv
  obtain ⟨p, k, e⟩ := getLast_split key
  rw [e, mdGet_eq, leafAt_mdWalk_id] at hv
  split at hv
  · simp at hv
  · rw [← e] at hv; exact h v ((mdGet_leaf _ _ _).2 hv)

example : ∀ v, (mdGet (mdRun []) (splitDot "a".toList)).2 ≠ some (.inl v) := by
  intro v; rw [Ne, mdGet_leaf]; simp [mdRun, leafAt_nil]

/-- C82 is false for `pop` too: with a default, popping a key that holds nothing raises KeyError. -/
theorem C82_pop_ignores_default (dflt : Md) :
    (mdPop (mdRun []) (splitDot "a".toList) dflt).2 = .error .keyError := by rfl

/-- C82, the part that holds: popping a key that holds a value returns and removes it. -/
theorem C82_pop_present_partial (ops : List MdOp) (key : List Char) (v : Md) (dflt : Md)
    (h : (mdGet (mdRun ops) (splitDot key)).2 = some (.inl v)) (hp : ∀ q u, q <+: splitDot key → q ≠ splitDot key →
      leafAt (mdRun ops) q ≠ some u) :
    (mdPop (mdRun ops) (splitDot key) dflt).2 = .ok (some (.inl v)) ∧
    ∀ w, (mdGet (mdPop (mdRun ops) (splitDot key) dflt).1 (splitDot key)).2 ≠ some (.inl w) := by
  have hleaf : leafAt (mdGet (mdRun ops) (splitDot key)).1 (splitDot key) = some v :=
    (mdGet_leaf _ _ _).1 (((C14_read_keeps_leaves_partial ops key hp).2 key v).2 h)
  have hw : Wf (mdGet (mdRun ops) (splitDot key)).1 := wf_mdStep _ (wf_mdRun ops) (.get key)
  have hdel : (rcDel (mdGet (mdRun ops) (splitDot key)).1 (splitDot key)).2 = .ok () := by
    generalize (mdGet (mdRun ops) (splitDot key)).1 = d at hleaf
    generalize splitDot key = p at hleaf
    clear hw h hp
    induction p generalizing d with
    | nil => simp [leafAt] at hleaf
    | cons k p ih =>
      obtain ⟨o, ho⟩ : ∃ o, find d k = o := ⟨_, rfl⟩
      cases p with
      | nil => rcases o with _ | (x | x) <;> simp [rcDel, ho, leafAt] at hleaf ⊢
      | cons a b =>
        rcases o with _ | (x | x) <;> simp only [rcDel, ho, leafAt] at hleaf ⊢
        · simp at hleaf
        · simp at hleaf
        · exact ih x hleaf
  constructor
  · simp only [mdPop, mdGetPy, mdDel_eq, hdel, h]; rfl
  · intro w
    rw [Ne, mdGet_leaf]
    simp only [mdPop, mdGetPy, mdDel_eq]
    rw [leafAt_rcDel _ hw _ (splitDot_ne_nil key)]
    simp

end Verif.Dicts
